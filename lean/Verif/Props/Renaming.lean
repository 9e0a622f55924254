import Verif.Props.EstimatorLaws
import Verif.Props.Slate
import Verif.Props.SlateChecks
import Verif.Lemmas.Meta
import Verif.Spec.Renaming

/-!
# C201: names of actions, positions and slates, and the zero of rewards, do not matter
-/

set_option linter.unusedSectionVars false

namespace Obp
open Log
variable {K : Type} [Field K] [LinearOrder K] [IsStrictOrderedRing K] {n A L A' L' N : ℕ}

theorem renamed_sum {g : Log K n A L} {g' : Log K n A' L'} {σ : Fin A → Fin A'} {τ : Fin L → Fin L'} (hr : g.Renamed g' σ τ) (i : Fin n)
    (l : Fin L) (f : Fin A → K) (f' : Fin A' → K) (hf : ∀ a, f' (σ a) = f a) :
    ∑ b, f' b * g'.piE i b (τ l) = ∑ a, f a * g.piE i a l := by
  classical
  have h1 : ∑ b ∈ Finset.univ.image σ, f' b * g'.piE i b (τ l) = ∑ b, f' b * g'.piE i b (τ l) := by
    refine Finset.sum_subset (Finset.subset_univ _) fun b _ hb => ?_
    rw [hr.unused i b l fun a ha => hb (Finset.mem_image.2 ⟨a, Finset.mem_univ a, ha⟩), mul_zero]
  rw [← h1, Finset.sum_image fun a _ b _ h => hr.inj h]
  exact Finset.sum_congr rfl fun a _ => by rw [hf, hr.piE]

theorem roundReward_renamed {g : Log K n A L} {g' : Log K n A' L'} {σ : Fin A → Fin A'} {τ : Fin L → Fin L'} (hr : g.Renamed g' σ τ)
    (e : Estimator K) : roundReward e g' = roundReward e g := by
  have hw : ∀ est, g'.weight est = g.weight est := fun est => funext fun i => by
    simp only [weight, hr.action, hr.position, hr.piE, hr.pscore, hr.estPscore]
  have hm : g'.modelValue = g.modelValue := funext fun i => by
    simp only [modelValue, hr.position]
    rw [renamed_sum hr i (g.position i) (fun a => g.q i a (g.position i)) (fun b => g'.q i b (τ (g.position i))) fun a => hr.q i a _]
    have := renamed_sum hr i (g.position i) (fun _ => 1) (fun _ => 1) fun _ => rfl
    simp only [one_mul] at this
    rw [this]
  have hs : g'.residual = g.residual := funext fun i => by
    simp only [Log.residual, hr.action, hr.position, hr.q, hr.reward]
  have ht : g'.matched = g.matched := funext fun i => by
    simp only [matched, hr.action, hr.position, hr.piE]
  simp only [roundReward, hw, hm, hs, ht, hr.reward, hr.estIw]

/-- **C201 (names).** If a log is written with other names (numbers) of actions and positions, possibly with further actions that the
evaluation policy never takes, every one of the eleven estimators returns the same estimate, or fails alike. -/
theorem C201_renamed {g : Log K n A L} {g' : Log K n A' L'} (h : g.Valid) (h' : g'.Valid) {σ : Fin A → Fin A'} {τ : Fin L → Fin L'}
    (hr : g.Renamed g' σ τ) (e : Estimator K) : e.estimatePolicyValue g'.args = e.estimatePolicyValue g.args := by
  rw [value_roundReward h, value_roundReward h', roundReward_renamed hr]

/-- **C201 (permuted names).** Renumbering the actions and the positions in any way changes nothing. -/
theorem C201_permuted {g : Log K n A L} (h : g.Valid) (σ : Equiv.Perm (Fin A)) (τ : Equiv.Perm (Fin L)) (e : Estimator K) :
    e.estimatePolicyValue (g.rename σ τ).args = e.estimatePolicyValue g.args := by
  refine C201_renamed (g' := g.rename σ τ) h ⟨h.nonempty, h.pscore_pos, h.estPscore_pos, h.estIw_nonneg, fun i l => ?_⟩
    (σ := σ) (τ := τ) ⟨σ.injective, fun _ => rfl, fun _ => rfl, rfl, rfl, rfl, rfl, fun i a l => ?_, fun i a l => ?_, fun i b l hb => ?_⟩ e
  · have : ∑ a, (g.rename σ τ).piE i a l = ∑ a, g.piE i a (τ.symm l) := Equiv.sum_comp σ.symm fun a => g.piE i a (τ.symm l)
    rw [this]
    exact h.sum_one i _
  · simp [Log.rename]
  · simp [Log.rename]
  · exact absurd (σ.apply_symm_apply b) (hb _)

/-! ### another zero of rewards -/

theorem shift_valid {g : Log K n A L} (h : g.Valid) (d : K) : (g.shift d).Valid :=
  ⟨h.nonempty, h.pscore_pos, h.estPscore_pos, h.estIw_nonneg, h.sum_one⟩

theorem shift_model {g : Log K n A L} (h : g.Valid) (d : K) (i : Fin n) : (g.shift d).modelValue i = g.modelValue i + d := by
  have hs : ∑ a, g.piE i a (g.position i) ≠ 0 := (closeToOne_ne_zero (h.sum_one i _)).ne'
  simp only [modelValue, Log.shift, add_mul, Finset.sum_add_distrib, ← Finset.mul_sum]
  rw [add_div, mul_div_cancel_right₀ _ hs]

theorem shift_residual {g : Log K n A L} (d : K) : (g.shift d).residual = g.residual :=
  funext fun i => by simp only [Log.residual, Log.shift]; ring

theorem avg_add_const (h : 0 < n) (f : Fin n → K) (d : K) : (avg fun i => f i + d) = avg f + d := by
  rw [show (avg fun i => f i + d) = avg f + avg fun _ : Fin n => d by simp only [avg, Finset.sum_add_distrib, add_div], avg_const h]

theorem avg_normalised {w x : Fin n → K} (hw : avg w ≠ 0) (d : K) :
    (avg fun i => (x i + d) * w i / avg w) = (avg fun i => x i * w i / avg w) + d := by
  have h1 : (avg fun i => (x i + d) * w i / avg w) = (avg fun i => x i * w i / avg w) + d / avg w * avg w := by
    rw [← avg_mul_left]
    simp only [avg, ← add_div, ← Finset.sum_add_distrib]
    congr 1
    exact Finset.sum_congr rfl fun i _ => by ring
  rw [h1, div_mul_cancel₀ _ hw]

/-- **C201 (zero of rewards).** Adding `d` to all rewards and predictions adds exactly `d` to the estimates of DM, DR, SNDR, Switch-DR, DRos,
SG-DR, SNIPW and balanced OPE, whatever the hyper-parameter. -/
theorem C201_shift {g : Log K n A L} (h : g.Valid) {e : Estimator K}
    (hk : e.kind ∈ [Kind.dm, .dr, .sndr, .switchDr, .drOs, .sgDr, .snipw, .bIpw]) (d : K) {v : K}
    (hv : e.estimatePolicyValue g.args = .ok v) : e.estimatePolicyValue (g.shift d).args = .ok (v + d) := by
  have hm := shift_model h d
  have hw : ∀ est, (g.shift d).weight est = g.weight est := fun _ => rfl
  have hiw : (g.shift d).estIw = g.estIw := rfl
  have hre : ∀ i, (g.shift d).reward i = g.reward i + d := fun _ => rfl
  have key : ∀ {f f' : Fin n → K}, roundReward e g = some f → roundReward e (g.shift d) = some f' → avg f' = avg f + d →
      e.estimatePolicyValue (g.shift d).args = .ok (v + d) := by
    intro f f' hf hf' ha
    rw [value_roundReward h, hf] at hv
    rw [value_roundReward (shift_valid h d), hf']
    exact congrArg Except.ok (by rw [ha, Except.ok.inj hv])
  have add : ∀ {f f' : Fin n → K}, roundReward e g = some f → roundReward e (g.shift d) = some f' → (∀ i, f' i = f i + d) →
      e.estimatePolicyValue (g.shift d).args = .ok (v + d) := fun hf hf' ha =>
    key hf hf' (by rw [funext ha]; exact avg_add_const h.nonempty _ d)
  have bad : roundReward e g ≠ none := fun hn => by
    rw [value_roundReward h, hn] at hv
    cases hv
  obtain ⟨k, lam, est⟩ := e
  simp only [List.mem_cons, List.not_mem_nil, or_false] at hk
  rcases hk with rfl | rfl | rfl | rfl | rfl | rfl | rfl | rfl
  · exact add rfl rfl hm
  · exact add rfl rfl fun i => by simp only [hm, hw, shift_residual]; ring
  · simp only [roundReward] at bad
    have h0 : avg (g.weight est) ≠ 0 := fun h0 => bad (by rw [if_pos h0])
    exact add (by simp only [roundReward]; rw [if_neg h0]) (by simp only [roundReward, hw, shift_residual]; rw [if_neg h0])
      fun i => by rw [hm]; ring
  · exact add rfl rfl fun i => by simp only [hm, hw, shift_residual]; ring
  · cases lam with
    | inf => exact add rfl rfl fun i => by simp only [hm, hw, shift_residual]; ring
    | fin l =>
      simp only [roundReward] at bad
      have h0 : ¬ ∃ i, g.weight est i ^ 2 + l = 0 := fun h0 => bad (by rw [if_pos h0])
      exact add (by simp only [roundReward]; rw [if_neg h0]) (by simp only [roundReward, hw, shift_residual]; rw [if_neg h0])
        fun i => by rw [hm]; ring
  · cases lam with
    | inf => exact absurd rfl bad
    | fin l =>
      simp only [roundReward] at bad
      have h0 : ¬ ∃ i, 1 - l + l * g.weight est i = 0 := fun h0 => bad (by rw [if_pos h0])
      exact add (by simp only [roundReward]; rw [if_neg h0]) (by simp only [roundReward, hw, shift_residual]; rw [if_neg h0])
        fun i => by rw [hm]; ring
  · simp only [roundReward] at bad
    have h0 : avg (g.weight est) ≠ 0 := fun h0 => bad (by rw [if_pos h0])
    exact key (by simp only [roundReward]; rw [if_neg h0]) (by simp only [roundReward, hw, hre]; rw [if_neg h0]) (avg_normalised h0 d)
  · simp only [roundReward] at bad
    have h0 : avg (fun i => lam.clip (g.estIw i)) ≠ 0 := fun h0 => bad (by rw [if_pos h0])
    exact key (by simp only [roundReward]; rw [if_neg h0]) (by simp only [roundReward, hiw, hre]; rw [if_neg h0]) (avg_normalised h0 d)

/-- **C201 (zero of rewards, RM).** The replay method follows the shift whenever the evaluation policy agrees with some logged action; without
any match its estimate is 0 whatever the rewards. -/
theorem C201_shift_rm {g : Log K n A L} (h : g.Valid) {e : Estimator K} (hk : e.kind = .rm) (d : K) {v : K}
    (hv : e.estimatePolicyValue g.args = .ok v) :
    e.estimatePolicyValue (g.shift d).args =
      .ok (if ∃ i, g.piE i (g.action i) (g.position i) = 1 then v + d else 0) := by
  obtain ⟨k, lam, est⟩ := e
  cases hk
  have hmt : (g.shift d).matched = g.matched := rfl
  have hre : ∀ i, (g.shift d).reward i = g.reward i + d := fun _ => rfl
  rw [value_roundReward h] at hv
  rw [value_roundReward (shift_valid h d)]
  simp only [roundReward, hmt, hre] at hv ⊢
  by_cases hx : ∃ i, g.matched i
  · have hx' : ∃ i, g.piE i (g.action i) (g.position i) = 1 := hx
    have h0 : avg (fun i => if g.matched i then (1 : K) else 0) ≠ 0 := by
      obtain ⟨j, hj⟩ := hx
      refine div_ne_zero (ne_of_gt ?_) (by exact_mod_cast h.nonempty.ne')
      refine Finset.sum_pos' (fun i _ => by split_ifs <;> simp) ⟨j, Finset.mem_univ j, by rw [if_pos hj]; exact one_pos⟩
    simp only [if_pos hx] at hv ⊢
    rw [if_pos hx', ← Except.ok.inj hv]
    refine congrArg Except.ok ?_
    simp only [mul_comm (ite _ _ _)]
    exact avg_normalised h0 d
  · have hx' : ¬ ∃ i, g.piE i (g.action i) (g.position i) = 1 := hx
    simp only [if_neg hx, if_neg hx']
    exact congrArg Except.ok (avg_const h.nonempty 0)

/-- **C201 (zero of rewards, IPW).** IPW and SG-IPW do depend on the zero: adding `d` to all rewards moves the estimate by `d` times the
average of the weights they apply, which need not be 1. -/
theorem C201_shift_ipw {g : Log K n A L} (h : g.Valid) (est : Bool) (d : K) :
    (∀ (lam : Lam K) (v : K), (Estimator.mk .ipw lam est).estimatePolicyValue g.args = .ok v →
      (Estimator.mk .ipw lam est).estimatePolicyValue (g.shift d).args = .ok (v + d * avg fun i => lam.clip (g.weight est i))) ∧
    ∀ l v : K, (Estimator.mk .sgIpw (.fin l) est).estimatePolicyValue g.args = .ok v →
      (Estimator.mk .sgIpw (.fin l) est).estimatePolicyValue (g.shift d).args =
        .ok (v + d * avg fun i => g.weight est i / (1 - l + l * g.weight est i)) := by
  have hre : ∀ i, (g.shift d).reward i = g.reward i + d := fun _ => rfl
  have hw : (g.shift d).weight est = g.weight est := rfl
  constructor
  · intro lam v hv
    rw [value_roundReward h] at hv
    rw [value_roundReward (shift_valid h d)]
    simp only [roundReward, hre, hw] at hv ⊢
    rw [← Except.ok.inj hv, ← avg_mul_left]
    refine congrArg Except.ok ?_
    simp only [avg, ← add_div, ← Finset.sum_add_distrib]
    congr 1
    exact Finset.sum_congr rfl fun i _ => by ring
  · intro l v hv
    rw [value_roundReward h] at hv
    rw [value_roundReward (shift_valid h d)]
    simp only [roundReward, hre, hw] at hv ⊢
    by_cases h0 : ∃ i, 1 - l + l * g.weight est i = 0
    · rw [if_pos h0] at hv
      cases hv
    · rw [if_neg h0] at hv ⊢
      rw [← Except.ok.inj hv, ← avg_mul_left]
      refine congrArg Except.ok ?_
      simp only [avg, ← add_div, ← Finset.sum_add_distrib]
      congr 1
      exact Finset.sum_congr rfl fun i _ => by ring

/-! ### names of slates -/

/-- **C201 (names of slates).** Different names for the slates (an injective renaming of the ids that occur) change neither the estimate of any
of the slate estimators nor whether it accepts the log. -/
theorem C201_slate_names (kind : SlateKind) (lenList : ℕ) {g : SlateLog K N} {f : ℕ → ℕ}
    (hf : ∀ i j, f (g.slate i) = f (g.slate j) → g.slate i = g.slate j) :
    kind.estimatePolicyValue lenList (g.renameSlates f).args = kind.estimatePolicyValue lenList g.args := by
  have hiff : ∀ i j, (g.renameSlates f).slate i = (g.renameSlates f).slate j ↔ g.slate i = g.slate j := fun i j =>
    ⟨hf i j, congrArg f⟩
  have hacc : kind.Accepts (g.renameSlates f) ↔ kind.Accepts g := by
    cases kind <;>
      simp only [SlateKind.Accepts, SlateLog.UniquePositions, SlateLog.ConstantPerSlate, SlateLog.NonincreasingPerSlate, hiff] <;> rfl
  by_cases h : kind.Accepts g
  · have hn : (g.renameSlates f).numSlates = g.numSlates := by
      have e : Finset.univ.image (g.renameSlates f).slate = (Finset.univ.image g.slate).image f := by
        rw [Finset.image_image]
        rfl
      rw [SlateLog.numSlates, e, Finset.card_image_of_injOn, SlateLog.numSlates]
      intro s hs t ht hst
      simp only [Finset.coe_image, Finset.coe_univ, Set.image_univ, Set.mem_range] at hs ht
      obtain ⟨i, rfl⟩ := hs
      obtain ⟨j, rfl⟩ := ht
      exact hf i j hst
    rw [slateValue_eq kind lenList h, slateValue_eq kind lenList (hacc.2 h), hn]
    rfl
  · unfold SlateKind.estimatePolicyValue
    rw [slateError kind h, slateError kind fun h' => h (hacc.1 h')]

/-- a log of two rounds with two actions: rewards 3 and 5, weights 1 and 1/2 -/
def exNames : Log ℚ 2 2 1 where
  action := ![0, 1]
  reward := ![3, 5]
  pscore := ![1 / 2, 1 / 2]
  estPscore := ![1 / 2, 1 / 2]
  position := fun _ => 0
  piE := ![fun a _ => ![1 / 2, 1 / 2] a, fun a _ => ![3 / 4, 1 / 4] a]
  q := fun _ a _ => ![2, 4] a
  estIw := ![1, 1]

/-- the same log with the names 2 and 0 among three actions; the prediction for the unused action 1 is arbitrary -/
def exNames' : Log ℚ 2 3 1 where
  action := ![2, 0]
  reward := ![3, 5]
  pscore := ![1 / 2, 1 / 2]
  estPscore := ![1 / 2, 1 / 2]
  position := fun _ => 0
  piE := ![fun a _ => ![1 / 2, 0, 1 / 2] a, fun a _ => ![1 / 4, 0, 3 / 4] a]
  q := fun _ a _ => ![4, 77, 2] a
  estIw := ![1, 1]

/-- the hypotheses hold, and IPW moves by 3/4 of a shift of the rewards while DR moves by all of it -/
example : exNames.Valid ∧ exNames'.Valid ∧ exNames.Renamed exNames' ![2, 0] id ∧
    (Estimator.mk .ipw .inf false).estimatePolicyValue exNames.args = .ok (11 / 4) ∧
    (Estimator.mk .ipw .inf false).estimatePolicyValue (exNames.shift 4).args = .ok (23 / 4) ∧
    (Estimator.mk .dr .inf false).estimatePolicyValue exNames.args = .ok (7 / 2) ∧
    (Estimator.mk .dr .inf false).estimatePolicyValue (exNames.shift 4).args = .ok (15 / 2) ∧
    (Estimator.mk .dr .inf false).estimatePolicyValue exNames'.args = .ok (7 / 2) := by
  refine ⟨⟨by decide, by decide +kernel, by decide +kernel, by decide +kernel, by decide +kernel⟩,
    ⟨by decide, by decide +kernel, by decide +kernel, by decide +kernel, by decide +kernel⟩,
    ⟨by decide, by decide, by decide, rfl, rfl, rfl, rfl, by decide +kernel, by decide +kernel, by decide +kernel⟩, ?_⟩
  decide +kernel

/-- renaming `s` to `10 - s` keeps the slates 0 and 3 of `exSlate` apart -/
example : ∀ i j, 10 - exSlate.slate i = 10 - exSlate.slate j → exSlate.slate i = exSlate.slate j := by decide

end Obp
