import Verif.Props.EstimatorLaws
import Verif.Lemmas.Meta
import Verif.Spec.JoinedLogs
import Verif.Spec.Bias

/-!
# C199: estimates of joined logs

A log that arrives in parts (days, shards, batches) may be evaluated part by part: the theorems say how the estimates of the parts
combine to the estimate of the joined log.
-/

set_option linter.unusedSectionVars false

namespace Obp
open Log
variable {K : Type} [Field K] [LinearOrder K] [IsStrictOrderedRing K] {n n' A L : ℕ}
variable {g : Log K n A L} {g' : Log K n' A L}

theorem forall_join {p : Fin (n + n') → Prop} (h : ∀ i, p (Fin.castAdd n' i)) (h' : ∀ i, p (Fin.natAdd n i)) (i : Fin (n + n')) : p i :=
  Fin.addCases h h' i

theorem valid_join (h : g.Valid) (h' : g'.Valid) : (g.join g').Valid where
  nonempty := Nat.add_pos_left h.nonempty n'
  pscore_pos := forall_join (fun i => by simpa [Log.join] using h.pscore_pos i) fun i => by simpa [Log.join] using h'.pscore_pos i
  estPscore_pos := forall_join (fun i => by simpa [Log.join] using h.estPscore_pos i) fun i => by
    simpa [Log.join] using h'.estPscore_pos i
  estIw_nonneg := forall_join (fun i => by simpa [Log.join] using h.estIw_nonneg i) fun i => by
    simpa [Log.join] using h'.estIw_nonneg i
  sum_one := forall_join (fun i => by simpa [Log.join] using h.sum_one i) fun i => by simpa [Log.join] using h'.sum_one i

theorem weight_join (est : Bool) : (g.join g').weight est = Fin.append (g.weight est) (g'.weight est) :=
  funext <| forall_join (fun i => by simp [Log.join, weight]) fun i => by simp [Log.join, weight]

theorem modelValue_join : (g.join g').modelValue = Fin.append g.modelValue g'.modelValue :=
  funext <| forall_join (fun i => by simp [Log.join, modelValue]) fun i => by simp [Log.join, modelValue]

theorem residual_join : (g.join g').residual = Fin.append g.residual g'.residual :=
  funext <| forall_join (fun i => by simp [Log.join, Log.residual]) fun i => by simp [Log.join, Log.residual]

theorem matched_join_left (i : Fin n) : (g.join g').matched (Fin.castAdd n' i) ↔ g.matched i := by
  simp [Log.join, matched]

theorem matched_join_right (i : Fin n') : (g.join g').matched (Fin.natAdd n i) ↔ g'.matched i := by
  simp [Log.join, matched]

theorem avg_join (hn : 0 < n) (hn' : 0 < n') (f : Fin n → K) (f' : Fin n' → K) :
    avg (Fin.append f f') = ((n : K) * avg f + n' * avg f') / (n + n') := by
  have h1 : (n : K) ≠ 0 := by exact_mod_cast hn.ne'
  have h2 : (n' : K) ≠ 0 := by exact_mod_cast hn'.ne'
  simp only [avg, Fin.sum_univ_add, Fin.append_left, Fin.append_right, Nat.cast_add]
  rw [mul_div_cancel₀ _ h1, mul_div_cancel₀ _ h2]

/-- The per-round values of the estimators that treat every round on its own. -/
theorem roundReward_join {e : Estimator K} (hk : e.kind.HasBias) {f : Fin n → K} {f' : Fin n' → K}
    (hf : roundReward e g = some f) (hf' : roundReward e g' = some f') :
    roundReward e (g.join g') = some (Fin.append f f') := by
  obtain ⟨k, lam, est⟩ := e
  have hr : (g.join g').reward = Fin.append g.reward g'.reward := rfl
  simp only [Kind.HasBias, List.mem_cons, List.not_mem_nil, or_false] at hk
  rcases hk with rfl | rfl | rfl | rfl | rfl | rfl | rfl <;>
    simp only [roundReward, weight_join, modelValue_join, residual_join, hr] at hf hf' ⊢
  · cases hf; cases hf'
    exact congrArg some <| funext <| forall_join (fun i => by simp) fun i => by simp
  · cases hf; cases hf'
    exact congrArg some <| funext <| forall_join (fun i => by simp) fun i => by simp
  · cases hf; cases hf'
    exact congrArg some <| funext <| forall_join (fun i => by simp) fun i => by simp
  · cases lam with
    | inf =>
      cases hf; cases hf'
      exact congrArg some <| funext <| forall_join (fun i => by simp) fun i => by simp
    | fin l =>
      simp only [Option.ite_none_left_eq_some, not_exists] at hf hf' ⊢
      refine ⟨forall_join (fun i => by simpa using hf.1 i) fun i => by simpa using hf'.1 i, ?_⟩
      rw [← Option.some.inj hf.2, ← Option.some.inj hf'.2]
      exact congrArg some <| funext <| forall_join (fun i => by simp) fun i => by simp
  · cases lam with
    | inf => cases hf
    | fin l =>
      simp only [Option.ite_none_left_eq_some, not_exists] at hf hf' ⊢
      refine ⟨forall_join (fun i => by simpa using hf.1 i) fun i => by simpa using hf'.1 i, ?_⟩
      rw [← Option.some.inj hf.2, ← Option.some.inj hf'.2]
      exact congrArg some <| funext <| forall_join (fun i => by simp) fun i => by simp
  · cases lam with
    | inf => cases hf
    | fin l =>
      simp only [Option.ite_none_left_eq_some, not_exists] at hf hf' ⊢
      refine ⟨forall_join (fun i => by simpa using hf.1 i) fun i => by simpa using hf'.1 i, ?_⟩
      rw [← Option.some.inj hf.2, ← Option.some.inj hf'.2]
      exact congrArg some <| funext <| forall_join (fun i => by simp) fun i => by simp
  · cases hf; cases hf'
    rfl

/-- **C199 (IPW, DM, DR, Switch-DR, DRos, SGIPW, SGDR).** The estimate of a joined log is the average of the estimates of the parts,
weighted by their numbers of rounds. -/
theorem C199_rounds (h : g.Valid) (h' : g'.Valid) {e : Estimator K}
    (hk : e.kind ∈ [Kind.ipw, .dm, .dr, .switchDr, .drOs, .sgIpw, .sgDr]) {v v' : K}
    (hv : e.estimatePolicyValue g.args = .ok v) (hv' : e.estimatePolicyValue g'.args = .ok v') :
    e.estimatePolicyValue (g.join g').args = .ok (((n : K) * v + n' * v') / (n + n')) := by
  have hk' : e.kind.HasBias := by
    simp only [Kind.HasBias, List.mem_cons, List.not_mem_nil, or_false] at hk ⊢
    tauto
  rw [value_roundReward h] at hv
  rw [value_roundReward h'] at hv'
  rw [value_roundReward (valid_join h h')]
  cases hf : roundReward e g with
  | none => rw [hf] at hv; cases hv
  | some f =>
    cases hf' : roundReward e g' with
    | none => rw [hf'] at hv'; cases hv'
    | some f' =>
      rw [hf] at hv; rw [hf'] at hv'
      cases hv; cases hv'
      rw [roundReward_join hk' hf hf']
      exact congrArg Except.ok (avg_join h.nonempty h'.nonempty f f')

/-- A ratio of totals over the joined log. -/
theorem ratio_join {R R' W W' v v' : K} (hW : W ≠ 0) (hW' : W' ≠ 0) (hv : v = R / W) (hv' : v' = R' / W') :
    (R + R') / (W + W') = (W * v + W' * v') / (W + W') := by
  rw [hv, hv', mul_div_cancel₀ _ hW, mul_div_cancel₀ _ hW']

/-- **C199 (SNIPW).** The estimate of a joined log is the average of the estimates of the parts, weighted by their total importance
weights (not by their numbers of rounds). -/
theorem C199_snipw (h : g.Valid) (h' : g'.Valid) (hE : g.NonnegPolicy) (hE' : g'.NonnegPolicy) (lam : Lam K) (est : Bool) {v v' : K}
    (hv : (Estimator.mk .snipw lam est).estimatePolicyValue g.args = .ok v)
    (hv' : (Estimator.mk .snipw lam est).estimatePolicyValue g'.args = .ok v') :
    (Estimator.mk .snipw lam est).estimatePolicyValue (g.join g').args =
      .ok (((∑ i, g.weight est i) * v + (∑ i, g'.weight est i) * v') / (∑ i, g.weight est i + ∑ i, g'.weight est i)) := by
  have key : ∀ {n : ℕ} {g : Log K n A L} (_ : g.Valid) (_ : g.NonnegPolicy) {v : K},
      (Estimator.mk .snipw lam est).estimatePolicyValue g.args = .ok v →
      0 < ∑ i, g.weight est i ∧ v = (∑ i, g.reward i * g.weight est i) / ∑ i, g.weight est i := by
    intro n g h hE v hv
    by_cases hw : avg (g.weight est) = 0
    · rw [value_snipw_nonFinite h lam est hw] at hv; cases hv
    · rw [value_snipw h lam est hw] at hv
      refine ⟨lt_of_le_of_ne (Finset.sum_nonneg fun i _ => weight_nonneg h hE est i) fun h0 =>
        hw ((avg_eq_zero_iff h.nonempty _).2 h0.symm), ?_⟩
      rw [← avg_ratio h.nonempty _ _ hw]
      exact (Except.ok.inj hv).symm
  obtain ⟨hp, e1⟩ := key h hE hv
  obtain ⟨hp', e2⟩ := key h' hE' hv'
  have hW : avg ((g.join g').weight est) ≠ 0 := fun h0 => by
    have := (avg_eq_zero_iff (valid_join h h').nonempty _).1 h0
    rw [weight_join, Fin.sum_univ_add] at this
    simp only [Fin.append_left, Fin.append_right] at this
    exact absurd this (add_pos hp hp').ne'
  rw [value_snipw (valid_join h h') lam est hW, avg_ratio (valid_join h h').nonempty _ _ hW, ← ratio_join hp.ne' hp'.ne' e1 e2]
  simp only [weight_join, Fin.sum_univ_add, Fin.append_left, Fin.append_right]
  simp [Log.join]

/-- The quotient of two averages over a joined log, given that the total of the divisor is positive in both parts. -/
theorem avg_ratio_join (hn : 0 < n) (hn' : 0 < n') {x w : Fin n → K} {x' w' : Fin n' → K} (hw : 0 < ∑ i, w i) (hw' : 0 < ∑ i, w' i) :
    avg (Fin.append w w') ≠ 0 ∧
    (avg fun i => Fin.append x x' i / avg (Fin.append w w')) =
      ((∑ i, w i) * (avg fun i => x i / avg w) + (∑ i, w' i) * (avg fun i => x' i / avg w')) / (∑ i, w i + ∑ i, w' i) := by
  have hne : avg (Fin.append w w') ≠ 0 := fun h0 => by
    have := (avg_eq_zero_iff (Nat.add_pos_left hn n') _).1 h0
    rw [Fin.sum_univ_add] at this
    simp only [Fin.append_left, Fin.append_right] at this
    exact absurd this (add_pos hw hw').ne'
  refine ⟨hne, ?_⟩
  have h1 : avg w ≠ 0 := fun h0 => hw.ne' ((avg_eq_zero_iff hn _).1 h0)
  have h2 : avg w' ≠ 0 := fun h0 => hw'.ne' ((avg_eq_zero_iff hn' _).1 h0)
  have hq : ∀ {m : ℕ} (_ : 0 < m) {x w : Fin m → K} (_ : avg w ≠ 0), (avg fun i => x i / avg w) = (∑ i, x i) / ∑ i, w i := by
    intro m hm x w hw
    have hm' : (m : K) ≠ 0 := by exact_mod_cast hm.ne'
    rw [avg, ← Finset.sum_div, avg, div_div, div_mul_cancel₀ _ hm']
  rw [hq (Nat.add_pos_left hn n') hne, hq hn h1, hq hn' h2, mul_div_cancel₀ _ hw.ne', mul_div_cancel₀ _ hw'.ne']
  simp only [Fin.sum_univ_add, Fin.append_left, Fin.append_right]

/-- **C199 (SNDR).** SNDR and DM differ by a correction. The correction of a joined log is the average of the corrections of the parts,
weighted by their total importance weights, while the DM part is weighted by the numbers of rounds. -/
theorem C199_sndr (h : g.Valid) (h' : g'.Valid) (hE : g.NonnegPolicy) (hE' : g'.NonnegPolicy) (lam : Lam K) (est : Bool)
    {v v' d d' : K}
    (hv : (Estimator.mk .sndr lam est).estimatePolicyValue g.args = .ok v)
    (hv' : (Estimator.mk .sndr lam est).estimatePolicyValue g'.args = .ok v')
    (hd : (Estimator.mk .dm lam est).estimatePolicyValue g.args = .ok d)
    (hd' : (Estimator.mk .dm lam est).estimatePolicyValue g'.args = .ok d') :
    (Estimator.mk .sndr lam est).estimatePolicyValue (g.join g').args =
      .ok (((n : K) * d + n' * d') / (n + n') +
        ((∑ i, g.weight est i) * (v - d) + (∑ i, g'.weight est i) * (v' - d')) / (∑ i, g.weight est i + ∑ i, g'.weight est i)) := by
  have hadd : ∀ {m : ℕ} (a b : Fin m → K), (avg fun i => a i + b i) = avg a + avg b := fun a b => by
    simp only [avg, Finset.sum_add_distrib, add_div]
  have key : ∀ {n : ℕ} {g : Log K n A L} (_ : g.Valid) (_ : g.NonnegPolicy) {v d : K},
      (Estimator.mk .sndr lam est).estimatePolicyValue g.args = .ok v →
      (Estimator.mk .dm lam est).estimatePolicyValue g.args = .ok d →
      0 < ∑ i, g.weight est i ∧ d = avg g.modelValue ∧
        v - d = avg fun i => g.weight est i * g.residual i / avg (g.weight est) := by
    intro n g h hE v d hv hd
    rw [value_roundReward h] at hd
    have hd := (Except.ok.inj hd).symm
    by_cases hw : avg (g.weight est) = 0
    · rw [value_sndr_nonFinite h lam est hw] at hv; cases hv
    · rw [value_sndr h lam est hw] at hv
      refine ⟨lt_of_le_of_ne (Finset.sum_nonneg fun i _ => weight_nonneg h hE est i) fun h0 =>
        hw ((avg_eq_zero_iff h.nonempty _).2 h0.symm), hd, ?_⟩
      rw [← Except.ok.inj hv, hd, hadd]
      ring
  obtain ⟨hp, e1, e2⟩ := key h hE hv hd
  obtain ⟨hp', e1', e2'⟩ := key h' hE' hv' hd'
  obtain ⟨hne, hr⟩ := avg_ratio_join h.nonempty h'.nonempty (x := fun i => g.weight est i * g.residual i)
    (x' := fun i => g'.weight est i * g'.residual i) hp hp'
  rw [value_sndr (valid_join h h') lam est (by rwa [weight_join]), e2, e2', e1, e1', ← avg_join h.nonempty h'.nonempty, ← hr, ← hadd]
  refine congrArg Except.ok (avg_congr fun i => ?_)
  rw [weight_join, modelValue_join, residual_join]
  congr 2
  exact forall_join (p := fun i => Fin.append (g.weight est) (g'.weight est) i * Fin.append g.residual g'.residual i =
    Fin.append (fun i => g.weight est i * g.residual i) (fun i => g'.weight est i * g'.residual i) i)
    (fun i => by simp) (fun i => by simp [-Fin.natAdd_eq_addNat]) i

/-- **C199 (Balanced OPE).** With a non-negative clipping threshold the estimate of a joined log is the average of the estimates of the
parts, weighted by their totals of clipped estimated importance weights. -/
theorem C199_bIpw (h : g.Valid) (h' : g'.Valid) (lam : Lam K) (hl : ∀ l, lam = .fin l → 0 ≤ l) (est : Bool) {v v' : K}
    (hv : (Estimator.mk .bIpw lam est).estimatePolicyValue g.args = .ok v)
    (hv' : (Estimator.mk .bIpw lam est).estimatePolicyValue g'.args = .ok v') :
    (Estimator.mk .bIpw lam est).estimatePolicyValue (g.join g').args =
      .ok (((∑ i, lam.clip (g.estIw i)) * v + (∑ i, lam.clip (g'.estIw i)) * v') /
        (∑ i, lam.clip (g.estIw i) + ∑ i, lam.clip (g'.estIw i))) := by
  have hc : ∀ x : K, 0 ≤ x → 0 ≤ lam.clip x := fun x hx => by
    cases lam with
    | inf => exact hx
    | fin l => exact le_min hx (hl l rfl)
  have key : ∀ {n : ℕ} {g : Log K n A L} (_ : g.Valid) {v : K},
      (Estimator.mk .bIpw lam est).estimatePolicyValue g.args = .ok v →
      0 < ∑ i, lam.clip (g.estIw i) ∧
        v = avg fun i => g.reward i * lam.clip (g.estIw i) / avg (fun i => lam.clip (g.estIw i)) := by
    intro n g h v hv
    by_cases hw : avg (fun i => lam.clip (g.estIw i)) = 0
    · rw [value_bIpw_nonFinite h lam est hw] at hv; cases hv
    · rw [value_bIpw h lam est hw] at hv
      exact ⟨lt_of_le_of_ne (Finset.sum_nonneg fun i _ => hc _ (h.estIw_nonneg i)) fun h0 =>
        hw ((avg_eq_zero_iff h.nonempty _).2 h0.symm), (Except.ok.inj hv).symm⟩
  obtain ⟨hp, e1⟩ := key h hv
  obtain ⟨hp', e2⟩ := key h' hv'
  have hcl : (fun i => lam.clip ((g.join g').estIw i)) = Fin.append (fun i => lam.clip (g.estIw i)) fun i => lam.clip (g'.estIw i) :=
    funext <| forall_join (fun i => by simp [Log.join]) fun i => by simp [Log.join, -Fin.natAdd_eq_addNat]
  obtain ⟨hne, hr⟩ := avg_ratio_join h.nonempty h'.nonempty (x := fun i => g.reward i * lam.clip (g.estIw i))
    (x' := fun i => g'.reward i * lam.clip (g'.estIw i)) hp hp'
  rw [value_bIpw (valid_join h h') lam est (by rwa [hcl]), e1, e2, ← hr, hcl]
  refine congrArg Except.ok (avg_congr fun i => congrArg (· / _) ?_)
  exact forall_join (p := fun i => (g.join g').reward i * lam.clip ((g.join g').estIw i) =
    Fin.append (fun i => g.reward i * lam.clip (g.estIw i)) (fun i => g'.reward i * lam.clip (g'.estIw i)) i)
    (fun i => by simp [Log.join]) (fun i => by simp [Log.join, -Fin.natAdd_eq_addNat]) i

/-- **C199 (RM).** The replay estimate of a joined log is the average of the estimates of the parts, weighted by their numbers of
matched rounds; a part without matches does not count. -/
theorem C199_rm (h : g.Valid) (h' : g'.Valid) (lam : Lam K) (est : Bool) {v v' : K}
    (hm : (∃ i, g.matched i) ∨ ∃ i, g'.matched i)
    (hv : (Estimator.mk .rm lam est).estimatePolicyValue g.args = .ok v)
    (hv' : (Estimator.mk .rm lam est).estimatePolicyValue g'.args = .ok v') :
    (Estimator.mk .rm lam est).estimatePolicyValue (g.join g').args =
      .ok ((((Finset.univ.filter g.matched).card : K) * v + (Finset.univ.filter g'.matched).card * v') /
        ((Finset.univ.filter g.matched).card + (Finset.univ.filter g'.matched).card)) := by
  have key : ∀ {n : ℕ} {g : Log K n A L} (_ : g.Valid) {v : K},
      (Estimator.mk .rm lam est).estimatePolicyValue g.args = .ok v →
      ((Finset.univ.filter g.matched).card : K) * v = ∑ i, (if g.matched i then 1 else 0) * g.reward i := by
    intro n g h v hv
    by_cases hm : ∃ i, g.matched i
    · rw [C19_rm_matched_mean h lam est hm] at hv
      rw [← Except.ok.inj hv]
      have hc : ((Finset.univ.filter g.matched).card : K) ≠ 0 := by
        obtain ⟨i, hi⟩ := hm
        exact_mod_cast (Finset.card_pos.2 ⟨i, by simp [hi]⟩).ne'
      rw [mul_div_cancel₀ _ hc, Finset.sum_filter]
      exact Finset.sum_congr rfl fun i _ => by split <;> simp
    · rw [value_rm_nomatch h lam est hm] at hv
      rw [← Except.ok.inj hv, mul_zero]
      push Not at hm
      exact (Finset.sum_eq_zero fun i _ => by simp [hm i]).symm
  have hmj : ∃ i, (g.join g').matched i := by
    rcases hm with ⟨i, hi⟩ | ⟨i, hi⟩
    · exact ⟨_, (matched_join_left i).2 hi⟩
    · exact ⟨_, (matched_join_right i).2 hi⟩
  have hcard : (Finset.univ.filter (g.join g').matched).card
      = (Finset.univ.filter g.matched).card + (Finset.univ.filter g'.matched).card := by
    simp only [Finset.card_filter, Fin.sum_univ_add, matched_join_left, matched_join_right]
  have hvj := C19_rm_matched_mean (valid_join h h') lam est hmj
  rw [hvj]
  have hkey := key (valid_join h h') hvj
  have hc : ((Finset.univ.filter (g.join g').matched).card : K) ≠ 0 := by
    obtain ⟨i, hi⟩ := hmj
    exact_mod_cast (Finset.card_pos.2 ⟨i, by simp [hi]⟩).ne'
  rw [key h hv, key h' hv']
  refine congrArg Except.ok ?_
  rw [← Nat.cast_add, ← hcard, eq_div_iff hc, mul_comm, hkey]
  simp only [Fin.sum_univ_add, matched_join_left, matched_join_right]
  simp [Log.join]

theorem exists_append {α : Type} (p : α → Prop) (w : Fin n → α) : (∃ i, p (Fin.append w w i)) ↔ ∃ i, p (w i) := by
  constructor
  · rintro ⟨i, hi⟩
    revert hi
    refine forall_join (p := fun i => p (Fin.append w w i) → ∃ i, p (w i)) (fun i hi => ?_) (fun i hi => ?_) i
    · exact ⟨i, by simpa using hi⟩
    · exact ⟨i, by rwa [Fin.append_right] at hi⟩
  · rintro ⟨i, hi⟩
    exact ⟨Fin.castAdd n i, by simpa using hi⟩

theorem roundReward_doubled (h : g.Valid) (e : Estimator K) :
    roundReward e (g.join g) = (roundReward e g).map fun f => Fin.append f f := by
  have hav : ∀ f : Fin n → K, avg (Fin.append f f) = avg f := fun f => by
    have h1 : (n : K) ≠ 0 := by exact_mod_cast h.nonempty.ne'
    rw [avg_join h.nonempty h.nonempty]
    field_simp
  have hr : (g.join g).reward = Fin.append g.reward g.reward := rfl
  have hmx : (∃ i, (g.join g).matched i) ↔ ∃ i, g.matched i := by
    constructor
    · rintro ⟨i, hi⟩
      revert hi
      exact forall_join (p := fun i => (g.join g).matched i → ∃ i, g.matched i) (fun i hi => ⟨i, (matched_join_left i).1 hi⟩)
        (fun i hi => ⟨i, (matched_join_right i).1 hi⟩) i
    · rintro ⟨i, hi⟩
      exact ⟨_, (matched_join_left i).2 hi⟩
  have hma : (fun i => if (g.join g).matched i then (1 : K) else 0)
      = Fin.append (fun i => if g.matched i then (1 : K) else 0) fun i => if g.matched i then (1 : K) else 0 :=
    funext <| forall_join (fun i => by simp [matched_join_left]) fun i => by simp [matched_join_right, -Fin.natAdd_eq_addNat]
  have hiw : ∀ lam : Lam K, (fun i => lam.clip ((g.join g).estIw i))
      = Fin.append (fun i => lam.clip (g.estIw i)) fun i => lam.clip (g.estIw i) := fun lam =>
    funext <| forall_join (fun i => by simp [Log.join]) fun i => by simp [Log.join, -Fin.natAdd_eq_addNat]
  obtain ⟨k, lam, est⟩ := e
  cases k <;> simp only [roundReward, weight_join, modelValue_join, residual_join, hr, hav]
  case rm =>
    simp only [hmx, hma, hav, Option.map_some]
    exact congrArg some <| funext <| forall_join (fun i => by simp [matched_join_left]) fun i => by simp [matched_join_right, -Fin.natAdd_eq_addNat]
  case ipw => exact congrArg some <| funext <| forall_join (fun i => by simp) fun i => by simp [-Fin.natAdd_eq_addNat]
  case dm => rfl
  case dr => exact congrArg some <| funext <| forall_join (fun i => by simp) fun i => by simp [-Fin.natAdd_eq_addNat]
  case switchDr => exact congrArg some <| funext <| forall_join (fun i => by simp) fun i => by simp [-Fin.natAdd_eq_addNat]
  case snipw =>
    split
    · rfl
    · exact congrArg some <| funext <| forall_join (fun i => by simp) fun i => by simp [-Fin.natAdd_eq_addNat]
  case sndr =>
    split
    · rfl
    · exact congrArg some <| funext <| forall_join (fun i => by simp) fun i => by simp [-Fin.natAdd_eq_addNat]
  case drOs =>
    cases lam with
    | inf => exact congrArg some <| funext <| forall_join (fun i => by simp) fun i => by simp [-Fin.natAdd_eq_addNat]
    | fin l =>
      simp only [exists_append fun x : K => x ^ 2 + l = 0]
      split
      · rfl
      · exact congrArg some <| funext <| forall_join (fun i => by simp) fun i => by simp [-Fin.natAdd_eq_addNat]
  case sgIpw =>
    cases lam with
    | inf => rfl
    | fin l =>
      simp only [exists_append fun x : K => 1 - l + l * x = 0]
      split
      · rfl
      · exact congrArg some <| funext <| forall_join (fun i => by simp) fun i => by simp [-Fin.natAdd_eq_addNat]
  case sgDr =>
    cases lam with
    | inf => rfl
    | fin l =>
      simp only [exists_append fun x : K => 1 - l + l * x = 0]
      split
      · rfl
      · exact congrArg some <| funext <| forall_join (fun i => by simp) fun i => by simp [-Fin.natAdd_eq_addNat]
  case bIpw =>
    simp only [hiw, hav]
    split
    · rfl
    · exact congrArg some <| funext <| forall_join (fun i => by simp [Log.join]) fun i => by simp [Log.join, -Fin.natAdd_eq_addNat]

/-- **C199 (all estimators).** Logging every round twice leaves the outcome of each of the eleven estimators as it is. -/
theorem C199_doubled (h : g.Valid) (e : Estimator K) :
    e.estimatePolicyValue (g.join g).args = e.estimatePolicyValue g.args := by
  rw [value_roundReward h, value_roundReward (valid_join h h), roundReward_doubled h]
  cases roundReward e g with
  | none => rfl
  | some f =>
    have h1 : (n : K) ≠ 0 := by exact_mod_cast h.nonempty.ne'
    refine congrArg Except.ok ?_
    rw [avg_join h.nonempty h.nonempty]
    field_simp

/-- a second part with one round -/
def exJoinPart : Log ℚ 1 2 1 where
  action := ![1]
  reward := ![6]
  pscore := ![1 / 2]
  estPscore := ![1 / 2]
  position := ![0]
  piE := fun _ a _ => (![0, 1] : Fin 2 → ℚ) a
  q := fun _ a _ => (![2, 3] : Fin 2 → ℚ) a
  estIw := ![1]

theorem exJoinPart_valid : exJoinPart.Valid :=
  ⟨by decide, by decide +kernel, by decide +kernel, by decide +kernel, by decide +kernel⟩

/-- the hypotheses are met by parts with different estimates, weights and matches -/
example : exOnPolicy.Valid ∧ exJoinPart.Valid ∧ exOnPolicy.NonnegPolicy ∧ exJoinPart.NonnegPolicy ∧
    (Estimator.mk .ipw .inf false).estimatePolicyValue exOnPolicy.args = .ok 4 ∧
    (Estimator.mk .ipw .inf false).estimatePolicyValue exJoinPart.args = .ok 12 ∧
    (Estimator.mk .ipw .inf false).estimatePolicyValue (exOnPolicy.join exJoinPart).args = .ok (20 / 3) ∧
    (Estimator.mk .snipw .inf false).estimatePolicyValue (exOnPolicy.join exJoinPart).args = .ok 5 ∧
    (∃ i, exJoinPart.matched i) ∧ ¬ ∃ i, exOnPolicy.matched i := by
  have hv := valid_join exOnPolicy_valid exJoinPart_valid
  refine ⟨exOnPolicy_valid, exJoinPart_valid, by unfold Log.NonnegPolicy; decide +kernel, by unfold Log.NonnegPolicy; decide +kernel, ?_, ?_,
    ?_, ?_, by decide +kernel, by decide +kernel⟩
  · rw [value_ipw exOnPolicy_valid]; decide +kernel
  · rw [value_ipw exJoinPart_valid]; decide +kernel
  · rw [value_ipw hv]; decide +kernel
  · rw [value_snipw hv _ _ (by decide +kernel)]; decide +kernel

end Obp
