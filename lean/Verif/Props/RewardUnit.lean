import Verif.Props.EstimatorLaws
import Verif.Props.EstimatorApi
import Verif.Props.Continuous
import Verif.Props.AxisChange
import Verif.Lemmas.Meta
import Verif.Spec.RewardUnit

/-!
# C203: the unit of rewards, and better rewards
-/

set_option linter.unusedSectionVars false

namespace Obp
open Log
variable {K : Type} [Field K] [LinearOrder K] [IsStrictOrderedRing K] {n A L : ℕ}

/-- **C203 (unit of rewards).** Multiplying all rewards and predictions by `c` multiplies the estimate of each of the eleven estimators by `c`;
an estimator that fails on one of the logs fails alike on the other. -/
theorem C203_scale {g : Log K n A L} (h : g.Valid) (e : Estimator K) (c : K) :
    e.estimatePolicyValue (g.scale c).args = (e.estimatePolicyValue g.args).map (c * ·) := by
  have h' : (g.scale c).Valid := ⟨h.nonempty, h.pscore_pos, h.estPscore_pos, h.estIw_nonneg, h.sum_one⟩
  rw [value_roundReward h, value_roundReward h', roundReward_scale]
  cases roundReward e g with
  | none => rfl
  | some f => exact congrArg Except.ok (avg_mul_left c f)

theorem lamClip_nonneg {lam : Lam K} (hl : lam.Nonneg) {w : K} (hw : 0 ≤ w) : 0 ≤ lam.clip w := by
  cases lam with
  | inf => exact hw
  | fin l => exact le_min hw hl

theorem withReward_round {g : Log K n A L} (h : g.Valid) (hp : g.NonnegPolicy) {e : Estimator K} (hl : e.lam.Nonneg)
    (hu : e.kind = .sgIpw ∨ e.kind = .sgDr → e.lam.InUnit) {r : Fin n → K} (hr : ∀ i, g.reward i ≤ r i) {f : Fin n → K}
    (hf : roundReward e g = some f) : ∃ f', roundReward e (g.withReward r) = some f' ∧ ∀ i, f i ≤ f' i := by
  have hw0 : ∀ est i, 0 ≤ g.weight est i := fun est i => weight_nonneg h hp est i
  have hw : ∀ est, (g.withReward r).weight est = g.weight est := fun _ => rfl
  have hm : (g.withReward r).modelValue = g.modelValue := rfl
  have hs : ∀ i, g.residual i ≤ (g.withReward r).residual i := fun i => sub_le_sub_right (hr i) _
  have hre : (g.withReward r).reward = r := rfl
  have ht : (g.withReward r).matched = g.matched := rfl
  have hi : (g.withReward r).estIw = g.estIw := rfl
  have ha : ∀ est, 0 ≤ avg (g.weight est) := fun est => avg_nonneg (hw0 est)
  obtain ⟨k, lam, est⟩ := e
  have hc : ∀ i, 0 ≤ lam.clip (g.weight est i) := fun i => lamClip_nonneg hl (hw0 est i)
  have add : ∀ {w : Fin n → K}, (∀ i, 0 ≤ w i) → ∀ i, g.modelValue i + w i * g.residual i ≤
      (g.withReward r).modelValue i + w i * (g.withReward r).residual i := fun hw i => by
    rw [hm]
    exact add_le_add_right (mul_le_mul_of_nonneg_left (hs i) (hw i)) _
  have hsg : ∀ l : K, 0 ≤ l → l ≤ 1 → ∀ i, 0 ≤ g.weight est i / (1 - l + l * g.weight est i) := fun l h0 h1 i =>
    div_nonneg (hw0 est i) (add_nonneg (sub_nonneg.2 h1) (mul_nonneg h0 (hw0 est i)))
  cases k
  case rm =>
    refine ⟨_, rfl, fun i => ?_⟩
    rw [← Option.some.inj hf]
    simp only [ht, hre]
    have h1 : 0 ≤ avg fun i => if g.matched i then (1 : K) else 0 := avg_nonneg fun i => by split_ifs <;> norm_num
    by_cases h2 : ∃ i, g.matched i
    · rw [if_pos h2, if_pos h2]
      exact div_le_div_of_nonneg_right (mul_le_mul_of_nonneg_left (hr i) (by split_ifs <;> norm_num)) h1
    · rw [if_neg h2, if_neg h2]
  case ipw =>
    refine ⟨_, rfl, fun i => ?_⟩
    rw [← Option.some.inj hf]
    exact mul_le_mul_of_nonneg_right (hr i) (hc i)
  case snipw =>
    simp only [roundReward, hw] at hf ⊢
    split_ifs at hf ⊢ with h0
    refine ⟨_, rfl, fun i => ?_⟩
    rw [← Option.some.inj hf]
    exact div_le_div_of_nonneg_right (mul_le_mul_of_nonneg_right (hr i) (hw0 est i)) (ha est)
  case dm => exact ⟨_, rfl, fun i => by rw [← Option.some.inj hf, hm]⟩
  case dr =>
    refine ⟨_, rfl, fun i => ?_⟩
    rw [← Option.some.inj hf]
    exact add hc i
  case sndr =>
    simp only [roundReward, hw] at hf ⊢
    split_ifs at hf ⊢ with h0
    refine ⟨_, rfl, fun i => ?_⟩
    rw [← Option.some.inj hf, hm]
    exact add_le_add_right (div_le_div_of_nonneg_right (mul_le_mul_of_nonneg_left (hs i) (hw0 est i)) (ha est)) _
  case switchDr =>
    refine ⟨_, rfl, fun i => ?_⟩
    rw [← Option.some.inj hf]
    exact add (w := fun i => (if lam.geB (g.weight est i) then (1 : K) else 0) * g.weight est i)
      (fun i => mul_nonneg (by split_ifs <;> norm_num) (hw0 est i)) i
  case drOs =>
    cases lam with
    | inf =>
      refine ⟨_, rfl, fun i => ?_⟩
      rw [← Option.some.inj hf]
      exact add (hw0 est) i
    | fin l =>
      simp only [roundReward, hw] at hf ⊢
      split_ifs at hf ⊢ with h0
      refine ⟨_, rfl, fun i => ?_⟩
      rw [← Option.some.inj hf]
      exact add (w := fun i => l * g.weight est i / (g.weight est i ^ 2 + l))
        (fun i => div_nonneg (mul_nonneg hl (hw0 est i)) (add_nonneg (sq_nonneg _) hl)) i
  case sgIpw =>
    cases lam with
    | inf => cases hf
    | fin l =>
      simp only [roundReward, hw] at hf ⊢
      split_ifs at hf ⊢ with h0
      refine ⟨_, rfl, fun i => ?_⟩
      rw [← Option.some.inj hf]
      exact mul_le_mul_of_nonneg_left (hr i) (hsg l (hu (Or.inl rfl)).1 (hu (Or.inl rfl)).2 i)
  case sgDr =>
    cases lam with
    | inf => cases hf
    | fin l =>
      simp only [roundReward, hw] at hf ⊢
      split_ifs at hf ⊢ with h0
      refine ⟨_, rfl, fun i => ?_⟩
      rw [← Option.some.inj hf]
      exact add (hsg l (hu (Or.inr rfl)).1 (hu (Or.inr rfl)).2) i
  case bIpw =>
    have hb : ∀ i, 0 ≤ lam.clip (g.estIw i) := fun i => lamClip_nonneg hl (h.estIw_nonneg i)
    simp only [roundReward, hi] at hf ⊢
    split_ifs at hf ⊢ with h0
    refine ⟨_, rfl, fun i => ?_⟩
    rw [← Option.some.inj hf]
    exact div_le_div_of_nonneg_right (mul_le_mul_of_nonneg_right (hr i) (hb i)) (avg_nonneg hb)

/-- **C203 (better rewards).** If the rewards of some rounds of a log are replaced by larger ones, no estimator with an allowed hyper-parameter
reports a smaller estimate, and it reports one if it did before. -/
theorem C203_monotone {g : Log K n A L} (h : g.Valid) (hp : g.NonnegPolicy) {e : Estimator K} (hl : e.lam.Nonneg)
    (hu : e.kind = .sgIpw ∨ e.kind = .sgDr → e.lam.InUnit) {r : Fin n → K} (hr : ∀ i, g.reward i ≤ r i) {v : K}
    (hv : e.estimatePolicyValue g.args = .ok v) : ∃ v', e.estimatePolicyValue (g.withReward r).args = .ok v' ∧ v ≤ v' := by
  have h' : (g.withReward r).Valid := ⟨h.nonempty, h.pscore_pos, h.estPscore_pos, h.estIw_nonneg, h.sum_one⟩
  rw [value_roundReward h] at hv
  cases hf : roundReward e g with
  | none => rw [hf] at hv; cases hv
  | some f =>
    obtain ⟨f', hf', hle⟩ := withReward_round h hp hl hu hr hf
    rw [hf] at hv
    refine ⟨avg f', by rw [value_roundReward h', hf'], ?_⟩
    rw [← Except.ok.inj hv]
    exact avg_mono hle

/-- **C203 (better predictions).** Larger predictions never lower the estimate of the direct method. -/
theorem C203_dm_monotone {g : Log K n A L} (h : g.Valid) (hp : g.NonnegPolicy) (lam : Lam K) (est : Bool)
    {q : Fin n → Fin A → Fin L → K} (hq : ∀ i a l, g.q i a l ≤ q i a l) {v : K}
    (hv : (Estimator.mk .dm lam est).estimatePolicyValue g.args = .ok v) :
    ∃ v', (Estimator.mk .dm lam est).estimatePolicyValue (g.withModel q).args = .ok v' ∧ v ≤ v' := by
  have h' : (g.withModel q).Valid := ⟨h.nonempty, h.pscore_pos, h.estPscore_pos, h.estIw_nonneg, h.sum_one⟩
  rw [value_roundReward h] at hv
  refine ⟨avg (g.withModel q).modelValue, by rw [value_roundReward h']; rfl, ?_⟩
  rw [← Except.ok.inj hv]
  refine avg_mono fun i => ?_
  exact div_le_div_of_nonneg_right (Finset.sum_le_sum fun a _ => mul_le_mul_of_nonneg_right (hq i a _) (hp i a _))
    (Finset.sum_nonneg fun a _ => hp i a _)

/-! ### continuous actions -/

/-- **C203 (unit of rewards, continuous actions).** Multiplying rewards and predictions by `c` multiplies every kernelised estimate by `c`, or
the estimator fails alike. -/
theorem C203_cont_scale {g : ContLog n} (hg : g.Valid) (k : ContKind) (ker : Kernel) {h : ℝ} (hh : h ≠ 0)
    (c : ℝ) :
    k.estimatePolicyValue ker (.fin h) (g.withRewards (fun i => c * g.reward i) fun i => c * g.q i).args =
      (k.estimatePolicyValue ker (.fin h) g.args).map (c * ·) := by
  have hg' : (g.withRewards (fun i => c * g.reward i) fun i => c * g.q i).Valid := ⟨hg.nonempty, hg.pscore_pos⟩
  by_cases h0 : k = .snipw ∧ avg (g.weight ker.fn h) = 0
  · obtain ⟨rfl, h0⟩ := h0
    rw [C39_snipw_no_overlap hg ker hh (no_weight hg h0), C39_snipw_no_overlap hg' ker hh (no_weight hg h0)]
    rfl
  have hw : k = .snipw → avg (g.weight ker.fn h) ≠ 0 := fun hk h1 => h0 ⟨hk, h1⟩
  rw [contValue_eq hg k ker hh hw, contValue_eq hg' k ker hh hw]
  refine congrArg Except.ok ?_
  show _ = c * avg (g.roundReward k ker h)
  rw [← avg_mul_left]
  refine congrArg avg (funext fun i => ?_)
  have e1 : (g.withRewards (fun i => c * g.reward i) fun i => c * g.q i).weight ker.fn h = g.weight ker.fn h := rfl
  cases k <;> simp only [ContLog.roundReward, e1] <;> simp only [ContLog.withRewards] <;> ring

/-- **C203 (better rewards, continuous actions).** Larger rewards never lower a kernelised estimate. -/
theorem C203_cont_monotone {g : ContLog n} (hg : g.Valid) (k : ContKind) (ker : Kernel) {h : ℝ} (hh : 0 < h)
    {r : Fin n → ℝ} (hr : ∀ i, g.reward i ≤ r i) {v : ℝ} (hv : k.estimatePolicyValue ker (.fin h) g.args = .ok v) :
    ∃ v', k.estimatePolicyValue ker (.fin h) (g.withRewards r g.q).args = .ok v' ∧ v ≤ v' := by
  have hw : k = .snipw → avg (g.weight ker.fn h) ≠ 0 := by
    rintro rfl h0
    rw [C39_snipw_no_overlap hg ker hh.ne' (no_weight hg h0)] at hv
    cases hv
  have hg' : (g.withRewards r g.q).Valid := ⟨hg.nonempty, hg.pscore_pos⟩
  rw [contValue_eq hg k ker hh.ne' hw] at hv
  refine ⟨_, contValue_eq hg' k ker hh.ne' hw, ?_⟩
  rw [← Except.ok.inj hv]
  refine avg_mono fun i => ?_
  have hw0 : ∀ i, 0 ≤ g.weight ker.fn h i := fun i => div_nonneg (C38_nonneg _ _) (hg.pscore_pos i).le
  have e1 : (g.withRewards r g.q).weight ker.fn h = g.weight ker.fn h := rfl
  cases k <;> simp only [ContLog.roundReward, e1]
  · exact div_le_div_of_nonneg_right (mul_le_mul_of_nonneg_right (hr i) (hw0 i)) hh.le
  · exact div_le_div_of_nonneg_right (mul_le_mul_of_nonneg_right (hr i) (hw0 i)) (avg_nonneg hw0)
  · exact add_le_add_left (div_le_div_of_nonneg_right (mul_le_mul_of_nonneg_right (sub_le_sub_right (hr i) _) (hw0 i)) hh.le) _

/-- one round with two actions and weight 2 -/
def exWeightTwo : Log ℚ 1 2 1 where
  action := ![0]
  reward := ![3]
  pscore := ![1 / 4]
  estPscore := ![1 / 4]
  position := fun _ => 0
  piE := fun _ a _ => ![1 / 2, 1 / 2] a
  q := fun _ a _ => ![2, 4] a
  estIw := ![2]

/-- the hypotheses hold, and estimates do change; unlike DM, DR may fall when predictions rise -/
example : exWeightTwo.Valid ∧ exWeightTwo.NonnegPolicy ∧
    (Estimator.mk .dr .inf false).estimatePolicyValue exWeightTwo.args = .ok 5 ∧
    (Estimator.mk .dr .inf false).estimatePolicyValue (exWeightTwo.scale 10).args = .ok 50 ∧
    (Estimator.mk .dr .inf false).estimatePolicyValue (exWeightTwo.withReward ![4]).args = .ok 7 ∧
    (Estimator.mk .dr .inf false).estimatePolicyValue (exWeightTwo.withModel fun _ a _ => ![3, 4] a).args = .ok (7 / 2) ∧
    (Estimator.mk .dm .inf false).estimatePolicyValue (exWeightTwo.withModel fun _ a _ => ![3, 4] a).args = .ok (7 / 2) := by
  refine ⟨⟨by decide, by decide +kernel, by decide +kernel, by decide +kernel, by decide +kernel⟩, ?_, ?_⟩
  · unfold Log.NonnegPolicy
    decide +kernel
  · decide +kernel

/-- **C203 (better predictions, DR).** DR may fall when predictions rise: on a valid log, raising the prediction for the logged action from 2
to 3 lowers its estimate from 5 to 3.5. -/
theorem C203_dr_falls : exWeightTwo.Valid ∧ (∀ i a l, exWeightTwo.q i a l ≤ ![3, 4] a) ∧
    (Estimator.mk .dr .inf false).estimatePolicyValue exWeightTwo.args = .ok 5 ∧
    (Estimator.mk .dr .inf false).estimatePolicyValue (exWeightTwo.withModel fun _ a _ => ![3, 4] a).args = .ok (7 / 2) :=
  ⟨⟨by decide, by decide +kernel, by decide +kernel, by decide +kernel, by decide +kernel⟩, by decide +kernel, by decide +kernel,
    by decide +kernel⟩

end Obp
