import Verif.Spec.Formulas
import Verif.Props.EstimatorValues
import Verif.Props.Multi
import Verif.Props.Continuous

set_option linter.unusedSectionVars false

/-!
# Do the estimators compute the formulas in their documentation?

C188: all displayed formulas hold except three, which are misprinted.
-/

namespace Obp
open Log

variable {K : Type} [Field K] [LinearOrder K] [IsStrictOrderedRing K] {n A L : ℕ}

theorem Log.modelValue_predicted {g : Log K n A L} (h1 : ∀ i l, ∑ a, g.piE i a l = 1) (i : Fin n) : g.modelValue i = g.predicted i := by
  rw [modelValue, h1, div_one, predicted]

theorem avg_over {f : Fin n → K} (c : K) : (avg fun i => f i / c) = avg f / c := by
  simp only [avg, ← Finset.sum_div, div_div, mul_comm]

/-- **C188** (what is missing: the formula for `DoublyRobustWithShrinkage`, see `not_C188_dros`). The estimators for one logger. -/
theorem C188_single_partial {g : Log K n A L} (h : g.Valid) (h1 : ∀ i l, ∑ a, g.piE i a l = 1) (k : Kind) (hk : k ≠ .drOs) (lam : K)
    (hd : g.Defined lam k) : (Estimator.mk k (.fin lam) false).estimatePolicyValue g.args = .ok (g.documented lam k) := by
  have hw : g.weight false = g.ratio := rfl
  have hm : g.modelValue = g.predicted := funext (modelValue_predicted h1)
  have hr : ∀ i, g.reward i - g.q i (g.action i) (g.position i) = g.residual i := fun _ => rfl
  have hc : ∀ w, (Lam.fin lam).clip w = min lam w := fun w => min_comm _ _
  cases k with
  | drOs => exact absurd rfl hk
  | rm => rw [value_rm h _ _ hd, avg_over]; rfl
  | ipw =>
    rw [value_ipw h]
    simp only [hw, hc, documented, mul_comm]
  | snipw =>
    rw [value_snipw h _ false hd, avg_over]
    simp only [hw, documented, mul_comm]
  | dm => rw [value_dm h, hm]; rfl
  | dr =>
    rw [value_dr h]
    simp only [hw, hm, hc, documented, hr]
  | sndr =>
    rw [value_sndr h _ false hd]
    simp only [hw, hm, documented, hr]
  | switchDr =>
    rw [value_switchDr h]
    simp only [hw, hm, documented, hr, Lam.geB, decide_eq_true_eq]
    congr 2
    funext i
    ring
  | sgIpw => rw [value_sgIpw h false lam hd]; rfl
  | sgDr =>
    rw [value_sgDr h false lam hd]
    simp only [hw, hm, documented, hr]
  | bIpw =>
    have hd' : avg (fun i => (Lam.fin lam).clip (g.estIw i)) ≠ 0 := by
      simp only [hc]
      exact hd
    rw [value_bIpw h _ _ hd', avg_over]
    simp only [hc, documented, mul_comm]

/-- **C188.** With `lambda_ = inf`, the default, the formulas hold without clipping. -/
theorem C188_single_unclipped {g : Log K n A L} (h : g.Valid) (h1 : ∀ i l, ∑ a, g.piE i a l = 1) :
    (Estimator.mk .ipw .inf false).estimatePolicyValue g.args = .ok (avg fun i => g.ratio i * g.reward i) ∧
    (Estimator.mk .dr .inf false).estimatePolicyValue g.args =
      .ok (avg fun i => g.predicted i + g.ratio i * (g.reward i - g.q i (g.action i) (g.position i))) := by
  have hw : g.weight false = g.ratio := rfl
  have hm : g.modelValue = g.predicted := funext (modelValue_predicted h1)
  rw [value_ipw h, value_dr h]
  simp only [hw, hm, Lam.clip, mul_comm, Log.residual, and_self]

/-- **C188.** `DoublyRobustWithShrinkage` weights the corrections by `lambda_ w / (w² + lambda_)`, the displayed formula has another
factor `w`. -/
theorem C188_dros_partial {g : Log K n A L} (h : g.Valid) (h1 : ∀ i l, ∑ a, g.piE i a l = 1) {lam : K} (hd : g.Defined lam .drOs) :
    (Estimator.mk .drOs (.fin lam) false).estimatePolicyValue g.args = .ok (avg fun i => g.predicted i +
      lam * g.ratio i / (g.ratio i ^ 2 + lam) * (g.reward i - g.q i (g.action i) (g.position i))) := by
  have hw : g.weight false = g.ratio := rfl
  have hm : g.modelValue = g.predicted := funext (modelValue_predicted h1)
  rw [value_drOs h false lam hd]
  simp only [hw, hm, Log.residual]

/-- **C188.** The naive and balanced estimators for several loggers (what is missing: the formula for balanced doubly robust
estimation, see `not_C188_balanced_dr`). -/
theorem C188_multi_partial {g : MLog K n A L} (h : g.MValid) (h1 : ∀ i l, ∑ a, g.piE i a l = 1) (k : MultiKind)
    (hk : k = .naiveIpw ∨ k = .balancedIpw ∨ k = .naiveDr) (lam : K) :
    (MultiEstimator.mk k (.fin lam) false).estimatePolicyValue g.margs = .ok (g.documentedMulti lam k) := by
  have hw : g.toLog.weight false = g.ratio := rfl
  have ha : g.weightAvg false = g.ratioAvg := rfl
  have hm : g.toLog.modelValue = g.predicted := funext (modelValue_predicted h1)
  have hc : ∀ w, (Lam.fin lam).clip w = min lam w := fun w => min_comm _ _
  rcases hk with rfl | rfl | rfl
  · rw [value_naiveIpw h.base]
    simp only [hw, hc, MLog.documentedMulti, mul_comm]
  · rw [value_balancedIpw h]
    simp only [ha, hc, MLog.documentedMulti, mul_comm]
  · rw [value_naiveDr h.base]
    simp only [hw, hm, hc, MLog.documentedMulti, Log.residual]

/-- **C188.** Balanced doubly robust estimation adds the correction to the predicted value. -/
theorem C188_balanced_dr_partial {g : MLog K n A L} (h : g.MValid) (h1 : ∀ i l, ∑ a, g.piE i a l = 1) (lam : K) :
    (MultiEstimator.mk .balancedDr (.fin lam) false).estimatePolicyValue g.margs = .ok (avg fun i => g.predicted i +
      min lam (g.ratioAvg i) * (g.reward i - g.q i (g.action i) (g.position i))) := by
  have ha : g.weightAvg false = g.ratioAvg := rfl
  have hm : g.toLog.modelValue = g.predicted := funext (modelValue_predicted h1)
  have hc : ∀ w, (Lam.fin lam).clip w = min lam w := fun w => min_comm _ _
  rw [value_balancedDr h]
  simp only [ha, hm, hc, Log.residual]

/-- **C188** (what is missing: the formula for self-normalised estimation, see `not_C188_kernel_snipw`). The estimators for continuous
actions. -/
theorem C188_kernel_partial {g : ContLog n} (hg : g.Valid) (ker : Kernel) {h : ℝ} (hh : h ≠ 0) (k : ContKind) (hk : k ≠ .snipw) :
    k.estimatePolicyValue ker (.fin h) g.args = .ok (g.documented ker.fn h k) := by
  rw [contValue_eq hg k ker hh fun h0 => absurd h0 hk]
  congr 1
  cases k with
  | snipw => exact absurd rfl hk
  | ipw =>
    refine congrArg avg (funext fun i => ?_)
    simp only [ContLog.roundReward, ContLog.weight]
    ring
  | dr =>
    refine congrArg avg (funext fun i => ?_)
    simp only [ContLog.roundReward, ContLog.weight]
    ring

/-- **C188.** Self-normalised estimation divides by the average of the weights; in the displayed formula numerator and denominator
are the same. -/
theorem C188_kernel_snipw_partial {g : ContLog n} (hg : g.Valid) (ker : Kernel) {h : ℝ} (hh : h ≠ 0)
    (hpos : ∃ i, 0 < ker.fn ((g.evalAction i - g.action i) / h)) :
    ContKind.snipw.estimatePolicyValue ker (.fin h) g.args =
      .ok ((avg fun i => ker.fn ((g.evalAction i - g.action i) / h) * (g.reward i / g.pscore i)) /
        avg fun i => ker.fn ((g.evalAction i - g.action i) / h) * (1 / g.pscore i)) := by
  rw [contValue_eq hg .snipw ker hh fun _ => contAvg_ne hg ker h hpos]
  congr 1
  have e : (avg fun i => ker.fn ((g.evalAction i - g.action i) / h) * (1 / g.pscore i)) = avg (g.weight ker.fn h) :=
    congrArg avg (funext fun i => by simp only [ContLog.weight]; ring)
  rw [e, ← avg_over]
  refine congrArg avg (funext fun i => ?_)
  simp only [ContLog.roundReward, ContLog.weight]
  ring

/-! ### The misprinted formulas -/

/-- Two rounds; the evaluation policy is twice as likely to take the logged action. -/
def exFormula : Log ℚ 2 2 1 where
  action := ![0, 1]
  reward := ![1, 3]
  pscore := fun _ => 1 / 4
  estPscore := fun _ => 1 / 4
  position := fun _ => 0
  piE := fun _ _ _ => 1 / 2
  q := fun _ a _ => ![1, 2] a
  estIw := fun _ => 2

theorem exFormula_valid : exFormula.Valid where
  nonempty := by decide
  pscore_pos := by decide +kernel
  estPscore_pos := by decide +kernel
  estIw_nonneg := by decide +kernel
  sum_one := by decide +kernel

theorem exFormula_one : ∀ i l, ∑ a, exFormula.piE i a l = 1 := by decide +kernel

/-- **C188 fails** for `DoublyRobustWithShrinkage`: with `lambda_ = 4` the estimate is 2, the displayed formula gives 5/2. -/
theorem not_C188_dros : (Estimator.mk .drOs (.fin (4 : ℚ)) false).estimatePolicyValue exFormula.args = .ok 2 ∧
    exFormula.documented 4 .drOs = 5 / 2 := by
  rw [C188_dros_partial exFormula_valid exFormula_one (by unfold Log.Defined; decide +kernel)]
  decide +kernel

example (k : Kind) (hk : k ≠ .drOs) (hd : exFormula.Defined 1 k) := C188_single_partial exFormula_valid exFormula_one k hk 1 hd
example : exFormula.Defined (1 / 2) .snipw ∧ exFormula.Defined (1 / 2) .sgDr ∧ exFormula.Defined (1 / 2) .bIpw := by
  unfold Log.Defined
  decide +kernel
example := C188_single_unclipped exFormula_valid exFormula_one

/-- The same rounds, one from each of two loggers. -/
def exFormulaMulti : MLog ℚ 2 2 1 := { exFormula with stratum := ![0, 1], pscoreAvg := fun _ => 1 / 4, estPscoreAvg := fun _ => 1 / 4 }

theorem exFormulaMulti_valid : exFormulaMulti.MValid where
  base := exFormula_valid
  avg_pos := by decide +kernel
  estAvg_pos := by decide +kernel

/-- **C188 fails** for balanced doubly robust estimation: the estimate is 5/2, the displayed formula gives 3/2. -/
theorem not_C188_balanced_dr : (MultiEstimator.mk .balancedDr (.fin (10 : ℚ)) false).estimatePolicyValue exFormulaMulti.margs = .ok (5 / 2) ∧
    exFormulaMulti.documentedMulti 10 .balancedDr = 3 / 2 := by
  rw [C188_balanced_dr_partial exFormulaMulti_valid exFormula_one]
  decide +kernel

example := C188_multi_partial exFormulaMulti_valid exFormula_one .naiveDr (by simp) 1

/-- One round. -/
def exFormulaCont : ContLog 1 := ⟨fun _ => 0, fun _ => 0, fun _ => 7, fun _ => 1, fun _ => 0⟩

/-- **C188 fails** for self-normalised estimation with kernels: the displayed formula is 1 (or 0/0) on every log. The estimate on a log with
the reward 7 is 7. -/
theorem not_C188_kernel_snipw : (∀ {n : ℕ} (g : ContLog n) (k : ℝ → ℝ) (h : ℝ),
      g.documented k h .snipw = 1 ∨ (avg fun i => k ((g.evalAction i - g.action i) / h) * (g.reward i / g.pscore i)) = 0) ∧
    ContKind.snipw.estimatePolicyValue .gaussian (.fin 1) exFormulaCont.args = .ok 7 := by
  have hpos : 0 < Kernel.gaussian.fn 0 := C38_pos .gaussian (Or.inl rfl)
  refine ⟨fun g k h => ?_, ?_⟩
  · by_cases h0 : (avg fun i => k ((g.evalAction i - g.action i) / h) * (g.reward i / g.pscore i)) = 0
    · exact .inr h0
    · exact .inl (div_self h0)
  · rw [C188_kernel_snipw_partial ⟨by norm_num, fun _ => by norm_num [exFormulaCont]⟩ .gaussian one_ne_zero
      ⟨0, by simpa [exFormulaCont] using hpos⟩]
    congr 1
    simp only [exFormulaCont, avg, Finset.univ_unique, Finset.sum_singleton, sub_self, zero_div]
    field_simp

example := C188_kernel_partial (g := exFormulaCont) ⟨by norm_num, fun _ => by norm_num [exFormulaCont]⟩ .gaussian one_ne_zero .dr (by simp)

end Obp
