import Verif.Props.Mse
import Mathlib.Probability.Moments.SubGaussian
import Mathlib.Probability.Distributions.Uniform
import Mathlib.Probability.ProbabilityMassFunction.Integrals

set_option linter.unusedSectionVars false

/-!
# Coverage of the Hoeffding lower bound

C150: `estimate_hoeffding_lower_bound` as a confidence bound.
-/

namespace Obp
open MeasureTheory ProbabilityTheory

/-- **C150 (partial).** Let the sample be independent random numbers between 0 and `x_max`, not necessarily with the same
distribution. With probability at least `1 - delta` the bound does not exceed the expected sample mean. Missing: samples with
negative numbers, for which it is false (`not_C150_negative`), and `x_max=None`. -/
theorem C150_hoeffding_partial {Ω : Type} [MeasurableSpace Ω] {P : Measure Ω} [IsProbabilityMeasure P] {n : ℕ} (hn : 0 < n)
    {X : Fin n → Ω → ℝ} (hm : ∀ i, Measurable (X i)) (hind : iIndepFun X P) {xMax : ℝ}
    (hX : ∀ i ω, X i ω ∈ Set.Icc 0 xMax) {delta : ℝ} (h0 : 0 < delta) (h1 : delta ≤ 1) :
    ∃ lb : Ω → ℝ, (∀ ω, estimateHoeffdingLowerBound (List.ofFn fun i => X i ω) (some xMax) delta = .ok (lb ω)) ∧
      P.real {ω | (∑ i, ∫ ω', X i ω' ∂P) / n < lb ω} ≤ delta := by
  have hn' : (0 : ℝ) < n := by exact_mod_cast hn
  have hx0 : 0 ≤ xMax := by
    obtain ⟨ω⟩ : Nonempty Ω := P.nonempty_of_neZero
    exact (hX ⟨0, hn⟩ ω).1.trans (hX ⟨0, hn⟩ ω).2
  have hlog : 0 ≤ Real.log (1 / delta) := Real.log_nonneg (by rw [le_div_iff₀ h0]; linarith)
  refine ⟨fun ω => (∑ i, X i ω) / n - xMax * √(Real.log (1 / delta) / (2 * n)), fun ω => ?_, ?_⟩
  · have hne : (List.ofFn fun i => X i ω) ≠ [] := by
      intro h
      have := congrArg List.length h
      rw [List.length_ofFn] at this
      simp at this
      omega
    have hmax : XMaxIs (List.ofFn fun i => X i ω) (some xMax) xMax := by
      refine ⟨rfl, ?_⟩
      intro y hy
      obtain ⟨i, rfl⟩ := List.mem_ofFn.1 hy
      exact (hX i ω).2
    rw [C32_hoeffding_value hne hmax h0 h1]
    simp [List.sum_ofFn]
  · rcases hx0.lt_or_eq with hpos | hzero
    · have hε : 0 ≤ n * (xMax * √(Real.log (1 / delta) / (2 * n))) := by positivity
      have hsub : ∀ i ∈ (Finset.univ : Finset (Fin n)),
          HasSubgaussianMGF (fun ω => X i ω - ∫ ω', X i ω' ∂P) ((‖xMax - 0‖₊ / 2) ^ 2) P := fun i _ =>
        hasSubgaussianMGF_of_mem_Icc (hm i).aemeasurable (Filter.Eventually.of_forall (hX i))
      have hind' : iIndepFun (fun i ω => X i ω - ∫ ω', X i ω' ∂P) P :=
        hind.comp (fun i x => x - ∫ ω', X i ω' ∂P) fun i => measurable_id.sub_const _
      have key := HasSubgaussianMGF.measure_sum_ge_le_of_iIndepFun hind' hsub hε
      refine le_trans (measureReal_mono ?_) (key.trans_eq ?_)
      · intro ω hω
        simp only [Set.mem_ofPred_eq] at hω ⊢
        rw [Finset.sum_sub_distrib]
        rw [lt_sub_iff_add_lt, div_add' _ _ _ hn'.ne', div_lt_div_iff_of_pos_right hn'] at hω
        nlinarith
      · have hsq : √(Real.log (1 / delta) / (2 * n)) ^ 2 = Real.log (1 / delta) / (2 * n) :=
          Real.sq_sqrt (by positivity)
        have hexp : -(n * (xMax * √(Real.log (1 / delta) / (2 * n)))) ^ 2 /
            (2 * ((∑ _i ∈ (Finset.univ : Finset (Fin n)), (‖xMax - 0‖₊ / 2) ^ 2 : NNReal) : ℝ)) = -Real.log (1 / delta) := by
          rw [mul_pow, mul_pow, hsq]
          simp only [sub_zero, Finset.sum_const, Finset.card_univ, Fintype.card_fin, nsmul_eq_mul, NNReal.coe_mul,
            NNReal.coe_natCast, NNReal.coe_pow, NNReal.coe_div, coe_nnnorm, Real.norm_of_nonneg hx0, NNReal.coe_ofNat]
          field_simp
        push_cast at hexp ⊢
        rw [hexp, Real.exp_neg, Real.exp_log (by positivity), one_div, inv_inv]
    · have hX0 : ∀ i ω, X i ω = 0 := fun i ω => le_antisymm (hzero ▸ (hX i ω).2) (hX i ω).1
      have : {ω | (∑ i, ∫ ω', X i ω' ∂P) / n < (∑ i, X i ω) / n - xMax * √(Real.log (1 / delta) / (2 * n))} = ∅ := by
        ext ω
        simp [hX0, ← hzero]
      rw [this]
      simpa using h0.le

/-- The hypotheses are met, with a sample that is not constant: two fair coins. -/
example : ∃ (P : Measure (Fin 2 → Bool)) (_ : IsProbabilityMeasure P) (X : Fin 2 → (Fin 2 → Bool) → ℝ),
    (∀ i, Measurable (X i)) ∧ iIndepFun X P ∧ (∀ i ω, X i ω ∈ Set.Icc 0 1) ∧ ∀ i, X i (fun _ => true) ≠ X i (fun _ => false) := by
  refine ⟨Measure.pi fun _ => (PMF.uniformOfFintype Bool).toMeasure, inferInstance,
    fun i ω => if ω i then 1 else 0, fun i => ?_, ?_, fun i ω => ?_, fun i => by simp⟩
  · exact (measurable_of_finite fun b : Bool => if b then (1 : ℝ) else 0).comp (measurable_pi_apply i)
  · exact iIndepFun_pi (X := fun _ (b : Bool) => if b then (1 : ℝ) else 0) fun _ => (measurable_of_finite _).aemeasurable
  · dsimp only
    split <;> norm_num

/-- **C150 fails for negative numbers.** The docstring asks for independent bounded numbers only. A sample of one number that
is 0 or -1 with equal chances, `x_max=0` and `delta=0.05`: the call succeeds, and the bound exceeds the expected value with
probability one half. -/
theorem not_C150_negative : ∃ (P : Measure Bool) (_ : IsProbabilityMeasure P) (X : Fin 1 → Bool → ℝ) (lb : Bool → ℝ),
    (∀ i, Measurable (X i)) ∧ iIndepFun X P ∧ (∀ i ω, X i ω ∈ Set.Icc (-1) 0) ∧
    (∀ ω, estimateHoeffdingLowerBound (List.ofFn fun i => X i ω) (some 0) (1 / 20) = .ok (lb ω)) ∧
    P.real {ω | (∑ i, ∫ ω', X i ω' ∂P) / (1 : ℕ) < lb ω} = 1 / 2 := by
  have hval : ∀ b, ((PMF.uniformOfFintype Bool) b).toReal = 1 / 2 := by
    intro b
    simp
  refine ⟨(PMF.uniformOfFintype Bool).toMeasure, inferInstance, fun _ b => if b then 0 else -1, fun b => if b then 0 else -1,
    fun _ => measurable_of_finite _, .of_subsingleton, fun _ b => ?_, fun b => ?_, ?_⟩
  · cases b <;> simp
  · have hlog : 0 ≤ Real.log (20 : ℝ) := Real.log_nonneg (by norm_num)
    have hs : ¬ Real.log (20 : ℝ) / 2 < 0 := not_lt.2 (by positivity)
    have h1 : ¬ (1 : ℝ) < 0 := by norm_num
    have h2 : ¬ (20 : ℝ) < 0 := by norm_num
    have h3 : ¬ (1 : ℝ) < 20⁻¹ := by norm_num
    cases b <;>
      simp [estimateHoeffdingLowerBound, chooseXMax, npMax, raiseIf, checkDelta, pyDiv, npDiv, npSqrt, npMean] <;>
      simp only [if_neg hs, if_neg h1, if_neg h2, if_neg h3] <;> rfl
  · have hint : ∫ b, (if b then (0 : ℝ) else -1) ∂(PMF.uniformOfFintype Bool).toMeasure = -1 / 2 := by
      rw [PMF.integral_eq_sum]
      simp
      norm_num
    have hset : {b : Bool | (∑ _i : Fin 1, ∫ b', (if b' then (0 : ℝ) else -1) ∂(PMF.uniformOfFintype Bool).toMeasure) / (1 : ℕ)
        < (if b then (0 : ℝ) else -1)} = {true} := by
      ext b
      simp only [hint, Set.mem_ofPred_eq]
      cases b <;> norm_num
    rw [hset, measureReal_def, PMF.toMeasure_apply_singleton _ _ (measurableSet_singleton _)]
    exact hval true

end Obp
