import Verif.Lemmas.EmpiricalChar
import Mathlib.Probability.CentralLimitTheorem
import Mathlib.Probability.StrongLaw
import Mathlib.MeasureTheory.Measure.Portmanteau

set_option linter.unusedSectionVars false

/-!
# Errors of averages and of ratios of averages
-/

namespace Obp
open MeasureTheory ProbabilityTheory Filter Topology

variable {Ω : Type} [MeasurableSpace Ω] {P : Measure Ω} [IsProbabilityMeasure P]

/-- Convergence in distribution to zero is convergence in probability. -/
theorem inMeasure_of_inDistribution {X : ℕ → Ω → ℝ} {μ : Measure ℝ} [IsProbabilityMeasure μ]
    (h : TendstoInDistribution X atTop (fun _ : ℝ => (0 : ℝ)) (fun _ => P) μ) : TendstoInMeasure P X atTop 0 := by
  rw [tendstoInMeasure_iff_measureReal_norm]
  intro ε hε
  have hc : IsClosed {x : ℝ | ε ≤ ‖x‖} := isClosed_le continuous_const continuous_norm
  have hfr : (μ.map fun _ : ℝ => (0 : ℝ)) (frontier {x : ℝ | ε ≤ ‖x‖}) = 0 := by
    rw [Measure.map_const, measure_univ, one_smul, Measure.dirac_apply' _ isClosed_frontier.measurableSet,
      Set.indicator_of_notMem]
    intro h0
    have : (0 : ℝ) ∈ {x : ℝ | ε ≤ ‖x‖} := hc.frontier_subset h0
    simp at this
    linarith
  have h1 := ProbabilityMeasure.tendsto_measure_of_null_frontier_of_tendsto' h.tendsto (E := {x : ℝ | ε ≤ ‖x‖}) hfr
  have h2 : (μ.map fun _ : ℝ => (0 : ℝ)) {x : ℝ | ε ≤ ‖x‖} = 0 := by
    rw [Measure.map_const, measure_univ, one_smul, Measure.dirac_apply' _ hc.measurableSet, Set.indicator_of_notMem]
    simpa using hε
  have h3 := (ENNReal.tendsto_toReal (measure_ne_top (μ.map fun _ : ℝ => (0 : ℝ)) {x : ℝ | ε ≤ ‖x‖})).comp h1
  rw [h2, ENNReal.toReal_zero] at h3
  refine h3.congr fun n => ?_
  simp only [Function.comp_apply, ProbabilityMeasure.coe_mk, Measure.real]
  rw [Measure.map_apply_of_aemeasurable (h.forall_aemeasurable n) hc.measurableSet]
  simp

/-- A variable bounded in probability, times one tending to zero. -/
theorem inMeasure_mul {X Y : ℕ → Ω → ℝ} {μ : Measure ℝ} [IsProbabilityMeasure μ]
    (h : TendstoInDistribution X atTop id (fun _ => P) μ) (hY : TendstoInMeasure P Y atTop 0) (hYm : ∀ n, AEMeasurable (Y n) P) :
    TendstoInMeasure P (fun n ω => X n ω * Y n ω) atTop 0 := by
  refine inMeasure_of_inDistribution (μ := μ) ?_
  have := h.continuous_comp_prodMk_of_tendstoInMeasure_const (g := fun x : ℝ × ℝ => x.1 * x.2) (c := 0) (by fun_prop) hY hYm
  simpa using this

/-- `√n` times the average of the first `n` variables. -/
noncomputable def rootMean (X : ℕ → Ω → ℝ) (n : ℕ) (ω : Ω) : ℝ := √n * meanTo (fun i => X i ω) n

theorem clt_mean {X : ℕ → Ω → ℝ} (h2 : MemLp (X 0) 2 P) (hindep : iIndepFun X P) (hident : ∀ i, IdentDistrib (X i) (X 0) P P)
    (hm : ∫ ω, X 0 ω ∂P = 0) :
    TendstoInDistribution (rootMean X) atTop id (fun _ => P) (gaussianReal 0 Var[X 0; P].toNNReal) := by
  have h := tendstoInDistribution_inv_sqrt_mul_sum_sub (Y := id) (P' := gaussianReal 0 Var[X 0; P].toNNReal)
      ⟨aemeasurable_id, Measure.map_id⟩ h2 hindep hident
  refine (show rootMean X = _ from ?_) ▸ h
  funext n ω
  rw [hm, mul_zero, sub_zero, rootMean, meanTo]
  rcases Nat.eq_zero_or_pos n with rfl | hn
  · simp
  · have hs : 0 < √(n : ℝ) := Real.sqrt_pos.2 (by exact_mod_cast hn)
    have hn' : (n : ℝ) ≠ 0 := by exact_mod_cast hn.ne'
    field_simp
    rw [Real.sq_sqrt (Nat.cast_nonneg n), mul_comm]

/-- `√n (Ā + Ū / W̄)` for averages of centred `A`, `U` and `W` with mean one. -/
theorem clt_ratio {A U W : ℕ → Ω → ℝ} (hW : ∀ i, Measurable (W i))
    (hD2 : MemLp (A 0 + U 0) 2 P) (hDi : iIndepFun (fun i => A i + U i) P)
    (hDd : ∀ i, IdentDistrib (A i + U i) (A 0 + U 0) P P) (hDm : ∫ ω, A 0 ω + U 0 ω ∂P = 0)
    (hU2 : MemLp (U 0) 2 P) (hUi : iIndepFun U P) (hUd : ∀ i, IdentDistrib (U i) (U 0) P P) (hUm : ∫ ω, U 0 ω ∂P = 0)
    (hw : ∀ᵐ ω ∂P, Tendsto (fun n => meanTo (fun i => W i ω) n) atTop (𝓝 1)) :
    TendstoInDistribution (fun (n : ℕ) ω => √n * (meanTo (fun i => A i ω) n + meanTo (fun i => U i ω) n / meanTo (fun i => W i ω) n))
      atTop id (fun _ => P) (gaussianReal 0 Var[A 0 + U 0; P].toNNReal) := by
  have hc1 := clt_mean (X := fun i => A i + U i) hD2 hDi hDd hDm
  have hc2 := clt_mean hU2 hUi hUd hUm
  have hWm : ∀ n, Measurable fun ω => meanTo (fun i => W i ω) n := fun n => by
    unfold meanTo
    exact (Finset.measurable_fun_sum _ fun i _ => hW i).div_const _
  let δ : ℕ → Ω → ℝ := fun n ω => (meanTo (fun i => W i ω) n)⁻¹ - 1
  have hδm : ∀ n, Measurable (δ n) := fun n => (hWm n).inv.sub_const 1
  have hδ : TendstoInMeasure P δ atTop 0 := by
    refine tendstoInMeasure_of_tendsto_ae (fun n => (hδm n).aestronglyMeasurable) ?_
    filter_upwards [hw] with ω hω
    have := (hω.inv₀ one_ne_zero).sub_const 1
    simpa using this
  have hprod := inMeasure_mul hc2 hδ fun n => (hδm n).aemeasurable
  have heq : (fun (n : ℕ) ω => √n * (meanTo (fun i => A i ω) n + meanTo (fun i => U i ω) n / meanTo (fun i => W i ω) n)) =
      fun n => rootMean (fun i => A i + U i) n + fun ω => rootMean U n ω * δ n ω := by
    funext n ω
    simp only [Pi.add_apply, rootMean, δ, meanTo, Finset.sum_add_distrib]
    ring
  rw [heq]
  have := hc1.add_of_tendstoInMeasure_const (c := 0) hprod fun n => (hc2.forall_aemeasurable n).mul (hδm n).aemeasurable
  simp only [id, add_zero] at this
  exact this

/-- Probabilities of half lines. -/
theorem tendsto_Iic {X : ℕ → Ω → ℝ} {var : ℝ} (hv : 0 < var)
    (h : TendstoInDistribution X atTop id (fun _ => P) (gaussianReal 0 var.toNNReal)) (t : ℝ) :
    Tendsto (fun n => P.real {ω | X n ω ≤ t}) atTop (𝓝 ((gaussianReal 0 var.toNNReal).real (Set.Iic t))) := by
  have hv' : var.toNNReal ≠ 0 := by
    rw [ne_eq, Real.toNNReal_eq_zero, not_le]
    exact hv
  have : NullSingletonClass (gaussianReal 0 var.toNNReal) := nullSingletonClass_gaussianReal hv'
  have hfr : ((gaussianReal 0 var.toNNReal).map id) (frontier (Set.Iic t)) = 0 := by
    rw [Measure.map_id, frontier_Iic]
    exact measure_singleton t
  have h1 := ProbabilityMeasure.tendsto_measure_of_null_frontier_of_tendsto' h.tendsto (E := Set.Iic t) hfr
  have h3 := (ENNReal.tendsto_toReal (measure_ne_top ((gaussianReal 0 var.toNNReal).map id) (Set.Iic t))).comp h1
  rw [Measure.map_id] at h3
  refine h3.congr fun n => ?_
  simp only [Function.comp_apply, ProbabilityMeasure.coe_mk, Measure.real]
  rw [Measure.map_apply_of_aemeasurable (h.forall_aemeasurable n) measurableSet_Iic]
  rfl

/-- Two sequences of events that differ on sets of vanishing probability. -/
theorem tendsto_of_diff {S T N : ℕ → Set Ω} {c : ℝ} (h : Tendsto (fun n => P.real (T n)) atTop (𝓝 c))
    (hN : Tendsto (fun n => P.real (N n)) atTop (𝓝 0)) (hST : ∀ᶠ n in atTop, ∀ᵐ ω ∂P, ω ∉ N n → (ω ∈ S n ↔ ω ∈ T n)) :
    Tendsto (fun n => P.real (S n)) atTop (𝓝 c) := by
  have hlo : ∀ᶠ n in atTop, P.real (T n) - P.real (N n) ≤ P.real (S n) := by
    filter_upwards [hST] with n hn
    have : P.real (T n) ≤ P.real (S n ∪ N n) := by
      refine ENNReal.toReal_mono (measure_ne_top _ _) (measure_mono_ae ?_)
      filter_upwards [hn] with ω hω hT
      by_cases hb : ω ∈ N n
      · exact Or.inr hb
      · exact Or.inl ((hω hb).2 hT)
    linarith [measureReal_union_le (μ := P) (S n) (N n)]
  have hup : ∀ᶠ n in atTop, P.real (S n) ≤ P.real (T n) + P.real (N n) := by
    filter_upwards [hST] with n hn
    have : P.real (S n) ≤ P.real (T n ∪ N n) := by
      refine ENNReal.toReal_mono (measure_ne_top _ _) (measure_mono_ae ?_)
      filter_upwards [hn] with ω hω hT
      by_cases hb : ω ∈ N n
      · exact Or.inr hb
      · exact Or.inl ((hω hb).1 hT)
    linarith [measureReal_union_le (μ := P) (T n) (N n)]
  refine tendsto_of_tendsto_of_tendsto_of_le_of_le' (by simpa using h.sub hN) (by simpa using h.add hN) hlo hup

end Obp
