import Verif.Lemmas.RatioClt
import Mathlib.Probability.Independence.CharacteristicFunction
import Mathlib.MeasureTheory.Measure.LevyConvergence

set_option linter.unusedSectionVars false

/-!
# Sums of averages over independent strata
-/

namespace Obp
open MeasureTheory ProbabilityTheory Filter Topology

variable {Ω : Type} [MeasurableSpace Ω] {P : Measure Ω} [IsProbabilityMeasure P] {M : ℕ}

/-- Convergence in distribution along a subsequence. -/
theorem inDistribution_comp {X : ℕ → Ω → ℝ} {μ : Measure ℝ} [IsProbabilityMeasure μ]
    (h : TendstoInDistribution X atTop id (fun _ => P) μ) {N : ℕ → ℕ} (hN : Tendsto N atTop atTop) :
    TendstoInDistribution (fun t => X (N t)) atTop id (fun _ => P) μ where
  forall_aemeasurable t := h.forall_aemeasurable (N t)
  aemeasurable_limit := h.aemeasurable_limit
  tendsto := h.tendsto.comp hN

/-- Multiples of normal limits, with converging factors. -/
theorem inDistribution_mul {X : ℕ → Ω → ℝ} {v : ℝ} (hv : 0 ≤ v) {c : ℕ → ℝ} {γ : ℝ}
    (h : TendstoInDistribution X atTop id (fun _ => P) (gaussianReal 0 v.toNNReal)) (hc : Tendsto c atTop (𝓝 γ)) :
    TendstoInDistribution (fun t ω => c t * X t ω) atTop id (fun _ => P) (gaussianReal 0 (γ ^ 2 * v).toNNReal) := by
  have hcm : TendstoInMeasure P (fun t (_ : Ω) => c t) atTop fun _ => γ :=
    tendstoInMeasure_of_tendsto_ae (fun t => aestronglyMeasurable_const) (ae_of_all _ fun _ => hc)
  have h1 := h.continuous_comp_prodMk_of_tendstoInMeasure_const (g := fun x : ℝ × ℝ => x.2 * x.1) (c := γ) (by fun_prop) hcm
    fun t => aemeasurable_const
  have hmap : (gaussianReal 0 v.toNNReal).map (fun x => γ * x) = gaussianReal 0 (γ ^ 2 * v).toNNReal := by
    rw [gaussianReal_map_const_mul, mul_zero]
    congr 1
    ext
    rw [NNReal.coe_mul, NNReal.coe_mk, Real.coe_toNNReal _ hv, Real.coe_toNNReal _ (mul_nonneg (sq_nonneg γ) hv)]
  have e : (gaussianReal 0 v.toNNReal).map (fun x => γ * id x) = (gaussianReal 0 (γ ^ 2 * v).toNNReal).map id := by
    rw [Measure.map_id]
    exact hmap
  refine ⟨h1.forall_aemeasurable, aemeasurable_id, ?_⟩
  have h2 := h1.tendsto
  convert h2 using 2
  exact congrArg 𝓝 (Subtype.ext e.symm)

/-- Sums of independent variables with normal limits. -/
theorem inDistribution_sum {X : ℕ → Fin M → Ω → ℝ} {v : Fin M → ℝ} (hv : ∀ k, 0 ≤ v k)
    (h : ∀ k, TendstoInDistribution (fun t => X t k) atTop id (fun _ => P) (gaussianReal 0 (v k).toNNReal))
    (hi : ∀ t, iIndepFun (X t) P) :
    TendstoInDistribution (fun t ω => ∑ k, X t k ω) atTop id (fun _ => P) (gaussianReal 0 (∑ k, v k).toNNReal) where
  forall_aemeasurable t := Finset.aemeasurable_fun_sum _ fun k _ => (h k).forall_aemeasurable t
  tendsto := by
    refine ProbabilityMeasure.tendsto_iff_tendsto_charFun.2 fun u => ?_
    have h1 : ∀ k, Tendsto (fun t => charFun (P.map (X t k)) u) atTop (𝓝 (charFun (gaussianReal 0 (v k).toNNReal) u)) := fun k => by
      have := ProbabilityMeasure.tendsto_iff_tendsto_charFun.1 (h k).tendsto u
      simpa only [ProbabilityMeasure.coe_mk, Measure.map_id] using this
    have h2 := tendsto_finsetProd Finset.univ fun k _ => h1 k
    simp only [ProbabilityMeasure.coe_mk, Measure.map_id]
    have e1 : ∏ k, charFun (gaussianReal 0 (v k).toNNReal) u = charFun (gaussianReal 0 (∑ k, v k).toNNReal) u := by
      simp only [charFun_gaussianReal, Real.coe_toNNReal _ (hv _), Real.coe_toNNReal _ (Finset.sum_nonneg fun k _ => hv k)]
      rw [← Complex.exp_sum]
      congr 1
      simp only [Complex.ofReal_zero, mul_zero, zero_mul, zero_sub, Finset.sum_neg_distrib, Complex.ofReal_sum]
      rw [Finset.sum_mul, Finset.sum_div]
    rw [← e1]
    refine h2.congr fun t => ?_
    rw [(hi t).charFun_map_fun_sum_eq_prod fun k => (h k).forall_aemeasurable t, Finset.prod_apply]

theorem rootMean_meas {X : ℕ → Ω → ℝ} (hX : ∀ i, Measurable (X i)) (n : ℕ) : Measurable (rootMean X n) := by
  unfold rootMean meanTo
  exact ((Finset.measurable_fun_sum _ fun i _ => hX i).div_const _).const_mul _

/-- Averages over independent strata that grow, with converging factors, and averages with factors that vanish. -/
theorem clt_strata {Z U : Fin M → ℕ → Ω → ℝ} (hZ2 : ∀ k, MemLp (Z k 0) 2 P)
    (hZi : ∀ k, iIndepFun (Z k) P) (hZd : ∀ k i, IdentDistrib (Z k i) (Z k 0) P P) (hZm : ∀ k, ∫ ω, Z k 0 ω ∂P = 0)
    (hind : iIndepFun (fun k ω (i : ℕ) => Z k i ω) P)
    (hU : ∀ k i, Measurable (U k i)) (hU2 : ∀ k, MemLp (U k 0) 2 P) (hUi : ∀ k, iIndepFun (U k) P)
    (hUd : ∀ k i, IdentDistrib (U k i) (U k 0) P P) (hUm : ∀ k, ∫ ω, U k 0 ω ∂P = 0)
    {N : ℕ → Fin M → ℕ} (hN : ∀ k, Tendsto (fun t => N t k) atTop atTop)
    {c : ℕ → Fin M → ℝ} {γ : Fin M → ℝ} (hc : ∀ k, Tendsto (fun t => c t k) atTop (𝓝 (γ k)))
    {d : Fin M → ℕ → Ω → ℝ} (hdm : ∀ k t, Measurable (d k t)) (hd : ∀ k, ∀ᵐ ω ∂P, Tendsto (fun t => d k t ω) atTop (𝓝 0))
    {r : ℕ → ℝ} (hr : Tendsto r atTop (𝓝 0)) :
    TendstoInDistribution (fun t ω => ∑ k, c t k * rootMean (Z k) (N t k) ω + ∑ k, rootMean (U k) (N t k) ω * d k t ω + r t)
      atTop id (fun _ => P) (gaussianReal 0 (∑ k, γ k ^ 2 * Var[Z k 0; P]).toNNReal) := by
  have hZc := fun k => inDistribution_comp (clt_mean (hZ2 k) (hZi k) (hZd k) (hZm k)) (hN k)
  have hUc := fun k => inDistribution_comp (clt_mean (hU2 k) (hUi k) (hUd k) (hUm k)) (hN k)
  have h1 := inDistribution_sum (X := fun t k ω => c t k * rootMean (Z k) (N t k) ω)
    (fun k => mul_nonneg (sq_nonneg _) (variance_nonneg _ _)) (fun k => inDistribution_mul (variance_nonneg _ _) (hZc k) (hc k))
    fun t => by
      refine hind.comp (fun k (z : ℕ → ℝ) => c t k * (√(N t k) * meanTo z (N t k))) fun k => ?_
      unfold meanTo
      exact (((Finset.measurable_fun_sum _ fun i _ => measurable_pi_apply i).div_const _).const_mul _).const_mul _
  have hdM : ∀ k, TendstoInMeasure P (d k) atTop 0 := fun k =>
    tendstoInMeasure_of_tendsto_ae (fun t => (hdm k t).aestronglyMeasurable) (hd k)
  have hprod := fun k => inMeasure_mul (hUc k) (hdM k) fun t => (hdm k t).aemeasurable
  have key : ∀ T : Finset (Fin M), TendstoInDistribution (fun t => (fun ω => ∑ k, c t k * rootMean (Z k) (N t k) ω) +
      ∑ k ∈ T, fun ω => rootMean (U k) (N t k) ω * d k t ω) atTop id (fun _ => P)
      (gaussianReal 0 (∑ k, γ k ^ 2 * Var[Z k 0; P]).toNNReal) := by
    classical
    intro T
    induction T using Finset.induction_on with
    | empty => simpa using h1
    | insert j T hj ih =>
      have := ih.add_of_tendstoInMeasure_const (c := 0) (hprod j)
        fun t => ((rootMean_meas (hU j) _).mul (hdm j t)).aemeasurable
      simp only [id, add_zero] at this
      change TendstoInDistribution _ atTop id (fun _ => P) _ at this
      convert this using 1
      funext t
      rw [Finset.sum_insert hj, add_assoc]
      congr 1
      exact add_comm _ _
  have hrM : TendstoInMeasure P (fun t (_ : Ω) => r t) atTop 0 :=
    tendstoInMeasure_of_tendsto_ae (fun t => aestronglyMeasurable_const) (ae_of_all _ fun _ => hr)
  have := (key Finset.univ).add_of_tendstoInMeasure_const (c := 0) hrM fun t => aemeasurable_const
  simp only [id, add_zero] at this
  change TendstoInDistribution _ atTop id (fun _ => P) _ at this
  convert this using 1
  funext t ω
  simp

end Obp
