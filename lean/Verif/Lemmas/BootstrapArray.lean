import Verif.Lemmas.EmpiricalArray
import Verif.Lemmas.CentralCount
import Verif.Lemmas.BootstrapCount

set_option linter.unusedSectionVars false

/-!
# Bootstrap averages of growing samples that are not parts of one sequence
-/

namespace Obp
open MeasureTheory ProbabilityTheory Filter Topology

variable {Ω : Type} [mΩ : MeasurableSpace Ω] {P : Measure Ω} [IsProbabilityMeasure P]

/-- Distribution functions that converge everywhere. -/
theorem charFun_of_cdf {Y : ℕ → Ω → ℝ} (hY : ∀ t, Measurable (Y t)) {μ : Measure ℝ} [IsProbabilityMeasure μ]
    (h : ∀ x, Tendsto (fun t => P.real {ω | Y t ω ≤ x}) atTop (𝓝 (μ.real (Set.Iic x)))) (u : ℝ) :
    Tendsto (fun t => charFun (P.map (Y t)) u) atTop (𝓝 (charFun μ u)) := by
  let ν : ℕ → ProbabilityMeasure ℝ := fun t => ⟨P.map (Y t), Measure.isProbabilityMeasure_map (hY t).aemeasurable⟩
  have hconv : Tendsto ν atTop (𝓝 (⟨μ, inferInstance⟩ : ProbabilityMeasure ℝ)) := by
    refine (isPiSystem_Ioc (fun x : ℝ => x) fun x : ℝ => x).tendsto_probabilityMeasure_of_tendsto_of_mem ?_ ?_ ?_
    · rintro s ⟨l, r, -, rfl⟩
      exact measurableSet_Ioc
    · intro U hU x hx
      obtain ⟨e, he, hs⟩ := Metric.isOpen_iff.1 hU x hx
      refine ⟨Set.Ioc (x - e / 2) (x + e / 2), ⟨x - e / 2, x + e / 2, by linarith, rfl⟩,
        Ioc_mem_nhds (by linarith) (by linarith), fun z hz => hs ?_⟩
      rw [Metric.mem_ball, Real.dist_eq, abs_lt]
      constructor <;> linarith [hz.1, hz.2]
    · rintro s ⟨l, r, hlr, rfl⟩
      have key : ∀ (κ : Measure ℝ) [IsProbabilityMeasure κ], κ.real (Set.Ioc l r) = κ.real (Set.Iic r) - κ.real (Set.Iic l) := by
        intro κ _
        have e : Set.Ioc l r = Set.Iic r \ Set.Iic l := by
          ext z
          simp [and_comm]
        rw [e, measureReal_sdiff (Set.Iic_subset_Iic.2 (le_of_lt hlr)) measurableSet_Iic]
      have h1 : Tendsto (fun t => (P.map (Y t)).real (Set.Ioc l r)) atTop (𝓝 (μ.real (Set.Ioc l r))) := by
        have e : ∀ t, (P.map (Y t)).real (Set.Ioc l r) = P.real {ω | Y t ω ≤ r} - P.real {ω | Y t ω ≤ l} := fun t => by
          have := Measure.isProbabilityMeasure_map (μ := P) (hY t).aemeasurable
          rw [key, map_measureReal_apply (hY t) measurableSet_Iic, map_measureReal_apply (hY t) measurableSet_Iic]
          rfl
        rw [key μ]
        simp only [e]
        exact (h r).sub (h l)
      rw [← NNReal.tendsto_coe]
      exact h1
  have := ProbabilityMeasure.tendsto_iff_tendsto_charFun.1 hconv u
  exact this

namespace Resampling
variable {X : ℕ → ℕ → Ω → ℝ} {B : ℕ}

theorem tendsto_spread_array (R : ∀ t, Resampling P (X t) B) (hX : ∀ t i, Measurable (X t i)) {n : ℕ → ℕ}
    (hn : Tendsto n atTop atTop) {v a m s2 : ℝ} (ha : 0 ≤ a)
    (hcdf : ∀ x, Tendsto (fun t => P.real {ω | √(n t) * (meanTo (fun i => X t i ω) (n t) - v) ≤ x}) atTop
      (𝓝 ((gaussianReal 0 a.toNNReal).real (Set.Iic x))))
    (h1 : ∀ᵐ ω ∂P, Tendsto (fun t => meanTo (fun i => X t i ω) (n t)) atTop (𝓝 m))
    (h2 : ∀ᵐ ω ∂P, Tendsto (fun t => meanTo (fun i => X t i ω ^ 2) (n t)) atTop (𝓝 s2))
    (h3 : ∀ᵐ ω ∂P, ∀ ε : ℝ, 0 < ε → ∀ᶠ t in atTop, ∀ k < n t, |X t k ω| ≤ ε * √(n t)) (u : EuclideanSpace ℝ (Option (Fin B))) :
    Tendsto (fun t => charFun (P.map fun ω => WithLp.toLp 2 ((R t).spread v (n t) ω)) u) atTop
      (𝓝 (Complex.exp ((-(u none ^ 2 * a) / 2 : ℝ) : ℂ) * ∏ j : Fin B, Complex.exp ((-(u (some j) ^ 2 * (s2 - m ^ 2)) / 2 : ℝ) : ℂ))) := by
  set c : ℂ := ∏ j : Fin B, Complex.exp ((-(u (some j) ^ 2 * (s2 - m ^ 2)) / 2 : ℝ) : ℂ) with hc
  have hmm : ∀ t, Measurable fun ω => meanTo (fun i => X t i ω) (n t) := fun t => by
    unfold meanTo
    exact (Finset.measurable_fun_sum _ fun i _ => hX t i).div_const _
  -- the first factor
  let A : ℕ → Ω → ℂ := fun t ω => Complex.exp (((u none * (√(n t) * (v - meanTo (fun i => X t i ω) (n t))) : ℝ) : ℂ) * Complex.I)
  have hA : Tendsto (fun t => ∫ ω, A t ω ∂P) atTop (𝓝 (Complex.exp ((-(u none ^ 2 * a) / 2 : ℝ) : ℂ))) := by
    have hYm : ∀ t, Measurable fun ω => √(n t) * (meanTo (fun i => X t i ω) (n t) - v) := fun t => ((hmm t).sub_const _).const_mul _
    have h4 := charFun_of_cdf hYm hcdf (-u none)
    rw [charFun_gaussianReal, Real.coe_toNNReal _ ha] at h4
    rw [show Complex.exp ((-(u none ^ 2 * a) / 2 : ℝ) : ℂ) =
      Complex.exp (((-u none : ℝ) : ℂ) * ((0 : ℝ) : ℂ) * Complex.I - (a : ℂ) * ((-u none : ℝ) : ℂ) ^ 2 / 2) by
        push_cast
        congr 1
        ring]
    refine h4.congr fun t => ?_
    rw [charFun_apply_real, integral_map (hYm t).aemeasurable]
    · refine integral_congr_ae (ae_of_all _ fun ω => ?_)
      simp only [A]
      rw [← Complex.ofReal_mul]
      congr 3
      ring
    · refine Continuous.aestronglyMeasurable ?_
      fun_prop
  -- the second factor
  have hBo : ∀ᵐ ω ∂P, Tendsto (fun t => ∏ j : Fin B, empChar (fun i => X t i ω) (n t) ((√(n t))⁻¹ * u (some j)) ^ n t) atTop (𝓝 c) := by
    filter_upwards [h1, h2, h3] with ω w1 w2 w3
    exact tendsto_finsetProd _ fun j _ => empChar_pow_array (x := fun t i => X t i ω) hn w1 w2 w3 (u (some j))
  have hBm : ∀ t, Measurable fun ω => ∏ j : Fin B, empChar (fun i => X t i ω) (n t) ((√(n t))⁻¹ * u (some j)) ^ n t := by
    intro t
    refine Finset.measurable_fun_prod _ fun j _ => Measurable.pow_const ?_ (n t)
    unfold empChar
    refine Measurable.div_const (Finset.measurable_fun_sum _ fun k _ => ?_) _
    have := (hX t k).sub (hmm t)
    fun_prop
  have hBn : ∀ t ω, ‖∏ j : Fin B, empChar (fun i => X t i ω) (n t) ((√(n t))⁻¹ * u (some j)) ^ n t‖ ≤ 1 := by
    intro t ω
    rw [norm_prod]
    refine Finset.prod_le_one (fun _ _ => norm_nonneg _) fun j _ => ?_
    rw [norm_pow]
    exact pow_le_one₀ (norm_nonneg _) (norm_empChar_le _ _ _)
  have hAm : ∀ t, Measurable (A t) := by
    intro t
    have := hmm t
    simp only [A]
    fun_prop
  have hAn : ∀ t ω, ‖A t ω‖ = 1 := fun t ω => Complex.norm_exp_ofReal_mul_I _
  have hdiff : Tendsto (fun t => ∫ ω, A t ω *
      (∏ j : Fin B, empChar (fun i => X t i ω) (n t) ((√(n t))⁻¹ * u (some j)) ^ n t - c) ∂P) atTop (𝓝 (∫ _, (0 : ℂ) ∂P)) := by
    refine tendsto_integral_of_dominated_convergence (fun _ => 1 + ‖c‖)
      (fun t => ((hAm t).mul ((hBm t).sub_const c)).aestronglyMeasurable) (integrable_const _)
      (fun t => ae_of_all _ fun ω => ?_) ?_
    · rw [norm_mul, hAn, one_mul]
      exact (norm_sub_le _ _).trans (by gcongr; exact hBn t ω)
    · filter_upwards [hBo] with ω hω
      rw [tendsto_zero_iff_norm_tendsto_zero]
      simp only [norm_mul, hAn, one_mul]
      rw [← tendsto_zero_iff_norm_tendsto_zero]
      have := hω.sub_const c
      rwa [sub_self] at this
  have hsum := hdiff.add (hA.mul_const c)
  simp only [integral_zero, zero_add] at hsum
  refine hsum.congr' ?_
  filter_upwards [hn.eventually_gt_atTop 0] with t ht
  rw [(R t).charFun_spread (hX t) v ht, ← integral_mul_const, ← integral_add]
  · exact integral_congr_ae (ae_of_all _ fun ω => by simp only [A]; ring)
  · refine Integrable.of_bound ((hAm t).mul ((hBm t).sub_const c)).aestronglyMeasurable (1 + ‖c‖) (ae_of_all _ fun ω => ?_)
    rw [norm_mul, hAn, one_mul]
    exact (norm_sub_le _ _).trans (by gcongr; exact hBn t ω)
  · exact (Integrable.of_bound (hAm t).aestronglyMeasurable 1 (ae_of_all _ fun ω => (hAn t ω).le)).mul_const c

/-- The chance that more than `k` bootstrap averages are at most the true value and more than `k` at least. -/
theorem tendsto_midRank_array (R : ∀ t, Resampling P (X t) B) (hX : ∀ t i, Measurable (X t i)) {n : ℕ → ℕ}
    (hn : Tendsto n atTop atTop) {v a m s2 : ℝ} (ha : 0 < a) (hb : 0 < s2 - m ^ 2)
    (hcdf : ∀ x, Tendsto (fun t => P.real {ω | √(n t) * (meanTo (fun i => X t i ω) (n t) - v) ≤ x}) atTop
      (𝓝 ((gaussianReal 0 a.toNNReal).real (Set.Iic x))))
    (h1 : ∀ᵐ ω ∂P, Tendsto (fun t => meanTo (fun i => X t i ω) (n t)) atTop (𝓝 m))
    (h2 : ∀ᵐ ω ∂P, Tendsto (fun t => meanTo (fun i => X t i ω ^ 2) (n t)) atTop (𝓝 s2))
    (h3 : ∀ᵐ ω ∂P, ∀ ε : ℝ, 0 < ε → ∀ᶠ t in atTop, ∀ k < n t, |X t k ω| ≤ ε * √(n t)) (k : ℕ) :
    Tendsto (fun t => P.real {ω | (R t).spread v (n t) ω ∈ midRank k none}) atTop
      (𝓝 ((Measure.pi (mixedLaw (gaussianReal 0 a.toNNReal) (gaussianReal 0 (s2 - m ^ 2).toNNReal) B)).real (midRank k none))) := by
  have i1 : NullSingletonClass (gaussianReal 0 a.toNNReal) :=
    nullSingletonClass_gaussianReal (by rw [ne_eq, Real.toNNReal_eq_zero, not_le]; exact ha)
  have i2 : NullSingletonClass (gaussianReal 0 (s2 - m ^ 2).toNNReal) :=
    nullSingletonClass_gaussianReal (by rw [ne_eq, Real.toNNReal_eq_zero, not_le]; exact hb)
  set μ := mixedLaw (gaussianReal 0 a.toNNReal) (gaussianReal 0 (s2 - m ^ 2).toNNReal) B with hμ
  let E := EuclideanSpace ℝ (Option (Fin B))
  have hmW : ∀ t, Measurable fun ω => (WithLp.toLp 2 ((R t).spread v (n t) ω) : E) := fun t =>
    (WithLp.measurable_toLp 2 _).comp ((R t).spread_meas (hX t) _ (n t))
  have hmT : Measurable fun w : Option (Fin B) → ℝ => (WithLp.toLp 2 w : E) := WithLp.measurable_toLp 2 _
  let ν : ℕ → ProbabilityMeasure E := fun t => ⟨P.map fun ω => WithLp.toLp 2 ((R t).spread v (n t) ω),
    Measure.isProbabilityMeasure_map (hmW t).aemeasurable⟩
  let ν0 : ProbabilityMeasure E := ⟨(Measure.pi μ).map (WithLp.toLp 2), Measure.isProbabilityMeasure_map hmT.aemeasurable⟩
  have hconv : Tendsto ν atTop (𝓝 ν0) := by
    refine ProbabilityMeasure.tendsto_of_tendsto_charFun fun u => ?_
    have h4 := tendsto_spread_array R hX hn ha.le hcdf h1 h2 h3 u
    have h5 : charFun (ν0 : Measure E) u = Complex.exp ((-(u none ^ 2 * a) / 2 : ℝ) : ℂ) *
        ∏ j : Fin B, Complex.exp ((-(u (some j) ^ 2 * (s2 - m ^ 2)) / 2 : ℝ) : ℂ) := by
      refine (charFun_pi (μ := μ) u).trans ?_
      rw [Fintype.prod_option]
      congr 1
      · rw [hμ]
        simp only [mixedLaw, Option.elim]
        rw [charFun_gaussianReal, Real.coe_toNNReal _ ha.le]
        push_cast
        congr 1
        ring
      · refine Finset.prod_congr rfl fun j _ => ?_
        rw [hμ]
        simp only [mixedLaw, Option.elim]
        rw [charFun_gaussianReal, Real.coe_toNNReal _ hb.le]
        push_cast
        congr 1
        ring
    rw [h5]
    exact h4
  have hcont : Continuous fun w : E => (WithLp.ofLp w : Option (Fin B) → ℝ) := PiLp.continuous_ofLp 2 _
  let S : Set E := (fun w : E => (WithLp.ofLp w : Option (Fin B) → ℝ)) ⁻¹' midRank k none
  have hSm : MeasurableSet S := (isClosed_midRank k none).measurableSet.preimage hcont.measurable
  have hν0 : (ν0 : Measure E) = (Measure.pi μ).map (WithLp.toLp 2) := rfl
  have hfr : (ν0 : Measure E) (frontier S) = 0 := by
    have hsub : frontier S ⊆ (fun w : E => (WithLp.ofLp w : Option (Fin B) → ℝ)) ⁻¹' frontier (midRank k none) :=
      hcont.frontier_preimage_subset _
    refine measure_mono_null hsub ?_
    rw [hν0, Measure.map_apply hmT (isClosed_frontier.measurableSet.preimage hcont.measurable)]
    exact midRank_frontier_null_mixed μ k none
  have h6 := (ENNReal.tendsto_toReal (measure_ne_top (ν0 : Measure E) S)).comp
    (ProbabilityMeasure.tendsto_measure_of_null_frontier_of_tendsto' hconv hfr)
  have h7 : ((ν0 : Measure E) S).toReal = (Measure.pi μ).real (midRank k none) := by
    rw [hν0, Measure.map_apply hmT hSm]
    rfl
  rw [h7] at h6
  refine h6.congr fun t => ?_
  change ((P.map fun ω => (WithLp.toLp 2 ((R t).spread v (n t) ω) : E)) S).toReal = _
  rw [Measure.map_apply (hmW t) hSm]
  rfl

end Resampling
end Obp
