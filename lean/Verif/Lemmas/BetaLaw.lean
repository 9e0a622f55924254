import Mathlib.Probability.Distributions.Beta

/-! # Beta distributions concentrate around their means and charge both ends of the unit interval -/

namespace Obp
open MeasureTheory ProbabilityTheory Filter Topology

variable {A B : ℝ}

theorem beta_succ_left (hA : 0 < A) (hB : 0 < B) : beta (A + 1) B = A / (A + B) * beta A B := by
  have h1 : Real.Gamma (A + 1) = A * Real.Gamma A := Real.Gamma_add_one hA.ne'
  have h2 : Real.Gamma (A + 1 + B) = (A + B) * Real.Gamma (A + B) := by
    rw [show A + 1 + B = (A + B) + 1 by ring]
    exact Real.Gamma_add_one (by positivity)
  have h3 := (Real.Gamma_pos_of_pos (add_pos hA hB)).ne'
  rw [beta, beta, h1, h2]
  field_simp

/-- Multiplying the density by the variable gives the density of the next distribution. -/
theorem mul_betaPDFReal (hA : 0 < A) (hB : 0 < B) (x : ℝ) :
    x * betaPDFReal A B x = A / (A + B) * betaPDFReal (A + 1) B x := by
  unfold betaPDFReal
  split
  · rename_i h
    have hb := (beta_pos hA hB).ne'
    have hx : x ^ (A + 1 - 1) = x * x ^ (A - 1) := by
      rw [show A + 1 - 1 = (A - 1) + 1 by ring, Real.rpow_add_one h.1.ne', mul_comm]
    rw [beta_succ_left hA hB, hx]
    have hs : A + B ≠ 0 := by positivity
    field_simp
  · simp

theorem betaPDFReal_nonneg (hA : 0 < A) (hB : 0 < B) (x : ℝ) : 0 ≤ betaPDFReal A B x := by
  by_cases h : 0 < x ∧ x < 1
  · exact (betaPDFReal_pos h.1 h.2 hA hB).le
  · simp [betaPDFReal, h]

theorem integrable_betaPDFReal (hA : 0 < A) (hB : 0 < B) : Integrable (betaPDFReal A B) := by
  refine ⟨(measurable_betaPDFReal A B).aestronglyMeasurable, ?_⟩
  rw [hasFiniteIntegral_iff_ofReal (Eventually.of_forall (betaPDFReal_nonneg hA hB))]
  have := lintegral_betaPDF_eq_one hA hB
  simp only [betaPDF] at this
  rw [this]
  exact ENNReal.one_lt_top

theorem integral_betaPDFReal (hA : 0 < A) (hB : 0 < B) : ∫ x, betaPDFReal A B x = 1 := by
  rw [integral_eq_lintegral_of_nonneg_ae (Eventually.of_forall (betaPDFReal_nonneg hA hB))
    (measurable_betaPDFReal A B).aestronglyMeasurable]
  have := lintegral_betaPDF_eq_one hA hB
  simp only [betaPDF] at this
  rw [this]
  simp

/-- The second moment around any point. -/
theorem integral_sq_betaPDFReal (hA : 0 < A) (hB : 0 < B) (m : ℝ) :
    Integrable (fun x => (x - m) ^ 2 * betaPDFReal A B x) ∧
    ∫ x, (x - m) ^ 2 * betaPDFReal A B x =
      A / (A + B) * ((A + 1) / (A + 1 + B)) - 2 * m * (A / (A + B)) + m ^ 2 := by
  have hA1 : 0 < A + 1 := by linarith
  have hA2 : 0 < A + 1 + 1 := by linarith
  have e : ∀ x, (x - m) ^ 2 * betaPDFReal A B x =
      A / (A + B) * ((A + 1) / (A + 1 + B)) * betaPDFReal (A + 1 + 1) B x -
        2 * m * (A / (A + B)) * betaPDFReal (A + 1) B x + m ^ 2 * betaPDFReal A B x := by
    intro x
    have h1 := mul_betaPDFReal hA hB x
    have h2 := mul_betaPDFReal hA1 hB x
    linear_combination x * h1 - 2 * m * h1 + A / (A + B) * h2
  simp only [e]
  have i2 := (integrable_betaPDFReal hA2 hB).const_mul (A / (A + B) * ((A + 1) / (A + 1 + B)))
  have i1 := (integrable_betaPDFReal hA1 hB).const_mul (2 * m * (A / (A + B)))
  have i0 := (integrable_betaPDFReal hA hB).const_mul (m ^ 2)
  refine ⟨(i2.sub i1).add i0, ?_⟩
  rw [integral_add (f := fun x => A / (A + B) * ((A + 1) / (A + 1 + B)) * betaPDFReal (A + 1 + 1) B x -
      2 * m * (A / (A + B)) * betaPDFReal (A + 1) B x) (i2.sub i1) i0, integral_sub i2 i1, integral_const_mul, integral_const_mul, integral_const_mul,
    integral_betaPDFReal hA hB, integral_betaPDFReal hA1 hB, integral_betaPDFReal hA2 hB]
  ring

/-- **Chebyshev** for Beta distributions. -/
theorem betaMeasure_far_le (hA : 0 < A) (hB : 0 < B) {η : ℝ} (hη : 0 < η) {S : Set ℝ} (hS : MeasurableSet S)
    (hfar : ∀ x ∈ S, η ≤ |x - A / (A + B)|) : (betaMeasure A B).real S ≤ 1 / ((A + B) * η ^ 2) := by
  set m := A / (A + B) with hm
  have hs : 0 < A + B := by positivity
  obtain ⟨hint, hval⟩ := integral_sq_betaPDFReal hA hB m
  have hreal : (betaMeasure A B).real S = ∫ x in S, betaPDFReal A B x := by
    rw [Measure.real, betaMeasure, withDensity_apply _ hS,
      integral_eq_lintegral_of_nonneg_ae (Eventually.of_forall (betaPDFReal_nonneg hA hB))
        (measurable_betaPDFReal A B).aestronglyMeasurable]
    rfl
  have hle : η ^ 2 * ∫ x in S, betaPDFReal A B x ≤ ∫ x, (x - m) ^ 2 * betaPDFReal A B x := by
    rw [← integral_const_mul]
    calc ∫ x in S, η ^ 2 * betaPDFReal A B x ≤ ∫ x in S, (x - m) ^ 2 * betaPDFReal A B x := by
          refine setIntegral_mono_on ((integrable_betaPDFReal hA hB).const_mul _).integrableOn hint.integrableOn hS ?_
          intro x hx
          refine mul_le_mul_of_nonneg_right ?_ (betaPDFReal_nonneg hA hB x)
          rw [← sq_abs (x - m)]
          exact pow_le_pow_left₀ hη.le (hfar x hx) 2
      _ ≤ ∫ x, (x - m) ^ 2 * betaPDFReal A B x :=
          setIntegral_le_integral hint (Eventually.of_forall fun x =>
            mul_nonneg (sq_nonneg _) (betaPDFReal_nonneg hA hB x))
  rw [hreal, le_div_iff₀ (by positivity)]
  have hvar : A / (A + B) * ((A + 1) / (A + 1 + B)) - 2 * m * (A / (A + B)) + m ^ 2 ≤ 1 / (A + B) := by
    have e : A / (A + B) * ((A + 1) / (A + 1 + B)) - 2 * m * (A / (A + B)) + m ^ 2 =
        A * B / ((A + B) ^ 2 * (A + 1 + B)) := by
      rw [hm]; field_simp; ring
    rw [e, div_le_div_iff₀ (by positivity) hs]
    nlinarith [mul_pos hA hB, mul_pos (mul_pos hA hB) hs, sq_nonneg (A - B), mul_pos hs hs, mul_pos (mul_pos hs hs) hs]
  rw [hval] at hle
  have h2 : η ^ 2 * (∫ x in S, betaPDFReal A B x) ≤ 1 / (A + B) := hle.trans hvar
  rw [le_div_iff₀ hs] at h2
  linarith

/-- Distributions that charge more and more observations concentrate: nothing above, -/
theorem tendsto_beta_above {A B : ℕ → ℝ} (hA : ∀ k, 0 < A k) (hB : ∀ k, 0 < B k)
    (hs : Tendsto (fun k => A k + B k) atTop atTop) {μ x : ℝ}
    (hμ : Tendsto (fun k => A k / (A k + B k)) atTop (𝓝 μ)) (hx : μ < x) :
    Tendsto (fun k => (betaMeasure (A k) (B k)).real (Set.Ici x)) atTop (𝓝 0) := by
  have hη : 0 < (x - μ) / 2 := by linarith
  have hlim : Tendsto (fun k => 1 / ((A k + B k) * ((x - μ) / 2) ^ 2)) atTop (𝓝 0) := by
    have := (hs.atTop_mul_const (by positivity : 0 < ((x - μ) / 2) ^ 2)).inv_tendsto_atTop
    simp only [one_div]
    exact this
  refine squeeze_zero' (Eventually.of_forall fun k => measureReal_nonneg) ?_ hlim
  filter_upwards [hμ.eventually_lt_const (show μ < (μ + x) / 2 by linarith)] with k hk
  refine betaMeasure_far_le (hA k) (hB k) hη measurableSet_Ici fun y hy => ?_
  have hy' : x ≤ y := hy
  exact le_trans (by linarith) (le_abs_self _)

/-- and nothing below. -/
theorem tendsto_beta_below {A B : ℕ → ℝ} (hA : ∀ k, 0 < A k) (hB : ∀ k, 0 < B k)
    (hs : Tendsto (fun k => A k + B k) atTop atTop) {μ x : ℝ}
    (hμ : Tendsto (fun k => A k / (A k + B k)) atTop (𝓝 μ)) (hx : x < μ) :
    Tendsto (fun k => (betaMeasure (A k) (B k)).real (Set.Iic x)) atTop (𝓝 0) := by
  have hη : 0 < (μ - x) / 2 := by linarith
  have hlim : Tendsto (fun k => 1 / ((A k + B k) * ((μ - x) / 2) ^ 2)) atTop (𝓝 0) := by
    have := (hs.atTop_mul_const (by positivity : 0 < ((μ - x) / 2) ^ 2)).inv_tendsto_atTop
    simp only [one_div]
    exact this
  refine squeeze_zero' (Eventually.of_forall fun k => measureReal_nonneg) ?_ hlim
  filter_upwards [hμ.eventually_const_lt (show (μ + x) / 2 < μ by linarith)] with k hk
  refine betaMeasure_far_le (hA k) (hB k) hη measurableSet_Iic fun y hy => ?_
  have hy' : y ≤ x := hy
  exact le_trans (by linarith) (neg_le_abs _)

/-- Every interval inside the unit interval has positive probability. -/
theorem betaMeasure_Ioo_pos (hA : 0 < A) (hB : 0 < B) {x y : ℝ} (h0 : 0 ≤ x) (hxy : x < y) (h1 : y ≤ 1) :
    0 < (betaMeasure A B).real (Set.Ioo x y) := by
  have := isProbabilityMeasureBeta hA hB
  rw [Measure.real, ENNReal.toReal_pos_iff]
  refine ⟨?_, measure_lt_top _ _⟩
  rw [betaMeasure, withDensity_apply _ measurableSet_Ioo, setLIntegral_pos_iff]
  · have hsub : Set.Ioo x y ⊆ Function.support (betaPDF A B) ∩ Set.Ioo x y := by
      intro z hz
      refine ⟨?_, hz⟩
      rw [Function.mem_support, betaPDF]
      exact (ENNReal.ofReal_pos.2 (betaPDFReal_pos (lt_of_le_of_lt h0 hz.1) (lt_of_lt_of_le hz.2 h1) hA hB)).ne'
    refine lt_of_lt_of_le ?_ (measure_mono hsub)
    simp [hxy]
  · exact (measurable_betaPDFReal A B).ennreal_ofReal

theorem betaMeasure_Ioi_pos (hA : 0 < A) (hB : 0 < B) {x : ℝ} (h0 : 0 ≤ x) (h1 : x < 1) :
    0 < (betaMeasure A B).real (Set.Ioi x) := by
  have := isProbabilityMeasureBeta hA hB
  exact (betaMeasure_Ioo_pos hA hB h0 h1 le_rfl).trans_le (measureReal_mono Set.Ioo_subset_Ioi_self)

theorem betaMeasure_Iio_pos (hA : 0 < A) (hB : 0 < B) {x : ℝ} (h0 : 0 < x) (h1 : x ≤ 1) :
    0 < (betaMeasure A B).real (Set.Iio x) := by
  have := isProbabilityMeasureBeta hA hB
  exact (betaMeasure_Ioo_pos hA hB le_rfl h0 h1).trans_le (measureReal_mono Set.Ioo_subset_Iio_self)

end Obp
