import Verif.Model.Continuous
import Mathlib.Analysis.SpecialFunctions.Gaussian.GaussianIntegral
import Mathlib.Analysis.SpecialFunctions.Integrals.Basic

/-! # C38: kernels are probability densities -/

namespace Obp
open Real MeasureTheory intervalIntegral

theorem clip1_mem (u : ℝ) : -1 ≤ clip1 u ∧ clip1 u ≤ 1 :=
  ⟨le_min (le_max_right _ _) (by norm_num), min_le_right _ _⟩

theorem clip1_of_mem {u : ℝ} (h : |u| ≤ 1) : clip1 u = u := by
  obtain ⟨h1, h2⟩ := abs_le.1 h
  simp [clip1, max_eq_left h1, h2]

theorem clip1_abs {u : ℝ} (h : 1 ≤ |u|) : |clip1 u| = 1 := by
  rcases le_abs.1 h with h | h
  · rw [clip1, max_eq_left (by linarith), min_eq_right h, abs_one]
  · rw [clip1, max_eq_right (by linarith), min_eq_left (by norm_num), abs_neg, abs_one]

theorem clip1_neg (u : ℝ) : clip1 (-u) = -clip1 u := by
  rcases le_or_gt |u| 1 with h | h
  · rw [clip1_of_mem h, clip1_of_mem (by rwa [abs_neg])]
  · rcases lt_abs.1 h with h | h
    · simp only [clip1]
      rw [max_eq_right (by linarith), min_eq_left (by norm_num), max_eq_left (by linarith),
        min_eq_right h.le]
    · simp only [clip1]
      rw [max_eq_left (by linarith), min_eq_right h.le, max_eq_right (by linarith),
        min_eq_left (by norm_num), neg_neg]

/-- **C38.** Every kernel is non-negative. -/
theorem C38_nonneg (k : Kernel) (u : ℝ) : 0 ≤ k.fn u := by
  have hc := clip1_mem u
  have ha : |clip1 u| ≤ 1 := abs_le.2 hc
  cases k <;> simp only [Kernel.fn]
  · unfold gaussianKernel; positivity
  · unfold epanechnikovKernel
    have : clip1 u ^ 2 ≤ 1 := (sq_le_one_iff_abs_le_one _).2 ha
    linarith
  · unfold triangularKernel; linarith
  · unfold cosineKernel
    refine mul_nonneg (by positivity) (cos_nonneg_of_mem_Icc ⟨?_, ?_⟩)
    · nlinarith [pi_pos]
    · nlinarith [pi_pos]

/-- **C38.** Every kernel is symmetric. -/
theorem C38_symm (k : Kernel) (u : ℝ) : k.fn (-u) = k.fn u := by
  cases k <;> simp only [Kernel.fn]
  · simp [gaussianKernel]
  · simp [epanechnikovKernel, clip1_neg]
  · simp [triangularKernel, clip1_neg]
  · rw [cosineKernel, cosineKernel, clip1_neg, neg_mul, neg_div, cos_neg]

/-- **C38.** Every kernel but the Gaussian vanishes outside `(-1, 1)`. -/
theorem C38_support {k : Kernel} (hk : k ≠ .gaussian) {u : ℝ} (hu : 1 ≤ |u|) : k.fn u = 0 := by
  have h1 := clip1_abs hu
  cases k <;> simp only [Kernel.fn]
  · exact absurd rfl hk
  · rw [epanechnikovKernel, ← sq_abs, h1]; norm_num
  · rw [triangularKernel, h1, sub_self]
  · rw [cosineKernel]
    rcases (abs_eq (by norm_num : (0 : ℝ) ≤ 1)).1 h1 with h | h
    · rw [h, one_mul, cos_pi_div_two, mul_zero]
    · rw [h, neg_mul, neg_div, cos_neg, one_mul, cos_pi_div_two, mul_zero]

/-- **C38.** The Gaussian kernel is positive everywhere, the others on `(-1, 1)`. -/
theorem C38_pos (k : Kernel) {u : ℝ} (hu : k = .gaussian ∨ |u| < 1) : 0 < k.fn u := by
  by_cases hk : k = .gaussian
  · subst hk; simp only [Kernel.fn, gaussianKernel]; positivity
  · replace hu : |u| < 1 := by tauto
    obtain ⟨h1, h2⟩ := abs_lt.1 hu
    cases k <;> simp only [Kernel.fn]
    · exact absurd rfl hk
    · rw [epanechnikovKernel, clip1_of_mem hu.le]
      have : u ^ 2 < 1 := (sq_lt_one_iff_abs_lt_one _).2 hu
      linarith
    · rw [triangularKernel, clip1_of_mem hu.le]; linarith
    · rw [cosineKernel, clip1_of_mem hu.le]
      refine mul_pos (by positivity) (cos_pos_of_mem_Ioo ⟨?_, ?_⟩)
      · nlinarith [pi_pos]
      · nlinarith [pi_pos]

theorem integral_support {f : ℝ → ℝ} (h : ∀ u, 1 ≤ |u| → f u = 0) : ∫ u, f u = ∫ u in (-1)..1, f u := by
  rw [intervalIntegral.integral_of_le (by norm_num)]
  symm
  refine setIntegral_eq_integral_of_forall_compl_eq_zero fun u hu => h u ?_
  by_contra hc
  obtain ⟨h1, h2⟩ := abs_lt.1 (not_le.1 hc)
  exact hu ⟨h1, h2.le⟩

/-- **C38.** Every kernel integrates to one over the real line. -/
theorem C38_integral (k : Kernel) : ∫ u, k.fn u = 1 := by
  by_cases hk : k = .gaussian
  · subst hk
    simp only [Kernel.fn, gaussianKernel]
    rw [MeasureTheory.integral_div]
    have h := integral_gaussian (1 / 2)
    have he : (fun u : ℝ => exp (-(u ^ 2) / 2)) = fun u => exp (-(1 / 2) * u ^ 2) := by
      funext u; congr 1; ring
    rw [he, h, show π / (1 / 2) = 2 * π by ring]
    exact div_self (sqrt_ne_zero'.2 (by positivity))
  · rw [integral_support fun u hu => C38_support hk hu]
    have hcongr : ∀ f : ℝ → ℝ, (∀ u, |u| ≤ 1 → k.fn u = f u) → ∫ u in (-1)..1, k.fn u = ∫ u in (-1)..1, f u := by
      intro f hf
      refine integral_congr fun u hu => hf u ?_
      rw [Set.uIcc_of_le (by norm_num)] at hu
      exact abs_le.2 hu
    cases k
    · exact absurd rfl hk
    · rw [hcongr (fun u => 3 / 4 * (1 - u ^ 2)) fun u hu => by
        simp only [Kernel.fn, epanechnikovKernel, clip1_of_mem hu]]
      rw [intervalIntegral.integral_const_mul, intervalIntegral.integral_sub (by simp) (by
        exact (continuous_pow 2).intervalIntegrable _ _)]
      simp only [intervalIntegral.integral_const, integral_pow]
      norm_num
    · rw [hcongr (fun u => 1 - |u|) fun u hu => by
        simp only [Kernel.fn, triangularKernel, clip1_of_mem hu]]
      rw [intervalIntegral.integral_sub (by simp) (continuous_abs.intervalIntegrable _ _)]
      have hsplit : ∫ u in (-1 : ℝ)..1, |u| = (∫ u in (-1 : ℝ)..0, |u|) + ∫ u in (0 : ℝ)..1, |u| :=
        (integral_add_adjacent_intervals (continuous_abs.intervalIntegrable _ _)
          (continuous_abs.intervalIntegrable _ _)).symm
      have h1 : ∫ u in (-1 : ℝ)..0, |u| = ∫ u in (-1 : ℝ)..0, -u := by
        refine integral_congr fun u hu => ?_
        rw [Set.uIcc_of_le (by norm_num)] at hu
        exact abs_of_nonpos hu.2
      have h2 : ∫ u in (0 : ℝ)..1, |u| = ∫ u in (0 : ℝ)..1, u := by
        refine integral_congr fun u hu => ?_
        rw [Set.uIcc_of_le (by norm_num)] at hu
        exact abs_of_nonneg hu.1
      rw [hsplit, h1, h2, intervalIntegral.integral_neg, integral_id, integral_id,
        intervalIntegral.integral_const]
      norm_num
    · rw [hcongr (fun u => π / 4 * cos (u * (π / 2))) fun u hu => by
        simp only [Kernel.fn, cosineKernel, clip1_of_mem hu, mul_div_assoc]]
      rw [intervalIntegral.integral_const_mul,
        intervalIntegral.integral_comp_mul_right (fun x => cos x) (by positivity), integral_cos]
      rw [one_mul, neg_one_mul, sin_neg, sin_pi_div_two, smul_eq_mul]
      have := pi_ne_zero
      field_simp
      norm_num

/-! Concrete values: the four kernels are different and non-trivial. -/
example : Kernel.epanechnikov.fn (1 / 2) = 9 / 16 ∧ Kernel.triangular.fn (1 / 2) = 1 / 2 ∧
    Kernel.triangular.fn (-3) = 0 := by
  refine ⟨?_, ?_, C38_support (by decide) (by norm_num [abs_of_neg])⟩
  · simp only [Kernel.fn, epanechnikovKernel]; rw [clip1_of_mem (by norm_num [abs_of_pos])]; norm_num
  · simp only [Kernel.fn, triangularKernel]; rw [clip1_of_mem (by norm_num [abs_of_pos])]; norm_num [abs_of_pos]
example : 0 < Kernel.cosine.fn (1 / 3) := C38_pos .cosine (Or.inr (by norm_num [abs_of_pos]))

end Obp
