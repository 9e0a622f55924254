import Mathlib.Analysis.SpecialFunctions.Complex.LogBounds
import Mathlib.Analysis.Complex.Exponential
import Mathlib.Analysis.SpecialFunctions.Pow.Real

set_option linter.unusedSectionVars false

/-!
# Characteristic functions of growing samples

For a sequence of numbers whose averages and averages of squares converge, the characteristic function of the centred first `n`
numbers, at `t / √n` and to the power `n`, tends to the one of a normal law.
-/

namespace Obp
open Filter Topology Finset

/-- Average of the first `n` numbers. -/
noncomputable def meanTo (x : ℕ → ℝ) (n : ℕ) : ℝ := (∑ k ∈ range n, x k) / n

/-- Characteristic function of the first `n` numbers around their average. -/
noncomputable def empChar (x : ℕ → ℝ) (n : ℕ) (s : ℝ) : ℂ :=
  (∑ k ∈ range n, Complex.exp (((s * (x k - meanTo x n) : ℝ) : ℂ) * Complex.I)) / n

theorem norm_empChar_le (x : ℕ → ℝ) (n : ℕ) (s : ℝ) : ‖empChar x n s‖ ≤ 1 := by
  rcases Nat.eq_zero_or_pos n with rfl | hn
  · simp [empChar]
  · have hn' : (0 : ℝ) < n := by exact_mod_cast hn
    rw [empChar, norm_div, Complex.norm_natCast, div_le_one hn']
    refine (norm_sum_le _ _).trans ?_
    simp only [Complex.norm_exp_ofReal_mul_I]
    simp

theorem exp_taylor {y : ℝ} (hy : |y| ≤ 1) :
    ‖Complex.exp ((y : ℂ) * Complex.I) - (1 + (y : ℂ) * Complex.I - (y : ℂ) ^ 2 / 2)‖ ≤ |y| ^ 3 := by
  have h : ‖(y : ℂ) * Complex.I‖ ≤ 1 := by simpa using hy
  have := Complex.exp_bound h (n := 3) (by norm_num)
  have hs : ∑ m ∈ range 3, ((y : ℂ) * Complex.I) ^ m / (m.factorial : ℂ) = 1 + (y : ℂ) * Complex.I - (y : ℂ) ^ 2 / 2 := by
    simp only [sum_range_succ, range_zero, sum_empty, mul_pow, Complex.I_sq]
    norm_num [Nat.factorial]
    ring
  rw [hs] at this
  refine this.trans ?_
  have hn : ‖(y : ℂ) * Complex.I‖ = |y| := by simp
  rw [hn]
  have h3 : 0 ≤ |y| ^ 3 := by positivity
  norm_num [Nat.factorial]
  nlinarith

theorem mean_term_tendsto {a : ℕ → ℝ} {l : ℝ} (h : Tendsto (meanTo a) atTop (𝓝 l)) : Tendsto (fun n => a n / n) atTop (𝓝 0) := by
  have h1 : Tendsto (fun n : ℕ => meanTo a (n + 1) * ((n + 1 : ℝ) / n)) atTop (𝓝 (l * 1)) := by
    refine (h.comp (tendsto_add_atTop_nat 1)).mul ?_
    have : Tendsto (fun n : ℕ => 1 + 1 / (n : ℝ)) atTop (𝓝 (1 + 0)) :=
      tendsto_const_nhds.add tendsto_one_div_atTop_nhds_zero_nat
    rw [add_zero] at this
    refine this.congr' ?_
    filter_upwards [eventually_gt_atTop 0] with n hn
    have : (n : ℝ) ≠ 0 := by exact_mod_cast hn.ne'
    field_simp
  have h2 := h1.sub h
  rw [mul_one, sub_self] at h2
  refine h2.congr' ?_
  filter_upwards [eventually_gt_atTop 0] with n hn
  have h0 : (n : ℝ) ≠ 0 := by exact_mod_cast hn.ne'
  have h0' : (n : ℝ) + 1 ≠ 0 := by positivity
  simp only [meanTo, sum_range_succ, Nat.cast_add, Nat.cast_one]
  field_simp
  ring

/-- If the squares are of smaller order than their number, all of the first `n` numbers are small against `√n`. -/
theorem eventually_small {x : ℕ → ℝ} (h : Tendsto (fun n => x n ^ 2 / n) atTop (𝓝 0)) {ε : ℝ} (hε : 0 < ε) :
    ∀ᶠ n : ℕ in atTop, ∀ k < n, |x k| ≤ ε * √n := by
  have h1 : ∀ᶠ n : ℕ in atTop, x n ^ 2 / n < ε ^ 2 := (tendsto_order.1 h).2 _ (by positivity)
  obtain ⟨N, hN⟩ := (h1.and (eventually_gt_atTop 0)).exists_forall_of_atTop
  have h2 : Tendsto (fun n : ℕ => ε * √(n : ℝ)) atTop atTop :=
    (Real.tendsto_sqrt_atTop.comp tendsto_natCast_atTop_atTop).const_mul_atTop hε
  filter_upwards [h2.eventually_ge_atTop (∑ k ∈ range N, |x k|)] with n hn k hk
  rcases lt_or_ge k N with hkN | hkN
  · exact (single_le_sum (f := fun k => |x k|) (fun _ _ => abs_nonneg _) (mem_range.2 hkN)).trans hn
  · obtain ⟨h3, h4⟩ := hN k hkN
    have hk0 : (0 : ℝ) < k := by exact_mod_cast h4
    rw [div_lt_iff₀ hk0] at h3
    have h5 : |x k| ≤ ε * √k := by
      refine abs_le_of_sq_le_sq ?_ (by positivity)
      rw [mul_pow, Real.sq_sqrt hk0.le]
      exact h3.le
    exact h5.trans (mul_le_mul_of_nonneg_left (Real.sqrt_le_sqrt (by exact_mod_cast hk.le)) hε.le)

theorem empChar_pow_tendsto {x : ℕ → ℝ} {m s2 : ℝ} (h1 : Tendsto (meanTo x) atTop (𝓝 m))
    (h2 : Tendsto (meanTo fun k => x k ^ 2) atTop (𝓝 s2)) (t : ℝ) :
    Tendsto (fun n : ℕ => empChar x n ((√n)⁻¹ * t) ^ n) atTop (𝓝 (Complex.exp (((-(t ^ 2 * (s2 - m ^ 2)) / 2 : ℝ)) : ℂ))) := by
  -- the average square around the average
  set v : ℕ → ℝ := fun n => meanTo (fun k => x k ^ 2) n - meanTo x n ^ 2 with hv
  have hvt : Tendsto v atTop (𝓝 (s2 - m ^ 2)) := h2.sub (h1.pow 2)
  have hcen : ∀ n : ℕ, 0 < n → ∑ k ∈ range n, (x k - meanTo x n) = 0 := by
    intro n hn
    have : (n : ℝ) ≠ 0 := by exact_mod_cast hn.ne'
    rw [sum_sub_distrib, sum_const, card_range, nsmul_eq_mul, meanTo]
    field_simp
    ring
  have hsq : ∀ n : ℕ, 0 < n → ∑ k ∈ range n, (x k - meanTo x n) ^ 2 = n * v n := by
    intro n hn
    have h0 : (n : ℝ) ≠ 0 := by exact_mod_cast hn.ne'
    have h3 : ∑ k ∈ range n, x k = n * meanTo x n := by
      rw [meanTo]; field_simp
    have h4 : ∑ k ∈ range n, x k ^ 2 = n * meanTo (fun k => x k ^ 2) n := by
      rw [meanTo]; field_simp
    have : ∀ k ∈ range n, (x k - meanTo x n) ^ 2 = x k ^ 2 - 2 * meanTo x n * x k + meanTo x n ^ 2 := fun k _ => by ring
    rw [sum_congr rfl this, sum_add_distrib, sum_sub_distrib, ← mul_sum, h3, h4, sum_const, card_range, nsmul_eq_mul]
    simp only [hv]
    ring
  suffices h : Tendsto (fun n : ℕ => (1 + (empChar x n ((√n)⁻¹ * t) - 1)) ^ n) atTop
      (𝓝 (Complex.exp (((-(t ^ 2 * (s2 - m ^ 2)) / 2 : ℝ)) : ℂ))) from h.congr fun n => by rw [add_sub_cancel]
  refine Complex.tendsto_one_add_pow_exp_of_tendsto ?_
  -- the numbers are small against `√n`
  have hsmall : ∀ δ : ℝ, 0 < δ → ∀ᶠ n : ℕ in atTop, ∀ k < n, |(√n)⁻¹ * t * (x k - meanTo x n)| ≤ δ := by
    intro δ hδ
    have hε : 0 < δ / (2 * (|t| + 1)) := by positivity
    have hm0 : Tendsto (fun n : ℕ => |meanTo x n| / √(n : ℝ)) atTop (𝓝 0) :=
      h1.abs.div_atTop (Real.tendsto_sqrt_atTop.comp tendsto_natCast_atTop_atTop)
    filter_upwards [eventually_small (mean_term_tendsto h2) hε, (tendsto_order.1 hm0).2 _ hε, eventually_gt_atTop 0]
      with n hn1 hn2 hn k hk
    have hs : 0 < √(n : ℝ) := Real.sqrt_pos.2 (by exact_mod_cast hn)
    rw [div_lt_iff₀ hs] at hn2
    have h3 : |x k - meanTo x n| ≤ δ / (|t| + 1) * √n := by
      refine (abs_sub _ _).trans ?_
      have := hn1 k hk
      have h4 : δ / (|t| + 1) * √n = δ / (2 * (|t| + 1)) * √n + δ / (2 * (|t| + 1)) * √n := by
        field_simp
        ring
      linarith
    rw [abs_mul, abs_mul, abs_of_pos (inv_pos.2 hs)]
    calc (√(n : ℝ))⁻¹ * |t| * |x k - meanTo x n| ≤ (√(n : ℝ))⁻¹ * |t| * (δ / (|t| + 1) * √n) :=
          mul_le_mul_of_nonneg_left h3 (by positivity)
      _ = δ * (|t| / (|t| + 1)) := by field_simp
      _ ≤ δ * 1 := mul_le_mul_of_nonneg_left ((div_le_one (by positivity)).2 (by linarith)) hδ.le
      _ = δ := mul_one δ
  -- the remainder
  have hrem : Tendsto (fun n : ℕ => (n : ℂ) * (empChar x n ((√n)⁻¹ * t) - 1) + ((t ^ 2 * v n / 2 : ℝ) : ℂ)) atTop (𝓝 0) := by
    rw [tendsto_zero_iff_norm_tendsto_zero]
    have hC : 0 < |t ^ 2 * (s2 - m ^ 2)| + 1 := by positivity
    have hvb : ∀ᶠ n in atTop, t ^ 2 * v n < |t ^ 2 * (s2 - m ^ 2)| + 1 :=
      (tendsto_order.1 (hvt.const_mul (t ^ 2))).2 _ (lt_of_le_of_lt (le_abs_self _) (lt_add_one _))
    refine tendsto_order.2 ⟨fun a ha => Eventually.of_forall fun n => ha.trans_le (norm_nonneg _), fun ε hε => ?_⟩
    filter_upwards [hvb, hsmall (min 1 (ε / (2 * (|t ^ 2 * (s2 - m ^ 2)| + 1)))) (by positivity), eventually_gt_atTop 0]
      with n hn1 hn2 hn
    have hn0 : (n : ℝ) ≠ 0 := by exact_mod_cast hn.ne'
    have hnc : (n : ℂ) ≠ 0 := by exact_mod_cast hn.ne'
    have hs : 0 < √(n : ℝ) := Real.sqrt_pos.2 (by exact_mod_cast hn)
    set y : ℕ → ℝ := fun k => (√n)⁻¹ * t * (x k - meanTo x n) with hy
    have hy1 : ∑ k ∈ range n, (y k : ℂ) = 0 := by
      rw [← Complex.ofReal_sum]
      simp only [hy]
      rw [← mul_sum, hcen n hn, mul_zero, Complex.ofReal_zero]
    have hy2 : ∑ k ∈ range n, y k ^ 2 = t ^ 2 * v n := by
      simp only [hy, mul_pow]
      rw [← mul_sum, hsq n hn, inv_pow, Real.sq_sqrt (Nat.cast_nonneg n)]
      field_simp
    have he : empChar x n ((√n)⁻¹ * t) = (∑ k ∈ range n, Complex.exp ((y k : ℂ) * Complex.I)) / n := rfl
    have heq : (n : ℂ) * (empChar x n ((√n)⁻¹ * t) - 1) + ((t ^ 2 * v n / 2 : ℝ) : ℂ) =
        ∑ k ∈ range n, (Complex.exp ((y k : ℂ) * Complex.I) - (1 + (y k : ℂ) * Complex.I - (y k : ℂ) ^ 2 / 2)) := by
      rw [← hy2, sum_sub_distrib, sum_sub_distrib, sum_add_distrib, ← sum_mul, hy1, ← sum_div, sum_const, card_range,
        nsmul_eq_mul, he]
      push_cast
      generalize ∑ k ∈ range n, Complex.exp ((y k : ℂ) * Complex.I) = S
      field_simp
      ring
    rw [heq]
    refine lt_of_le_of_lt (norm_sum_le _ _) ?_
    have hle : ∀ k ∈ range n, ‖Complex.exp ((y k : ℂ) * Complex.I) - (1 + (y k : ℂ) * Complex.I - (y k : ℂ) ^ 2 / 2)‖ ≤
        ε / (2 * (|t ^ 2 * (s2 - m ^ 2)| + 1)) * y k ^ 2 := by
      intro k hk
      have h3 := hn2 k (mem_range.1 hk)
      refine (exp_taylor (h3.trans (min_le_left _ _))).trans ?_
      have h4 : |y k| ^ 3 = |y k| * y k ^ 2 := by rw [← sq_abs (y k)]; ring
      rw [h4]
      exact mul_le_mul_of_nonneg_right (h3.trans (min_le_right _ _)) (sq_nonneg _)
    refine lt_of_le_of_lt (sum_le_sum hle) ?_
    rw [← mul_sum, hy2]
    have h5 : ε / (2 * (|t ^ 2 * (s2 - m ^ 2)| + 1)) * (t ^ 2 * v n) ≤
        ε / (2 * (|t ^ 2 * (s2 - m ^ 2)| + 1)) * (|t ^ 2 * (s2 - m ^ 2)| + 1) :=
      mul_le_mul_of_nonneg_left hn1.le (by positivity)
    have h6 : ε / (2 * (|t ^ 2 * (s2 - m ^ 2)| + 1)) * (|t ^ 2 * (s2 - m ^ 2)| + 1) = ε / 2 := by field_simp
    linarith
  have hlim : Tendsto (fun n : ℕ => ((n : ℂ) * (empChar x n ((√n)⁻¹ * t) - 1) + ((t ^ 2 * v n / 2 : ℝ) : ℂ)) -
      ((t ^ 2 * v n / 2 : ℝ) : ℂ)) atTop (𝓝 (0 - ((t ^ 2 * (s2 - m ^ 2) / 2 : ℝ) : ℂ))) := by
    refine hrem.sub ?_
    exact (Complex.continuous_ofReal.tendsto _).comp ((hvt.const_mul _).div_const _)
  simp only [add_sub_cancel_right, zero_sub] at hlim
  rw [show ((-(t ^ 2 * (s2 - m ^ 2)) / 2 : ℝ) : ℂ) = -((t ^ 2 * (s2 - m ^ 2) / 2 : ℝ) : ℂ) by push_cast; ring]
  exact hlim

end Obp
