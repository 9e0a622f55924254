import Verif.Lemmas.EmpiricalChar

set_option linter.unusedSectionVars false

/-!
# Characteristic functions of growing samples that are not parts of one sequence
-/

namespace Obp
open Filter Topology Finset

theorem one_add_pow_tendsto {g : ℕ → ℂ} {n : ℕ → ℕ} {z : ℂ} (hn : Tendsto n atTop atTop)
    (hg : Tendsto (fun t => (n t : ℂ) * g t) atTop (𝓝 z)) : Tendsto (fun t => (1 + g t) ^ n t) atTop (𝓝 (Complex.exp z)) := by
  have hnr : Tendsto (fun t => (n t : ℝ)) atTop atTop := tendsto_natCast_atTop_atTop.comp hn
  have h0 : Tendsto (fun t => ‖g t‖) atTop (𝓝 0) := by
    have h := hg.norm.div_atTop hnr
    refine h.congr' ?_
    filter_upwards [hn.eventually_gt_atTop 0] with t ht
    have : (n t : ℝ) ≠ 0 := by exact_mod_cast ht.ne'
    rw [norm_mul, Complex.norm_natCast]
    field_simp
  have hsmall : ∀ᶠ t in atTop, ‖g t‖ < 1 / 2 := (tendsto_order.1 h0).2 _ (by norm_num)
  have hlog : Tendsto (fun t => (n t : ℂ) * Complex.log (1 + g t)) atTop (𝓝 z) := by
    have hd : Tendsto (fun t => (n t : ℂ) * (Complex.log (1 + g t) - g t)) atTop (𝓝 0) := by
      rw [tendsto_zero_iff_norm_tendsto_zero]
      have hb : Tendsto (fun t => ‖(n t : ℂ) * g t‖ * ‖g t‖) atTop (𝓝 0) := by
        have := hg.norm.mul h0
        rwa [mul_zero] at this
      refine squeeze_zero' (Eventually.of_forall fun t => norm_nonneg _) ?_ hb
      filter_upwards [hsmall] with t ht
      rw [norm_mul, norm_mul, mul_assoc]
      refine mul_le_mul_of_nonneg_left ?_ (norm_nonneg _)
      refine (Complex.norm_log_one_add_sub_self_le (ht.trans (by norm_num))).trans ?_
      have h1 : (1 - ‖g t‖)⁻¹ ≤ 2 := by
        rw [inv_le_comm₀ (by linarith) (by norm_num)]
        linarith
      have h2 : ‖g t‖ ^ 2 * (1 - ‖g t‖)⁻¹ ≤ ‖g t‖ ^ 2 * 2 := mul_le_mul_of_nonneg_left h1 (sq_nonneg _)
      nlinarith
    have := hd.add hg
    rw [zero_add] at this
    exact this.congr fun t => by ring
  refine ((Complex.continuous_exp.tendsto z).comp hlog).congr' ?_
  filter_upwards [hsmall] with t ht
  have hne : 1 + g t ≠ 0 := fun e => by
    have : g t = -1 := by linear_combination e
    rw [this] at ht
    norm_num at ht
  rw [Function.comp, Complex.exp_nat_mul, Complex.exp_log hne]

/-- Powers of the characteristic functions of growing samples whose averages and average squares converge and whose entries are
small against the root of their number. -/
theorem empChar_pow_array {x : ℕ → ℕ → ℝ} {n : ℕ → ℕ} {m s2 : ℝ} (hn : Tendsto n atTop atTop)
    (h1 : Tendsto (fun t => meanTo (x t) (n t)) atTop (𝓝 m)) (h2 : Tendsto (fun t => meanTo (fun k => x t k ^ 2) (n t)) atTop (𝓝 s2))
    (h3 : ∀ ε : ℝ, 0 < ε → ∀ᶠ t in atTop, ∀ k < n t, |x t k| ≤ ε * √(n t)) (u : ℝ) :
    Tendsto (fun t => empChar (x t) (n t) ((√(n t))⁻¹ * u) ^ n t) atTop
      (𝓝 (Complex.exp (((-(u ^ 2 * (s2 - m ^ 2)) / 2 : ℝ)) : ℂ))) := by
  set v : ℕ → ℝ := fun t => meanTo (fun k => x t k ^ 2) (n t) - meanTo (x t) (n t) ^ 2 with hv
  have hnr : Tendsto (fun t => (n t : ℝ)) atTop atTop := tendsto_natCast_atTop_atTop.comp hn
  have hvt : Tendsto v atTop (𝓝 (s2 - m ^ 2)) := h2.sub (h1.pow 2)
  have hcen : ∀ t, 0 < n t → ∑ k ∈ range (n t), (x t k - meanTo (x t) (n t)) = 0 := by
    intro t hn
    have : (n t : ℝ) ≠ 0 := by exact_mod_cast hn.ne'
    rw [sum_sub_distrib, sum_const, card_range, nsmul_eq_mul, meanTo]
    field_simp
    ring
  have hsq : ∀ t, 0 < n t → ∑ k ∈ range (n t), (x t k - meanTo (x t) (n t)) ^ 2 = n t * v t := by
    intro t hn
    have h0 : (n t : ℝ) ≠ 0 := by exact_mod_cast hn.ne'
    have h3 : ∑ k ∈ range (n t), x t k = n t * meanTo (x t) (n t) := by
      rw [meanTo]; field_simp
    have h4 : ∑ k ∈ range (n t), x t k ^ 2 = n t * meanTo (fun k => x t k ^ 2) (n t) := by
      rw [meanTo]; field_simp
    have : ∀ k ∈ range (n t), (x t k - meanTo (x t) (n t)) ^ 2 =
        x t k ^ 2 - 2 * meanTo (x t) (n t) * x t k + meanTo (x t) (n t) ^ 2 := fun k _ => by ring
    rw [sum_congr rfl this, sum_add_distrib, sum_sub_distrib, ← mul_sum, h3, h4, sum_const, card_range, nsmul_eq_mul]
    simp only [hv]
    ring
  suffices h : Tendsto (fun t => (1 + (empChar (x t) (n t) ((√(n t))⁻¹ * u) - 1)) ^ n t) atTop
      (𝓝 (Complex.exp (((-(u ^ 2 * (s2 - m ^ 2)) / 2 : ℝ)) : ℂ))) from h.congr fun n => by rw [add_sub_cancel]
  refine one_add_pow_tendsto hn ?_
  have hsmall : ∀ δ : ℝ, 0 < δ → ∀ᶠ t in atTop, ∀ k < n t, |(√(n t))⁻¹ * u * (x t k - meanTo (x t) (n t))| ≤ δ := by
    intro δ hδ
    have hε : 0 < δ / (2 * (|u| + 1)) := by positivity
    have hm0 : Tendsto (fun t => |meanTo (x t) (n t)| / √(n t : ℝ)) atTop (𝓝 0) :=
      h1.abs.div_atTop (Real.tendsto_sqrt_atTop.comp hnr)
    filter_upwards [h3 _ hε, (tendsto_order.1 hm0).2 _ hε, hn.eventually_gt_atTop 0]
      with t hn1 hn2 hn k hk
    have hs : 0 < √(n t : ℝ) := Real.sqrt_pos.2 (by exact_mod_cast hn)
    rw [div_lt_iff₀ hs] at hn2
    have h3 : |x t k - meanTo (x t) (n t)| ≤ δ / (|u| + 1) * √(n t) := by
      refine (abs_sub _ _).trans ?_
      have := hn1 k hk
      have h4 : δ / (|u| + 1) * √(n t) = δ / (2 * (|u| + 1)) * √(n t) + δ / (2 * (|u| + 1)) * √(n t) := by
        field_simp
        ring
      linarith
    rw [abs_mul, abs_mul, abs_of_pos (inv_pos.2 hs)]
    calc (√(n t : ℝ))⁻¹ * |u| * |x t k - meanTo (x t) (n t)| ≤ (√(n t : ℝ))⁻¹ * |u| * (δ / (|u| + 1) * √(n t)) :=
          mul_le_mul_of_nonneg_left h3 (by positivity)
      _ = δ * (|u| / (|u| + 1)) := by field_simp
      _ ≤ δ * 1 := mul_le_mul_of_nonneg_left ((div_le_one (by positivity)).2 (by linarith)) hδ.le
      _ = δ := mul_one δ
  have hrem : Tendsto (fun t => (n t : ℂ) * (empChar (x t) (n t) ((√(n t))⁻¹ * u) - 1) + ((u ^ 2 * v t / 2 : ℝ) : ℂ)) atTop (𝓝 0) := by
    rw [tendsto_zero_iff_norm_tendsto_zero]
    have hC : 0 < |u ^ 2 * (s2 - m ^ 2)| + 1 := by positivity
    have hvb : ∀ᶠ t in atTop, u ^ 2 * v t < |u ^ 2 * (s2 - m ^ 2)| + 1 :=
      (tendsto_order.1 (hvt.const_mul (u ^ 2))).2 _ (lt_of_le_of_lt (le_abs_self _) (lt_add_one _))
    refine tendsto_order.2 ⟨fun a ha => Eventually.of_forall fun n => ha.trans_le (norm_nonneg _), fun ε hε => ?_⟩
    filter_upwards [hvb, hsmall (min 1 (ε / (2 * (|u ^ 2 * (s2 - m ^ 2)| + 1)))) (by positivity), hn.eventually_gt_atTop 0]
      with t hn1 hn2 hn
    have hn0 : (n t : ℝ) ≠ 0 := by exact_mod_cast hn.ne'
    have hnc : (n t : ℂ) ≠ 0 := by exact_mod_cast hn.ne'
    have hs : 0 < √(n t : ℝ) := Real.sqrt_pos.2 (by exact_mod_cast hn)
    set y : ℕ → ℝ := fun k => (√(n t))⁻¹ * u * (x t k - meanTo (x t) (n t)) with hy
    have hy1 : ∑ k ∈ range (n t), (y k : ℂ) = 0 := by
      rw [← Complex.ofReal_sum]
      simp only [hy]
      rw [← mul_sum, hcen t hn, mul_zero, Complex.ofReal_zero]
    have hy2 : ∑ k ∈ range (n t), y k ^ 2 = u ^ 2 * v t := by
      simp only [hy, mul_pow]
      rw [← mul_sum, hsq t hn, inv_pow, Real.sq_sqrt (Nat.cast_nonneg (n t))]
      field_simp
    have he : empChar (x t) (n t) ((√(n t))⁻¹ * u) = (∑ k ∈ range (n t), Complex.exp ((y k : ℂ) * Complex.I)) / n t := rfl
    have heq : (n t : ℂ) * (empChar (x t) (n t) ((√(n t))⁻¹ * u) - 1) + ((u ^ 2 * v t / 2 : ℝ) : ℂ) =
        ∑ k ∈ range (n t), (Complex.exp ((y k : ℂ) * Complex.I) - (1 + (y k : ℂ) * Complex.I - (y k : ℂ) ^ 2 / 2)) := by
      rw [← hy2, sum_sub_distrib, sum_sub_distrib, sum_add_distrib, ← sum_mul, hy1, ← sum_div, sum_const, card_range,
        nsmul_eq_mul, he]
      push_cast
      generalize ∑ k ∈ range (n t), Complex.exp ((y k : ℂ) * Complex.I) = S
      field_simp
      ring
    rw [heq]
    refine lt_of_le_of_lt (norm_sum_le _ _) ?_
    have hle : ∀ k ∈ range (n t), ‖Complex.exp ((y k : ℂ) * Complex.I) - (1 + (y k : ℂ) * Complex.I - (y k : ℂ) ^ 2 / 2)‖ ≤
        ε / (2 * (|u ^ 2 * (s2 - m ^ 2)| + 1)) * y k ^ 2 := by
      intro k hk
      have h3 := hn2 k (mem_range.1 hk)
      refine (exp_taylor (h3.trans (min_le_left _ _))).trans ?_
      have h4 : |y k| ^ 3 = |y k| * y k ^ 2 := by rw [← sq_abs (y k)]; ring
      rw [h4]
      exact mul_le_mul_of_nonneg_right (h3.trans (min_le_right _ _)) (sq_nonneg _)
    refine lt_of_le_of_lt (sum_le_sum hle) ?_
    rw [← mul_sum, hy2]
    have h5 : ε / (2 * (|u ^ 2 * (s2 - m ^ 2)| + 1)) * (u ^ 2 * v t) ≤
        ε / (2 * (|u ^ 2 * (s2 - m ^ 2)| + 1)) * (|u ^ 2 * (s2 - m ^ 2)| + 1) :=
      mul_le_mul_of_nonneg_left hn1.le (by positivity)
    have h6 : ε / (2 * (|u ^ 2 * (s2 - m ^ 2)| + 1)) * (|u ^ 2 * (s2 - m ^ 2)| + 1) = ε / 2 := by field_simp
    linarith
  have hlim : Tendsto (fun t => ((n t : ℂ) * (empChar (x t) (n t) ((√(n t))⁻¹ * u) - 1) + ((u ^ 2 * v t / 2 : ℝ) : ℂ)) -
      ((u ^ 2 * v t / 2 : ℝ) : ℂ)) atTop (𝓝 (0 - ((u ^ 2 * (s2 - m ^ 2) / 2 : ℝ) : ℂ))) := by
    refine hrem.sub ?_
    exact (Complex.continuous_ofReal.tendsto _).comp ((hvt.const_mul _).div_const _)
  simp only [add_sub_cancel_right, zero_sub] at hlim
  rw [show ((-(u ^ 2 * (s2 - m ^ 2)) / 2 : ℝ) : ℂ) = -((u ^ 2 * (s2 - m ^ 2) / 2 : ℝ) : ℂ) by push_cast; ring]
  exact hlim

end Obp
