import Mathlib.MeasureTheory.Integral.Bochner.Basic
import Mathlib.MeasureTheory.Integral.Bochner.Set
import Mathlib.MeasureTheory.Function.L1Space.Integrable
import Mathlib.Analysis.PSeries
import Mathlib.Topology.Algebra.InfiniteSum.ENNReal
import Mathlib.Analysis.SpecificLimits.Basic

/-!
# A strong law for bounded uncorrelated variables

Averages of bounded random variables with `E[D s * D t] = 0` for `s ≠ t` converge to zero almost surely. No independence is
asked for, so the law applies to the rewards of a policy whose choices depend on the past.
-/

namespace Obp
open MeasureTheory Filter Topology

variable {Ω : Type*} [MeasurableSpace Ω] {P : Measure Ω} [IsProbabilityMeasure P]

/-- The second moment of a sum of bounded uncorrelated variables. -/
theorem integral_sum_sq_le {D : ℕ → Ω → ℝ} (hm : ∀ t, Measurable (D t)) {B : ℝ} (hB : ∀ t ω, |D t ω| ≤ B)
    (ho : ∀ s t, s < t → ∫ ω, D s ω * D t ω ∂P = 0) (T : ℕ) :
    ∫ ω, (∑ t ∈ Finset.range T, D t ω) ^ 2 ∂P ≤ T * B ^ 2 := by
  have hint : ∀ s t, Integrable (fun ω => D s ω * D t ω) P := by
    intro s t
    refine Integrable.of_bound ((hm s).mul (hm t)).aestronglyMeasurable (B * B) (Eventually.of_forall fun ω => ?_)
    rw [Real.norm_eq_abs, abs_mul]
    exact mul_le_mul (hB s ω) (hB t ω) (abs_nonneg _) ((abs_nonneg _).trans (hB s ω))
  have hz : ∀ s t, s ≠ t → ∫ ω, D s ω * D t ω ∂P = 0 := by
    intro s t hst
    rcases lt_or_gt_of_ne hst with h | h
    · exact ho s t h
    · rw [← ho t s h]
      exact integral_congr_ae (Eventually.of_forall fun ω => mul_comm _ _)
  have hsq : ∀ t, ∫ ω, D t ω * D t ω ∂P ≤ B ^ 2 := by
    intro t
    calc ∫ ω, D t ω * D t ω ∂P ≤ ∫ _, B ^ 2 ∂P := by
          refine integral_mono (hint t t) (integrable_const _) fun ω => ?_
          have := hB t ω
          show D t ω * D t ω ≤ B ^ 2
          nlinarith [abs_mul_abs_self (D t ω), abs_nonneg (D t ω)]
      _ = B ^ 2 := by simp
  have hexp : ∀ ω, (∑ t ∈ Finset.range T, D t ω) ^ 2 =
      ∑ s ∈ Finset.range T, ∑ t ∈ Finset.range T, D s ω * D t ω := by
    intro ω
    rw [sq, Finset.sum_mul_sum]
  simp only [hexp]
  rw [integral_finsetSum _ fun s _ => integrable_finsetSum _ fun t _ => hint s t]
  calc ∑ s ∈ Finset.range T, ∫ ω, ∑ t ∈ Finset.range T, D s ω * D t ω ∂P
      = ∑ s ∈ Finset.range T, ∫ ω, D s ω * D s ω ∂P := by
        refine Finset.sum_congr rfl fun s hs => ?_
        rw [integral_finsetSum _ fun t _ => hint s t, Finset.sum_eq_single s]
        · intro t _ hts
          exact hz s t (Ne.symm hts)
        · intro h; exact absurd hs h
    _ ≤ ∑ _s ∈ Finset.range T, B ^ 2 := Finset.sum_le_sum fun s _ => hsq s
    _ = T * B ^ 2 := by simp

/-- Averages converge if they converge along the squares and the terms are bounded. -/
theorem tendsto_average_of_squares {x : ℕ → ℝ} {B : ℝ} (hB : ∀ t, |x t| ≤ B)
    (h : Tendsto (fun k : ℕ => (∑ t ∈ Finset.range ((k + 1) ^ 2), x t) / ((k + 1 : ℕ) ^ 2 : ℝ)) atTop (𝓝 0)) :
    Tendsto (fun T : ℕ => (∑ t ∈ Finset.range T, x t) / (T : ℝ)) atTop (𝓝 0) := by
  have hB0 : 0 ≤ B := (abs_nonneg _).trans (hB 0)
  -- the largest square at most `T`
  have hs : Tendsto (fun T : ℕ => Nat.sqrt T - 1) atTop atTop := by
    refine tendsto_atTop.2 fun k => ?_
    filter_upwards [eventually_ge_atTop ((k + 1) ^ 2)] with T hT
    have : k + 1 ≤ Nat.sqrt T := Nat.le_sqrt'.2 hT
    omega
  have hmain : Tendsto (fun T : ℕ => |(∑ t ∈ Finset.range ((Nat.sqrt T - 1 + 1) ^ 2), x t) /
      ((Nat.sqrt T - 1 + 1 : ℕ) ^ 2 : ℝ)| + 3 * B / (Nat.sqrt T - 1 + 1 : ℕ)) atTop (𝓝 0) := by
    have h1 := (h.comp hs).abs
    have h2 : Tendsto (fun k : ℕ => 3 * B / ((k + 1 : ℕ) : ℝ)) atTop (𝓝 0) :=
      (tendsto_const_div_atTop_nhds_zero_nat (3 * B)).comp (tendsto_add_atTop_nat 1)
    have h3 := h1.add (h2.comp hs)
    simpa [Function.comp_def] using h3
  refine squeeze_zero_norm' ?_ hmain
  filter_upwards [eventually_ge_atTop 1] with T hT
  have hk : 1 ≤ Nat.sqrt T := Nat.le_sqrt'.2 (by simpa using hT)
  obtain ⟨k, hk'⟩ : ∃ k, Nat.sqrt T = k + 1 := ⟨Nat.sqrt T - 1, by omega⟩
  have e : Nat.sqrt T - 1 + 1 = k + 1 := by omega
  rw [e]
  have hle : (k + 1) ^ 2 ≤ T := by rw [← hk']; exact Nat.sqrt_le' T
  have hlt : T < (k + 1 + 1) ^ 2 := by rw [← hk']; exact Nat.lt_succ_sqrt' T
  have hkpos : (0 : ℝ) < (k + 1 : ℕ) := by positivity
  have hk2 : (0 : ℝ) < ((k + 1 : ℕ) : ℝ) ^ 2 := by positivity
  have hleR : (((k + 1 : ℕ) : ℝ)) ^ 2 ≤ T := by exact_mod_cast hle
  have hTpos : (0 : ℝ) < T := lt_of_lt_of_le hk2 hleR
  rw [Real.norm_eq_abs, abs_div, abs_of_pos hTpos]
  have hsplit : ∑ t ∈ Finset.range T, x t =
      (∑ t ∈ Finset.range ((k + 1) ^ 2), x t) + ∑ t ∈ Finset.Ico ((k + 1) ^ 2) T, x t :=
    (Finset.sum_range_add_sum_Ico _ hle).symm
  have hrest : |∑ t ∈ Finset.Ico ((k + 1) ^ 2) T, x t| ≤ 3 * B * (k + 1 : ℕ) := by
    calc |∑ t ∈ Finset.Ico ((k + 1) ^ 2) T, x t| ≤ ∑ t ∈ Finset.Ico ((k + 1) ^ 2) T, |x t| :=
          Finset.abs_sum_le_sum_abs _ _
      _ ≤ ∑ _t ∈ Finset.Ico ((k + 1) ^ 2) T, B := Finset.sum_le_sum fun t _ => hB t
      _ = ((T - (k + 1) ^ 2 : ℕ) : ℝ) * B := by simp
      _ ≤ ((3 * (k + 1) : ℕ) : ℝ) * B := by
          refine mul_le_mul_of_nonneg_right ?_ hB0
          have : T - (k + 1) ^ 2 ≤ 3 * (k + 1) := by
            have : (k + 1 + 1) ^ 2 = (k + 1) ^ 2 + 2 * (k + 1) + 1 := by ring
            omega
          exact_mod_cast this
      _ = 3 * B * (k + 1 : ℕ) := by push_cast; ring
  calc |∑ t ∈ Finset.range T, x t| / T
      ≤ (|∑ t ∈ Finset.range ((k + 1) ^ 2), x t| + 3 * B * (k + 1 : ℕ)) / T := by
        rw [hsplit]
        exact div_le_div_of_nonneg_right ((abs_add_le _ _).trans (by linarith)) hTpos.le
    _ ≤ (|∑ t ∈ Finset.range ((k + 1) ^ 2), x t| + 3 * B * (k + 1 : ℕ)) / (((k + 1 : ℕ) : ℝ)) ^ 2 := by
        refine div_le_div_of_nonneg_left ?_ hk2 hleR
        positivity
    _ = |(∑ t ∈ Finset.range ((k + 1) ^ 2), x t) / (((k + 1 : ℕ) : ℝ)) ^ 2| + 3 * B / (k + 1 : ℕ) := by
        rw [add_div, abs_div, abs_of_pos hk2]
        congr 1
        field_simp

/-- **Strong law.** Averages of bounded uncorrelated variables converge to zero almost surely. -/
theorem ae_tendsto_average_zero {D : ℕ → Ω → ℝ} (hm : ∀ t, Measurable (D t)) {B : ℝ} (hB : ∀ t ω, |D t ω| ≤ B)
    (ho : ∀ s t, s < t → ∫ ω, D s ω * D t ω ∂P = 0) :
    ∀ᵐ ω ∂P, Tendsto (fun T : ℕ => (∑ t ∈ Finset.range T, D t ω) / (T : ℝ)) atTop (𝓝 0) := by
  set Y : ℕ → Ω → ℝ := fun k ω => (∑ t ∈ Finset.range ((k + 1) ^ 2), D t ω) / ((k + 1 : ℕ) ^ 2 : ℝ) with hY
  have hYm : ∀ k, Measurable (Y k) := fun k =>
    (Finset.measurable_fun_sum _ fun t _ => hm t).div_const _
  have hYint : ∀ k, Integrable (fun ω => Y k ω ^ 2) P := by
    intro k
    refine Integrable.of_bound ((hYm k).pow_const 2).aestronglyMeasurable
      (((((k + 1) ^ 2 : ℕ) : ℝ) * B / ((k + 1 : ℕ) ^ 2 : ℝ)) ^ 2) (Eventually.of_forall fun ω => ?_)
    rw [Real.norm_eq_abs, abs_pow]
    refine pow_le_pow_left₀ (abs_nonneg _) ?_ 2
    rw [hY, abs_div, abs_of_pos (by positivity : (0 : ℝ) < ((k + 1 : ℕ) : ℝ) ^ 2)]
    refine div_le_div_of_nonneg_right ?_ (by positivity)
    calc |∑ t ∈ Finset.range ((k + 1) ^ 2), D t ω| ≤ ∑ t ∈ Finset.range ((k + 1) ^ 2), |D t ω| :=
          Finset.abs_sum_le_sum_abs _ _
      _ ≤ ∑ _t ∈ Finset.range ((k + 1) ^ 2), B := Finset.sum_le_sum fun t _ => hB t ω
      _ = _ := by simp
  have hYle : ∀ k, ∫ ω, Y k ω ^ 2 ∂P ≤ B ^ 2 * (1 / (((k + 1 : ℕ) : ℝ)) ^ 2) := by
    intro k
    have h1 : ∀ ω, Y k ω ^ 2 =
        (∑ t ∈ Finset.range ((k + 1) ^ 2), D t ω) ^ 2 * (1 / (((k + 1 : ℕ) : ℝ)) ^ 4) := by
      intro ω
      rw [hY, div_pow, ← pow_mul, div_eq_mul_one_div]
    simp only [h1]
    rw [integral_mul_const]
    have h2 := integral_sum_sq_le hm hB ho ((k + 1) ^ 2) (P := P)
    calc _ ≤ (((k + 1) ^ 2 : ℕ) : ℝ) * B ^ 2 * (1 / (((k + 1 : ℕ) : ℝ)) ^ 4) :=
          mul_le_mul_of_nonneg_right h2 (by positivity)
      _ = _ := by
          have : ((k + 1 : ℕ) : ℝ) ≠ 0 := by positivity
          rw [Nat.cast_pow]
          field_simp
  have hsum : Summable fun k : ℕ => B ^ 2 * (1 / (((k + 1 : ℕ) : ℝ)) ^ 2) := by
    refine Summable.mul_left _ ?_
    exact (summable_nat_add_iff 1).2 (Real.summable_one_div_nat_pow.2 (by norm_num : 1 < 2))
  have hfin : ∫⁻ ω, ∑' k, ENNReal.ofReal (Y k ω ^ 2) ∂P ≠ ⊤ := by
    rw [lintegral_tsum fun k => ((hYm k).pow_const 2).ennreal_ofReal.aemeasurable]
    have h1 : ∀ k, ∫⁻ ω, ENNReal.ofReal (Y k ω ^ 2) ∂P ≤
        ENNReal.ofReal (B ^ 2 * (1 / (((k + 1 : ℕ) : ℝ)) ^ 2)) := by
      intro k
      rw [← ofReal_integral_eq_lintegral_ofReal (hYint k) (Eventually.of_forall fun ω => sq_nonneg _)]
      exact ENNReal.ofReal_le_ofReal (hYle k)
    exact ne_top_of_le_ne_top hsum.tsum_ofReal_ne_top (ENNReal.tsum_le_tsum h1)
  have hae := ae_lt_top (Measurable.tsum fun k => ((hYm k).pow_const 2).ennreal_ofReal) hfin
  filter_upwards [hae] with ω hω
  refine tendsto_average_of_squares (fun t => hB t ω) ?_
  have h1 := ENNReal.tendsto_atTop_zero_of_tsum_ne_top hω.ne
  have h2 : Tendsto (fun k => Y k ω ^ 2) atTop (𝓝 0) := by
    have h3 := (ENNReal.tendsto_toReal ENNReal.zero_ne_top).comp h1
    refine (h3.congr fun k => ?_)
    simp [ENNReal.toReal_ofReal (sq_nonneg (Y k ω))]
  have h4 := h2.sqrt
  simp only [Real.sqrt_sq_eq_abs, Real.sqrt_zero] at h4
  exact (tendsto_zero_iff_abs_tendsto_zero _).2 h4

end Obp
