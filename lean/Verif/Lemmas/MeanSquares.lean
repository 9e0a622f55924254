import Verif.Spec.Ope
import Mathlib.Analysis.SpecificLimits.Basic
import Mathlib.Topology.Algebra.Order.LiminfLimsup

set_option linter.unusedSectionVars false

/-!
# Means of squares

If the means of a sequence of non-negative numbers converge, the largest of the first `n` numbers is small compared with `n`,
and so is the mean of the squares.
-/

namespace Obp
open Filter Topology Log

variable {y : ℕ → ℝ} {c : ℝ}

theorem avg_fin_sum (y : ℕ → ℝ) (n : ℕ) : avg (fun i : Fin n => y i) = (∑ i ∈ Finset.range n, y i) / n := by
  rw [avg, Finset.sum_range]

theorem tendsto_div_of_avg (h : Tendsto (fun n : ℕ => avg fun i : Fin n => y i) atTop (𝓝 c)) :
    Tendsto (fun n : ℕ => y n / n) atTop (𝓝 0) := by
  have h1 : Tendsto (fun n : ℕ => avg (fun i : Fin (n + 1) => y i) * (((n : ℝ) + 1) / n)) atTop (𝓝 (c * 1)) := by
    refine (h.comp (tendsto_add_atTop_nat 1)).mul ?_
    have : Tendsto (fun n : ℕ => 1 + (1 : ℝ) / n) atTop (𝓝 (1 + 0)) :=
      tendsto_const_nhds.add tendsto_one_div_atTop_nhds_zero_nat
    rw [add_zero] at this
    refine this.congr' ?_
    filter_upwards [eventually_gt_atTop 0] with n hn
    have : (n : ℝ) ≠ 0 := by exact_mod_cast hn.ne'
    field_simp
  have h2 := h1.sub h
  rw [mul_one, sub_self] at h2
  refine h2.congr' ?_
  filter_upwards [eventually_gt_atTop 0] with n hn
  have hn' : (n : ℝ) ≠ 0 := by exact_mod_cast hn.ne'
  have hn1 : (n : ℝ) + 1 ≠ 0 := by positivity
  rw [avg_fin_sum, avg_fin_sum, Finset.sum_range_succ]
  push_cast
  field_simp
  ring

theorem eventually_le_of_avg (h0 : ∀ i, 0 ≤ y i) (h : Tendsto (fun n : ℕ => avg fun i : Fin n => y i) atTop (𝓝 c))
    {ε : ℝ} (hε : 0 < ε) : ∀ᶠ n : ℕ in atTop, ∀ i : Fin n, y i ≤ ε * n := by
  have h1 := (tendsto_div_of_avg h).eventually (gt_mem_nhds hε)
  obtain ⟨N, hN⟩ := eventually_atTop.1 h1
  have hB : Tendsto (fun n : ℕ => ε * (n : ℝ)) atTop atTop := tendsto_natCast_atTop_atTop.const_mul_atTop hε
  filter_upwards [hB.eventually_ge_atTop (∑ i ∈ Finset.range (N + 1), y i)] with n hn i
  by_cases hi : (i : ℕ) < N + 1
  · exact (Finset.single_le_sum (f := y) (fun j _ => h0 j) (Finset.mem_range.2 hi)).trans hn
  · have hi' : N ≤ (i : ℕ) := by omega
    have hpos : (0 : ℝ) < (i : ℕ) := by
      have : 0 < (i : ℕ) := by omega
      exact_mod_cast this
    have := hN _ hi'
    rw [div_lt_iff₀ hpos] at this
    refine this.le.trans ?_
    have : ((i : ℕ) : ℝ) ≤ n := by exact_mod_cast i.2.le
    gcongr

theorem tendsto_mean_squares (h0 : ∀ i, 0 ≤ y i) (h : Tendsto (fun n : ℕ => avg fun i : Fin n => y i) atTop (𝓝 c)) :
    Tendsto (fun n : ℕ => avg (fun i : Fin n => y i ^ 2) / n) atTop (𝓝 0) := by
  have hc : 0 ≤ c := ge_of_tendsto' h fun n => by
    unfold avg
    exact div_nonneg (Finset.sum_nonneg fun i _ => h0 i) (Nat.cast_nonneg n)
  refine Metric.tendsto_atTop.2 fun ε hε => ?_
  have hδ : 0 < ε / (2 * (c + 1)) := by positivity
  obtain ⟨N, hN⟩ := eventually_atTop.1 ((eventually_le_of_avg h0 h hδ).and
    ((h.eventually (gt_mem_nhds (lt_add_one c))).and (eventually_gt_atTop 0)))
  refine ⟨N, fun n hn => ?_⟩
  obtain ⟨h1, h2, h3⟩ := hN n hn
  have hn' : (0 : ℝ) < n := by exact_mod_cast h3
  have hnn : 0 ≤ avg (fun i : Fin n => y i ^ 2) / n := by
    unfold avg
    exact div_nonneg (div_nonneg (Finset.sum_nonneg fun i _ => sq_nonneg _) hn'.le) hn'.le
  rw [Real.dist_eq, sub_zero, abs_of_nonneg hnn, div_lt_iff₀ hn']
  have h4 : avg (fun i : Fin n => y i ^ 2) ≤ ε / (2 * (c + 1)) * n * avg fun i : Fin n => y i := by
    unfold avg
    rw [mul_div_assoc', Finset.mul_sum]
    gcongr with i
    refine (sq (y i)).le.trans ?_
    exact mul_le_mul_of_nonneg_right (h1 i) (h0 i)
  refine h4.trans_lt ?_
  calc ε / (2 * (c + 1)) * n * avg (fun i : Fin n => y i) ≤ ε / (2 * (c + 1)) * n * (c + 1) := by gcongr
    _ = ε * n / 2 := by field_simp
    _ < ε * n := by linarith [mul_pos hε hn']

end Obp
