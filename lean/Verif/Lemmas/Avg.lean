import Verif.Spec.Ope
import Verif.Lemmas.Numpy
import Mathlib.Algebra.BigOperators.Field

/-! # Lemmas about averages and weighted averages -/

set_option linter.unusedSectionVars false

namespace Obp
namespace Log

variable {K : Type} [Field K] [LinearOrder K] [IsStrictOrderedRing K] {n : ℕ}

theorem avg_mono {f g : Fin n → K} (h : ∀ i, f i ≤ g i) : avg f ≤ avg g :=
  div_le_div_of_nonneg_right (Finset.sum_le_sum fun i _ => h i) (Nat.cast_nonneg n)

theorem avg_nonneg {f : Fin n → K} (h : ∀ i, 0 ≤ f i) : 0 ≤ avg f :=
  div_nonneg (Finset.sum_nonneg fun i _ => h i) (Nat.cast_nonneg n)

theorem avg_const (hn : 0 < n) (c : K) : avg (fun _ : Fin n => c) = c := by
  have : (n : K) ≠ 0 := by exact_mod_cast hn.ne'
  simp only [avg, Finset.sum_const, Finset.card_univ, Fintype.card_fin, nsmul_eq_mul]
  field_simp

theorem avg_add (f g : Fin n → K) : avg (fun i => f i + g i) = avg f + avg g := by
  simp [avg, Finset.sum_add_distrib, add_div]

theorem avg_sub (f g : Fin n → K) : avg (fun i => f i - g i) = avg f - avg g := by
  simp [avg, Finset.sum_sub_distrib, sub_div]

theorem avg_mul_left (c : K) (f : Fin n → K) : avg (fun i => c * f i) = c * avg f := by
  simp [avg, ← Finset.mul_sum, mul_div_assoc]

theorem avg_div (f : Fin n → K) (c : K) : avg (fun i => f i / c) = avg f / c := by
  simp only [avg, ← Finset.sum_div]
  rw [div_div, div_div, mul_comm]

theorem avg_eq_zero_iff (hn : 0 < n) (f : Fin n → K) : avg f = 0 ↔ ∑ i, f i = 0 := by
  have : (n : K) ≠ 0 := by exact_mod_cast hn.ne'
  simp [avg, this]

theorem avg_congr {f g : Fin n → K} (h : ∀ i, f i = g i) : avg f = avg g := by
  rw [funext h]

theorem avg_equiv (σ : Equiv.Perm (Fin n)) (f : Fin n → K) : avg (fun i => f (σ i)) = avg f := by
  simp only [avg]
  rw [Equiv.sum_comp σ f]

/-- A self-normalised average is the ratio of sums. -/
theorem avg_ratio (hn : 0 < n) (r w : Fin n → K) (hw : avg w ≠ 0) :
    avg (fun i => r i * w i / avg w) = (∑ i, r i * w i) / ∑ i, w i := by
  rw [avg_div]
  have h1 : (n : K) ≠ 0 := by exact_mod_cast hn.ne'
  have h2 : ∑ i, w i ≠ 0 := fun h => hw ((avg_eq_zero_iff hn w).2 h)
  simp only [avg]
  field_simp

/-- A weighted average with non-negative weights lies between bounds valid on positive weights. -/
theorem weightedAvg_bounds {ι : Type} [Fintype ι] (r w : ι → K) (hw0 : ∀ i, 0 ≤ w i)
    (hs : ∑ i, w i ≠ 0) {lo hi : K} (hr : ∀ i, 0 < w i → lo ≤ r i ∧ r i ≤ hi) :
    lo ≤ (∑ i, r i * w i) / ∑ i, w i ∧ (∑ i, r i * w i) / ∑ i, w i ≤ hi := by
  have hpos : 0 < ∑ i, w i := lt_of_le_of_ne (Finset.sum_nonneg fun i _ => hw0 i) hs.symm
  rw [le_div_iff₀ hpos, div_le_iff₀ hpos, Finset.mul_sum, Finset.mul_sum]
  constructor
  · refine Finset.sum_le_sum fun i _ => ?_
    rcases (hw0 i).eq_or_lt with h | h
    · simp [← h]
    · exact mul_le_mul_of_nonneg_right (hr i h).1 (hw0 i)
  · refine Finset.sum_le_sum fun i _ => ?_
    rcases (hw0 i).eq_or_lt with h | h
    · simp [← h]
    · exact mul_le_mul_of_nonneg_right (hr i h).2 (hw0 i)

end Log
end Obp
