import Verif.Spec.Prob
import Mathlib.Algebra.BigOperators.Pi
import Mathlib.Algebra.BigOperators.Field

/-! # Linearity of finite expectations -/

set_option linter.unusedSectionVars false

namespace Obp

variable {K : Type} [Field K] [LinearOrder K] [IsStrictOrderedRing K]
variable {n : ℕ} {O : Type} [Fintype O]

theorem sum_jointProb {p : Fin n → O → K} (hp : ∀ i, ∑ o, p i o = 1) :
    ∑ w, jointProb p w = 1 := by
  classical
  have h := Finset.prod_univ_sum (fun _ : Fin n => (Finset.univ : Finset O)) p
  simp only [hp, Finset.prod_const_one, Fintype.piFinset_univ] at h
  exact h.symm

/-- The expectation of a function of a single draw. -/
theorem expect_single {p : Fin n → O → K} (hp : ∀ i, ∑ o, p i o = 1) (k : Fin n) (f : O → K) :
    expect p (fun w => f (w k)) = expect1 (p k) f := by
  classical
  unfold expect expect1
  have h := Finset.prod_univ_sum (fun _ : Fin n => (Finset.univ : Finset O))
    (fun i o => p i o * if i = k then f o else 1)
  simp only [Fintype.piFinset_univ, Finset.prod_mul_distrib] at h
  have h1 : ∀ w : Fin n → O, (∏ i, if i = k then f (w i) else 1) = f (w k) := by
    intro w
    rw [Finset.prod_ite_eq' Finset.univ k (fun i => f (w i))]
    simp
  simp only [h1] at h
  unfold jointProb
  rw [← h, ← Finset.mul_prod_erase Finset.univ _ (Finset.mem_univ k)]
  rw [Finset.prod_eq_one]
  · simp
  · intro i hi
    have : i ≠ k := Finset.ne_of_mem_erase hi
    simp [this, hp]

theorem expect_congr {p : Fin n → O → K} {f g : (Fin n → O) → K}
    (h : ∀ w, jointProb p w ≠ 0 → f w = g w) : expect p f = expect p g := by
  unfold expect
  refine Finset.sum_congr rfl fun w _ => ?_
  by_cases hw : jointProb p w = 0
  · simp [hw]
  · rw [h w hw]

theorem expect1_congr {p : O → K} {f g : O → K} (h : ∀ o, p o ≠ 0 → f o = g o) :
    expect1 p f = expect1 p g := by
  unfold expect1
  refine Finset.sum_congr rfl fun w _ => ?_
  by_cases hw : p w = 0
  · simp [hw]
  · rw [h w hw]

theorem expect_sum {p : Fin n → O → K} {ι : Type} (s : Finset ι) (f : ι → (Fin n → O) → K) :
    expect p (fun w => ∑ i ∈ s, f i w) = ∑ i ∈ s, expect p (f i) := by
  unfold expect
  rw [Finset.sum_comm]
  simp only [Finset.mul_sum]

theorem expect_div {p : Fin n → O → K} (f : (Fin n → O) → K) (c : K) :
    expect p (fun w => f w / c) = expect p f / c := by
  unfold expect
  rw [Finset.sum_div]
  simp only [mul_div_assoc]

/-- The expectation of an average of functions of single draws. -/
theorem expect_avg {p : Fin n → O → K} (hp : ∀ i, ∑ o, p i o = 1) (f : Fin n → O → K) (c : K) :
    expect p (fun w => (∑ i, f i (w i)) / c) = (∑ i, expect1 (p i) (f i)) / c := by
  rw [expect_div, expect_sum]
  simp only [expect_single hp]

theorem jointProb_ne_zero {p : Fin n → O → K} {w : Fin n → O} (h : jointProb p w ≠ 0) (i : Fin n) :
    p i (w i) ≠ 0 := by
  intro h0
  exact h (Finset.prod_eq_zero (Finset.mem_univ i) h0)

end Obp
