import Verif.Spec.Variance
import Verif.Lemmas.Prob
import Mathlib.Algebra.Order.BigOperators.Ring.Finset
import Mathlib.Algebra.Order.Chebyshev
import Mathlib.Tactic.Ring
import Mathlib.Tactic.Linarith
import Mathlib.Tactic.FieldSimp

set_option linter.unusedSectionVars false

/-! # Variance of averages of independent draws -/

namespace Obp

variable {K : Type} [Field K] [LinearOrder K] [IsStrictOrderedRing K]
variable {n : ℕ} {O : Type} [Fintype O]

/-- Variance of a function of one draw. -/
def variance1 (p : O → K) (f : O → K) : K := expect1 p fun o => (f o - expect1 p f) ^ 2

theorem expect1_add (p : O → K) (f g : O → K) : expect1 p (fun o => f o + g o) = expect1 p f + expect1 p g := by
  simp only [expect1, mul_add, Finset.sum_add_distrib]

theorem expect1_sub (p : O → K) (f g : O → K) : expect1 p (fun o => f o - g o) = expect1 p f - expect1 p g := by
  simp only [expect1, mul_sub, Finset.sum_sub_distrib]

theorem expect1_const {p : O → K} (hp : ∑ o, p o = 1) (c : K) : expect1 p (fun _ => c) = c := by
  simp only [expect1, ← Finset.sum_mul, hp, one_mul]

theorem expect1_mul_const (p : O → K) (f : O → K) (c : K) : expect1 p (fun o => f o * c) = expect1 p f * c := by
  simp only [expect1, ← mul_assoc, Finset.sum_mul]

theorem expect1_nonneg {p : O → K} (hp : ∀ o, 0 ≤ p o) {f : O → K} (hf : ∀ o, 0 ≤ f o) : 0 ≤ expect1 p f :=
  Finset.sum_nonneg fun o _ => mul_nonneg (hp o) (hf o)

theorem expect1_mono {p : O → K} (hp : ∀ o, 0 ≤ p o) {f g : O → K} (h : ∀ o, p o ≠ 0 → f o ≤ g o) : expect1 p f ≤ expect1 p g :=
  Finset.sum_le_sum fun o _ => by
    by_cases h0 : p o = 0
    · simp [h0]
    · exact mul_le_mul_of_nonneg_left (h o h0) (hp o)

/-- Second moment minus squared mean. -/
theorem variance1_eq {p : O → K} (hp : ∑ o, p o = 1) (f : O → K) :
    variance1 p f = expect1 p (fun o => f o ^ 2) - expect1 p f ^ 2 := by
  unfold variance1
  have h : ∀ o, (f o - expect1 p f) ^ 2 = f o ^ 2 - f o * (2 * expect1 p f) + expect1 p f ^ 2 := fun o => by ring
  simp only [h]
  rw [expect1_add, expect1_sub, expect1_mul_const, expect1_const hp]
  ring

theorem expect_add (p : Fin n → O → K) (f g : (Fin n → O) → K) : expect p (fun w => f w + g w) = expect p f + expect p g := by
  simp only [expect, mul_add, Finset.sum_add_distrib]

/-- Functions of different draws are uncorrelated. -/
theorem expect_pair {p : Fin n → O → K} (hp : ∀ i, ∑ o, p i o = 1) {k l : Fin n} (hkl : k ≠ l) (f g : O → K) :
    expect p (fun w => f (w k) * g (w l)) = expect1 (p k) f * expect1 (p l) g := by
  classical
  unfold expect expect1
  have h := Finset.prod_univ_sum (fun _ : Fin n => (Finset.univ : Finset O))
    (fun i o => p i o * ((if i = k then f o else 1) * if i = l then g o else 1))
  simp only [Fintype.piFinset_univ, Finset.prod_mul_distrib] at h
  have h1 : ∀ (m : Fin n) (u : O → K) (w : Fin n → O), (∏ i, if i = m then u (w i) else 1) = u (w m) := by
    intro m u w
    rw [Finset.prod_ite_eq' Finset.univ m (fun i => u (w i))]
    simp
  simp only [h1] at h
  unfold jointProb
  rw [← h, ← Finset.mul_prod_erase Finset.univ _ (Finset.mem_univ k),
    ← Finset.mul_prod_erase (Finset.univ.erase k) _ (Finset.mem_erase.2 ⟨hkl.symm, Finset.mem_univ l⟩), Finset.prod_eq_one]
  · simp [hkl, hkl.symm]
  · intro i hi
    have h2 := Finset.ne_of_mem_erase hi
    have h3 := Finset.ne_of_mem_erase (Finset.mem_of_mem_erase hi)
    simp [h2, h3, hp]

/-- The variance of an average of functions of independent draws. -/
theorem variance_avg {p : Fin n → O → K} (hp : ∀ i, ∑ o, p i o = 1) (f : Fin n → O → K) (c : K) :
    variance p (fun w => (∑ i, f i (w i)) / c) = (∑ i, variance1 (p i) (f i)) / c ^ 2 := by
  classical
  unfold variance
  rw [expect_avg hp]
  have h1 : ∀ w : Fin n → O, ((∑ i, f i (w i)) / c - (∑ i, expect1 (p i) (f i)) / c) ^ 2 =
      (∑ i, ∑ j, (f i (w i) - expect1 (p i) (f i)) * (f j (w j) - expect1 (p j) (f j))) / c ^ 2 := by
    intro w
    rw [← sub_div, ← Finset.sum_sub_distrib, div_pow, sq, Finset.sum_mul_sum]
  simp only [h1]
  rw [expect_div, expect_sum]
  refine congrArg (· / _) (Finset.sum_congr rfl fun i _ => ?_)
  rw [expect_sum, Finset.sum_eq_single i]
  · rw [expect_single hp i fun o => (f i o - expect1 (p i) (f i)) * (f i o - expect1 (p i) (f i))]
    simp only [variance1, sq]
  · intro j _ hj
    rw [expect_pair hp (Ne.symm hj) (fun o => f i o - expect1 (p i) (f i)) fun o => f j o - expect1 (p j) (f j), expect1_sub,
      expect1_const (hp i), sub_self, zero_mul]
  · simp

/-- Mean square around any point bounds the variance. -/
theorem variance1_le {p : O → K} (hp1 : ∑ o, p o = 1) (f : O → K) :
    variance1 p f ≤ expect1 p fun o => f o ^ 2 := by
  rw [variance1_eq hp1]
  nlinarith [sq_nonneg (expect1 p f)]

/-- A centred noise adds to the variance. -/
theorem sum_noise {S : ℕ} {law : Fin S → K} (hl : ∑ s, law s = 1) {u : Fin S → K} (hu : ∑ s, law s * u s = 0) (c : K) :
    ∑ s, law s * (u s + c) ^ 2 = ∑ s, law s * u s ^ 2 + c ^ 2 := by
  have h : ∀ s, law s * (u s + c) ^ 2 = law s * u s ^ 2 + law s * u s * (2 * c) + law s * c ^ 2 := fun s => by ring
  simp only [h]
  rw [Finset.sum_add_distrib, Finset.sum_add_distrib, ← Finset.sum_mul, ← Finset.sum_mul, hu, hl]
  ring

/-- The variance only depends on the values on outcomes of positive probability. -/
theorem variance_congr {n : ℕ} {O : Type} [Fintype O] {p : Fin n → O → K} {f g : (Fin n → O) → K}
    (h : ∀ w, jointProb p w ≠ 0 → f w = g w) : variance p f = variance p g := by
  have he : ∀ {f g : (Fin n → O) → K}, (∀ w, jointProb p w ≠ 0 → f w = g w) → expect p f = expect p g := fun {f g} h => by
    unfold expect
    refine Finset.sum_congr rfl fun w _ => ?_
    by_cases h0 : jointProb p w = 0
    · simp [h0]
    · rw [h w h0]
  unfold variance
  rw [he h]
  exact he fun w hw => by rw [h w hw]

/-- So the variance of an estimate is well defined. -/
theorem variance_estimates {n : ℕ} {O : Type} [Fintype O] {p : Fin n → O → K} {est : (Fin n → O) → Py K} {f g : (Fin n → O) → K}
    (hf : Estimates p est f) (hg : Estimates p est g) : variance p f = variance p g :=
  variance_congr fun w hw => Except.ok.inj ((hf w hw).symm.trans (hg w hw))

end Obp
