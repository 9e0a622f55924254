import Mathlib.Probability.Moments.Variance
import Mathlib.Probability.Moments.Basic
import Mathlib.Probability.IdentDistrib
import Mathlib.Analysis.SpecialFunctions.ExpDeriv
import Mathlib.Analysis.Convex.SpecificFunctions.Basic
import Mathlib.Analysis.Convex.Jensen
import Mathlib.Analysis.Calculus.Deriv.MeanValue

set_option linter.unusedSectionVars false

/-!
# The empirical Bernstein inequality

Bernstein's inequality for the lower tail of a mean, a lower tail bound for the sample variance, and the empirical Bernstein
inequality of Maurer and Pontil that follows from the two. The bound for the sample variance writes it as an average of averages
of independent terms, one for every permutation of the sample.
-/

namespace Obp
open MeasureTheory ProbabilityTheory

/-! ### Bounds for the exponential function -/

theorem exp_neg_le {u : ℝ} (hu : 0 ≤ u) : Real.exp (-u) ≤ 1 - u + u ^ 2 / 2 := by
  have h := Real.quadratic_le_exp_of_nonneg hu
  have hp : 0 < 1 + u + u ^ 2 / 2 := by positivity
  rw [Real.exp_neg]
  refine (inv_anti₀ hp h).trans ?_
  rw [inv_le_iff_one_le_mul₀ hp]
  nlinarith [sq_nonneg (u ^ 2)]

theorem exp_le_bernstein {x : ℝ} (hx : 0 ≤ x) : (6 - 2 * x) * Real.exp x ≤ 6 + 4 * x + x ^ 2 := by
  have hd : ∀ y : ℝ, HasDerivAt (fun y : ℝ => (6 + 4 * y + y ^ 2) * Real.exp (-y) + 2 * y)
      (2 - (2 + 2 * y + y ^ 2) * Real.exp (-y)) y := by
    intro y
    have h1 : HasDerivAt (fun y : ℝ => 6 + 4 * y + y ^ 2) (4 + 2 * y) y := by
      have := (((hasDerivAt_id' y).const_mul 4).const_add 6).fun_add (hasDerivAt_pow 2 y)
      refine this.congr_deriv ?_
      norm_num
    have h2 : HasDerivAt (fun y : ℝ => Real.exp (-y)) (-Real.exp (-y)) y := by
      exact ((Real.hasDerivAt_exp (-y)).comp y (hasDerivAt_neg y)).congr_deriv (by ring)
    have h3 := (h1.fun_mul h2).fun_add ((hasDerivAt_id' y).const_mul 2)
    refine h3.congr_deriv ?_
    ring
  have hmono : MonotoneOn (fun y : ℝ => (6 + 4 * y + y ^ 2) * Real.exp (-y) + 2 * y) (Set.Ici 0) := by
    refine monotoneOn_of_deriv_nonneg (convex_Ici 0) (fun y _ => (hd y).continuousAt.continuousWithinAt)
      (fun y _ => (hd y).differentiableAt.differentiableWithinAt) fun y hy => ?_
    rw [interior_Ici] at hy
    rw [(hd y).deriv]
    have h := Real.quadratic_le_exp_of_nonneg (le_of_lt (Set.mem_Ioi.1 hy))
    have h2 : (2 + 2 * y + y ^ 2) * Real.exp (-y) ≤ 2 * (Real.exp y * Real.exp (-y)) := by
      have := mul_le_mul_of_nonneg_right h (Real.exp_pos (-y)).le
      linarith
    rw [← Real.exp_add, add_neg_cancel, Real.exp_zero] at h2
    linarith
  have h := hmono (Set.mem_Ici.2 le_rfl) (Set.mem_Ici.2 hx) hx
  simp only [neg_zero, Real.exp_zero] at h
  have h2 : 6 - 2 * x ≤ (6 + 4 * x + x ^ 2) * Real.exp (-x) := by nlinarith
  have h3 := mul_le_mul_of_nonneg_right h2 (Real.exp_pos x).le
  rwa [mul_assoc, ← Real.exp_add, neg_add_cancel, Real.exp_zero, mul_one] at h3

theorem exp_le_quadratic {x u : ℝ} (hxu : x ≤ u) (hu0 : 0 ≤ u) (hu : u < 3) :
    Real.exp x ≤ 1 + x + x ^ 2 / (2 * (1 - u / 3)) := by
  have hd : 0 < 2 * (1 - u / 3) := by linarith
  rcases le_total 0 x with h | h
  · have h1 := exp_le_bernstein h
    have hx : 0 < 2 * (1 - x / 3) := by linarith
    have h2 : Real.exp x ≤ 1 + x + x ^ 2 / (2 * (1 - x / 3)) := by
      rw [← sub_le_iff_le_add', le_div_iff₀ hx]
      nlinarith
    refine h2.trans (add_le_add le_rfl ?_)
    exact div_le_div_of_nonneg_left (sq_nonneg x) hd (by linarith)
  · have h1 := exp_neg_le (neg_nonneg.2 h)
    rw [neg_neg] at h1
    have h2 : x ^ 2 / 2 ≤ x ^ 2 / (2 * (1 - u / 3)) := div_le_div_of_nonneg_left (sq_nonneg x) hd (by linarith)
    nlinarith

/-! ### Bernstein's inequality -/

variable {Ω : Type} [MeasurableSpace Ω] {P : Measure Ω} [IsProbabilityMeasure P]

theorem mgf_le_bernstein {Y : Ω → ℝ} (hm : Measurable Y) {M : ℝ} (hb : ∀ ω, |Y ω| ≤ M) (h0 : ∫ ω, Y ω ∂P = 0) {l : ℝ} (hl : 0 ≤ l)
    (hlM : l * M < 3) : mgf Y P l ≤ Real.exp (l ^ 2 * (∫ ω, Y ω ^ 2 ∂P) / (2 * (1 - l * M / 3))) := by
  obtain ⟨ω0⟩ : Nonempty Ω := P.nonempty_of_neZero
  have hM : 0 ≤ M := (abs_nonneg _).trans (hb ω0)
  have hi : Integrable Y P := Integrable.of_bound hm.aestronglyMeasurable M (ae_of_all _ hb)
  have hi2 : Integrable (fun ω => Y ω ^ 2) P := Integrable.of_bound (hm.pow_const 2).aestronglyMeasurable (M ^ 2)
    (ae_of_all _ fun ω => by rw [norm_pow]; exact pow_le_pow_left₀ (norm_nonneg _) (hb ω) 2)
  have hie : Integrable (fun ω => Real.exp (l * Y ω)) P := Integrable.of_bound
    (Real.measurable_exp.comp (hm.const_mul l)).aestronglyMeasurable (Real.exp (l * M)) (ae_of_all _ fun ω => by
      rw [Real.norm_of_nonneg (Real.exp_pos _).le]
      exact Real.exp_le_exp.2 (mul_le_mul_of_nonneg_left ((le_abs_self _).trans (hb ω)) hl))
  have h1 : mgf Y P l ≤ ∫ ω, (1 + l * Y ω + l ^ 2 / (2 * (1 - l * M / 3)) * Y ω ^ 2) ∂P := by
    refine integral_mono hie (((integrable_const _).add (hi.const_mul l)).add (hi2.const_mul _)) fun ω => ?_
    have := exp_le_quadratic (mul_le_mul_of_nonneg_left ((le_abs_self _).trans (hb ω)) hl) (mul_nonneg hl hM) hlM
    refine this.trans (le_of_eq ?_)
    ring
  refine h1.trans ?_
  have e1 := integral_add (μ := P) (f := fun ω => 1 + l * Y ω) (g := fun ω => l ^ 2 / (2 * (1 - l * M / 3)) * Y ω ^ 2)
    ((integrable_const _).add (hi.const_mul l)) (hi2.const_mul _)
  rw [e1, integral_add (integrable_const _) (hi.const_mul l), integral_const_mul, integral_const_mul, h0]
  simp only [integral_const, probReal_univ, smul_eq_mul, one_mul, mul_zero, add_zero]
  have := Real.add_one_le_exp (l ^ 2 / (2 * (1 - l * M / 3)) * ∫ ω, Y ω ^ 2 ∂P)
  rw [div_mul_eq_mul_div] at this ⊢
  linarith

/-- Bernstein's inequality for sums of centred independent variables of the same second moment. -/
theorem bernstein {n : ℕ} (hn : 0 < n) {Y : Fin n → Ω → ℝ} (hm : ∀ i, Measurable (Y i)) (hind : iIndepFun Y P) {M v : ℝ}
    (hb : ∀ i ω, |Y i ω| ≤ M) (h0 : ∀ i, ∫ ω, Y i ω ∂P = 0) (hv : ∀ i, ∫ ω, Y i ω ^ 2 ∂P = v) {L : ℝ} (hL : 0 ≤ L) :
    P.real {ω | √(2 * v * L / n) + M * L / (3 * n) < (∑ i, Y i ω) / n} ≤ Real.exp (-L) := by
  have hn' : (0 : ℝ) < n := by exact_mod_cast hn
  obtain ⟨ω0⟩ : Nonempty Ω := P.nonempty_of_neZero
  have hM : 0 ≤ M := (abs_nonneg _).trans (hb ⟨0, hn⟩ ω0)
  have hv0 : 0 ≤ v := hv ⟨0, hn⟩ ▸ integral_nonneg fun ω => sq_nonneg _
  have hi2 : ∀ i, Integrable (fun ω => Y i ω ^ 2) P := fun i => Integrable.of_bound ((hm i).pow_const 2).aestronglyMeasurable (M ^ 2)
    (ae_of_all _ fun ω => by rw [norm_pow]; exact pow_le_pow_left₀ (norm_nonneg _) (hb i ω) 2)
  rcases hv0.eq_or_lt with hvz | hvp
  · -- no variance: the sum is zero
    have hz : ∀ᵐ ω ∂P, ∀ i, Y i ω = 0 := by
      rw [ae_all_iff]
      intro i
      have := (integral_eq_zero_iff_of_nonneg (fun ω => sq_nonneg (Y i ω)) (hi2 i)).1 ((hv i).trans hvz.symm)
      filter_upwards [this] with ω h
      simpa using h
    have : P.real {ω | √(2 * v * L / n) + M * L / (3 * n) < (∑ i, Y i ω) / n} = 0 := by
      rw [measureReal_def, ENNReal.toReal_eq_zero_iff]
      left
      rw [← nonpos_iff_eq_zero, ← (ae_iff.1 hz)]
      refine measure_mono fun ω hω => ?_
      simp only [Set.mem_ofPred_eq] at hω ⊢
      intro hc
      simp only [hc, Finset.sum_const_zero, zero_div] at hω
      have : 0 ≤ √(2 * v * L / n) + M * L / (3 * n) := by positivity
      linarith
    rw [this]
    exact (Real.exp_pos _).le
  · set s : ℝ := √(2 * L / (n * v)) with hs
    have hs0 : 0 ≤ s := Real.sqrt_nonneg _
    have hs2 : n * v * s ^ 2 = 2 * L := by
      rw [hs, Real.sq_sqrt (by positivity)]
      field_simp
    set c : ℝ := M / 3 with hc
    have hc0 : 0 ≤ c := by positivity
    have h1c : 0 < 1 + c * s := by positivity
    set l : ℝ := s / (1 + c * s) with hl
    have hl0 : 0 ≤ l := by positivity
    have hlM : l * M < 3 := by
      rw [hl, div_mul_eq_mul_div, div_lt_iff₀ h1c, hc]
      nlinarith
    have h1l : 1 - l * M / 3 = 1 / (1 + c * s) := by
      rw [hl, hc]
      have : 1 + M / 3 * s ≠ 0 := by rw [← hc]; exact h1c.ne'
      field_simp
      ring
    have hroot : √(2 * v * L / n) = v * s := by
      have : 2 * v * L / n = (v * s) ^ 2 := by
        rw [div_eq_iff hn'.ne']
        linear_combination (-v) * hs2
      rw [this, Real.sqrt_sq (by positivity)]
    have hie : ∀ i, Integrable (fun ω => Real.exp (l * Y i ω)) P := fun i => Integrable.of_bound
      (Real.measurable_exp.comp ((hm i).const_mul l)).aestronglyMeasurable (Real.exp (l * M)) (ae_of_all _ fun ω => by
        rw [Real.norm_of_nonneg (Real.exp_pos _).le]
        exact Real.exp_le_exp.2 (mul_le_mul_of_nonneg_left ((le_abs_self _).trans (hb i ω)) hl0))
    have hint := hind.integrable_exp_mul_sum (s := Finset.univ) (t := l) hm fun i _ => hie i
    have hch := measure_ge_le_exp_mul_mgf (μ := P) (X := ∑ i, Y i) (n * (v * s + M * L / (3 * n))) hl0 hint
    refine (measureReal_mono fun ω hω => ?_).trans (hch.trans ?_)
    · simp only [Set.mem_ofPred_eq] at hω ⊢
      rw [hroot, lt_div_iff₀ hn'] at hω
      rw [Finset.sum_apply]
      linarith
    · rw [hind.mgf_sum hm]
      have hprod : ∏ i, mgf (Y i) P l ≤ Real.exp (l ^ 2 * v / (2 * (1 - l * M / 3))) ^ n := by
        refine (Finset.prod_le_prod (fun i _ => mgf_nonneg) fun i _ =>
          mgf_le_bernstein (hm i) (hb i) (h0 i) hl0 hlM).trans (le_of_eq ?_)
        simp [hv]
      refine (mul_le_mul_of_nonneg_left hprod (Real.exp_pos _).le).trans (le_of_eq ?_)
      rw [← Real.exp_nat_mul, ← Real.exp_add, h1l]
      congr 1
      have hL2 : L = n * v * s ^ 2 / 2 := by linarith
      rw [hL2, hl, hc]
      have : 1 + M / 3 * s ≠ 0 := by rw [← hc]; exact h1c.ne'
      field_simp
      ring

/-! ### The sample variance -/

/-- Unbiased sample variance, as an average over pairs. -/
noncomputable def pairVar {n : ℕ} (x : Fin n → ℝ) : ℝ := (∑ i, ∑ j, (x i - x j) ^ 2) / (2 * (n * (n - 1)))

theorem pairVar_nonneg {n : ℕ} (hn : 1 < n) (x : Fin n → ℝ) : 0 ≤ pairVar x := by
  have : (1 : ℝ) < n := by exact_mod_cast hn
  exact div_nonneg (Finset.sum_nonneg fun i _ => Finset.sum_nonneg fun j _ => sq_nonneg _) (by nlinarith)

/-- A permutation that takes one pair to another. -/
theorem exists_perm_pair {n : ℕ} {a b c d : Fin n} (h : a ≠ b) (h' : c ≠ d) : ∃ e : Equiv.Perm (Fin n), e a = c ∧ e b = d := by
  refine ⟨Equiv.swap (Equiv.swap a c b) d * Equiv.swap a c, ?_, ?_⟩
  · rw [Equiv.Perm.mul_apply, Equiv.swap_apply_left, Equiv.swap_apply_of_ne_of_ne _ h']
    intro hc
    have : Equiv.swap a c a = Equiv.swap a c b := by rw [Equiv.swap_apply_left]; exact hc
    exact h ((Equiv.swap a c).injective this)
  · rw [Equiv.Perm.mul_apply, Equiv.swap_apply_left]

/-- Over all permutations every pair of places sees every pair of numbers equally often. -/
theorem sum_perm_pair {n : ℕ} (hn : 1 < n) (x : Fin n → ℝ) {a b : Fin n} (h : a ≠ b) :
    ∑ e : Equiv.Perm (Fin n), (x (e a) - x (e b)) ^ 2 / 2 = Fintype.card (Equiv.Perm (Fin n)) * pairVar x := by
  have hn' : (1 : ℝ) < n := by exact_mod_cast hn
  have hsame : ∀ c d : Fin n, c ≠ d → ∑ e : Equiv.Perm (Fin n), (x (e c) - x (e d)) ^ 2 / 2 =
      ∑ e : Equiv.Perm (Fin n), (x (e a) - x (e b)) ^ 2 / 2 := by
    intro c d hcd
    obtain ⟨f, hf1, hf2⟩ := exists_perm_pair h hcd
    refine (Fintype.sum_equiv (Equiv.mulRight f) _ _ fun e => ?_)
    simp [Equiv.Perm.mul_apply, hf1, hf2]
  have hall : ∑ c, ∑ d, ∑ e : Equiv.Perm (Fin n), (x (e c) - x (e d)) ^ 2 / 2 =
      ((n : ℝ) * ((n : ℝ) - 1)) * (∑ e : Equiv.Perm (Fin n), (x (e a) - x (e b)) ^ 2 / 2) := by
    have : ∀ c d, ∑ e : Equiv.Perm (Fin n), (x (e c) - x (e d)) ^ 2 / 2 =
        (∑ e : Equiv.Perm (Fin n), (x (e a) - x (e b)) ^ 2 / 2) -
          if c = d then ∑ e : Equiv.Perm (Fin n), (x (e a) - x (e b)) ^ 2 / 2 else 0 := by
      intro c d
      split_ifs with hcd
      · simp [hcd]
      · rw [hsame c d hcd, sub_zero]
    generalize (∑ e : Equiv.Perm (Fin n), (x (e a) - x (e b)) ^ 2 / 2) = T at this ⊢
    simp only [this, Finset.sum_sub_distrib, Finset.sum_const, Finset.card_univ, Fintype.card_fin, nsmul_eq_mul,
      Finset.sum_ite_eq, Finset.mem_univ, if_true]
    ring
  have hall2 : ∑ c, ∑ d, ∑ e : Equiv.Perm (Fin n), (x (e c) - x (e d)) ^ 2 / 2 =
      Fintype.card (Equiv.Perm (Fin n)) * ((∑ i, ∑ j, (x i - x j) ^ 2) / 2) := by
    have h1 : ∀ e : Equiv.Perm (Fin n), ∑ c, ∑ d, (x (e c) - x (e d)) ^ 2 / 2 = (∑ i, ∑ j, (x i - x j) ^ 2) / 2 := by
      intro e
      rw [Finset.sum_div]
      refine Fintype.sum_equiv e _ _ fun c => ?_
      rw [Finset.sum_div]
      exact Fintype.sum_equiv e _ _ fun d => rfl
    have h2 : ∑ c, ∑ d, ∑ e : Equiv.Perm (Fin n), (x (e c) - x (e d)) ^ 2 / 2 =
        ∑ e : Equiv.Perm (Fin n), ∑ c, ∑ d, (x (e c) - x (e d)) ^ 2 / 2 := by
      rw [Finset.sum_comm]
      refine Eq.trans ?_ Finset.sum_comm
      rw [Finset.sum_comm]
      exact Finset.sum_congr rfl fun c _ => Finset.sum_comm
    rw [h2]
    simp [h1]
  rw [hall] at hall2
  have hne : (n : ℝ) * (n - 1) ≠ 0 := by nlinarith
  unfold pairVar
  rw [mul_div_assoc', eq_div_iff (mul_ne_zero two_ne_zero hne)]
  linear_combination 2 * hall2

/-- Products over disjoint pairs of independent variables. -/
theorem integral_prod_pairs {n : ℕ} {X : Fin n → Ω → ℝ} (hm : ∀ i, Measurable (X i)) (hind : iIndepFun X P)
    {g : ℝ → ℝ → ℝ} (hg : Measurable fun z : ℝ × ℝ => g z.1 z.2) {J : Type} [DecidableEq J] (a b : J → Fin n)
    (hd : ∀ j k, j ≠ k → a j ≠ a k ∧ a j ≠ b k ∧ b j ≠ a k ∧ b j ≠ b k) (s : Finset J) :
    ∫ ω, ∏ j ∈ s, g (X (a j) ω) (X (b j) ω) ∂P = ∏ j ∈ s, ∫ ω, g (X (a j) ω) (X (b j) ω) ∂P := by
  induction s using Finset.induction_on with
  | empty => simp
  | insert k s hk ih =>
    have hS : ∀ j ∈ s, a j ∈ s.image a ∪ s.image b ∧ b j ∈ s.image a ∪ s.image b := fun j hj =>
      ⟨Finset.mem_union_left _ (Finset.mem_image_of_mem a hj), Finset.mem_union_right _ (Finset.mem_image_of_mem b hj)⟩
    have hT1 : a k ∈ ({a k, b k} : Finset (Fin n)) := by simp
    have hT2 : b k ∈ ({a k, b k} : Finset (Fin n)) := by simp
    have hdis : Disjoint ({a k, b k} : Finset (Fin n)) (s.image a ∪ s.image b) := by
      rw [Finset.disjoint_left]
      intro i hi hi'
      rw [Finset.mem_union, Finset.mem_image, Finset.mem_image] at hi'
      have hne : ∀ j ∈ s, k ≠ j := fun j hj h => hk (h ▸ hj)
      rw [Finset.mem_insert, Finset.mem_singleton] at hi
      rcases hi' with ⟨j, hj, hji⟩ | ⟨j, hj, hji⟩ <;> rcases hi with hi | hi
      · exact (hd k j (hne j hj)).1 (hi.symm.trans hji.symm)
      · exact (hd k j (hne j hj)).2.2.1 (hi.symm.trans hji.symm)
      · exact (hd k j (hne j hj)).2.1 (hi.symm.trans hji.symm)
      · exact (hd k j (hne j hj)).2.2.2 (hi.symm.trans hji.symm)
    have h1 := hind.indepFun_finset _ _ hdis hm
    have hφ : Measurable fun x : (({a k, b k} : Finset (Fin n)) → ℝ) => g (x ⟨a k, hT1⟩) (x ⟨b k, hT2⟩) :=
      hg.comp (f := fun x : (({a k, b k} : Finset (Fin n)) → ℝ) => (x ⟨a k, hT1⟩, x ⟨b k, hT2⟩))
        ((measurable_pi_apply _).prodMk (measurable_pi_apply _))
    have hψ : Measurable fun x : ((s.image a ∪ s.image b : Finset (Fin n)) → ℝ) =>
        ∏ j ∈ s.attach, g (x ⟨a j, (hS j j.2).1⟩) (x ⟨b j, (hS j j.2).2⟩) :=
      Finset.measurable_fun_prod _ fun j _ => hg.comp
        (f := fun x : ((s.image a ∪ s.image b : Finset (Fin n)) → ℝ) => (x ⟨a j, (hS j j.2).1⟩, x ⟨b j, (hS j j.2).2⟩))
        ((measurable_pi_apply _).prodMk (measurable_pi_apply _))
    have h2 := h1.comp hφ hψ
    have h3 : IndepFun (fun ω => g (X (a k) ω) (X (b k) ω)) (fun ω => ∏ j ∈ s, g (X (a j) ω) (X (b j) ω)) P := by
      have e : (fun ω => ∏ j ∈ s, g (X (a j) ω) (X (b j) ω)) = (fun x : ((s.image a ∪ s.image b : Finset (Fin n)) → ℝ) =>
          ∏ j ∈ s.attach, g (x ⟨a j, (hS j j.2).1⟩) (x ⟨b j, (hS j j.2).2⟩)) ∘ fun ω i => X i ω := by
        funext ω
        exact (Finset.prod_attach s fun j => g (X (a j) ω) (X (b j) ω)).symm
      rw [e]
      exact h2
    simp only [Finset.prod_insert hk]
    have hgm : ∀ j, Measurable fun ω => g (X (a j) ω) (X (b j) ω) := fun j => hg.comp ((hm _).prodMk (hm _))
    rw [h3.integral_fun_mul_eq_mul_integral (hgm k).aestronglyMeasurable
      (Finset.measurable_fun_prod _ fun j _ => hgm j).aestronglyMeasurable, ih]

theorem integral_pair_le {X Y : Ω → ℝ} (hX : Measurable X) (hY : Measurable Y) (hind : IndepFun X Y P) {M μ v : ℝ}
    (hbX : ∀ ω, X ω ∈ Set.Icc 0 M) (hbY : ∀ ω, Y ω ∈ Set.Icc 0 M) (h1X : ∫ ω, X ω ∂P = μ) (h1Y : ∫ ω, Y ω ∂P = μ)
    (h2X : ∫ ω, X ω ^ 2 ∂P = v + μ ^ 2) (h2Y : ∫ ω, Y ω ^ 2 ∂P = v + μ ^ 2) {c : ℝ} (hc : 0 ≤ c) :
    ∫ ω, Real.exp (-c * ((X ω - Y ω) ^ 2 / 2)) ∂P ≤ Real.exp (-c * v + c ^ 2 * M ^ 2 * v / 4) := by
  have hbound : ∀ {Z : Ω → ℝ}, Measurable Z → ∀ B : ℝ, (∀ ω, |Z ω| ≤ B) → Integrable Z P := fun hZ B h =>
    Integrable.of_bound hZ.aestronglyMeasurable B (ae_of_all _ h)
  have hM : ∀ ω, 0 ≤ M := fun ω => (hbX ω).1.trans (hbX ω).2
  have hX2 : Integrable (fun ω => X ω ^ 2) P := hbound (hX.pow_const 2) (M ^ 2) fun ω => by
    rw [abs_of_nonneg (sq_nonneg _)]; exact pow_le_pow_left₀ (hbX ω).1 (hbX ω).2 2
  have hY2 : Integrable (fun ω => Y ω ^ 2) P := hbound (hY.pow_const 2) (M ^ 2) fun ω => by
    rw [abs_of_nonneg (sq_nonneg _)]; exact pow_le_pow_left₀ (hbY ω).1 (hbY ω).2 2
  have hXY : Integrable (fun ω => X ω * Y ω) P := hbound (hX.mul hY) (M * M) fun ω => by
    rw [abs_of_nonneg (mul_nonneg (hbX ω).1 (hbY ω).1)]
    exact mul_le_mul (hbX ω).2 (hbY ω).2 (hbY ω).1 (hM ω)
  have hh : ∀ ω, 0 ≤ (X ω - Y ω) ^ 2 / 2 ∧ (X ω - Y ω) ^ 2 / 2 ≤ M ^ 2 / 2 := fun ω => by
    have h1 := hbX ω
    have h2 := hbY ω
    refine ⟨by positivity, ?_⟩
    have : (X ω - Y ω) ^ 2 ≤ M ^ 2 := sq_le_sq' (by linarith [h1.1, h2.2]) (by linarith [h1.2, h2.1])
    linarith
  have hhm : Measurable fun ω => (X ω - Y ω) ^ 2 / 2 := ((hX.sub hY).pow_const 2).div_const 2
  have hhi : Integrable (fun ω => (X ω - Y ω) ^ 2 / 2) P := hbound hhm (M ^ 2 / 2) fun ω => by
    rw [abs_of_nonneg (hh ω).1]; exact (hh ω).2
  have hmean : ∫ ω, (X ω - Y ω) ^ 2 / 2 ∂P = v := by
    have e : (fun ω => (X ω - Y ω) ^ 2 / 2) = fun ω => (1 / 2) * X ω ^ 2 + ((1 / 2) * Y ω ^ 2 - X ω * Y ω) := by
      funext ω; ring
    have e1 := integral_add (μ := P) (f := fun ω => (1 / 2) * X ω ^ 2) (g := fun ω => (1 / 2) * Y ω ^ 2 - X ω * Y ω)
      (hX2.const_mul _) ((hY2.const_mul _).sub hXY)
    have e2 := integral_sub (μ := P) (f := fun ω => (1 / 2) * Y ω ^ 2) (g := fun ω => X ω * Y ω) (hY2.const_mul _) hXY
    have e3 : ∫ ω, X ω * Y ω ∂P = μ * μ := by
      rw [hind.integral_fun_mul_eq_mul_integral hX.aestronglyMeasurable hY.aestronglyMeasurable, h1X, h1Y]
    rw [e, e1, e2, integral_const_mul, integral_const_mul, h2X, h2Y, e3]
    ring
  have h1 : ∫ ω, Real.exp (-c * ((X ω - Y ω) ^ 2 / 2)) ∂P ≤
      ∫ ω, (1 + (-c + c ^ 2 * M ^ 2 / 4) * ((X ω - Y ω) ^ 2 / 2)) ∂P := by
    refine integral_mono (hbound (Real.measurable_exp.comp (hhm.const_mul _)) 1 fun ω => ?_)
      ((integrable_const _).add (hhi.const_mul _)) fun ω => ?_
    · rw [abs_of_pos (Real.exp_pos _), Real.exp_le_one_iff]
      nlinarith [(hh ω).1, mul_nonneg hc (hh ω).1]
    · have h2 := exp_neg_le (mul_nonneg hc (hh ω).1)
      rw [← neg_mul] at h2
      refine h2.trans ?_
      have h3 := mul_le_mul_of_nonneg_left (hh ω).2 (hh ω).1
      have h4 := mul_le_mul_of_nonneg_left h3 (sq_nonneg c)
      nlinarith
  have e1 := integral_add (μ := P) (f := fun _ => (1 : ℝ)) (g := fun ω => (-c + c ^ 2 * M ^ 2 / 4) * ((X ω - Y ω) ^ 2 / 2))
      (integrable_const _) (hhi.const_mul _)
  rw [e1, integral_const_mul, hmean] at h1
  simp only [integral_const, probReal_univ, smul_eq_mul, one_mul] at h1
  have := Real.add_one_le_exp (-c * v + c ^ 2 * M ^ 2 * v / 4)
  refine h1.trans (le_trans (le_of_eq ?_) this)
  ring

section sample
variable {n : ℕ} {X : Fin n → Ω → ℝ} {M μ v : ℝ}

theorem mgf_pairVar (hn : 1 < n) (hm : ∀ i, Measurable (X i)) (hind : iIndepFun X P) (hb : ∀ i ω, X i ω ∈ Set.Icc 0 M)
    (h1 : ∀ i, ∫ ω, X i ω ∂P = μ) (h2 : ∀ i, ∫ ω, X i ω ^ 2 ∂P = v + μ ^ 2) {θ : ℝ} (hθ : 0 ≤ θ) :
    mgf (fun ω => pairVar fun i => X i ω) P (-θ) ≤ Real.exp (-θ * v + θ ^ 2 * M ^ 2 * v / (4 * (n / 2 : ℕ))) := by
  set m : ℕ := n / 2 with hmdef
  have hm0 : 0 < m := by omega
  have hm' : (0 : ℝ) < m := by exact_mod_cast hm0
  let a : Fin m → Fin n := fun j => ⟨2 * j, by omega⟩
  let b : Fin m → Fin n := fun j => ⟨2 * j + 1, by omega⟩
  have hab : ∀ j, a j ≠ b j := fun j h => by simp only [a, b, Fin.mk.injEq] at h; omega
  have hdis : ∀ j k, j ≠ k → a j ≠ a k ∧ a j ≠ b k ∧ b j ≠ a k ∧ b j ≠ b k := fun j k h => by
    have : (j : ℕ) ≠ k := fun h' => h (Fin.ext h')
    simp only [a, b, ne_eq, Fin.mk.injEq]
    omega
  set N : ℝ := (Fintype.card (Equiv.Perm (Fin n)) : ℝ) with hN
  have hN0 : 0 < N := by rw [hN]; exact_mod_cast Fintype.card_pos
  have hV : ∀ x : Fin n → ℝ, pairVar x = ∑ e : Equiv.Perm (Fin n), (1 / N) * ((∑ j, (x (e (a j)) - x (e (b j))) ^ 2 / 2) / m) := by
    intro x
    rw [← Finset.mul_sum, ← Finset.sum_div, Finset.sum_comm]
    simp only [sum_perm_pair hn x (hab _), ← hN, Finset.sum_const, Finset.card_univ, Fintype.card_fin, nsmul_eq_mul]
    field_simp
  have hexp : ∀ ω, Real.exp (-θ * pairVar fun i => X i ω) ≤ ∑ e : Equiv.Perm (Fin n), (1 / N) *
      ∏ j, Real.exp (-(θ / m) * ((X (e (a j)) ω - X (e (b j)) ω) ^ 2 / 2)) := by
    intro ω
    have hj := convexOn_exp.map_sum_le (t := (Finset.univ : Finset (Equiv.Perm (Fin n)))) (w := fun _ => 1 / N)
      (p := fun e => -θ * ((∑ j, (X (e (a j)) ω - X (e (b j)) ω) ^ 2 / 2) / m)) (fun _ _ => by positivity)
      (by simp [← hN, hN0.ne']) (fun _ _ => Set.mem_univ _)
    simp only [smul_eq_mul] at hj
    rw [hV, Finset.mul_sum]
    refine le_trans (le_of_eq (congrArg Real.exp (Finset.sum_congr rfl fun e _ => by ring))) (hj.trans (le_of_eq ?_))
    refine Finset.sum_congr rfl fun e _ => ?_
    rw [← Real.exp_sum, ← Finset.mul_sum]
    congr 2
    field_simp
  have hbound : ∀ {Z : Ω → ℝ}, Measurable Z → ∀ B : ℝ, (∀ ω, |Z ω| ≤ B) → Integrable Z P := fun hZ B h =>
    Integrable.of_bound hZ.aestronglyMeasurable B (ae_of_all _ h)
  have hg : Measurable fun z : ℝ × ℝ => Real.exp (-(θ / m) * ((z.1 - z.2) ^ 2 / 2)) :=
    Real.measurable_exp.comp ((((measurable_fst.sub measurable_snd).pow_const 2).div_const 2).const_mul _)
  have hgX : ∀ i k, Measurable fun ω => Real.exp (-(θ / m) * ((X i ω - X k ω) ^ 2 / 2)) := fun i k =>
    hg.comp ((hm i).prodMk (hm k))
  have hpi : ∀ e : Equiv.Perm (Fin n), Integrable (fun ω => ∏ j, Real.exp (-(θ / m) * ((X (e (a j)) ω - X (e (b j)) ω) ^ 2 / 2))) P :=
    fun e => hbound (Finset.measurable_fun_prod _ fun j _ => hgX _ _) 1 fun ω => by
      rw [abs_of_nonneg (Finset.prod_nonneg fun j _ => (Real.exp_pos _).le)]
      refine Finset.prod_le_one (fun j _ => (Real.exp_pos _).le) fun j _ => ?_
      rw [Real.exp_le_one_iff]
      have : 0 ≤ θ / m * ((X (e (a j)) ω - X (e (b j)) ω) ^ 2 / 2) := by positivity
      linarith
  have hVm : Measurable fun ω => pairVar fun i => X i ω := by
    unfold pairVar
    exact (Finset.measurable_fun_sum _ fun i _ => Finset.measurable_fun_sum _ fun j _ => ((hm i).sub (hm j)).pow_const 2).div_const _
  have hint : ∫ ω, Real.exp (-θ * pairVar fun i => X i ω) ∂P ≤ ∫ ω, ∑ e : Equiv.Perm (Fin n), (1 / N) *
      ∏ j, Real.exp (-(θ / m) * ((X (e (a j)) ω - X (e (b j)) ω) ^ 2 / 2)) ∂P := by
    refine integral_mono (hbound (Real.measurable_exp.comp (hVm.const_mul _)) 1 fun ω => ?_)
      (integrable_finsetSum _ fun e _ => (hpi e).const_mul _) hexp
    rw [abs_of_pos (Real.exp_pos _), Real.exp_le_one_iff]
    have := mul_nonneg hθ (pairVar_nonneg hn fun i => X i ω)
    linarith
  unfold mgf
  refine hint.trans ?_
  rw [integral_finsetSum _ fun e _ => (hpi e).const_mul _]
  have hterm : ∀ e : Equiv.Perm (Fin n), ∫ ω, (1 / N) * ∏ j, Real.exp (-(θ / m) * ((X (e (a j)) ω - X (e (b j)) ω) ^ 2 / 2)) ∂P ≤
      (1 / N) * Real.exp (-θ * v + θ ^ 2 * M ^ 2 * v / (4 * m)) := by
    intro e
    rw [integral_const_mul, integral_prod_pairs (g := fun x y => Real.exp (-(θ / m) * ((x - y) ^ 2 / 2))) hm hind hg
      (fun j => e (a j)) (fun j => e (b j)) fun j k h => by simpa using hdis j k h]
    refine mul_le_mul_of_nonneg_left ?_ (by positivity)
    refine (Finset.prod_le_prod (fun j _ => integral_nonneg fun ω => (Real.exp_pos _).le) fun j _ =>
      integral_pair_le (hm _) (hm _) (hind.indepFun (e.injective.ne (hab j))) (hb _) (hb _) (h1 _) (h1 _) (h2 _) (h2 _)
        (c := θ / m) (by positivity)).trans (le_of_eq ?_)
    rw [Finset.prod_const, Finset.card_univ, Fintype.card_fin, ← Real.exp_nat_mul]
    congr 1
    field_simp
  refine (Finset.sum_le_sum fun e _ => hterm e).trans (le_of_eq ?_)
  simp only [Finset.sum_const, Finset.card_univ, nsmul_eq_mul, ← hN]
  field_simp

/-- The sample variance is rarely much too small. -/
theorem pairVar_tail (hn : 1 < n) (hm : ∀ i, Measurable (X i)) (hind : iIndepFun X P) (hb : ∀ i ω, X i ω ∈ Set.Icc 0 M)
    (h1 : ∀ i, ∫ ω, X i ω ∂P = μ) (h2 : ∀ i, ∫ ω, X i ω ^ 2 ∂P = v + μ ^ 2) (hv : 0 ≤ v) {L : ℝ} (hL : 0 ≤ L) :
    P.real {ω | √(pairVar fun i => X i ω) + M * √(2 * L / (n - 1)) < √v} ≤ Real.exp (-L) := by
  obtain ⟨ω0⟩ : Nonempty Ω := P.nonempty_of_neZero
  have hM : 0 ≤ M := (hb ⟨0, by omega⟩ ω0).1.trans (hb ⟨0, by omega⟩ ω0).2
  have hn' : (0 : ℝ) < n - 1 := by
    have : (1 : ℝ) < n := by exact_mod_cast hn
    linarith
  set s : ℝ := M * √(2 * L / (n - 1)) with hs
  have hs0 : 0 ≤ s := by positivity
  have hs2 : s ^ 2 = M ^ 2 * (2 * L / (n - 1)) := by rw [hs, mul_pow, Real.sq_sqrt (by positivity)]
  have hVm : Measurable fun ω => pairVar fun i => X i ω := by
    unfold pairVar
    exact (Finset.measurable_fun_sum _ fun i _ => Finset.measurable_fun_sum _ fun j _ => ((hm i).sub (hm j)).pow_const 2).div_const _
  by_cases hsv : √v ≤ s
  · have : {ω | √(pairVar fun i => X i ω) + s < √v} = ∅ := by
      ext ω
      simp only [Set.mem_ofPred_eq, Set.mem_empty_iff_false, iff_false, not_lt]
      have := Real.sqrt_nonneg (pairVar fun i => X i ω)
      linarith
    rw [this, measureReal_empty]
    exact (Real.exp_pos _).le
  have hsv' := not_le.1 hsv
  have hr0 : 0 < √v := hs0.trans_lt hsv'
  have hv0 : 0 < v := Real.sqrt_pos.1 hr0
  have hrr : √v ^ 2 = v := Real.sq_sqrt hv
  rcases hM.eq_or_lt with hMz | hMp
  · -- all numbers are zero, so there is no variance
    exfalso
    have hX0 : ∀ ω, X ⟨0, by omega⟩ ω = 0 := fun ω => le_antisymm (hMz ▸ (hb _ ω).2) (hb _ ω).1
    have e1 := h1 ⟨0, by omega⟩
    have e2 := h2 ⟨0, by omega⟩
    simp only [hX0, integral_zero, ne_eq, OfNat.ofNat_ne_zero, not_false_eq_true, zero_pow] at e1 e2
    rw [← e1] at e2
    simp at e2
    exact hv0.ne e2
  set m : ℕ := n / 2 with hmdef
  have hm0 : 0 < m := by omega
  have hm' : (0 : ℝ) < m := by exact_mod_cast hm0
  have hmn : (n : ℝ) - 1 ≤ 2 * m := by
    have : n ≤ 2 * m + 1 := by omega
    have : (n : ℝ) ≤ 2 * m + 1 := by exact_mod_cast this
    linarith
  set t : ℝ := √v * s with ht
  have ht0 : 0 ≤ t := by positivity
  set θ : ℝ := 2 * m * t / (M ^ 2 * v) with hθ
  have hθ0 : 0 ≤ θ := by positivity
  have hie : Integrable (fun ω => Real.exp (-θ * pairVar fun i => X i ω)) P :=
    Integrable.of_bound (Real.measurable_exp.comp (hVm.const_mul _)).aestronglyMeasurable 1 (ae_of_all _ fun ω => by
      rw [Real.norm_of_nonneg (Real.exp_pos _).le, Real.exp_le_one_iff]
      have := mul_nonneg hθ0 (pairVar_nonneg hn fun i => X i ω)
      linarith)
  have hch := measure_le_le_exp_mul_mgf (μ := P) (X := fun ω => pairVar fun i => X i ω) (v - t) (t := -θ) (by linarith) hie
  refine (measureReal_mono fun ω hω => ?_).trans (hch.trans ?_)
  · simp only [Set.mem_ofPred_eq] at hω ⊢
    have hp := pairVar_nonneg hn fun i => X i ω
    have h3 : √(pairVar fun i => X i ω) < √v - s := by linarith
    have h4 := pow_le_pow_left₀ (Real.sqrt_nonneg _) h3.le 2
    rw [Real.sq_sqrt hp] at h4
    nlinarith
  · refine (mul_le_mul_of_nonneg_left (mgf_pairVar hn hm hind hb h1 h2 hθ0) (Real.exp_pos _).le).trans ?_
    rw [← Real.exp_add]
    refine Real.exp_le_exp.2 ?_
    have e : - -θ * (v - t) + (-θ * v + θ ^ 2 * M ^ 2 * v / (4 * m)) = -(m * t ^ 2 / (M ^ 2 * v)) := by
      rw [hθ]
      field_simp
      ring
    rw [← hmdef, e, ht, mul_pow, hrr, hs2, neg_le_neg_iff]
    have e2 : m * (v * (M ^ 2 * (2 * L / (n - 1)))) / (M ^ 2 * v) = L * (2 * m / (n - 1)) := by
      field_simp
    rw [e2]
    exact le_mul_of_one_le_right hL ((one_le_div hn').2 hmn)

/-- The empirical Bernstein inequality. -/
theorem empirical_bernstein (hn : 1 < n) (hm : ∀ i, Measurable (X i)) (hind : iIndepFun X P) (hb : ∀ i ω, X i ω ∈ Set.Icc 0 M)
    (h1 : ∀ i, ∫ ω, X i ω ∂P = μ) (h2 : ∀ i, ∫ ω, X i ω ^ 2 ∂P = v + μ ^ 2) {L : ℝ} (hL : 0 ≤ L) :
    P.real {ω | μ < (∑ i, X i ω) / n - 7 * M * L / (3 * (n - 1)) - √(2 * L * (pairVar fun i => X i ω) / n)} ≤ 2 * Real.exp (-L) := by
  obtain ⟨ω0⟩ : Nonempty Ω := P.nonempty_of_neZero
  have hM : 0 ≤ M := (hb ⟨0, by omega⟩ ω0).1.trans (hb ⟨0, by omega⟩ ω0).2
  have hn1 : (1 : ℝ) < n := by exact_mod_cast hn
  have hn0 : (0 : ℝ) < n := by linarith
  have hn' : (0 : ℝ) < n - 1 := by linarith
  have hbound : ∀ {Z : Ω → ℝ}, Measurable Z → ∀ B : ℝ, (∀ ω, |Z ω| ≤ B) → Integrable Z P := fun hZ B h =>
    Integrable.of_bound hZ.aestronglyMeasurable B (ae_of_all _ h)
  have hi : ∀ i, Integrable (X i) P := fun i => hbound (hm i) M fun ω => by
    rw [abs_of_nonneg (hb i ω).1]; exact (hb i ω).2
  have hi2 : ∀ i, Integrable (fun ω => X i ω ^ 2) P := fun i => hbound ((hm i).pow_const 2) (M ^ 2) fun ω => by
    rw [abs_of_nonneg (sq_nonneg _)]; exact pow_le_pow_left₀ (hb i ω).1 (hb i ω).2 2
  have hμ : μ ∈ Set.Icc 0 M := by
    rw [← h1 ⟨0, by omega⟩]
    refine ⟨integral_nonneg fun ω => (hb _ ω).1, ?_⟩
    have := integral_mono (hi ⟨0, by omega⟩) (integrable_const M) fun ω => (hb ⟨0, by omega⟩ ω).2
    simpa using this
  have hY0 : ∀ i, ∫ ω, (X i ω - μ) ∂P = 0 := fun i => by
    rw [integral_sub (hi i) (integrable_const _), h1 i]
    simp
  have hY2 : ∀ i, ∫ ω, (X i ω - μ) ^ 2 ∂P = v := fun i => by
    have e : (fun ω => (X i ω - μ) ^ 2) = fun ω => X i ω ^ 2 + (-(2 * μ) * X i ω + μ ^ 2) := by funext ω; ring
    have e1 := integral_add (μ := P) (f := fun ω => X i ω ^ 2) (g := fun ω => -(2 * μ) * X i ω + μ ^ 2)
      (hi2 i) (((hi i).const_mul _).add (integrable_const _))
    have e2 := integral_add (μ := P) (f := fun ω => -(2 * μ) * X i ω) (g := fun _ => μ ^ 2) ((hi i).const_mul _) (integrable_const _)
    rw [e, e1, e2, integral_const_mul, h1 i, h2 i]
    simp only [integral_const, probReal_univ, smul_eq_mul, one_mul]
    ring
  have hv : 0 ≤ v := hY2 ⟨0, by omega⟩ ▸ integral_nonneg fun ω => sq_nonneg _
  have hindY : iIndepFun (fun i ω => X i ω - μ) P := hind.comp (fun _ x => x - μ) fun _ => measurable_id.sub_const _
  have hA := bernstein (by omega) (fun i => (hm i).sub_const μ) hindY (M := M) (v := v) (fun i ω => by
    have := hb i ω
    rw [abs_le]
    exact ⟨by linarith [this.1, hμ.2], by linarith [this.2, hμ.1]⟩) hY0 hY2 hL
  have hB := pairVar_tail hn hm hind hb h1 h2 hv hL
  refine (measureReal_mono fun ω hω => ?_).trans ((measureReal_union_le _ _).trans ((add_le_add hA hB).trans_eq (by ring)))
  by_contra hc
  rw [Set.mem_union, not_or] at hc
  obtain ⟨hc1, hc2⟩ := hc
  simp only [Set.mem_ofPred_eq, not_lt] at hω hc1 hc2
  set V := pairVar fun i => X i ω with hVdef
  have hV : 0 ≤ V := pairVar_nonneg hn _
  have hmean : (∑ i, (X i ω - μ)) / n = (∑ i, X i ω) / n - μ := by
    rw [Finset.sum_sub_distrib]
    simp only [Finset.sum_const, Finset.card_univ, Fintype.card_fin, nsmul_eq_mul]
    field_simp
  rw [hmean] at hc1
  have e1 : √(2 * v * L / n) = √(2 * L / n) * √v := by
    rw [← Real.sqrt_mul (by positivity)]
    congr 1; ring
  have e2 : √(2 * L * V / n) = √(2 * L / n) * √V := by
    rw [← Real.sqrt_mul (by positivity)]
    congr 1; ring
  have h3 : √(2 * L / n) ≤ √(2 * L / (n - 1)) := Real.sqrt_le_sqrt (div_le_div_of_nonneg_left (by positivity) hn' (by linarith))
  have h4 : √(2 * L / n) * √(2 * L / (n - 1)) ≤ 2 * L / (n - 1) := by
    have := mul_le_mul_of_nonneg_right h3 (Real.sqrt_nonneg (2 * L / (n - 1)))
    rwa [Real.mul_self_sqrt (by positivity)] at this
  have h5 := mul_le_mul_of_nonneg_left hc2 (Real.sqrt_nonneg (2 * L / n))
  have h6 : M * L / (3 * n) ≤ M * L / (3 * (n - 1)) := div_le_div_of_nonneg_left (by positivity) (by linarith) (by linarith)
  have h7 : 7 * M * L / (3 * (n - 1)) = M * L / (3 * (n - 1)) + M * (2 * L / (n - 1)) := by
    field_simp
    ring
  have h8 := mul_le_mul_of_nonneg_left h4 hM
  rw [h7] at hω
  rw [e2] at hω
  rw [e1] at hc1
  nlinarith

end sample

end Obp
