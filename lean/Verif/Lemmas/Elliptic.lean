import Verif.Lemmas.Contextual
import Mathlib.LinearAlgebra.Matrix.SchurComplement
import Mathlib.Analysis.Matrix.Spectrum
import Mathlib.Analysis.Matrix.PosDef
import Mathlib.Analysis.SpecialFunctions.Log.Basic

/-! # Gram matrices: determinants and quadratic forms of the inverse -/

set_option linter.unusedSectionVars false

namespace Obp
open Matrix

variable {d : ℕ}

/-- The quadratic form of the inverse of the regularised Gram matrix. -/
noncomputable def quad (D : List ((Fin d → ℝ) × ℝ)) (x : Fin d → ℝ) : ℝ := x ⬝ᵥ ((gram D)⁻¹ *ᵥ x)

theorem gram_posDef (D : List ((Fin d → ℝ) × ℝ)) : (gram D).PosDef := by
  refine PosDef.of_dotProduct_mulVec_pos ?_ fun x hx => ?_
  · show (gram D)ᴴ = gram D
    rw [conjTranspose_eq_transpose_of_trivial, gram_symm]
  · simpa using gram_quad_pos D hx

theorem gram_det_pos (D : List ((Fin d → ℝ) × ℝ)) : 0 < (gram D).det := (gram_posDef D).det_pos

theorem gram_inv_mul (D : List ((Fin d → ℝ) × ℝ)) : (gram D)⁻¹ * gram D = 1 :=
  nonsing_inv_mul _ (isUnit_iff_ne_zero.2 (gram_det_pos D).ne')

theorem gram_mul_inv (D : List ((Fin d → ℝ) × ℝ)) : gram D * (gram D)⁻¹ = 1 :=
  mul_nonsing_inv _ (isUnit_iff_ne_zero.2 (gram_det_pos D).ne')

theorem eq_gram_inv {D : List ((Fin d → ℝ) × ℝ)} {A : Matrix (Fin d) (Fin d) ℝ} (h : A * gram D = 1) :
    A = (gram D)⁻¹ := (inv_eq_left_inv h).symm

theorem quad_nonneg (D : List ((Fin d → ℝ) × ℝ)) (x : Fin d → ℝ) : 0 ≤ quad D x :=
  inv_quad_nonneg (gram_inv_mul D) x

theorem gram_inv_symm_dot (D : List ((Fin d → ℝ) × ℝ)) (x y : Fin d → ℝ) :
    x ⬝ᵥ ((gram D)⁻¹ *ᵥ y) = y ⬝ᵥ ((gram D)⁻¹ *ᵥ x) := by
  rw [dotProduct_mulVec, ← mulVec_transpose, inv_symm (gram_inv_mul D), dotProduct_comm]

/-- The matrix determinant lemma. -/
theorem gram_det_append (D : List ((Fin d → ℝ) × ℝ)) (p : (Fin d → ℝ) × ℝ) :
    (gram (D ++ [p])).det = (gram D).det * (1 + quad D p.1) := by
  have h := det_add_replicateCol_mul_replicateRow (ι := Unit)
    (isUnit_iff_ne_zero.2 (gram_det_pos D).ne') p.1 p.1
  rw [gram_append, vecMulVec_eq Unit, h]
  congr 1
  rw [det_unique (1 + _), Matrix.add_apply, Matrix.one_apply_eq, Matrix.mul_assoc]
  rfl

theorem gram_trace (D : List ((Fin d → ℝ) × ℝ)) :
    (gram D).trace = d + (D.map fun p => p.1 ⬝ᵥ p.1).sum := by
  induction D using List.reverseRecOn with
  | nil => simp [gram]
  | append_singleton D p ih =>
    rw [gram_append, trace_add, ih, trace_vecMulVec]
    simp
    ring

/-- The arithmetic-geometric mean inequality for the eigenvalues. -/
theorem log_det_le_trace {G : Matrix (Fin d) (Fin d) ℝ} (hG : G.PosDef) (hd : 0 < d) :
    Real.log G.det ≤ d * Real.log (G.trace / d) := by
  have hpos := hG.eigenvalues_pos
  have hdet : G.det = ∏ i, hG.isHermitian.eigenvalues i := by
    simpa using hG.isHermitian.det_eq_prod_eigenvalues
  have htr : G.trace = ∑ i, hG.isHermitian.eigenvalues i := by
    simpa using hG.isHermitian.trace_eq_sum_eigenvalues
  have : Nonempty (Fin d) := ⟨⟨0, hd⟩⟩
  have hd' : (0 : ℝ) < d := by exact_mod_cast hd
  have htp : 0 < G.trace := by rw [htr]; exact Finset.sum_pos (fun i _ => hpos i) Finset.univ_nonempty
  set μ := G.trace / d with hμ
  have hμp : 0 < μ := div_pos htp hd'
  have key : ∀ i, Real.log (hG.isHermitian.eigenvalues i) ≤
      Real.log μ + (hG.isHermitian.eigenvalues i / μ - 1) := by
    intro i
    have h1 := Real.log_le_sub_one_of_pos (div_pos (hpos i) hμp)
    rw [Real.log_div (hpos i).ne' hμp.ne'] at h1
    linarith
  rw [hdet, Real.log_prod (fun i _ => (hpos i).ne')]
  refine (Finset.sum_le_sum fun i _ => key i).trans (le_of_eq ?_)
  rw [Finset.sum_add_distrib, Finset.sum_sub_distrib, ← Finset.sum_div, ← htr]
  simp only [Finset.sum_const, Finset.card_univ, Fintype.card_fin, nsmul_eq_mul, mul_one]
  have : G.trace / μ = d := by
    rw [hμ]; field_simp
  rw [this]
  ring

/-- The log-determinant of the Gram matrix of `D` with contexts of squared length at most `X`. -/
theorem log_det_gram_le (D : List ((Fin d → ℝ) × ℝ)) {X : ℝ} (hX : ∀ p ∈ D, p.1 ⬝ᵥ p.1 ≤ X) :
    Real.log (gram D).det ≤ d * Real.log (1 + D.length * X / d) := by
  rcases Nat.eq_zero_or_pos d with rfl | hd
  · simp [det_isEmpty]
  have hd' : (0 : ℝ) < d := by exact_mod_cast hd
  refine (log_det_le_trace (gram_posDef D) hd).trans ?_
  refine mul_le_mul_of_nonneg_left ?_ hd'.le
  have hsum : (D.map fun p => p.1 ⬝ᵥ p.1).sum ≤ D.length * X := by
    have := List.sum_le_card_nsmul (D.map fun p => p.1 ⬝ᵥ p.1) X (by
      intro x hx
      obtain ⟨p, hp, rfl⟩ := List.mem_map.1 hx
      exact hX p hp)
    simpa using this
  have h0 : 0 ≤ (D.map fun p => p.1 ⬝ᵥ p.1).sum := List.sum_nonneg fun x hx => by
    obtain ⟨p, -, rfl⟩ := List.mem_map.1 hx
    exact dot_self_nonneg _
  rw [gram_trace]
  refine Real.log_le_log (by positivity) ?_
  rw [add_div, div_self hd'.ne']
  gcongr

/-- The variational bound of the inverse quadratic form. -/
theorem quad_ge (D : List ((Fin d → ℝ) × ℝ)) (x z : Fin d → ℝ) :
    2 * (x ⬝ᵥ z) - z ⬝ᵥ (gram D *ᵥ z) ≤ quad D x := by
  set y := (gram D)⁻¹ *ᵥ x with hy
  have hGy : gram D *ᵥ y = x := by rw [hy, mulVec_mulVec, gram_mul_inv, one_mulVec]
  have h0 := gram_quad_nonneg D (y - z)
  have hzy : z ⬝ᵥ (gram D *ᵥ y) = x ⬝ᵥ z := by rw [hGy, dotProduct_comm]
  have hyz : y ⬝ᵥ (gram D *ᵥ z) = x ⬝ᵥ z := by
    rw [dotProduct_mulVec, ← mulVec_transpose, gram_symm, hGy]
  have hyy : y ⬝ᵥ (gram D *ᵥ y) = quad D x := by rw [hGy, dotProduct_comm]; rfl
  rw [mulVec_sub, dotProduct_sub, sub_dotProduct, sub_dotProduct, hzy, hyz, hyy] at h0
  linarith

/-- The Cauchy-Schwarz inequality for the inverse quadratic form. -/
theorem quad_cauchy (D : List ((Fin d → ℝ) × ℝ)) (x y : Fin d → ℝ) :
    |x ⬝ᵥ ((gram D)⁻¹ *ᵥ y)| ≤ √(quad D x) * √(quad D y) := by
  rw [← Real.sqrt_mul (quad_nonneg D x)]
  refine Real.abs_le_sqrt ?_
  have h : ∀ t : ℝ, 0 ≤ quad D x * (t * t) + 2 * (x ⬝ᵥ ((gram D)⁻¹ *ᵥ y)) * t + quad D y := by
    intro t
    have h0 := quad_nonneg D (t • x + y)
    have e : quad D (t • x + y) = quad D x * (t * t) + 2 * (x ⬝ᵥ ((gram D)⁻¹ *ᵥ y)) * t + quad D y := by
      unfold quad
      rw [mulVec_add, mulVec_smul, dotProduct_add, add_dotProduct, add_dotProduct]
      simp only [dotProduct_smul, smul_dotProduct, smul_eq_mul]
      rw [gram_inv_symm_dot D y x]
      ring
    rwa [e] at h0
  have := discrim_le_zero h
  unfold discrim at this
  nlinarith

/-- With a shorter list of data the form is larger, but at most by the factor that the missing data can
add. -/
theorem quad_stale (D E : List ((Fin d → ℝ) × ℝ)) {X : ℝ} (hX : 0 ≤ X) (hE : ∀ p ∈ E, p.1 ⬝ᵥ p.1 ≤ X)
    (x : Fin d → ℝ) : quad D x ≤ (1 + E.length * X) * quad (D ++ E) x := by
  set c : ℝ := 1 + E.length * X with hc
  have hcp : 0 < c := by positivity
  set y := (gram D)⁻¹ *ᵥ x with hy
  have hGy : gram D *ᵥ y = x := by rw [hy, mulVec_mulVec, gram_mul_inv, one_mulVec]
  have hyy : y ⬝ᵥ (gram D *ᵥ y) = quad D x := by rw [hGy, dotProduct_comm]; rfl
  have hxy : x ⬝ᵥ y = quad D x := rfl
  have hcs : ∀ p ∈ E, (p.1 ⬝ᵥ y) ^ 2 ≤ X * (y ⬝ᵥ y) := by
    intro p hp
    have h1 : (p.1 ⬝ᵥ y) ^ 2 ≤ (p.1 ⬝ᵥ p.1) * (y ⬝ᵥ y) := by
      have := Finset.sum_mul_sq_le_sq_mul_sq Finset.univ p.1 y
      simpa [dotProduct, pow_two] using this
    exact h1.trans (mul_le_mul_of_nonneg_right (hE p hp) (dot_self_nonneg y))
  have hsum : (E.map fun p => (p.1 ⬝ᵥ y) ^ 2).sum ≤ E.length * (X * (y ⬝ᵥ y)) := by
    have := List.sum_le_card_nsmul (E.map fun p => (p.1 ⬝ᵥ y) ^ 2) (X * (y ⬝ᵥ y)) (by
      intro z hz
      obtain ⟨p, hp, rfl⟩ := List.mem_map.1 hz
      exact hcs p hp)
    simpa using this
  have hle : y ⬝ᵥ (gram (D ++ E) *ᵥ y) ≤ c * (y ⬝ᵥ (gram D *ᵥ y)) := by
    have h0 : 0 ≤ (D.map fun p => (p.1 ⬝ᵥ y) ^ 2).sum := List.sum_nonneg fun z hz => by
      obtain ⟨p, -, rfl⟩ := List.mem_map.1 hz
      exact sq_nonneg _
    have hEX : 0 ≤ E.length * X := by positivity
    rw [gram_quad, gram_quad, List.map_append, List.sum_append, hc]
    nlinarith [mul_nonneg hEX h0, dot_self_nonneg y]
  have hq := quad_ge (D ++ E) x (c⁻¹ • y)
  rw [mulVec_smul, dotProduct_smul, dotProduct_smul, smul_dotProduct, smul_eq_mul, smul_eq_mul,
    smul_eq_mul, hxy] at hq
  rw [hyy] at hle
  have hcc : c * c⁻¹ = 1 := mul_inv_cancel₀ hcp.ne'
  have hci : 0 ≤ c⁻¹ := by positivity
  have h3 : c⁻¹ * (c⁻¹ * (y ⬝ᵥ (gram (D ++ E) *ᵥ y))) ≤ c⁻¹ * quad D x := by
    refine mul_le_mul_of_nonneg_left ?_ hci
    have := mul_le_mul_of_nonneg_left hle hci
    rwa [← mul_assoc c⁻¹ c, inv_mul_cancel₀ hcp.ne', one_mul] at this
  have h4 : c⁻¹ * quad D x ≤ quad (D ++ E) x := by linarith
  have := mul_le_mul_of_nonneg_left h4 hcp.le
  rwa [← mul_assoc, hcc, one_mul] at this

/-- The form without data is the squared length, and data never increase it. -/
theorem quad_le_self (D : List ((Fin d → ℝ) × ℝ)) (x : Fin d → ℝ) : quad D x ≤ x ⬝ᵥ x := by
  set y := (gram D)⁻¹ *ᵥ x with hy
  have hGy : gram D *ᵥ y = x := by rw [hy, mulVec_mulVec, gram_mul_inv, one_mulVec]
  have hyy : y ⬝ᵥ (gram D *ᵥ y) = quad D x := by rw [hGy, dotProduct_comm]; rfl
  have hxy : x ⬝ᵥ y = quad D x := rfl
  have h1 : y ⬝ᵥ y ≤ quad D x := by
    rw [← hyy, gram_quad]
    refine le_add_of_nonneg_right (List.sum_nonneg fun z hz => ?_)
    obtain ⟨p, -, rfl⟩ := List.mem_map.1 hz
    exact sq_nonneg _
  have h2 := dot_self_nonneg (x - y)
  rw [sub_dotProduct, dotProduct_sub, dotProduct_sub, dotProduct_comm y x, hxy] at h2
  linarith

/-- One step of the elliptical potential argument. -/
theorem quad_le_log (D : List ((Fin d → ℝ) × ℝ)) (p : (Fin d → ℝ) × ℝ) {X : ℝ} (hX : p.1 ⬝ᵥ p.1 ≤ X) :
    quad D p.1 ≤ (1 + X) * (Real.log (gram (D ++ [p])).det - Real.log (gram D).det) := by
  have hq := quad_nonneg D p.1
  have hqX : quad D p.1 ≤ X := (quad_le_self D p.1).trans hX
  rw [gram_det_append, Real.log_mul (gram_det_pos D).ne' (by positivity), add_sub_cancel_left]
  have h1 := Real.one_sub_inv_le_log_of_pos (show 0 < 1 + quad D p.1 by positivity)
  have h2 : 1 - (1 + quad D p.1)⁻¹ = quad D p.1 / (1 + quad D p.1) := by
    field_simp
    ring
  rw [h2, div_le_iff₀ (by positivity)] at h1
  have h3 : 0 ≤ Real.log (1 + quad D p.1) := Real.log_nonneg (by linarith)
  nlinarith

end Obp
