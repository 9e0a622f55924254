import Verif.Lemmas.LinUcb
import Mathlib.Algebra.Order.Chebyshev

set_option linter.unusedSectionVars false

/-! # The regret of `LinUCB` while its confidence bounds hold -/

namespace Obp
open Matrix

variable {n d : ℕ} {R : Type}

/-! ### Confidence bounds -/

/-- what is left of the moment vector when the linear part of the rewards is taken away -/
def noiseOf (D : List ((Fin d → ℝ) × ℝ)) (θ : Fin d → ℝ) : Fin d → ℝ :=
  moment (D.map fun p => (p.1, p.2 - p.1 ⬝ᵥ θ))

theorem noiseOf_append (D : List ((Fin d → ℝ) × ℝ)) (p : (Fin d → ℝ) × ℝ) (θ : Fin d → ℝ) :
    noiseOf (D ++ [p]) θ = noiseOf D θ + (p.2 - p.1 ⬝ᵥ θ) • p.1 := by
  simp only [noiseOf, List.map_append, List.map_cons, List.map_nil, moment_append]

theorem moment_eq_noise (D : List ((Fin d → ℝ) × ℝ)) (θ : Fin d → ℝ) :
    moment D = gram D *ᵥ θ + (noiseOf D θ - θ) := by
  induction D using List.reverseRecOn with
  | nil => simp [moment, gram, noiseOf]
  | append_singleton D p ih =>
    rw [moment_append, noiseOf_append, gram_append, add_mulVec, dot_vecMulVec, ih, sub_smul]
    abel

/-- The error of a predicted reward is at most the bonus times the size of noise and coefficients. -/
theorem predict_error (D : List ((Fin d → ℝ) × ℝ)) (θ x : Fin d → ℝ) :
    |x ⬝ᵥ ((gram D)⁻¹ *ᵥ moment D) - x ⬝ᵥ θ| ≤ √(quad D x) * (√(quad D (noiseOf D θ)) + √(θ ⬝ᵥ θ)) := by
  have h1 : x ⬝ᵥ ((gram D)⁻¹ *ᵥ moment D) - x ⬝ᵥ θ =
      x ⬝ᵥ ((gram D)⁻¹ *ᵥ noiseOf D θ) - x ⬝ᵥ ((gram D)⁻¹ *ᵥ θ) := by
    rw [moment_eq_noise D θ, mulVec_add, mulVec_mulVec, gram_inv_mul, one_mulVec, mulVec_sub, dotProduct_add,
      dotProduct_sub]
    ring
  rw [h1, mul_add]
  refine (abs_sub _ _).trans (add_le_add (quad_cauchy D _ _) ?_)
  refine (quad_cauchy D _ _).trans (mul_le_mul_of_nonneg_left ?_ (Real.sqrt_nonneg _))
  exact Real.sqrt_le_sqrt (quad_le_self D θ)

/-! ### The sum of the bonuses -/

theorem dataOf_app (h t : List (ℤ × (Fin d → ℝ) × ℝ)) (a : Fin n) :
    dataOf (h ++ t) a = dataOf h a ++ dataOf t a := by simp [dataOf]

theorem dataOf_length_le (h : List (ℤ × (Fin d → ℝ) × ℝ)) (a : Fin n) : (dataOf h a).length ≤ h.length := by
  unfold dataOf
  rw [List.length_map]
  exact List.length_filter_le _ _

theorem mem_dataOf {h : List (ℤ × (Fin d → ℝ) × ℝ)} {a : Fin n} {p : (Fin d → ℝ) × ℝ} (hp : p ∈ dataOf h a) :
    ∃ z, (z, p) ∈ h := by
  unfold dataOf at hp
  obtain ⟨q, hq, rfl⟩ := List.mem_map.1 hp
  exact ⟨q.1, List.mem_of_mem_filter hq⟩

/-- the potential -/
noncomputable def potential (n : ℕ) (h : List (ℤ × (Fin d → ℝ) × ℝ)) : ℝ :=
  ∑ a : Fin n, Real.log (gram (dataOf h a)).det

theorem potential_append (h : List (ℤ × (Fin d → ℝ) × ℝ)) (a : Fin n) (p : (Fin d → ℝ) × ℝ) :
    potential n (h ++ [((a.val : ℤ), p)]) - potential n h =
      Real.log (gram (dataOf h a ++ [p])).det - Real.log (gram (dataOf h a)).det := by
  unfold potential
  rw [← Finset.sum_sub_distrib, Finset.sum_eq_single a]
  · rw [dataOf_append, if_pos (show Names ((a.val : ℤ), p).1 a from Or.inl rfl)]
  · intro c _ hc
    rw [dataOf_append, if_neg, sub_self]
    exact fun h' => hc (Names.unique h' (Or.inl rfl))
  · simp

theorem potential_le (h : List (ℤ × (Fin d → ℝ) × ℝ)) {X : ℝ} (hX0 : 0 ≤ X) (hX : ∀ q ∈ h, q.2.1 ⬝ᵥ q.2.1 ≤ X) :
    potential n h ≤ n * (d * Real.log (1 + h.length * X / d)) := by
  unfold potential
  refine (Finset.sum_le_card_nsmul _ _ (d * Real.log (1 + h.length * X / d)) fun a _ => ?_).trans (by simp)
  refine (log_det_gram_le (dataOf h a) (X := X) fun p hp => ?_).trans ?_
  · obtain ⟨z, hz⟩ := mem_dataOf hp
    exact hX _ hz
  · have : ((dataOf h a).length : ℝ) ≤ h.length := by exact_mod_cast dataOf_length_le h a
    gcongr

/-- The squared bonus of the action played, computed from complete batches, against the growth of the potential. -/
theorem stale_quad_le {b : ℕ} (hb : 0 < b) (h : List (ℤ × (Fin d → ℝ) × ℝ)) {X : ℝ} (hX0 : 0 ≤ X)
    (hX : ∀ q ∈ h, q.2.1 ⬝ᵥ q.2.1 ≤ X) (a : Fin n) (x : Fin d → ℝ) (hx : x ⬝ᵥ x ≤ X) (r : ℝ) :
    quad (dataOf (completed b h) a) x ≤ (1 + (b - 1) * X) * ((1 + X) *
      (potential n (h ++ [((a.val : ℤ), x, r)]) - potential n h)) := by
  have hsplit : h = completed b h ++ h.drop (b * (h.length / b)) := by
    unfold completed
    rw [List.take_append_drop]
  set E := dataOf (h.drop (b * (h.length / b))) a with hE
  have hD : dataOf h a = dataOf (completed b h) a ++ E := by
    conv_lhs => rw [hsplit]
    rw [dataOf_app]
  have hlen : E.length ≤ b - 1 := by
    refine (dataOf_length_le _ a).trans ?_
    rw [List.length_drop]
    have h1 := Nat.div_add_mod h.length b
    have h2 := Nat.mod_lt h.length hb
    omega
  have hEX : ∀ p ∈ E, p.1 ⬝ᵥ p.1 ≤ X := by
    intro p hp
    obtain ⟨z, hz⟩ := mem_dataOf hp
    exact hX _ (List.mem_of_mem_drop hz)
  have h1 := quad_stale (dataOf (completed b h) a) E hX0 hEX x
  rw [← hD] at h1
  have hlen' : (E.length : ℝ) ≤ b - 1 := by
    have : ((E.length : ℕ) : ℝ) ≤ ((b - 1 : ℕ) : ℝ) := by exact_mod_cast hlen
    rwa [Nat.cast_sub (by omega), Nat.cast_one] at this
  have h2 : (1 + E.length * X) * quad (dataOf h a) x ≤ (1 + (b - 1) * X) * quad (dataOf h a) x := by
    refine mul_le_mul_of_nonneg_right ?_ (quad_nonneg _ _)
    have := mul_le_mul_of_nonneg_right hlen' hX0
    linarith
  have h3 := quad_le_log (dataOf h a) (x, r) hx
  rw [← potential_append h a (x, r)] at h3
  have hc : 0 ≤ 1 + ((b : ℝ) - 1) * X := by
    have : (1 : ℝ) ≤ b := by exact_mod_cast hb
    have := mul_nonneg (sub_nonneg.2 this) hX0
    linarith
  exact h1.trans (h2.trans (mul_le_mul_of_nonneg_left h3 hc))

section
variable (hn : 0 < n) (argsort : List ℝ → List ℕ) (L b : ℕ) (ε : ℝ) (x : ℕ → Fin d → ℝ) (r : ℕ → Fin n → ℝ)

theorem ucbHist_succ (t : ℕ) : ucbHist hn argsort L b ε x r (t + 1) = ucbHist hn argsort L b ε x r t ++
    [(((ucbAction hn argsort L b ε x r t).val : ℤ), x t, r t (ucbAction hn argsort L b ε x r t))] := rfl

theorem ucbHist_length (t : ℕ) : (ucbHist hn argsort L b ε x r t).length = t := by
  induction t with
  | zero => rfl
  | succ t ih => rw [ucbHist_succ, List.length_append, ih, List.length_singleton]

theorem mem_ucbHist {t : ℕ} {q : ℤ × (Fin d → ℝ) × ℝ} (hq : q ∈ ucbHist hn argsort L b ε x r t) :
    ∃ s < t, q = (((ucbAction hn argsort L b ε x r s).val : ℤ), x s, r s (ucbAction hn argsort L b ε x r s)) := by
  induction t with
  | zero => simp [ucbHist] at hq
  | succ t ih =>
    rw [ucbHist_succ] at hq
    rcases List.mem_append.1 hq with h | h
    · obtain ⟨s, hs, h⟩ := ih h
      exact ⟨s, hs.trans t.lt_succ_self, h⟩
    · exact ⟨t, t.lt_succ_self, List.mem_singleton.1 h⟩

/-- the squared bonus of the action played in round `t` -/
noncomputable def playedQuad (t : ℕ) : ℝ :=
  quad (dataOf (completed b (ucbHist hn argsort L b ε x r t)) (ucbAction hn argsort L b ε x r t)) (x t)

theorem sum_playedQuad_le (hb : 0 < b) {X : ℝ} (hX0 : 0 ≤ X) (hX : ∀ t, x t ⬝ᵥ x t ≤ X) (T : ℕ) :
    ∑ t ∈ Finset.range T, playedQuad hn argsort L b ε x r t ≤
      (1 + (b - 1) * X) * ((1 + X) * (n * (d * Real.log (1 + T * X / d)))) := by
  have hmem : ∀ t, ∀ q ∈ ucbHist hn argsort L b ε x r t, q.2.1 ⬝ᵥ q.2.1 ≤ X := by
    intro t q hq
    obtain ⟨s, -, rfl⟩ := mem_ucbHist hn argsort L b ε x r hq
    exact hX s
  have hc : 0 ≤ 1 + ((b : ℝ) - 1) * X := by
    have : (1 : ℝ) ≤ b := by exact_mod_cast hb
    have := mul_nonneg (sub_nonneg.2 this) hX0
    linarith
  have h1 : ∑ t ∈ Finset.range T, playedQuad hn argsort L b ε x r t ≤ (1 + (b - 1) * X) * ((1 + X) *
      (potential n (ucbHist hn argsort L b ε x r T) - potential n (ucbHist hn argsort L b ε x r 0))) := by
    rw [← Finset.sum_range_sub (fun t => potential n (ucbHist hn argsort L b ε x r t)), Finset.mul_sum, Finset.mul_sum]
    refine Finset.sum_le_sum fun t _ => ?_
    exact stale_quad_le hb _ hX0 (hmem t) _ _ (hX t) _
  have h0 : potential n (ucbHist hn argsort L b ε x r 0) = 0 := by
    simp [potential, ucbHist, dataOf, gram]
  rw [h0, sub_zero] at h1
  refine h1.trans (mul_le_mul_of_nonneg_left (mul_le_mul_of_nonneg_left ?_ (by linarith)) hc)
  have := potential_le (n := n) (ucbHist hn argsort L b ε x r T) hX0 (hmem T)
  rwa [ucbHist_length] at this

/-- The regret of the actions played, while the confidence bounds hold. -/
theorem ucb_regret_le (ha : IsArgsort argsort) (hL0 : 0 < L) (hL : L ≤ n) (hb : 0 < b) (hε : 0 ≤ ε) {X : ℝ} (hX0 : 0 ≤ X)
    (hX : ∀ t, x t ⬝ᵥ x t ≤ X) (θ : Fin n → Fin d → ℝ) (T : ℕ)
    (hconf : ∀ t < T, ∀ a, √(quad (dataOf (completed b (ucbHist hn argsort L b ε x r t)) a)
        (noiseOf (dataOf (completed b (ucbHist hn argsort L b ε x r t)) a) (θ a))) + √(θ a ⬝ᵥ θ a) ≤ ε)
    (best : ℕ → Fin n) :
    ∑ t ∈ Finset.range T, (x t ⬝ᵥ θ (best t) - x t ⬝ᵥ θ (ucbAction hn argsort L b ε x r t)) ≤
      2 * ε * √(T * ((1 + (b - 1) * X) * ((1 + X) * (n * (d * Real.log (1 + T * X / d)))))) := by
  have hstep : ∀ t ∈ Finset.range T, x t ⬝ᵥ θ (best t) - x t ⬝ᵥ θ (ucbAction hn argsort L b ε x r t) ≤
      2 * ε * √(playedQuad hn argsort L b ε x r t) := by
    intro t ht
    have ht := Finset.mem_range.1 ht
    set h := completed b (ucbHist hn argsort L b ε x r t) with hh
    have herr : ∀ a, |x t ⬝ᵥ ((gram (dataOf h a))⁻¹ *ᵥ moment (dataOf h a)) - x t ⬝ᵥ θ a| ≤
        √(quad (dataOf h a) (x t)) * ε := fun a =>
      (predict_error (dataOf h a) (θ a) (x t)).trans
        (mul_le_mul_of_nonneg_left (hconf t ht a) (Real.sqrt_nonneg _))
    have hbest : ucbScore ε (dataOf h (best t)) (x t) ≤
        ucbScore ε (dataOf h (ucbAction hn argsort L b ε x r t)) (x t) :=
      front_best hn ha hL0 hL (fun a => ucbScore ε (dataOf h a) (x t)) (best t)
    unfold ucbScore at hbest
    have e1 := abs_le.1 (herr (best t))
    have e2 := abs_le.1 (herr (ucbAction hn argsort L b ε x r t))
    have e3 : playedQuad hn argsort L b ε x r t = quad (dataOf h (ucbAction hn argsort L b ε x r t)) (x t) := rfl
    rw [e3]
    nlinarith [e1.1, e2.2]
  refine (Finset.sum_le_sum hstep).trans ?_
  rw [← Finset.mul_sum]
  refine mul_le_mul_of_nonneg_left ?_ (by positivity)
  refine Real.le_sqrt_of_sq_le ?_
  have hq : ∀ t, 0 ≤ playedQuad hn argsort L b ε x r t := fun t => quad_nonneg _ _
  have hcs := sq_sum_le_card_mul_sum_sq (s := Finset.range T) (f := fun t => √(playedQuad hn argsort L b ε x r t))
  simp only [Finset.card_range, Real.sq_sqrt (hq _)] at hcs
  refine hcs.trans (mul_le_mul_of_nonneg_left ?_ (Nat.cast_nonneg T))
  exact sum_playedQuad_le hn argsort L b ε x r hb hX0 hX T

end

end Obp
