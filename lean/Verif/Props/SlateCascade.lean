import Verif.Props.SlateReward

/-!
# C87: the ground truth of the cascade click model with any number of positions
-/

set_option linter.unusedSectionVars false

namespace Obp

variable {K : Type} [Field K] [LinearOrder K] [IsStrictOrderedRing K]

/-- What the ground truth adds up from a position on, if the expected reward of the position before is the fraction `x` of the discount. -/
def cascadeCode (x : K) (q e a : List K) (d : K) : K := (clickExpected d (d * x) q e a).sum

/-- The expected number of clicks from a position on, if the probability of a click at the position before is the fraction `x` of the
discount. -/
def cascadeTruth (x : K) (q e a : List K) (d : K) : K := d * x * clickTotal d 1 q e a + (1 - d * x) * clickTotal d 0 q e a

theorem cascadeCode_cons (x q e a : K) (qs es as : List K) (d : K) :
    cascadeCode x (q :: qs) (e :: es) (a :: as) d =
      (d - x * (1 - a) * d ^ 2) * (q * e) + cascadeCode (q * e) qs es as (d - x * (1 - a) * d ^ 2) := by
  have h : d * (d * x * a + (1 - d * x)) = d - x * (1 - a) * d ^ 2 := by ring
  simp only [cascadeCode, clickExpected, List.sum_cons, h]

/-- non-decreasing and concave on the unit interval -/
structure RisingConcave (f : K → K) : Prop where
  rising : ∀ x y, 0 ≤ x → x ≤ y → y ≤ 1 → f x ≤ f y
  concave : ∀ s x y, 0 ≤ s → s ≤ 1 → 0 ≤ x → x ≤ 1 → 0 ≤ y → y ≤ 1 → s * f x + (1 - s) * f y ≤ f (s * x + (1 - s) * y)

theorem shrink_bounds {c d : K} (hc0 : 0 ≤ c) (hc1 : c ≤ 1) (h0 : 0 ≤ d) (h1 : d ≤ 1) : 0 ≤ d - c * d ^ 2 ∧ d - c * d ^ 2 ≤ 1 := by
  constructor
  · nlinarith [mul_nonneg h0 (sub_nonneg.2 h1), mul_nonneg (sub_nonneg.2 hc1) (sq_nonneg d)]
  · nlinarith [mul_nonneg hc0 (sq_nonneg d)]

theorem shrink_concave (c s x y : K) : s * (x - c * x ^ 2) + (1 - s) * (y - c * y ^ 2) =
    s * x + (1 - s) * y - c * (s * x + (1 - s) * y) ^ 2 - c * (s * (1 - s) * (x - y) ^ 2) := by ring

theorem mix_bounds {s x y : K} (hs : 0 ≤ s) (hs1 : s ≤ 1) (hx : 0 ≤ x) (hx1 : x ≤ 1) (hy : 0 ≤ y) (hy1 : y ≤ 1) :
    0 ≤ s * x + (1 - s) * y ∧ s * x + (1 - s) * y ≤ 1 := by
  have h := sub_nonneg.2 hs1
  constructor
  · positivity
  · nlinarith [mul_le_mul_of_nonneg_left hx1 hs, mul_le_mul_of_nonneg_left hy1 h]

theorem RisingConcave.add_linear {f : K → K} (hf : RisingConcave f) {c : K} (hc : 0 ≤ c) : RisingConcave fun d => d * c + f d where
  rising x y h0 h h1 := add_le_add (mul_le_mul_of_nonneg_right h hc) (hf.rising x y h0 h h1)
  concave s x y hs hs1 hx hx1 hy hy1 := by
    have := hf.concave s x y hs hs1 hx hx1 hy hy1
    nlinarith

/-- Composing with the quadratic discount keeps concavity; the loss is at least that of the quadratic, times the slope. -/
theorem RisingConcave.comp_gap {f : K → K} (hf : RisingConcave f) {m c : K} (hc0 : 0 ≤ c) (hc1 : c ≤ 1)
    (s x y : K) (hs : 0 ≤ s) (hs1 : s ≤ 1) (hx : 0 ≤ x) (hx1 : x ≤ 1) (hy : 0 ≤ y) (hy1 : y ≤ 1) :
    s * ((x - c * x ^ 2) * m + f (x - c * x ^ 2)) + (1 - s) * ((y - c * y ^ 2) * m + f (y - c * y ^ 2)) +
        m * (c * (s * (1 - s) * (x - y) ^ 2)) ≤
      (s * x + (1 - s) * y - c * (s * x + (1 - s) * y) ^ 2) * m + f (s * x + (1 - s) * y - c * (s * x + (1 - s) * y) ^ 2) := by
  obtain ⟨bx, bx1⟩ := shrink_bounds hc0 hc1 hx hx1
  obtain ⟨bY, bY1⟩ := shrink_bounds hc0 hc1 hy hy1
  obtain ⟨bm, bm1⟩ := mix_bounds hs hs1 hx hx1 hy hy1
  obtain ⟨bz, bz1⟩ := shrink_bounds hc0 hc1 bm bm1
  have h1 := hf.concave s _ _ hs hs1 bx bx1 bY bY1
  have hgap : 0 ≤ c * (s * (1 - s) * (x - y) ^ 2) :=
    mul_nonneg hc0 (mul_nonneg (mul_nonneg hs (sub_nonneg.2 hs1)) (sq_nonneg _))
  have hmix := mix_bounds hs hs1 bx bx1 bY bY1
  have hle : s * (x - c * x ^ 2) + (1 - s) * (y - c * y ^ 2) ≤ s * x + (1 - s) * y - c * (s * x + (1 - s) * y) ^ 2 := by
    rw [shrink_concave]
    exact sub_le_self _ hgap
  have h2 := hf.rising _ _ hmix.1 hle bz1
  have h3 := shrink_concave c s x y
  have h4 : s * ((x - c * x ^ 2) * m) + (1 - s) * ((y - c * y ^ 2) * m) + m * (c * (s * (1 - s) * (x - y) ^ 2)) =
      (s * x + (1 - s) * y - c * (s * x + (1 - s) * y) ^ 2) * m := by ring
  linarith

theorem cascadeCode_rising {x : K} (hx : 0 ≤ x) (hx1 : x ≤ 1 / 2) (q e a : List K)
    (hq : ∀ y ∈ List.zipWith (· * ·) q e, 0 ≤ y ∧ y ≤ 1 / 2) (ha : ∀ y ∈ a, 0 ≤ y ∧ y ≤ 1) : RisingConcave (cascadeCode x q e a) := by
  have hz : ∀ {f : K → K}, (∀ d, f d = 0) → RisingConcave f := fun h =>
    ⟨fun _ _ _ _ _ => by rw [h, h], fun _ _ _ _ _ _ _ _ _ => by simp [h]⟩
  induction q generalizing x e a with
  | nil => exact hz fun d => by simp [cascadeCode, clickExpected]
  | cons q qs ih =>
    rcases e with _ | ⟨e, es⟩
    · exact hz fun d => by simp [cascadeCode, clickExpected]
    rcases a with _ | ⟨a, as⟩
    · exact hz fun d => by simp [cascadeCode, clickExpected]
    simp only [List.zipWith_cons_cons, List.mem_cons, forall_eq_or_imp] at hq ha
    have h := ih hq.1.1 hq.1.2 es as hq.2 ha.2
    have ha1 : 0 ≤ 1 - a := sub_nonneg.2 ha.1.2
    have hc0 : 0 ≤ x * (1 - a) := mul_nonneg hx ha1
    have hc2 : x * (1 - a) ≤ 1 / 2 := by nlinarith [mul_nonneg hx ha.1.1]
    have hc1 : x * (1 - a) ≤ 1 := hc2.trans (by norm_num)
    constructor
    · intro u v hu huv hv
      rw [cascadeCode_cons, cascadeCode_cons]
      have hu1 := huv.trans hv
      have hv0 := hu.trans huv
      have hle : u - x * (1 - a) * u ^ 2 ≤ v - x * (1 - a) * v ^ 2 := by
        have : 0 ≤ (v - u) * (1 - x * (1 - a) * (u + v)) := by
          refine mul_nonneg (sub_nonneg.2 huv) (sub_nonneg.2 ?_)
          calc x * (1 - a) * (u + v) ≤ 1 / 2 * (1 + 1) := mul_le_mul hc2 (add_le_add hu1 hv) (add_nonneg hu hv0) (by norm_num)
            _ = 1 := by norm_num
        nlinarith
      exact (h.add_linear hq.1.1).rising _ _ (shrink_bounds hc0 hc1 hu hu1).1 hle (shrink_bounds hc0 hc1 hv0 hv).2
    · intro s u v hs hs1 hu hu1 hv hv1
      rw [cascadeCode_cons, cascadeCode_cons, cascadeCode_cons]
      have := h.comp_gap (m := q * e) hc0 hc1 s u v hs hs1 hu hu1 hv hv1
      have hg : 0 ≤ q * e * (x * (1 - a) * (s * (1 - s) * (u - v) ^ 2)) :=
        mul_nonneg hq.1.1 (mul_nonneg hc0 (mul_nonneg (mul_nonneg hs (sub_nonneg.2 hs1)) (sq_nonneg _)))
      linarith

theorem cascade_le {x : K} (hx : 0 ≤ x) (hx1 : x ≤ 1) (q e a : List K)
    (hq : ∀ y ∈ List.zipWith (· * ·) q e, 0 ≤ y ∧ y ≤ 1 / 2) (ha : ∀ y ∈ a, 0 ≤ y ∧ y ≤ 1) {d : K} (hd : 0 ≤ d) (hd1 : d ≤ 1) :
    cascadeTruth x q e a d ≤ cascadeCode x q e a d := by
  induction q generalizing x e a d with
  | nil => simp [cascadeTruth, cascadeCode, clickExpected, clickTotal]
  | cons q qs ih =>
    rcases e with _ | ⟨e, es⟩
    · simp [cascadeTruth, cascadeCode, clickExpected, clickTotal]
    rcases a with _ | ⟨a, as⟩
    · simp [cascadeTruth, cascadeCode, clickExpected, clickTotal]
    simp only [List.zipWith_cons_cons, List.mem_cons, forall_eq_or_imp] at hq ha
    have hda : 0 ≤ d * a := mul_nonneg hd ha.1.1
    have hda1 : d * a ≤ 1 := mul_le_one₀ hd1 ha.1.1 ha.1.2
    have hs : 0 ≤ d * x := mul_nonneg hd hx
    have hs1 : d * x ≤ 1 := mul_le_one₀ hd1 hx hx1
    have hcc := ((cascadeCode_rising hq.1.1 hq.1.2 qs es as hq.2 ha.2).add_linear hq.1.1).concave (d * x) (d * a) d hs hs1 hda hda1 hd hd1
    have e1 : d * x * (d * a) + (1 - d * x) * d = d - x * (1 - a) * d ^ 2 := by ring
    rw [e1] at hcc
    rw [cascadeCode_cons]
    refine le_trans ?_ hcc
    have t1 : clickTotal d 1 (q :: qs) (e :: es) (a :: as) = d * a * (q * e) + cascadeTruth (q * e) qs es as (d * a) := by
      simp [clickTotal, cascadeTruth]
    have t0 : clickTotal d 0 (q :: qs) (e :: es) (a :: as) = d * (q * e) + cascadeTruth (q * e) qs es as d := by
      simp [clickTotal, cascadeTruth]
    have i1 := ih hq.1.1 (hq.1.2.trans (by norm_num)) es as hq.2 ha.2 hda hda1
    have i0 := ih hq.1.1 (hq.1.2.trans (by norm_num)) es as hq.2 ha.2 hd hd1
    unfold cascadeTruth at t1 t0 i1 i0 ⊢
    rw [t1, t0]
    exact add_le_add (mul_le_mul_of_nonneg_left (by linarith) hs) (mul_le_mul_of_nonneg_left (by linarith) (sub_nonneg.2 hs1))

/-- **C87.** The cascade model with any number of positions, three or more, and expected rewards of at most one half from the third position
on: the ground truth is too large, by at least the excess of the first three positions (`C87_cascade_three_gap`). -/
theorem C87_cascade_gap {q₁ q₂ q₃ a₁ a₂ a₃ : K} {qs as : List K} (h1 : 0 ≤ q₁) (h1' : q₁ ≤ 1) (h2 : 0 ≤ q₂) (h2' : q₂ ≤ 1)
    (h3 : 0 ≤ q₃) (h3' : q₃ ≤ 1 / 2) (hq : ∀ q ∈ qs, 0 ≤ q ∧ q ≤ 1 / 2) (ha2 : 0 ≤ a₂) (ha2' : a₂ ≤ 1) (ha3 : 0 ≤ a₃) (ha3' : a₃ ≤ 1)
    (ha : ∀ a ∈ as, 0 ≤ a ∧ a ≤ 1) (hlen : as.length = qs.length) :
    expectedClicks (qs.length + 3) (q₁ :: q₂ :: q₃ :: qs) (List.replicate (qs.length + 3) 1) (a₁ :: a₂ :: a₃ :: as) +
        q₂ * q₃ * (1 - a₃) * (1 - a₂) ^ 2 * (q₁ * (1 - q₁)) ≤
      (clickExpected 1 0 (q₁ :: q₂ :: q₃ :: qs) (List.replicate (qs.length + 3) 1) (a₁ :: a₂ :: a₃ :: as)).sum := by
  rw [expectedClicks_eq _ _ _ _ (by simp) (by simp) (by simp [hlen])]
  simp only [List.replicate_succ]
  set es : List K := List.replicate qs.length 1 with hes
  have hq' : ∀ y ∈ List.zipWith (· * ·) qs es, 0 ≤ y ∧ y ≤ 1 / 2 := by
    intro y hy
    have : List.zipWith (· * ·) qs es = qs := by
      rw [hes]
      refine List.ext_getElem (by simp) fun i _ _ => by simp
    exact hq y (this ▸ hy)
  have hq3 : ∀ y ∈ List.zipWith (· * ·) (q₃ :: qs) (1 :: es), 0 ≤ y ∧ y ≤ 1 / 2 := by
    intro y hy
    rw [List.zipWith_cons_cons, List.mem_cons] at hy
    rcases hy with rfl | hy
    · rw [mul_one]
      exact ⟨h3, h3'⟩
    · exact hq' y hy
  have hc0 : 0 ≤ q₂ * (1 - a₃) := mul_nonneg h2 (sub_nonneg.2 ha3')
  have hc1 : q₂ * (1 - a₃) ≤ 1 := mul_le_one₀ h2' (sub_nonneg.2 ha3') (by linarith)
  have hcode : (clickExpected 1 0 (q₁ :: q₂ :: q₃ :: qs) (1 :: 1 :: 1 :: es) (a₁ :: a₂ :: a₃ :: as)).sum =
      q₁ + cascadeCode q₁ (q₂ :: q₃ :: qs) (1 :: 1 :: es) (a₂ :: a₃ :: as) 1 := by
    rw [clickExpected]
    simp [cascadeCode]
  have htruth : clickTotal 1 0 (q₁ :: q₂ :: q₃ :: qs) (1 :: 1 :: 1 :: es) (a₁ :: a₂ :: a₃ :: as) =
      q₁ + (q₁ * (a₂ * q₂ + cascadeTruth q₂ (q₃ :: qs) (1 :: es) (a₃ :: as) a₂) +
        (1 - q₁) * (q₂ + cascadeTruth q₂ (q₃ :: qs) (1 :: es) (a₃ :: as) 1)) := by
    simp [clickTotal, cascadeTruth]
  rw [hcode, htruth, cascadeCode_cons]
  have hall : ∀ y ∈ a₃ :: as, 0 ≤ y ∧ y ≤ 1 := by
    intro y hy
    rcases List.mem_cons.1 hy with rfl | hy
    · exact ⟨ha3, ha3'⟩
    · exact ha y hy
  have i1 := cascade_le h2 h2' (q₃ :: qs) (1 :: es) (a₃ :: as) hq3 hall ha2 ha2'
  have i0 := cascade_le h2 h2' (q₃ :: qs) (1 :: es) (a₃ :: as) hq3 hall zero_le_one le_rfl
  have hg := (cascadeCode_rising h3 h3' qs es as hq' ha).comp_gap (m := q₃) hc0 hc1 q₁ a₂ 1 h1 h1' ha2 ha2' zero_le_one le_rfl
  simp only [cascadeCode_cons, mul_one] at i1 i0 ⊢
  have e1 : (1 : K) - q₁ * (1 - a₂) * 1 ^ 2 = q₁ * a₂ + (1 - q₁) * 1 := by ring
  rw [e1]
  have j1 := mul_le_mul_of_nonneg_left i1 h1
  have j0 := mul_le_mul_of_nonneg_left i0 (sub_nonneg.2 h1')
  nlinarith [hg, j1, j0]

/-- **C87.** So it is strictly too large if the first three positions can be clicked, the first not surely, and a click makes later positions
less attractive. -/
theorem C87_cascade_overestimates_long {q₁ q₂ q₃ a₁ a₂ a₃ : K} {qs as : List K} (h1 : 0 < q₁) (h1' : q₁ < 1) (h2 : 0 < q₂) (h2' : q₂ ≤ 1)
    (h3 : 0 < q₃) (h3' : q₃ ≤ 1 / 2) (hq : ∀ q ∈ qs, 0 ≤ q ∧ q ≤ 1 / 2) (ha2 : 0 ≤ a₂) (ha2' : a₂ < 1) (ha3 : 0 ≤ a₃) (ha3' : a₃ < 1)
    (ha : ∀ a ∈ as, 0 ≤ a ∧ a ≤ 1) (hlen : as.length = qs.length) :
    expectedClicks (qs.length + 3) (q₁ :: q₂ :: q₃ :: qs) (List.replicate (qs.length + 3) 1) (a₁ :: a₂ :: a₃ :: as) <
      (clickExpected 1 0 (q₁ :: q₂ :: q₃ :: qs) (List.replicate (qs.length + 3) 1) (a₁ :: a₂ :: a₃ :: as)).sum := by
  refine lt_of_lt_of_le (lt_add_of_pos_right _ ?_)
    (C87_cascade_gap h1.le h1'.le h2.le h2' h3.le h3' hq ha2 ha2'.le ha3 ha3'.le ha hlen)
  have e1 : 0 < 1 - q₁ := sub_pos.2 h1'
  have e2 : 0 < 1 - a₂ := sub_pos.2 ha2'
  have e3 : 0 < 1 - a₃ := sub_pos.2 ha3'
  positivity

/-- Five positions with `eta = 1`. -/
example := C87_cascade_overestimates_long (K := ℚ) (q₁ := 1 / 2) (q₂ := 1 / 2) (q₃ := 1 / 2) (a₁ := 1) (a₂ := 1 / 2) (a₃ := 1 / 3)
  (qs := [1 / 3, 1 / 2]) (as := [1 / 4, 1 / 5]) (by norm_num) (by norm_num) (by norm_num) (by norm_num) (by norm_num) (by norm_num)
  (by simp; norm_num) (by norm_num) (by norm_num) (by norm_num) (by norm_num) (by simp; norm_num) rfl

end Obp
