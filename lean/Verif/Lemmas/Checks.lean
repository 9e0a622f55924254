import Verif.Spec.Inputs
import Verif.Lemmas.Numpy

/-! # Characterisation of the validators -/

set_option linter.unusedSectionVars false

namespace Obp

variable {K : Type} [Field K] [LinearOrder K]

theorem foldl_min_le {α : Type} [LinearOrder α] (xs : List α) (a b : α) :
    b ≤ xs.foldl min a ↔ b ≤ a ∧ ∀ x ∈ xs, b ≤ x := by
  induction xs generalizing a with
  | nil => simp
  | cons x xs ih => simp [ih, and_assoc]

theorem lt_foldl_min {α : Type} [LinearOrder α] (xs : List α) (a b : α) :
    b < xs.foldl min a ↔ b < a ∧ ∀ x ∈ xs, b < x := by
  induction xs generalizing a with
  | nil => simp
  | cons x xs ih => simp [ih, and_assoc]

theorem foldl_max_lt {α : Type} [LinearOrder α] (xs : List α) (a b : α) :
    xs.foldl max a < b ↔ a < b ∧ ∀ x ∈ xs, x < b := by
  induction xs generalizing a with
  | nil => simp
  | cons x xs ih => simp [ih, and_assoc]

theorem foldl_max_le {α : Type} [LinearOrder α] (xs : List α) (a b : α) :
    xs.foldl max a ≤ b ↔ a ≤ b ∧ ∀ x ∈ xs, x ≤ b := by
  induction xs generalizing a with
  | nil => simp
  | cons x xs ih => simp [ih, and_assoc]

theorem npMin_of_ne {α : Type} [LinearOrder α] {xs : List α} (h : xs ≠ []) :
    ∃ m, npMin xs = .ok m ∧ (∀ b, b ≤ m ↔ ∀ x ∈ xs, b ≤ x) ∧ ∀ b, b < m ↔ ∀ x ∈ xs, b < x := by
  cases xs with
  | nil => exact absurd rfl h
  | cons x xs => exact ⟨_, rfl, by simp [foldl_min_le], by simp [lt_foldl_min]⟩

theorem npMax_of_ne {α : Type} [LinearOrder α] {xs : List α} (h : xs ≠ []) :
    ∃ m, npMax xs = .ok m ∧ (∀ b, m < b ↔ ∀ x ∈ xs, x < b) ∧ ∀ b, m ≤ b ↔ ∀ x ∈ xs, x ≤ b := by
  cases xs with
  | nil => exact absurd rfl h
  | cons x xs => exact ⟨_, rfl, by simp [foldl_max_lt], by simp [foldl_max_le]⟩

theorem intInRange_ok_true {a : Arg1 K} {b : ℕ} :
    intInRange a b = .ok true ↔ ∃ xs : List ℤ, a = .int xs ∧ xs ≠ [] ∧ ∀ z ∈ xs, 0 ≤ z ∧ z < b := by
  cases a with
  | int xs =>
    by_cases hx : xs = []
    · subst hx; simp [intInRange, npMin]
    · obtain ⟨m, hm, hm1, -⟩ := npMin_of_ne hx
      obtain ⟨M, hM, hM1, -⟩ := npMax_of_ne hx
      simp only [intInRange, hm, py_bind_ok, hM]
      by_cases h0 : 0 ≤ m
      · rw [if_pos h0]
        simp only [py_pure, Except.ok.injEq, decide_eq_true_eq, Arg1.int.injEq, exists_eq_left', hM1]
        exact ⟨fun h => ⟨hx, fun z hz => ⟨(hm1 0).1 h0 z hz, h z hz⟩⟩, fun h z hz => (h.2 z hz).2⟩
      · rw [if_neg h0]
        simp only [py_pure, Except.ok.injEq, Bool.false_eq_true, Arg1.int.injEq, exists_eq_left',
          false_iff]
        exact fun h => h0 ((hm1 0).2 fun z hz => (h.2 z hz).1)
  | _ => simp [intInRange]

theorem intNonneg_ok_true {a : Arg1 K} :
    intNonneg a = .ok true ↔ ∃ xs : List ℤ, a = .int xs ∧ xs ≠ [] ∧ ∀ z ∈ xs, 0 ≤ z := by
  cases a with
  | int xs =>
    by_cases hx : xs = []
    · subst hx; simp [intNonneg, npMin]
    · obtain ⟨m, hm, hm1, -⟩ := npMin_of_ne hx
      simp only [intNonneg, hm, py_bind_ok]
      simp [hm1, hx]
  | _ => simp [intNonneg]

/-- The integer tests only ever raise ValueError. -/
theorem intInRange_cases (a : Arg1 K) (b : ℕ) :
    (∃ v, intInRange a b = .ok v) ∨ intInRange a b = .error .valueError := by
  cases a with
  | int xs =>
    by_cases hx : xs = []
    · subst hx; simp [intInRange, npMin]
    · obtain ⟨m, hm, -, -⟩ := npMin_of_ne hx
      obtain ⟨M, hM, -, -⟩ := npMax_of_ne hx
      simp only [intInRange, hm, py_bind_ok, hM]
      split <;> simp
  | _ => simp [intInRange]

theorem intNonneg_cases (a : Arg1 K) :
    (∃ v, intNonneg a = .ok v) ∨ intNonneg a = .error .valueError := by
  cases a with
  | int xs =>
    by_cases hx : xs = []
    · subst hx; simp [intNonneg, npMin]
    · obtain ⟨m, hm, -, -⟩ := npMin_of_ne hx
      simp [intNonneg, hm]
  | _ => simp [intNonneg]

theorem checkArray1_ok {a : Arg1 K} : checkArray1 a = .ok () ↔ ∃ k, a.IsVec k := by
  cases a <;> simp [checkArray1, Arg1.IsVec]

theorem checkArray3_ok {a : Arg3 K} {x : Arr3 K} : checkArray3 a = .ok x ↔ a = .arr x := by
  cases a <;> simp [checkArray3]

theorem shape0_ok {a : Arg1 K} {k : ℕ} : a.shape0 = .ok k ↔ a.Leading k := by
  cases a with
  | nd s d => cases s <;> simp [Arg1.shape0, Arg1.Leading, Arg1.IsVec]
  | _ => simp [Arg1.shape0, Arg1.Leading, Arg1.IsVec]

theorem isVec_leading {a : Arg1 K} {k : ℕ} (h : a.IsVec k) : a.Leading k := Or.inl h

theorem isVec_unique {a : Arg1 K} {k l : ℕ} (h : a.Leading k) (h' : a.Leading l) : k = l := by
  rw [← shape0_ok] at h h'; rw [h] at h'; simpa using h'

theorem distSumsToOne_iff {x : Arr3 K} : distSumsToOne x = true ↔
    ∀ i l, |∑ a, x.val i a l - 1| ≤ 1 / 10 ^ 8 + 1 / 10 ^ 5 := by
  simp [distSumsToOne, closeToOne]

theorem checkPosition_ok {x : Arr3 K} {p : Arg1 K} : checkPosition x p = .ok () ↔
    (p = .none ∧ x.L ≤ 1) ∨ p.IsIndexVec x.n x.L := by
  cases p with
  | none => simp [checkPosition, Arg1.isNone, Arg1.IsIndexVec]
  | notArray => simp [checkPosition, Arg1.isNone, Arg1.IsIndexVec, checkArray1]
  | nd s d => simp [checkPosition, Arg1.isNone, Arg1.IsIndexVec, checkArray1]
  | flt xs =>
    simp only [checkPosition, Arg1.isNone, if_true, checkArray1, py_bind_ok, Arg1.shape0,
      intNonneg, Arg1.IsIndexVec, Arg1.ints]
    cases h : raiseIf (decide (xs.length ≠ x.n)) .valueError <;> simp [raiseIf]
  | int xs =>
    simp only [checkPosition, Arg1.isNone, if_true, checkArray1, py_bind_ok, Arg1.shape0,
      Arg1.IsIndexVec, Arg1.ints, Arg1.int.injEq, exists_eq_left', reduceCtorEq, false_and,
      false_or, py_bind_eq_ok, exists_unit, raiseIf_ok, decide_eq_false_iff_not, not_not]
    constructor
    · rintro ⟨h1, b, hb, hbt, M, hM, hlt⟩
      have hbt : b = true := by simpa using hbt
      subst hbt
      obtain ⟨ys, hy, hne, h0⟩ := intNonneg_ok_true.1 hb
      cases hy
      obtain ⟨M', hM', hM1, -⟩ := npMax_of_ne hne
      rw [hM'] at hM; cases hM
      rw [not_le, hM1] at hlt
      exact ⟨h1, hne, fun z hz => ⟨h0 z hz, hlt z hz⟩⟩
    · rintro ⟨h1, hne, hr⟩
      obtain ⟨M, hM, hM1, -⟩ := npMax_of_ne hne
      exact ⟨h1, true, intNonneg_ok_true.2 ⟨xs, rfl, hne, fun z hz => (hr z hz).1⟩, by simp, M,
        hM, by rw [not_le, hM1]; exact fun z hz => (hr z hz).2⟩

theorem checkRegModel_ok {x : Arr3 K} {q : Arg3 K} (hq : q.WF) : checkRegModel x q = .ok () ↔
    q = .none ∨ ∃ y : Arr3 K, q = .arr y ∧ y.n = x.n ∧ y.A = x.A ∧ y.L = x.L := by
  cases q with
  | none => simp [checkRegModel, Arg3.isNone]
  | notArray => simp [checkRegModel, Arg3.isNone, Arg3.shape]
  | nd s =>
    simp only [checkRegModel, Arg3.isNone, Arg3.shape, if_true, py_bind_ok, raiseIf_ok,
      decide_eq_false_iff_not, not_not, reduceCtorEq, false_and, exists_false, or_false, iff_false]
    rintro rfl
    simp [Arg3.WF] at hq
  | arr y => simp [checkRegModel, Arg3.isNone, Arg3.shape]

theorem checkEstIw_ok {a w : Arg1 K} : checkEstIw a w = .ok () ↔
    w = .none ∨ ((∃ k, a.Leading k ∧ w.Leading k) ∧ ∀ y ∈ w.vals, 0 ≤ y) := by
  have key : w.isNone = false → (checkEstIw a w = .ok () ↔
      ((∃ k, a.Leading k ∧ w.Leading k) ∧ ∀ y ∈ w.vals, 0 ≤ y)) := by
    intro hw
    simp only [checkEstIw, hw, if_true, py_bind_eq_ok, exists_unit, raiseIf_ok, shape0_ok,
      decide_eq_false_iff_not, not_not, List.any_eq_false, decide_eq_true_eq, not_lt]
    constructor
    · rintro ⟨k, hk, l, hl, rfl, h⟩
      exact ⟨⟨k, hk, hl⟩, h⟩
    · rintro ⟨⟨k, hk, hl⟩, h⟩
      exact ⟨k, hk, k, hl, rfl, h⟩
  cases w with
  | none => simp [checkEstIw, Arg1.isNone]
  | _ => rw [key rfl]; simp

theorem checkActionReward_ok {x : Arr3 K} {a r : Arg1 K} : checkActionReward x a r = .ok () ↔
    (a = .none ∧ r = .none) ∨ ∃ k, a.IsIndexVec k x.A ∧ r.IsVec k := by
  have key : (a.isNone = false ∨ r.isNone = false) → (checkActionReward x a r = .ok () ↔
      ∃ k, a.IsIndexVec k x.A ∧ r.IsVec k) := by
    intro hw
    simp only [checkActionReward, hw, if_true, py_bind_eq_ok, exists_unit, raiseIf_ok, checkArray1_ok, shape0_ok,
      decide_eq_false_iff_not, not_not]
    constructor
    · rintro ⟨⟨k, hk⟩, ⟨l, hl⟩, k', hk', l', hl', rfl, b, hb, hbt⟩
      have hbt : b = true := by simpa using hbt
      subst hbt
      obtain ⟨xs, rfl, hne, hr⟩ := intInRange_ok_true.1 hb
      have h1 := isVec_unique (isVec_leading hk) hk'
      have h2 := isVec_unique (isVec_leading hl) hl'
      subst h1 h2
      refine ⟨_, ⟨xs, rfl, ?_, hne, hr⟩, hl⟩
      simpa [Arg1.IsVec] using hk
    · rintro ⟨k, ⟨xs, rfl, rfl, hne, hr⟩, hv⟩
      exact ⟨⟨xs.length, Or.inl ⟨xs, rfl, rfl⟩⟩, ⟨_, hv⟩, _, Or.inl (Or.inl ⟨xs, rfl, rfl⟩),
        _, isVec_leading hv, rfl, true, intInRange_ok_true.2 ⟨xs, rfl, hne, hr⟩, by simp⟩
  cases a with
  | none =>
    cases r with
    | none => simp [checkActionReward, Arg1.isNone]
    | _ => rw [key (Or.inr rfl)]; simp
  | _ => rw [key (Or.inl rfl)]; simp

theorem checkPscore_ok {a r p : Arg1 K} : checkPscore a r p = .ok () ↔
    p = .none ∨ ((∃ k, a.Leading k ∧ r.Leading k ∧ p.IsVec k) ∧ ∀ y ∈ p.vals, 0 < y) := by
  have key : (do
      let a0 ← a.shape0
      let r0 ← r.shape0
      let p0 ← p.shape0
      raiseIf (¬ (a0 = r0 ∧ r0 = p0)) .valueError
      raiseIf (p.vals.any (fun w => decide (w ≤ 0))) .valueError) = Except.ok () ↔
      ((∃ k, a.Leading k ∧ r.Leading k ∧ p.Leading k) ∧ ∀ y ∈ p.vals, 0 < y) := by
    simp only [py_bind_eq_ok, exists_unit, raiseIf_ok, shape0_ok, decide_eq_false_iff_not, not_not,
      List.any_eq_false, decide_eq_true_eq, not_le]
    constructor
    · rintro ⟨k, hk, l, hl, m, hm, ⟨rfl, rfl⟩, h⟩
      exact ⟨⟨k, hk, hl, hm⟩, h⟩
    · rintro ⟨⟨k, hk, hl, hm⟩, h⟩
      exact ⟨k, hk, k, hl, k, hm, ⟨rfl, rfl⟩, h⟩
  cases p with
  | none => simp [checkPscore]
  | notArray => simp [checkPscore, Arg1.IsVec]
  | nd s d => simp [checkPscore, Arg1.IsVec]
  | int xs =>
    simp only [checkPscore, reduceCtorEq, false_or]
    rw [key]
    simp [Arg1.Leading]
  | flt xs =>
    simp only [checkPscore, reduceCtorEq, false_or]
    rw [key]
    simp [Arg1.Leading]

end Obp
