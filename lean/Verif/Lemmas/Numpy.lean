import Verif.Model.Numpy
import Mathlib.Algebra.BigOperators.Group.List.Lemmas
import Mathlib.Algebra.Order.BigOperators.Group.Finset
import Mathlib.Tactic.Ring
import Mathlib.Tactic.Linarith
import Mathlib.Tactic.NormNum
import Mathlib.Tactic.FieldSimp
import Mathlib.Tactic.Positivity

/-! # Lemmas about the numpy fragment on arrays given as functions on `Fin n` -/

set_option linter.unusedSectionVars false

namespace Obp

section except
variable {α β : Type}

@[simp] theorem py_bind_ok (a : α) (f : α → Py β) : (Except.ok a >>= f : Py β) = f a := rfl
@[simp] theorem py_bind_error (e : PyErr) (f : α → Py β) :
    (Except.error e >>= f : Py β) = .error e := rfl
@[simp] theorem py_pure (a : α) : (pure a : Py α) = .ok a := rfl

theorem py_bind_eq_ok {x : Py α} {f : α → Py β} {b : β} :
    (x >>= f) = .ok b ↔ ∃ a, x = .ok a ∧ f a = .ok b := by
  cases x <;> simp

@[simp] theorem exists_unit {p : Unit → Prop} : (∃ u, p u) ↔ p () :=
  ⟨fun ⟨_, h⟩ => h, fun h => ⟨(), h⟩⟩

@[simp] theorem raiseIf_ok {c : Bool} {e : PyErr} : raiseIf c e = .ok () ↔ c = false := by
  unfold raiseIf; split <;> simp_all

theorem raiseIf_pos {c : Bool} (h : c = true) (e : PyErr) : raiseIf c e = .error e := by
  simp [raiseIf, h]

theorem raiseIf_neg {c : Bool} (h : c = false) (e : PyErr) : raiseIf c e = .ok () := by
  simp [raiseIf, h]

theorem mapM_ok_iff {xs : List α} {f : α → Py β} {ys : List β} :
    xs.mapM f = .ok ys ↔ List.Forall₂ (fun x y => f x = .ok y) xs ys := by
  induction xs generalizing ys with
  | nil => cases ys <;> simp
  | cons x xs ih =>
    rw [List.mapM_cons]
    cases h : f x with
    | error e =>
      simp only [py_bind_error, reduceCtorEq, false_iff]
      intro h'
      cases h' with
      | cons h1 _ => simp [h] at h1
    | ok b =>
      simp only [py_bind_ok]
      cases h2 : xs.mapM f with
      | error e =>
        simp only [py_bind_error, reduceCtorEq, false_iff]
        intro h'
        cases h' with
        | cons _ h3 => rw [← ih, h2] at h3; simp at h3
      | ok zs =>
        simp only [py_bind_ok, py_pure, Except.ok.injEq]
        constructor
        · rintro rfl
          exact .cons h (ih.1 h2)
        · intro h'
          cases h' with
          | cons h1 h3 =>
            rw [h] at h1; cases h1
            rw [← ih, h2] at h3; cases h3; rfl

theorem mapM_ofFn_ok {n : ℕ} {x : Fin n → α} {f : α → Py β} {y : Fin n → β}
    (h : ∀ i, f (x i) = .ok (y i)) : (List.ofFn x).mapM f = .ok (List.ofFn y) := by
  rw [mapM_ok_iff, List.forall₂_iff_get]
  simp [h]

theorem mapM_map_ok {xs : List α} {f : α → Py β} {g : α → β} (h : ∀ x ∈ xs, f x = .ok (g x)) :
    xs.mapM f = .ok (xs.map g) := by
  rw [mapM_ok_iff, List.forall₂_map_right_iff, List.forall₂_same]
  exact h

theorem mapM_error_of {xs : List α} {f : α → Py β} {e : PyErr}
    (hall : ∀ x ∈ xs, (∃ y, f x = .ok y) ∨ f x = .error e) (hex : ∃ x ∈ xs, f x = .error e) :
    xs.mapM f = .error e := by
  induction xs with
  | nil => simp at hex
  | cons x xs ih =>
    rw [List.mapM_cons]
    rcases hall x (by simp) with ⟨y, hy⟩ | hy
    · rw [hy]
      have : ∃ x ∈ xs, f x = .error e := by
        obtain ⟨z, hz, hz'⟩ := hex
        rcases List.mem_cons.1 hz with rfl | h
        · rw [hy] at hz'; simp at hz'
        · exact ⟨z, h, hz'⟩
      rw [ih (fun z hz => hall z (by simp [hz])) this]; rfl
    · rw [hy]; rfl

end except

section arrays
variable {α β γ K : Type}

@[simp] theorem wrapIdx_natCast {n : ℕ} (i : Fin n) : wrapIdx n ((i : ℕ) : ℤ) = some i := by
  unfold wrapIdx
  have := i.isLt
  rw [dif_pos ⟨by omega, by omega⟩]
  simp

theorem wrapIdx_lt {n j : ℕ} (h : j < n) : wrapIdx n (j : ℤ) = some ⟨j, h⟩ :=
  wrapIdx_natCast ⟨j, h⟩

theorem bget_ofFn {n : ℕ} (x : Fin n → α) (j : Fin n) : bget (List.ofFn x) j = some (x j) := by
  unfold bget
  split
  · next a h =>
    have hn : n = 1 := by simpa using congrArg List.length h
    subst hn
    have : j = 0 := Subsingleton.elim _ _
    subst this
    simpa using h.symm
  · simp

theorem arange_eq_ofFn (n : ℕ) : arange n = List.ofFn fun i : Fin n => ((i : ℕ) : ℤ) := by
  apply List.ext_getElem <;> simp [arange]

@[simp] theorem bop_ofFn {n : ℕ} (f : α → β → γ) (x : Fin n → α) (y : Fin n → β) :
    bop f (List.ofFn x) (List.ofFn y) = .ok (List.ofFn fun i => f (x i) (y i)) := by
  unfold bop
  simp only [List.length_ofFn, if_true]
  congr 1
  apply List.ext_getElem <;> simp

theorem bopM_ofFn_ok {n : ℕ} (f : α → β → Py γ) (x : Fin n → α) (y : Fin n → β) (z : Fin n → γ)
    (h : ∀ i, f (x i) (y i) = .ok (z i)) :
    bopM f (List.ofFn x) (List.ofFn y) = .ok (List.ofFn z) := by
  unfold bopM
  rw [bop_ofFn]
  exact mapM_ofFn_ok h

theorem fancy3_ofFn (x : Arr3 K) (a : Fin x.n → Fin x.A) (l : Fin x.n → Fin x.L) :
    fancy3 x (arange x.n) (List.ofFn fun i => ((a i : ℕ) : ℤ))
      (List.ofFn fun i => ((l i : ℕ) : ℤ)) = .ok (List.ofFn fun i => x.val i (a i) (l i)) := by
  unfold fancy3
  rw [arange_eq_ofFn]
  simp only [List.length_ofFn, bcastLen, if_true, Option.bind_some]
  rw [mapM_ok_iff, List.forall₂_iff_get]
  refine ⟨by simp, ?_⟩
  intro j h1 h2
  simp only [List.length_range] at h1
  simp only [List.get_eq_getElem, List.getElem_range, List.getElem_ofFn]
  rw [bget_ofFn (fun i : Fin x.n => ((i : ℕ) : ℤ)) ⟨j, h1⟩,
    bget_ofFn (fun i : Fin x.n => ((a i : ℕ) : ℤ)) ⟨j, h1⟩,
    bget_ofFn (fun i : Fin x.n => ((l i : ℕ) : ℤ)) ⟨j, h1⟩]
  simp only [Option.bind_some, wrapIdx_natCast, wrapIdx_lt h1]

theorem fancyRow_ofFn (x : Arr3 K) (l : Fin x.n → Fin x.L) :
    fancyRow x (arange x.n) (List.ofFn fun i => ((l i : ℕ) : ℤ)) =
      .ok (List.ofFn fun i => List.ofFn fun a => x.val i a (l i)) := by
  unfold fancyRow
  rw [arange_eq_ofFn]
  simp only [List.length_ofFn, bcastLen, if_true]
  rw [mapM_ok_iff, List.forall₂_iff_get]
  refine ⟨by simp, ?_⟩
  intro j h1 h2
  simp only [List.length_range] at h1
  simp only [List.get_eq_getElem, List.getElem_range, List.getElem_ofFn]
  rw [bget_ofFn (fun i : Fin x.n => ((i : ℕ) : ℤ)) ⟨j, h1⟩,
    bget_ofFn (fun i : Fin x.n => ((l i : ℕ) : ℤ)) ⟨j, h1⟩]
  simp only [Option.bind_some, wrapIdx_natCast, wrapIdx_lt h1]

end arrays

section numeric
variable {K : Type} [Field K] [LinearOrder K]

theorem npMean_ofFn {n : ℕ} (hn : 0 < n) (f : Fin n → K) :
    npMean (List.ofFn f) = .ok ((∑ i, f i) / (n : K)) := by
  unfold npMean
  rw [if_neg (by simp; omega), List.sum_ofFn, List.length_ofFn]

theorem npDiv_ok {a b : K} (h : b ≠ 0) : npDiv a b = .ok (a / b) := by simp [npDiv, h]

theorem npDiv_zero (a : K) : npDiv a 0 = .error .nonFinite := by simp [npDiv]

theorem npAverage_ofFn {n : ℕ} (r w : Fin n → K) (h : ∑ i, w i ≠ 0) :
    npAverage (List.ofFn r) (List.ofFn w) = .ok ((∑ i, r i * w i) / ∑ i, w i) := by
  unfold npAverage
  rw [List.sum_ofFn, if_neg h]
  congr 2
  rw [← List.sum_ofFn]
  congr 1
  apply List.ext_getElem <;> simp

theorem npAverageRows_ofFn {n m : ℕ} (r w : Fin n → Fin m → K) (h : ∀ i, ∑ a, w i a ≠ 0) :
    npAverageRows (List.ofFn fun i => List.ofFn (r i)) (List.ofFn fun i => List.ofFn (w i)) =
      .ok (List.ofFn fun i => (∑ a, r i a * w i a) / ∑ a, w i a) := by
  unfold npAverageRows
  have : (List.ofFn fun i => List.ofFn (r i)).zip (List.ofFn fun i => List.ofFn (w i)) =
      List.ofFn fun i => (List.ofFn (r i), List.ofFn (w i)) := by
    apply List.ext_getElem <;> simp
  rw [this]
  exact mapM_ofFn_ok fun i => npAverage_ofFn _ _ (h i)

theorem closeToOne_ne_zero [IsStrictOrderedRing K] {x : K} (h : closeToOne x = true) : 0 < x := by
  unfold closeToOne at h
  rw [decide_eq_true_eq, abs_le] at h
  have : (1 : K) / 10 ^ 8 + 1 / 10 ^ 5 < 1 := by norm_num
  linarith [h.1]

theorem closeToOne_one [IsStrictOrderedRing K] : closeToOne (1 : K) = true := by
  unfold closeToOne
  rw [decide_eq_true_eq]
  simp only [sub_self, abs_zero]
  positivity

end numeric

end Obp
