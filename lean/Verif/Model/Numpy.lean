import Mathlib.Algebra.BigOperators.Fin
import Mathlib.Algebra.BigOperators.Group.List.Basic
import Mathlib.Algebra.Order.Field.Basic
import Mathlib.Algebra.Order.Ring.Rat
import Mathlib.Data.List.Dedup
import Mathlib.Data.List.OfFn
import Mathlib.Data.List.Sort
import Mathlib.Data.Nat.Cast.Order.Field

/-!
# The fragment of Python / numpy used by the modelled code

These definitions model library behaviour (numpy, Python), not code in `/repo`.
They are the common vocabulary of all model files.
Floats are idealised to an arbitrary linearly ordered field; a nan or infinite
result is the explicit outcome `PyErr.nonFinite`.
-/

namespace Obp

/-- The Python exception classes that the modelled code can raise, plus `nonFinite`: the
computation does not raise but its float result is nan or infinite. -/
inductive PyErr
  | valueError | typeError | indexError | keyError | attributeError
  | unboundLocalError | zeroDivisionError | runtimeError | assertionError | nonFinite
  | exception
  deriving DecidableEq, Repr

/-- A Python computation: a value or an exception. -/
abbrev Py (α : Type) := Except PyErr α

/-- `if cond: raise e`. -/
def raiseIf (c : Bool) (e : PyErr) : Py Unit :=
  if c then .error e else .ok ()

/-- An argument that should be a 1-D ndarray, as a validator sees it: `None`, an object that is
not an ndarray, an ndarray of another dimension (shape and row-major data), a 1-D integer array,
a 1-D float array. -/
inductive Arg1 (K : Type)
  | none
  | notArray
  | nd (shape : List ℕ) (data : List K)
  | int (xs : List ℤ)
  | flt (xs : List K)

/-- A 3-D array: its shape and its entries. -/
structure Arr3 (K : Type) where
  n : ℕ
  A : ℕ
  L : ℕ
  val : Fin n → Fin A → Fin L → K

/-- An argument that should be a 3-D ndarray. -/
inductive Arg3 (K : Type)
  | none
  | notArray
  | nd (shape : List ℕ)
  | arr (x : Arr3 K)

/-- A 2-D array. -/
structure Arr2 (K : Type) where
  n : ℕ
  d : ℕ
  val : Fin n → Fin d → K

/-- An argument that should be a 2-D ndarray. -/
inductive Arg2 (K : Type)
  | none
  | notArray
  | nd (shape : List ℕ)
  | arr (x : Arr2 K)

/-- A Python scalar argument as seen by `sklearn.utils.check_scalar`. -/
inductive PyScalar (K : Type)
  | bool (b : Bool)
  | int (z : ℤ)
  | flt (x : K)
  | inf
  | negInf
  | nan
  | other
  deriving DecidableEq

/-- A hyperparameter in `[0, ∞]` after validation: a finite number or `np.inf`. -/
inductive Lam (K : Type)
  | fin (x : K)
  | inf
  deriving DecidableEq

section arrays
variable {K : Type}

/-- `x is None` -/
def Arg1.isNone : Arg1 K → Bool
  | .none => true
  | _ => false

/-- `x is None` -/
def Arg3.isNone : Arg3 K → Bool
  | .none => true
  | _ => false

/-- `x.shape[0]`: AttributeError on non-arrays, IndexError on 0-D arrays. -/
def Arg1.shape0 : Arg1 K → Py ℕ
  | .none => .error .attributeError
  | .notArray => .error .attributeError
  | .nd [] _ => .error .indexError
  | .nd (s :: _) _ => .ok s
  | .int xs => .ok xs.length
  | .flt xs => .ok xs.length

/-- The shape of an array argument; AttributeError on non-arrays. -/
def Arg3.shape : Arg3 K → Py (List ℕ)
  | .none => .error .attributeError
  | .notArray => .error .attributeError
  | .nd s => .ok s
  | .arr x => .ok [x.n, x.A, x.L]

/-- Python index normalisation: `i` or `i + n` for negative `i`, `none` when out of bounds. -/
def wrapIdx (n : ℕ) (i : ℤ) : Option (Fin n) :=
  if h : 0 ≤ i ∧ i < n then some ⟨i.toNat, by omega⟩
  else if h : i < 0 ∧ 0 ≤ i + n then some ⟨(i + n).toNat, by omega⟩
  else none

/-- Entry `j` of a 1-D operand that is broadcast to a larger length: operands of length one are
repeated. -/
def bget {α : Type} (xs : List α) (j : ℕ) : Option α :=
  match xs with
  | [a] => some a
  | _ => xs[j]?

/-- Broadcast length of 1-D operands of lengths `a` and `b`. -/
def bcastLen (a b : ℕ) : Option ℕ :=
  if a = b then some a else if a = 1 then some b else if b = 1 then some a else none

/-- Broadcasting binary operation on 1-D arrays: ValueError when the shapes do not broadcast. -/
def bop {α β γ : Type} (f : α → β → γ) (xs : List α) (ys : List β) : Py (List γ) :=
  if xs.length = ys.length then .ok (List.zipWith f xs ys)
  else match xs, ys with
    | [a], _ => .ok (ys.map (f a))
    | _, [b] => .ok (xs.map (f · b))
    | _, _ => .error .valueError

/-- As `bop` for an operation that can fail elementwise (division by zero is non-finite). -/
def bopM {α β γ : Type} (f : α → β → Py γ) (xs : List α) (ys : List β) : Py (List γ) := do
  let zs ← bop Prod.mk xs ys
  zs.mapM fun p => f p.1 p.2

/-- `np.arange(n)` -/
def arange (n : ℕ) : List ℤ := (List.range n).map (↑)

/-- Advanced indexing `x[is, as, ls]` with three 1-D integer arrays: IndexError when they do not
broadcast or an index is out of bounds. -/
def fancy3 (x : Arr3 K) (is as ls : List ℤ) : Py (List K) :=
  match (bcastLen is.length as.length).bind (bcastLen · ls.length) with
  | none => .error .indexError
  | some N => (List.range N).mapM fun j =>
      match (bget is j).bind (wrapIdx x.n), (bget as j).bind (wrapIdx x.A),
        (bget ls j).bind (wrapIdx x.L) with
      | some i, some a, some l => .ok (x.val i a l)
      | _, _, _ => .error .indexError

/-- Advanced indexing `x[is, :, ls]`: one row of length `x.A` per index pair. -/
def fancyRow (x : Arr3 K) (is ls : List ℤ) : Py (List (List K)) :=
  match bcastLen is.length ls.length with
  | none => .error .indexError
  | some N => (List.range N).mapM fun j =>
      match (bget is j).bind (wrapIdx x.n), (bget ls j).bind (wrapIdx x.L) with
      | some i, some l => .ok (List.ofFn fun a => x.val i a l)
      | _, _ => .error .indexError

end arrays

section numeric
variable {K : Type} [Field K] [LinearOrder K]

/-- The entries of a 1-D array argument as numbers. -/
def Arg1.vals : Arg1 K → List K
  | .int xs => xs.map (↑)
  | .flt xs => xs
  | .nd _ xs => xs
  | _ => []

/-- The entries of a 1-D integer array; using a float array as an index raises IndexError. -/
def Arg1.ints : Arg1 K → Py (List ℤ)
  | .int xs => .ok xs
  | .flt _ => .error .indexError
  | .nd _ _ => .error .indexError
  | _ => .error .typeError

/-- numpy true division of two numbers: dividing by zero gives nan or inf. -/
def npDiv (a b : K) : Py K := if b = 0 then .error .nonFinite else .ok (a / b)

/-- `x.mean()` of a 1-D array (nan for an empty array). -/
def npMean (xs : List K) : Py K :=
  if xs.length = 0 then .error .nonFinite else .ok (xs.sum / (xs.length : K))

/-- `np.var(x)` of a 1-D array: mean of squared deviations from the mean. -/
def npVar (xs : List K) : Py K := do
  let m ← npMean xs
  npMean (xs.map fun x => (x - m) ^ 2)

/-- `x.max()` of a 1-D array: ValueError when empty. -/
def npMax {α : Type} [LinearOrder α] : List α → Py α
  | [] => .error .valueError
  | x :: xs => .ok (xs.foldl max x)

/-- `x.min()` of a 1-D array: ValueError when empty. -/
def npMin {α : Type} [LinearOrder α] : List α → Py α
  | [] => .error .valueError
  | x :: xs => .ok (xs.foldl min x)

/-- `np.average(row, weights=w)` of one row: ZeroDivisionError when the weights sum to zero. -/
def npAverage (row w : List K) : Py K :=
  if w.sum = 0 then .error .zeroDivisionError
  else .ok ((List.zipWith (· * ·) row w).sum / w.sum)

/-- `np.average(rows, weights=ws, axis=1)` -/
def npAverageRows (rows ws : List (List K)) : Py (List K) :=
  (List.zip rows ws).mapM fun p => npAverage p.1 p.2

/-- `np.minimum(w, lam)` with `lam` possibly `np.inf`. -/
def Lam.clip : Lam K → K → K
  | .fin l, w => min w l
  | .inf, w => w

/-- `w <= lam` with `lam` possibly `np.inf`. -/
def Lam.geB : Lam K → K → Bool
  | .fin l, w => decide (w ≤ l)
  | .inf, _ => true

/-- `np.allclose(x, 1)` for one finite entry `x`: `|x - 1| <= atol + rtol * |1|` with the numpy
defaults `rtol = 1e-5`, `atol = 1e-8`. -/
def closeToOne (x : K) : Bool := decide (|x - 1| ≤ 1 / 10 ^ 8 + 1 / 10 ^ 5)

end numeric

/-- `np.unique(xs)`: the distinct entries in increasing order. -/
def npUnique (xs : List ℤ) : List ℤ := xs.dedup.insertionSort (· ≤ ·)

end Obp
