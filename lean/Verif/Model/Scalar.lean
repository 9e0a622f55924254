import Verif.Model.PolicyInit

/-! # `sklearn.utils.check_scalar` for numbers -/

namespace Obp

/-- A Python number after a type test. -/
inductive PyNum (K : Type)
  | fin (x : K)
  | inf
  | negInf
  | nan
  deriving DecidableEq

variable {K : Type} [Field K] [LinearOrder K]

/-- The number, if the argument passes `isinstance(x, (int, float))`; `bool` is a subclass of `int`. -/
def PyScalar.num? : PyScalar K → Option (PyNum K)
  | .bool b => some (.fin (if b then 1 else 0))
  | .int z => some (.fin z)
  | .flt x => some (.fin x)
  | .inf => some .inf
  | .negInf => some .negInf
  | .nan => some .nan
  | .other => none

/-- `v < l` with float semantics. -/
def PyNum.lt : PyNum K → K → Bool
  | .fin x, l => decide (x < l)
  | .negInf, _ => true
  | .inf, _ => false
  | .nan, _ => false

/-- `v <= w` with float semantics. -/
def PyNum.le : PyNum K → PyNum K → Bool
  | .nan, _ => false
  | _, .nan => false
  | .negInf, _ => true
  | _, .inf => true
  | .fin x, .fin y => decide (x ≤ y)
  | .fin _, .negInf => false
  | .inf, .fin _ => false
  | .inf, .negInf => false

/-- `check_scalar(x, name, (int, float), min_val=lo)` (library behaviour, called for instance in
`obp/dataset/synthetic.py:193, 214`); `none` is no bound. -/
def checkNumber (lo : Option K) (s : PyScalar K) : Py (PyNum K) :=
  match s.num? with
  | none => .error .typeError
  | some v =>
    match lo with
    | none => .ok v
    | some l => if v.lt l then .error .valueError else .ok v

end Obp
