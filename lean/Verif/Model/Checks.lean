import Verif.Model.Numpy

/-!
# Model of the validators of `obp/utils.py`
-/

namespace Obp

variable {K : Type} [Field K] [LinearOrder K]

/-- `obp/utils.py:150-176` `check_array(array, name, expected_dim=1)`. -/
def checkArray1 (a : Arg1 K) : Py Unit :=
  match a with
  | .none => .error .valueError
  | .notArray => .error .valueError
  | .nd _ _ => .error .valueError
  | .int _ => .ok ()
  | .flt _ => .ok ()

/-- `obp/utils.py:150-176` `check_array(array, name, expected_dim=2)`; returns the array. -/
def checkArray2 (a : Arg2 K) : Py (Arr2 K) :=
  match a with
  | .none => .error .valueError
  | .notArray => .error .valueError
  | .nd _ => .error .valueError
  | .arr x => .ok x

/-- `obp/utils.py:150-176` `check_array(array, name, expected_dim=3)`; returns the array. -/
def checkArray3 (a : Arg3 K) : Py (Arr3 K) :=
  match a with
  | .none => .error .valueError
  | .notArray => .error .valueError
  | .nd _ => .error .valueError
  | .arr x => .ok x

/-- `sklearn.utils.check_scalar(x, name, (int, float), min_val=lo, max_val=hi)` as used in
`obp/ope/estimators.py:282-287` and `:1820-1826`, followed by the nan test `:288-289`.
Python's `bool` is a subclass of `int`. Comparisons with nan are false. -/
def checkLambda (hi : Option K) : PyScalar K → Py (Lam K)
  | .bool b => checkFinite (if b then 1 else 0)
  | .int z => checkFinite (z : K)
  | .flt x => checkFinite x
  | .inf => match hi with
      | none => .ok .inf
      | some _ => .error .valueError
  | .negInf => .error .valueError
  | .nan => .error .valueError
  | .other => .error .typeError
where
  /-- the range test of `check_scalar` on a finite number -/
  checkFinite (x : K) : Py (Lam K) :=
    if x < 0 then .error .valueError
    else match hi with
      | none => .ok (.fin x)
      | some h => if h < x then .error .valueError else .ok (.fin x)

/-- `obp/utils.py:16-42` `check_confidence_interval_arguments`. `seedOk` says whether
`check_random_state(random_state)` accepts the seed (it raises ValueError otherwise).
`check_scalar(alpha, "alpha", float, ...)` rejects `int` and `bool` with TypeError;
nan passes both comparisons of `check_scalar`. -/
def checkConfidenceIntervalArguments (seedOk : Bool) (alpha nBoot : PyScalar K) : Py Unit := do
  raiseIf (seedOk = false) .valueError
  match alpha with
  | .flt a => do
      raiseIf (a < 0) .valueError
      raiseIf (1 < a) .valueError
  | .inf => .error .valueError
  | .negInf => .error .valueError
  | .nan => .ok ()
  | .bool _ => .error .typeError
  | .int _ => .error .typeError
  | .other => .error .typeError
  match nBoot with
  | .int z => raiseIf (z < 1) .valueError
  | .bool b => raiseIf (b = false) .valueError
  | _ => .error .typeError

/-- `np.allclose(action_dist.sum(axis=1), 1)` (`obp/utils.py:350`). -/
def distSumsToOne (x : Arr3 K) : Bool :=
  decide (∀ i : Fin x.n, ∀ l : Fin x.L, closeToOne (∑ a, x.val i a l) = true)

/-- The integer test `np.issubdtype(x.dtype, np.integer) and x.min() >= 0`: `ok false` leads to
ValueError at the caller; an empty integer array makes `min()` raise ValueError. -/
def intNonneg (a : Arg1 K) : Py Bool :=
  match a with
  | .int xs => do
      let m ← npMin xs
      pure (decide (0 ≤ m))
  | _ => .ok false

/-- `np.issubdtype(x.dtype, np.integer) and x.min() >= 0 and x.max() < bound` -/
def intInRange (a : Arg1 K) (bound : ℕ) : Py Bool :=
  match a with
  | .int xs => do
      let m ← npMin xs
      if 0 ≤ m then do
        let M ← npMax xs
        pure (decide (M < bound))
      else pure false
  | _ => .ok false

/-- The keyword arguments of `check_ope_inputs` (`obp/utils.py:313-321`). -/
structure OpeArgs (K : Type) where
  actionDist : Arg3 K
  position : Arg1 K := .none
  action : Arg1 K := .none
  reward : Arg1 K := .none
  pscore : Arg1 K := .none
  regModel : Arg3 K := .none
  estIw : Arg1 K := .none

/-- `obp/utils.py:353-369`: the `position` block of `check_ope_inputs`. -/
def checkPosition (x : Arr3 K) (position : Arg1 K) : Py Unit :=
  if position.isNone = false then do
    checkArray1 position
    let p0 ← position.shape0
    raiseIf (p0 ≠ x.n) .valueError
    let okInt ← intNonneg position
    raiseIf (okInt = false) .valueError
    let M ← (position.ints >>= npMax)
    raiseIf ((x.L : ℤ) ≤ M) .valueError
  else raiseIf (1 < x.L) .valueError

/-- `obp/utils.py:372-376`: the regression model block. -/
def checkRegModel (x : Arr3 K) (q : Arg3 K) : Py Unit :=
  if q.isNone = false then do
    let s ← q.shape
    raiseIf (s ≠ [x.n, x.A, x.L]) .valueError
  else .ok ()

/-- `obp/utils.py:378-384`: the estimated importance weights block. -/
def checkEstIw (action estIw : Arg1 K) : Py Unit :=
  if estIw.isNone = false then do
    let a0 ← action.shape0
    let w0 ← estIw.shape0
    raiseIf (a0 ≠ w0) .valueError
    raiseIf (estIw.vals.any (fun w => decide (w < 0))) .valueError
  else .ok ()

/-- `obp/utils.py:387-401`: the action / reward block. -/
def checkActionReward (x : Arr3 K) (action reward : Arg1 K) : Py Unit :=
  if action.isNone = false ∨ reward.isNone = false then do
    checkArray1 action
    checkArray1 reward
    let a0 ← action.shape0
    let r0 ← reward.shape0
    raiseIf (a0 ≠ r0) .valueError
    let okInt ← intInRange action x.A
    raiseIf (okInt = false) .valueError
  else .ok ()

/-- `obp/utils.py:404-412`: the pscore block. `pscore.ndim` on a non-array is AttributeError;
`action.shape` is looked up even when `action` is `None`. -/
def checkPscore (action reward pscore : Arg1 K) : Py Unit :=
  match pscore with
  | .none => .ok ()
  | .notArray => .error .attributeError
  | .nd _ _ => .error .valueError
  | _ => do
    let a0 ← action.shape0
    let r0 ← reward.shape0
    let p0 ← pscore.shape0
    raiseIf (¬ (a0 = r0 ∧ r0 = p0)) .valueError
    raiseIf (pscore.vals.any (fun w => decide (w ≤ 0))) .valueError

/-- `obp/utils.py:313-412` `check_ope_inputs`. Returns the validated 3-D array. -/
def checkOpeInputs (args : OpeArgs K) : Py (Arr3 K) := do
  let x ← checkArray3 args.actionDist
  raiseIf (distSumsToOne x = false) .valueError
  checkPosition x args.position
  checkRegModel x args.regModel
  checkEstIw args.action args.estIw
  checkActionReward x args.action args.reward
  checkPscore args.action args.reward args.pscore
  pure x

end Obp
