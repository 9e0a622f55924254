import Verif.Model.Contextual
import Verif.Model.Regression

/-!
# The constructors of the online policies (`obp/policy/base.py`, `contextfree.py`, `linear.py`, `logistic.py`)

The arguments are arbitrary Python scalars. `random_state` is handed to sklearn and left out, and so is
`policy_name`. A float argument is kept as it is, for nan passes all the checks.
-/

namespace Obp

variable {K : Type} [Field K] [LinearOrder K]

/-- `sklearn.utils.check_scalar(x, name, int, min_val=lo, max_val=hi)`: `bool` is an `int`. -/
def checkIntIn (lo hi : ℤ) : PyScalar K → Py ℤ
  | .int z => if z < lo then .error .valueError else if hi < z then .error .valueError else .ok z
  | .bool b =>
    let z : ℤ := if b then 1 else 0
    if z < lo then .error .valueError else if hi < z then .error .valueError else .ok z
  | _ => .error .typeError

/-- `sklearn.utils.check_scalar(x, name, float, min_val=lo, max_val=hi)`; `hi = none` is no upper bound.
Comparisons with nan are false. -/
def checkFloatIn (lo : K) (hi : Option K) : PyScalar K → Py (PyScalar K)
  | .flt x => if x < lo then .error .valueError
      else match hi with
        | none => .ok (.flt x)
        | some h => if h < x then .error .valueError else .ok (.flt x)
  | .inf => match hi with
    | none => .ok .inf
    | some _ => .error .valueError
  | .negInf => .error .valueError
  | .nan => .ok .nan
  | _ => .error .typeError

/-- `check_scalar(x, name, float)` and `if x <= 0.0: raise ValueError`
(`obp/policy/logistic.py:53-59`). -/
def checkFloatPos : PyScalar K → Py (PyScalar K)
  | .flt x => if x ≤ 0 then .error .valueError else .ok (.flt x)
  | .inf => .ok .inf
  | .negInf => .error .valueError
  | .nan => .ok .nan
  | _ => .error .typeError

/-- `BaseContextFreePolicy.__post_init__` (`obp/policy/base.py:43-53`), the checks. -/
def initContextFree (nActions lenList batchSize : PyScalar K) : Py CfConfig := do
  let n ← checkIntMin 2 nActions
  let l ← checkIntIn 1 n lenList
  let b ← checkIntMin 1 batchSize
  pure ⟨n.toNat, l.toNat, b.toNat⟩

/-- `BaseContextualPolicy.__post_init__` (`obp/policy/base.py:110-120`), the checks; the result carries `dim`
in addition. -/
def initContextual (dim nActions lenList batchSize : PyScalar K) : Py (ℕ × CfConfig) := do
  let d ← checkIntMin 1 dim
  let n ← checkIntMin 2 nActions
  let l ← checkIntIn 1 n lenList
  let b ← checkIntMin 1 batchSize
  pure (d.toNat, ⟨n.toNat, l.toNat, b.toNat⟩)

/-- `EpsilonGreedy.__post_init__` (`obp/policy/contextfree.py:53-57`), inherited by `Random`
(`obp/policy/contextfree.py:97`). -/
def initEgreedy (nActions lenList batchSize epsilon : PyScalar K) : Py (CfConfig × PyScalar K) := do
  let e ← checkFloatIn 0 (some 1) epsilon
  let c ← initContextFree nActions lenList batchSize
  pure (c, e)

/-- `BernoulliTS.__post_init__` (`obp/policy/contextfree.py:192-204`). `priors` is the content of
`obp/policy/conf/prior_bts.yaml`: the two lists of a campaign. Arrays given for `alpha` and `beta` are not
checked. The exception for a missing campaign is a plain `Exception`. -/
def initBts (priors : String → Option (List K × List K)) (nActions lenList batchSize : PyScalar K)
    (alpha beta : Option (List K)) (isZozotownPrior : Bool) (campaign : Option String) :
    Py (CfConfig × List K × List K) := do
  let c ← initContextFree nActions lenList batchSize
  if isZozotownPrior then
    match campaign with
    | none => .error .exception
    | some name =>
      match priors name with
      | none => .error .keyError
      | some p => pure (c, p.1, p.2)
  else
    pure (c, alpha.getD (List.replicate c.nActions 1), beta.getD (List.replicate c.nActions 1))

/-- `LinEpsilonGreedy.__post_init__` (`obp/policy/linear.py:126-131`). -/
def initLinEgreedy (dim nActions lenList batchSize epsilon : PyScalar K) :
    Py (ℕ × CfConfig × PyScalar K) := do
  let e ← checkFloatIn 0 (some 1) epsilon
  let (d, c) ← initContextual dim nActions lenList batchSize
  pure (d, c, e)

/-- `LinUCB.__post_init__` (`obp/policy/linear.py:202-207`). -/
def initLinUcb (dim nActions lenList batchSize epsilon : PyScalar K) :
    Py (ℕ × CfConfig × PyScalar K) := do
  let e ← checkFloatIn 0 none epsilon
  let (d, c) ← initContextual dim nActions lenList batchSize
  pure (d, c, e)

/-- `LinTS.__post_init__` (`obp/policy/linear.py:269-273`). -/
def initLinTs (dim nActions lenList batchSize : PyScalar K) : Py (ℕ × CfConfig) :=
  initContextual dim nActions lenList batchSize

/-- `BaseLogisticPolicy.__post_init__` (`obp/policy/logistic.py:50-59`), the checks, inherited by `LogisticTS`
(`:281-283`): dimension, configuration, `alpha_`, `lambda_`. -/
def initLogistic (dim nActions lenList batchSize alpha lam : PyScalar K) :
    Py (ℕ × CfConfig × PyScalar K × PyScalar K) := do
  let (d, c) ← initContextual dim nActions lenList batchSize
  let a ← checkFloatPos alpha
  let l ← checkFloatPos lam
  pure (d, c, a, l)

/-- `LogisticEpsilonGreedy.__post_init__` (`obp/policy/logistic.py:138-143`); the last component is
`epsilon`. -/
def initLogEgreedy (dim nActions lenList batchSize alpha lam epsilon : PyScalar K) :
    Py (ℕ × CfConfig × PyScalar K × PyScalar K × PyScalar K) := do
  let e ← checkFloatIn 0 (some 1) epsilon
  let (d, c, a, l) ← initLogistic dim nActions lenList batchSize alpha lam
  pure (d, c, a, l, e)

/-- `LogisticUCB.__post_init__` (`obp/policy/logistic.py:210-215`). -/
def initLogUcb (dim nActions lenList batchSize alpha lam epsilon : PyScalar K) :
    Py (ℕ × CfConfig × PyScalar K × PyScalar K × PyScalar K) := do
  let e ← checkFloatIn 0 none epsilon
  let (d, c, a, l) ← initLogistic dim nActions lenList batchSize alpha lam
  pure (d, c, a, l, e)

end Obp
