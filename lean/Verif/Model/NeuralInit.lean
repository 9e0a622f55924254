import Verif.Model.Scalar
import Verif.Model.Offline

/-!
# Constructors of the neural learners and of their reward models

`NNPolicyLearner` (`obp/policy/offline.py:780-953`), `QFuncEstimator` (`:1566-1660`), `ContinuousNNPolicyLearner`
(`obp/policy/offline_continuous.py:175-304`), `QFuncEstimatorForContinuousAction` (`:749-843`), and the optimisers their
`fit` methods create. The initial weights drawn by torch are not part of the result.
-/

namespace Obp

/-- Activation functions (`obp/policy/offline.py:915-929`). -/
inductive Activation
  | identity | logistic | tanh | relu | elu
  deriving DecidableEq

/-- `obp/policy/offline.py:915-929`, `:1635-1649`, `obp/policy/offline_continuous.py:269-282`, `:818-832`. -/
def Activation.ofName : String → Py Activation
  | "identity" => .ok .identity
  | "logistic" => .ok .logistic
  | "tanh" => .ok .tanh
  | "relu" => .ok .relu
  | "elu" => .ok .elu
  | _ => .error .valueError

/-- Optimisers (`obp/policy/offline.py:851-854`). -/
inductive Solver
  | sgd | adagrad | adam
  deriving DecidableEq

/-- `obp/policy/offline.py:851-854`, `:1577-1580`, `obp/policy/offline_continuous.py:204-207`, `:760-763`. -/
def Solver.ofName : String → Py Solver
  | "adagrad" => .ok .adagrad
  | "sgd" => .ok .sgd
  | "adam" => .ok .adam
  | _ => .error .valueError

variable {K : Type} [Field K] [LinearOrder K]

/-- `hidden_layer_size`: a tuple, or something else. -/
inductive TupleArg (K : Type)
  | tuple (xs : List (PyScalar K))
  | other

/-- `not isinstance(h, int) or h <= 0` raises ValueError (`obp/policy/offline.py:844-849`); `bool` is an `int`. -/
def checkPosInt : PyScalar K → Py ℕ
  | .int z => if z ≤ 0 then .error .valueError else .ok z.toNat
  | .bool b => if b then .ok 1 else .error .valueError
  | _ => .error .valueError

/-- `obp/policy/offline.py:844-849`, `:1570-1575`, `obp/policy/offline_continuous.py:197-202`, `:753-758`. -/
def checkHidden : TupleArg K → Py (List ℕ)
  | .tuple xs => xs.mapM checkPosInt
  | .other => .error .valueError

/-- `batch_size`: the string `"auto"`, or something else. -/
inductive BatchArg (K : Type)
  | auto
  | val (s : PyScalar K)

/-- `obp/policy/offline.py:858-863`, `:1584-1589`, `obp/policy/offline_continuous.py:211-216`, `:767-772`;
`none` is `"auto"`. -/
def checkBatch : BatchArg K → Py (Option ℕ)
  | .auto => .ok none
  | .val s => do
    let b ← checkPosInt s
    pure (some b)

/-- `if not isinstance(x, bool): raise ValueError` (`obp/policy/offline.py:873-874, 882-890`). -/
def checkBool : PyScalar K → Py Bool
  | .bool b => .ok b
  | _ => .error .valueError

/-- `check_scalar(x, ..., float, max_val=1.0)` and `if x <= 0.0: raise ValueError`
(`obp/policy/offline.py:892-898`); nan passes. -/
def checkFracInit : PyScalar K → Py (PyScalar K)
  | .flt x => if 1 < x then .error .valueError else if x ≤ 0 then .error .valueError else .ok (.flt x)
  | .inf => .error .valueError
  | .negInf => .error .valueError
  | .nan => .ok .nan
  | _ => .error .typeError

/-- `random_state`: `None`, an integer, a random generator accepted by `check_random_state`, or something it refuses. -/
inductive TorchSeed
  | none
  | int (z : ℤ)
  | generator
  | bad

/-- `obp/policy/offline.py:911-913`, `:1631-1633`, `obp/policy/offline_continuous.py:265-267`, `:814-816`:
`check_random_state` builds a `RandomState`, whose seeds are below `2^32`; `torch.manual_seed` converts its argument to
an integer, which fails for a generator. -/
def checkTorchSeed : TorchSeed → Py Unit
  | .none => .ok ()
  | .int z => if z < 0 then .error .valueError else if 2 ^ 32 ≤ z then .error .valueError else .ok ()
  | .generator => .error .typeError
  | .bad => .error .valueError

/-- The settings of the network and its training, as given (`obp/policy/offline.py:760-777`). -/
structure MlpArgs (K : Type) where
  hidden : TupleArg K
  activation : String
  solver : String
  alpha : PyScalar K
  batchSize : BatchArg K
  learningRate : PyScalar K
  maxIter : PyScalar K
  shuffle : PyScalar K
  seed : TorchSeed
  tol : PyScalar K
  momentum : PyScalar K
  nesterov : PyScalar K
  earlyStopping : PyScalar K
  fraction : PyScalar K
  beta1 : PyScalar K
  beta2 : PyScalar K
  epsilon : PyScalar K
  nIterNoChange : PyScalar K

/-- The settings after the checks. -/
structure MlpSettings (K : Type) where
  hidden : List ℕ
  activation : Activation
  solver : Solver
  alpha : PyScalar K
  batchSize : Option ℕ
  learningRate : PyScalar K
  maxIter : ℤ
  shuffle : Bool
  tol : PyScalar K
  momentum : PyScalar K
  nesterov : Bool
  earlyStopping : Bool
  fraction : PyScalar K
  beta1 : PyScalar K
  beta2 : PyScalar K
  epsilon : PyScalar K
  nIterNoChange : ℤ

/-- A `q_func_estimator_hyperparams` argument: `None`, a dict, or something else. A dict is given by the settings of the
reward model after its entries replaced the defaults, and whether it has a key that is not a setting. -/
inductive HyperArg (K : Type)
  | none
  | dict (settings : MlpArgs K) (unknownKey : Bool)
  | other

/-- `obp/policy/offline.py:900-905`, `obp/policy/offline_continuous.py:258-263`. -/
def checkHyper : HyperArg K → Py Unit
  | .other => .error .valueError
  | _ => .ok ()

/-- The checks of the settings, in the order of `obp/policy/offline.py:844-929`, `obp/policy/offline_continuous.py:197-282`.
`hyperFirst` says whether the check of `q_func_estimator_hyperparams` comes before those of `beta_1` etc. (as in
`NNPolicyLearner`) or after them. Both reward models (`obp/policy/offline.py:1570-1649`,
`obp/policy/offline_continuous.py:753-832`) have no such argument: `.none`. -/
def MlpArgs.check (a : MlpArgs K) (hyperFirst : Bool) (hyper : HyperArg K) : Py (MlpSettings K) := do
  let h ← checkHidden a.hidden
  let s ← Solver.ofName a.solver
  let al ← checkFloatIn 0 none a.alpha
  let bs ← checkBatch a.batchSize
  let lr ← checkFloatPos a.learningRate
  let mi ← checkIntMin 1 a.maxIter
  let sh ← checkBool a.shuffle
  let t ← checkFloatPos a.tol
  let m ← checkFloatIn 0 (some 1) a.momentum
  let ne ← checkBool a.nesterov
  let es ← checkBool a.earlyStopping
  let fr ← checkFracInit a.fraction
  checkHyper (if hyperFirst then hyper else .none)
  let b1 ← checkFloatIn 0 (some 1) a.beta1
  let b2 ← checkFloatIn 0 (some 1) a.beta2
  let ep ← checkFloatIn 0 none a.epsilon
  let ni ← checkIntMin 1 a.nIterNoChange
  checkHyper (if hyperFirst then .none else hyper)
  checkTorchSeed a.seed
  let ac ← Activation.ofName a.activation
  pure ⟨h, ac, s, al, bs, lr, mi, sh, t, m, ne, es, fr, b1, b2, ep, ni⟩

/-- `obp/policy/offline.py:931-938`, `:1651-1658`, `obp/policy/offline_continuous.py:284-291`, `:834-841`: input and
output size of each linear layer. -/
def layerShapes (input : ℕ) : List ℕ → ℕ → List (ℕ × ℕ)
  | [], output => [(input, output)]
  | h :: hs, output => (input, h) :: layerShapes h hs output

/-- The defaults of the settings (`obp/policy/offline.py:1547-1564`, `obp/policy/offline_continuous.py:730-747`); the two
reward models differ in `max_iter`. -/
def MlpArgs.default (maxIter : ℤ) : MlpArgs K where
  hidden := .tuple [.int 100]
  activation := "relu"
  solver := "adam"
  alpha := .flt (1 / 10 ^ 4)
  batchSize := .auto
  learningRate := .flt (1 / 10 ^ 4)
  maxIter := .int maxIter
  shuffle := .bool true
  seed := .none
  tol := .flt (1 / 10 ^ 4)
  momentum := .flt (9 / 10)
  nesterov := .bool true
  earlyStopping := .bool false
  fraction := .flt (1 / 10)
  beta1 := .flt (9 / 10)
  beta2 := .flt (999 / 1000)
  epsilon := .flt (1 / 10 ^ 8)
  nIterNoChange := .int 10

/-- A network with its training settings. -/
structure NetInit (K : Type) where
  dimContext : ℕ
  layers : List (ℕ × ℕ)
  settings : MlpSettings K

/-- `QFuncEstimator.__post_init__` (`obp/policy/offline.py:1566-1660`). `n_actions` is not checked; it is an integer here,
and `nn.Linear` refuses a negative one with a RuntimeError. -/
def initQFunc (nActions : ℤ) (dimContext : PyScalar K) (a : MlpArgs K) : Py (NetInit K) := do
  let d ← checkIntMin 1 dimContext
  let s ← a.check true .none
  raiseIf (nActions < 0) .runtimeError
  pure ⟨d.toNat, layerShapes d.toNat s.hidden nActions.toNat, s⟩

/-- `QFuncEstimatorForContinuousAction.__post_init__` (`obp/policy/offline_continuous.py:749-843`). -/
def initQFuncContinuous (dimContext : PyScalar K) (a : MlpArgs K) : Py (NetInit K) := do
  let d ← checkIntMin 1 dimContext
  let s ← a.check true .none
  pure ⟨d.toNat, layerShapes (d.toNat + 1) s.hidden 1, s⟩

/-- The dict is passed as keyword arguments after the learner's own sizes were written into it
(`obp/policy/offline.py:943-953`); an unknown keyword is a TypeError. -/
def hyperSettings (maxIter : ℤ) : HyperArg K → Py (MlpArgs K)
  | .dict a unknown => if unknown then .error .typeError else .ok a
  | _ => .ok (MlpArgs.default maxIter)

/-- `off_policy_objective` (`obp/policy/offline.py:786-797`). -/
def Objective.ofName : String → Py Objective
  | "dm" => .ok .dm
  | "ipw" => .ok .ipw
  | "dr" => .ok .dr
  | "snipw" => .ok .snipw
  | "ipw-os" => .ok .ipwOs
  | "ipw-subgauss" => .ok .ipwSubgauss
  | _ => .error .valueError

/-- `check_scalar(x, ..., (int, float), min_val=0.0, max_val=1.0)` (`obp/policy/offline.py:802-808`). -/
def checkNumberUnit (s : PyScalar K) : Py (PyNum K) := do
  let v ← checkNumber (some 0) s
  raiseIf (!PyNum.le v (.fin 1) && !decide (v = .nan)) .valueError
  pure v

/-- `obp/policy/offline.py:799-828`: the checked `lambda_`, or its default; the other objectives ignore it. -/
def checkObjectiveLambda (obj : Objective) (lam : Option (PyScalar K)) : Py (Option (PyNum K)) :=
  match obj with
  | .ipwSubgauss => do
    let v ← checkNumberUnit (lam.getD (.flt (1 / 1000)))
    pure (some v)
  | .snipw => do
    let v ← checkNumber (some 0) (lam.getD (.flt 0))
    pure (some v)
  | .ipwOs => do
    let v ← checkNumber (some 0) (lam.getD (.int 10000))
    pure (some v)
  | _ => .ok none

/-- What the constructor of `NNPolicyLearner` keeps. -/
structure NnPolicyInit (K : Type) where
  nActions : ℕ
  lenList : ℕ
  objective : Objective
  lambda : Option (PyNum K)
  policyReg : PyNum K
  varReg : PyNum K
  net : NetInit K
  qFunc : Option (NetInit K)

/-- The reward model of `NNPolicyLearner` (`obp/policy/offline.py:943-953`). -/
def objectiveQFunc (obj : Objective) (nActions dimContext : ℤ) (hyper : HyperArg K) : Py (Option (NetInit K)) :=
  match obj with
  | .dm | .dr => do
    let a ← hyperSettings 200 hyper
    let q ← initQFunc nActions (.int dimContext) a
    pure (some q)
  | _ => .ok none

/-- `NNPolicyLearner.__post_init__` (`obp/policy/offline.py:780-953`). -/
def initNnPolicy (nActions lenList dimContext : PyScalar K) (objective : String) (lam : Option (PyScalar K))
    (policyReg varReg : PyScalar K) (a : MlpArgs K) (hyper : HyperArg K) : Py (NnPolicyInit K) := do
  let c ← mkOffline nActions lenList
  let d ← checkIntMin 1 dimContext
  let obj ← Objective.ofName objective
  let l ← checkObjectiveLambda obj lam
  let rp ← checkNumber (some 0) policyReg
  let rv ← checkNumber (some 0) varReg
  let s ← a.check true hyper
  let q ← objectiveQFunc obj c.nActions d hyper
  pure ⟨c.nActions, c.lenList, obj, l, rp, rv, ⟨d.toNat, layerShapes d.toNat s.hidden c.nActions, s⟩, q⟩

/-- `pg_method` (`obp/policy/offline_continuous.py:179-182`). -/
inductive PgMethod
  | dpg | ipw | dr
  deriving DecidableEq

/-- `obp/policy/offline_continuous.py:179-182`. -/
def PgMethod.ofName : String → Py PgMethod
  | "dpg" => .ok .dpg
  | "ipw" => .ok .ipw
  | "dr" => .ok .dr
  | _ => .error .valueError

/-- `obp/policy/offline_continuous.py:184-187`: the bandwidth is not looked at for `"dpg"`; nan passes. -/
def checkPgBandwidth (m : PgMethod) (bandwidth : PyScalar K) : Py (Option (PyNum K)) :=
  match m with
  | .dpg => .ok none
  | _ => do
    let h ← checkNumber none bandwidth
    raiseIf (PyNum.le h (.fin 0)) .valueError
    pure (some h)

/-- `output_space`: `None`, a tuple, or something else. -/
inductive SpaceArg (K : Type)
  | none
  | tuple (xs : List (PyScalar K))
  | other

/-- `isinstance(o, (int, float))`, a ValueError otherwise (`obp/policy/offline_continuous.py:190-195`). -/
def spaceEntry (s : PyScalar K) : Py (PyNum K) :=
  match s.num? with
  | some v => .ok v
  | none => .error .valueError

/-- `obp/policy/offline_continuous.py:189-195`: neither the length nor the order of the tuple is checked. -/
def checkSpace : SpaceArg K → Py (Option (List (PyNum K)))
  | .none => .ok none
  | .other => .error .valueError
  | .tuple xs => do
    let vs ← xs.mapM spaceEntry
    pure (some vs)

/-- What the constructor of `ContinuousNNPolicyLearner` keeps. -/
structure ContPolicyInit (K : Type) where
  method : PgMethod
  bandwidth : Option (PyNum K)
  space : Option (List (PyNum K))
  net : NetInit K
  qFunc : Option (NetInit K)

/-- The reward model of `ContinuousNNPolicyLearner` (`obp/policy/offline_continuous.py:295-304`). -/
def pgQFunc (m : PgMethod) (dimContext : ℤ) (hyper : HyperArg K) : Py (Option (NetInit K)) :=
  match m with
  | .ipw => .ok none
  | _ => do
    let a ← hyperSettings 100 hyper
    let q ← initQFuncContinuous (.int dimContext) a
    pure (some q)

/-- `ContinuousNNPolicyLearner.__post_init__` (`obp/policy/offline_continuous.py:175-304`). -/
def initContPolicy (dimContext : PyScalar K) (method : String) (bandwidth : PyScalar K) (space : SpaceArg K)
    (a : MlpArgs K) (hyper : HyperArg K) : Py (ContPolicyInit K) := do
  let d ← checkIntMin 1 dimContext
  let m ← PgMethod.ofName method
  let h ← checkPgBandwidth m bandwidth
  let sp ← checkSpace space
  let s ← a.check false hyper
  let q ← pgQFunc m d hyper
  pure ⟨m, h, sp, ⟨d.toNat, layerShapes d.toNat s.hidden 1, s⟩, q⟩

/-- `0.0 <= x` for a float; false for nan. -/
def floatNonneg : PyScalar K → Bool
  | .flt x => decide (0 ≤ x)
  | .inf => true
  | _ => false

/-- `0.0 <= x < 1.0` for a float. -/
def floatBelowOne : PyScalar K → Bool
  | .flt x => decide (0 ≤ x) && decide (x < 1)
  | _ => false

/-- `x < 0.0` for a float; false for nan. -/
def floatNegative : PyScalar K → Bool
  | .flt x => decide (x < 0)
  | .negInf => true
  | _ => false

/-- `x <= 0` for a float; false for nan. -/
def floatNonpos : PyScalar K → Bool
  | .flt x => decide (x ≤ 0)
  | .negInf => true
  | _ => false

/-- The optimiser created by `fit` (`obp/policy/offline.py:1100-1126`, `:1763-1789`,
`obp/policy/offline_continuous.py:436-462`, `:947-973`) with the argument checks of `torch.optim.SGD`, `Adagrad` and
`Adam` (library behaviour), all of which raise ValueError. -/
def MlpSettings.optimizer (s : MlpSettings K) : Py Unit :=
  match s.solver with
  | .sgd => do
    raiseIf (floatNegative s.learningRate) .valueError
    raiseIf (floatNegative s.momentum) .valueError
    raiseIf (floatNegative s.alpha) .valueError
    raiseIf (s.nesterov && floatNonpos s.momentum) .valueError
  | .adagrad => do
    raiseIf (!floatNonneg s.learningRate) .valueError
    raiseIf (!floatNonneg s.alpha) .valueError
    raiseIf (!floatNonneg s.epsilon) .valueError
  | .adam => do
    raiseIf (!floatNonneg s.learningRate) .valueError
    raiseIf (!floatNonneg s.epsilon) .valueError
    raiseIf (!floatBelowOne s.beta1) .valueError
    raiseIf (!floatBelowOne s.beta2) .valueError
    raiseIf (!floatNonneg s.alpha) .valueError

end Obp
