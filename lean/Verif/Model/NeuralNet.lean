import Verif.Model.NeuralInit
import Verif.Model.Continuous
import Verif.Model.Utils
import Mathlib.Analysis.SpecialFunctions.Pow.Real

/-!
# The networks, and the continuous-action policy learner

The forward pass of the networks built by the neural learners, and `ContinuousNNPolicyLearner`
(`obp/policy/offline_continuous.py:306-621`). Real arithmetic instead of floats; the optimiser is not modelled, so the
theorems hold for whatever weights it produces.
-/

namespace Obp

/-- The activation functions: `nn.Identity`, `nn.Sigmoid`, `nn.Tanh`, `nn.ReLU`, `nn.ELU` with `alpha=1`
(library behaviour; `obp/policy/offline.py:915-924`). -/
noncomputable def Activation.fn : Activation → ℝ → ℝ
  | .identity, x => x
  | .logistic, x => 1 / (1 + Real.exp (-x))
  | .tanh, x => Real.tanh x
  | .relu, x => max 0 x
  | .elu, x => if 0 < x then x else Real.exp x - 1

/-- The parameters of one `nn.Linear`: a weight row and a bias for each output. -/
abbrev LayerParams := List (List ℝ × ℝ)

/-- `nn.Linear` applied to one row; torch raises RuntimeError when the sizes do not fit. -/
noncomputable def linearLayer (p : LayerParams) (x : List ℝ) : Py (List ℝ) :=
  p.mapM fun r => if r.1.length = x.length then .ok ((List.zipWith (· * ·) r.1 x).sum + r.2) else .error .runtimeError

/-- `nn.Sequential` of the layers built in `obp/policy/offline.py:931-938`, `:1651-1658`,
`obp/policy/offline_continuous.py:284-291`, `:834-841`: linear layers with the activation between them and a linear
output layer. -/
noncomputable def mlpForward (act : Activation) : List LayerParams → List ℝ → Py (List ℝ)
  | [], x => .ok x
  | [p], x => linearLayer p x
  | p :: q :: ps, x => do
    let y ← linearLayer p x
    mlpForward act (q :: ps) (y.map act.fn)

/-- The policy network of `NNPolicyLearner` on one row: `nn.Softmax(dim=1)` after the last layer
(`obp/policy/offline.py:938-941`). The softmax of an empty row is empty. -/
noncomputable def policyNetwork (act : Activation) (ps : List LayerParams) (x : List ℝ) : Py (List ℝ) := do
  let y ← mlpForward act ps x
  y.mapM fun v => npDiv (Real.exp v) (y.map Real.exp).sum

/-! ### `ContinuousNNPolicyLearner` -/

/-- `max` of two floats; nan propagates (`torch.clamp` and `np.clip`). -/
noncomputable def PyNum.maxNum : PyNum ℝ → PyNum ℝ → PyNum ℝ
  | .nan, _ => .nan
  | _, .nan => .nan
  | .fin x, .fin y => .fin (max x y)
  | .inf, _ => .inf
  | _, .inf => .inf
  | .negInf, y => y
  | x, .negInf => x

/-- `min` of two floats; nan propagates. -/
noncomputable def PyNum.minNum : PyNum ℝ → PyNum ℝ → PyNum ℝ
  | .nan, _ => .nan
  | _, .nan => .nan
  | .fin x, .fin y => .fin (min x y)
  | .negInf, _ => .negInf
  | _, .negInf => .negInf
  | .inf, y => y
  | x, .inf => x

/-- `self.output_space[0]` and `self.output_space[1]`
(`obp/policy/offline_continuous.py:559-564, 614-619`). -/
def spaceBounds : List (PyNum ℝ) → Py (PyNum ℝ × PyNum ℝ)
  | lo :: hi :: _ => .ok (lo, hi)
  | _ => .error .indexError

/-- `torch.clamp` and `np.clip` of the actions: the minimum of `hi` and the maximum of `lo` and the action
(`obp/policy/offline_continuous.py:559-564, 614-619`). -/
noncomputable def clampActions (space : Option (List (PyNum ℝ))) (xs : List ℝ) : Py (List (PyNum ℝ)) :=
  match space with
  | none => .ok (xs.map .fin)
  | some s => do
    let b ← spaceBounds s
    pure (xs.map fun x => ((PyNum.fin x).maxNum b.1).minNum b.2)

/-- A finite number, or an error where the code goes on with inf or nan. -/
def PyNum.toPy : PyNum ℝ → Py ℝ
  | .fin x => .ok x
  | _ => .error .nonFinite

/-- `predict` (`obp/policy/offline_continuous.py:591-621`). `net` is the network, one output per row. -/
noncomputable def contPredict (dimContext : ℕ) (space : Option (List (PyNum ℝ))) (net : List ℝ → ℝ)
    (context : Arg2 ℝ) : Py (List (PyNum ℝ)) := do
  let c ← checkArray2 context
  raiseIf (c.d ≠ dimContext) .valueError
  clampActions space (List.ofFn fun i => net (List.ofFn (c.val i)))

/-- One round of a mini-batch. -/
structure ContRow where
  x : List ℝ
  action : ℝ
  reward : ℝ
  pscore : ℝ

/-- The inner function `gaussian_kernel` (`obp/policy/offline_continuous.py:556-557`). -/
noncomputable def torchGaussianKernel (u : ℝ) : ℝ := Real.exp (-(u ^ 2) / 2) / (2 * Real.pi) ^ (1 / 2 : ℝ)

/-- One entry of `_estimate_policy_gradient` (`obp/policy/offline_continuous.py:566-589`): `a` is the action of the
current policy after the clamping, `q` the reward model. -/
noncomputable def contGradTerm (m : PgMethod) (h : Bandwidth) (q : List ℝ → ℝ → ℝ) (r : ContRow) (a : ℝ) : Py ℝ :=
  match m with
  | .dpg => .ok (q r.x a)
  | .ipw => do
    let u ← h.div (a - r.action)
    let w ← npDiv (torchGaussianKernel u * r.reward) r.pscore
    h.div w
  | .dr => do
    let u ← h.div (a - r.action)
    let w ← npDiv (torchGaussianKernel u * (r.reward - q r.x a)) r.pscore
    let v ← h.div w
    pure (v + q r.x a)

/-- `_estimate_policy_gradient` (`obp/policy/offline_continuous.py:522-589`) on a mini-batch; `net` is the policy
network. -/
noncomputable def contGradArr (m : PgMethod) (h : Bandwidth) (space : Option (List (PyNum ℝ))) (q : List ℝ → ℝ → ℝ)
    (net : List ℝ → ℝ) (rows : List ContRow) : Py (List ℝ) := do
  let as ← clampActions space (rows.map fun r => net r.x)
  let xs ← as.mapM PyNum.toPy
  (rows.zip xs).mapM fun p => contGradTerm m h q p.1 p.2

/-- The loss of a mini-batch (`obp/policy/offline_continuous.py:481-487, 504-510`). -/
noncomputable def contLoss (m : PgMethod) (h : Bandwidth) (space : Option (List (PyNum ℝ))) (q : List ℝ → ℝ → ℝ)
    (net : List ℝ → ℝ) (rows : List ContRow) : Py ℝ := do
  let g ← contGradArr m h space q net rows
  let v ← npMean g
  pure (-v)

/-- The logged data given to `fit`. -/
structure ContFitArgs where
  context : Arg2 ℝ
  action : Arg1 ℝ
  reward : Arg1 ℝ
  expectedReward : Arg1 ℝ
  pscore : Arg1 ℝ

/-- The number of rows of a 2-D argument after its check. -/
def Arg2.rows0 : Arg2 ℝ → Py ℕ
  | .arr x => .ok x.n
  | _ => .error .attributeError

/-- `obp/utils.py:508-519`: `expected_reward`, if given. -/
noncomputable def contFeedbackExpected (a : ContFitArgs) : Py Unit :=
  if a.expectedReward.isNone then .ok () else do
    checkArray1 a.expectedReward
    let c0 ← a.context.rows0
    let a0 ← a.action.shape0
    let r0 ← a.reward.shape0
    let e0 ← a.expectedReward.shape0
    raiseIf (¬ (c0 = a0 ∧ a0 = r0 ∧ r0 = e0)) .valueError

/-- `obp/utils.py:520-533`: `pscore`, if given. -/
noncomputable def contFeedbackPscore (a : ContFitArgs) : Py Unit :=
  if a.pscore.isNone then .ok () else do
    checkArray1 a.pscore
    let c0 ← a.context.rows0
    let a0 ← a.action.shape0
    let r0 ← a.reward.shape0
    let p0 ← a.pscore.shape0
    raiseIf (¬ (c0 = a0 ∧ a0 = r0 ∧ r0 = p0)) .valueError
    raiseIf (a.pscore.vals.any fun p => decide (p ≤ 0)) .valueError

/-- `check_continuous_bandit_feedback_inputs` (`obp/utils.py:472-533`). -/
noncomputable def checkContinuousFeedback (a : ContFitArgs) : Py Unit := do
  let _ ← checkArray2 a.context
  checkArray1 a.action
  checkArray1 a.reward
  contFeedbackExpected a
  contFeedbackPscore a

/-- The data part of `QFuncEstimatorForContinuousAction.fit` (`obp/policy/offline_continuous.py:936-945, 871-914`):
`np.c_` raises ValueError for different lengths, the dataset (`:1094-1096`) AssertionError. The result is the list of
training features and rewards, the items of the dataset (`:1098-1105`). -/
noncomputable def qContPrepare (dimContext : ℕ) (a : ContFitArgs) : Py (List (List ℝ × ℝ)) := do
  checkContinuousFeedback { a with expectedReward := .none, pscore := .none }
  let c ← checkArray2 a.context
  raiseIf (c.d ≠ dimContext) .valueError
  let acts := a.action.vals
  raiseIf (c.n ≠ acts.length) .valueError
  let feature := List.zipWith (fun x y => x ++ [y]) (List.ofFn fun i => List.ofFn (c.val i)) acts
  raiseIf (feature.length ≠ a.reward.vals.length) .assertionError
  pure (feature.zip a.reward.vals)

/-- `QFuncEstimatorForContinuousAction.predict` (`obp/policy/offline_continuous.py:1022-1054`). `net` is the network as a
function of the features of one round; `torch.cat` raises RuntimeError for different lengths. -/
noncomputable def qContPredict (dimContext : ℕ) (net : List ℝ → ℝ) (context : Arg2 ℝ) (action : Arg1 ℝ) : Py (List ℝ) := do
  let c ← checkArray2 context
  checkArray1 action
  raiseIf (c.d ≠ dimContext) .valueError
  raiseIf (c.n ≠ action.vals.length) .runtimeError
  pure ((List.zipWith (fun x y => x ++ [y]) (List.ofFn fun i => List.ofFn (c.val i)) action.vals).map net)

/-- The reward model is fitted first unless the method is `"ipw"` (`obp/policy/offline_continuous.py:429-435`). -/
noncomputable def pgQPrepare (m : PgMethod) (dimContext : ℕ) (a : ContFitArgs) : Py Unit :=
  match m with
  | .ipw => .ok ()
  | _ => do
    let _ ← qContPrepare dimContext a
    pure ()

/-- The data part of `ContinuousNNPolicyLearner.fit` (`obp/policy/offline_continuous.py:414-435, 464-469, 342-347`,
`:1066-1084`): the rounds handed to the training loop. Propensities default to one. -/
noncomputable def contFitPrepare (m : PgMethod) (dimContext : ℕ) (a : ContFitArgs) : Py (List ContRow) := do
  checkContinuousFeedback { a with expectedReward := .none }
  let c ← checkArray2 a.context
  raiseIf (c.d ≠ dimContext) .valueError
  let ps := if a.pscore.isNone then a.action.vals.map fun _ => 1 else a.pscore.vals
  pgQPrepare m dimContext a
  raiseIf (¬ (c.n = a.action.vals.length ∧ a.action.vals.length = a.reward.vals.length ∧
    a.reward.vals.length = ps.length)) .assertionError
  pure (List.zipWith (fun (x : List ℝ × ℝ) (y : ℝ × ℝ) => ⟨x.1, x.2, y.1, y.2⟩)
    ((List.ofFn fun i => List.ofFn (c.val i)).zip a.action.vals) (a.reward.vals.zip ps))

end Obp
