import Verif.Model.Offline
import Verif.Model.NeuralNet
import Verif.Model.Simulator

/-!
# `fit` of the neural learners

Training data of `NNPolicyLearner.fit` and `QFuncEstimator.fit`, and the training loop, which is the same in
`obp/policy/offline.py:1128-1199`, `:1791-1838` and `obp/policy/offline_continuous.py:464-520`, `:975-1020`. The
optimiser is a parameter. -/

namespace Obp

section data
variable {K : Type} [Field K] [LinearOrder K]

/-- One round of the data sets `NNPolicyDataset` and `QFuncEstimatorDataset` (`obp/policy/offline.py:1867-1920`). Positions
are in the former but not used by the training; the latter has no propensities. -/
structure FitRow (K : Type) where
  x : List K
  action : ℤ
  reward : K
  pscore : K
  deriving DecidableEq

/-- `QFuncEstimator.fit` up to the data set (`obp/policy/offline.py:1752-1761, 1694-1698, 1910`): contexts, actions and
rewards. -/
def qFitData (dimContext : ℕ) (b : BanditArgs K) : Py (List (List K × ℤ × K)) := do
  checkBanditFeedbackInputs { context := b.context, action := b.action, reward := b.reward }
  let c ← checkArray2 b.context
  raiseIf (c.d ≠ dimContext) .valueError
  let acts ← b.action.ints
  raiseIf (¬ (c.n = acts.length ∧ acts.length = b.reward.vals.length)) .assertionError
  pure ((List.ofFn fun i => List.ofFn (c.val i)).zip (acts.zip b.reward.vals))

/-- `torch.from_numpy(position)` (`obp/policy/offline.py:1090-1091, 1001`): the number of positions; `None` is refused unless
there is one position. -/
def fitPositions (lenList n : ℕ) (position : Arg1 K) : Py ℕ :=
  if lenList = 1 then .ok n
  else if position.isNone then .error .typeError
  else position.shape0

/-- `np.ones_like(action) / self.n_actions` or the given propensities (`obp/policy/offline.py:1088-1089`). -/
def fitPscores (nActions : ℕ) (acts : List ℤ) (pscore : Arg1 K) : Py (List K) :=
  if pscore.isNone then acts.mapM fun _ => npDiv 1 (nActions : K) else .ok pscore.vals

/-- The objectives for which `fit` trains the reward model first (`obp/policy/offline.py:1094`). -/
def Objective.needsQ : Objective → Bool
  | .dm => true
  | .dr => true
  | _ => false

/-- `NNPolicyLearner.fit` up to the data set (`obp/policy/offline.py:1077-1099, 996-1002, 1877-1885`): the data of the reward
model, if it is trained, and the rounds of the policy. -/
def nnFitData (obj : Objective) (nActions lenList dimContext : ℕ) (b : BanditArgs K) :
    Py (Option (List (List K × ℤ × K)) × List (FitRow K)) := do
  checkBanditFeedbackInputs { context := b.context, action := b.action, reward := b.reward
                              position := b.position, pscore := b.pscore }
  let c ← checkArray2 b.context
  raiseIf (c.d ≠ dimContext) .valueError
  let acts ← b.action.ints
  let ps ← fitPscores nActions acts b.pscore
  let q ← (if obj.needsQ then (do let d ← qFitData dimContext b; pure (some d)) else .ok none)
  let pos ← fitPositions lenList acts.length b.position
  raiseIf (¬ (c.n = acts.length ∧ acts.length = b.reward.vals.length ∧ b.reward.vals.length = ps.length ∧
    ps.length = pos)) .assertionError
  pure (q, List.zipWith (fun (x : List K × ℤ) (y : K × K) => ⟨x.1, x.2, y.1, y.2⟩)
    ((List.ofFn fun i => List.ofFn (c.val i)).zip acts) (b.reward.vals.zip ps))

end data

section loop
variable {S R F : Type}

/-- The mini-batches of a `torch.utils.data.DataLoader` that visits `xs` in this order (library behaviour,
`drop_last=False`). -/
def miniBatches (b : ℕ) (xs : List R) : List (List R) :=
  (List.range ((xs.length + b - 1) / b)).map fun k => (xs.drop (k * b)).take b

/-- The random choices of `fit`: the permutation of `random_split` and the orders in which the loaders visit the training
and the validation rounds in each epoch (`obp/policy/offline.py:1012-1032`). -/
structure FitDraws where
  split : List ℕ
  trainOrder : ℕ → List ℕ
  validOrder : ℕ → List ℕ

/-- The elements at the given places. -/
def rowsAt (xs : List R) (idx : List ℕ) : List R := idx.filterMap fun i => xs[i]?

/-- `_create_train_data_for_opl`, `_create_train_data_for_q_func_estimation` (`obp/policy/offline.py:1004-1034`,
`:1700-1730`): training and validation rounds; sizes as in `splitSizes`. -/
def splitRows {K : Type} [Field K] [LinearOrder K] [IsStrictOrderedRing K] [FloorRing K] (frac : K) (early : Bool)
    (split : List ℕ) (rows : List R) : Py (List R × List R) := do
  let sz ← splitSizes rows.length frac early
  match sz with
  | (_, none) => pure (rows, [])
  | (t, some v) => pure (rowsAt rows (split.take t), rowsAt rows ((split.drop t).take v))

/-- The local variables of the loop that concern the training. -/
structure FitState (S F : Type) where
  net : S
  steps : ℕ
  notImproving : ℕ
  previous : Option F

/-- The counter after a step with loss `l`; `low l p` is `l - p < tol`
(`obp/policy/offline.py:1162-1166, 1192-1196`). -/
def fitCount (low : F → F → Bool) (previous : Option F) (count : ℕ) (l : F) : ℕ :=
  match previous with
  | none => count
  | some p => if low l p then count + 1 else 0

/-- The inner loop over the training batches (`obp/policy/offline.py:1139-1169`): `loss` may raise, `step` is
`backward` and the step of the optimiser. -/
def trainPass (loss : S → List R → Py F) (step : S → List R → S) (low : F → F → Bool) (nic : ℕ) :
    List (List R) → FitState S F → Py (FitState S F)
  | [], s => .ok s
  | b :: bs, s => do
    let l ← loss s.net b
    let net := step s.net b
    let c := fitCount low s.previous s.notImproving l
    if nic ≤ c then pure { s with net := net, steps := s.steps + 1, notImproving := c }
    else trainPass loss step low nic bs { net := net, steps := s.steps + 1, notImproving := c, previous := some l }

/-- The inner loop over the validation batches (`obp/policy/offline.py:1173-1199`): counter and previous loss. -/
def validPass (loss : S → List R → Py F) (low : F → F → Bool) (nic : ℕ) (net : S) :
    List (List R) → ℕ × Option F → Py (ℕ × Option F)
  | [], v => .ok v
  | b :: bs, v => do
    let l ← loss net b
    let c := fitCount low v.2 v.1 l
    if nic < c then pure (c, v.2) else validPass loss low nic net bs (c, some l)

/-- The loop over the epochs (`obp/policy/offline.py:1137-1199`); `e` is the number of the epoch. -/
def fitLoop (loss : S → List R → Py F) (step : S → List R → S) (low : F → F → Bool) (nic : ℕ) (early : Bool)
    (train valid : ℕ → List (List R)) : ℕ → ℕ → FitState S F → ℕ × Option F → Py (FitState S F)
  | 0, _, s, _ => .ok s
  | m + 1, e, s, v => do
    let s' ← trainPass loss step low nic (train e) s
    let v' ← (if early then validPass loss low nic s'.net (valid e) v else .ok v)
    fitLoop loss step low nic early train valid m (e + 1) s' v'

/-- The part of `fit` after the data set is built: split, loaders and training (`obp/policy/offline.py:1128-1199`).
`batch = none` is `"auto"`. A loader refuses batch size 0, and to shuffle no rounds (library behaviour). Without `shuffle`
the loaders go through the rounds in order. -/
def fitNetwork {K : Type} [Field K] [LinearOrder K] [IsStrictOrderedRing K] [FloorRing K]
    (loss : S → List R → Py F) (step : S → List R → S) (low : F → F → Bool) (batch : Option ℕ) (frac : K)
    (early shuffle : Bool) (nic maxIter : ℕ) (draws : FitDraws) (rows : List R) (net : S) : Py (FitState S F) := do
  let b := batch.getD (autoBatch rows.length)
  let tv ← splitRows frac early draws.split rows
  raiseIf (b = 0) .valueError
  raiseIf (shuffle && tv.1.isEmpty) .valueError
  let train := fun e => miniBatches b (if shuffle then rowsAt tv.1 (draws.trainOrder e) else tv.1)
  let valid := fun e => miniBatches b (if shuffle then rowsAt tv.2 (draws.validOrder e) else tv.2)
  fitLoop loss step low nic early train valid maxIter 0
    { net := net, steps := 0, notImproving := 0, previous := none } (0, none)

end loop

section losses

/-- `mse_loss(r, q_hat)` of a mini-batch of `QFuncEstimator` (`obp/policy/offline.py:1808-1809`): the output of the network
for the logged action; IndexError when it has no such output. -/
noncomputable def qBatchLoss (net : List ℝ → Py (List ℝ)) (rows : List (List ℝ × ℤ × ℝ)) : Py ℝ := do
  let es ← rows.mapM fun r => do
    let out ← net r.1
    let q ← npIndex out r.2.1
    pure ((r.2.2 - q) ^ 2)
  npMean es

/-- `QFuncEstimator.predict` (`obp/policy/offline.py:1857-1864`); `check_tensor` (`obp/utils.py:179-207`) is the check of
`check_array` for tensors. -/
noncomputable def qNetPredict (dimContext : ℕ) (net : List ℝ → Py (List ℝ)) (context : Arg2 ℝ) : Py (List (List ℝ)) := do
  let c ← checkArray2 context
  raiseIf (c.d ≠ dimContext) .valueError
  (List.ofFn fun i => List.ofFn (c.val i)).mapM net

end losses

end Obp
