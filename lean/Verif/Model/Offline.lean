import Verif.Model.Regression
import Mathlib.Analysis.SpecialFunctions.Log.Basic
import Mathlib.Algebra.Order.Floor.Ring

/-!
# Model of `obp/policy/offline.py`

Classifiers, regressors and networks are parameters. Random numbers (Gumbel noise) and the way
`np.argsort` resolves ties are parameters too.
-/

namespace Obp

section
variable {K : Type} [Field K] [LinearOrder K] {M : Type}

/-! ### constructors -/

/-- The attributes of a `BaseOfflinePolicyLearner`. -/
structure OfflineConfig where
  nActions : ℕ
  lenList : ℕ

/-- `obp/policy/base.py:164-167` `BaseOfflinePolicyLearner.__post_init__` -/
def mkOffline (nActions lenList : PyScalar K) : Py OfflineConfig := do
  let n ← checkIntMin 2 nActions
  let l ← checkIntMin 1 lenList
  raiseIf (n < l) .valueError
  pure ⟨n.toNat, l.toNat⟩

/-- `obp/policy/offline.py:64-75` `IPWLearner.__post_init__`; `isClassifier = none` means that no
`base_classifier` is given. -/
def mkIpwLearner (nActions lenList : PyScalar K) (isClassifier : Option Bool) : Py OfflineConfig := do
  let c ← mkOffline nActions lenList
  raiseIf (isClassifier = some false) .valueError
  pure c

/-- `obp/policy/offline.py:375-386` `QLearner.__post_init__`: builds the `RegressionModel`; `isEstimator`
says whether `base_model` is a `BaseEstimator` (the default `None` is not). -/
def mkQLearner (nActions lenList : PyScalar K) (method : String) (isEstimator : Bool) : Py (RegConfig K) := do
  let _ ← mkOffline nActions lenList
  mkRegression nActions lenList .none method isEstimator

/-! ### one-hot outputs -/

/-- `np.argmax` of a row: the first index of a largest entry; ValueError when the row is empty. -/
def npArgmax : List K → Py ℕ
  | [] => .error .valueError
  | x :: xs => .ok ((x :: xs).findIdx fun y => decide (∀ z ∈ x :: xs, z ≤ y))

/-- `check_scalar(tau, name="tau", target_type=(int, float), min_val=0)`. Infinite and NaN temperatures
pass the check in the code; here they are reported as non-finite at once. -/
def checkTau : PyScalar K → Py K
  | .int z => if z < 0 then .error .valueError else .ok (z : K)
  | .bool b => .ok (if b then 1 else 0)
  | .flt x => if x < 0 then .error .valueError else .ok x
  | .negInf => .error .valueError
  | .inf => .error .nonFinite
  | .nan => .error .nonFinite
  | .other => .error .typeError

/-! ### `IPWLearner` -/

/-- A scikit-learn classifier as used by `IPWLearner`: `fit(X, y, sample_weight)`, one entry of
`predict(X)` and one row of `predict_proba(X)`. -/
structure WClassifier (M K : Type) where
  fit : M → List (List K) → List ℤ → List K → Py M
  predict : M → List K → ℤ
  proba : M → List K → List K

/-- One round of training data. -/
structure IpwRow (K : Type) where
  x : List K
  action : ℤ
  reward : K
  pscore : K
  position : ℤ

/-- `obp/policy/offline.py:164-168`, `:434-436`: propensities default to `1 / (action.max() + 1)`. -/
def defaultPscore (acts : List ℤ) (pscore : Arg1 K) : Py (List K) :=
  if pscore.isNone then do
    let m ← npMax acts
    acts.mapM fun _ => npDiv 1 ((m : K) + 1)
  else pure pscore.vals

/-- `obp/policy/offline.py:169-173`, `:437-441`: positions are ignored with one slot and mandatory
otherwise. -/
def offlinePositions (lenList n : ℕ) (position : Arg1 K) : Py (List ℤ) :=
  if lenList = 1 then .ok (List.replicate n 0)
  else if position.isNone then .error .valueError
  else position.ints

/-- `obp/policy/offline.py:153-173` `IPWLearner.fit`: validation and defaults, and the data as rows. The
columns have `n` entries each by validation, so the default of `getD` is not used. -/
def ipwLearnerPrepare (cfg : OfflineConfig) (a : RegArgs K) : Py (Rounds (IpwRow K)) := do
  checkBanditFeedbackInputs { context := a.context, action := a.action, reward := a.reward
                              position := a.position, pscore := a.pscore }
  let ctx ← checkArray2 a.context
  let acts ← a.action.ints
  raiseIf (a.reward.vals.any fun r => r < 0) .valueError
  let ps ← defaultPscore acts a.pscore
  let pos ← offlinePositions cfg.lenList ctx.n a.position
  pure ⟨ctx.n, fun i =>
    { x := List.ofFn (ctx.val i), action := acts.getD i 0, reward := a.reward.vals.getD i 0
      pscore := ps.getD i 0, position := pos.getD i 0 }⟩

/-- `obp/policy/offline.py:106`, `:175-182`: the classifier of position `p`; scikit-learn rejects an empty
training set with ValueError. -/
def ipwLearnerFitPosition (clf : WClassifier M K) (rows : List (IpwRow K)) (p : ℕ) (m : M) : Py M := do
  let at_ := rows.filter fun r => r.position = (p : ℤ)
  let ws ← at_.mapM fun r => npDiv r.reward r.pscore
  raiseIf (at_.length = 0) .valueError
  clf.fit m (at_.map (·.x)) (at_.map (·.action)) ws

/-- `obp/policy/offline.py:109-182` `IPWLearner.fit`. Rounds at positions beyond the list are in no
training set. The classifiers before a failing one keep their new state in the code; here a failure is
just the exception. -/
def ipwLearnerFit (clf : WClassifier M K) (cfg : OfflineConfig) (a : RegArgs K)
    (ms : Fin cfg.lenList → M) : Py (Fin cfg.lenList → M) := do
  let data ← ipwLearnerPrepare cfg a
  (List.finRange cfg.lenList).foldlM (fun ms (p : Fin _) => do
    let m ← ipwLearnerFitPosition clf (List.ofFn data.get) p.val (ms p)
    pure (Function.update ms p m)) ms

/-- `obp/policy/offline.py:208-216`, one entry: `action_dist[i, predicted, p] += 1` on a zero array. The
`+= 1` on distinct rounds and positions is an assignment of 1. -/
def ipwPredictEntry (clf : WClassifier M K) (A : ℕ) (m : M) (x : List K) : Py (Fin A → K) :=
  match wrapIdx A (clf.predict m x) with
  | some b => .ok fun a => if a = b then 0 + 1 else 0
  | none => .error .indexError

/-- `obp/policy/offline.py:204-217` `IPWLearner.predict` -/
def ipwPredict (clf : WClassifier M K) (cfg : OfflineConfig) (ms : Fin cfg.lenList → M) (context : Arg2 K) :
    Py (List (Fin cfg.nActions → Fin cfg.lenList → K)) := do
  let ctx ← checkArray2 context
  (List.ofFn fun i => List.ofFn (ctx.val i)).mapM fun x => do
    let cols ← (List.finRange cfg.lenList).mapM fun p => ipwPredictEntry clf cfg.nActions (ms p) x
    pure fun a p => (cols.getD p fun _ => 0) a

/-- `obp/policy/offline.py:238-241`, one row: `score_predicted[:, :, p] = predict_proba(context)`; numpy
broadcasts a single column and otherwise requires as many columns as actions. -/
def ipwScoreEntry (clf : WClassifier M K) (A : ℕ) (m : M) (x : List K) : Py (Fin A → K) :=
  let row := clf.proba m x
  if row.length = A then .ok fun a => row.getD a 0
  else if row.length = 1 then .ok fun _ => row.getD 0 0
  else .error .valueError

/-- `obp/policy/offline.py:233-242` `IPWLearner.predict_score` -/
def ipwScore (clf : WClassifier M K) (cfg : OfflineConfig) (ms : Fin cfg.lenList → M) (context : Arg2 K) :
    Py (List (Fin cfg.nActions → Fin cfg.lenList → K)) := do
  let ctx ← checkArray2 context
  (List.ofFn fun i => List.ofFn (ctx.val i)).mapM fun x => do
    let cols ← (List.finRange cfg.lenList).mapM fun p => ipwScoreEntry clf cfg.nActions (ms p) x
    pure fun a p => (cols.getD p fun _ => 0) a

/-! ### sampling of rankings -/

/-- One round of `scores.mean(2) / tau + gumbel`; division by a zero temperature is not finite. -/
def perturbedScores {A L : ℕ} (score : Fin A → Fin L → K) (tau : K) (noise : Fin A → K) :
    Py (Fin A → K) := do
  let ms ← (List.finRange A).mapM fun a => do
    let s ← npMean (List.ofFn (score a))
    npDiv s tau
  pure fun a => ms.getD a 0 + noise a

/-- `ranking[i, p]` as an index of the action axis: IndexError when out of bounds. -/
def rankedAction (A : ℕ) (ranking : List ℕ) (p : ℕ) : Py (Fin A) :=
  match ranking[p]? with
  | some b => if h : b < A then .ok ⟨b, h⟩ else .error .indexError
  | none => .error .indexError

/-- One round of `np.argsort(-scores, axis=1)` followed by `out[i, ranking[i, p], p] = 1` for every
position `p`: IndexError when there are fewer actions than positions. -/
def rankingRow {A : ℕ} (argsort : List K → List ℕ) (L : ℕ) (score : Fin A → K) :
    Py (Fin A → Fin L → K) := do
  let chosen ← (List.finRange L).mapM fun p =>
    rankedAction A (argsort ((List.ofFn score).map fun x => -x)) p.val
  pure fun a p => if chosen[p.val]? = some a then 1 else 0

/-- `obp/policy/offline.py:288-299`, `:559-570`, `:1386-1401` `sample_action` once the scores are known
(`scores` has one more axis of length `L'`, the number of positions the scores are predicted for). -/
def sampleRankings {A L' : ℕ} (argsort : List K → List ℕ) (L : ℕ) (tau : PyScalar K)
    (scores : List (Fin A → Fin L' → K)) (noise : ℕ → Fin A → K) : Py (List (Fin A → Fin L → K)) := do
  let t ← checkTau tau
  scores.zipIdx.mapM fun s => do
    let perturbed ← perturbedScores s.1 t (noise s.2)
    rankingRow argsort L perturbed

/-- `obp/policy/offline.py:244-299` `IPWLearner.sample_action` -/
def ipwSampleAction (clf : WClassifier M K) (cfg : OfflineConfig) (ms : Fin cfg.lenList → M)
    (context : Arg2 K) (tau : PyScalar K) (argsort : List K → List ℕ) (noise : ℕ → Fin cfg.nActions → K) :
    Py (List (Fin cfg.nActions → Fin cfg.lenList → K)) := do
  let _ ← checkArray2 context
  let _ ← checkTau tau
  let scores ← ipwScore clf cfg ms context
  sampleRankings argsort cfg.lenList tau scores noise

/-! ### `QLearner` -/

/-- `obp/policy/offline.py:386-451` `QLearner.fit`: `np.ones((n, n_actions, len_list))` is passed as the
evaluation policy. -/
def qLearnerFit (lrn : Learner M K) (cfg : RegConfig K) (a : RegArgs K) (ms : Fin cfg.lenList → M) :
    Py (Fin cfg.lenList → M) := do
  checkBanditFeedbackInputs { context := a.context, action := a.action, reward := a.reward
                              position := a.position, pscore := a.pscore }
  let ctx ← checkArray2 a.context
  let acts ← a.action.ints
  let ps ← defaultPscore acts a.pscore
  let pos ← offlinePositions cfg.lenList ctx.n a.position
  cfg.fit lrn { context := a.context, action := a.action, reward := a.reward, pscore := .flt ps
                position := .int pos
                actionDist := .arr ⟨ctx.n, cfg.nActions, cfg.lenList, fun _ _ _ => 1⟩ } ms

/-- `obp/policy/offline.py:510-513` `QLearner.predict_score` -/
def qLearnerScore (lrn : Learner M K) (cfg : RegConfig K) (ms : Fin cfg.lenList → M) (context : Arg2 K) :
    Py (List (Fin cfg.nActions → Fin cfg.lenList → K)) := do
  let ctx ← checkArray2 context
  cfg.predictRows lrn ms (List.ofFn fun i => List.ofFn (ctx.val i))

/-- One round of `np.argmax(q_hat, axis=1)` and the assignment of 1 at the maximisers. -/
def argmaxRow {A L : ℕ} (q : Fin A → Fin L → K) : Py (Fin A → Fin L → K) := do
  let best ← (List.finRange L).mapM fun p => npArgmax (List.ofFn fun a => q a p)
  pure fun a p => if best[p.val]? = some a.val then 1 else 0

/-- `obp/policy/offline.py:484-494` `QLearner.predict` -/
def qLearnerPredict (lrn : Learner M K) (cfg : RegConfig K) (ms : Fin cfg.lenList → M) (context : Arg2 K)
    (tau : PyScalar K) : Py (List (Fin cfg.nActions → Fin cfg.lenList → K)) := do
  let _ ← checkArray2 context
  let _ ← checkTau tau
  let q ← qLearnerScore lrn cfg ms context
  q.mapM argmaxRow

/-- `obp/policy/offline.py:515-570` `QLearner.sample_action` -/
def qLearnerSampleAction (lrn : Learner M K) (cfg : RegConfig K) (ms : Fin cfg.lenList → M)
    (context : Arg2 K) (tau : PyScalar K) (argsort : List K → List ℕ) (noise : ℕ → Fin cfg.nActions → K) :
    Py (List (Fin cfg.nActions → Fin cfg.lenList → K)) := do
  let _ ← checkArray2 context
  let _ ← checkTau tau
  let scores ← qLearnerScore lrn cfg ms context
  sampleRankings argsort cfg.lenList tau scores noise

/-! ### `NNPolicyLearner`: prediction -/

/-- `obp/policy/offline.py:1431-1440` `NNPolicyLearner.predict_proba`: `net` is the network (its last
layer is a softmax) on one row of contexts. -/
def nnPredictProba {A : ℕ} (dimContext : ℕ) (net : List K → Fin A → K) (context : Arg2 K) :
    Py (List (Fin A → Fin 1 → K)) := do
  let ctx ← checkArray2 context
  raiseIf (ctx.d ≠ dimContext) .valueError
  pure (List.ofFn fun i => fun a _ => net (List.ofFn (ctx.val i)) a)

/-- `obp/policy/offline.py:1326-1340` `NNPolicyLearner.predict` -/
def nnPredict {A : ℕ} (dimContext : ℕ) (net : List K → Fin A → K) (context : Arg2 K) :
    Py (List (Fin A → Fin 1 → K)) := do
  let y ← nnPredictProba dimContext net context
  y.mapM argmaxRow

/-- `obp/policy/offline.py:1386-1401` `NNPolicyLearner.sample_action` -/
def nnSampleAction {A : ℕ} (dimContext L : ℕ) (net : List K → Fin A → K) (context : Arg2 K)
    (tau : PyScalar K) (argsort : List K → List ℕ) (noise : ℕ → Fin A → K) :
    Py (List (Fin A → Fin L → K)) := do
  let _ ← checkArray2 context
  let _ ← checkTau tau
  let scores ← nnPredictProba dimContext net context
  sampleRankings argsort L tau scores noise

/-! ### mini-batch training loops -/

/-- The local variables of a training loop: the number of optimiser steps done, the counter of steps
"not improving" and the previous loss. -/
structure TrainState (K : Type) where
  steps : ℕ
  notImproving : ℕ
  previous : Option K

/-- `obp/policy/offline.py:1162-1166`, `:1814-1818`: the counter after a step with loss `l`. -/
def nextCount (tol : K) (previous : Option K) (count : ℕ) (l : K) : ℕ :=
  match previous with
  | none => count
  | some prev => if l - prev < tol then count + 1 else 0

/-- `obp/policy/offline.py:1139-1169`, `:1806-1821` (and `offline_continuous.py`): the loop over the
`batches` mini-batches of an epoch. `loss k` is the loss computed before the `k`-th optimiser step.
A `break` leaves this loop only; it skips the update of the previous loss. -/
def trainEpoch (loss : ℕ → K) (tol : K) (nIterNoChange : ℕ) : ℕ → TrainState K → TrainState K
  | 0, s => s
  | b + 1, s =>
    let l := loss s.steps
    let c := nextCount tol s.previous s.notImproving l
    if nIterNoChange ≤ c then { s with steps := s.steps + 1, notImproving := c }
    else trainEpoch loss tol nIterNoChange b
      { steps := s.steps + 1, notImproving := c, previous := some l }

/-- `obp/policy/offline.py:1137-1169`: the loop over epochs. The validation part (`:1171-1199`) only
changes its own counters and is left out. -/
def trainLoop (loss : ℕ → K) (tol : K) (nIterNoChange batches : ℕ) : ℕ → TrainState K → TrainState K
  | 0, s => s
  | e + 1, s => trainLoop loss tol nIterNoChange batches e (trainEpoch loss tol nIterNoChange batches s)

/-- The variables before training (`obp/policy/offline.py:1133-1134`). -/
def trainInit : TrainState K := { steps := 0, notImproving := 0, previous := none }

/-- Sizes of the mini-batches of a `torch.utils.data.DataLoader` over `n` rounds (`drop_last=False`), `b` being
the batch size. -/
def batchSizes (n b : ℕ) : List ℕ :=
  List.replicate (n / b) b ++ if n % b = 0 then [] else [n % b]

/-- `obp/policy/offline.py:990-991`: `batch_size="auto"`. -/
def autoBatch (n : ℕ) : ℕ := min 200 n

/-- `check_scalar(validation_fraction, ..., float, max_val=1.0)` and the test `<= 0.0`
(`obp/policy/offline.py:892-898`). Nan passes both tests; the resulting `int(nan)` raises ValueError later, here at
once. -/
def checkFraction : PyScalar K → Py K
  | .flt x => if 1 < x then .error .valueError else if x ≤ 0 then .error .valueError else .ok x
  | .inf => .error .valueError
  | .negInf => .error .valueError
  | .nan => .error .valueError
  | _ => .error .typeError

/-- `obp/policy/offline.py:1004-1034`: sizes of the training and validation sets of `n` rounds; `frac` is
`validation_fraction`, `int` truncates. The product is exact here. -/
def splitSizes [IsStrictOrderedRing K] [FloorRing K] (n : ℕ) (frac : K) (earlyStopping : Bool) : Py (ℕ × Option ℕ) :=
  if earlyStopping then
    if n ≤ 1 then .error .valueError
    else .ok (n - max ⌊(n : K) * frac⌋₊ 1, some (max ⌊(n : K) * frac⌋₊ 1))
  else .ok (n, none)

end

section real

/-! ### choice probabilities -/

/-- One row of `softmax(score / tau, axis=1)` (`scipy.special.softmax` in `IPWLearner`,
`obp/utils.py:982-986` in `QLearner`): a softmax over the actions at every position. -/
noncomputable def softmaxRow {A L : ℕ} (t : ℝ) (score : Fin A → Fin L → ℝ) : Py (Fin A → Fin L → ℝ) := do
  let cols ← (List.finRange L).mapM fun p => do
    let logits ← (List.ofFn fun a => score a p).mapM fun s => npDiv s t
    softmaxWith Real.exp logits
  pure fun a p => (cols.getD p []).getD a 0

/-- `obp/policy/offline.py:339-347` `IPWLearner.predict_proba` -/
noncomputable def ipwPredictProba {M : Type} (clf : WClassifier M ℝ) (cfg : OfflineConfig)
    (ms : Fin cfg.lenList → M) (context : Arg2 ℝ) (tau : PyScalar ℝ) :
    Py (List (Fin cfg.nActions → Fin cfg.lenList → ℝ)) := do
  raiseIf (cfg.lenList ≠ 1) .assertionError
  let _ ← checkArray2 context
  let t ← checkTau tau
  let scores ← ipwScore clf cfg ms context
  scores.mapM (softmaxRow t)

/-- `obp/policy/offline.py:608-613` `QLearner.predict_proba` -/
noncomputable def qLearnerPredictProba {M : Type} (lrn : Learner M ℝ) (cfg : RegConfig ℝ)
    (ms : Fin cfg.lenList → M) (context : Arg2 ℝ) (tau : PyScalar ℝ) :
    Py (List (Fin cfg.nActions → Fin cfg.lenList → ℝ)) := do
  let _ ← checkArray2 context
  let t ← checkTau tau
  let scores ← qLearnerScore lrn cfg ms context
  scores.mapM (softmaxRow t)

/-! ### `NNPolicyLearner`: objectives -/

/-- `off_policy_objective` -/
inductive Objective
  | dm
  | ipw
  | dr
  | snipw
  | ipwOs
  | ipwSubgauss
  deriving DecidableEq

/-- One round of a mini-batch: logged action, reward, propensity and predicted rewards. -/
structure NnRow (A : ℕ) where
  action : Fin A
  reward : ℝ
  pscore : ℝ
  qHat : Fin A → ℝ

/-- `obp/policy/offline.py:1235-1279` `_estimate_policy_gradient`, one round: `detached` is
`current_pi` (the probabilities cut off from differentiation) and `pi` the probabilities that are
differentiated. Division by zero is 0 here and not finite in the code. -/
noncomputable def policyGradTerm {A : ℕ} (obj : Objective) (lambda_ : ℝ) (r : NnRow A)
    (detached pi : Fin A → ℝ) : ℝ :=
  let iw := detached r.action / r.pscore
  let logProb := Real.log (pi r.action)
  let dmTerm := ∑ a, r.qHat a * detached a * Real.log (pi a)
  match obj with
  | .dm => dmTerm
  | .ipw => iw * r.reward * logProb
  | .dr => iw * (r.reward - r.qHat r.action) * logProb + dmTerm
  | .snipw => iw * (r.reward - lambda_) * logProb
  | .ipwOs => (lambda_ - iw ^ 2) / (iw ^ 2 + lambda_) ^ 2 * (lambda_ * iw) * r.reward * logProb
  | .ipwSubgauss => (1 - lambda_) * iw / (1 - lambda_ + lambda_ * iw) ^ 2 * r.reward * logProb

/-- `torch.var` of a 1-D tensor (unbiased): NaN for a single entry. -/
noncomputable def torchVar (xs : List ℝ) : Py ℝ := do
  let m ← npMean xs
  npDiv (xs.map fun x => (x - m) ^ 2).sum ((xs.length : ℝ) - 1)

/-- `obp/policy/offline.py:1301-1304` `_estimate_policy_constraint`: logarithm of the mean weight. -/
noncomputable def policyConstraint {A : ℕ} (rows : List (NnRow A × (Fin A → ℝ))) : Py ℝ := do
  let iw ← rows.mapM fun s => npDiv (s.2 s.1.action) s.1.pscore
  let m ← npMean iw
  pure (Real.log m)

/-- `obp/policy/offline.py:1141-1157`: the loss of a mini-batch. -/
noncomputable def batchLoss {A : ℕ} (obj : Objective) (lambda_ policyReg varReg : ℝ)
    (rows : List (NnRow A × (Fin A → ℝ) × (Fin A → ℝ))) : Py ℝ := do
  let grad := rows.map fun s => policyGradTerm obj lambda_ s.1 s.2.1 s.2.2
  let c ← policyConstraint (rows.map fun s => (s.1, s.2.2))
  let m ← npMean grad
  let v ← torchVar grad
  pure (-m + policyReg * c + varReg * v)

end real

end Obp
