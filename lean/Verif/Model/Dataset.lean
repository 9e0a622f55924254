import Verif.Model.Utils
import Verif.Model.Regression
import Mathlib.Algebra.Order.Floor.Ring
import Mathlib.Algebra.Ring.Parity
import Mathlib.Algebra.Field.Rat
import Mathlib.Algebra.Group.Int.Even

/-!
# Model of `obp/dataset/`: logged data without slates

`multiclass.py`, `synthetic.py`, `synthetic_multi.py`, `synthetic_embed.py`, `real.py`.

Random draws, classifier predictions, `np.argsort` of random noise and the random train/evaluation
split are parameters; contexts are not modelled where nothing but their number matters.
-/

namespace Obp

section helpers
variable {K α : Type}

/-- `xs[i]` for a list of non-negative indices; IndexError when one is out of range. -/
def takeAt (xs : List α) (idx : List ℕ) : Py (List α) :=
  idx.mapM fun i => match xs[i]? with
    | some x => .ok x
    | none => .error .indexError

/-- `rows[np.arange(n), acts]` for non-negative `acts`. -/
def gather (rows : List (List α)) (acts : List ℕ) : Py (List α) :=
  (rows.zip acts).mapM fun p => match p.1[p.2]? with
    | some x => .ok x
    | none => .error .indexError

/-- `sklearn.utils.check_scalar(x, name, int, min_val=lo, max_val=hi)`: TypeError for anything that is not an
integer (Python's `bool` is one), ValueError out of the range. -/
def checkIntBetween (lo hi : ℤ) : PyScalar K → Py ℤ
  | .bool b => bound (if b then 1 else 0)
  | .int z => bound z
  | _ => .error .typeError
where
  bound (z : ℤ) : Py ℤ := do
    raiseIf (z < lo) .valueError
    raiseIf (hi < z) .valueError
    pure z

end helpers

/-! ### `MultiClassToBanditReduction` -/

section multiclass
variable {K : Type} [Field K] [LinearOrder K]

/-- `rankdata(y, "dense") - 1` at the label `y`: the number of smaller distinct labels
(`obp/dataset/multiclass.py:183`). -/
def denseRank (ys : List ℤ) (y : ℤ) : ℕ := ((npUnique ys).filter (· < y)).length

/-- One row of `self.y_full[np.arange(self.n_rounds), y] = 1`, indexed by the raw label with Python's wrap-around
(`obp/dataset/multiclass.py:185-186`). -/
def labelRow (A : ℕ) (y : ℤ) : Py (List K) :=
  match wrapIdx A y with
  | none => .error .indexError
  | some c => .ok (List.ofFn fun a : Fin A => if a = c then 1 else 0)

/-- `check_scalar(alpha, "alpha", float, min_val=0.0, max_val=hi)` (`obp/dataset/multiclass.py:171`, `:313`):
only floats are accepted. -/
def checkAlpha (hi : Option K) : PyScalar K → Py K
  | .flt x => do
      raiseIf (x < 0) .valueError
      raiseIf (match hi with | some h => decide (h < x) | none => false) .valueError
      pure x
  | .negInf => .error .valueError
  | .inf => .error .valueError
  | .nan => .error .nonFinite
  | _ => .error .typeError

/-- Constructor arguments of `MultiClassToBanditReduction` (`obp/dataset/multiclass.py:160-164`). `xyValid` says that
`check_X_y` accepts `X` and `y`. -/
structure MultiClassArgs (K : Type) where
  isClassifier : Bool
  alphaB : PyScalar K
  nDeficient : PyScalar K
  xyValid : Bool
  labels : Arg1 K

/-- The object after construction: number of actions (`obp/dataset/multiclass.py:193-196`), parameters, re-indexed labels and
full feedback. -/
structure MultiClassData (K : Type) where
  nActions : ℕ
  alphaB : K
  nDeficient : ℕ
  y : List ℕ
  yFull : List (List K)
  deriving DecidableEq

/-- `obp/dataset/multiclass.py:167-186` `__post_init__`. `alpha_b = inf` is rejected by `:179`, as in `checkAlpha`; a
nan `alpha_b` passes all the comparisons and makes the policy nan. Labels that are not integers cannot be used as
indices. -/
def mkMultiClass (a : MultiClassArgs K) : Py (MultiClassData K) := do
  raiseIf (a.isClassifier = false) .valueError
  let alpha ← checkAlpha none a.alphaB
  match a.labels with
  | .int ys => do
      let nDef ← checkIntBetween 0 (((npUnique ys).length : ℤ) - 1) a.nDeficient
      raiseIf (1 ≤ alpha) .valueError
      raiseIf (a.xyValid = false) .valueError
      let full ← ys.mapM (labelRow (npUnique ys).length)
      pure { nActions := (npUnique ys).length, alphaB := alpha, nDeficient := nDef.toNat,
             y := ys.map (denseRank ys), yFull := full }
  | .flt xs => do
      let _ ← checkIntBetween 0 ((xs.dedup.length : ℤ) - 1) a.nDeficient
      raiseIf (1 ≤ alpha) .valueError
      raiseIf (a.xyValid = false) .valueError
      .error .indexError
  | _ => .error .attributeError

/-- The evaluation part of the data after `split_train_eval` (`obp/dataset/multiclass.py:203-230`); `ev` are the row
numbers that `train_test_split` puts into the evaluation part. -/
structure MultiClassEval (K : Type) where
  nActions : ℕ
  alphaB : K
  nDeficient : ℕ
  yEv : List ℕ
  yFullEv : List (List K)
  deriving DecidableEq

/-- `obp/dataset/multiclass.py:203-230` `split_train_eval`. -/
def splitTrainEval (d : MultiClassData K) (ev : List ℕ) : Py (MultiClassEval K) := do
  let y ← takeAt d.y ev
  let full ← takeAt d.yFull ev
  pure { nActions := d.nActions, alphaB := d.alphaB, nDeficient := d.nDeficient, yEv := y, yFullEv := full }

/-- One row of the policy built from the prediction `pred` (`obp/dataset/multiclass.py:259-263`, `:325-329`). -/
def predictionRow (A : ℕ) (alpha : K) (pred : ℤ) : Py (List K) :=
  match wrapIdx A pred with
  | none => .error .indexError
  | some c => .ok (List.ofFn fun a : Fin A => if a = c then alpha + (1 - alpha) / A else (1 - alpha) / A)

/-- One row of `obp/dataset/multiclass.py:272-275`: the actions in `gone` get probability 0 and the row is
normalised. -/
def dropActions (row : List K) (gone : List ℕ) : Py (List K) :=
  let kept := row.mapIdx fun a p => if a ∈ gone then 0 else p
  kept.mapM fun p => npDiv p kept.sum

/-- One row of the behaviour policy (`obp/dataset/multiclass.py:259-275`); `order` is the argsort of the gumbel noise of
the round. -/
def multiBehaviorRow (A : ℕ) (alpha : K) (nDeficient : ℕ) (pred : ℤ) (order : List ℕ) : Py (List K) := do
  let row ← predictionRow A alpha pred
  if 0 < nDeficient then dropActions row (order.reverse.take nDeficient) else pure row

/-- The parts of the logged feedback that depend on the labels. -/
structure MultiClassFeedback (K : Type) where
  action : List ℕ
  reward : List K
  piB : List (List K)
  pscore : List K
  deriving DecidableEq

/-- `obp/dataset/multiclass.py:232-289` `obtain_batch_bandit_feedback`: `preds` are the predictions of the base
classifier, `orders` the argsorts of the gumbel noise, `us` the uniform draws of `sample_action_fast`. -/
def multiClassFeedback (d : MultiClassEval K) (preds : List ℤ) (orders : List (List ℕ)) (us : List K) :
    Py (MultiClassFeedback K) := do
  let pi ← (preds.zip orders).mapM fun p => multiBehaviorRow d.nActions d.alphaB d.nDeficient p.1 p.2
  let acts ← sampleActionFast pi us
  let rewards ← gather d.yFullEv acts
  let pscore ← gather pi acts
  pure { action := acts, reward := rewards, piB := pi, pscore := pscore }

/-- `obp/dataset/multiclass.py:291-330` `obtain_action_dist_by_eval_policy`: one row per evaluation round. -/
def evalActionDist (d : MultiClassEval K) (isClassifier : Bool) (alphaE : PyScalar K) (preds : List ℤ) :
    Py (List (List K)) := do
  let alpha ← checkAlpha (some 1) alphaE
  raiseIf (isClassifier = false) .assertionError
  preds.mapM (predictionRow d.nActions alpha)

/-- `obp/dataset/multiclass.py:332-353` `calc_ground_truth_policy_value`. -/
def multiGroundTruth (d : MultiClassEval K) (dist : Arg3 K) : Py K := do
  let w ← checkArray3 dist
  raiseIf (w.n ≠ d.yEv.length) .valueError
  let rows ← ((List.finRange w.n).zip d.yEv).mapM fun p =>
    if h : p.2 < w.A then .ok (List.ofFn (w.val p.1 ⟨p.2, h⟩)) else .error .indexError
  npMean rows.flatten

end multiclass

/-! ### `SyntheticBanditDataset` -/

section synthetic

/-- `row[idx] = vals` for a list of indices, one assignment after the other (indices in range). -/
def scatter {α : Type} (row : List α) (idx : List ℕ) (vals : List α) : List α :=
  (idx.zip vals).foldl (fun r p => r.set p.1 p.2) row

/-- One row of the behaviour policy of `obp/dataset/synthetic.py:348-363` (also `synthetic_multi.py:284-299`,
`synthetic_embed.py:294-308`); `order` is the argsort of the gumbel noise of the round. -/
noncomputable def syntheticBehaviorRow (beta : ℝ) (nDeficient : ℕ) (logits : List ℝ) (order : List ℕ) :
    Py (List ℝ) :=
  if 0 < nDeficient then do
    let supported := order.reverse.take (logits.length - nDeficient)
    let picked ← takeAt logits supported
    let p ← softmaxWith Real.exp (picked.map (beta * ·))
    pure (scatter (List.replicate logits.length 0) supported p)
  else softmaxWith Real.exp (logits.map (beta * ·))

/-- The parts of the logged feedback of synthetic data that concern actions and propensities. -/
structure SyntheticFeedback where
  action : List ℕ
  expectedReward : List (List ℝ)
  piB : List (List ℝ)
  pscore : List ℝ

/-- `obp/dataset/synthetic.py:339-381`, after the expected rewards have been computed: `behavior` is the array returned
by `behavior_policy_function` (if one is given), `orders` the argsorts of the gumbel noise, `us` the uniform draws of
`sample_action_fast`. Rewards are not part of the model. -/
noncomputable def syntheticFeedback (beta : ℝ) (nDeficient : ℕ) (expected : List (List ℝ))
    (behavior : Option (List (List ℝ))) (orders : List (List ℕ)) (us : List ℝ) : Py SyntheticFeedback := do
  let logits := behavior.getD expected
  let pi ← (logits.zip orders).mapM fun p => syntheticBehaviorRow beta nDeficient p.1 p.2
  let acts ← sampleActionFast pi us
  let pscore ← gather pi acts
  pure { action := acts, expectedReward := expected, piB := pi, pscore := pscore }

/-- The first numbers `np.random.RandomState(seed).uniform` returns. -/
def firstDraws (stream : ℕ → ℝ) (n : ℕ) : List ℝ := (List.range n).map stream

/-- A `SyntheticBanditDataset` with binary rewards. `stream` is what the generator of the seed `random_state` returns
from its start. Contexts are of an abstract type `C`. -/
structure SyntheticConfig (C : Type) where
  nActions : ℕ
  beta : ℝ
  nDeficient : ℕ
  rewardFunction : Option (List C → List (List ℝ))
  behaviorFunction : Option (List C → List (List ℝ))
  stream : ℕ → ℝ

/-- `calc_expected_reward` (`obp/dataset/synthetic.py:242-254`). Without a reward function the expected rewards are the
first draws of the generator, made by the constructor (`obp/dataset/synthetic.py:204`, `:216`, `:240`). -/
def SyntheticConfig.expectedReward {C : Type} (cfg : SyntheticConfig C) (contexts : List C) : List (List ℝ) :=
  match cfg.rewardFunction with
  | none => List.replicate contexts.length (firstDraws cfg.stream cfg.nActions)
  | some f => f contexts

/-- `obtain_batch_bandit_feedback` for the sampled `contexts` (`obp/dataset/synthetic.py:325-381`).
`sample_action_fast` is handed the seed and not the generator, so its uniform draws are the first draws of the seed's
stream in every batch (`obp/dataset/synthetic.py:365`, `obp/utils.py:109-110`). -/
noncomputable def SyntheticConfig.batch {C : Type} (cfg : SyntheticConfig C) (contexts : List C)
    (orders : List (List ℕ)) : Py SyntheticFeedback :=
  syntheticFeedback cfg.beta cfg.nDeficient (cfg.expectedReward contexts)
    (cfg.behaviorFunction.map fun f => f contexts) orders (firstDraws cfg.stream contexts.length)

end synthetic

section truth
variable {K : Type} [Field K] [LinearOrder K]

/-- `obp/dataset/synthetic.py:383-414` `calc_ground_truth_policy_value`. -/
def datasetGroundTruth (expected : Arg2 K) (dist : Arg3 K) : Py K := do
  let q ← checkArray2 expected
  let w ← checkArray3 dist
  raiseIf (q.n ≠ w.n) .valueError
  raiseIf (q.d ≠ w.A) .valueError
  if h : 0 < w.L then do
    let rows ← npAverageRows (List.ofFn fun i => List.ofFn (q.val i))
      (List.ofFn fun i => List.ofFn fun a => w.val i a ⟨0, h⟩)
    npMean rows
  else .error .indexError

/-- `expected_rewards.std()` enters as an argument: the square root is not a field operation.
`obp/dataset/synthetic.py:825-832`: `degree * (x - x.mean() / x.std())` with `z_score`. `flat` are the entries of the
reward matrix. -/
def zScoreRewards (degree : ℕ) (zScore : Bool) (std : K) (flat : List K) : Py (List K) := do
  if zScore then do
    let m ← npMean flat
    let s ← npDiv m std
    pure (flat.map fun x => degree * (x - s))
  else pure (flat.map fun x => degree * x)

/-- `obp/dataset/synthetic.py:974`: `degree * (x - x.mean()) / x.std()`. -/
def standardizeLogits (degree : ℕ) (std : K) (flat : List K) : Py (List K) := do
  let m ← npMean flat
  flat.mapM fun x => npDiv (degree * (x - m)) std

end truth

/-! ### `SyntheticMultiLoggersBanditDataset` -/

section multi
variable {K : Type} [Field K] [LinearOrder K] [FloorRing K]

/-- `np.round`: halves go to the even neighbour. -/
def roundHalfEven (x : K) : ℤ :=
  if Int.fract x < 1 / 2 then ⌊x⌋
  else if 1 / 2 < Int.fract x then ⌊x⌋ + 1
  else if Even ⌊x⌋ then ⌊x⌋ else ⌊x⌋ + 1

/-- `obp/dataset/synthetic_multi.py:198`: `np.array(self.rhos) / np.sum(self.rhos)`. -/
def normalizeRhos (rhos : List K) : Py (List K) := rhos.mapM fun r => npDiv r rhos.sum

/-- `obp/dataset/synthetic_multi.py:262-263`: the numbers of rounds of the strata; `len(betas)` of them (`:240-243`), which is
the number of entries of `rhos`. -/
def strataSizes (n : ℕ) (rhos : List K) : Py (List ℤ) :=
  let sizes := rhos.map fun r => roundHalfEven ((n : K) * r)
  match sizes.getLast? with
  | none => .error .indexError
  | some last => .ok (sizes.dropLast ++ [last + ((n : ℤ) - sizes.sum)])

/-- `obp/dataset/synthetic_multi.py:264-266`: the stratum of every round; `np.ones` of a negative length raises
ValueError. -/
def stratumIdx (sizes : List ℤ) : Py (List ℕ) := do
  raiseIf (sizes.any fun s => decide (s < 0)) .valueError
  pure (sizes.mapIdx fun k s => List.replicate s.toNat k).flatten

end multi

section multiPolicies

/-- One row of `pi_b_avg` (`obp/dataset/synthetic_multi.py:303-305`). -/
noncomputable def averagePolicyRow (betas rhos : List ℝ) (logits : List ℝ) : Py (List ℝ) :=
  (betas.zip rhos).foldlM (fun acc p => do
      let row ← softmaxWith Real.exp (logits.map (p.1 * ·))
      pure (List.zipWith (fun a x => a + p.2 * x) acc row))
    (List.replicate logits.length 0)

/-- The feedback of `SyntheticMultiLoggersBanditDataset`. -/
structure MultiLoggerFeedback where
  action : List ℕ
  stratum : List ℕ
  piB : List (List ℝ)
  piBAvg : List (List ℝ)
  pscore : List ℝ
  pscoreAvg : List ℝ

/-- `obp/dataset/synthetic_multi.py:282-299`: the behaviour policy row of a round in stratum `k`. With deficient actions
the temperature is `self.beta`, not the stratum's. -/
noncomputable def multiLoggerRow (beta : ℝ) (betas : List ℝ) (nDeficient : ℕ) (logits : List ℝ) (k : ℕ)
    (order : List ℕ) : Py (List ℝ) :=
  if 0 < nDeficient then syntheticBehaviorRow beta nDeficient logits order
  else match betas[k]? with
    | some b => softmaxWith Real.exp (logits.map (b * ·))
    | none => .error .indexError

/-- `obp/dataset/synthetic_multi.py:259-325` `obtain_batch_bandit_feedback`, given the expected rewards of the rounds. -/
noncomputable def multiLoggerFeedback (beta : ℝ) (betas rhos : List ℝ) (nDeficient : ℕ) (expected : List (List ℝ))
    (orders : List (List ℕ)) (us : List ℝ) : Py MultiLoggerFeedback := do
  let sizes ← strataSizes expected.length rhos
  let strat ← stratumIdx sizes
  let pi ← ((expected.zip strat).zip orders).mapM fun p => multiLoggerRow beta betas nDeficient p.1.1 p.1.2 p.2
  let acts ← sampleActionFast pi us
  let avg ← expected.mapM (averagePolicyRow betas rhos)
  let pscore ← gather pi acts
  let pscoreAvg ← gather avg acts
  pure { action := acts, stratum := strat, piB := pi, piBAvg := avg, pscore := pscore, pscoreAvg := pscoreAvg }

end multiPolicies

/-! ### `SyntheticBanditDatasetWithActionEmbeds` -/

section embed
variable {K : Type} [Field K] [LinearOrder K]

/-- `obp/dataset/synthetic_embed.py:221-223, 266-271`: the importance of the `nCatDim + 1` embedding dimensions; the first
`nIrrelevant + 1` have none, the others the draws `dir` of a Dirichlet distribution. -/
def catDimImportance (nCatDim nIrrelevant : ℕ) (dir : ℕ → K) : Fin (nCatDim + 1) → K := fun d =>
  if (d : ℕ) < nIrrelevant + 1 then 0 else dir (d - (nIrrelevant + 1))

/-- `obp/dataset/synthetic_embed.py:338-343`: the observed part of an embedding, with its first `nUnobserved + 1`
dimensions removed. -/
def observedEmbed {D E : ℕ} (nUnobserved : ℕ) (emb : Fin D → Fin E) : List ℕ :=
  (List.ofFn fun d => (emb d : ℕ)).drop (nUnobserved + 1)

/-- `obp/dataset/synthetic_embed.py:274-283`: the expected reward of an action, from those of the categories `q`, the
category probabilities `p` of the action and the importance `w` of the embedding dimensions. -/
def embedExpectedReward {E D : ℕ} (w : Fin D → K) (q : Fin E → Fin D → K) (p : Fin E → Fin D → K) : K :=
  ∑ d, (∑ e, q e d * p e d) * w d

/-- `obp/dataset/synthetic_embed.py:320-325`: the expected reward given the sampled embedding. -/
def embedFactualReward {E D : ℕ} (w : Fin D → K) (q : Fin E → Fin D → K) (emb : Fin D → Fin E) : K :=
  ∑ d, w d * q (emb d) d

/-- `obp/dataset/synthetic_embed.py:311-317`: the embedding of every round in dimension `d`, from the category
probabilities of the logged actions and the uniform draws `us` of the generator with seed `d`. -/
def sampleEmbed (pEA : List (List K)) (acts : List ℕ) (us : List K) : Py (List ℕ) := do
  let rows ← takeAt pEA acts
  sampleActionFast rows us

end embed

/-! ### `OpenBanditDataset` -/

section real
variable {K C : Type} [Field K] [LinearOrder K] [FloorRing K]

/-- The columns of the log after `load_raw_data` and `pre_process` (`obp/dataset/real.py:174-208`). The csv files,
the sorting by timestamp and the encoding of the features are not modelled. -/
structure ObdLog (K C : Type) where
  action : List ℕ
  position : List ℕ
  reward : List K
  pscore : List K
  context : List C
  deriving DecidableEq

/-- The logged feedback (`obp/dataset/real.py:254-263`). -/
structure ObdFeedback (K C : Type) where
  nRounds : ℕ
  nActions : ℕ
  cols : ObdLog K C
  deriving DecidableEq

/-- The columns restricted by a slicing or indexing of rows. -/
def ObdLog.rows (log : ObdLog K C) (f : ∀ {α : Type}, List α → List α) : ObdLog K C where
  action := f log.action
  position := f log.position
  reward := f log.reward
  pscore := f log.pscore
  context := f log.context

/-- `check_scalar(test_size, name="target_size", target_type=(float), min_val=0.0, max_val=1.0)`
(`obp/dataset/real.py:246-252`). -/
def checkTestSize : PyScalar K → Py K
  | .flt x => do
      raiseIf (x < 0) .valueError
      raiseIf (1 < x) .valueError
      pure x
  | .inf => .error .valueError
  | .negInf => .error .valueError
  | .nan => .error .nonFinite
  | _ => .error .typeError

/-- `n_actions` (`obp/dataset/real.py:108-111`). -/
def obdActions (log : ObdLog K C) : Py ℕ := do
  let m ← npMax log.action
  pure (m + 1)

/-- `obp/dataset/real.py:245-274`: the split in time. The product `n_rounds * (1.0 - test_size)` is exact here. -/
def obdSplit (log : ObdLog K C) (testSize : PyScalar K) : Py (ObdFeedback K C × ObdFeedback K C) := do
  let t ← checkTestSize testSize
  let nTrain := (⌊((log.action.length : K)) * (1 - t)⌋).toNat
  let nA ← obdActions log
  pure (⟨nTrain, nA, log.rows (List.take nTrain)⟩,
    ⟨log.action.length - nTrain, nA, log.rows (List.drop nTrain)⟩)

/-- `obp/dataset/real.py:276-285`: the whole log. -/
def obdWhole (log : ObdLog K C) : Py (ObdFeedback K C) := do
  let nA ← obdActions log
  pure ⟨log.action.length, nA, log⟩

/-- The rows `idx` of a column; all indices are in range where it is used. -/
def pickRows {α : Type} (idx : List ℕ) (xs : List α) : List α := idx.filterMap (xs[·]?)

/-- `obp/dataset/real.py:323-331`: the rounds a bootstrap sample is drawn from. -/
def obdBase (log : ObdLog K C) (testSize : PyScalar K) : Bool → Py (ObdFeedback K C)
  | true => do
      let p ← obdSplit log testSize
      pure p.1
  | false => obdWhole log

/-- `obp/dataset/real.py:333-342`: the number of sampled rounds. -/
def bootstrapSize (nRounds : ℕ) : Option (PyScalar K) → Py ℕ
  | none => .ok nRounds
  | some s => do
      let z ← checkIntBetween 0 nRounds s
      pure z.toNat

/-- `obp/dataset/real.py:287-355` `sample_bootstrap_bandit_feedback`: `choice n size` are the drawn row numbers. -/
def obdBootstrap (log : ObdLog K C) (testSize : PyScalar K) (timeSplit : Bool) (sampleSize : Option (PyScalar K))
    (choice : ℕ → ℕ → List ℕ) : Py (ObdFeedback K C) := do
  let fb ← obdBase log testSize timeSplit
  let size ← bootstrapSize fb.nRounds sampleSize
  pure ⟨size, fb.nActions, fb.cols.rows (pickRows (choice fb.nRounds size))⟩

/-- `obp/dataset/real.py:123-172` `calc_on_policy_policy_value_estimate`. -/
def obdOnPolicyValue (log : ObdLog K C) (testSize : PyScalar K) (timeSplit : Bool) : Py K := do
  let fb ← if timeSplit then (do let p ← obdSplit log testSize; pure p.2) else obdWhole log
  npMean fb.cols.reward

end real

end Obp
