import Verif.Model.Dataset
import Mathlib.Analysis.SpecialFunctions.Log.Basic

/-!
# Model of `obp/dataset/synthetic_slate.py`

Contexts enter only through the behaviour or evaluation policy logits and the base rewards computed
from them, which are parameters, as are the random draws. The progress bars are not modelled.
-/

namespace Obp

/-! ### policies -/

section policy

/-- `itertools.permutations(pool, L)` for a pool without repetition
(`obp/dataset/synthetic_slate.py:466-472, 913-915`). -/
def permutationsOf : ℕ → List ℕ → List (List ℕ)
  | 0, _ => [[]]
  | L + 1, pool => pool.flatMap fun a => (permutationsOf L (pool.erase a)).map (a :: ·)

/-- `itertools.product(pool, repeat=L)` (`obp/dataset/synthetic_slate.py:908-911`). -/
def productOf : ℕ → List ℕ → List (List ℕ)
  | 0, _ => [[]]
  | L + 1, pool => pool.flatMap fun a => (productOf L pool).map (a :: ·)

/-- `xs[j]` of a list; IndexError out of range. -/
def entryAt {α : Type} (xs : List α) (j : ℕ) : Py α :=
  match xs[j]? with
  | some x => .ok x
  | none => .error .indexError

/-- `np.where(unique_action_set == action_)[0][0]` (`obp/dataset/synthetic_slate.py:495`). -/
def whereFirst (set : List ℕ) (a : ℕ) : Py ℕ :=
  match set.idxOf? a with
  | some j => .ok j
  | none => .error .indexError

/-- `softmax(logit[i : i + 1, unique_action_set])[0]` (`obp/dataset/synthetic_slate.py:491, 504-506`). -/
noncomputable def slateScores (logits : List ℝ) (set : List ℕ) : Py (List ℝ) := do
  let row ← takeAt logits set
  softmaxWith Real.exp row

/-- `score_[action_index_]` (`obp/dataset/synthetic_slate.py:495-497`). -/
noncomputable def slateScore (logits : List ℝ) (set : List ℕ) (a : ℕ) : Py ℝ := do
  let score ← slateScores logits set
  let j ← whereFirst set a
  entryAt score j

/-- The actions left after choosing `a` (`obp/dataset/synthetic_slate.py:500-503`); after the last position the code
does not remove the action, but the set is not used again. -/
def slateRemaining (fact : Bool) (set : List ℕ) (a : ℕ) : List ℕ :=
  if fact then set else set.filter (· ≠ a)

/-- `obp/dataset/synthetic_slate.py:490-506`: the values of `pscore_cascade` of one round; the last is the joint
propensity `pscore_i`. -/
noncomputable def slateCascade (logits : List ℝ) (fact : Bool) : List ℕ → ℝ → List ℕ → Py (List ℝ)
  | _, _, [] => .ok []
  | set, p, a :: rest => do
      let s ← slateScore logits set a
      let tail ← slateCascade logits fact (slateRemaining fact set a) (p * s) rest
      pure (p * s :: tail)

/-- `_calc_pscore_given_policy_logit` and `_calc_pscore_given_policy_softmax`
(`obp/dataset/synthetic_slate.py:357-375, 396-415`) for one of the slates: `scores set` are the probabilities of the
remaining actions. The code treats all slates at once; an action that does not remain, which cannot happen for
enumerated slates, is modelled as IndexError. -/
noncomputable def slateProduct (scores : List ℕ → Py (List ℝ)) : List ℕ → ℝ → List ℕ → Py ℝ
  | _, p, [] => .ok p
  | set, p, a :: rest => do
      let score ← scores set
      let j ← whereFirst set a
      let s ← entryAt score j
      slateProduct scores (set.eraseIdx j) (p * s) rest

/-- `np.divide(score_, score_.sum(axis=1, keepdims=True))` (`obp/dataset/synthetic_slate.py:403-404`). -/
noncomputable def normalizedScores (weights : List ℝ) (set : List ℕ) : Py (List ℝ) := do
  let row ← takeAt weights set
  row.mapM fun x => npDiv x row.sum

/-- The scores used for the enumerated slates: with `clip_logit_value` the exponentials of the clipped logits,
normalised, else the softmax (`obp/dataset/synthetic_slate.py:482-484, 514-523`). -/
noncomputable def enumeratedScores (clip : Option ℝ) (logits : List ℝ) : List ℕ → Py (List ℝ) :=
  match clip with
  | some c => normalizedScores (logits.map fun l => Real.exp (min l c))
  | none => slateScores logits

/-- `pscores[enumerated_slate_actions[:, pos_] == action_].sum()` (`obp/dataset/synthetic_slate.py:513-526`). -/
noncomputable def itemPositionSum (A L : ℕ) (clip : Option ℝ) (logits : List ℝ) (pos a : ℕ) : Py ℝ := do
  let slates := permutationsOf L (List.range A)
  let ps ← slates.mapM fun s => slateProduct (enumeratedScores clip logits) (List.range A) 1 s
  pure (((slates.zip ps).filter fun x => decide (x.1[pos]? = some a)).map (·.2)).sum

/-- The item-position propensity of the action `a` at `pos`; `c` is the running product at `pos`
(`obp/dataset/synthetic_slate.py:508-527`). -/
noncomputable def itemPosition (A L : ℕ) (fact : Bool) (clip : Option ℝ) (logits : List ℝ) (pos a : ℕ) (c : ℝ) :
    Py ℝ :=
  if pos = 0 then .ok c
  else if fact then slateScore logits (List.range A) a
  else itemPositionSum A L clip logits pos a

/-- The three propensities of a round. -/
structure SlatePscores where
  joint : ℝ
  item : List ℝ
  cascade : List ℝ

/-- `obp/dataset/synthetic_slate.py:490-531`: one round of `obtain_pscore_given_evaluation_policy_logit` with
`return_pscore_item_position=True`. -/
noncomputable def slatePscores (A L : ℕ) (fact : Bool) (clip : Option ℝ) (logits : List ℝ) (slate : List ℕ) :
    Py SlatePscores := do
  let cascade ← slateCascade logits fact (List.range A) 1 slate
  let item ← (slate.zip cascade).zipIdx.mapM fun x => itemPosition A L fact clip logits x.2 x.1.1 x.1.2
  pure ⟨cascade.getLastD 1, item, cascade⟩

/-- `check_scalar(clip_logit_value, name=..., target_type=(float), max_val=700.0)`
(`obp/dataset/synthetic_slate.py:475-481`); a clip value of `-inf` or `nan` leaves no finite score. -/
noncomputable def checkClip : Option (PyScalar ℝ) → Py (Option ℝ)
  | none => .ok none
  | some (.flt c) => if 700 < c then .error .valueError else .ok (some c)
  | some .inf => .error .valueError
  | some .negInf => .error .nonFinite
  | some .nan => .error .nonFinite
  | some _ => .error .typeError

/-- The slate of round `i`, `action[i * len_list + pos_]` (`obp/dataset/synthetic_slate.py:494`). -/
def slateOf (L : ℕ) (action : List ℕ) (i : ℕ) : List ℕ := (action.drop (i * L)).take L

/-- `obp/dataset/synthetic_slate.py:417-533` `obtain_pscore_given_evaluation_policy_logit` with
`return_pscore_item_position=True`: `pscore`, `pscore_item_position` and `pscore_cascade`, flattened. -/
noncomputable def obtainSlatePscores (A L : ℕ) (fact : Bool) (clip : Option (PyScalar ℝ)) (action : List ℕ)
    (logits : List (List ℝ)) : Py (List ℝ × List ℝ × List ℝ) := do
  raiseIf (decide (action.length ≠ L * logits.length)) .valueError
  raiseIf (logits.any fun r => decide (r.length ≠ A)) .valueError
  let c ← checkClip clip
  let rows ← logits.zipIdx.mapM fun x => slatePscores A L fact c x.1 (slateOf L action x.2)
  pure ((rows.map fun r => List.replicate L r.joint).flatten, (rows.map (·.item)).flatten,
    (rows.map (·.cascade)).flatten)

/-- `obp/dataset/synthetic_slate.py:611-632`: sampling the slate of one round with the uniform draws `us`, one per
position, and the running products. `random_.choice` picks the first action whose cumulative probability exceeds the
draw. -/
noncomputable def slateSample (logits : List ℝ) (fact : Bool) : List ℕ → ℝ → List ℝ → Py (List ℕ × List ℝ)
  | _, _, [] => .ok ([], [])
  | set, p, u :: us => do
      let score ← slateScores logits set
      let j ← sampleActionRow score u
      let a ← entryAt set j
      let s ← entryAt score j
      let r ← slateSample logits fact (slateRemaining fact set a) (p * s) us
      pure (a :: r.1, p * s :: r.2)

/-- The item-position propensity when sampling: `1 / n_unique_action` for the default uniform behaviour policy
(`obp/dataset/synthetic_slate.py:634-655`). -/
noncomputable def sampledItemPosition (A L : ℕ) (uniform fact : Bool) (clip : Option ℝ) (logits : List ℝ)
    (pos a : ℕ) (c : ℝ) : Py ℝ :=
  if uniform then npDiv 1 (A : ℝ)
  else if fact then slateScore logits (List.range A) a
  else if pos = 0 then .ok c
  else itemPositionSum A L clip logits pos a

/-- `obp/dataset/synthetic_slate.py:606-659`: one round of `sample_action_and_obtain_pscore`. -/
noncomputable def slateSampleRound (A L : ℕ) (uniform fact : Bool) (clip : Option ℝ) (logits us : List ℝ) :
    Py (List ℕ × SlatePscores) := do
  let r ← slateSample logits fact (List.range A) 1 us
  let item ← (r.1.zip r.2).zipIdx.mapM fun x => sampledItemPosition A L uniform fact clip logits x.2 x.1.1 x.1.2
  pure (r.1, ⟨r.2.getLastD 1, item, r.2⟩)

/-- `calc_evaluation_policy_action_dist` (`obp/dataset/synthetic_slate.py:1197-1206`) for one round: the conditional
action distribution of every position; earlier actions get the logit -10000. -/
noncomputable def slateActionDist (fact : Bool) : List ℝ → List ℕ → Py (List (List ℝ))
  | _, [] => .ok []
  | logits, a :: rest => do
      let row ← softmaxWith Real.exp logits
      let tail ← slateActionDist fact (if fact then logits else logits.set a (-10000)) rest
      pure (row :: tail)

/-- `linear_behavior_policy_logit` (`obp/dataset/synthetic_slate.py:1509-1522`) for one context `x`; `coef` and
`actionCoef` are the random coefficients, `actionContext` has one row per action. -/
noncomputable def linearLogits (coef actionCoef : List ℝ) (actionContext : List (List ℝ)) (tau : ℝ) (x : List ℝ) :
    Py (List ℝ) := do
  raiseIf (decide (tau < 0)) .valueError
  actionContext.mapM fun v => npDiv ((List.zipWith (· * ·) x coef).sum + (List.zipWith (· * ·) v actionCoef).sum) tau

end policy

/-! ### rewards -/

section reward
variable {K : Type} [Field K] [LinearOrder K]

/-- `reward_structure`. -/
inductive RewardStructure where
  | cascadeAdditive | cascadeDecay | independent | standardAdditive | standardDecay
  deriving DecidableEq

/-- `is_cascade` (`obp/dataset/synthetic_slate.py:1405`). -/
def RewardStructure.isCascade : RewardStructure → Bool
  | .cascadeAdditive => true
  | .cascadeDecay => true
  | _ => false

/-- `is_additive` (`obp/dataset/synthetic_slate.py:1404`). -/
def RewardStructure.isAdditive : RewardStructure → Bool
  | .cascadeAdditive => true
  | .standardAdditive => true
  | _ => false

/-- `.astype("int8")` of an action (`obp/dataset/synthetic_slate.py:916, 1429`). -/
def toInt8 (a : ℕ) : ℤ := ((a : ℤ) + 128) % 256 - 128

/-- Indexing a row by an `int8` action, with Python's wrap-around. -/
def int8Entry {α : Type} (row : List α) (a : ℕ) : Py α :=
  match wrapIdx row.length (toInt8 a) with
  | some j => .ok row[j]
  | none => .error .indexError

/-- The other positions whose actions affect position `pos` (`obp/dataset/synthetic_slate.py:1443-1461`): the loop over
`pos2_` stops at `pos_` for cascade structures and skips it otherwise. -/
def interactionPositions (st : RewardStructure) (L pos : ℕ) : List ℕ :=
  if st = .independent then []
  else if st.isCascade then (List.range L).takeWhile fun p2 => decide (p2 < pos)
  else (List.range L).filter fun p2 => decide (p2 ≠ pos)

/-- The term added for the other position (`obp/dataset/synthetic_slate.py:1452-1454, 1462-1467`). -/
def interactionTerm (st : RewardStructure) (base : List K) (W : List (List K)) (slate : List ℕ) (pos p2 : ℕ) : Py K := do
  let a ← entryAt slate pos
  let a2 ← entryAt slate p2
  if st.isAdditive then (do
    let row ← int8Entry W a
    int8Entry row a2)
  else (do
    let r ← int8Entry base a2
    let row ← entryAt W pos
    let w ← entryAt row p2
    pure (r * w))

/-- `obp/dataset/synthetic_slate.py:1438-1468`: the transformed reward of one position, from the transformed base rewards
of the round. The rounding to `float16` is not modelled. -/
def interactionValue (st : RewardStructure) (L : ℕ) (base : List K) (W : List (List K)) (slate : List ℕ) (pos : ℕ) :
    Py K := do
  let a ← entryAt slate pos
  let fixed ← int8Entry base a
  let terms ← (interactionPositions st L pos).mapM (interactionTerm st base W slate pos)
  pure (fixed + terms.sum)

/-- `obp/dataset/synthetic_slate.py:1424-1468`: the transformed rewards of all slates, given the transformed base rewards
of the rounds. With `enumerated` the given slates are repeated for every round. The row of base rewards is number
`j // n_enumerated_slate_actions` where `n_enumerated_slate_actions` is the number of *actions* per round. -/
def interactionRewards (st : RewardStructure) (L : ℕ) (enumerated : Bool) (base : List (List K)) (W : List (List K))
    (action : List ℕ) : Py (List (List K)) := do
  raiseIf (enumerated && decide (action.length % L ≠ 0)) .valueError
  raiseIf (!enumerated && decide (action.length ≠ L * base.length)) .valueError
  let action' := if enumerated then (List.replicate base.length action).flatten else action
  raiseIf (decide (base.length = 0)) .zeroDivisionError
  let perRound := action'.length / base.length
  (List.range (action'.length / L)).mapM fun j => do
    let row ← entryAt base (j / perRound)
    (List.range L).mapM (interactionValue st L row W (slateOf L action' j))

/-- `np.clip(x, 0, None)` for continuous rewards (`obp/dataset/synthetic_slate.py:1473`). -/
def clipReward (x : K) : K := max x 0

/-- `scipy.special.logit` (`obp/dataset/synthetic_slate.py:1436`): infinite at 0 and 1 and nan outside [0, 1]. -/
noncomputable def logitFn (q : ℝ) : Py ℝ :=
  if 0 < q ∧ q < 1 then .ok (Real.log (q / (1 - q))) else .error .nonFinite

/-- `obtain_standard_decay_action_interaction_weight_matrix` (`obp/dataset/synthetic_slate.py:310-321`); `h` is the decay
function on distances. -/
def standardDecayMatrix (L : ℕ) (h : ℕ → K) : List (List K) :=
  (List.range L).map fun r : ℕ => (List.range L).map fun c : ℕ => if r = c then 0 else -h ((r : ℤ) - c).natAbs

/-- `obtain_cascade_decay_action_interaction_weight_matrix` (`obp/dataset/synthetic_slate.py:323-336`): entry
`[pos_2, pos_]` is set to zero if `pos_ <= pos_2`. -/
def cascadeDecayMatrix (L : ℕ) (h : ℕ → K) : List (List K) :=
  (List.range L).map fun r : ℕ => (List.range L).map fun c : ℕ => if c ≤ r then 0 else -h ((r : ℤ) - c).natAbs

/-- `generate_symmetric_matrix` (`obp/dataset/synthetic_slate.py:1306-1310`) from the random matrix:
`tril(B) + tril(B).T - diag(B)`. -/
def symmetricMatrix {n : ℕ} (B : Fin n → Fin n → K) : Fin n → Fin n → K := fun i j =>
  (if j ≤ i then B i j else 0) + (if i ≤ j then B j i else 0) - (if i = j then B i i else 0)

/-- `exponential_decay_function` and `inverse_decay_function` (`obp/dataset/synthetic_slate.py:1525-1550`) at a distance;
`e` is `np.exp`. -/
def decayFunction (e : K → K) (exponential : Bool) (d : ℕ) : K :=
  if exponential then e (-(d : K)) else 1 / ((d : K) + 1)

/-- `sample_reward_given_expected_reward` for binary rewards (`obp/dataset/synthetic_slate.py:693-709`): the click
probabilities at the positions, given the expected rewards, the examination weights, the attractiveness parameters and
the outcomes. `disc` and `prev` are `discount_factors` and `sampled_rewards_at_position` before the position. -/
def clickProbs : K → K → List K → List K → List K → List Bool → List K
  | disc, prev, q :: qs, e :: es, a :: as, r :: rs =>
      let d := disc * (prev * a + (1 - prev))
      d * (q * e) :: clickProbs d (if r then 1 else 0) qs es as rs
  | _, _, _, _, _, _ => []

/-- The click model applied to expected rewards in the ground truth (`obp/dataset/synthetic_slate.py:998-1013`), for
binary rewards. -/
def clickExpected : K → K → List K → List K → List K → List K
  | disc, prev, q :: qs, e :: es, a :: as =>
      let d := disc * (prev * a + (1 - prev))
      d * (q * e) :: clickExpected d (d * (q * e)) qs es as
  | _, _, _, _, _ => []

/-- Sum over rounds and slates of propensity times slate reward (`obp/dataset/synthetic_slate.py:1015-1017`). -/
def weightedTotal (pscores rewards : List (List K)) : K :=
  (List.zipWith (fun ps rs => (List.zipWith (· * ·) ps rs).sum) pscores rewards).sum

/-- The ground truth without a base reward function (`obp/dataset/synthetic_slate.py:947-964`): `slot` holds the
expected rewards of actions (rows) at positions (columns), the same for all rounds; the slates were converted to `int8`
(line 916). -/
def slateTruthContextFree (pscores : List (List K)) (slates : List (List ℕ)) (slot : List (List K)) : Py K := do
  let rewards ← slates.mapM fun s => do
    let xs ← s.zipIdx.mapM fun x => do
      let row ← int8Entry slot x.1
      entryAt row x.2
    pure xs.sum
  pure (weightedTotal pscores (List.replicate pscores.length rewards))

/-- The batch size of the ground truth (`obp/dataset/synthetic_slate.py:966-970`) and the number of batches. -/
def truthBatches (nRounds nSlates L : ℕ) : ℕ × ℕ :=
  let nBatch := (nRounds * nSlates * L - 1) / 10 ^ 7 + 1
  let size := (nRounds - 1) / nBatch + 1
  (size, (nRounds - 1) / size + 1)

/-- The rounds of batch `b`. -/
def batchSlice {α : Type} (size b : ℕ) (xs : List α) : List α := (xs.drop (b * size)).take size

/-- The ground truth with a base reward function (`obp/dataset/synthetic_slate.py:965-1018`). `rewards ctxs` are the
expected rewards, after the reward function, of all enumerated slates of the rounds with contexts `ctxs`; `click` is the
click model on a row of expected rewards. -/
def slateTruthBase {C : Type} (size nBatch : ℕ) (ctxs : List C) (pscores : List (List K))
    (rewards : List C → Py (List (List K))) (click : List K → List K) : Py K := do
  let parts ← (List.range nBatch).mapM fun b => do
    let rs ← rewards (batchSlice size b ctxs)
    pure (List.zipWith (· * ·) (batchSlice size b pscores).flatten (rs.map fun r => (click r).sum)).sum
  npDiv parts.sum (ctxs.length : K)

/-- `calc_on_policy_policy_value` (`obp/dataset/synthetic_slate.py:861-868`). -/
def slateOnPolicyValue (reward : List K) (slateId : List ℤ) : Py K := do
  raiseIf (decide (reward.length ≠ slateId.length)) .valueError
  npDiv reward.sum ((npUnique slateId).length : K)

end reward

/-! ### the whole ground truth -/

section truth

/-- `enumerated_slate_actions` (`obp/dataset/synthetic_slate.py:907-915`). -/
def truthSlates (fact : Bool) (A L : ℕ) : List (List ℕ) :=
  if fact then productOf L (List.range A) else permutationsOf L (List.range A)

/-- An action of an enumerated slate as it is compared with the remaining actions after the conversion to `int8`
(`obp/dataset/synthetic_slate.py:361-366, 916`). A converted action that is negative matches none of them, and the index
arrays then differ in length: IndexError. (Actions from 256 on are converted to other actions, but 128 is then among the
actions too and the call as a whole raises the same error, so the model raises it for them as well.) -/
def int8Action (a : ℕ) : Py ℕ := if toInt8 a = a then .ok a else .error .indexError

/-- The propensities of the enumerated slates in one round (`obp/dataset/synthetic_slate.py:920-944`); the slates were
converted to `int8` (line 916). -/
noncomputable def truthPscores (fact : Bool) (A L : ℕ) (logits : List ℝ) : Py (List ℝ) :=
  if fact then do
    let probs ← softmaxWith Real.exp logits
    (truthSlates true A L).mapM fun s => do
      let xs ← s.mapM (int8Entry probs)
      pure xs.prod
  else (truthSlates false A L).mapM fun s => do
    let s' ← s.mapM int8Action
    slateProduct (slateScores logits) (List.range A) 1 s'

/-- How the expected rewards are obtained: a table of actions and positions when there is no base reward function, else
the reward function applied to the contexts of a batch and the enumerated slates, and the click model. -/
inductive TruthReward (C : Type)
  | contextFree (slot : List (List ℝ))
  | base (rewards : List (List ℕ) → List C → Py (List (List ℝ))) (click : List ℝ → List ℝ)

/-- `calc_ground_truth_policy_value` (`obp/dataset/synthetic_slate.py:870-1018`); `ctxOk` says whether
`context.shape[1] == self.dim_context`. -/
noncomputable def slateGroundTruth {C : Type} (fact : Bool) (A L : ℕ) (ctxOk : Bool) (ctxs : List C)
    (logits : List (List ℝ)) (rw : TruthReward C) : Py ℝ := do
  raiseIf (logits.any fun r => decide (r.length ≠ A)) .valueError
  raiseIf (!ctxOk) .valueError
  raiseIf (decide (logits.length ≠ ctxs.length)) .valueError
  let pscores ← logits.mapM (truthPscores fact A L)
  match rw with
  | .contextFree slot => slateTruthContextFree pscores (truthSlates fact A L) slot
  | .base rewards click =>
      slateTruthBase (truthBatches ctxs.length (truthSlates fact A L).length L).1
        (truthBatches ctxs.length (truthSlates fact A L).length L).2 ctxs pscores (rewards (truthSlates fact A L)) click

end truth

/-! ### named evaluation policies -/

section named
variable {K : Type} [Field K] [LinearOrder K]

/-- The ranking followed by the policies `optimal` and `anti-optimal`, from the ascending `argsort` of the base expected
rewards of the round (`obp/dataset/synthetic_slate.py:1126-1133`). -/
def namedRanking (optimal : Bool) (L : ℕ) (argsort : List ℕ) : List ℕ :=
  if optimal then argsort.take L else argsort.drop (argsort.length - L)

/-- `action_match_flg` of one round (`obp/dataset/synthetic_slate.py:1268-1273`). -/
def matchFlags (fact : Bool) (ranking slate : List ℕ) : List Bool :=
  if fact then slate.map fun a => decide (ranking.head? = some a)
  else List.zipWith (fun r a => decide (r = a)) ranking slate

/-- `x.cumprod()` for 0/1 flags. -/
def cumAll : Bool → List Bool → List Bool
  | _, [] => []
  | acc, b :: bs => (acc && b) :: cumAll (acc && b) bs

/-- The uniform policy's propensities (`obp/dataset/synthetic_slate.py:1074-1100`): joint, item-position, cascade. -/
def randomPscores (A L : ℕ) (fact : Bool) : K × K × List K :=
  let steps : List K := (List.range L).map fun k => if fact then (A : K) else ((A - k : ℕ) : K)
  (1 / (if fact then (A : K) ^ L else (A.descFactorial L : K)), 1 / (A : K),
    (List.range L).map fun k => 1 / (steps.take (k + 1)).prod)

/-- `_calc_epsilon_greedy_pscore` (`obp/dataset/synthetic_slate.py:1261-1286`) for one round; repeated actions are
refused for non-factorizable policies. -/
def epsilonGreedyPscores (A L : ℕ) (fact : Bool) (eps : K) (ranking slate : List ℕ) : Py (K × List K × List K) := do
  raiseIf (!fact && decide ((npUnique (slate.map Int.ofNat)).length ≠ L)) .valueError
  let flags := matchFlags fact ranking slate
  let rnd := randomPscores (K := K) A L fact
  let ind (b : Bool) : K := if b then 1 else 0
  pure (ind (flags.all id) * (1 - eps) + eps * rnd.1, flags.map fun b => ind b * (1 - eps) + eps * rnd.2.1,
    List.zipWith (fun b c => ind b * (1 - eps) + eps * c) (cumAll true flags) rnd.2.2)

end named

end Obp
