import Verif.Model.SlateInteraction
import Verif.Model.DatasetInit
import Verif.Model.RewardLaw
import Mathlib.Analysis.SpecialFunctions.Pow.Real

/-!
# The constructor of `SyntheticSlateBanditDataset` and `obtain_batch_bandit_feedback`

`obp/dataset/synthetic_slate.py:214-308, 535-727, 729-840`. Random numbers are arguments; the progress bar is left out.
-/

namespace Obp

/-! ### the constructor -/

/-- `check_random_state(self.random_state)` (`obp/dataset/synthetic_slate.py:226`): unlike in the other datasets `None` is accepted. -/
def checkSlateSeed : Seed → Py Unit
  | .bad => .error .valueError
  | _ => .ok ()

/-- `if self.decay_function not in ["exponential", "inverse"]` (`obp/dataset/synthetic_slate.py:244-247`): whether it is the exponential. -/
def decayExponential : String → Py Bool
  | "exponential" => .ok true
  | "inverse" => .ok false
  | _ => .error .valueError

/-- One entry of `(1.0 / np.arange(1, self.len_list + 1)) ** self.eta` (`obp/dataset/synthetic_slate.py:256, 260`), for position number `k`
counted from one. `1.0 ** x` is 1 for every float `x`. -/
noncomputable def positionWeight (k : ℕ) : PyScalar ℝ → PyNum ℝ
  | .flt e => .fin ((1 / (k : ℝ)) ^ e)
  | .inf => if k = 1 then .fin 1 else .fin 0
  | .nan => if k = 1 then .fin 1 else .nan
  | .negInf => if k = 1 then .fin 1 else .inf
  | .int z => .fin ((1 / (k : ℝ)) ^ z)
  | .bool b => .fin (if b then 1 / (k : ℝ) else 1)
  | .other => .nan

/-- What the constructor of `SyntheticSlateBanditDataset` keeps. -/
structure SlateInit where
  nUnique : ℤ
  lenList : ℤ
  dimContext : ℤ
  binary : Bool
  structName : String
  fact : Bool
  exam : List (PyNum ℝ)
  attract : List (PyNum ℝ)
  weights : List (List ℝ)

/-- `exam_weight` and `attractiveness` (`obp/dataset/synthetic_slate.py:248-264`). -/
noncomputable def clickWeights (L : ℕ) (click : Option String) (eta : PyScalar ℝ) : Py (List (PyNum ℝ) × List (PyNum ℝ)) :=
  let ones : List (PyNum ℝ) := List.replicate L (.fin 1)
  let decaying (e : PyScalar ℝ) : List (PyNum ℝ) := (List.range L).map fun k => positionWeight (k + 1) e
  match click with
  | none => .ok (ones, ones)
  | some "pbm" => do
    let e ← checkFloatIn 0 none eta
    pure (decaying e, ones)
  | some "cascade" => do
    let e ← checkFloatIn 0 none eta
    pure (ones, decaying e)
  | some _ => .error .valueError

/-- `action_interaction_weight_matrix` (`obp/dataset/synthetic_slate.py:271-298`); `B` are the normal random numbers. -/
noncomputable def initWeights (A L : ℕ) (st : RewardStructure) (exponential : Bool) (B : ℕ → ℕ → ℝ) : List (List ℝ) :=
  match st with
  | .cascadeAdditive => List.ofFn fun i : Fin A => List.ofFn fun j : Fin A => symmetricMatrix (fun i j => B i j) i j
  | .standardAdditive => List.ofFn fun i : Fin A => List.ofFn fun j : Fin A => symmetricMatrix (fun i j => B i j) i j
  | .standardDecay => standardDecayMatrix L (decayFunction Real.exp exponential)
  | .cascadeDecay => cascadeDecayMatrix L (decayFunction Real.exp exponential)
  | .independent => List.replicate L (List.replicate L 0)

/-- `SyntheticSlateBanditDataset.__post_init__` (`obp/dataset/synthetic_slate.py:214-308`). Functions given as arguments are not checked by
the code and enter in `SlateInit.obtain`. -/
noncomputable def initSlate (nUnique lenList dimContext : PyScalar ℝ) (seed : Seed) (rewardType structName decay : String)
    (click : Option String) (eta : PyScalar ℝ) (fact : Bool) (B : ℕ → ℕ → ℝ) : Py SlateInit := do
  let n ← checkIntMin 2 nUnique
  let l ← (if fact then checkIntMin 2 lenList else checkIntIn 2 n lenList : Py ℤ)
  let d ← checkIntMin 1 dimContext
  checkSlateSeed seed
  let bin ← slateRewardBinary rewardType
  let st ← RewardStructure.ofName structName
  let ex ← decayExponential decay
  let w ← clickWeights l.toNat click eta
  raiseIf (click.isSome && !bin) .valueError
  pure ⟨n, l, d, bin, structName, fact, w.1, w.2, initWeights n.toNat l.toNat st ex B⟩

/-! ### a batch -/

/-- The random numbers and user functions that a batch depends on: normal numbers for the contexts, uniform numbers for the actions (round,
position), the table drawn by `sample_contextfree_expected_reward` (action, position), the result of `binomial(n=1, p)` (round, position,
probability) and the uniform numbers from which `truncnorm.rvs` computes the rewards (round). -/
structure SlateSource where
  normal : ℕ → ℝ
  uniform : ℕ → ℕ → ℝ
  slot : ℕ → ℕ → ℝ
  coin : ℕ → ℕ → ℝ → Bool
  rvs : ℕ → ℝ
  behavior : Option (List (List ℝ) → List (List ℝ))
  base : Option (List (List ℝ) → List (List ℝ))

/-- `behavior_policy_logit_` for `n` rounds and `A` actions (`obp/dataset/synthetic_slate.py:299-302, 761-770`). -/
noncomputable def SlateSource.logits (src : SlateSource) (A n : ℕ) (context : List (List ℝ)) : List (List ℝ) :=
  match src.behavior with
  | none => List.replicate n (List.replicate A (1 / (A : ℝ)))
  | some f => f context

/-- The dictionary returned by `obtain_batch_bandit_feedback` (`obp/dataset/synthetic_slate.py:827-840`). -/
structure SlateBatch where
  nRounds : ℕ
  slateId : List ℤ
  context : List (List ℝ)
  action : List ℕ
  position : List ℤ
  reward : List ℝ
  expected : List ℝ
  cascade : List ℝ
  joint : List ℝ
  item : Option (List ℝ)

/-- A click weight as it is used (`obp/dataset/synthetic_slate.py:693, 699-707`): of the weights that pass the constructor only nan is not a
finite number, and then the probability is nan, which `binomial` refuses with ValueError. -/
def clickFactor : PyNum ℝ → Py ℝ
  | .fin x => .ok x
  | _ => .error .valueError

/-- One round of `sample_reward_given_expected_reward` for binary rewards (`obp/dataset/synthetic_slate.py:694-709`); the code treats all
rounds at once. `q` are the expected rewards after multiplication by the examination weights, `k` the position, `d` and `prev` are
`discount_factors` and `sampled_rewards_at_position` before the position. `binomial` refuses probabilities outside [0, 1]. -/
noncomputable def clickRound (coin : ℕ → ℝ → Bool) : ℕ → ℝ → ℝ → List ℝ → List ℝ → Py (List ℝ)
  | k, d, prev, q :: qs, a :: as => do
      let d' := d * (prev * a + (1 - prev))
      raiseIf (!(decide (0 ≤ d' * q) && decide (d' * q ≤ 1))) .valueError
      let r : ℝ := if coin k (d' * q) then 1 else 0
      let rest ← clickRound coin (k + 1) d' r qs as
      pure (r :: rest)
  | _, _, _, _, _ => .ok []

/-- `expected_reward_factual` before the click model (`obp/dataset/synthetic_slate.py:790-821`). -/
noncomputable def SlateInit.expectedRewards (c : SlateInit) (src : SlateSource) (context : List (List ℝ)) (slates : List (List ℕ)) :
    Py (List (List ℝ)) :=
  match src.base with
  | none => .ok (slates.map fun s => s.zipIdx.map fun x => src.slot x.1 x.2)
  | some f => do
    let base := f context
    slateInteraction c.nUnique.toNat (if c.binary then "binary" else "continuous") c.structName c.lenList.toNat false base c.weights
      slates.flatten

/-- `obtain_batch_bandit_feedback` (`obp/dataset/synthetic_slate.py:758-840`) with `sample_action_and_obtain_pscore` (`:581-661`). The
behaviour policy function is taken to return an array; a wrong shape is refused (`:772-776`). The base reward function is assumed to return
one row per round. A clip value of `-inf` or `nan` is flagged even where it is not used. -/
noncomputable def SlateInit.obtain (c : SlateInit) (src : SlateSource) (nRounds : PyScalar ℝ) (returnItem : Bool)
    (clip : Option (PyScalar ℝ)) : Py SlateBatch := do
  let n' ← checkIntMin 1 nRounds
  let n := n'.toNat
  let A := c.nUnique.toNat
  let L := c.lenList.toNat
  let d := c.dimContext.toNat
  let context := (List.range n).map fun i => (List.range d).map fun j => src.normal (i * d + j)
  let logits := src.logits A n context
  raiseIf (!(decide (logits.length = n) && logits.all fun r => decide (r.length = A))) .valueError
  let cl ← (if returnItem then checkClip clip else .ok none : Py (Option ℝ))
  let rounds ← logits.zipIdx.mapM fun x =>
    slateSampleRound A L src.behavior.isNone c.fact cl x.1 ((List.range L).map (src.uniform x.2))
  let expected ← c.expectedRewards src context (rounds.map (·.1))
  raiseIf (!(decide (expected.length = n) && expected.all fun r => decide (r.length = L))) .valueError
  let exam ← c.exam.mapM clickFactor
  let attract ← c.attract.mapM clickFactor
  let shown := expected.map fun r => List.zipWith (· * ·) r exam
  let reward ← (if c.binary then shown.zipIdx.mapM fun x => clickRound (src.coin x.2) 0 1 0 x.1 attract
    else .ok (shown.zipIdx.map fun x => slateSharedSeedRound x.1 (src.rvs x.2)) : Py (List (List ℝ)))
  pure { nRounds := n
         slateId := ((List.range n).map fun i : ℕ => List.replicate L (i : ℤ)).flatten
         context := context
         action := (rounds.map (·.1)).flatten
         position := (List.replicate n ((List.range L).map fun k : ℕ => (k : ℤ))).flatten
         reward := reward.flatten
         expected := shown.flatten
         cascade := (rounds.map (·.2.cascade)).flatten
         joint := (rounds.map fun r => List.replicate L r.2.joint).flatten
         item := if returnItem then some (rounds.map (·.2.item)).flatten else none }

end Obp
