import Verif.Model.Utils
import Mathlib.Algebra.Order.Floor.Ring

/-!
# Model of `obp/simulator/`

Policies and environments are parameters: a policy is a state machine with `select_action` and
`update_params`, a bandit round is whatever the environment produced. Progress bars are left out, except
where the name `tqdm` is not a function.
-/

namespace Obp

section
variable {S K : Type} [Field K] [LinearOrder K]

/-! ### policies as state machines -/

/-- `policy_type` -/
inductive PolicyKind
  | contextFree
  | contextual
  | offline
  deriving DecidableEq

/-- A policy object: `select` may raise and may use random numbers kept in the state; `context` is absent for
context-free policies. -/
structure SimPolicy (S K : Type) where
  kind : PolicyKind
  select : S → Option (Arg2 K) → Py (List ℤ × S)
  update : S → Option (Arg2 K) → ℤ → K → Py S

/-- A context as handed over by the environment: 1-D (row of a batch) or 2-D (`next_context`). -/
inductive SimContext (K : Type)
  | vec (xs : List K)
  | mat (x : Arr2 K)

/-- `np.expand_dims(context, axis=0)` -/
def SimContext.expand : SimContext K → Arg2 K
  | .vec xs => .arr ⟨1, xs.length, fun _ j => xs.get j⟩
  | .mat x => .nd [1, x.n, x.d]

/-- `obp/simulator/simulator.py:32-39` `BanditRound`, the fields that are used. -/
structure BanditRound (K : Type) where
  context : SimContext K
  rewards : List K
  delays : Option (List K)

/-- `xs[i]` of a 1-D array. -/
def npIndex {α : Type} (xs : List α) (i : ℤ) : Py α :=
  match wrapIdx xs.length i with
  | some j => .ok (xs.get j)
  | none => .error .indexError

/-! ### `BanditPolicySimulator` -/

/-- The attributes of a `BanditPolicySimulator` (`obp/simulator/simulator.py:287-325`). The dictionary
`reward_round_lookup` is kept in insertion order; its keys are the floats `delay + rounds_played`. -/
structure SimState (S K : Type) where
  policy : S
  selected : List ℤ := []
  obtained : List K := []
  groundTruth : List (List K) := []
  contexts : List (SimContext K) := []
  total : K
  played : ℕ := 0
  lookup : List (K × List ℕ) := []

/-- `obp/simulator/simulator.py:320-325` `__post_init__` -/
def simInit (p : S) : SimState S K := { policy := p, total := 0 }

/-- `obp/simulator/simulator.py:370-381` `select_action` -/
def simSelect (pol : SimPolicy S K) (c : SimContext K) (p : S) : Py (ℤ × S) := do
  let r ← match pol.kind with
    | .contextFree => pol.select p none
    | .contextual => pol.select p (some c.expand)
    | .offline => .error .runtimeError
  match r.1 with
  | a :: _ => pure (a, r.2)
  | [] => .error .indexError

/-- `obp/simulator/simulator.py:423-430` `update_policy` -/
def simUpdate (pol : SimPolicy S K) (c : SimContext K) (a : ℤ) (r : K) (p : S) : Py S :=
  match pol.kind with
  | .contextFree => pol.update p none a r
  | .contextual => pol.update p (some c.expand) a r
  | .offline => .ok p

/-- `self.reward_round_lookup[key].append(idx)` on a `defaultdict(list)` -/
def lookupAppend (key : K) (idx : ℕ) : List (K × List ℕ) → List (K × List ℕ)
  | [] => [(key, [idx])]
  | (k, l) :: rest => if k = key then (k, l ++ [idx]) :: rest else (k, l) :: lookupAppend key idx rest

/-- `self.reward_round_lookup.get(key, [])` -/
def lookupGet (key : K) (d : List (K × List ℕ)) : List ℕ :=
  match d.find? fun e => e.1 = key with
  | some e => e.2
  | none => []

/-- `self.reward_round_lookup.pop(key, None)` -/
def lookupPop (key : K) (d : List (K × List ℕ)) : List (K × List ℕ) := d.filter fun e => e.1 ≠ key

/-- `obp/simulator/simulator.py:396-401`: one iteration of the loop in `delayed_update_policy`. -/
def simDeliver (pol : SimPolicy S K) (s : SimState S K) (idx : ℕ) : Py (SimState S K) := do
  let a ← npIndex s.selected idx
  let c ← npIndex s.contexts idx
  let r ← npIndex s.obtained idx
  let p ← simUpdate pol c a r s.policy
  pure { s with policy := p }

/-- `obp/simulator/simulator.py:393-403` `delayed_update_policy` -/
def simDelayedUpdate (pol : SimPolicy S K) (available : List ℕ) (key : K) (s : SimState S K) :
    Py (SimState S K) := do
  let s ← available.foldlM (simDeliver pol) s
  pure { s with lookup := lookupPop key s.lookup }

/-- `obp/simulator/simulator.py:354-366`: the update at the end of a round. `s` has the current round in its
lists already. -/
def simRoundUpdate (pol : SimPolicy S K) (b : BanditRound K) (a : ℤ) (r : K) (s : SimState S K) :
    Py (SimState S K) :=
  match b.delays with
  | none => do
      let p ← simUpdate pol b.context a r s.policy
      pure { s with policy := p }
  | some ds => do
      let d ← npIndex ds a
      let q := lookupAppend (d + (s.played : K)) s.played s.lookup
      simDelayedUpdate pol (lookupGet (s.played : K) q) (s.played : K) { s with lookup := q }

/-- `obp/simulator/simulator.py:327-368` `step` on a bandit round (from the environment or given). -/
def simStep (pol : SimPolicy S K) (b : BanditRound K) (s : SimState S K) : Py (SimState S K) := do
  let q ← simSelect pol b.context s.policy
  let r ← npIndex b.rewards q.1
  let s' ← simRoundUpdate pol b q.1 r { s with
    policy := q.2
    contexts := s.contexts ++ [b.context]
    groundTruth := s.groundTruth ++ [b.rewards]
    selected := s.selected ++ [q.1]
    obtained := s.obtained ++ [r]
    total := s.total + r }
  pure { s' with played := s'.played + 1 }

/-- `obp/simulator/simulator.py:405-407` `clear_delayed_queue` -/
def simClear (pol : SimPolicy S K) (s : SimState S K) : Py (SimState S K) :=
  s.lookup.foldlM (fun s e => simDelayedUpdate pol e.2 e.1 s) s

/-- What a user does with a simulator: `step`s (`steps` is a loop of these, `:383-391`) and clearing of the
queue. -/
inductive SimOp (K : Type)
  | step (b : BanditRound K)
  | clear

/-- One operation. -/
def simOp (pol : SimPolicy S K) (s : SimState S K) : SimOp K → Py (SimState S K)
  | .step b => simStep pol b s
  | .clear => simClear pol s

/-- `n_rounds` steps in a row. -/
def simSteps (rounds : List (BanditRound K)) : List (SimOp K) := rounds.map .step

/-- A sequence of operations on a new simulator. -/
def simRun (pol : SimPolicy S K) (p : S) (ops : List (SimOp K)) : Py (SimState S K) :=
  ops.foldlM (simOp pol) (simInit p)

/-! ### `replay.py` -/

/-- What the name `tqdm` is bound to: `from tqdm import tqdm` binds the function, `import tqdm as tqdm` the
module, which is not callable. -/
inductive TqdmBinding
  | function
  | module_
  deriving DecidableEq

/-- One round of a log. -/
structure LogRound (K : Type) where
  action : ℤ
  reward : K
  position : ℤ
  context : List K

/-- A row of contexts as `context_.reshape(1, dim_context)`. -/
def rowContext (xs : List K) : Arg2 K := .arr ⟨1, xs.length, fun _ j => xs.get j⟩

/-- `selected_actions` of a round: an unsupported policy type leaves the variable unbound. -/
def replaySelect (pol : SimPolicy S K) (xs : List K) (p : S) : Py (List ℤ × S) :=
  match pol.kind with
  | .contextFree => pol.select p none
  | .contextual => pol.select p (some (rowContext xs))
  | .offline => .error .unboundLocalError

/-- `update_params` of a round. -/
def replayUpdate (pol : SimPolicy S K) (xs : List K) (a : ℤ) (r : K) (p : S) : Py S :=
  match pol.kind with
  | .contextFree => pol.update p none a r
  | .contextual => pol.update p (some (rowContext xs)) a r
  | .offline => .ok p

/-- The state of the replay loop: policy and recorded selections. -/
structure ReplayState (S K : Type) where
  policy : S
  selected : List (List ℤ) := []

/-- `obp/simulator/replay.py:59-76`: one round. -/
def replayRound (pol : SimPolicy S K) (s : ReplayState S K) (r : LogRound K) : Py (ReplayState S K) := do
  let q ← replaySelect pol r.context s.policy
  let chosen ← npIndex q.1 r.position
  if r.action = chosen then do
    let p ← replayUpdate pol r.context r.action r.reward q.2
    pure { policy := p, selected := s.selected ++ [q.1] }
  else pure { policy := q.2, selected := s.selected ++ [q.1] }

/-- The columns of `bandit_feedback` used by `run_bandit_replay` (all keys present). -/
structure ReplayArgs (K : Type) where
  context : Arg2 K
  action : Arg1 K
  reward : Arg1 K
  position : Arg1 K
  pscore : Arg1 K

/-- `obp/simulator/replay.py:34-58`: the validated rounds. -/
def replayRounds (a : ReplayArgs K) : Py (List (LogRound K)) := do
  checkBanditFeedbackInputs { context := a.context, action := a.action, reward := a.reward
                              position := a.position, pscore := a.pscore }
  let ctx ← checkArray2 a.context
  let acts ← a.action.ints
  let pos ← if a.position.isNone then pure (List.replicate ctx.n 0) else a.position.ints
  pure (List.ofFn fun i : Fin ctx.n =>
    { action := acts.getD i 0, reward := a.reward.vals.getD i 0, position := pos.getD i 0
      context := List.ofFn (ctx.val i) })

/-- `np.array(selected_actions_list)` and `convert_to_action_dist` (`obp/simulator/replay.py:78-82`); lists of
different lengths cannot be stacked. -/
def replayDist (nActions : ℕ) (selected : List (List ℤ)) : Py (Arr3 K) := do
  let L := (selected.headD []).length
  raiseIf (selected.any fun r => r.length ≠ L) .valueError
  let v ← convertToActionDist nActions fun (i : Fin selected.length) (l : Fin L) => (selected.get i).getD l 0
  pure ⟨selected.length, nActions, L, v⟩

/-- `bandit_feedback["action"].max() + 1`; the actions are non-negative and there is at least one. -/
def replayActions (rounds : List (LogRound K)) : ℕ :=
  (rounds.map fun r => r.action.toNat).foldl max 0 + 1

/-- `obp/simulator/replay.py:10-82` `run_bandit_replay`: the action distribution, and the policy object after
the call (it is not copied, `:42`). -/
def runReplay (tqdm : TqdmBinding) (pol : SimPolicy S K) (p : S) (a : ReplayArgs K) : Py (Arr3 K × S) := do
  let rounds ← replayRounds a
  raiseIf (tqdm = .module_) .typeError
  let s ← rounds.foldlM (replayRound pol) { policy := p }
  let d ← replayDist (replayActions rounds) s.selected
  pure (d, s.policy)

/-! ### `calc_ground_truth_policy_value` -/

/-- One round of data for `calc_ground_truth_policy_value`. -/
structure TruthRound (K : Type) where
  position : ℤ
  context : List K
  expected : List K

/-- `obp/simulator/simulator.py:483-511`: one round of one simulation. `sampler` draws a reward with the
random state `G`. The state is (policy copy, random state, cumulative reward). -/
def truthRound {G : Type} (pol : SimPolicy S K) (sampler : G → List K → ℤ → K × G)
    (s : S × G × K) (r : TruthRound K) : Py (S × G × K) := do
  let q ← replaySelect pol r.context s.1
  let a ← npIndex q.1 r.position
  let w := sampler s.2.1 r.context a
  let e ← npIndex r.expected a
  let p ← replayUpdate pol r.context a w.1 q.2
  pure (p, w.2, s.2.2 + e)

/-- `obp/simulator/simulator.py:481-511`: one simulation, on a copy of the policy. -/
def truthSim {G : Type} (pol : SimPolicy S K) (sampler : G → List K → ℤ → K × G) (rounds : List (TruthRound K))
    (p : S) (s : G × K) : Py (G × K) := do
  let t ← rounds.foldlM (truthRound pol sampler) (p, s.1, s.2)
  pure (t.2.1, t.2.2)

/-- The columns of `bandit_feedback` used by `calc_ground_truth_policy_value` (all keys present). -/
structure TruthArgs (K : Type) where
  context : Arg2 K
  action : Arg1 K
  reward : Arg1 K
  expectedReward : Arg2 K
  position : Arg1 K
  nRounds : ℕ

/-- `obp/simulator/simulator.py:470-487`: the validated rounds that `zip` goes through. `none` is the case
that `position` is `None`, which `zip` rejects when the first simulation starts. An omitted `expected_reward`
is rejected there in the same way. -/
def truthRounds (a : TruthArgs K) : Py (Option (List (TruthRound K))) := do
  checkBanditFeedbackInputs { context := a.context, action := a.action, reward := a.reward
                              expectedReward := a.expectedReward, position := a.position }
  let ctx ← checkArray2 a.context
  match a.position, a.expectedReward with
  | .int pos, .arr er => pure (some (List.ofFn fun i : Fin ctx.n =>
      { position := pos.getD i 0, context := List.ofFn (ctx.val i)
        expected := if h : (i : ℕ) < er.n then List.ofFn (er.val ⟨i, h⟩) else [] }))
  | _, _ => pure none

/-- `obp/simulator/simulator.py:433-513` `calc_ground_truth_policy_value`. Every simulation starts from a
`deepcopy` of the policy, its random state included; with no simulation the Python float `0.0` is divided by the integer zero. -/
def calcGroundTruth {G : Type} (pol : SimPolicy S K) (sampler : G → List K → ℤ → K × G)
    (a : TruthArgs K) (nSim : ℕ) (p : S) (g : G) : Py K := do
  let rounds ← truthRounds a
  match rounds with
  | none => do
      raiseIf (0 < nSim) .typeError
      .error .zeroDivisionError
  | some rounds => do
      let t ← (List.replicate nSim ()).foldlM (fun s _ => truthSim pol sampler rounds p s) (g, 0)
      raiseIf (nSim = 0) .zeroDivisionError
      raiseIf (a.nRounds = 0) .nonFinite
      pure (t.2 / ((nSim * a.nRounds : ℕ) : K))

/-! ### `delay_sampler.py` -/

/-- `obp/simulator/delay_sampler.py:64-68` `exponential_delay_function`: `draws` are the exponential variates,
one per round. -/
def delayPerRound [FloorRing K] (nActions : ℕ) (draws : List K) : List (List K) :=
  draws.map fun x => List.replicate nActions ((⌈x⌉ : ℤ) : K)

/-- `obp/simulator/delay_sampler.py:89-91`: the scales of the reward-weighted delays. -/
def delayScale (minScale maxScale : K) (expected : List (List K)) : List (List K) :=
  expected.map fun row => row.map fun e => minScale + (1 - e) * (maxScale - minScale)

/-- `obp/simulator/delay_sampler.py:89-96` `exponential_delay_function_expected_reward_weighted`: numpy rejects
negative scales; `draws` are standard exponential variates of the same shape. -/
def delayWeighted [FloorRing K] (minScale maxScale : K) (expected draws : List (List K)) :
    Py (List (List K)) := do
  let scales := delayScale minScale maxScale expected
  raiseIf (scales.any fun row => row.any fun x => x < 0) .valueError
  pure (List.zipWith (fun ss es => List.zipWith (fun s e => ((⌈s * e⌉ : ℤ) : K)) ss es) scales draws)

/-! ### `coefficient_drifter.py` -/

/-- `transition_type` -/
inductive Transition
  | linear
  | weightedSampled
  deriving DecidableEq

/-- Attributes of a `CoefficientDrifter`. `sample k` are the coefficients drawn by the `k`-th call of
`sample_random_uniform_coefficients`; `flip k j p` is the outcome of entry `j` of the `k`-th call of
`random_.binomial` with success probability `p`. The entries of the three coefficient arrays are indexed by
`ι`. -/
structure DrifterConfig (K ι : Type) where
  interval : ℕ
  period : ℕ
  transition : Transition
  seasonal : Bool
  baseWeight : K
  sample : ℕ → ι → K
  flip : ℕ → ℕ → K → K

/-- The mutable attributes: the two current coefficient vectors, the base, the rounds left in the interval and
the numbers of random calls made. -/
structure DrifterState (K ι : Type) where
  base : ι → K
  current : ι → K
  next : ι → K
  available : ℕ
  sampled : ℕ
  flipped : ℕ

variable {ι : Type}

/-- `obp/simulator/coefficient_drifter.py:77-121`: construction with given dimensions, including the first
`update_coef`: the base coefficients and the next ones are drawn; the queue starts with the base. -/
def drifterInit (c : DrifterConfig K ι) : DrifterState K ι where
  base := c.sample 0
  current := c.sample 0
  next := c.sample 1
  available := c.interval
  sampled := 2
  flipped := 0

/-- `obp/simulator/coefficient_drifter.py:105-121` `update_coef` later on: `rotate` swaps the two entries of
the queue, `append` on a queue of maximal length two drops the older one. -/
def drifterUpdate (c : DrifterConfig K ι) (s : DrifterState K ι) : DrifterState K ι :=
  if c.seasonal then { s with current := s.next, next := s.current }
  else { s with current := s.next, next := c.sample s.sampled, sampled := s.sampled + 1 }

/-- `obp/simulator/coefficient_drifter.py:186-198`: `transition_steps` for the `rounds` rounds of a request,
when `available` rounds are left in the interval. -/
def transitionSteps (period available rounds : ℕ) : List ℕ :=
  let base := (List.range period).map (· + 1)
  let steps := if period ≤ available then List.replicate (available - period) 0 ++ base
    else base.drop (period - available)
  if rounds < available then steps.drop (available - rounds) else steps

/-- `obp/simulator/coefficient_drifter.py:198-201`: the weights of the next coefficients. -/
def drifterWeights (c : DrifterConfig K ι) (s : DrifterState K ι) (rounds : ℕ) : List K :=
  let ws := (transitionSteps c.period s.available rounds).map fun (k : ℕ) => (k : K) / ((c.period : K) + 1)
  match c.transition with
  | .linear => ws
  | .weightedSampled => ws.zipIdx.map fun w => c.flip s.flipped w.2 w.1

/-- `obp/simulator/coefficient_drifter.py:222-240` `compute_weighted_coefs`, one row. -/
def weightedCoef (bw : K) (base a b : ι → K) (w : K) (j : ι) : K :=
  bw * base j + a j * ((1 - bw) * (1 - w)) + b j * ((1 - bw) * w)

/-- `obp/simulator/coefficient_drifter.py:179-220` `append_current_coefs`: the rows, and the state after the
random call. -/
def drifterRows (c : DrifterConfig K ι) (s : DrifterState K ι) (rounds : ℕ) :
    List (ι → K) × DrifterState K ι :=
  ((drifterWeights c s rounds).map (weightedCoef c.baseWeight s.base s.current s.next),
    if c.transition = .weightedSampled then { s with flipped := s.flipped + 1 } else s)

/-- `obp/simulator/coefficient_drifter.py:147-177`: the loop of `get_coefficients`. `fuel` bounds the number of
iterations; `none` means that the loop has not ended by then. -/
def drifterLoop (c : DrifterConfig K ι) :
    ℕ → ℕ → DrifterState K ι → Option (List (ι → K) × DrifterState K ι)
  | _, 0, s => some ([], s)
  | 0, _ + 1, _ => none
  | fuel + 1, n + 1, s =>
    if s.available ≤ n + 1 then
      let (rows, s') := drifterRows c s s.available
      match drifterLoop c fuel (n + 1 - s.available) { drifterUpdate c s' with available := c.interval } with
      | some (rest, t) => some (rows ++ rest, t)
      | none => none
    else
      let (rows, s') := drifterRows c s (n + 1)
      some (rows, { s' with available := s.available - (n + 1) })

/-- `obp/simulator/coefficient_drifter.py:123-177` `get_coefficients`: `np.vstack` of nothing is a ValueError;
`none` means that the call does not return within `fuel` iterations. -/
def getCoefficients (c : DrifterConfig K ι) (fuel n : ℕ) (s : DrifterState K ι) :
    Option (Py (List (ι → K) × DrifterState K ι)) :=
  (drifterLoop c fuel n s).map fun r => if n = 0 then .error .valueError else .ok r

end

end Obp
