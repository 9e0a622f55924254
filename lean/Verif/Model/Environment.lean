import Verif.Model.Simulator
import Verif.Model.DatasetInit

/-!
# `BanditEnvironmentSimulator`, `BanditRounds` and `BanditPolicySimulator.steps`

`obp/simulator/simulator.py:32-284, 327-334, 383-391`. The constructor's checks are `initEnvironment` in
`Model/DatasetInit.lean`. The reward function, the coefficient function and the delay function are arguments; the last two may
keep a state (`CoefficientDrifter.get_coefficients` and the methods of `ExponentialDelaySampler` do), so both carry one here.
-/

namespace Obp

section
variable {R C D S K : Type} [Field K] [LinearOrder K]

/-- The draws the environment makes from its `RandomState`: one standard normal, one uniform number and one binary outcome with
a given success probability. (Library behaviour: arrays are filled in row-major order, one draw per entry.) -/
structure EnvRng (R K : Type) where
  normal : R → K × R
  uniform : R → K × R
  bernoulli : K → R → Bool × R

/-- one draw per entry of a list, in order (library behaviour) -/
def drawEach {α β : Type} (f : α → R → β × R) : List α → R → List β × R
  | [], r => ([], r)
  | a :: as, r => ((f a r).1 :: (drawEach f as (f a r).2).1, (drawEach f as (f a r).2).2)

/-- `size=n` (library behaviour) -/
def drawN {β : Type} (f : R → β × R) (n : ℕ) (r : R) : List β × R :=
  drawEach (fun _ => f) (List.replicate n ()) r

/-- `size=(n, d)` (library behaviour) -/
def drawMat {β : Type} (f : R → β × R) (n d : ℕ) (r : R) : List (List β) × R :=
  drawEach (fun _ => drawN f d) (List.replicate n ()) r

/-- A `reward_function` together with its `coef_function` and `random_state`, which are always the same ones: from the state of
the coefficient function, the contexts and the action contexts, the rows of expected rewards. -/
abbrev EnvRewardFn (C K : Type) := C → List (List K) → Arr2 K → Py (List (List K) × C)

/-- A `delay_function`: from its state, `n_rounds`, `n_actions` and `expected_rewards`, the rows of delays. -/
abbrev EnvDelayFn (D K : Type) := D → ℕ → ℕ → List (List K) → Py (List (List K) × D)

/-- The attributes of a `BanditEnvironmentSimulator` that do not change (`obp/simulator/simulator.py:135-169`). `reward_type` and
`reward_std` are kept although no method reads them. `expected` are the expected rewards drawn by the constructor. -/
structure Env (C D K : Type) where
  nActions : ℕ
  dimContext : ℕ
  rewardType : String
  rewardStd : K
  rewardFn : Option (EnvRewardFn C K)
  delayFn : Option (EnvDelayFn D K)
  actionContext : Arr2 K
  expected : List K

/-- The parts that change: the generator, and the states of the two functions. -/
structure EnvState (R C D : Type) where
  rng : R
  coef : C
  delay : D

/-- `BanditEnvironmentSimulator.__post_init__` (`obp/simulator/simulator.py:147-173`), with `r` the generator of the seed: the
expected rewards are drawn (`:156-157`) before the action context is checked. -/
def mkEnv (ops : EnvRng R K) (nActions dimContext : PyScalar K) (seed : Seed) (r : R) (rewardType : String) (rewardStd : K)
    (rewardFn : Option (EnvRewardFn C K)) (delayFn : Option (EnvDelayFn D K)) (actionContext : Option (Arg2 K)) (c : C) (d : D) :
    Py (Env C D K × EnvState R C D) := do
  let i ← initEnvironment nActions dimContext seed actionContext
  let q := match rewardFn with
    | none => drawN ops.uniform i.1.toNat r
    | some _ => ([], r)
  pure (⟨i.1.toNat, i.2.1.toNat, rewardType, rewardStd, rewardFn, delayFn, i.2.2, q.1⟩, ⟨q.2, c, d⟩)

/-- `obp/simulator/simulator.py:175-188` `calc_expected_reward` -/
def Env.expectedReward (e : Env C D K) (contexts : List (List K)) (s : EnvState R C D) :
    Py (List (List K) × EnvState R C D) :=
  match e.rewardFn with
  | none => .ok (List.replicate contexts.length e.expected, s)
  | some f => do
    let q ← f s.coef contexts e.actionContext
    pure (q.1, { s with coef := q.2 })

/-- `obp/simulator/simulator.py:190-193` `sample_reward_given_expected_reward`: numpy rejects probabilities outside `[0, 1]` before
it draws. -/
def envRewards (ops : EnvRng R K) (p : List (List K)) (s : EnvState R C D) : Py (List (List K) × EnvState R C D) := do
  raiseIf (p.any fun row => row.any fun x => x < 0 || 1 < x) .valueError
  let q := drawEach (fun row => drawEach (fun x r => (if (ops.bernoulli x r).1 then (1 : K) else 0, (ops.bernoulli x r).2)) row)
    p s.rng
  pure (q.1, { s with rng := q.2 })

/-- `obp/simulator/simulator.py:195-214` `sample_reward` -/
def Env.sampleReward (ops : EnvRng R K) (e : Env C D K) (context : Arg2 K) (s : EnvState R C D) :
    Py (List (List K) × EnvState R C D) := do
  let x ← checkArray2 context
  let q ← e.expectedReward (List.ofFn fun i => List.ofFn (x.val i)) s
  envRewards ops q.1 q.2

/-- `obp/simulator/simulator.py:216-224` `next_context_batch`; `next_context` is the case of one round. -/
def Env.contexts (ops : EnvRng R K) (e : Env C D K) (n : ℕ) (s : EnvState R C D) : List (List K) × EnvState R C D :=
  let q := drawMat ops.normal n e.dimContext s.rng
  (q.1, { s with rng := q.2 })

/-- `obp/simulator/simulator.py:268-274`: the delays, when there is a delay function. -/
def Env.delays (e : Env C D K) (n : ℕ) (p : List (List K)) (s : EnvState R C D) :
    Py (Option (List (List K)) × EnvState R C D) :=
  match e.delayFn with
  | none => .ok (none, s)
  | some f => do
    let q ← f s.delay n e.nActions p
    pure (some q.1, { s with delay := q.2 })

/-- A `BanditRound` with all its fields (`obp/simulator/simulator.py:32-39`). -/
structure EnvRound (K : Type) where
  nActions : ℕ
  context : SimContext K
  actionContext : SimContext K
  rewards : List K
  expected : List K
  delays : Option (List K)

/-- The fields that `BanditPolicySimulator` reads. -/
def EnvRound.sim (b : EnvRound K) : BanditRound K := ⟨b.context, b.rewards, b.delays⟩

/-- `obp/simulator/simulator.py:226-246` `next_bandit_round`: the context stays a matrix of one row, and `action_context` is the
row of the first action only. -/
def Env.nextRound (ops : EnvRng R K) (e : Env C D K) (s : EnvState R C D) : Py (EnvRound K × EnvState R C D) := do
  let x := e.contexts ops 1 s
  let p ← e.expectedReward x.1 x.2
  let w ← envRewards ops p.1 p.2
  let d ← e.delays 1 p.1 w.2
  let d0 ← match d.1 with
    | none => pure none
    | some ds => do
      let row ← npIndex ds 0
      pure (some row)
  let a0 ← npIndex (List.ofFn fun i => List.ofFn (e.actionContext.val i)) 0
  let w0 ← npIndex w.1 0
  let p0 ← npIndex p.1 0
  let c ← npIndex x.1 0
  pure (⟨e.nActions, .mat ⟨1, c.length, fun _ j => c.get j⟩, .vec a0, w0, p0, d0⟩, d.2)

/-- A `BanditRounds` object (`obp/simulator/simulator.py:42-50`). `idx` is the attribute of that name, absent before the first
`iter`. -/
structure EnvRounds (K : Type) where
  nRounds : ℕ
  nActions : ℕ
  context : List (List K)
  actionContext : Arr2 K
  rewards : List (List K)
  expected : List (List K)
  delays : Option (List (List K))
  idx : Option ℕ := none

/-- `obp/simulator/simulator.py:248-284` `next_bandit_round_batch` -/
def Env.nextBatch (ops : EnvRng R K) (e : Env C D K) (n : PyScalar K) (s : EnvState R C D) :
    Py (EnvRounds K × EnvState R C D) := do
  let m ← checkIntMin 1 n
  let x := e.contexts ops m.toNat s
  let p ← e.expectedReward x.1 x.2
  let w ← envRewards ops p.1 p.2
  let d ← e.delays x.1.length p.1 w.2
  pure (⟨m.toNat, e.nActions, x.1, e.actionContext, w.1, p.1, d.1, none⟩, d.2)

/-- `obp/simulator/simulator.py:52-65` `_get_bandit_round` at index `i` -/
def EnvRounds.get (b : EnvRounds K) (i : ℕ) : Py (EnvRound K) := do
  let d ← match b.delays with
    | none => pure none
    | some ds => do
      let row ← npIndex ds i
      pure (some row)
  let c ← npIndex b.context i
  let w ← npIndex b.rewards i
  let p ← npIndex b.expected i
  pure ⟨b.nActions, .vec c, .mat b.actionContext, w, p, d⟩

/-- `obp/simulator/simulator.py:67-69` `__iter__`: the object is its own iterator. -/
def EnvRounds.iter (b : EnvRounds K) : EnvRounds K := { b with idx := some 0 }

/-- `obp/simulator/simulator.py:71-77` `__next__`; `none` is StopIteration. -/
def EnvRounds.next (b : EnvRounds K) : Py (Option (EnvRound K) × EnvRounds K) :=
  match b.idx with
  | none => .error .attributeError
  | some i =>
    if i < b.nRounds then do
      let r ← b.get i
      pure (some r, { b with idx := some (i + 1) })
    else .ok (none, b)

/-- The iterations of `for r in rounds: body` after `iter` (Python's `for`): `body` may use the same `rounds` object. `α` is the rest of
the program's state. The result is `none` when the loop has not ended after `fuel` calls of `next`. -/
def EnvRounds.loop {α : Type} (body : EnvRound K → α → EnvRounds K → Py (α × EnvRounds K)) :
    ℕ → α → EnvRounds K → Py (Option (α × EnvRounds K))
  | 0, _, _ => .ok none
  | fuel + 1, x, b => do
    let q ← b.next
    match q.1 with
    | none => pure (some (x, q.2))
    | some r => do
      let y ← body r x q.2
      EnvRounds.loop body fuel y.1 y.2

/-- `for r in rounds: body` -/
def EnvRounds.forEach {α : Type} (body : EnvRound K → α → EnvRounds K → Py (α × EnvRounds K)) (fuel : ℕ) (x : α)
    (b : EnvRounds K) : Py (Option (α × EnvRounds K)) :=
  EnvRounds.loop body fuel x b.iter

/-- `list(rounds)` -/
def EnvRounds.toList (fuel : ℕ) (b : EnvRounds K) : Py (Option (List (EnvRound K) × EnvRounds K)) :=
  b.forEach (fun r xs b => .ok (xs ++ [r], b)) fuel []

/-- `step()` repeated `n` times (`obp/simulator/simulator.py:327-334, 386-388`). -/
def simStepsFresh (ops : EnvRng R K) (e : Env C D K) (pol : SimPolicy S K) :
    ℕ → SimState S K → EnvState R C D → Py (SimState S K × EnvState R C D)
  | 0, s, t => .ok (s, t)
  | n + 1, s, t => do
    let b ← e.nextRound ops t
    let s ← simStep pol b.1.sim s
    simStepsFresh ops e pol n s b.2

/-- `obp/simulator/simulator.py:383-391` `steps`. `n_rounds=None` and `n_rounds=0` skip the first loop, `batch_bandit_rounds=None` and a
batch of length zero the second. -/
def simStepsCall (ops : EnvRng R K) (e : Env C D K) (pol : SimPolicy S K) (n : Option ℕ) (batch : Option (EnvRounds K)) (fuel : ℕ)
    (s : SimState S K) (t : EnvState R C D) : Py (Option (SimState S K × EnvState R C D × Option (EnvRounds K))) := do
  let q ← simStepsFresh ops e pol (n.getD 0) s t
  match batch with
  | none => pure (some (q.1, q.2, none))
  | some b =>
    if b.nRounds = 0 then pure (some (q.1, q.2, some b))
    else do
      let u ← b.forEach (fun r s b => do
        let s ← simStep pol r.sim s
        pure (s, b)) fuel q.1
      pure (u.map fun y => (y.1, q.2, some y.2))

/-! ### `ExponentialDelaySampler` as a delay function -/

/-- `ExponentialDelaySampler.__post_init__` (`obp/simulator/delay_sampler.py:29-32`) -/
def mkDelaySampler (seed : Seed) : Py Unit := checkSeed seed

/-- `exponential_delay_function` (`obp/simulator/delay_sampler.py:34-68`) as a delay function: `exponential` is one standard exponential
draw, multiplied by `max_scale`, which numpy rejects when negative. The keyword `expected_rewards` is ignored. -/
def delayFnPerRound [FloorRing K] (exponential : R → K × R) (maxScale : K) : EnvDelayFn R K := fun r n nActions _ => do
  raiseIf (maxScale < 0) .valueError
  let q := drawN exponential n r
  pure (delayPerRound nActions (q.1.map (maxScale * ·)), q.2)

/-- `exponential_delay_function_expected_reward_weighted` (`obp/simulator/delay_sampler.py:70-96`) as a delay function: `n_rounds` and
`n_actions` are ignored. -/
def delayFnWeighted [FloorRing K] (exponential : R → K × R) (minScale maxScale : K) : EnvDelayFn R K := fun r _ _ p => do
  let q := drawEach (fun row => drawEach (fun _ => exponential) row) p r
  let ds ← delayWeighted minScale maxScale p q.1
  pure (ds, q.2)

end

end Obp
