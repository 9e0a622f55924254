import Verif.Model.Numpy

/-!
# The context-free policies (`obp/policy/base.py`, `obp/policy/contextfree.py`)

A policy object is its configuration (constructor arguments) and its state. The generator
`self.random_` is an arbitrary state machine: `Rng` lists the methods the policies call. Arrays of
length `n_actions` are functions on `Fin n`. `argsort` stands for `np.argsort`, whose order on ties
is unspecified. Floats are a linearly ordered field.
-/

namespace Obp

variable {K : Type}

/-- The methods of `np.random.RandomState` that the policies call; each returns its result and the new
state of the generator. (Library behaviour.) -/
structure Rng (R K : Type) where
  /-- `check_random_state(self.random_state)` for the integer seed of the policy -/
  seeded : R
  /-- `rand()` -/
  rand : R → K × R
  /-- `choice(n, size=k, replace=False)` -/
  choice : R → ℕ → ℕ → List ℕ × R
  /-- `beta(a, b)` for arrays of one length, entry by entry -/
  beta : R → {n : ℕ} → (Fin n → K) → (Fin n → K) → (Fin n → K) × R

/-- The constructor arguments of `BaseContextFreePolicy` (`obp/policy/base.py:38-41`). -/
structure CfConfig where
  nActions : ℕ
  lenList : ℕ
  batchSize : ℕ

/-- The checks of `BaseContextFreePolicy.__post_init__` (`obp/policy/base.py:45-47`), for integer
arguments (`check_scalar` raises TypeError for others). -/
def mkCfConfig (nActions lenList batchSize : ℤ) : Py CfConfig := do
  raiseIf (nActions < 2) .valueError
  raiseIf (lenList < 1 || nActions < lenList) .valueError
  raiseIf (batchSize < 1) .valueError
  pure ⟨nActions.toNat, lenList.toNat, batchSize.toNat⟩

/-- The attributes of a context-free policy (`obp/policy/base.py:48-53`). -/
structure CfState (R K : Type) (n : ℕ) where
  nTrial : ℕ
  rng : R
  actionCounts : Fin n → ℕ
  actionCountsTemp : Fin n → ℕ
  rewardCountsTemp : Fin n → K
  rewardCounts : Fin n → K

/-- Which class, with the constructor arguments of its own: `EpsilonGreedy`
(`obp/policy/contextfree.py:51`; `Random` at 97-123 is the same class with the default
`epsilon = 1`), `BernoulliTS` (186-204, after the defaults have been filled in; a prior is an array
of length `n_actions`). -/
inductive CfClass (K : Type) (n : ℕ)
  | egreedy (epsilon : K)
  | bts (alpha beta : Fin n → K)

section
variable [Field K] [LinearOrder K] {R : Type}

/-- The state set up by `__post_init__` (`obp/policy/base.py:48-53`). -/
def CfState.init (ops : Rng R K) (n : ℕ) : CfState R K n where
  nTrial := 0
  rng := ops.seeded
  actionCounts := fun _ => 0
  actionCountsTemp := fun _ => 0
  rewardCountsTemp := fun _ => 0
  rewardCounts := fun _ => 0

/-- `initialize` (`obp/policy/base.py:62-67`). -/
def CfState.initialize (ops : Rng R K) {n : ℕ} (s : CfState R K n) : CfState R K n :=
  { s with
    nTrial := 0
    rng := ops.seeded
    actionCounts := fun _ => 0
    actionCountsTemp := fun _ => 0
    rewardCountsTemp := fun _ => 0
    rewardCounts := fun _ => 0 }

/-- `update_params` (`obp/policy/contextfree.py:88-93` and, identically, 233-238). The result is the
exception, if any, and the state left behind; `action` is any Python integer. -/
def CfState.updateParams (batchSize : ℕ) {n : ℕ} (s : CfState R K n) (action : ℤ) (reward : K) :
    Py Unit × CfState R K n :=
  let s := { s with nTrial := s.nTrial + 1 }
  match wrapIdx n action with
  | none => (.error .indexError, s)
  | some a =>
    let s := { s with
      actionCountsTemp := Function.update s.actionCountsTemp a (s.actionCountsTemp a + 1)
      rewardCountsTemp := Function.update s.rewardCountsTemp a (s.rewardCountsTemp a + reward) }
    if s.nTrial % batchSize = 0 then
      (.ok (), { s with actionCounts := s.actionCountsTemp, rewardCounts := s.rewardCountsTemp })
    else (.ok (), s)

/-- `scores.argsort()[::-1][:len_list]` (`obp/policy/contextfree.py:70, 219`). -/
def topRanking (argsort : List K → List ℕ) (scores : List K) (lenList : ℕ) : List ℕ :=
  (argsort scores).reverse.take lenList

/-- `EpsilonGreedy.select_action` (`obp/policy/contextfree.py:68-74`). -/
def egreedySelect (ops : Rng R K) (argsort : List K → List ℕ) (lenList : ℕ) (epsilon : K) {n : ℕ}
    (s : CfState R K n) : Py (List ℕ) × CfState R K n :=
  let (u, r) := ops.rand s.rng
  if epsilon < u ∧ ∀ a, 0 < s.actionCounts a then
    (.ok (topRanking argsort (List.ofFn fun a => s.rewardCounts a / (s.actionCounts a : K)) lenList),
      { s with rng := r })
  else
    let (l, r) := ops.choice r n lenList
    (.ok l, { s with rng := r })

/-- The first parameter of the Beta distributions (`obp/policy/contextfree.py:216`). -/
def btsA {n : ℕ} (alpha : Fin n → K) (s : CfState R K n) (a : Fin n) : K := s.rewardCounts a + alpha a

/-- The second parameter of the Beta distributions (`obp/policy/contextfree.py:217`). -/
def btsB {n : ℕ} (beta : Fin n → K) (s : CfState R K n) (a : Fin n) : K :=
  ((s.actionCounts a : K) - s.rewardCounts a) + beta a

/-- `BernoulliTS.select_action` (`obp/policy/contextfree.py:215-219`); `RandomState.beta` raises
ValueError unless all parameters are positive. -/
def btsSelect (ops : Rng R K) (argsort : List K → List ℕ) (lenList : ℕ) {n : ℕ}
    (alpha beta : Fin n → K) (s : CfState R K n) : Py (List ℕ) × CfState R K n :=
  if ∀ a, 0 < btsA alpha s a ∧ 0 < btsB beta s a then
    let (x, r) := ops.beta s.rng (btsA alpha s) (btsB beta s)
    (.ok (topRanking argsort (List.ofFn x) lenList), { s with rng := r })
  else (.error .valueError, s)

/-- `select_action` of either class. -/
def CfClass.select (ops : Rng R K) (argsort : List K → List ℕ) (lenList : ℕ) {n : ℕ}
    (c : CfClass K n) (s : CfState R K n) : Py (List ℕ) × CfState R K n :=
  match c with
  | .egreedy epsilon => egreedySelect ops argsort lenList epsilon s
  | .bts alpha beta => btsSelect ops argsort lenList alpha beta s

/-- `Random.compute_batch_action_dist` (`obp/policy/contextfree.py:143-146`). -/
def randomBatchDist (nRounds nActions lenList : ℕ) : Py (Arr3 K) := do
  let p ← npDiv 1 (nActions : K)
  pure ⟨nRounds, nActions, lenList, fun _ _ _ => 1 * p⟩

/-- `for pos in np.arange(self.len_list): action_count[selected_actions[pos], pos] += 1`
(`obp/policy/contextfree.py:265-266`), at position `pos` and later. -/
def countSelection {n : ℕ} (count : Fin n → ℕ → ℕ) (selected : List ℕ) (pos : ℕ) :
    ℕ → Py (Fin n → ℕ → ℕ)
  | 0 => .ok count
  | k + 1 =>
    match selected[pos]? with
    | none => .error .indexError
    | some a =>
      if h : a < n then
        countSelection (fun b p => if b = ⟨a, h⟩ ∧ p = pos then count b p + 1 else count b p)
          selected (pos + 1) k
      else .error .indexError

/-- The loop of `compute_batch_action_dist` (`obp/policy/contextfree.py:263-266`). -/
def simulateCounts (ops : Rng R K) (argsort : List K → List ℕ) (lenList : ℕ) {n : ℕ}
    (alpha beta : Fin n → K) : ℕ → CfState R K n → (Fin n → ℕ → ℕ) → Py (Fin n → ℕ → ℕ) × CfState R K n
  | 0, s, count => (.ok count, s)
  | k + 1, s, count =>
    match btsSelect ops argsort lenList alpha beta s with
    | (.error e, s) => (.error e, s)
    | (.ok selected, s) =>
      match countSelection count selected 0 lenList with
      | .error e => (.error e, s)
      | .ok count => simulateCounts ops argsort lenList alpha beta k s count

/-- `BernoulliTS.compute_batch_action_dist` (`obp/policy/contextfree.py:262-271`). With `n_sim = 0` all
entries are 0/0. -/
def btsBatchDist (ops : Rng R K) (argsort : List K → List ℕ) (lenList : ℕ) {n : ℕ}
    (alpha beta : Fin n → K) (nRounds nSim : ℕ) (s : CfState R K n) : Py (Arr3 K) × CfState R K n :=
  match simulateCounts ops argsort lenList alpha beta nSim s (fun _ _ => 0) with
  | (.error e, s) => (.error e, s)
  | (.ok count, s) =>
    if nSim = 0 then (.error .nonFinite, s)
    else (.ok ⟨nRounds, n, lenList, fun _ a p => (count a p : K) / (nSim : K)⟩, s)

/-- A call on a context-free policy. -/
inductive CfCall (K : Type)
  | update (action : ℤ) (reward : K)
  | select
  | reset

/-- The state after a call. -/
def CfClass.step (ops : Rng R K) (argsort : List K → List ℕ) (cfg : CfConfig)
    (c : CfClass K cfg.nActions) (s : CfState R K cfg.nActions) : CfCall K → CfState R K cfg.nActions
  | .update action reward => (s.updateParams cfg.batchSize action reward).2
  | .select => (c.select ops argsort cfg.lenList s).2
  | .reset => s.initialize ops

/-- The state after a history of calls on a new policy. -/
def CfClass.run (ops : Rng R K) (argsort : List K → List ℕ) (cfg : CfConfig)
    (c : CfClass K cfg.nActions) (calls : List (CfCall K)) : CfState R K cfg.nActions :=
  calls.foldl (c.step ops argsort cfg) (CfState.init ops cfg.nActions)

end

end Obp
