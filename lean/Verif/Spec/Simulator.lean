import Verif.Model.Simulator

/-!
# Vocabulary for simulator properties

What a policy object can observe: the calls made on it. `recording pol` is `pol` with a log of the calls.
-/

namespace Obp

section
variable {S K : Type}

/-- A call made on a policy object, with what was returned or passed. -/
inductive PolicyCall (K : Type)
  | select (context : Option (Arg2 K)) (returned : List ℤ)
  | update (context : Option (Arg2 K)) (action : ℤ) (reward : K)

/-- The call is an `update_params` call. -/
def PolicyCall.isUpdate : PolicyCall K → Bool
  | .update .. => true
  | .select .. => false

/-- The policy `pol`, which also writes down every call made on it that does not raise. -/
def recording (pol : SimPolicy S K) : SimPolicy (S × List (PolicyCall K)) K where
  kind := pol.kind
  select s c := (pol.select s.1 c).map fun q => (q.1, q.2, s.2 ++ [.select c q.1])
  update s c a r := (pol.update s.1 c a r).map fun p => (p, s.2 ++ [.update c a r])

/-- A simulator with a recording policy. -/
abbrev RecState (S K : Type) := SimState (S × List (PolicyCall K)) K

/-- A simulator without the log of calls. -/
def SimState.erase (s : RecState S K) : SimState S K where
  policy := s.policy.1
  selected := s.selected
  obtained := s.obtained
  groundTruth := s.groundTruth
  contexts := s.contexts
  total := s.total
  played := s.played
  lookup := s.lookup

/-- A policy that can be used with `A` actions: it always selects and always accepts an update. -/
structure SimPolicy.Total (pol : SimPolicy S K) (A : ℕ) : Prop where
  kind : pol.kind ≠ .offline
  select : ∀ s c, ∃ (a : Fin A) (l : List ℤ) (s' : S), pol.select s c = .ok ((a : ℤ) :: l, s')
  update : ∀ s c a r, ∃ s', pol.update s c a r = .ok s'

/-- What a policy of a kind gets to see of a context. -/
def seen (k : PolicyKind) (c : Arg2 K) : Option (Arg2 K) := if k = .contextual then some c else none

/-- One round of a simulation as it was played: the round, what the policy returned, the action taken, the
reward obtained and the delay of that action (`none` if the round has no delays). -/
structure Played (K : Type) where
  round : BanditRound K
  returned : List ℤ
  action : ℤ
  reward : K
  delay : Option K

instance [Zero K] : Inhabited (Played K) := ⟨⟨⟨.vec [], [], none⟩, [], 0, 0, none⟩⟩

/-- The action is the first one returned; reward and delay are those of the round for that action. -/
structure Played.Valid (p : Played K) : Prop where
  action : p.returned.head? = some p.action
  reward : npIndex p.round.rewards p.action = .ok p.reward
  delay : match p.round.delays with
    | none => p.delay = none
    | some ds => ∃ d, npIndex ds p.action = .ok d ∧ p.delay = some d

/-- The `update_params` call that belongs to a played round. -/
def Played.updateCall (k : PolicyKind) (p : Played K) : PolicyCall K :=
  .update (seen k p.round.context.expand) p.action p.reward

/-- The `select_action` call that belongs to a played round. -/
def Played.selectCall (k : PolicyKind) (p : Played K) : PolicyCall K :=
  .select (seen k p.round.context.expand) p.returned

/-- The attributes of a simulator hold the history `h` of the rounds played so far. -/
structure IsHistory (s : SimState S K) (h : ℕ → Played K) : Prop where
  valid : ∀ i < s.played, (h i).Valid
  contexts : s.contexts = (List.range s.played).map fun i => (h i).round.context
  groundTruth : s.groundTruth = (List.range s.played).map fun i => (h i).round.rewards
  selected : s.selected = (List.range s.played).map fun i => (h i).action
  obtained : s.obtained = (List.range s.played).map fun i => (h i).reward

open Classical in
/-- The feedback of round `i` is due at the end of round `j`: at once without delays, else when
`i + delay = j`. Rounds without delays do not look at earlier rounds. -/
noncomputable def dueAt [Add K] [NatCast K] (h : ℕ → Played K) (i j : ℕ) : Bool :=
  match (h i).delay, (h j).delay with
  | none, _ => decide (i = j)
  | some d, some _ => decide (d + (i : K) = (j : K))
  | some _, none => false

/-- The calls made on the policy during `n` rounds starting with round `t` and an empty queue: in each round a
selection, then the updates that are due, oldest round first. -/
noncomputable def segmentLog [Add K] [NatCast K] (k : PolicyKind) (h : ℕ → Played K) (t n : ℕ) :
    List (PolicyCall K) :=
  (List.range' t n).flatMap fun j =>
    (h j).selectCall k ::
      ((List.range' t (j + 1 - t)).filter (dueAt h · j)).map fun i => (h i).updateCall k

/-- The rounds of a list of operations. -/
def opRounds : List (SimOp K) → List (BanditRound K)
  | [] => []
  | .step b :: ops => b :: opRounds ops
  | .clear :: ops => opRounds ops

/-! ### logs for replay and ground truth -/

/-- A log for `run_bandit_replay`: one context row, logged action, reward and propensity per round, and positions
or none. -/
structure ReplayLog (K : Type) (n d : ℕ) where
  context : Fin n → Fin d → K
  action : Fin n → ℕ
  reward : Fin n → K
  position : Option (Fin n → ℕ)
  pscore : Fin n → K

/-- The log as arrays. -/
def ReplayLog.args {n d : ℕ} (g : ReplayLog K n d) : ReplayArgs K where
  context := .arr ⟨n, d, g.context⟩
  action := .int (List.ofFn fun i => (g.action i : ℤ))
  reward := .flt (List.ofFn g.reward)
  position := match g.position with
    | none => .none
    | some p => .int (List.ofFn fun i => (p i : ℤ))
  pscore := .flt (List.ofFn g.pscore)

/-- The position of a round; 0 when none are given. -/
def ReplayLog.pos {n d : ℕ} (g : ReplayLog K n d) (i : Fin n) : ℕ :=
  match g.position with
  | none => 0
  | some p => p i

/-- The context of a round as the policy gets it: an array with one row. -/
def rowArg {d : ℕ} (x : Fin d → K) : Arg2 K := .arr ⟨1, d, fun _ j => x j⟩

/-- The calls a replay makes in round `i` if the policy returns `selected`: the selection, and an update with the
logged reward if the selection at the logged position is the logged action. -/
def ReplayLog.calls {n d : ℕ} (g : ReplayLog K n d) (k : PolicyKind) (i : Fin n) (selected : List ℤ) :
    List (PolicyCall K) :=
  .select (seen k (rowArg (g.context i))) selected ::
    if selected[g.pos i]? = some (g.action i : ℤ) then
      [.update (seen k (rowArg (g.context i))) (g.action i) (g.reward i)]
    else []

/-- A log for `calc_ground_truth_policy_value` with `A` actions. -/
structure TruthLog (K : Type) (n d A : ℕ) where
  context : Fin n → Fin d → K
  action : Fin n → Fin A
  reward : Fin n → K
  position : Option (Fin n → ℕ)
  expected : Fin n → Fin A → K

/-- The log as arrays. -/
def TruthLog.args {n d A : ℕ} (g : TruthLog K n d A) : TruthArgs K where
  context := .arr ⟨n, d, g.context⟩
  action := .int (List.ofFn fun i => ((g.action i : ℕ) : ℤ))
  reward := .flt (List.ofFn g.reward)
  expectedReward := .arr ⟨n, A, g.expected⟩
  position := match g.position with
    | none => .none
    | some p => .int (List.ofFn fun i => (p i : ℤ))
  nRounds := n

/-- A simulation of rounds `is` with a policy in state `p` and random state `g`: in every round the policy
selects, the action at position `pos` is taken, a reward is drawn for it and given to the policy. `acts` are the
actions taken. -/
inductive Plays {G : Type} {n d A : ℕ} (pol : SimPolicy S K) (sampler : G → List K → ℤ → K × G)
    (log : TruthLog K n d A) (pos : Fin n → ℕ) :
    List (Fin n) → S → G → List (Fin A) → S → G → Prop
  | nil {p g} : Plays pol sampler log pos [] p g [] p g
  | cons {i is p p₁ p₂ p₃ g g₁ g₂ l z a acts r}
      (select : pol.select p (seen pol.kind (rowArg (log.context i))) = .ok (l, p₁))
      (taken : l[pos i]? = some z) (action : wrapIdx A z = some a)
      (reward : sampler g (List.ofFn (log.context i)) z = (r, g₁))
      (update : pol.update p₁ (seen pol.kind (rowArg (log.context i))) z r = .ok p₂)
      (rest : Plays pol sampler log pos is p₂ g₁ acts p₃ g₂) :
      Plays pol sampler log pos (i :: is) p g (a :: acts) p₃ g₂

/-- Several simulations one after the other, each from the same policy state; only the random state of the reward
sampler is carried over. -/
inductive Simulations {G : Type} {n d A : ℕ} (pol : SimPolicy S K) (sampler : G → List K → ℤ → K × G)
    (log : TruthLog K n d A) (pos : Fin n → ℕ) (p : S) : G → List (List (Fin A)) → Prop
  | nil {g} : Simulations pol sampler log pos p g []
  | cons {g g' acts p' rest} (first : Plays pol sampler log pos (List.finRange n) p g acts p' g')
      (others : Simulations pol sampler log pos p g' rest) :
      Simulations pol sampler log pos p g (acts :: rest)

/-! ### coefficient drift -/

section
variable [Field K] [LinearOrder K] {ι : Type}

/-- Sampled weights are zero or one, as `binomial(n=1, p)` returns. -/
def DrifterConfig.FlipsValid (c : DrifterConfig K ι) : Prop := ∀ k j p, c.flip k j p = 0 ∨ c.flip k j p = 1

/-- `get_coefficients(n)` on a drifter in state `s` returns the rows `rows` and leaves it in state `s'`. -/
def CoefReturns (c : DrifterConfig K ι) (s : DrifterState K ι) (n : ℕ) (rows : List (ι → K))
    (s' : DrifterState K ι) : Prop :=
  ∃ fuel, getCoefficients c fuel n s = some (.ok (rows, s'))

/-- The states of a drifter: after construction, and after any calls of `get_coefficients` that return. -/
inductive DrifterReach (c : DrifterConfig K ι) : DrifterState K ι → Prop
  | init : DrifterReach c (drifterInit c)
  | call {s s' n rows} (h : DrifterReach c s) (r : CoefReturns c s n rows s') : DrifterReach c s'

end

end

end Obp
