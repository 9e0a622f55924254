import Verif.Spec.Policy
import Verif.Model.Simulator
import Mathlib.Probability.Independence.Basic
import Mathlib.Probability.IdentDistrib
import Mathlib.MeasureTheory.Integral.Bochner.Basic

/-!
# An online bandit experiment with `EpsilonGreedy`

The policy plays in a stationary environment, through `BanditPolicySimulator`. What is random: per selection the uniform
number of the generator and the list it would pick at random, and per round the rewards of all actions.
-/

namespace Obp
open MeasureTheory ProbabilityTheory

/-- The random draws of an experiment. -/
inductive Draw
  | rand (t : ℕ)
  | choice (t : ℕ)
  | rewards (t : ℕ)

/-- What each draw reveals. -/
@[reducible]
def Draw.sigma {Ω : Type} {n : ℕ} (u : ℕ → Ω → ℝ) (c : ℕ → Ω → List ℕ) (r : ℕ → Ω → Fin n → ℝ) :
    Draw → MeasurableSpace Ω
  | .rand t => MeasurableSpace.comap (u t) inferInstance
  | .choice t => MeasurableSpace.comap (c t) ⊤
  | .rewards t => MeasurableSpace.comap (r t) inferInstance

/-- A stationary experiment with `n` actions and lists of length `L`: the draws are independent, the uniform numbers are
uniform on [0, 1], lists are rankings with each action equally likely in front, and the rewards of the rounds have the same,
bounded distribution (within a round they may depend on each other). -/
structure BanditWorld {Ω : Type} [MeasurableSpace Ω] (P : Measure Ω) (n L : ℕ) where
  /-- the value of `random_.rand()` at selection `t` -/
  u : ℕ → Ω → ℝ
  /-- the value of `random_.choice(n_actions, size=len_list, replace=False)` at selection `t`, if it is called -/
  c : ℕ → Ω → List ℕ
  /-- the rewards of round `t` -/
  r : ℕ → Ω → Fin n → ℝ
  measurable_u : ∀ t, Measurable (u t)
  measurable_c : ∀ t l, MeasurableSet {ω | c t ω = l}
  measurable_r : ∀ t, Measurable (r t)
  independent : iIndep (Draw.sigma u c r) P
  uniform_u : ∀ t x, 0 ≤ x → x ≤ 1 → P.real {ω | u t ω ≤ x} = x
  ranking_c : ∀ t ω, IsRanking n L (c t ω)
  uniform_c : ∀ t (a : Fin n), P.real {ω | (c t ω).head? = some a.val} = 1 / n
  stationary : ∀ t, IdentDistrib (r t) (r 0) P P
  bounded : ∃ B, ∀ t ω a, |r t ω a| ≤ B

namespace BanditWorld

variable {Ω : Type} [MeasurableSpace Ω] {P : Measure Ω} {n L : ℕ}

/-- The expected reward of an action. -/
noncomputable def mean (W : BanditWorld P n L) (a : Fin n) : ℝ := ∫ ω, W.r 0 ω a ∂P

/-- The generator of the experiment, as a state machine: its state counts the calls of `rand`, and `choice` answers with the
draw that belongs to the last `rand`. (`EpsilonGreedy` calls `rand` once per selection and then `choice` at most once, and it
never calls `beta`.) -/
def rng (W : BanditWorld P n L) (ω : Ω) : Rng ℕ ℝ where
  seeded := 0
  rand := fun i => (W.u i ω, i + 1)
  choice := fun i _ _ => (W.c (i - 1) ω, i)
  beta := fun i _ a _ => (a, i)

/-- The rounds handed to the simulator: `T` of them, with any contexts, without delays. -/
def rounds (W : BanditWorld P n L) (ctx : ℕ → SimContext ℝ) (ω : Ω) (T : ℕ) : List (BanditRound ℝ) :=
  (List.range T).map fun t => ⟨ctx t, List.ofFn (W.r t ω), none⟩

end BanditWorld

/-- A context-free policy as `BanditPolicySimulator` uses it: `select_action()` and `update_params(action, reward)`. -/
def cfPolicy {R K : Type} [Field K] [LinearOrder K] (ops : Rng R K) (argsort : List K → List ℕ) (cfg : CfConfig)
    (cl : CfClass K cfg.nActions) : SimPolicy (CfState R K cfg.nActions) K where
  kind := .contextFree
  select := fun s _ =>
    match cl.select ops argsort cfg.lenList s with
    | (.ok l, s) => .ok (l.map fun (a : ℕ) => (a : ℤ), s)
    | (.error e, _) => .error e
  update := fun s _ a r =>
    match s.updateParams cfg.batchSize a r with
    | (.ok _, s) => .ok s
    | (.error e, _) => .error e

end Obp
