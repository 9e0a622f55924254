import Verif.Spec.BanditWorld
import Mathlib.Probability.Distributions.Beta

/-!
# An online bandit experiment with `BernoulliTS`

The policy plays in a stationary environment with binary rewards, through `BanditPolicySimulator`. What is random: per selection
and action the number the generator answers for each pair of Beta parameters, and per round the rewards of all actions.
-/

namespace Obp
open MeasureTheory ProbabilityTheory

/-- The random draws of an experiment. -/
inductive TsDraw
  | beta (t a : ℕ)
  | rewards (t : ℕ)

/-- What each draw reveals. -/
@[reducible]
def TsDraw.sigma {Ω : Type} {n : ℕ} (θ : ℕ → ℕ → Ω → ℝ × ℝ → ℝ) (r : ℕ → Ω → Fin n → ℝ) : TsDraw → MeasurableSpace Ω
  | .beta t a => MeasurableSpace.comap (θ t a) inferInstance
  | .rewards t => MeasurableSpace.comap (r t) inferInstance

/-- A stationary experiment with `n` actions and binary rewards: the draws are independent, a number drawn with positive
parameters has the Beta distribution with these parameters, and the rewards of the rounds have the same distribution (within a
round they may depend on each other). -/
structure ThompsonWorld {Ω : Type} [MeasurableSpace Ω] (P : Measure Ω) (n : ℕ) where
  /-- the entry of `random_.beta(a, b)` for action `x` at selection `t`, as a function of the two parameters -/
  θ : ℕ → ℕ → Ω → ℝ × ℝ → ℝ
  /-- the rewards of round `t` -/
  r : ℕ → Ω → Fin n → ℝ
  measurable_θ : ∀ t x, Measurable (θ t x)
  measurable_r : ∀ t, Measurable (r t)
  independent : iIndep (TsDraw.sigma θ r) P
  beta_θ : ∀ t x (a b : ℝ), 0 < a → 0 < b → P.map (fun ω => θ t x ω (a, b)) = betaMeasure a b
  stationary : ∀ t, IdentDistrib (r t) (r 0) P P
  binary : ∀ t ω a, r t ω a = 0 ∨ r t ω a = 1

namespace ThompsonWorld

variable {Ω : Type} [MeasurableSpace Ω] {P : Measure Ω} {n : ℕ}

/-- The expected reward of an action. -/
noncomputable def mean (W : ThompsonWorld P n) (a : Fin n) : ℝ := ∫ ω, W.r 0 ω a ∂P

/-- The generator of the experiment, as a state machine: its state counts the calls of `beta`. (`BernoulliTS` calls `beta` once
per selection, and nothing else.) -/
def rng (W : ThompsonWorld P n) (ω : Ω) : Rng ℕ ℝ where
  seeded := 0
  rand := fun i => (0, i)
  choice := fun i _ k => (List.range k, i)
  beta := fun i _ a b => (fun x => W.θ i x.val ω (a x, b x), i + 1)

/-- The rounds handed to the simulator: `T` of them, with any contexts, without delays. -/
def rounds (W : ThompsonWorld P n) (ctx : ℕ → SimContext ℝ) (ω : Ω) (T : ℕ) : List (BanditRound ℝ) :=
  (List.range T).map fun t => ⟨ctx t, List.ofFn (W.r t ω), none⟩

end ThompsonWorld

end Obp
