import Verif.Spec.BanditWorld
import Verif.Spec.LinearWorld

/-!
# An online experiment with `LinEpsilonGreedy`

What is random: per selection the uniform number of the generator and the list it would pick at random, and per round the
rewards of all actions. Unlike in `BanditWorld` the rewards of the rounds need not have the same distribution.
-/

namespace Obp
open MeasureTheory ProbabilityTheory

/-- An experiment with `n` actions and lists of length `L`: the draws are independent, the uniform numbers are uniform on
[0, 1], lists are rankings with each action equally likely in front. Within a round the rewards may depend on each other. -/
structure ExploreWorld {Ω : Type} [MeasurableSpace Ω] (P : Measure Ω) (n L : ℕ) where
  /-- the value of `random_.rand()` at selection `t` -/
  u : ℕ → Ω → ℝ
  /-- the value of `random_.choice(n_actions, size=len_list, replace=False)` at selection `t`, if it is called -/
  c : ℕ → Ω → List ℕ
  /-- the rewards of round `t` -/
  r : ℕ → Ω → Fin n → ℝ
  measurable_u : ∀ t, Measurable (u t)
  measurable_c : ∀ t l, MeasurableSet {ω | c t ω = l}
  measurable_r : ∀ t, Measurable (r t)
  independent : iIndep (Draw.sigma u c r) P
  uniform_u : ∀ t x, 0 ≤ x → x ≤ 1 → P.real {ω | u t ω ≤ x} = x
  ranking_c : ∀ t ω, IsRanking n L (c t ω)
  uniform_c : ∀ t (a : Fin n), P.real {ω | (c t ω).head? = some a.val} = 1 / n

namespace ExploreWorld

variable {Ω : Type} [MeasurableSpace Ω] {P : Measure Ω} {n L : ℕ}

/-- The generator of the experiment, as a state machine: its state counts the calls of `rand`, and `choice` answers with the
draw that belongs to the last `rand`. (`LinEpsilonGreedy` calls `rand` once per selection and then `choice` at most once, and it
never calls the other methods.) -/
def rng (W : ExploreWorld P n L) (ω : Ω) : GaussRng ℕ where
  seeded := 0
  rand := fun i => (W.u i ω, i + 1)
  choice := fun i _ _ => (W.c (i - 1) ω, i)
  beta := fun i _ a _ => (a, i)
  multivariateNormal := fun i _ mean _ => (mean, i)
  normal := fun i _ mean _ => (mean, i)

end ExploreWorld

end Obp
