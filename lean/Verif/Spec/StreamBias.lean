import Verif.Spec.Bias
import Verif.Spec.LogStream
import Mathlib.Analysis.SpecialFunctions.Pow.Real

/-!
# Bias and range of estimates with clipped, switched or shrunk weights from growing logs
-/

namespace Obp
open MeasureTheory Filter Topology

namespace LogStream
variable {Ω C : Type} [MeasurableSpace Ω] [MeasurableSpace C] {A L : ℕ}

/-- The evaluation policy is a policy; it may take actions that are never logged. `pos c` is the position of rounds with context
`c`. -/
structure IsPolicy (pos : C → Fin L) (piE : C → Fin A → Fin L → ℝ) : Prop where
  dist : ∀ c l, IsDist fun a => piE c a l
  meas : ∀ a, Measurable fun c => piE c a (pos c)

/-- The mean over the contexts of the evaluation probability that is not evaluated from logged rewards, times the error made in its
place. -/
noncomputable def bias (s : LogStream Ω C A) (P : Measure Ω) (piB m : C → Fin A → ℝ) (pos : C → Fin L) (piE q : C → Fin A → Fin L → ℝ)
    (k : Kind) (l : ℝ) : ℝ :=
  ∫ ω, ∑ a, lostProb k l (piE (s.ctx 0 ω) a (pos (s.ctx 0 ω))) (piB (s.ctx 0 ω) a) *
    (k.fallback (q (s.ctx 0 ω) a (pos (s.ctx 0 ω))) - m (s.ctx 0 ω) a) ∂P

/-- The mean over the contexts of the evaluation probability that is not evaluated from logged rewards. -/
noncomputable def lost (s : LogStream Ω C A) (P : Measure Ω) (piB : C → Fin A → ℝ) (pos : C → Fin L) (piE : C → Fin A → Fin L → ℝ)
    (k : Kind) (l : ℝ) : ℝ :=
  ∫ ω, ∑ a, |lostProb k l (piE (s.ctx 0 ω) a (pos (s.ctx 0 ω))) (piB (s.ctx 0 ω) a)| ∂P

end LogStream

/-- The largest weight that an estimator with `lambda_ = l` gives to a logged reward. -/
noncomputable def Kind.maxWeight (k : Kind) (l : ℝ) : ℝ :=
  match k with
  | .ipw | .dr | .switchDr => l
  | .drOs => Real.sqrt l / 2
  | .sgIpw | .sgDr => 1 / l
  | _ => 0

/-- The range of the contribution of a round, with rewards and predictions in `[0, 1]`. -/
noncomputable def Kind.spread (k : Kind) (l : ℝ) : ℝ :=
  match k with
  | .ipw | .sgIpw => k.maxWeight l
  | _ => 1 + 2 * k.maxWeight l

/-- The values of `lambda_` move to where weights are not changed: to zero for sub-Gaussian weights, else to infinity. -/
def Kind.Fading (k : Kind) (lam : ℕ → ℝ) : Prop :=
  match k with
  | .sgIpw | .sgDr => Tendsto lam atTop (𝓝 0)
  | .ipw | .dr | .switchDr | .drOs => Tendsto lam atTop atTop
  | _ => False

end Obp
