import Verif.Spec.MultiStream
import Verif.Spec.RoundTerms
import Mathlib.Probability.Distributions.Gaussian.Real

/-!
# Normal errors of estimates from several loggers
-/

namespace Obp
open MeasureTheory ProbabilityTheory Filter Topology

/-- The results `r 0, r 1, …` of calls on growing logs of `size 0, size 1, …` rounds have normal errors: the error as an estimate
of `v`, times the square root of the number of rounds, tends in distribution to the normal distribution with mean 0 and variance
`var`. -/
def NormalErrorsOver {Ω : Type} [MeasurableSpace Ω] (P : Measure Ω) (size : ℕ → ℕ) (r : ℕ → Ω → Py ℝ) (v var : ℝ) : Prop :=
  0 < var ∧ ∀ x : ℝ, Tendsto (fun t => P.real {ω | ∃ y, r t ω = .ok y ∧ √(size t) * (y - v) ≤ x}) atTop
    (𝓝 ((gaussianReal 0 var.toNNReal).real (Set.Iic x)))

/-- Predicted value of the evaluation policy in round `i`, plus `w` times the weighted error of the prediction. -/
noncomputable def LogStream.partDrTerm {Ω C : Type} {A L : ℕ} (s : LogStream Ω C A) (piB : C → Fin A → ℝ) (pos : C → Fin L)
    (piE q : C → Fin A → Fin L → ℝ) (w : ℝ) (i : ℕ) (ω : Ω) : ℝ :=
  (∑ a, piE (s.ctx i ω) a (pos (s.ctx i ω)) * q (s.ctx i ω) a (pos (s.ctx i ω))) +
    w * (piE (s.ctx i ω) (s.act i ω) (pos (s.ctx i ω)) / piB (s.ctx i ω) (s.act i ω) *
      (s.rew i ω - q (s.ctx i ω) (s.act i ω) (pos (s.ctx i ω))))

namespace MultiStream
variable {Ω C : Type} [MeasurableSpace Ω] [MeasurableSpace C] {A M : ℕ}

/-- The loggers are independent of each other. -/
def Independent (s : Fin M → LogStream Ω C A) (P : Measure Ω) : Prop :=
  iIndepFun (fun k ω (i : ℕ) => ((s k).ctx i ω, (s k).act i ω, (s k).rew i ω)) P

/-- Precision of the average of estimates with variances `var k`, from shares `rho k` of the rounds. -/
noncomputable def precision (rho var : Fin M → ℝ) : ℝ := ∑ k, rho k / var k

end MultiStream

end Obp
