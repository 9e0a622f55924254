import Verif.Spec.RoundTerms
import Mathlib.Probability.Distributions.Gaussian.Real

/-!
# Normal errors

Specification vocabulary for the distribution of the errors of estimates on growing logs.
-/

namespace Obp
open MeasureTheory ProbabilityTheory Filter Topology

/-- On growing logs `g 0, g 1, …` the error of the estimates of `v`, times the square root of the number of rounds, tends to the
normal distribution with mean 0 and variance `var`: the probability of an estimate with such an error of at most `t` tends to
the probability of the interval up to `t`, for every `t`. -/
def ErrorsNormal {Ω : Type} [MeasurableSpace Ω] {A L : ℕ} (P : Measure Ω) (e : Estimator ℝ) (g : ∀ n, Ω → Log ℝ n A L)
    (v var : ℝ) : Prop :=
  0 < var ∧ ∀ t : ℝ, Tendsto (fun n => P.real {ω | ∃ x, e.estimatePolicyValue (g n ω).args = .ok x ∧ √n * (x - v) ≤ t}) atTop
    (𝓝 ((gaussianReal 0 var.toNNReal).real (Set.Iic t)))

namespace LogStream
variable {Ω C : Type} {A L : ℕ}

/-- Weighted distance of the reward of round `i` from `v`. -/
noncomputable def snipwTerm (s : LogStream Ω C A) (piB : C → Fin A → ℝ) (pos : C → Fin L) (piE : C → Fin A → Fin L → ℝ) (v : ℝ)
    (i : ℕ) (ω : Ω) : ℝ :=
  piE (s.ctx i ω) (s.act i ω) (pos (s.ctx i ω)) / piB (s.ctx i ω) (s.act i ω) * (s.rew i ω - v)

/-- Predicted value in round `i`, corrected by the weighted distance of the error of the prediction from `d`. -/
noncomputable def sndrTerm (s : LogStream Ω C A) (piB : C → Fin A → ℝ) (pos : C → Fin L) (piE q : C → Fin A → Fin L → ℝ) (d : ℝ)
    (i : ℕ) (ω : Ω) : ℝ :=
  (∑ a, piE (s.ctx i ω) a (pos (s.ctx i ω)) * q (s.ctx i ω) a (pos (s.ctx i ω))) +
    piE (s.ctx i ω) (s.act i ω) (pos (s.ctx i ω)) / piB (s.ctx i ω) (s.act i ω) *
      (s.rew i ω - q (s.ctx i ω) (s.act i ω) (pos (s.ctx i ω)) - d)

end LogStream

end Obp
