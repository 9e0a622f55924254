import Verif.Spec.LogStream
import Verif.Spec.Resampling

/-!
# What is averaged and resampled on growing logs

Specification vocabulary for statements about the distribution of estimates and about confidence intervals.
-/

namespace Obp
open MeasureTheory

namespace LogStream
variable {Ω C : Type} {A L : ℕ}

/-- Weighted reward of round `i`. -/
noncomputable def ipwTerm (s : LogStream Ω C A) (piB : C → Fin A → ℝ) (pos : C → Fin L) (piE : C → Fin A → Fin L → ℝ) (i : ℕ)
    (ω : Ω) : ℝ :=
  s.rew i ω * (piE (s.ctx i ω) (s.act i ω) (pos (s.ctx i ω)) / piB (s.ctx i ω) (s.act i ω))

/-- Predicted value of the evaluation policy in round `i`, corrected by the weighted error of the prediction. -/
noncomputable def drTerm (s : LogStream Ω C A) (piB : C → Fin A → ℝ) (pos : C → Fin L) (piE q : C → Fin A → Fin L → ℝ) (i : ℕ)
    (ω : Ω) : ℝ :=
  (∑ a, piE (s.ctx i ω) a (pos (s.ctx i ω)) * q (s.ctx i ω) a (pos (s.ctx i ω))) +
    piE (s.ctx i ω) (s.act i ω) (pos (s.ctx i ω)) / piB (s.ctx i ω) (s.act i ω) *
      (s.rew i ω - q (s.ctx i ω) (s.act i ω) (pos (s.ctx i ω)))

end LogStream

/-- `estimate_interval` of the estimator, called on the log with the given resampling draws, succeeds, and `v` is between the
returned bounds. -/
def Estimator.IntervalContains {n A L : ℕ} (e : Estimator ℝ) (g : Log ℝ n A L) (alpha : ℝ) (nBoot : ℕ) (draws : List (List ℕ))
    (v : ℝ) : Prop :=
  ∃ o, e.estimateInterval g.args (ciCall alpha nBoot) draws = .ok o ∧ o.lower ≤ v ∧ v ≤ o.upper

end Obp
