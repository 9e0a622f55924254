import Verif.Spec.Argsort
import Verif.Spec.Rounds
import Mathlib.Analysis.SpecialFunctions.Log.Basic

/-! # Vocabulary for the MSE score and for SLOPE -/

namespace Obp
open Log

/-- Population variance of the rounds. -/
noncomputable def popVar {n : ℕ} (s : Fin n → ℝ) : ℝ := avg fun i => (s i - avg s) ^ 2

/-- The modified importance weight that an estimator uses in place of `w`. -/
noncomputable def shrunkWeight (e : Estimator ℝ) (w : ℝ) : ℝ :=
  match e.kind, e.lam with
  | .ipw, l => l.clip w
  | .dr, l => l.clip w
  | .switchDr, .inf => w
  | .switchDr, .fin l => if w ≤ l then w else 0
  | .drOs, .inf => w
  | .drOs, .fin l => l * w / (w ^ 2 + l)
  | .sgIpw, .fin l => w / (1 - l + l * w)
  | .sgDr, .fin l => w / (1 - l + l * w)
  | _, _ => w

/-- What the weight multiplies: the reward for the IPW classes, the residual of the reward model for
the DR classes. -/
noncomputable def weighted {n A L : ℕ} (k : Kind) (g : Log ℝ n A L) (i : Fin n) : ℝ :=
  match k with
  | .ipw | .sgIpw => g.reward i
  | _ => g.residual i

/-- Plug-in estimate of the bias caused by modifying the weights. -/
noncomputable def biasEstimate {n A L : ℕ} (e : Estimator ℝ) (g : Log ℝ n A L) : ℝ :=
  |avg fun i => (g.weight e.useEstimatedPscore i - shrunkWeight e (g.weight e.useEstimatedPscore i)) *
    weighted e.kind g i|

/-- Lepski compatibility of a later candidate `s = (theta_i, cnf_i)` with an earlier one
`t = (theta_j, cnf_j)`. -/
def Compatible {K : Type} [Field K] [LinearOrder K] (C : K) (t s : K × K) : Prop :=
  |t.1 - s.1| ≤ s.2 + C * t.2

end Obp
