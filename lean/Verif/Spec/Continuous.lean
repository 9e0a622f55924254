import Verif.Model.Continuous
import Verif.Spec.Inputs

/-! # Specification vocabulary for continuous actions -/

namespace Obp

/-- A log with continuous actions, evaluation actions and predictions at the evaluation actions. -/
structure ContLog (n : ℕ) where
  evalAction : Fin n → ℝ
  action : Fin n → ℝ
  reward : Fin n → ℝ
  pscore : Fin n → ℝ
  q : Fin n → ℝ

namespace ContLog
variable {n : ℕ}

/-- The keyword arguments of an API call on this log (float arrays). -/
def args (g : ContLog n) : ContArgs where
  evalAction := .flt (List.ofFn g.evalAction)
  action := .flt (List.ofFn g.action)
  reward := .flt (List.ofFn g.reward)
  pscore := .flt (List.ofFn g.pscore)
  regModel := .flt (List.ofFn g.q)

/-- At least one round, positive propensities (densities). -/
structure Valid (g : ContLog n) : Prop where
  nonempty : 0 < n
  pscore_pos : ∀ i, 0 < g.pscore i

/-- The kernel weight of a round: `k((e - a) / h) / p`. -/
noncomputable def weight (g : ContLog n) (k : ℝ → ℝ) (h : ℝ) (i : Fin n) : ℝ :=
  k ((g.evalAction i - g.action i) / h) / g.pscore i

end ContLog

end Obp
