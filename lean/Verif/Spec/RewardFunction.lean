import Mathlib.Algebra.BigOperators.Fin
import Mathlib.Data.Real.Basic

/-! # The reward model of the built-in reward functions -/

namespace Obp
open scoped BigOperators

/-- Linear in the context features, linear in the action features, and bilinear in both. -/
def bilinearReward {dc da : ℕ} (θ : Fin dc → ℝ) (ψ : Fin da → ℝ) (W : Fin dc → Fin da → ℝ) (x : Fin dc → ℝ) (z : Fin da → ℝ) :
    ℝ :=
  ∑ j, x j * θ j + ∑ k, z k * ψ k + ∑ j, ∑ k, x j * W j k * z k

end Obp
