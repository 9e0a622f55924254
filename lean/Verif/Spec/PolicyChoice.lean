import Verif.Model.Scalar
import Mathlib.Data.Real.Basic

/-!
# Choosing among candidate policies
-/

namespace Obp

/-- Every candidate has an estimate, and whichever candidate has the largest one, no other candidate is better by `tol i + tol j` or
more. `r i` is the result of the estimator for the candidate `i`, `V i` its true value. -/
def ChoosesWell {J : Type} (r : J → Py ℝ) (V tol : J → ℝ) : Prop :=
  ∃ x : J → ℝ, (∀ i, r i = .ok (x i)) ∧ ∀ j, (∀ i, x i ≤ x j) → ∀ i, V i < V j + (tol i + tol j)

end Obp
