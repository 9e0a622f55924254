import Verif.Model.Numpy
import Mathlib.Data.Real.Basic

/-!
# Large errors
-/

namespace Obp

/-- The call fails, or returns a number at the distance `t` or more from `v`. -/
def Misses (r : Py ℝ) (v t : ℝ) : Prop := ¬ ∃ x, r = .ok x ∧ |x - v| < t

end Obp
