import Mathlib.MeasureTheory.Integral.Bochner.Set
import Mathlib.MeasureTheory.Measure.Lebesgue.Basic
import Mathlib.Analysis.SpecialFunctions.Exp
import Verif.Model.Scalar

/-! # Distributions of continuous actions -/

namespace Obp

/-- The actions between two bounds, of which the lower may be minus infinity and the upper infinity. -/
def actionRange (lo hi : PyNum ℝ) : Set ℝ := {x | (∀ l, lo = .fin l → l ≤ x) ∧ ∀ h, hi = .fin h → x ≤ h}

open Classical in
/-- The density of the normal distribution with mean `m` and standard deviation `s` conditioned on a set. -/
noncomputable def normalGivenPdf (m s : ℝ) (T : Set ℝ) (x : ℝ) : ℝ :=
  if x ∈ T then Real.exp (-((x - m) / s) ^ 2 / 2) / ∫ y in T, Real.exp (-((y - m) / s) ^ 2 / 2) else 0

end Obp
