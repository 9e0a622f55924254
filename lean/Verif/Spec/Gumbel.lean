import Mathlib.Probability.Independence.Basic
import Mathlib.MeasureTheory.Measure.Real
import Mathlib.MeasureTheory.Constructions.BorelSpace.Real
import Mathlib.Analysis.SpecialFunctions.Exp
import Verif.Spec.Offline

/-! # Gumbel noise and the Plackett–Luce distribution -/

namespace Obp
open MeasureTheory ProbabilityTheory

/-- What `random_.gumbel(size=(n, n_actions))` provides: independent numbers with the standard Gumbel distribution, whose
distribution function is `exp(-exp(-x))`. (Rows are independent, and so are the numbers in every row.) -/
structure GumbelNoise {Ω : Type} [MeasurableSpace Ω] (P : Measure Ω) {A : ℕ} (N : ℕ → Fin A → Ω → ℝ) : Prop where
  meas : ∀ i a, Measurable (N i a)
  rows_indep : iIndepFun (fun i ω a => N i a ω) P
  indep : ∀ i, iIndepFun (N i) P
  cdf : ∀ i a x, P.real {ω | N i a ω ≤ x} = Real.exp (-Real.exp (-x))

/-- The Plackett–Luce probability that the first `L` places of a ranking are `r`: every place goes to one of the actions not yet
ranked, with probability proportional to `exp (v a)`. -/
noncomputable def plackettLuce {A L : ℕ} (v : Fin A → ℝ) (r : Fin L → Fin A) : ℝ :=
  ∏ p, Real.exp (v (r p)) / ∑ a, if ∀ p' < p, r p' ≠ a then Real.exp (v a) else 0

end Obp
