import Verif.Spec.Draws
import Verif.Model.Slate

/-! # Random draws of the slate dataset -/

namespace Obp
open MeasureTheory ProbabilityTheory

variable {Ω : Type} [MeasurableSpace Ω] {n L : ℕ}

/-- One uniform number in `[0, 1)` for every round and position; those of a round are independent. -/
structure SlateDraws (P : Measure Ω) (U : Fin n → Fin L → Ω → ℝ) : Prop where
  uniform : ∀ i, UniformDraws P (U i)
  indep : ∀ i, iIndepFun (U i) P

/-- Rewards with given means: `R i s l` is the reward that round `i` logs at position `l` if the slate `s` is shown. It is
independent of the numbers that decide the slate. -/
structure SlateRewardDraws (P : Measure Ω) (U : Fin n → Fin L → Ω → ℝ) (m : Fin n → List ℕ → Fin L → ℝ)
    (R : Fin n → List ℕ → Fin L → Ω → ℝ) : Prop where
  integrable : ∀ i s l, Integrable (R i s l) P
  mean : ∀ i s l, ∫ ω, R i s l ω ∂P = m i s l
  indep : ∀ i s l, IndepFun (fun ω k => U i k ω) (R i s l) P

/-- The arguments for a slate estimator made from logged data as in the library's examples: slate ids `0, …, 0, 1, …, 1, …`,
positions `0, …, L - 1, 0, …, L - 1, …`, the rewards in that order, and the two arrays of propensities. -/
def slateOpeArgs (reward : Fin n → Fin L → ℝ) (ps eps : List ℝ) : SlateArgs ℝ where
  slateId := .int (List.ofFn fun i : Fin n => List.replicate L ((i : ℕ) : ℤ)).flatten
  position := .int (List.ofFn fun _ : Fin n => (List.range L).map fun k : ℕ => (k : ℤ)).flatten
  reward := .flt (List.ofFn fun i => List.ofFn (reward i)).flatten
  pscore := .flt ps
  evalPscore := .flt eps

end Obp
