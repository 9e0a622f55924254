import Verif.Spec.SlateDraws
import Verif.Model.Embed
import Verif.Model.EmbedDataset

/-! # Random draws of the dataset with action embeddings -/

namespace Obp
open MeasureTheory ProbabilityTheory

variable {Ω : Type} [MeasurableSpace Ω] {n D E : ℕ}

/-- Rewards with given means: `R i e` is the reward that round `i` logs if its embedding is `e`. It is independent of the uniform
numbers `Z i 0` for the action and `Z i (d + 1)` for the dimensions of the embedding. -/
structure EmbedRewardDraws (P : Measure Ω) (Z : Fin n → Fin (D + 1) → Ω → ℝ) (m : Fin n → (Fin D → Fin E) → ℝ)
    (R : Fin n → (Fin D → Fin E) → Ω → ℝ) : Prop where
  integrable : ∀ i e, Integrable (R i e) P
  mean : ∀ i e, ∫ ω, R i e ω ∂P = m i e
  indep : ∀ i e, IndepFun (fun ω k => Z i k ω) (R i e) P

/-- The arguments for a marginalised estimator made from the logged data as in the library's examples, with the true category
distributions of the `D` observed dimensions. -/
def mipsArgs (fb : EmbedFeedback) (E D : ℕ) {n A : ℕ} (reward : List ℝ) (dist : Fin n → Fin A → ℝ) : EmbArgs ℝ where
  reward := .flt reward
  action := .int (fb.action.map fun a : ℕ => (a : ℤ))
  embed := .arr ⟨n, D, fun i d => (((fb.embed.getD d []).getD i 0 : ℕ) : ℤ)⟩
  piB := .arr ⟨n, A, 1, fun i a _ => (fb.piB.getD i []).getD a 0⟩
  actionDist := .arr ⟨n, A, 1, fun i a _ => dist i a⟩
  pEA := .arr ⟨A, E, D, fun a c d => ((fb.pEA.getD a []).getD d []).getD c 0⟩

end Obp
