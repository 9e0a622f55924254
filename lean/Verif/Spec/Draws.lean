import Mathlib.Probability.Independence.Basic
import Mathlib.MeasureTheory.Integral.Bochner.Basic
import Verif.Model.Dataset
import Verif.Model.Estimators

/-! # Random draws of the datasets -/

namespace Obp
open MeasureTheory ProbabilityTheory

/-- What `random_.uniform(size=n)` provides: numbers in `[0, 1)`, each with the uniform distribution. -/
structure UniformDraws {Ω : Type} [MeasurableSpace Ω] (P : Measure Ω) {n : ℕ} (U : Fin n → Ω → ℝ) : Prop where
  meas : ∀ i, Measurable (U i)
  range : ∀ i ω, 0 ≤ U i ω ∧ U i ω < 1
  cdf : ∀ i t, 0 ≤ t → t ≤ 1 → P.real {ω | U i ω < t} = t

/-- Rewards with given means: `R i a` is the reward that round `i` logs if its action is `a`. It is drawn independently of the
uniform number that decides the action of the round. -/
structure RewardDraws {Ω : Type} [MeasurableSpace Ω] (P : Measure Ω) {n A : ℕ} (U : Fin n → Ω → ℝ) (q : Fin n → Fin A → ℝ)
    (R : Fin n → Fin A → Ω → ℝ) : Prop where
  integrable : ∀ i a, Integrable (R i a) P
  mean : ∀ i a, ∫ ω, R i a ω ∂P = q i a
  indep : ∀ i a, IndepFun (U i) (R i a) P

/-- The arguments for an estimator made from logged data as in the library's examples: logged actions, rewards and propensities, no
positions, an evaluation policy and (for estimators that use it) a reward model. -/
def opeArgs {n A : ℕ} (action : List ℕ) (reward pscore : List ℝ) (dist qhat : Fin n → Fin A → ℝ) : EstArgs ℝ where
  reward := .flt reward
  action := .int (action.map fun a : ℕ => (a : ℤ))
  actionDist := .arr ⟨n, A, 1, fun i a _ => dist i a⟩
  pscore := .flt pscore
  regModel := .arr ⟨n, A, 1, fun i a _ => qhat i a⟩

end Obp
