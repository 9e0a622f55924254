import Verif.Spec.Ope
import Verif.Spec.Prob
import Mathlib.Probability.StrongLaw
import Mathlib.MeasureTheory.Function.ConditionalExpectation.Real

/-!
# An endless stream of logged rounds

Specification vocabulary for statements about growing logs. Contexts are points of any measurable space, rewards any real
random variables.
-/

namespace Obp
open MeasureTheory ProbabilityTheory Filter Topology

/-- Context, chosen action and observed reward of round 0, 1, 2, … -/
structure LogStream (Ω C : Type) (A : ℕ) where
  ctx : ℕ → Ω → C
  act : ℕ → Ω → Fin A
  rew : ℕ → Ω → ℝ

namespace LogStream
variable {Ω C : Type} [MeasurableSpace Ω] [MeasurableSpace C] {A L : ℕ}

/-- The rounds are independent and equally distributed; given the context `c` the logging policy takes action `a` with
probability `piB c a`; given context and action the reward has mean `m c a`. -/
structure LoggedBy (s : LogStream Ω C A) (P : Measure Ω) (piB m : C → Fin A → ℝ) : Prop where
  ctx_meas : ∀ i, Measurable (s.ctx i)
  act_meas : ∀ i, Measurable (s.act i)
  rew_meas : ∀ i, Measurable (s.rew i)
  indep : iIndepFun (fun i ω => (s.ctx i ω, s.act i ω, s.rew i ω)) P
  ident : ∀ i, IdentDistrib (fun ω => (s.ctx i ω, s.act i ω, s.rew i ω)) (fun ω => (s.ctx 0 ω, s.act 0 ω, s.rew 0 ω)) P P
  piB_dist : ∀ c, IsDist (piB c)
  piB_meas : ∀ a, Measurable fun c => piB c a
  m_meas : ∀ a, Measurable fun c => m c a
  policy : ∀ a B, MeasurableSet B →
    P.real {ω | s.ctx 0 ω ∈ B ∧ s.act 0 ω = a} = ∫ ω in {ω | s.ctx 0 ω ∈ B}, piB (s.ctx 0 ω) a ∂P
  rew_int : Integrable (s.rew 0) P
  rew_mean : P[s.rew 0 | MeasurableSpace.comap (fun ω => (s.ctx 0 ω, s.act 0 ω)) inferInstance] =ᵐ[P]
    fun ω => m (s.ctx 0 ω) (s.act 0 ω)

/-- The evaluation policy is a policy, and it takes no action that the logging policy never takes. `pos c` is the position of
rounds with context `c`. -/
structure Covers (piB : C → Fin A → ℝ) (pos : C → Fin L) (piE : C → Fin A → Fin L → ℝ) : Prop where
  dist : ∀ c l, IsDist fun a => piE c a l
  meas : ∀ a, Measurable fun c => piE c a (pos c)
  support : ∀ c a, piB c a = 0 → piE c a (pos c) = 0

/-- The log of the first `n` rounds, with the logging probabilities as propensity scores and the predictions `q` of a reward
model. (The remaining fields of a log, estimated propensity scores and estimated weights, are set to their true values.) -/
noncomputable def log (s : LogStream Ω C A) (piB : C → Fin A → ℝ) (pos : C → Fin L) (piE q : C → Fin A → Fin L → ℝ) (n : ℕ)
    (ω : Ω) : Log ℝ n A L where
  action i := s.act i ω
  reward i := s.rew i ω
  pscore i := piB (s.ctx i ω) (s.act i ω)
  estPscore i := piB (s.ctx i ω) (s.act i ω)
  position i := pos (s.ctx i ω)
  piE i := piE (s.ctx i ω)
  q i := q (s.ctx i ω)
  estIw i := piE (s.ctx i ω) (s.act i ω) (pos (s.ctx i ω)) / piB (s.ctx i ω) (s.act i ω)

/-- The importance weight of the first round. -/
noncomputable def weight (s : LogStream Ω C A) (piB : C → Fin A → ℝ) (pos : C → Fin L) (piE : C → Fin A → Fin L → ℝ) (ω : Ω) : ℝ :=
  piE (s.ctx 0 ω) (s.act 0 ω) (pos (s.ctx 0 ω)) / piB (s.ctx 0 ω) (s.act 0 ω)

/-- The expected value of `f` when actions are chosen by the evaluation policy: the policy value for `f = m`. -/
noncomputable def value (s : LogStream Ω C A) (P : Measure Ω) (pos : C → Fin L) (piE : C → Fin A → Fin L → ℝ)
    (f : C → Fin A → ℝ) : ℝ :=
  ∫ ω, ∑ a, piE (s.ctx 0 ω) a (pos (s.ctx 0 ω)) * f (s.ctx 0 ω) a ∂P

end LogStream

/-- On growing logs the estimates are numbers from some size on, and tend to `v`. -/
def EstimatesTendTo {A L : ℕ} (e : Estimator ℝ) (g : ∀ n, Log ℝ n A L) (v : ℝ) : Prop :=
  ∃ x : ℕ → ℝ, (∀ᶠ n in atTop, e.estimatePolicyValue (g n).args = .ok (x n)) ∧ Tendsto x atTop (𝓝 v)

end Obp
