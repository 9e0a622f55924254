import Verif.Spec.SlateStream
import Verif.Spec.Continuous
import Verif.Spec.ContinuousDraws

/-!
# An endless stream of logged rounds with continuous actions
-/

namespace Obp
open MeasureTheory ProbabilityTheory Filter Topology

/-- Context, chosen action and observed reward of round 0, 1, 2, … -/
structure ContStream (Ω C : Type) where
  ctx : ℕ → Ω → C
  act : ℕ → Ω → ℝ
  rew : ℕ → Ω → ℝ

namespace ContStream
variable {Ω C : Type} [MeasurableSpace Ω] [MeasurableSpace C]

/-- The rounds are independent and equally distributed; given the context `c` the logging policy takes actions with the
probability density `p c`; given context and action the reward has mean `m c a`. -/
structure LoggedBy (s : ContStream Ω C) (P : Measure Ω) (p m : C → ℝ → ℝ) : Prop where
  ctx_meas : ∀ i, Measurable (s.ctx i)
  act_meas : ∀ i, Measurable (s.act i)
  rew_meas : ∀ i, Measurable (s.rew i)
  indep : iIndepFun (fun i ω => (s.ctx i ω, s.act i ω, s.rew i ω)) P
  ident : ∀ i, IdentDistrib (fun ω => (s.ctx i ω, s.act i ω, s.rew i ω)) (fun ω => (s.ctx 0 ω, s.act 0 ω, s.rew 0 ω)) P P
  p_nonneg : ∀ c a, 0 ≤ p c a
  p_int : ∀ c, Integrable (p c)
  p_one : ∀ c, ∫ a, p c a = 1
  p_meas : Measurable fun x : C × ℝ => p x.1 x.2
  m_meas : Measurable fun x : C × ℝ => m x.1 x.2
  policy : ∀ B T, MeasurableSet B → MeasurableSet T →
    P.real {ω | s.ctx 0 ω ∈ B ∧ s.act 0 ω ∈ T} = ∫ ω in {ω | s.ctx 0 ω ∈ B}, (∫ a in T, p (s.ctx 0 ω) a) ∂P
  rew_int : Integrable (s.rew 0) P
  rew_mean : P[s.rew 0 | MeasurableSpace.comap (fun ω => (s.ctx 0 ω, s.act 0 ω)) inferInstance] =ᵐ[P]
    fun ω => m (s.ctx 0 ω) (s.act 0 ω)

/-- The log of the first `n` rounds, with the logging density at the logged action as propensity score, evaluation actions
`e c` and predictions `q c` of a reward model. -/
noncomputable def log (s : ContStream Ω C) (p : C → ℝ → ℝ) (e q : C → ℝ) (n : ℕ) (ω : Ω) : ContLog n where
  evalAction i := e (s.ctx i ω)
  action i := s.act i ω
  reward i := s.rew i ω
  pscore i := p (s.ctx i ω) (s.act i ω)
  q i := q (s.ctx i ω)

/-- The logging policy takes all actions around the evaluation actions that the kernel with bandwidth `h` gives weight to. -/
structure Covers (k : Kernel) (h : ℝ) (p : C → ℝ → ℝ) (e : C → ℝ) : Prop where
  meas : Measurable e
  support : ∀ c a, p c a = 0 → k.fn ((e c - a) / h) = 0

/-- The value of the policy that takes action `e c`. -/
noncomputable def value (s : ContStream Ω C) (P : Measure Ω) (e : C → ℝ) (m : C → ℝ → ℝ) : ℝ :=
  ∫ ω, m (s.ctx 0 ω) (e (s.ctx 0 ω)) ∂P

/-- The same with the expected reward averaged by the kernel over the actions around `e c`. -/
noncomputable def smoothedValue (s : ContStream Ω C) (P : Measure Ω) (k : Kernel) (h : ℝ) (p : C → ℝ → ℝ) (e : C → ℝ)
    (m : C → ℝ → ℝ) : ℝ :=
  ∫ ω, smoothed k.fn {a | 0 < p (s.ctx 0 ω) a} h (e (s.ctx 0 ω)) (m (s.ctx 0 ω)) ∂P

end ContStream

end Obp
