import Verif.Spec.Slate
import Verif.Spec.Prob
import Mathlib.Probability.StrongLaw
import Mathlib.MeasureTheory.Function.ConditionalExpectation.Real

/-!
# An endless stream of logged slates

Specification vocabulary for statements about growing slate logs. Contexts are points of any measurable space, the rewards of
the slots any real random variables.
-/

namespace Obp
open MeasureTheory ProbabilityTheory Filter Topology

/-- Context, shown slate and rewards of its slots in round 0, 1, 2, … -/
structure SlateStream (Ω C : Type) (L A : ℕ) where
  ctx : ℕ → Ω → C
  slate : ℕ → Ω → Fin L → Fin A
  rew : ℕ → Ω → Fin L → ℝ

/-- Two slates agree as far as an estimator looks at them at slot `l`: the standard estimators look at the whole slate, the
independent ones at the slot itself, the reward-interaction ones at the slots down to `l`. -/
def SlateKind.Agree {L A : ℕ} (k : SlateKind) (l : Fin L) (b a : Fin L → Fin A) : Prop :=
  match k with
  | .sips | .snSips => b = a
  | .iips | .snIips => b l = a l
  | .rips | .snRips => ∀ m ≤ l, b m = a m

open Classical in
/-- The propensity that an estimator wants for slot `l`: the probability that the policy `pi` shows a slate that agrees with
`a`. -/
noncomputable def SlateKind.propensity {L A : ℕ} (k : SlateKind) (pi : (Fin L → Fin A) → ℝ) (a : Fin L → Fin A) (l : Fin L) : ℝ :=
  ∑ b, if k.Agree l b a then pi b else 0

namespace SlateStream
variable {Ω C : Type} [MeasurableSpace Ω] [MeasurableSpace C] {L A : ℕ}

/-- The rounds are independent and equally distributed; given the context `c` the logging policy shows the slate `a` with
probability `piB c a`; given context and slate the reward of slot `l` has mean `m c a l`. -/
structure LoggedBy (s : SlateStream Ω C L A) (P : Measure Ω) (piB : C → (Fin L → Fin A) → ℝ)
    (m : C → (Fin L → Fin A) → Fin L → ℝ) : Prop where
  ctx_meas : ∀ i, Measurable (s.ctx i)
  slate_meas : ∀ i, Measurable (s.slate i)
  rew_meas : ∀ i, Measurable (s.rew i)
  indep : iIndepFun (fun i ω => (s.ctx i ω, s.slate i ω, s.rew i ω)) P
  ident : ∀ i, IdentDistrib (fun ω => (s.ctx i ω, s.slate i ω, s.rew i ω)) (fun ω => (s.ctx 0 ω, s.slate 0 ω, s.rew 0 ω)) P P
  piB_dist : ∀ c, IsDist (piB c)
  piB_meas : ∀ a, Measurable fun c => piB c a
  m_meas : ∀ a l, Measurable fun c => m c a l
  policy : ∀ a B, MeasurableSet B →
    P.real {ω | s.ctx 0 ω ∈ B ∧ s.slate 0 ω = a} = ∫ ω in {ω | s.ctx 0 ω ∈ B}, piB (s.ctx 0 ω) a ∂P
  rew_int : ∀ l, Integrable (fun ω => s.rew 0 ω l) P
  rew_mean : ∀ l, P[fun ω => s.rew 0 ω l | MeasurableSpace.comap (fun ω => (s.ctx 0 ω, s.slate 0 ω)) inferInstance] =ᵐ[P]
    fun ω => m (s.ctx 0 ω) (s.slate 0 ω) l

/-- The log of the first `n` rounds: slates in order, positions in order; `pb` and `pe` are the recorded propensities. -/
noncomputable def log (s : SlateStream Ω C L A) (pb pe : C → (Fin L → Fin A) → Fin L → ℝ) (n : ℕ) (ω : Ω) :
    SlateLog ℝ (n * L) where
  slate j := j.divNat
  pos j := j.modNat
  reward j := s.rew j.divNat ω j.modNat
  ps j := pb (s.ctx j.divNat ω) (s.slate j.divNat ω) j.modNat
  eps j := pe (s.ctx j.divNat ω) (s.slate j.divNat ω) j.modNat

/-- The same with predictions `q c a l b` and evaluation probabilities `dist c a l b` of action `b` at slot `l` after the
actions of `a` above. -/
noncomputable def cascadeLog (s : SlateStream Ω C L A) (pb pe : C → (Fin L → Fin A) → Fin L → ℝ)
    (q dist : C → (Fin L → Fin A) → Fin L → Fin A → ℝ) (n : ℕ) (ω : Ω) : CascadeLog ℝ (n * L) A where
  toSlateLog := s.log pb pe n ω
  action j := s.slate j.divNat ω j.modNat
  q j := q (s.ctx j.divNat ω) (s.slate j.divNat ω) j.modNat
  dist j := dist (s.ctx j.divNat ω) (s.slate j.divNat ω) j.modNat

/-- The value of a slate policy: the expected total reward of a slate. -/
noncomputable def value (s : SlateStream Ω C L A) (P : Measure Ω) (piE : C → (Fin L → Fin A) → ℝ)
    (m : C → (Fin L → Fin A) → Fin L → ℝ) : ℝ :=
  ∫ ω, ∑ a, piE (s.ctx 0 ω) a * ∑ l, m (s.ctx 0 ω) a l ∂P

end SlateStream

/-- On growing slate logs the results are numbers from some size on, and tend to `v`. -/
def ResultsTendTo (r : ℕ → Py ℝ) (v : ℝ) : Prop :=
  ∃ x : ℕ → ℝ, (∀ᶠ n in atTop, r n = .ok (x n)) ∧ Tendsto x atTop (𝓝 v)

end Obp
