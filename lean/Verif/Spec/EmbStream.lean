import Verif.Spec.Embed
import Verif.Spec.LogStream
import Verif.Spec.SlateStream

/-!
# An endless stream of rounds with action embeddings

Specification vocabulary for statements about growing logs with action embeddings. An embedding has `D` dimensions with `E`
categories each.
-/

namespace Obp
open MeasureTheory ProbabilityTheory Filter Topology

/-- Context, chosen action, embedding and observed reward of round 0, 1, 2, … -/
structure EmbStream (Ω C : Type) (A E D : ℕ) where
  ctx : ℕ → Ω → C
  act : ℕ → Ω → Fin A
  emb : ℕ → Ω → Fin D → Fin E
  rew : ℕ → Ω → ℝ

namespace EmbStream
variable {Ω C : Type} [MeasurableSpace Ω] [MeasurableSpace C] {A E D L : ℕ}

/-- Probability of embedding `e` when actions are drawn from `pi` and `pEA a k d` is the probability that dimension `d` of the
embedding of action `a` is `k`. -/
def marginal (pEA : Fin A → Fin E → Fin D → ℝ) (pi : Fin A → ℝ) (e : Fin D → Fin E) : ℝ := ∑ a, pi a * ∏ d, pEA a (e d) d

/-- When actions are drawn from `pi` the dimensions of the embedding are independent. (Always so in one dimension.) -/
def Independent (pEA : Fin A → Fin E → Fin D → ℝ) (pi : Fin A → ℝ) : Prop :=
  ∀ e, marginal pEA pi e = ∏ d, ∑ a, pi a * pEA a (e d) d

/-- The rounds are independent and equally distributed; given the context `c` the logging policy takes action `a` with
probability `piB c a` and the embedding is drawn according to `pEA`; the mean reward `m c e` depends on context and embedding
only: there is no direct effect of the action. -/
structure LoggedBy (s : EmbStream Ω C A E D) (P : Measure Ω) (piB : C → Fin A → ℝ) (pEA : Fin A → Fin E → Fin D → ℝ)
    (m : C → (Fin D → Fin E) → ℝ) : Prop where
  ctx_meas : ∀ i, Measurable (s.ctx i)
  act_meas : ∀ i, Measurable (s.act i)
  emb_meas : ∀ i, Measurable (s.emb i)
  rew_meas : ∀ i, Measurable (s.rew i)
  indep : iIndepFun (fun i ω => (s.ctx i ω, s.act i ω, s.emb i ω, s.rew i ω)) P
  ident : ∀ i, IdentDistrib (fun ω => (s.ctx i ω, s.act i ω, s.emb i ω, s.rew i ω))
    (fun ω => (s.ctx 0 ω, s.act 0 ω, s.emb 0 ω, s.rew 0 ω)) P P
  piB_dist : ∀ c, IsDist (piB c)
  piB_meas : ∀ a, Measurable fun c => piB c a
  pEA_dist : ∀ a d, IsDist fun k => pEA a k d
  m_meas : ∀ e, Measurable fun c => m c e
  policy : ∀ a e B, MeasurableSet B → P.real {ω | s.ctx 0 ω ∈ B ∧ s.act 0 ω = a ∧ s.emb 0 ω = e} =
    ∫ ω in {ω | s.ctx 0 ω ∈ B}, piB (s.ctx 0 ω) a * ∏ d, pEA a (e d) d ∂P
  rew_int : Integrable (s.rew 0) P
  rew_mean : P[s.rew 0 | MeasurableSpace.comap (fun ω => (s.ctx 0 ω, s.act 0 ω, s.emb 0 ω)) inferInstance] =ᵐ[P]
    fun ω => m (s.ctx 0 ω) (s.emb 0 ω)

/-- The evaluation policy is a policy, and it leads to no embedding that the logging policy never leads to; it may take actions
that the logging policy never takes. -/
structure Covers (pEA : Fin A → Fin E → Fin D → ℝ) (piB : C → Fin A → ℝ) (pos : C → Fin L) (piE : C → Fin A → Fin L → ℝ) : Prop where
  dist : ∀ c l, IsDist fun a => piE c a l
  meas : ∀ a l, Measurable fun c => piE c a l
  pos_meas : Measurable pos
  support : ∀ c e, marginal pEA (piB c) e = 0 → marginal pEA (fun a => piE c a (pos c)) e = 0

/-- The log of the first `n` rounds. -/
def log (s : EmbStream Ω C A E D) (piB : C → Fin A → ℝ) (pEA : Fin A → Fin E → Fin D → ℝ) (pos : C → Fin L)
    (piE : C → Fin A → Fin L → ℝ) (n : ℕ) (ω : Ω) : EmbLog ℝ n A L E D where
  action i := s.act i ω
  reward i := s.rew i ω
  embed i := s.emb i ω
  piB i a _ := piB (s.ctx i ω) a
  piE i := piE (s.ctx i ω)
  position i := pos (s.ctx i ω)
  pEA := pEA

/-- The weight of the first round: the ratio of the probabilities of its embedding under the two policies. -/
noncomputable def weight (s : EmbStream Ω C A E D) (piB : C → Fin A → ℝ) (pEA : Fin A → Fin E → Fin D → ℝ) (pos : C → Fin L)
    (piE : C → Fin A → Fin L → ℝ) (ω : Ω) : ℝ :=
  marginal pEA (fun a => piE (s.ctx 0 ω) a (pos (s.ctx 0 ω))) (s.emb 0 ω) / marginal pEA (piB (s.ctx 0 ω)) (s.emb 0 ω)

/-- The value of the evaluation policy: take an action, draw its embedding, collect the mean reward. -/
noncomputable def value (s : EmbStream Ω C A E D) (P : Measure Ω) (pEA : Fin A → Fin E → Fin D → ℝ) (pos : C → Fin L)
    (piE : C → Fin A → Fin L → ℝ) (m : C → (Fin D → Fin E) → ℝ) : ℝ :=
  ∫ ω, ∑ a, piE (s.ctx 0 ω) a (pos (s.ctx 0 ω)) * ∑ e, (∏ d, pEA a (e d) d) * m (s.ctx 0 ω) e ∂P

end EmbStream

end Obp
