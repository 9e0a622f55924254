import Verif.Spec.Resampling
import Verif.Spec.SlateStream
import Verif.Spec.SlateProcess
import Verif.Spec.ContStream
import Verif.Spec.EmbStream
import Mathlib.Probability.Distributions.Gaussian.Real

/-!
# What is averaged and resampled on growing logs: slates, continuous actions, action embeddings
-/

namespace Obp
open MeasureTheory ProbabilityTheory Filter Topology

/-- The results `r 0, r 1, …` of calls on growing logs have normal errors: the error as an estimate of `v`, times the square
root of the number of rounds, tends in distribution to the normal distribution with mean 0 and variance `var`. -/
def NormalErrors {Ω : Type} [MeasurableSpace Ω] (P : Measure Ω) (r : ℕ → Ω → Py ℝ) (v var : ℝ) : Prop :=
  0 < var ∧ ∀ t : ℝ, Tendsto (fun n => P.real {ω | ∃ x, r n ω = .ok x ∧ √n * (x - v) ≤ t}) atTop
    (𝓝 ((gaussianReal 0 var.toNNReal).real (Set.Iic t)))

/-- The call returns an interval, and `v` is in it. -/
def ReturnsAround (r : Py (CiOut ℝ)) (v : ℝ) : Prop := ∃ o, r = .ok o ∧ o.lower ≤ v ∧ v ≤ o.upper

namespace SlateStream
variable {Ω C : Type} {L A : ℕ}

/-- Total of the weighted rewards of the slots of slate `i`; the weight of a slot is the ratio of its propensities. -/
noncomputable def ipsTerm (s : SlateStream Ω C L A) (k : SlateKind) (piB piE : C → (Fin L → Fin A) → ℝ) (i : ℕ) (ω : Ω) : ℝ :=
  ∑ l, k.propensity (piE (s.ctx i ω)) (s.slate i ω) l / k.propensity (piB (s.ctx i ω)) (s.slate i ω) l * s.rew i ω l

/-- The same for the distances of the rewards from `v`, where `v l` belongs to slot `l`. -/
noncomputable def snTerm (s : SlateStream Ω C L A) (k : SlateKind) (piB piE : C → (Fin L → Fin A) → ℝ) (v : Fin L → ℝ) (i : ℕ)
    (ω : Ω) : ℝ :=
  ∑ l, k.propensity (piE (s.ctx i ω)) (s.slate i ω) l / k.propensity (piB (s.ctx i ω)) (s.slate i ω) l * (s.rew i ω l - v l)

/-- The cascade doubly robust correction, totalled over the slots of slate `i`: the reward less its prediction `q`, weighted by
the ratio of the probabilities of the actions down to the slot, plus the expected prediction under `dist`, weighted by the ratio
of the probabilities of the actions above the slot. -/
noncomputable def cascadeTerm (s : SlateStream Ω C L A) (piB piE : C → (Fin L → Fin A) → ℝ)
    (q dist : C → (Fin L → Fin A) → Fin L → Fin A → ℝ) (i : ℕ) (ω : Ω) : ℝ :=
  let c := s.ctx i ω
  let a := s.slate i ω
  ∑ l, (cascadePscore (fun _ : Fin 1 => piE c) 0 a l / cascadePscore (fun _ : Fin 1 => piB c) 0 a l * (s.rew i ω l - q c a l (a l)) +
    prefixPscore (fun _ : Fin 1 => piE c) 0 a l / prefixPscore (fun _ : Fin 1 => piB c) 0 a l * ∑ b, dist c a l b * q c a l b)

/-- The part of the value of the evaluation policy that is earned in slot `l`. -/
noncomputable def slotValue [MeasurableSpace Ω] (s : SlateStream Ω C L A) (P : Measure Ω) (piE : C → (Fin L → Fin A) → ℝ)
    (m : C → (Fin L → Fin A) → Fin L → ℝ) (l : Fin L) : ℝ :=
  ∫ ω, ∑ a, piE (s.ctx 0 ω) a * m (s.ctx 0 ω) a l ∂P

end SlateStream

namespace ContStream
variable {Ω C : Type}

/-- Kernel-weighted reward of round `i`. -/
noncomputable def ipwTerm (s : ContStream Ω C) (k : Kernel) (h : ℝ) (p : C → ℝ → ℝ) (e : C → ℝ) (i : ℕ) (ω : Ω) : ℝ :=
  k.fn ((e (s.ctx i ω) - s.act i ω) / h) / (h * p (s.ctx i ω) (s.act i ω)) * s.rew i ω

/-- The same for the distance of the reward from `v`. -/
noncomputable def snipwTerm (s : ContStream Ω C) (k : Kernel) (h : ℝ) (p : C → ℝ → ℝ) (e : C → ℝ) (v : ℝ) (i : ℕ) (ω : Ω) : ℝ :=
  k.fn ((e (s.ctx i ω) - s.act i ω) / h) / (h * p (s.ctx i ω) (s.act i ω)) * (s.rew i ω - v)

/-- The prediction for round `i`, corrected by the kernel-weighted error of the prediction. -/
noncomputable def drTerm (s : ContStream Ω C) (k : Kernel) (h : ℝ) (p : C → ℝ → ℝ) (e q : C → ℝ) (i : ℕ) (ω : Ω) : ℝ :=
  q (s.ctx i ω) + k.fn ((e (s.ctx i ω) - s.act i ω) / h) / (h * p (s.ctx i ω) (s.act i ω)) * (s.rew i ω - q (s.ctx i ω))

end ContStream

namespace EmbStream
variable {Ω C : Type} {A E D L : ℕ}

/-- Reward of round `i`, weighted by the ratio of the probabilities of its embedding under the two policies. -/
noncomputable def mipsTerm (s : EmbStream Ω C A E D) (piB : C → Fin A → ℝ) (pEA : Fin A → Fin E → Fin D → ℝ) (pos : C → Fin L)
    (piE : C → Fin A → Fin L → ℝ) (i : ℕ) (ω : Ω) : ℝ :=
  marginal pEA (fun a => piE (s.ctx i ω) a (pos (s.ctx i ω))) (s.emb i ω) / marginal pEA (piB (s.ctx i ω)) (s.emb i ω) * s.rew i ω

/-- The same for the distance of the reward from `v`. -/
noncomputable def snmipsTerm (s : EmbStream Ω C A E D) (piB : C → Fin A → ℝ) (pEA : Fin A → Fin E → Fin D → ℝ) (pos : C → Fin L)
    (piE : C → Fin A → Fin L → ℝ) (v : ℝ) (i : ℕ) (ω : Ω) : ℝ :=
  marginal pEA (fun a => piE (s.ctx i ω) a (pos (s.ctx i ω))) (s.emb i ω) / marginal pEA (piB (s.ctx i ω)) (s.emb i ω) *
    (s.rew i ω - v)

end EmbStream

end Obp
