import Verif.Spec.LogStream
import Verif.Spec.SlateStream
import Verif.Spec.Multi
import Mathlib.Algebra.BigOperators.Fin

/-!
# Endless streams of rounds logged by several loggers
-/

namespace Obp
open MeasureTheory ProbabilityTheory Filter Topology

namespace MultiStream
variable {Ω C : Type} [MeasurableSpace Ω] [MeasurableSpace C] {A L M : ℕ}

/-- Logger `k` logs the stream `s k` with the policy `piB k`. Contexts have the law `D` and rewards the means `m` whoever logs.
(The loggers need not be independent of each other.) -/
structure LoggedBy (s : Fin M → LogStream Ω C A) (P : Measure Ω) (D : Measure C) (piB : Fin M → C → Fin A → ℝ)
    (m : C → Fin A → ℝ) : Prop where
  logger : ∀ k, (s k).LoggedBy P (piB k) m
  ctx_law : ∀ k, P.map ((s k).ctx 0) = D

/-- `N t k` is the number of rounds that logger `k` contributes to the `t`-th log. The logs grow, and the share of logger `k`
tends to `rho k > 0`. -/
structure Grows (N : ℕ → Fin M → ℕ) (rho : Fin M → ℝ) : Prop where
  total : Tendsto (fun t => ∑ k, N t k) atTop atTop
  share : ∀ k, Tendsto (fun t => (N t k : ℝ) / (∑ j, N t j : ℕ)) atTop (𝓝 (rho k))
  pos : ∀ k, 0 < rho k

/-- The average policy: each logger counts with its share. -/
noncomputable def average (rho : Fin M → ℝ) (piB : Fin M → C → Fin A → ℝ) (c : C) (a : Fin A) : ℝ := ∑ k, rho k * piB k c a

/-- Entry `j` of a column of the pooled log: the first `N 0` rounds of logger 0, then the first `N 1` rounds of logger 1, … -/
def column {α : Type} (N : Fin M → ℕ) (f : Fin M → ℕ → α) (j : Fin (∑ k, N k)) : α :=
  f (finSigmaFinEquiv.symm j).1 (finSigmaFinEquiv.symm j).2

/-- The pooled log, with the probability of the logged action under the policy of its logger and under the average policy.
(Estimated propensity scores are set to the true ones.) -/
noncomputable def pooled (s : Fin M → LogStream Ω C A) (rho : Fin M → ℝ) (piB : Fin M → C → Fin A → ℝ) (pos : C → Fin L)
    (piE q : C → Fin A → Fin L → ℝ) (N : Fin M → ℕ) (ω : Ω) : MLog ℝ (∑ k, N k) A L where
  action := column N fun k i => (s k).act i ω
  reward := column N fun k i => (s k).rew i ω
  pscore := column N fun k i => piB k ((s k).ctx i ω) ((s k).act i ω)
  estPscore := column N fun k i => piB k ((s k).ctx i ω) ((s k).act i ω)
  position := column N fun k i => pos ((s k).ctx i ω)
  piE := column N fun k i => piE ((s k).ctx i ω)
  q := column N fun k i => q ((s k).ctx i ω)
  estIw := column N fun k i => piE ((s k).ctx i ω) ((s k).act i ω) (pos ((s k).ctx i ω)) / piB k ((s k).ctx i ω) ((s k).act i ω)
  stratum := column N fun k _ => k
  pscoreAvg := column N fun k i => average rho piB ((s k).ctx i ω) ((s k).act i ω)
  estPscoreAvg := column N fun k i => average rho piB ((s k).ctx i ω) ((s k).act i ω)

/-- The value of the evaluation policy. -/
noncomputable def value (D : Measure C) (pos : C → Fin L) (piE : C → Fin A → Fin L → ℝ) (m : C → Fin A → ℝ) : ℝ :=
  ∫ c, ∑ a, piE c a (pos c) * m c a ∂D

end MultiStream

end Obp
