import Verif.Spec.Resampling
import Verif.Spec.RoundTermsOthers
import Verif.Spec.MultiNormal

/-!
# Resampling logs with a random generator

Specification vocabulary for statements about bootstrap intervals of logs pooled from several loggers.
-/

namespace Obp
open MeasureTheory

/-- For every number `n` of rows, `B` bootstrap samples of `n` indices each are drawn from `0, …, n - 1` with replacement.
Whatever the logged data `Z` are, every table of indices is equally likely. -/
structure IndependentDraws {Ω T : Type} [MeasurableSpace Ω] [MeasurableSpace T] (P : Measure Ω) (Z : Ω → T) (B : ℕ) where
  /-- the `i`-th index of the `j`-th bootstrap sample for `n` rows -/
  idx : ∀ n, Fin B → Fin n → Ω → Fin n
  idx_meas : ∀ n j i, Measurable (idx n j i)
  equally_likely : ∀ n (f : Fin B → Fin n → Fin n) (S : Set T), MeasurableSet S →
    P.real {ω | Z ω ∈ S ∧ ∀ j i, idx n j i ω = f j i} = P.real {ω | Z ω ∈ S} / ((n : ℝ) ^ n) ^ B

/-- The index lists drawn for `n` rows. -/
def IndependentDraws.draws {Ω T : Type} [MeasurableSpace Ω] [MeasurableSpace T] {P : Measure Ω} {Z : Ω → T} {B : ℕ}
    (R : IndependentDraws P Z B) (n : ℕ) (ω : Ω) : List (List ℕ) :=
  List.ofFn fun j => List.ofFn fun i => (R.idx n j i ω : ℕ)

/-- With larger and larger logs, the probabilities `cov` of the interval containing the true value get above every number below
`(B - 1 - 2⌈p⌉)/(B + 1)`, where `p = (alpha/2)(B - 1)` is the position of the lower bound among the `B` sorted bootstrap
averages. (The fraction is at least `1 - alpha - 4/(B + 1)`.) -/
def CoversAtLeast (cov : ℕ → ℝ) (alpha : ℝ) (B : ℕ) : Prop :=
  ∀ ε > 0, ∀ᶠ t in Filter.atTop, ((B : ℝ) - 1 - 2 * ⌈alpha / 2 * ((B : ℝ) - 1)⌉₊) / (B + 1) - ε < cov t

/-- All rounds of all loggers. -/
def MultiStream.rounds {Ω C : Type} {A M : ℕ} (s : Fin M → LogStream Ω C A) (ω : Ω) (k : Fin M) (i : ℕ) : C × Fin A × ℝ :=
  ((s k).ctx i ω, (s k).act i ω, (s k).rew i ω)

end Obp
