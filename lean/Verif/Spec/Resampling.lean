import Verif.Spec.Bootstrap
import Mathlib.MeasureTheory.Measure.Real
import Mathlib.MeasureTheory.MeasurableSpace.Constructions
import Mathlib.MeasureTheory.Constructions.BorelSpace.Real
import Mathlib.Order.Filter.AtTopBot.Defs

/-!
# Resampling with a random generator

Specification vocabulary for statements about the probability that a bootstrap interval contains a value.
-/

namespace Obp
open MeasureTheory

/-- For every number `n` of samples, `B` bootstrap samples of `n` indices each are drawn from `0, …, n - 1` with replacement.
Whatever the samples `X` are, every table of indices is equally likely. -/
structure Resampling {Ω : Type} [MeasurableSpace Ω] (P : Measure Ω) (X : ℕ → Ω → ℝ) (B : ℕ) where
  /-- the `i`-th index of the `j`-th bootstrap sample for `n` samples -/
  idx : ∀ n, Fin B → Fin n → Ω → Fin n
  idx_meas : ∀ n j i, Measurable (idx n j i)
  equally_likely : ∀ n (f : Fin B → Fin n → Fin n) (S : Set (ℕ → ℝ)), MeasurableSet S →
    P.real {ω | (fun i => X i ω) ∈ S ∧ ∀ j i, idx n j i ω = f j i} =
      P.real {ω | (fun i => X i ω) ∈ S} / ((n : ℝ) ^ n) ^ B

/-- The index lists drawn for `n` samples. -/
def Resampling.draws {Ω : Type} [MeasurableSpace Ω] {P : Measure Ω} {X : ℕ → Ω → ℝ} {B : ℕ} (R : Resampling P X B) (n : ℕ)
    (ω : Ω) : List (List ℕ) :=
  List.ofFn fun j => List.ofFn fun i => (R.idx n j i ω : ℕ)

/-- The interval returned for the first `n` samples contains `v`. -/
def Resampling.Contains {Ω : Type} [MeasurableSpace Ω] {P : Measure Ω} {X : ℕ → Ω → ℝ} {B : ℕ} (R : Resampling P X B)
    (alpha v : ℝ) (n : ℕ) (ω : Ω) : Prop :=
  ∃ o, bootstrapCI (List.ofFn fun i : Fin n => X i ω) (ciCall alpha B) (R.draws n ω) = .ok o ∧ o.lower ≤ v ∧ v ≤ o.upper

/-- With more and more samples, the probabilities `cov` of the interval containing the true value get between
`(B - 1 - 2⌈p⌉)/(B + 1)` and `(B - 1 - 2⌊p⌋)/(B + 1)`, where `p = (alpha/2)(B - 1)` is the position of the lower bound among
the `B` sorted bootstrap averages. (Both fractions are `1 - alpha` up to `4/(B + 1)`.) -/
def NearlyCovers (cov : ℕ → ℝ) (alpha : ℝ) (B : ℕ) : Prop :=
  ∀ ε > 0, ∀ᶠ n in Filter.atTop, ((B : ℝ) - 1 - 2 * ⌈alpha / 2 * ((B : ℝ) - 1)⌉₊) / (B + 1) - ε < cov n ∧
    cov n < ((B : ℝ) - 1 - 2 * ⌊alpha / 2 * ((B : ℝ) - 1)⌋₊) / (B + 1) + ε

end Obp
