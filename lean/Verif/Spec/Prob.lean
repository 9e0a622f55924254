import Mathlib.Algebra.BigOperators.Fin
import Mathlib.Algebra.BigOperators.Ring.Finset
import Mathlib.Algebra.Order.BigOperators.Ring.Finset
import Mathlib.Algebra.Order.Field.Basic

/-!
# Finite probability: independent draws

Specification vocabulary for statements about expectations. `n` independent draws, draw `i` taking
value `o` with probability `p i o`; the expectation of a function of all draws is a finite sum.
-/

namespace Obp

variable {K : Type} [Field K] [LinearOrder K] [IsStrictOrderedRing K]

/-- A finite probability distribution. -/
structure IsDist {O : Type} [Fintype O] (p : O → K) : Prop where
  nonneg : ∀ o, 0 ≤ p o
  sum_one : ∑ o, p o = 1

/-- Probability of the outcome `w` of `n` independent draws. -/
def jointProb {n : ℕ} {O : Type} (p : Fin n → O → K) (w : Fin n → O) : K := ∏ i, p i (w i)

/-- Expectation of `f` over `n` independent draws. -/
def expect {n : ℕ} {O : Type} [Fintype O] (p : Fin n → O → K) (f : (Fin n → O) → K) : K :=
  ∑ w, jointProb p w * f w

/-- Expectation of `f` over one draw. -/
def expect1 {O : Type} [Fintype O] (p : O → K) (f : O → K) : K := ∑ o, p o * f o

end Obp
