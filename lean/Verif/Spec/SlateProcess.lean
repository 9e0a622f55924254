import Verif.Spec.Prob
import Verif.Spec.Slate

/-!
# Data-generating processes for slates

`n` slates of length `L` with fixed contexts. For slate `i` the behaviour policy draws the whole list
of actions `a : Fin L → Fin A` with probability `piB i a`; then an outcome `s` is drawn with
probability `law i a s`, and the reward at slot `l` is `val i a s l`. Slates are independent.
-/

namespace Obp

variable {K : Type} [Field K] [LinearOrder K]

/-- A slate logging process. -/
structure SlateProcess (K : Type) (n L A S : ℕ) where
  piB : Fin n → (Fin L → Fin A) → K
  law : Fin n → (Fin L → Fin A) → Fin S → K
  val : Fin n → (Fin L → Fin A) → Fin S → Fin L → K

namespace SlateProcess
variable {n L A S : ℕ}

/-- The behaviour policy and the reward laws are probability distributions. -/
structure Valid (P : SlateProcess K n L A S) : Prop where
  piB_dist : ∀ i, IsDist (P.piB i)
  law_dist : ∀ i a, IsDist (P.law i a)

/-- Probability that slate `i` logs actions `o.1` with reward outcome `o.2`. -/
def prob (P : SlateProcess K n L A S) (i : Fin n) (o : (Fin L → Fin A) × Fin S) : K :=
  P.piB i o.1 * P.law i o.1 o.2

/-- The expected reward of slot `l` of slate `i` when the list `a` is shown. -/
def meanReward (P : SlateProcess K n L A S) (i : Fin n) (a : Fin L → Fin A) (l : Fin L) : K :=
  ∑ s, P.law i a s * P.val i a s l

/-- The value of a slate policy: expected total reward of a slate, averaged over contexts. -/
def policyValue (P : SlateProcess K n L A S) (pi : Fin n → (Fin L → Fin A) → K) : K :=
  (∑ i, ∑ a, pi i a * ∑ l, P.meanReward i a l) / (n : K)

/-- The log produced by the outcome `w`: slates in order, positions in order; `pb i a l` and
`pe i a l` are the recorded propensities of slot `l` when the list `a` was shown. -/
def log (P : SlateProcess K n L A S) (w : Fin n → (Fin L → Fin A) × Fin S)
    (pb pe : Fin n → (Fin L → Fin A) → Fin L → K) : SlateLog K (n * L) where
  slate j := j.divNat
  pos j := j.modNat
  reward j := P.val j.divNat (w j.divNat).1 (w j.divNat).2 j.modNat
  ps j := pb j.divNat (w j.divNat).1 j.modNat
  eps j := pe j.divNat (w j.divNat).1 j.modNat

end SlateProcess

section propensities
variable {n L A : ℕ}

/-- Joint propensity: the probability of the whole list. -/
def jointPscore (pi : Fin n → (Fin L → Fin A) → K) (i : Fin n) (a : Fin L → Fin A) (_ : Fin L) : K :=
  pi i a

/-- Item-position propensity: the probability of the action at slot `l`. -/
def itemPscore (pi : Fin n → (Fin L → Fin A) → K) (i : Fin n) (a : Fin L → Fin A) (l : Fin L) : K :=
  ∑ b, if b l = a l then pi i b else 0

/-- Cascade propensity: the probability of the actions at slot `l` and above. -/
def cascadePscore (pi : Fin n → (Fin L → Fin A) → K) (i : Fin n) (a : Fin L → Fin A) (l : Fin L) : K :=
  ∑ b, if ∀ m ≤ l, b m = a m then pi i b else 0

/-- The probability of the actions strictly above slot `l`. -/
def prefixPscore (pi : Fin n → (Fin L → Fin A) → K) (i : Fin n) (a : Fin L → Fin A) (l : Fin L) : K :=
  ∑ b, if ∀ m < l, b m = a m then pi i b else 0

end propensities

end Obp
