import Verif.Spec.Prob
import Verif.Spec.Ope

/-!
# Data-generating processes for off-policy evaluation

`n` rounds with fixed contexts. In round `i` the behaviour policy draws action `a` with probability
`piB i a`, then a reward outcome `s` out of finitely many is drawn with probability `law i a s` and
the reward is `val i a s`. Rounds are independent.
-/

namespace Obp

variable {K : Type} [Field K] [LinearOrder K]

/-- A logging process (`S` indexes the possible reward outcomes). -/
structure Process (K : Type) (n A S : ℕ) where
  piB : Fin n → Fin A → K
  law : Fin n → Fin A → Fin S → K
  val : Fin n → Fin A → Fin S → K

namespace Process
variable {n A S L : ℕ}

/-- The behaviour policy and the reward laws are probability distributions. -/
structure Valid (P : Process K n A S) : Prop where
  piB_dist : ∀ i, IsDist (P.piB i)
  law_dist : ∀ i a, IsDist (P.law i a)

/-- Probability that round `i` logs action `o.1` with reward outcome `o.2`. -/
def prob (P : Process K n A S) (i : Fin n) (o : Fin A × Fin S) : K :=
  P.piB i o.1 * P.law i o.1 o.2

/-- The expected reward of action `a` in round `i`. -/
def meanReward (P : Process K n A S) (i : Fin n) (a : Fin A) : K := ∑ s, P.law i a s * P.val i a s

/-- The value of the policy that plays `a` in round `i` with probability `pi i a`. -/
def policyValue (P : Process K n A S) (pi : Fin n → Fin A → K) : K :=
  (∑ i, ∑ a, pi i a * P.meanReward i a) / (n : K)

/-- The log produced by outcome `w`, with `pscore` the recorded propensities, evaluation policy
`piE`, reward predictions `q`. -/
def log (P : Process K n A S) (w : Fin n → Fin A × Fin S) (pscore : Fin n → Fin A → K)
    (pos : Fin n → Fin L) (piE q : Fin n → Fin A → Fin L → K) : Log K n A L where
  action i := (w i).1
  reward i := P.val i (w i).1 (w i).2
  pscore i := pscore i (w i).1
  estPscore _ := 1
  position := pos
  piE := piE
  q := q
  estIw _ := 1

end Process

end Obp
