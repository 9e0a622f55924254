import Verif.Spec.Process
import Verif.Model.Estimators

/-!
# Bias of estimates with clipped, switched or shrunk weights
-/

namespace Obp

variable {K : Type} [Field K] [LinearOrder K]

/-- The part of the evaluation probability `e` of an action that an estimator with `lambda_ = l`
does not evaluate from logged rewards, if the behaviour policy takes the action with probability
`b`: what exceeds `l` times `b` for clipping, everything if `e` exceeds `l` times `b` for
switching, a smooth fraction for shrinking, everything for the direct method. -/
def lostProb (k : Kind) (l e b : K) : K :=
  match k with
  | .ipw | .dr => max 0 (e - l * b)
  | .switchDr => if l * b < e then e else 0
  | .drOs => e * (e ^ 2 / (e ^ 2 + l * b ^ 2))
  | .sgIpw | .sgDr => e * (l * (e - b) / ((1 - l) * b + l * e))
  | .dm => e
  | _ => 0

/-- The estimators whose bias is considered. -/
def Kind.HasBias (k : Kind) : Prop := k ∈ [Kind.ipw, .dr, .switchDr, .drOs, .sgIpw, .sgDr, .dm]

/-- What an estimator uses in place of the unevaluated rewards: the reward prediction, or zero if
the estimator has no reward model. -/
def Kind.fallback (k : Kind) (q : K) : K :=
  match k with
  | .ipw | .sgIpw => 0
  | _ => q

namespace Process
variable {n A S L : ℕ}

/-- The mean over rounds of `f i a` summed over the actions. -/
def meanSum (f : Fin n → Fin A → K) : K := (∑ i, ∑ a, f i a) / (n : K)

end Process

end Obp
