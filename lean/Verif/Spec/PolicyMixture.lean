import Verif.Spec.Ope
import Verif.Spec.Prob

/-!
# Mixtures of evaluation policies

Vocabulary of C198: one log evaluated under several policies, and the policy that picks one of them at random.
-/

namespace Obp
variable {K : Type} [Field K] [LinearOrder K] {n A L m : ℕ}

/-- The same log with another evaluation policy. -/
def Log.withPolicy (g : Log K n A L) (pi : Fin n → Fin A → Fin L → K) : Log K n A L := { g with piE := pi }

/-- The `action_dist` of the policy that acts like candidate `k` with probability `c k`. -/
def mixPolicy (c : Fin m → K) (pi : Fin m → Fin n → Fin A → Fin L → K) : Fin n → Fin A → Fin L → K :=
  fun i a l => ∑ k, c k * pi k i a l

/-- Every row of `action_dist` is a probability distribution. -/
def IsPolicyArray (pi : Fin n → Fin A → Fin L → K) : Prop := ∀ i l, IsDist fun a => pi i a l

end Obp
