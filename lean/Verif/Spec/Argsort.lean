import Mathlib.Data.List.Basic
import Mathlib.Order.Lattice
import Mathlib.Order.Defs.LinearOrder

/-! # What `np.argsort` guarantees -/

namespace Obp

/-- What `np.argsort` guarantees: a permutation of the indices along which the values do not
decrease. -/
def IsArgsort {K : Type} [LinearOrder K] (argsort : List K → List ℕ) : Prop :=
  ∀ xs : List K, (argsort xs).Perm (List.range xs.length) ∧
    (argsort xs).Pairwise fun i j => ∀ x y, xs[i]? = some x → xs[j]? = some y → x ≤ y

end Obp
