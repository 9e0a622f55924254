import Verif.Spec.Multi

/-!
# Precision-weighted averages of the estimates of several loggers
-/

namespace Obp

variable {K : Type} [Field K] [LinearOrder K]

namespace MLog
variable {n A L : ℕ}

/-- The share of stratum `k` among the precisions: number of rounds over variance of `f`, as a fraction of the total. -/
def precisionShare (g : MLog K n A L) (f : Fin n → K) (k : ℕ) : K :=
  (g.size k / g.stratumVar f k) / ∑ j ∈ g.labels, g.size j / g.stratumVar f j

/-- The means of `f` in the strata, averaged with the shares of precision. -/
def precisionMean (g : MLog K n A L) (f : Fin n → K) : K := ∑ k ∈ g.labels, g.precisionShare f k * g.stratumMean f k

end MLog

end Obp
