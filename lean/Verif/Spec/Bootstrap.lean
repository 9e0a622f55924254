import Verif.Model.Bootstrap

/-! # Specification vocabulary for the bootstrap confidence interval -/

namespace Obp

variable {K : Type} [Field K] [LinearOrder K]

/-- A call with float `alpha`, int `n_bootstrap_samples` and an acceptable seed. -/
def ciCall (alpha : K) (nBoot : ℕ) : CiArgs K := ⟨.flt alpha, .int nBoot, true⟩

/-- What the random generator may produce for `n` samples and `nBoot` resamples: `nBoot` index
lists of length `n` with entries below `n`. -/
def ValidDraws (n nBoot : ℕ) (draws : List (List ℕ)) : Prop :=
  draws.length = nBoot ∧ ∀ idx ∈ draws, idx.length = n ∧ ∀ j ∈ idx, j < n

/-- The mean of the samples selected by one index list. -/
def resampledMean (samples : List K) (idx : List ℕ) : K :=
  (idx.map fun j => samples.getD j 0).sum / (idx.length : K)

end Obp
