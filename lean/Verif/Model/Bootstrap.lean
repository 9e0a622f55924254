import Verif.Model.Checks
import Mathlib.Algebra.Order.Floor.Ring
import Mathlib.Algebra.Order.Floor.Semiring
import Mathlib.Data.List.Sort
import Mathlib.Data.Rat.Floor

/-!
# Model of the bootstrap confidence interval of `obp/utils.py`

The random resampling is a parameter: the list of index lists drawn by
`random_.choice(samples, size=samples.shape[0])`.
-/

namespace Obp

variable {K : Type} [Field K] [LinearOrder K]

/-- The arguments `alpha`, `n_bootstrap_samples`, `random_state` (only: is the seed acceptable). -/
structure CiArgs (K : Type) where
  alpha : PyScalar K
  nBoot : PyScalar K
  seedOk : Bool

/-- The returned dictionary: keys `"mean"`, `"...% CI (lower)"`, `"...% CI (upper)"`. -/
structure CiOut (K : Type) where
  mean : K
  lower : K
  upper : K

/-- One bootstrap sample `random_.choice(samples, size=n)` given the drawn indices
(`obp/utils.py:80`). Indices are below the length by the contract of `choice`. -/
def resample (samples : List K) (idx : List ℕ) : List K := idx.filterMap (samples[·]?)

/-- `np.percentile(xs, 100 * p)` with the default linear interpolation: position `p * (n - 1)` in
the sorted data; ValueError for `p` outside `[0, 1]`, nan/IndexError-free for non-empty data. -/
def percentile [IsStrictOrderedRing K] [FloorRing K] (xs : List K) (p : K) : Py K :=
  if p < 0 ∨ 1 < p then .error .valueError
  else
    let s := xs.insertionSort (· ≤ ·)
    let pos := p * ((xs.length : K) - 1)
    let lo := ⌊pos⌋₊
    let frac := pos - (lo : K)
    match s[lo]?, s[lo + 1]? with
    | some a, some b => .ok (a + (b - a) * frac)
    | some a, none => .ok a
    | none, _ => .error .nonFinite

/-- `obp/utils.py:45-87` `estimate_confidence_interval_by_bootstrap`. `draws` are the index lists
drawn in the loop of lines 79-80, one per bootstrap sample; `choice` raises ValueError when there
is nothing to draw from. A nan `alpha` passes the argument check
(comparisons with nan are false) and is then rejected by `np.percentile`. -/
def bootstrapCI [IsStrictOrderedRing K] [FloorRing K] (samples : List K) (c : CiArgs K)
    (draws : List (List ℕ)) : Py (CiOut K) := do
  checkConfidenceIntervalArguments c.seedOk c.alpha c.nBoot
  raiseIf (samples.length = 0) .valueError
  let boot ← draws.mapM fun idx => npMean (resample samples idx)
  match c.alpha with
  | .flt alpha => do
      let lower ← percentile boot (100 * (alpha / 2) / 100)
      let upper ← percentile boot (100 * (1 - alpha / 2) / 100)
      let m ← npMean boot
      pure ⟨m, lower, upper⟩
  | _ => .error .valueError

end Obp
