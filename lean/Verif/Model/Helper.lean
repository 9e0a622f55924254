import Verif.Model.Estimators
import Mathlib.Analysis.SpecialFunctions.Log.Basic
import Mathlib.Analysis.SpecialFunctions.Sqrt

/-!
# Model of `obp/ope/helper.py` and of the `_estimate_mse_score` methods

The quantities involve square roots and logarithms, so the scalar type is `ℝ`.
-/

namespace Obp

/-- `sqrt(x)` of numpy: nan on negative numbers. -/
noncomputable def npSqrt (x : ℝ) : Py ℝ := if x < 0 then .error .nonFinite else .ok √x

/-- Division of Python numbers: ZeroDivisionError on zero. -/
noncomputable def pyDiv (a b : ℝ) : Py ℝ := if b = 0 then .error .zeroDivisionError else .ok (a / b)

/-- `check_scalar(delta, "delta", (int, float), min_val=0.0, max_val=1.0)` for a number `delta`
(`obp/ope/helper.py:103, 152, 194, 227`); arguments of other types are not modelled here. -/
noncomputable def checkDelta (delta : ℝ) : Py Unit := do
  raiseIf (delta < 0) .valueError
  raiseIf (1 < delta) .valueError

/-- `obp/ope/helper.py:14-57` `estimate_bias_in_ope`; `qHat = none` stands for `None`. -/
noncomputable def estimateBiasInOpe (reward iw iwHat : List ℝ) (qHat : Option (List ℝ)) : Py ℝ := do
  let q := qHat.getD (List.replicate reward.length 0)
  let d ← bop (· - ·) iw iwHat
  let e ← bop (· - ·) reward q
  let p ← bop (· * ·) d e
  let m ← npMean p
  pure |m|

/-- `obp/ope/helper.py:60-116` `estimate_high_probability_upper_bound_bias`. -/
noncomputable def estimateHighProbabilityUpperBoundBias (reward iw iwHat : List ℝ)
    (qHat : Option (List ℝ)) (delta : ℝ) : Py ℝ := do
  checkDelta delta
  let b ← estimateBiasInOpe reward iw iwHat qHat
  let n : ℝ := reward.length
  let m2 ← npMean (iw.map (· ^ 2))
  let t ← pyDiv 2 delta
  let arg ← npDiv (2 * m2 * Real.log t) n
  let s ← npSqrt arg
  let mx ← npMax iw
  let last ← npDiv (2 * mx * Real.log t) (3 * n)
  pure (b + s + last)

/-- The default of `x_max` and its check (`obp/ope/helper.py:148-151, 190-193`). -/
noncomputable def chooseXMax (x : List ℝ) (xMax : Option ℝ) : Py ℝ := do
  let m ← npMax x
  match xMax with
  | none => pure m
  | some v => do
      raiseIf (v < m) .valueError
      pure v

/-- `obp/ope/helper.py:119-158` `estimate_hoeffding_lower_bound`. -/
noncomputable def estimateHoeffdingLowerBound (x : List ℝ) (xMax : Option ℝ) (delta : ℝ) : Py ℝ := do
  let xm ← chooseXMax x xMax
  checkDelta delta
  let t ← pyDiv 1 delta
  let a ← npDiv (Real.log t) (2 * (x.length : ℝ))
  let s ← npSqrt a
  let m ← npMean x
  pure (m - xm * s)

/-- `obp/ope/helper.py:161-201` `estimate_bernstein_lower_bound`. -/
noncomputable def estimateBernsteinLowerBound (x : List ℝ) (xMax : Option ℝ) (delta : ℝ) : Py ℝ := do
  let xm ← chooseXMax x xMax
  checkDelta delta
  let t ← pyDiv 2 delta
  let ci1 ← npDiv (7 * xm * Real.log t) (3 * ((x.length : ℝ) - 1))
  let v ← npVar x
  let a ← npDiv (2 * Real.log t * v) ((x.length : ℝ) - 1)
  let ci2 ← npSqrt a
  let m ← npMean x
  pure (m - ci1 - ci2)

/-- `obp/ope/helper.py:204-234` `estimate_student_t_lower_bound`; `tq k p` stands for
`stats.t(k).ppf(p)`. Infinite quantiles (`delta` 0 or 1) are not modelled. -/
noncomputable def estimateStudentTLowerBound (tq : ℝ → ℝ → ℝ) (x : List ℝ) (delta : ℝ) : Py ℝ := do
  checkDelta delta
  let v ← npVar x
  let a ← npDiv v ((x.length : ℝ) - 1)
  let ci ← npSqrt a
  let m ← npMean x
  pure (m - ci * tq ((x.length : ℝ) - 1) (1 - delta))

/-- The `iw_hat` of each `_estimate_mse_score` (`obp/ope/estimators.py:561, 1245, 1549, 1753-1756,
1940, 2140`). Classes without the method raise AttributeError when it is called; SNIPW and SNDR
inherit it. -/
noncomputable def mseWeights (e : Estimator ℝ) (iw : List ℝ) : Py (List ℝ) :=
  match e.kind with
  | .ipw | .snipw | .dr | .sndr => .ok (iw.map e.lam.clip)
  | .switchDr => .ok (iw.map fun w => w * (if e.lam.geB w then (1 : ℝ) else 0))
  | .drOs => iw.mapM (drOsWeight e.lam)
  | .sgIpw | .sgDr => iw.mapM (sgWeight e.lam)
  | .rm | .dm | .bIpw => .error .attributeError

/-- Does the class pass `q_hat` to the bias estimate? -/
def Kind.usesModel : Kind → Bool
  | .dr | .sndr | .switchDr | .drOs | .sgDr => true
  | _ => false

/-- `_estimate_mse_score` (`obp/ope/estimators.py:496-571, 1174-1258, 1478-1562, 1687-1774,
1876-1956, 2074-2158`). -/
noncomputable def Estimator.mseScore (e : Estimator ℝ) (r : RoundIn ℝ) (useUB : Bool) (delta : ℝ) :
    Py ℝ := do
  let rr ← e.round r
  let v ← npVar rr
  let sv ← npDiv v (r.reward.length : ℝ)
  let d ← fancy3 r.dist (arange r.reward.length) r.action r.position
  let iw ← bopM npDiv d r.pscore
  let iwHat ← mseWeights e iw
  let q ← if e.kind.usesModel then do
      let q ← fancy3 r.q (arange r.reward.length) r.action r.position
      pure (some q)
    else pure none
  let b ← if useUB then estimateHighProbabilityUpperBoundBias r.reward iw iwHat q delta
    else estimateBiasInOpe r.reward iw iwHat q
  pure (sv + b ^ 2)

end Obp
