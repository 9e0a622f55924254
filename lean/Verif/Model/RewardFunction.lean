import Verif.Model.Dataset
import Mathlib.Analysis.SpecialFunctions.Pow.Real

/-!
# Built-in reward and behaviour policy functions

`obp/dataset/synthetic.py:29-40, 417-976`. Matrices are lists of rows; numbers are real.
-/

namespace Obp

/-- `x @ y` of vectors. (Library behaviour.) -/
def dot (x y : List ℝ) : ℝ := (List.zipWith (· * ·) x y).sum

/-- `x @ m` of a vector and a matrix with `d` columns. (Library behaviour.) -/
def vecMat (d : ℕ) (x : List ℝ) (m : List (List ℝ)) : List ℝ :=
  (List.range d).map fun k => dot x (m.map fun row => row.getD k 0)

/-- `itertools.combinations_with_replacement(is, d)`. (Library behaviour.) -/
def combsWR : ℕ → List ℕ → List (List ℕ)
  | 0, _ => [[]]
  | _ + 1, [] => []
  | d + 1, i :: is => ((combsWR d (i :: is)).map (i :: ·)) ++ combsWR (d + 1) is

/-- One row of `PolynomialFeatures(degree=degree).fit_transform`. (Library behaviour.) -/
def polyFeatures (degree : ℕ) (x : List ℝ) : List ℝ :=
  (List.range (degree + 1)).flatMap fun d =>
    (combsWR d (List.range x.length)).map fun c => (c.map fun j => x.getD j 0).prod

/-- `np.maximum(np.int32(dim * 0.3), 1)` (`obp/dataset/synthetic.py:771-776` with the only ratio below one that the library
uses, `obp/dataset/synthetic.py:550, 678`); exact arithmetic. -/
def effectiveDim (dim : ℕ) : ℕ := max (3 * dim / 10) 1

/-- `np.std` of all entries. (Library behaviour.) -/
noncomputable def npStd (l : List ℝ) : ℝ :=
  Real.sqrt ((l.map fun x => (x - l.sum / l.length) ^ 2).sum / l.length)

/-- The result of `coef_function` (`obp/dataset/synthetic.py:792-797`): the same coefficients for all rounds
(`sample_random_uniform_coefficients`, `obp/dataset/synthetic.py:29-40`), or one set per round
(`CoefficientDrifter.get_coefficients`, `obp/simulator/coefficient_drifter.py`). Coefficients are of the context, of the
action and of the interaction. -/
inductive Coefs
  | static (context action : List ℝ) (inter : List (List ℝ))
  | perRound (rows : List (List ℝ × List ℝ × List (List ℝ)))

/-- The columns of a feature row kept by `random_.choice` (`obp/dataset/synthetic.py:777-785`), if any are dropped. -/
def selectCols (sel : Option (List ℕ)) (x : List ℝ) : List ℝ :=
  match sel with
  | none => x
  | some cols => cols.map fun j => x.getD j 0

/-- `obp/dataset/synthetic.py:799-824`: the sum of the three parts. `x` are the effective context features of the rounds, `z`
those of the actions. The branches compare the leading dimension of coefficients with the number of rounds, as the code
does: with static coefficients that dimension is a number of features. Coefficients of any other shape are not modelled
beyond raising. -/
def rewardParts (coefs : Coefs) (x z : List (List ℝ)) : Py (List (List ℝ)) :=
  let n := x.length
  match coefs with
  | .static cc ac w =>
    -- 799-804
    let contextValues :=
      if cc.length ≠ n then x.map fun r => dot r cc
      else x.map fun r => (List.zipWith (· * ·) r cc).sum
    -- 806-808; without `np.tile` the vector is broadcast along the rounds
    let actionValues :=
      if ac.length ≠ n then List.replicate n (z.map fun r => dot ac r)
      else List.replicate n (z.map fun r => dot ac r)
    -- 810-822; `np.matmul` broadcasts the two-dimensional coefficients
    let interValues :=
      if ac.length ≠ n then x.map fun r => z.map fun s => dot (vecMat ac.length r w) s
      else x.map fun r => z.map fun s => dot (vecMat ac.length r w) s
    .ok (List.zipWith (fun c rest => (List.zipWith (· + ·) (rest.1.map fun a => c + a) rest.2)) contextValues
      (List.zip actionValues interValues))
  | .perRound rows =>
    if rows.length ≠ n then .error .valueError
    else
      let contextValues := List.zipWith (fun r c => (List.zipWith (· * ·) r c.1).sum) x rows
      let actionValues := rows.map fun c => z.map fun r => dot c.2.1 r
      let interValues := List.zipWith (fun r c => z.map fun s => dot (vecMat c.2.1.length r c.2.2) s) x rows
      .ok (List.zipWith (fun c rest => (List.zipWith (· + ·) (rest.1.map fun a => c + a) rest.2)) contextValues
        (List.zip actionValues interValues))

/-- `obp/dataset/synthetic.py:685-832` `_base_reward_function`, after its argument checks. `selC`, `selA` are the columns drawn
when `effective_dim_ratio < 1`. -/
noncomputable def baseReward (degree : ℕ) (selC selA : Option (List ℕ)) (zScore : Bool) (coefs : Coefs)
    (context actionContext : List (List ℝ)) : Py (List (List ℝ)) := do
  let x := context.map fun r => selectCols selC (polyFeatures degree r)
  let z := actionContext.map fun r => selectCols selA (polyFeatures degree r)
  let q ← rewardParts coefs x z
  if zScore then do
    let m ← npMean q.flatten
    let s ← npDiv m (npStd q.flatten)
    pure (q.map fun row => row.map fun v => degree * (v - s))
  else pure (q.map fun row => row.map fun v => degree * v)

/-- `sigmoid` (`obp/utils.py:977-979`) applied to every entry, as the logistic reward functions do
(`obp/dataset/synthetic.py:451-460`, `498-507`, `546-556`). -/
noncomputable def logisticReward (logits : List (List ℝ)) : List (List ℝ) :=
  logits.map fun row => row.map fun v => sigmoidWith Real.exp v

/-- The six reward functions (`obp/dataset/synthetic.py:417-682`). -/
inductive RewardFn
  | logistic | logisticPolynomial | logisticSparse | linear | polynomial | sparse
  deriving DecidableEq

/-- `degree` (`obp/dataset/synthetic.py:454, 501, 549, 592, 634, 677`). -/
def RewardFn.degree : RewardFn → ℕ
  | .logistic | .linear => 1
  | .logisticPolynomial | .polynomial => 3
  | .logisticSparse | .sparse => 4

/-- Whether only some of the features are used (`obp/dataset/synthetic.py:550, 678`). -/
def RewardFn.isSparse : RewardFn → Bool
  | .logisticSparse | .sparse => true
  | _ => false

/-- Whether the result goes through `sigmoid` (`obp/dataset/synthetic.py:460, 507, 556`). -/
def RewardFn.isLogistic : RewardFn → Bool
  | .logistic | .logisticPolynomial | .logisticSparse => true
  | _ => false

/-- A reward function (`obp/dataset/synthetic.py:417-682`) given what is drawn from the seed: the columns of the sparse
functions and the coefficients. -/
noncomputable def rewardFn (f : RewardFn) (cols : List ℕ × List ℕ) (zScore : Bool) (coefs : Coefs)
    (context actionContext : List (List ℝ)) : Py (List (List ℝ)) := do
  let q ← baseReward f.degree (if f.isSparse then some cols.1 else none) (if f.isSparse then some cols.2 else none) zScore coefs
    context actionContext
  pure (if f.isLogistic then logisticReward q else q)

/-- `obp/dataset/synthetic.py:906-976` `_base_behavior_policy_function`, after its argument checks: `action_coef` and
`context_action_coef` are drawn from the seed. `linear_behavior_policy` has degree 1 (`obp/dataset/synthetic.py:860-865`),
`polynomial_behavior_policy` degree 3 (`obp/dataset/synthetic.py:898-903`). -/
noncomputable def behaviorLogits (degree : ℕ) (ac : List ℝ) (w : List (List ℝ)) (context actionContext : List (List ℝ)) :
    Py (List (List ℝ)) := do
  let x := context.map (polyFeatures degree)
  let z := actionContext.map (polyFeatures degree)
  let l := x.map fun r => z.map fun s => dot (vecMat ac.length r w) s + dot ac s
  let m ← npMean l.flatten
  l.mapM fun row => row.mapM fun v => npDiv (degree * (v - m)) (npStd l.flatten)

end Obp
