import Verif.Model.DatasetInit
import Verif.Model.RewardFunction
import Verif.Model.RewardLaw
import Mathlib.MeasureTheory.Integral.Bochner.Set
import Mathlib.Analysis.SpecialFunctions.Pow.Real
import Mathlib.Analysis.SpecialFunctions.Trigonometric.Basic
import Mathlib.Data.Sign.Defs

/-!
# `SyntheticContinuousBanditDataset`

`obp/dataset/synthetic_continuous.py:148-435`. Floats are real numbers; infinite and nan settings are kept apart
(`PyNum`). A random generator is an arbitrary state machine that produces standard normal and uniform numbers.
-/

namespace Obp

/-! ### Random generators -/

/-- A `numpy.random.RandomState`: its states, and one standard normal and one uniform draw. (Library behaviour: arrays are
filled in row-major order, one draw per entry.) -/
structure NormalRng (S : Type) where
  normal : S → ℝ × S
  uniform : S → ℝ × S

/-- `size=n`. (Library behaviour.) -/
def draws {S : Type} (f : S → ℝ × S) : ℕ → S → List ℝ × S
  | 0, s => ([], s)
  | n + 1, s =>
    let (x, s') := f s
    let (xs, s'') := draws f n s'
    (x :: xs, s'')

/-- `size=(n, d)`. (Library behaviour.) -/
def drawRows {S : Type} (f : S → ℝ × S) (d : ℕ) : ℕ → S → List (List ℝ) × S
  | 0, s => ([], s)
  | n + 1, s =>
    let (x, s') := draws f d s
    let (xs, s'') := drawRows f d n s'
    (x :: xs, s'')

/-! ### Behaviour policies -/

/-- `a < b` with float semantics. -/
noncomputable def PyNum.ltNum : PyNum ℝ → PyNum ℝ → Bool
  | .fin x, .fin y => decide (x < y)
  | .fin _, .inf => true
  | .negInf, .fin _ => true
  | .negInf, .inf => true
  | _, _ => false

/-- `(bound - mean) / noise` with float semantics (`obp/dataset/synthetic_continuous.py:181-182`), for a finite mean and a
finite noise of at least zero. -/
noncomputable def PyNum.standardize (mean noise : ℝ) : PyNum ℝ → PyNum ℝ
  | .fin x => if noise = 0 then (if x < mean then .negInf else if mean < x then .inf else .nan) else .fin ((x - mean) / noise)
  | .inf => .inf
  | .negInf => .negInf
  | .nan => .nan

/-- The mass of the standard normal distribution between two bounds. (Library behaviour.) -/
noncomputable def truncMassN (a b : PyNum ℝ) : ℝ := ∫ z in {z : ℝ | a.le (.fin z) ∧ (PyNum.fin z).le b}, gaussianKernel z

/-- `truncnorm.ppf(u, a, b)`. (Library behaviour.) -/
noncomputable def truncPpfN (a b : PyNum ℝ) (u : ℝ) : ℝ :=
  sSup {z | a.le (.fin z) ∧ (PyNum.fin z).le b ∧ truncMassN a (.fin z) ≤ u * truncMassN a b}

/-- `truncnorm.rvs(a, b, loc, scale)` for one entry with `a < b` and uniform draw `u`; a scale of zero gives `loc`. (Library
behaviour.) -/
noncomputable def truncRvsN (a b : PyNum ℝ) (loc scale u : ℝ) : ℝ :=
  if scale = 0 then loc else loc + scale * truncPpfN a b u

/-- `truncnorm.pdf(x, a, b, loc, scale)` for `a < b`; nan for a scale of zero. (Library behaviour.) -/
noncomputable def truncPdfN (a b : PyNum ℝ) (loc scale x : ℝ) : Py ℝ :=
  if scale = 0 then .error .nonFinite
  else if a.le (.fin ((x - loc) / scale)) ∧ (PyNum.fin ((x - loc) / scale)).le b then
    .ok (gaussianKernel ((x - loc) / scale) / (scale * truncMassN a b))
  else .ok 0

/-- `obp/dataset/synthetic_continuous.py:181-192`: actions and propensities with a behaviour policy function whose values are
`means`. `truncnorm.rvs` raises ValueError unless `a < b` and `scale >= 0` in every round; an infinite or nan noise makes the
standardised bounds equal or nan. -/
noncomputable def gaussianActions (noise lo hi : PyNum ℝ) (means us : List ℝ) : Py (List (ℝ × ℝ)) :=
  match noise with
  | .fin s => do
    raiseIf (means.any fun m => !(PyNum.standardize m s lo).ltNum (PyNum.standardize m s hi)) .valueError
    let acts := List.zipWith (fun m u => (m, truncRvsN (PyNum.standardize m s lo) (PyNum.standardize m s hi) m s u)) means us
    acts.mapM fun p => do
      let d ← truncPdfN (PyNum.standardize p.1 s lo) (PyNum.standardize p.1 s hi) p.1 s p.2
      pure (p.2, d)
  | _ => .error .valueError

/-- `obp/dataset/synthetic_continuous.py:194-204`: actions and propensities without behaviour policy function. A nan scale
makes `uniform.rvs` raise ValueError, an infinite one makes the results infinite or nan. -/
noncomputable def uniformActions (lo hi : PyNum ℝ) (us : List ℝ) : Py (List (ℝ × ℝ)) :=
  match lo, hi with
  | .nan, _ => .error .valueError
  | _, .nan => .error .valueError
  | .fin l, .fin h => us.mapM fun u => do
      let x := l + (h - l) * u
      let d ← npDiv 1 (h - l)
      pure (x, if l ≤ x ∧ x ≤ h then d else 0)
  | _, _ => .error .nonFinite

/-! ### Rewards -/

/-- `_contextfree_reward_function` for one action (`obp/dataset/synthetic_continuous.py:148-153`). -/
noncomputable def contextfreeRewardContinuous (a : ℝ) : ℝ := 2 * |a| ^ (1.5 : ℝ) - 5 * a

/-- Settings of the dataset after the constructor. The two functions are called with the fixed `random_state` and the results
are taken to have one entry per round. -/
structure ContinuousConfig where
  dim : ℕ
  actionNoise : PyNum ℝ
  rewardNoise : PyNum ℝ
  lo : PyNum ℝ
  hi : PyNum ℝ
  behavior : Option (List (List ℝ) → Py (List ℝ))
  reward : Option (List (List ℝ) → List ℝ → Py (List ℝ))

/-- The logged data. -/
structure ContinuousFeedback where
  context : List (List ℝ)
  action : List ℝ
  reward : List ℝ
  pscore : List ℝ
  expectedReward : List ℝ

/-- `obp/dataset/synthetic_continuous.py:206-211, 259-264`: expected rewards of the actions. -/
noncomputable def ContinuousConfig.expected (c : ContinuousConfig) (ctx : List (List ℝ)) (acts : List ℝ) : Py (List ℝ) :=
  match c.reward with
  | none => .ok (acts.map contextfreeRewardContinuous)
  | some f => f ctx acts

/-- `obp/dataset/synthetic_continuous.py:176-204`: actions and propensities. -/
noncomputable def ContinuousConfig.actions (c : ContinuousConfig) (ctx : List (List ℝ)) (us : List ℝ) :
    Py (List (ℝ × ℝ)) :=
  match c.behavior with
  | some f => do
      let means ← f ctx
      gaussianActions c.actionNoise c.lo c.hi means us
  | none => uniformActions c.lo c.hi us

/-- `obp/dataset/synthetic_continuous.py:212-214`: the rewards; an infinite or nan noise makes them infinite or nan. -/
noncomputable def addNoise (noise : PyNum ℝ) (expected eps : List ℝ) : Py (List ℝ) :=
  match noise with
  | .fin r => .ok (List.zipWith (fun q e => q + r * e) expected eps)
  | _ => .error .nonFinite

/-- `obtain_batch_bandit_feedback` (`obp/dataset/synthetic_continuous.py:155-224`). `s0` is the state of a generator started
from `random_state`, `s` that of the dataset's own generator; the new state is returned. -/
noncomputable def ContinuousConfig.obtain {S : Type} (c : ContinuousConfig) (rng : NormalRng S) (s0 s : S)
    (nRounds : PyScalar ℝ) : Py (ContinuousFeedback × S) := do
  let n ← checkIntMin 1 nRounds
  let (ctx, s1) := drawRows rng.normal c.dim n.toNat s
  let us := (draws rng.uniform n.toNat s0).1
  let ap ← c.actions ctx us
  let expected ← c.expected ctx (ap.map Prod.fst)
  let (eps, s2) := draws rng.normal n.toNat s1
  let reward ← addNoise c.rewardNoise expected eps
  pure (⟨ctx, ap.map Prod.fst, reward, ap.map Prod.snd, expected⟩, s2)

/-- The rows of a 2-D array. -/
def Arr2.rows (x : Arr2 ℝ) : List (List ℝ) := List.ofFn fun i => List.ofFn fun j => x.val i j

/-- `calc_ground_truth_policy_value` (`obp/dataset/synthetic_continuous.py:226-264`); actions are a 1-D float array or
something else. -/
noncomputable def ContinuousConfig.groundTruth (c : ContinuousConfig) (ctx : Arg2 ℝ) (acts : Option (List ℝ)) : Py ℝ := do
  let x ← checkArray2 ctx
  match acts with
  | none => .error .valueError
  | some as => do
    raiseIf (x.d ≠ c.dim) .valueError
    raiseIf (x.n ≠ as.length) .valueError
    let q ← c.expected x.rows as
    npMean q

/-! ### Built-in functions -/

/-- The checks of `obp/dataset/synthetic_continuous.py:294-299, 331-336`. -/
def checkContextAction (ctx : Arg2 ℝ) (acts : Option (List ℝ)) : Py (Arr2 ℝ × List ℝ) := do
  let x ← checkArray2 ctx
  match acts with
  | none => .error .valueError
  | some as => do
    raiseIf (x.n ≠ as.length) .valueError
    pure (x, as)

/-- `linear_reward_funcion_continuous` for contexts with `d` entries (`obp/dataset/synthetic_continuous.py:301-304`). -/
noncomputable def linearRewardContinuous {S : Type} (rng : NormalRng S) (s0 : S) (d : ℕ) (ctx : List (List ℝ)) (acts : List ℝ) :
    List ℝ :=
  let (coef, s1) := draws rng.normal d s0
  let (pow, s2) := rng.uniform s1
  let (bias, _) := rng.uniform s2
  List.zipWith (fun x a => |dot x coef - a| ^ pow + bias) ctx acts

/-- `linear_reward_funcion_continuous` with its checks (`obp/dataset/synthetic_continuous.py:270-304`). -/
noncomputable def linearRewardContinuousFn {S : Type} (rng : NormalRng S) (s0 : S) (ctx : Arg2 ℝ) (acts : Option (List ℝ)) :
    Py (List ℝ) := do
  let (x, as) ← checkContextAction ctx acts
  pure (linearRewardContinuous rng s0 x.d x.rows as)

/-- `quadratic_reward_funcion_continuous` for contexts with `d` entries (`obp/dataset/synthetic_continuous.py:338-347`). -/
noncomputable def quadraticRewardContinuous {S : Type} (rng : NormalRng S) (s0 : S) (d : ℕ) (ctx : List (List ℝ))
    (acts : List ℝ) : List ℝ :=
  let (coefX, s1) := draws rng.normal d s0
  let (coefXA, s2) := draws rng.normal d s1
  let (coefXASq, s3) := draws rng.normal d s2
  let (coefA, _) := rng.normal s3
  List.zipWith (fun x a => coefA * a * dot x coefX + dot x coefXA * a + (a - dot x coefXASq) ^ 2) ctx acts

/-- `quadratic_reward_funcion_continuous` with its checks (`obp/dataset/synthetic_continuous.py:307-347`). -/
noncomputable def quadraticRewardContinuousFn {S : Type} (rng : NormalRng S) (s0 : S) (ctx : Arg2 ℝ) (acts : Option (List ℝ)) :
    Py (List ℝ) := do
  let (x, as) ← checkContextAction ctx acts
  pure (quadraticRewardContinuous rng s0 x.d x.rows as)

/-- `linear_behavior_policy_continuous` for contexts with `d` entries (`obp/dataset/synthetic_continuous.py:350-375`). -/
noncomputable def linearBehaviorContinuous {S : Type} (rng : NormalRng S) (s0 : S) (d : ℕ) (ctx : List (List ℝ)) : List ℝ :=
  let (coef, s1) := draws rng.normal d s0
  let (bias, _) := rng.uniform s1
  ctx.map fun x => dot x coef + bias

/-- `context.mean(1)` for one row. (Library behaviour.) -/
noncomputable def rowMean (x : List ℝ) : Py ℝ := npMean x

/-- `linear_synthetic_policy_continuous` for one round (`obp/dataset/synthetic_continuous.py:381-397`). -/
noncomputable def linearPolicyContinuous (x : List ℝ) : Py ℝ := rowMean x

/-- `threshold_synthetic_policy_continuous` for one round (`obp/dataset/synthetic_continuous.py:400-416`). -/
noncomputable def thresholdPolicyContinuous (x : List ℝ) : Py ℝ := do
  let m ← rowMean x
  pure (1 + ((SignType.sign (m - 1.5) : SignType) : ℝ))

/-- `sign_synthetic_policy_continuous` for one round (`obp/dataset/synthetic_continuous.py:419-435`). -/
noncomputable def signPolicyContinuous (x : List ℝ) : Py ℝ := do
  let m ← rowMean x
  pure (Real.sin m)

end Obp
