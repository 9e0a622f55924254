import Verif.Model.PolicyInit
import Verif.Model.Regression

/-! # Constructors of the embedding estimator and of the slate regression model -/

namespace Obp

section
variable {K : Type} [Field K] [LinearOrder K]

/-- The search over embedding dimensions (`obp/ope/estimators_embed.py:79, 98-103`). -/
inductive EmbSelection
  | exact
  | greedy
  deriving DecidableEq

/-- The settings kept by `MarginalizedInverseProbabilityWeighting` (`obp/ope/estimators_embed.py:75-82`). -/
structure MipsConfig (K : Type) where
  nActions : ℤ
  minEmbDim : ℤ
  delta : PyScalar K
  selection : Option EmbSelection

/-- `embedding_selection_method` (`obp/ope/estimators_embed.py:98-103`); values that are no strings are refused like unknown ones. -/
def embSelection : Option String → Py (Option EmbSelection)
  | none => .ok none
  | some s => if s = "exact" then .ok (some .exact) else if s = "greedy" then .ok (some .greedy) else .error .valueError

/-- `MarginalizedInverseProbabilityWeighting.__post_init__` (`obp/ope/estimators_embed.py:84-107`); `classifier` is
`is_classifier(pi_a_x_e_estimator)`. -/
def mkMips (nActions minEmbDim delta : PyScalar K) (selection : Option String) (classifier : Bool) : Py (MipsConfig K) := do
  let n ← checkIntMin 2 nActions
  let m ← checkIntMin 1 minEmbDim
  let d ← checkFloatIn 0 (some 1) delta
  let s ← embSelection selection
  raiseIf (!classifier) .valueError
  pure { nActions := n, minEmbDim := m, delta := d, selection := s }

/-- The argument `base_model` of `SlateRegressionModel` (`obp/ope/regression_model_slate.py:67-72`). -/
inductive SlateBaseModel (M : Type)
  | regressor (m : M)
  | classifier
  | notEstimator

/-- The object built by `SlateRegressionModel.__post_init__` (`obp/ope/regression_model_slate.py:73-74`): one model for every position. -/
structure SlateRegModel (K M : Type) where
  lenList : ℤ
  nUnique : ℤ
  iw : Bool
  models : List M
  actionContext : Arr2 K

/-- `SlateRegressionModel.__post_init__` (`obp/ope/regression_model_slate.py:56-74`); `clone` is `sklearn.base.clone`, `fitting` is `none`
if `fitting_method` is no string. -/
def mkSlateRegression {M : Type} (clone : M → M) (base : SlateBaseModel M) (lenList nUnique : PyScalar K) (fitting : Option String) :
    Py (SlateRegModel K M) := do
  let n ← checkIntMin 2 nUnique
  let l ← checkIntMin 1 lenList
  raiseIf (!(fitting == some "normal" || fitting == some "iw")) .valueError
  match base with
  | .notEstimator => .error .valueError
  | .classifier => .error .valueError
  | .regressor m =>
    pure { lenList := l, nUnique := n, iw := fitting == some "iw", models := (List.range l.toNat).map fun _ => clone m,
           actionContext := eye n.toNat }

end

end Obp
