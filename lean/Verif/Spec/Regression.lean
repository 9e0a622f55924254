import Verif.Model.Regression

/-! # Vocabulary for the regression and classification models -/

namespace Obp

variable {K : Type} [Field K] [LinearOrder K] {M : Type}

/-- Logged data of `n` rounds with everything given: contexts of dimension `d`, actions in `0..A-1`,
positions in `0..L-1`, an evaluation policy, and a table of action features of dimension `e`. -/
structure RegLog (K : Type) (n A L d e : ℕ) where
  context : Fin n → Fin d → K
  action : Fin n → Fin A
  reward : Fin n → K
  pscore : Fin n → K
  position : Fin n → Fin L
  piE : Fin n → Fin A → Fin L → K
  table : Fin A → Fin e → K

namespace RegLog
variable {n A L d e : ℕ}

/-- The arguments of an API call on these data. -/
def args (g : RegLog K n A L d e) : RegArgs K where
  context := .arr ⟨n, d, g.context⟩
  action := .int (List.ofFn fun i => ((g.action i : ℕ) : ℤ))
  reward := .flt (List.ofFn g.reward)
  pscore := .flt (List.ofFn g.pscore)
  position := .int (List.ofFn fun i => ((g.position i : ℕ) : ℤ))
  actionDist := .arr ⟨n, A, L, g.piE⟩

/-- A `RegressionModel` object for these data. -/
abbrev config (g : RegLog K n A L d e) (method : FitMethod) : RegConfig K where
  nActions := A
  lenList := L
  actionContext := .arr ⟨A, e, g.table⟩
  method := method

/-- What the documentation requires of the data. -/
structure Valid (g : RegLog K n A L d e) : Prop where
  rounds : 0 < n
  pscore : ∀ i, 0 < g.pscore i

/-- The evaluation policy is a distribution up to numpy's tolerance. -/
def DistOk (g : RegLog K n A L d e) : Prop := ∀ i p, |∑ a, g.piE i a p - 1| ≤ 1 / 10 ^ 8 + 1 / 10 ^ 5

/-- The feature vector of a round for an action: the context followed by the action's features. -/
def feature (g : RegLog K n A L d e) (i : Fin n) (a : Fin A) : List K :=
  List.ofFn (g.context i) ++ List.ofFn (g.table a)

/-- The rounds logged at a position among the listed ones, in order. -/
def roundsAt (g : RegLog K n A L d e) (rounds : List (Fin n)) (p : Fin L) : List (Fin n) :=
  rounds.filter fun i => g.position i = p

/-- The documented sample weight of a round. -/
def sampleWeight (g : RegLog K n A L d e) (method : FitMethod) (i : Fin n) : K :=
  match method with
  | .normal => 1
  | .iw => g.piE i (g.action i) (g.position i) / g.pscore i
  | .mrdr => g.piE i (g.action i) (g.position i) * (1 - g.pscore i) / g.pscore i ^ 2

/-- The models `ms'` result from the models `ms` by one fit per position on exactly the rounds of that
position among the listed ones, with the documented weights (no weights for "normal"). -/
def FittedOn (g : RegLog K n A L d e) (lrn : Learner M K) (method : FitMethod) (rounds : List (Fin n))
    (ms ms' : Fin L → M) : Prop :=
  ∀ p, lrn.fit (ms p) ((g.roundsAt rounds p).map fun i => g.feature i (g.action i))
    ((g.roundsAt rounds p).map g.reward)
    (if method = .normal then none else some ((g.roundsAt rounds p).map (g.sampleWeight method))) = .ok (ms' p)

end RegLog

/-- `fit` forgets what the object has been fitted on before (scikit-learn estimators without
`warm_start`). -/
def Learner.Forgets (lrn : Learner M K) : Prop := ∀ m m' X y w, lrn.fit m X y w = lrn.fit m' X y w

/-- As `Learner.Forgets`. -/
def Classifier.Forgets (clf : Classifier M K) : Prop := ∀ m m' X y, clf.fit m X y = clf.fit m' X y

/-- The contract of `KFold(k, shuffle=True).split`: `k` pairs; every index is in exactly one test set; the
training set of a fold are the indices outside of its test set, each once. -/
structure IsKFold {n : ℕ} (k : ℕ) (folds : Folds n) : Prop where
  length_eq : folds.length = k
  once : ∀ i, folds.countP (fun f => i ∈ f.2) = 1
  train : ∀ f ∈ folds, ∀ i, i ∈ f.1 ↔ i ∉ f.2
  nodup : ∀ f ∈ folds, f.1.Nodup

end Obp
