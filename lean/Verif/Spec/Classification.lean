import Verif.Spec.Regression

/-! # Vocabulary for `PropensityScoreEstimator` and `ImportanceWeightEstimator` -/

namespace Obp

variable {K : Type} [Field K] [LinearOrder K] {M : Type}

namespace RegLog
variable {n A L d e : ℕ}

/-- The classifiers `ms'` result from `ms` by one fit per position, on the contexts and actions of exactly the
listed rounds of that position. -/
def PropensityFittedOn (g : RegLog K n A L d e) (clf : Classifier M K) (rounds : List (Fin n))
    (ms ms' : Fin L → M) : Prop :=
  ∀ p, clf.fit (ms p) ((g.roundsAt rounds p).map fun i => List.ofFn (g.context i))
    ((g.roundsAt rounds p).map fun i => ((g.action i : ℕ) : ℤ)) = .ok (ms' p)

/-- The features of a round under the evaluation policy: with the sampled action ("sample"), or with the
action distribution itself ("raw"). -/
def evalFeature (g : RegLog K n A L d e) (method : IweMethod) (p : Fin L) (sampled : Fin n → Fin A) (i : Fin n) : List K :=
  match method with
  | .sample => g.feature i (sampled i)
  | .raw => List.ofFn (g.context i) ++ List.ofFn fun a => g.piE i a p

/-- The classifiers `ms'` result from `ms` by one fit per position, on the logged features labelled 0 and the
evaluation features labelled 1 of exactly the listed rounds of that position. -/
def IweFittedOn (g : RegLog K n A L d e) (method : IweMethod) (clf : Classifier M K)
    (sampled : Fin L → Fin n → Fin A) (rounds : List (Fin n)) (ms ms' : Fin L → M) : Prop :=
  ∀ p, clf.fit (ms p)
    ((g.roundsAt rounds p).map (fun i => g.feature i (g.action i)) ++
      (g.roundsAt rounds p).map (g.evalFeature method p (sampled p)))
    (List.replicate (g.roundsAt rounds p).length 0 ++ List.replicate (g.roundsAt rounds p).length 1) = .ok (ms' p)

/-- `sampled p i` is the action drawn for round `i` at position `p`: the result of `sample_action_fast` on the
evaluation policy of the listed rounds of that position, with the draws `draws p k` for `k` rounds. -/
def SampledBy (g : RegLog K n A L d e) (draws : ℕ → ℕ → List K) (rounds : List (Fin n))
    (sampled : Fin L → Fin n → Fin A) : Prop :=
  ∀ p : Fin L, sampleActionFast ((g.roundsAt rounds p).map fun i => List.ofFn fun a => g.piE i a p)
    (draws p (g.roundsAt rounds p).length) = .ok ((g.roundsAt rounds p).map fun i => (sampled p i).val)

/-- An `ImportanceWeightEstimator` object for these data. -/
abbrev iweConfig (g : RegLog K n A L d e) (method : IweMethod) : IweConfig K where
  nActions := A
  lenList := L
  actionContext := .arr ⟨A, e, g.table⟩
  method := method

end RegLog

/-- The contract of scikit-learn's `predict_proba`: one column for every class seen in training, in increasing
order of the classes; `P m x c` is the fitted model's probability of class `c`. -/
def Classifier.ClassColumns (clf : Classifier M K) (P : M → List K → ℤ → K) : Prop :=
  ∀ m X y m', clf.fit m X y = .ok m' → ∀ x, clf.proba m' x = (npUnique y).map (P m' x)

/-- The number of training rows with features `x` and class `c`. -/
def rowCount (X : List (List K)) (y : List ℤ) (x : List K) (c : ℤ) : ℕ := (X.zip y).count (x, c)

/-- A classifier that is perfectly calibrated on its training data: the probability of a class at features `x`
is its share among the training rows with features `x` (there are such rows). -/
def Classifier.Calibrated (clf : Classifier M K) : Prop :=
  ∀ m X y m', clf.fit m X y = .ok m' → ∀ x ∈ X,
    clf.proba m' x = (npUnique y).map fun c => (rowCount X y x c : K) / (X.count x : K)

end Obp
