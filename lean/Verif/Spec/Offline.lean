import Verif.Model.Offline
import Verif.Spec.Regression
import Verif.Spec.Ope
import Verif.Spec.Argsort

/-! # Vocabulary for the offline policy learners -/

namespace Obp

variable {K : Type} [Field K] [LinearOrder K] {M : Type} {A L : ℕ}

/-- The distribution that puts all mass on one action. -/
def pointMass (b : Fin A) (a : Fin A) : K := if a = b then 1 else 0

/-- The first action of highest value. -/
structure IsFirstBest (q : Fin A → K) (b : Fin A) : Prop where
  best : ∀ a, q a ≤ q b
  first : ∀ a < b, q a < q b

/-- A sampled ranking: at every position all mass is on one action, the actions are distinct, sorted by
descending utility, and no unranked action has a higher utility. -/
def IsSampledRanking (u : Fin A → K) (v : Fin A → Fin L → K) : Prop :=
  ∃ r : Fin L → Fin A, Function.Injective r ∧ (∀ a p, v a p = pointMass (r p) a) ∧
    (∀ p p', p < p' → u (r p') ≤ u (r p)) ∧ ∀ a, (∀ p, r p ≠ a) → ∀ p, u a ≤ u (r p)

/-- The utility that rankings are sampled by: the score averaged over positions, divided by the
temperature, plus noise. -/
def utility {L' : ℕ} (score : Fin A → Fin L' → K) (tau : K) (noise : Fin A → K) (a : Fin A) : K :=
  (∑ p, score a p) / (L' : K) / tau + noise a

/-- `predict` of a `RegressionModel` built by `QLearner`: the one-hot code of the action is appended to the
context. -/
def qValue {n d : ℕ} (lrn : Learner M K) (c : Fin n → Fin d → K) (i : Fin n) (m : M) (a : Fin A) : K :=
  lrn.predict m (List.ofFn (c i) ++ List.ofFn fun b : Fin A => if a = b then (1 : K) else 0)

/-- The `RegressionModel` of a `QLearner`. -/
abbrev qConfig (K : Type) [Field K] (A L : ℕ) (method : FitMethod) : RegConfig K where
  nActions := A
  lenList := L
  actionContext := .arr (eye A)
  method := method

namespace RegLog
variable {n d e : ℕ}

/-- The log of these data as input to the estimators, with an evaluation policy. -/
def opeLog (g : RegLog K n A L d e) (piE : Fin n → Fin A → Fin L → K) : Log K n A L where
  action := g.action
  reward := g.reward
  pscore := g.pscore
  estPscore := g.pscore
  position := g.position
  piE := piE
  q := fun _ _ _ => 0
  estIw := fun _ => 0

/-- The evaluation policy that follows a decision rule per position. -/
def follow (g : RegLog K n A L d e) (rule : Fin L → List K → Fin A) (i : Fin n) (a : Fin A) (p : Fin L) : K :=
  pointMass (rule p (List.ofFn (g.context i))) a

end RegLog

/-- Total weight of the examples that a decision rule labels correctly. -/
def weightCorrect (X : List (List K)) (y : List ℤ) (w : List K) (rule : List K → ℤ) : K :=
  (((X.zip y).zip w).map fun s => if rule s.1.1 = s.1.2 then s.2 else 0).sum

/-- Fitting returns a decision rule of highest weighted accuracy among those of a class. -/
def WClassifier.OptimalIn (clf : WClassifier M K) (rules : Set (List K → ℤ)) : Prop :=
  ∀ m X y w m', clf.fit m X y w = .ok m' → ∀ rule ∈ rules,
    weightCorrect X y w rule ≤ weightCorrect X y w (clf.predict m')

/-! ### training losses -/

/-- Optimiser steps done by a training run. -/
def stepsDone (loss : ℕ → K) (tol : K) (nIterNoChange batches epochs : ℕ) : ℕ :=
  (trainLoop loss tol nIterNoChange batches epochs trainInit).steps

/-! ### objectives -/

/-- The share of a round in the estimate of an off-policy estimator, as a function of the policy's
probabilities: "ipw-os" weighs with optimistic shrinkage, "ipw-subgauss" with sub-Gaussian weights;
"snipw" translates rewards by `lam`. -/
noncomputable def objectiveValue (obj : Objective) (lam : ℝ) (r : NnRow A) (pi : Fin A → ℝ) : ℝ :=
  let w := pi r.action / r.pscore
  match obj with
  | .dm => ∑ a, r.qHat a * pi a
  | .ipw => w * r.reward
  | .dr => w * (r.reward - r.qHat r.action) + ∑ a, r.qHat a * pi a
  | .snipw => w * (r.reward - lam)
  | .ipwOs => lam * w / (w ^ 2 + lam) * r.reward
  | .ipwSubgauss => w / (1 - lam + lam * w) * r.reward

/-- The documented range of the hyperparameter. -/
def Objective.Admissible (lam : ℝ) : Objective → Prop
  | .ipwOs => 0 ≤ lam
  | .ipwSubgauss => 0 ≤ lam ∧ lam ≤ 1
  | .snipw => 0 ≤ lam
  | _ => True

end Obp
