import Verif.Model.Regression
import Verif.Spec.Slate

/-! # Vocabulary for `SlateRegressionModel` -/

namespace Obp

variable {K : Type} [Field K] [LinearOrder K] {M : Type}

/-- Logged slates: contexts of dimension `d`, `L` positions, `A` actions. -/
structure SlateRegLog (K : Type) (n L A d : ℕ) where
  context : Fin n → Fin d → K
  action : Fin n → Fin L → Fin A
  reward : Fin n → Fin L → K
  pscore : Fin n → Fin L → K
  evalPscore : Fin n → Fin L → K
  dist : Fin n → Fin L → Fin A → K

namespace SlateRegLog
variable {n L A d : ℕ}

/-- The arguments of an API call on these data: flat arrays, rounds first, then positions, then actions. -/
def args (g : SlateRegLog K n L A d) : SlateRegArgs K where
  context := .arr ⟨n, d, g.context⟩
  action := .int (flatten2 fun i l => ((g.action i l : ℕ) : ℤ))
  reward := .flt (flatten2 g.reward)
  pscoreCascade := .flt (flatten2 g.pscore)
  evalPscoreCascade := .flt (flatten2 g.evalPscore)
  evalDist := .flt (flatten2 fun j : Fin (n * L) => g.dist j.divNat j.modNat)

/-- What the documentation requires of the data. -/
structure Valid (g : SlateRegLog K n L A d) : Prop where
  rounds : 0 < n
  positions : 0 < L
  pscore : ∀ i l, 0 < g.pscore i l ∧ g.pscore i l ≤ 1
  evalPscore : ∀ i l, 0 < g.evalPscore i l ∧ g.evalPscore i l ≤ 1
  dist : ∀ i l, ∑ b, g.dist i l b = 1

/-- The context of a slate followed by its actions before position `p` and then action `b` (as numbers). -/
def query (g : SlateRegLog K n L A d) (i : Fin n) (p : ℕ) (b : ℕ) : List K :=
  List.ofFn (g.context i) ++ (((List.finRange L).filter fun l => l.val < p).map (fun l => ((g.action i l : ℕ) : K)) ++ [(b : K)])

/-- The features of a logged slate at position `p`: context and actions up to and including `p`. -/
def feature (g : SlateRegLog K n L A d) (i : Fin n) (p : Fin L) : List K := g.query i p (g.action i p)

/-- The sample weight: the cascade importance weight, or one. -/
def weight (g : SlateRegLog K n L A d) (useIw : Bool) (i : Fin n) (p : Fin L) : K :=
  if useIw then g.evalPscore i p / g.pscore i p else 1

/-- The (weighted) average of the rewards at position `p` over the logged slates with features `f`. -/
def meanReward (g : SlateRegLog K n L A d) (useIw : Bool) (p : Fin L) (f : List K) : K :=
  (∑ i with g.feature i p = f, g.weight useIw i p * g.reward i p) /
    ∑ i with g.feature i p = f, g.weight useIw i p

end SlateRegLog

/-- The expected reward of position `p` and the `k` positions after it when the features up to `p` are `f`,
the expected reward at a position is `r` and the next action is drawn from `pol`. -/
def expectedRemaining {A : ℕ} (r : ℕ → List K → K) (pol : ℕ → List K → Fin A → K) : ℕ → ℕ → List K → K
  | 0, p, f => r p f
  | k + 1, p, f => r p f + ∑ b, pol (p + 1) f b * expectedRemaining r pol k (p + 1) (f ++ [(b.val : K)])

/-- A learner that predicts the weighted average of the targets of the training rows with the same
features (least squares with an unrestricted function class). -/
def Learner.Averages (lrn : Learner M K) : Prop :=
  ∀ (n : ℕ) (X : Fin n → List K) (y w : Fin n → K) (m m' : M),
    lrn.fit m (List.ofFn X) (List.ofFn y) (some (List.ofFn w)) = .ok m' →
    ∀ f, ∑ i with X i = f, w i ≠ 0 →
      lrn.predict m' f = (∑ i with X i = f, w i * y i) / ∑ i with X i = f, w i

end Obp
