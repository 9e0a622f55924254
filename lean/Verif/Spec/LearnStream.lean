import Verif.Spec.LogStream
import Verif.Spec.Regression
import Verif.Spec.Offline

/-! # Learning a policy from a growing log -/

namespace Obp
open MeasureTheory

/-- The first `n` rounds of a stream as training data; `feat c` is the feature vector of context `c`. (The evaluation policy and the
table of action features, which no learner reads, are empty.) -/
noncomputable def LogStream.train {Ω C : Type} {A d : ℕ} (s : LogStream Ω C A) (piB : C → Fin A → ℝ) (feat : C → Fin d → ℝ) (n : ℕ)
    (ω : Ω) : RegLog ℝ n A 1 d 0 where
  context i := feat (s.ctx i ω)
  action i := s.act i ω
  reward i := s.rew i ω
  pscore i := piB (s.ctx i ω) (s.act i ω)
  position _ := 0
  piE _ _ _ := 0
  table _ := Fin.elim0

/-- The fitted classifier is always one of the rules of a class. -/
def WClassifier.StaysIn {M K : Type} (clf : WClassifier M K) (rules : Set (List K → ℤ)) : Prop :=
  ∀ m X y w m', clf.fit m X y w = .ok m' → clf.predict m' ∈ rules

/-- `IPWLearner.predict` on a context returns the row of the policy `pol` at that context. -/
def PredictsPolicy {M C : Type} {A d : ℕ} (clf : WClassifier M ℝ) (ms : Fin 1 → M) (feat : C → Fin d → ℝ)
    (pol : C → Fin A → Fin 1 → ℝ) : Prop :=
  ∀ c, ipwPredict clf ⟨A, 1⟩ ms (.arr ⟨1, d, fun _ => feat c⟩) = .ok [pol c]

/-- The policy that follows a decision rule. -/
noncomputable def followRule {C : Type} {A d : ℕ} (feat : C → Fin d → ℝ) (rule : List ℝ → Fin A) (c : C) (a : Fin A) (_ : Fin 1) : ℝ :=
  pointMass (rule (List.ofFn (feat c))) a

end Obp
