import Verif.Spec.Process
import Verif.Spec.Embed
import Verif.Spec.Multi

/-!
# Variance of estimates

Specification vocabulary for statements about the variance of estimates over repetitions of the logging process.
-/

namespace Obp

variable {K : Type} [Field K] [LinearOrder K]

/-- Variance of `f` over `n` independent draws. -/
def variance {n : ℕ} {O : Type} [Fintype O] (p : Fin n → O → K) (f : (Fin n → O) → K) : K :=
  expect p fun w => (f w - expect p f) ^ 2

/-- The estimates `est w` are the numbers `v w` on all outcomes of positive probability. -/
def Estimates {n : ℕ} {O : Type} (p : Fin n → O → K) (est : (Fin n → O) → Py K) (v : (Fin n → O) → K) : Prop :=
  ∀ w, jointProb p w ≠ 0 → est w = .ok (v w)

/-- The log that an estimator without embeddings sees. -/
def EmbProcess.plainLog {n A C D S L : ℕ} (P : EmbProcess K n A C D S) (w : Fin n → Fin A × (Fin D → Fin C) × Fin S)
    (piE : Fin n → Fin A → Fin L → K) (pos : Fin n → Fin L) : Log K n A L where
  action i := (w i).1
  reward i := P.val i (w i).2.1 (w i).2.2
  pscore i := P.piB i (w i).1
  estPscore _ := 1
  position := pos
  piE := piE
  q _ _ _ := 0
  estIw _ := 1

end Obp
