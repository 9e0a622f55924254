import Verif.Spec.Process
import Verif.Spec.LogStream

/-! # Logs with estimated propensities -/

namespace Obp

/-- The log of outcome `w` with the true propensities and, as estimated propensities, those of the model `phat`. -/
def Process.logEst {K : Type} {n A S L : ℕ} [Field K] [LinearOrder K] (P : Process K n A S) (phat : Fin n → Fin A → K)
    (w : Fin n → Fin A × Fin S) (pos : Fin n → Fin L) (piE q : Fin n → Fin A → Fin L → K) : Log K n A L :=
  { P.log w P.piB pos piE q with estPscore := fun i => phat i (w i).1 }

/-- The log of the first `n` rounds of a stream, the same way. -/
noncomputable def LogStream.logEst {Ω C : Type} {A L : ℕ} (s : LogStream Ω C A) (phat piB : C → Fin A → ℝ) (pos : C → Fin L)
    (piE q : C → Fin A → Fin L → ℝ) (n : ℕ) (ω : Ω) : Log ℝ n A L :=
  { s.log piB pos piE q n ω with estPscore := fun i => phat (s.ctx i ω) (s.act i ω) }

end Obp
