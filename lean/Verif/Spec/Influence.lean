import Verif.Spec.Ope
import Verif.Model.Estimators
import Verif.Spec.Slate
import Verif.Spec.Continuous
import Verif.Spec.Multi

/-!
# The influence of one round

Vocabulary of C200.
-/

namespace Obp
variable {K : Type} [Field K] [LinearOrder K] {n A L : ℕ}

/-- The log that consists of round `j` alone. -/
def Log.only (g : Log K n A L) (j : Fin n) : Log K 1 A L where
  action := fun _ => g.action j
  reward := fun _ => g.reward j
  pscore := fun _ => g.pscore j
  estPscore := fun _ => g.estPscore j
  position := fun _ => g.position j
  piE := fun _ => g.piE j
  q := fun _ => g.q j
  estIw := fun _ => g.estIw j

/-- The two logs have the same rounds, apart from round `j`, which may differ in everything. -/
def Log.SameExcept (g g' : Log K n A L) (j : Fin n) : Prop := ∀ i ≠ j, g.only i = g'.only i

/-- The estimator's hyper-parameter keeps the weights it applies in `[0, B]`: IPW, DR and Switch-DR with threshold `B`; DRos with
`lambda_ ≤ 4 B²`; the sub-Gaussian estimators with `lambda_ = 1 / B`. -/
def Estimator.CutAt (e : Estimator K) (B : K) : Prop :=
  match e.lam with
  | .inf => False
  | .fin l =>
    0 ≤ B ∧ (e.kind ∈ [Kind.ipw, .dr, .switchDr] ∧ l = B ∨ e.kind = .drOs ∧ 0 < l ∧ l ≤ 4 * B ^ 2 ∨
      e.kind ∈ [Kind.sgIpw, .sgDr] ∧ 0 < l ∧ l ≤ 1 ∧ B = 1 / l)

/-- The two slate logs have the same slate ids and agree in everything on the rows of all slates but `s`. -/
def SlateLog.SameExcept {N : ℕ} (g g' : SlateLog K N) (s : ℕ) : Prop :=
  g.slate = g'.slate ∧
  ∀ i, g.slate i ≠ s → g.pos i = g'.pos i ∧ g.reward i = g'.reward i ∧ g.ps i = g'.ps i ∧ g.eps i = g'.eps i

/-- The log with continuous actions that consists of round `j` alone. -/
def ContLog.only (g : ContLog n) (j : Fin n) : ContLog 1 where
  evalAction := fun _ => g.evalAction j
  action := fun _ => g.action j
  reward := fun _ => g.reward j
  pscore := fun _ => g.pscore j
  q := fun _ => g.q j

/-- The two logs have the same rounds, apart from round `j`. -/
def ContLog.SameExcept (g g' : ContLog n) (j : Fin n) : Prop := ∀ i ≠ j, g.only i = g'.only i

/-- The pooled log of several loggers that consists of round `j` alone. -/
def MLog.only (g : MLog K n A L) (j : Fin n) : MLog K 1 A L where
  toLog := g.toLog.only j
  stratum := fun _ => g.stratum j
  pscoreAvg := fun _ => g.pscoreAvg j
  estPscoreAvg := fun _ => g.estPscoreAvg j

/-- The two pooled logs have the same rounds, apart from round `j`. -/
def MLog.SameExcept (g g' : MLog K n A L) (j : Fin n) : Prop := ∀ i ≠ j, g.only i = g'.only i

end Obp
