import Verif.Spec.Ope
import Verif.Spec.Slate
import Verif.Spec.Meta
import Verif.Spec.Multi
import Verif.Spec.Continuous

/-!
# Another unit of rewards, better rewards

Vocabulary of C203; `Log.scale` is in Spec/Meta.lean.
-/

namespace Obp
variable {K : Type} [Field K] [LinearOrder K] {n A L N : ℕ}

/-- The log with other rewards. -/
def Log.withReward (g : Log K n A L) (r : Fin n → K) : Log K n A L where
  action := g.action
  reward := r
  pscore := g.pscore
  estPscore := g.estPscore
  position := g.position
  piE := g.piE
  q := g.q
  estIw := g.estIw

/-- The log with other predictions of rewards. -/
def Log.withModel (g : Log K n A L) (q : Fin n → Fin A → Fin L → K) : Log K n A L where
  action := g.action
  reward := g.reward
  pscore := g.pscore
  estPscore := g.estPscore
  position := g.position
  piE := g.piE
  q := q
  estIw := g.estIw

/-- The slate log with other rewards. -/
def SlateLog.withReward (g : SlateLog K N) (r : Fin N → K) : SlateLog K N where
  slate := g.slate
  pos := g.pos
  reward := r
  ps := g.ps
  eps := g.eps

/-- The log of several loggers with other rewards. -/
def MLog.withRewards (g : MLog K n A L) (r : Fin n → K) : MLog K n A L where
  toLog := g.toLog.withReward r
  stratum := g.stratum
  pscoreAvg := g.pscoreAvg
  estPscoreAvg := g.estPscoreAvg

/-- All rewards and all predictions of rewards multiplied by `c`. -/
def MLog.mscale (g : MLog K n A L) (c : K) : MLog K n A L where
  toLog := g.toLog.scale c
  stratum := g.stratum
  pscoreAvg := g.pscoreAvg
  estPscoreAvg := g.estPscoreAvg

/-- The continuous-action log with other rewards and predictions. -/
def ContLog.withRewards {n : ℕ} (g : ContLog n) (r q : Fin n → ℝ) : ContLog n where
  evalAction := g.evalAction
  action := g.action
  reward := r
  pscore := g.pscore
  q := q

end Obp
