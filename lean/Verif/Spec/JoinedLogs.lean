import Verif.Spec.Ope
import Verif.Spec.Slate
import Verif.Spec.Multi
import Verif.Spec.Continuous
import Mathlib.Data.Fin.Tuple.Basic

/-!
# Joining logs

Vocabulary of C199: the log that consists of the rounds of one log followed by those of another.
-/

namespace Obp
variable {K : Type} [Field K] [LinearOrder K] {n n' A L : ℕ}

/-- The rounds of `g` followed by the rounds of `g'` (`np.concatenate` of every column). -/
def Log.join (g : Log K n A L) (g' : Log K n' A L) : Log K (n + n') A L where
  action := Fin.append g.action g'.action
  reward := Fin.append g.reward g'.reward
  pscore := Fin.append g.pscore g'.pscore
  estPscore := Fin.append g.estPscore g'.estPscore
  position := Fin.append g.position g'.position
  piE := Fin.append g.piE g'.piE
  q := Fin.append g.q g'.q
  estIw := Fin.append g.estIw g'.estIw

/-- The rows of a slate log followed by those of another, with the slate ids as they are. -/
def SlateLog.join {N N' : ℕ} (g : SlateLog K N) (g' : SlateLog K N') : SlateLog K (N + N') where
  slate := Fin.append g.slate g'.slate
  pos := Fin.append g.pos g'.pos
  reward := Fin.append g.reward g'.reward
  ps := Fin.append g.ps g'.ps
  eps := Fin.append g.eps g'.eps

/-- Joining pooled logs of several loggers. -/
def MLog.join (g : MLog K n A L) (g' : MLog K n' A L) : MLog K (n + n') A L where
  toLog := g.toLog.join g'.toLog
  stratum := Fin.append g.stratum g'.stratum
  pscoreAvg := Fin.append g.pscoreAvg g'.pscoreAvg
  estPscoreAvg := Fin.append g.estPscoreAvg g'.estPscoreAvg

/-- Joining logs with continuous actions. -/
def ContLog.join (g : ContLog n) (g' : ContLog n') : ContLog (n + n') where
  evalAction := Fin.append g.evalAction g'.evalAction
  action := Fin.append g.action g'.action
  reward := Fin.append g.reward g'.reward
  pscore := Fin.append g.pscore g'.pscore
  q := Fin.append g.q g'.q

end Obp
