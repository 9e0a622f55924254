import Verif.Spec.Ope
import Verif.Spec.Slate
import Verif.Spec.Multi
import Verif.Spec.Continuous

/-!
# Other names for actions, positions and slates, another zero of rewards

Vocabulary of C201 and C202.
-/

namespace Obp
variable {K : Type} [Field K] [LinearOrder K] {n A L A' L' N : ℕ}

/-- The log `g'` says the same as `g`, with action `a` called `σ a` and position `l` called `τ l`. It may have further actions, which the
evaluation policy never takes and for which anything may be predicted, and further positions. -/
structure Log.Renamed (g : Log K n A L) (g' : Log K n A' L') (σ : Fin A → Fin A') (τ : Fin L → Fin L') : Prop where
  inj : Function.Injective σ
  action : ∀ i, g'.action i = σ (g.action i)
  position : ∀ i, g'.position i = τ (g.position i)
  reward : g'.reward = g.reward
  pscore : g'.pscore = g.pscore
  estPscore : g'.estPscore = g.estPscore
  estIw : g'.estIw = g.estIw
  piE : ∀ i a l, g'.piE i (σ a) (τ l) = g.piE i a l
  q : ∀ i a l, g'.q i (σ a) (τ l) = g.q i a l
  unused : ∀ i b l, (∀ a, σ a ≠ b) → g'.piE i b (τ l) = 0

/-- The log with actions and positions renamed by permutations. -/
def Log.rename (g : Log K n A L) (σ : Equiv.Perm (Fin A)) (τ : Equiv.Perm (Fin L)) : Log K n A L where
  action := fun i => σ (g.action i)
  reward := g.reward
  pscore := g.pscore
  estPscore := g.estPscore
  position := fun i => τ (g.position i)
  piE := fun i a l => g.piE i (σ.symm a) (τ.symm l)
  q := fun i a l => g.q i (σ.symm a) (τ.symm l)
  estIw := g.estIw

/-- The number `d` added to all rewards and all predictions of rewards. -/
def Log.shift (g : Log K n A L) (d : K) : Log K n A L where
  action := g.action
  reward := fun i => g.reward i + d
  pscore := g.pscore
  estPscore := g.estPscore
  position := g.position
  piE := g.piE
  q := fun i a l => g.q i a l + d
  estIw := g.estIw

/-- The slate log with slate `s` called `f s`. -/
def SlateLog.renameSlates (g : SlateLog K N) (f : ℕ → ℕ) : SlateLog K N where
  slate := fun i => f (g.slate i)
  pos := g.pos
  reward := g.reward
  ps := g.ps
  eps := g.eps

/-- The log of several loggers `g'` says the same as `g` with other names of actions and positions. -/
structure MLog.MRenamed (g : MLog K n A L) (g' : MLog K n A' L') (σ : Fin A → Fin A') (τ : Fin L → Fin L') : Prop where
  base : g.toLog.Renamed g'.toLog σ τ
  stratum : g'.stratum = g.stratum
  pscoreAvg : g'.pscoreAvg = g.pscoreAvg
  estPscoreAvg : g'.estPscoreAvg = g.estPscoreAvg

/-- The log of several loggers with logger `k` called `f k`. -/
def MLog.relabel (g : MLog K n A L) (f : ℕ → ℕ) : MLog K n A L where
  toLog := g.toLog
  stratum := fun i => f (g.stratum i)
  pscoreAvg := g.pscoreAvg
  estPscoreAvg := g.estPscoreAvg

/-- The number `d` added to all rewards and all predictions of rewards. -/
def MLog.mshift (g : MLog K n A L) (d : K) : MLog K n A L where
  toLog := g.toLog.shift d
  stratum := g.stratum
  pscoreAvg := g.pscoreAvg
  estPscoreAvg := g.estPscoreAvg

/-- The continuous-action log with actions measured on another axis: the action `a` is written as `s * a + t`. Densities are per unit of
the action, so they are divided by `|s|`. -/
noncomputable def ContLog.onAxis {n : ℕ} (g : ContLog n) (s t : ℝ) : ContLog n where
  evalAction := fun i => s * g.evalAction i + t
  action := fun i => s * g.action i + t
  reward := g.reward
  pscore := fun i => g.pscore i / |s|
  q := g.q

/-- The number `d` added to all rewards and predictions of rewards. -/
noncomputable def ContLog.shift {n : ℕ} (g : ContLog n) (d : ℝ) : ContLog n where
  evalAction := g.evalAction
  action := g.action
  reward := fun i => g.reward i + d
  pscore := g.pscore
  q := fun i => g.q i + d

end Obp
