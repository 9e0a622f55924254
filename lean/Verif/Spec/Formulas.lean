import Verif.Spec.Multi
import Verif.Spec.Continuous

/-!
# The formulas in the documentation of the estimators

`E_n` is `avg`, `w(x_i, a_i)` the importance weight, `q(x_i, a)` the predicted reward, `q(x_i, pi_e)` its mean over the actions of the
evaluation policy. The files and lines are those of the displayed formulas.
-/

namespace Obp
open Log

variable {K : Type} [Field K] [LinearOrder K] {n A L : ℕ}

/-- `q(x_i, pi_e)`: the expectation of the predicted reward over the actions of the evaluation policy. -/
def Log.predicted (g : Log K n A L) (i : Fin n) : K := ∑ a, g.q i a (g.position i) * g.piE i a (g.position i)

/-- `w(x_i, a_i)` -/
def Log.ratio (g : Log K n A L) (i : Fin n) : K := g.piE i (g.action i) (g.position i) / g.pscore i

/-- The estimates displayed in `obp/ope/estimators.py`, with the hyperparameter `lam` (clipping as described below the formulas):
lines 51-52, 239, 584-585, 671-673, 867-868, 1271-1272, 1369-1370, 1575-1576, 1787-1788, 1969-1970, 2171. -/
def Log.documented (g : Log K n A L) (lam : K) : Kind → K
  | .rm => avg (fun i => (if g.matched i then 1 else 0) * g.reward i) / avg fun i => if g.matched i then (1 : K) else 0
  | .ipw => avg fun i => min lam (g.ratio i) * g.reward i
  | .snipw => avg (fun i => g.ratio i * g.reward i) / avg g.ratio
  | .dm => avg g.predicted
  | .dr => avg fun i => g.predicted i + min lam (g.ratio i) * (g.reward i - g.q i (g.action i) (g.position i))
  | .sndr => avg fun i => g.predicted i + g.ratio i * (g.reward i - g.q i (g.action i) (g.position i)) / avg g.ratio
  | .switchDr => avg fun i => g.predicted i + g.ratio i * (g.reward i - g.q i (g.action i) (g.position i)) *
      if g.ratio i ≤ lam then 1 else 0
  | .drOs => avg fun i => g.predicted i + lam * g.ratio i / (g.ratio i ^ 2 + lam) * g.ratio i *
      (g.reward i - g.q i (g.action i) (g.position i))
  | .sgIpw => avg fun i => g.ratio i / (1 - lam + lam * g.ratio i) * g.reward i
  | .sgDr => avg fun i => g.predicted i + g.ratio i / (1 - lam + lam * g.ratio i) *
      (g.reward i - g.q i (g.action i) (g.position i))
  | .bIpw => avg (fun i => min lam (g.estIw i) * g.reward i) / avg fun i => min lam (g.estIw i)

/-- The denominators in the formula are not zero. -/
def Log.Defined (g : Log K n A L) (lam : K) : Kind → Prop
  | .rm => ∃ i, g.matched i
  | .snipw | .sndr => avg g.ratio ≠ 0
  | .drOs => ∀ i, g.ratio i ^ 2 + lam ≠ 0
  | .sgIpw | .sgDr => ∀ i, 1 - lam + lam * g.ratio i ≠ 0
  | .bIpw => (avg fun i => min lam (g.estIw i)) ≠ 0
  | _ => True

/-- `w_avg(x_i, a_i)` -/
def MLog.ratioAvg (g : MLog K n A L) (i : Fin n) : K := g.piE i (g.action i) (g.position i) / g.pscoreAvg i

/-- The estimates displayed in `obp/ope/estimators_multi.py` for the naive and balanced estimators: lines 52, 323, 879-880, 1188-1189.
(There is no `+` in the last formula.) -/
def MLog.documentedMulti (g : MLog K n A L) (lam : K) : MultiKind → K
  | .naiveIpw => avg fun i => min lam (g.ratio i) * g.reward i
  | .balancedIpw => avg fun i => min lam (g.ratioAvg i) * g.reward i
  | .naiveDr => avg fun i => g.predicted i + min lam (g.ratio i) * (g.reward i - g.q i (g.action i) (g.position i))
  | .balancedDr => avg fun i => g.predicted i * min lam (g.ratioAvg i) * (g.reward i - g.q i (g.action i) (g.position i))
  | _ => 0

/-- The estimates displayed in `obp/ope/estimators_continuous.py`: lines 83-84, 301-302, 525-526. -/
noncomputable def ContLog.documented (g : ContLog n) (k : ℝ → ℝ) (h : ℝ) : ContKind → ℝ
  | .ipw => avg fun i => 1 / h * k ((g.evalAction i - g.action i) / h) * (g.reward i / g.pscore i)
  | .snipw => (avg fun i => k ((g.evalAction i - g.action i) / h) * (g.reward i / g.pscore i)) /
      avg fun i => k ((g.evalAction i - g.action i) / h) * (g.reward i / g.pscore i)
  | .dr => avg fun i => 1 / h * k ((g.evalAction i - g.action i) / h) * ((g.reward i - g.q i) / g.pscore i) + g.q i

end Obp
