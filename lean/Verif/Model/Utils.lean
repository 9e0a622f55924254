import Verif.Model.Checks
import Mathlib.Analysis.SpecialFunctions.Exp

/-!
# Model of the remaining functions of `obp/utils.py`

`sample_action_fast`, `convert_to_action_dist`, `check_bandit_feedback_inputs`,
`check_multi_loggers_ope_inputs`, `softmax`, `sigmoid`.
-/

namespace Obp

section discrete
variable {K : Type} [Field K] [LinearOrder K]

/-- `row.cumsum()`: running sums, starting from accumulator `acc` (`obp/utils.py:111`). -/
def cumsumFrom (acc : K) : List K → List K
  | [] => []
  | x :: xs => (acc + x) :: cumsumFrom (acc + x) xs

/-- `np.argmax` of a Boolean row: the first index holding `True`, or 0 if there is none;
ValueError on an empty row. -/
def argmaxBool : List Bool → Py ℕ
  | [] => .error .valueError
  | b :: bs =>
    match (b :: bs).findIdx? (· = true) with
    | some i => .ok i
    | none => .ok 0

/-- One row of `sample_action_fast` with uniform draw `u` (`obp/utils.py:109-113`). -/
def sampleActionRow (row : List K) (u : K) : Py ℕ :=
  argmaxBool ((cumsumFrom 0 row).map fun c => decide (u < c))

/-- `obp/utils.py:90-114` `sample_action_fast`; `us` are the uniform draws, one per round. -/
def sampleActionFast (actionDist : List (List K)) (us : List K) : Py (List ℕ) :=
  (List.zip actionDist us).mapM fun p => sampleActionRow p.1 p.2

/-- One assignment `action_dist[i, a, pos] = 1` with Python index wrap-around
(`obp/utils.py:141-145`). -/
def setOne {n A L : ℕ} (v : Fin n → Fin A → Fin L → K) (i : Fin n) (a : ℤ) (l : Fin L) :
    Py (Fin n → Fin A → Fin L → K) :=
  match wrapIdx A a with
  | none => .error .indexError
  | some a' => .ok fun i' b l' => if i' = i ∧ b = a' ∧ l' = l then 1 else v i' b l'

/-- `obp/utils.py:117-147` `convert_to_action_dist` for `selected` of shape `(n, L)`. The
vectorised assignment over the rounds of a position is modelled round by round; numpy checks all
indices first, so on IndexError no array is returned in either case. -/
def convertToActionDist (A : ℕ) {n L : ℕ} (selected : Fin n → Fin L → ℤ) :
    Py (Fin n → Fin A → Fin L → K) :=
  (List.finRange L).foldlM
    (fun v l => (List.finRange n).foldlM (fun v i => setOne v i (selected i l) l) v)
    (fun _ _ _ => 0)

/-- Keyword arguments of `check_bandit_feedback_inputs` (`obp/utils.py:208-216`). -/
structure BanditArgs (K : Type) where
  context : Arg2 K
  action : Arg1 K
  reward : Arg1 K
  expectedReward : Arg2 K := .none
  position : Arg1 K := .none
  pscore : Arg1 K := .none
  actionContext : Arg2 K := .none

/-- `obp/utils.py:247-269`: the `expected_reward` block. -/
def checkExpectedReward (c0 a0 r0 : ℕ) (action : Arg1 K) (expectedReward : Arg2 K) : Py Unit :=
  match expectedReward with
  | .none => do
      let okInt ← intNonneg action
      raiseIf (okInt = false) .valueError
  | e => do
      let er ← checkArray2 e
      raiseIf (¬ (c0 = a0 ∧ a0 = r0 ∧ r0 = er.n)) .valueError
      let okInt ← intInRange action er.d
      raiseIf (okInt = false) .valueError

/-- `obp/utils.py:270-280`: the `pscore` block. -/
def checkBanditPscore (c0 a0 r0 : ℕ) (pscore : Arg1 K) : Py Unit :=
  match pscore with
  | .none => .ok ()
  | p => do
      checkArray1 p
      let p0 ← p.shape0
      raiseIf (¬ (c0 = a0 ∧ a0 = r0 ∧ r0 = p0)) .valueError
      raiseIf (p.vals.any (fun w => decide (w ≤ 0))) .valueError

/-- `obp/utils.py:282-298`: the `position` block. -/
def checkBanditPosition (c0 a0 r0 : ℕ) (position : Arg1 K) : Py Unit :=
  match position with
  | .none => raiseIf (¬ (c0 = a0 ∧ a0 = r0)) .valueError
  | p => do
      checkArray1 p
      let p0 ← p.shape0
      raiseIf (¬ (c0 = a0 ∧ a0 = r0 ∧ r0 = p0)) .valueError
      let okInt ← intNonneg p
      raiseIf (okInt = false) .valueError

/-- `obp/utils.py:299-311`: the `action_context` block. -/
def checkActionContext (action : Arg1 K) (actionContext : Arg2 K) : Py Unit :=
  match actionContext with
  | .none => do
      let okInt ← intNonneg action
      raiseIf (okInt = false) .valueError
  | e => do
      let ac ← checkArray2 e
      let okInt ← intInRange action ac.n
      raiseIf (okInt = false) .valueError

/-- `obp/utils.py:208-311` `check_bandit_feedback_inputs`. -/
def checkBanditFeedbackInputs (b : BanditArgs K) : Py Unit := do
  let ctx ← checkArray2 b.context
  checkArray1 b.action
  checkArray1 b.reward
  let a0 ← b.action.shape0
  let r0 ← b.reward.shape0
  checkExpectedReward ctx.n a0 r0 b.action b.expectedReward
  checkBanditPscore ctx.n a0 r0 b.pscore
  checkBanditPosition ctx.n a0 r0 b.position
  checkActionContext b.action b.actionContext

/-- `obp/utils.py:415-469` `check_multi_loggers_ope_inputs`. -/
def checkMultiLoggersOpeInputs (args : OpeArgs K) (stratumIdx : Arg1 K) : Py (Arr3 K) := do
  let x ← checkOpeInputs args
  match stratumIdx with
  | .none => pure x
  | s => do
      checkArray1 s
      let s0 ← s.shape0
      raiseIf (x.n ≠ s0) .valueError
      let okInt ← intNonneg s
      raiseIf (okInt = false) .valueError
      pure x

end discrete

section real

/-- `obp/utils.py:982-986` `softmax`, one row; `e` is the exponential that is used (a parameter, so
that the arguments at which it is evaluated can be spoken about). ValueError on an empty row. -/
noncomputable def softmaxWith (e : ℝ → ℝ) (row : List ℝ) : Py (List ℝ) := do
  let b ← npMax row
  let num := row.map fun x => e (x - b)
  pure (num.map (· / num.sum))

/-- `obp/utils.py:977-979` `sigmoid`: `np.exp(np.minimum(x, 0)) / (1.0 + np.exp(-np.abs(x)))`. -/
noncomputable def sigmoidWith (e : ℝ → ℝ) (x : ℝ) : ℝ := e (min x 0) / (1 + e (-|x|))

end real

end Obp
