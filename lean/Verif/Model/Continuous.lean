import Verif.Model.Bootstrap
import Verif.Model.Checks
import Mathlib.Analysis.SpecialFunctions.Trigonometric.Basic
import Mathlib.Analysis.SpecialFunctions.Exp
import Mathlib.Analysis.Real.Sqrt

/-!
# Model of `obp/ope/estimators_continuous.py` and the continuous validator

Over the real numbers, since the kernels use `exp`, `cos`, `pi` and `sqrt`.
-/

namespace Obp

/-- `np.clip(u, -1.0, 1.0)` -/
noncomputable def clip1 (u : ℝ) : ℝ := min (max u (-1)) 1

/-- `obp/ope/estimators_continuous.py:22-25` -/
noncomputable def triangularKernel (u : ℝ) : ℝ := 1 - |clip1 u|

/-- `obp/ope/estimators_continuous.py:28-30` -/
noncomputable def gaussianKernel (u : ℝ) : ℝ := Real.exp (-(u ^ 2) / 2) / Real.sqrt (2 * Real.pi)

/-- `obp/ope/estimators_continuous.py:33-36`; the literal `0.75` is exact. -/
noncomputable def epanechnikovKernel (u : ℝ) : ℝ := 3 / 4 * (1 - clip1 u ^ 2)

/-- `obp/ope/estimators_continuous.py:39-42` -/
noncomputable def cosineKernel (u : ℝ) : ℝ := Real.pi / 4 * Real.cos (clip1 u * Real.pi / 2)

/-- The keys of `kernel_functions` (`obp/ope/estimators_continuous.py:45-50`). -/
inductive Kernel
  | gaussian | epanechnikov | triangular | cosine
  deriving DecidableEq

/-- `kernel_functions[self.kernel]` (`obp/ope/estimators_continuous.py:45-50, 158`). -/
noncomputable def Kernel.fn : Kernel → ℝ → ℝ
  | .gaussian => gaussianKernel
  | .epanechnikov => epanechnikovKernel
  | .triangular => triangularKernel
  | .cosine => cosineKernel

/-- The test `self.kernel not in [...]` (`obp/ope/estimators_continuous.py:119-122`). -/
def Kernel.ofName : String → Option Kernel
  | "gaussian" => some .gaussian
  | "epanechnikov" => some .epanechnikov
  | "triangular" => some .triangular
  | "cosine" => some .cosine
  | _ => none

/-- A bandwidth that passed `check_scalar(bandwidth, (int, float), min_val=0)`: a non-negative
number, infinity, or nan (nan passes the comparison). -/
inductive Bandwidth
  | fin (h : ℝ)
  | inf
  | nan

/-- `__post_init__` of the three classes (`obp/ope/estimators_continuous.py:118-125, 336-343,
561-568`). -/
noncomputable def mkKernelized (kernel : String) (bandwidth : PyScalar ℝ) : Py (Kernel × Bandwidth) :=
  match Kernel.ofName kernel with
  | none => .error .valueError
  | some k =>
    match bandwidth with
    | .bool b => .ok (k, .fin (if b then 1 else 0))
    | .int z => if z < 0 then .error .valueError else .ok (k, .fin z)
    | .flt x => if x < 0 then .error .valueError else .ok (k, .fin x)
    | .inf => .ok (k, .inf)
    | .negInf => .error .valueError
    | .nan => .ok (k, .nan)
    | .other => .error .typeError

/-- The keyword arguments of the continuous estimators and of `check_continuous_ope_inputs`. -/
structure ContArgs where
  evalAction : Arg1 ℝ
  action : Arg1 ℝ
  reward : Arg1 ℝ
  pscore : Arg1 ℝ
  regModel : Arg1 ℝ

/-- `obp/utils.py:570-585`: the check of `estimated_rewards_by_reg_model`, if given. -/
noncomputable def contCheckReg (a : ContArgs) : Py Unit :=
  if a.regModel.isNone then .ok () else do
    checkArray1 a.regModel
    let q0 ← a.regModel.shape0
    let e0 ← a.evalAction.shape0
    raiseIf (q0 ≠ e0) .valueError

/-- `obp/utils.py:587-606`: the check of `action` and `reward`, if either is given. -/
noncomputable def contCheckAction (a : ContArgs) : Py Unit :=
  if a.action.isNone && a.reward.isNone then .ok () else do
    checkArray1 a.action
    checkArray1 a.reward
    let a0 ← a.action.shape0
    let r0 ← a.reward.shape0
    raiseIf (a0 ≠ r0) .valueError
    let e0 ← a.evalAction.shape0
    raiseIf (a0 ≠ e0) .valueError

/-- `obp/utils.py:608-619`: the check of `pscore`, if given. -/
noncomputable def contCheckPscore (a : ContArgs) : Py Unit :=
  if a.pscore.isNone then .ok () else do
    checkArray1 a.pscore
    let a0 ← a.action.shape0
    let r0 ← a.reward.shape0
    let p0 ← a.pscore.shape0
    raiseIf (¬ (a0 = r0 ∧ r0 = p0)) .valueError
    raiseIf (a.pscore.vals.any fun p => decide (p ≤ 0)) .valueError

/-- `obp/utils.py:536-619` `check_continuous_ope_inputs`. -/
noncomputable def checkContinuousOpeInputs (a : ContArgs) : Py Unit := do
  checkArray1 a.evalAction
  contCheckReg a
  contCheckAction a
  contCheckPscore a

/-- The three classes of `obp/ope/estimators_continuous.py`. -/
inductive ContKind
  | ipw | snipw | dr
  deriving DecidableEq

/-- `x / self.bandwidth`, entry by entry. Division by infinity is zero; nan gives nan. -/
noncomputable def Bandwidth.div (h : Bandwidth) (x : ℝ) : Py ℝ :=
  match h with
  | .fin h => npDiv x h
  | .inf => .ok 0
  | .nan => .error .nonFinite

/-- `u = action_by_evaluation_policy - action_by_behavior_policy; u /= self.bandwidth`
(`obp/ope/estimators_continuous.py:159-160, 385-386, 606-607`). In-place true division of an integer
array raises numpy's UFuncTypeError, a TypeError. -/
noncomputable def kernelArg (h : Bandwidth) (a : ContArgs) : Py (List ℝ) :=
  match a.evalAction, a.action with
  | .int _, .int _ => .error .typeError
  | e, b => do
    let d ← bop (· - ·) e.vals b.vals
    d.mapM h.div

/-- `_estimate_round_rewards` (`obp/ope/estimators_continuous.py:158-163, 376-389, 605-613`). -/
noncomputable def ContKind.round (k : ContKind) (ker : Kernel) (h : Bandwidth) (a : ContArgs) :
    Py (List ℝ) := do
  let u ← kernelArg h a
  let ku := u.map ker.fn
  match k with
  | .ipw => do
    let kr ← bop (· * ·) ku a.reward.vals
    let w ← bopM npDiv kr a.pscore.vals
    w.mapM h.div
  | .snipw => do
    let kr ← bop (· * ·) ku a.reward.vals
    let w ← bopM npDiv kr a.pscore.vals
    let kp ← bopM npDiv ku a.pscore.vals
    let m ← npMean kp
    w.mapM fun x => npDiv x m
  | .dr => do
    let d ← bop (· - ·) a.reward.vals a.regModel.vals
    let kr ← bop (· * ·) ku d
    let w ← bopM npDiv kr a.pscore.vals
    let e ← w.mapM h.div
    bop (· + ·) e a.regModel.vals

/-- The checks common to the three classes (`obp/ope/estimators_continuous.py:196-208`). -/
noncomputable def contCheckCommon (a : ContArgs) : Py Unit := do
  checkArray1 a.reward
  checkArray1 a.action
  checkArray1 a.pscore
  checkContinuousOpeInputs a

/-- The checks at the start of `estimate_policy_value` and `estimate_interval`
(`obp/ope/estimators_continuous.py:196-208, 422-434, 650-668` and `260-272, 486-498, 725-743`). Only
the doubly robust class takes `estimated_rewards_by_reg_model`. -/
noncomputable def ContKind.check (k : ContKind) (a : ContArgs) : Py Unit :=
  match k with
  | .dr => do
    checkArray1 a.regModel
    contCheckCommon a
  | _ => contCheckCommon { a with regModel := .none }

/-- `estimate_policy_value` (`obp/ope/estimators_continuous.py:196-215, 422-441, 650-676`). -/
noncomputable def ContKind.estimatePolicyValue (k : ContKind) (ker : Kernel) (h : Bandwidth)
    (a : ContArgs) : Py ℝ := do
  k.check a
  let r ← k.round ker h a
  npMean r

/-- `estimate_interval` (`obp/ope/estimators_continuous.py:260-286, 486-512, 725-758`). -/
noncomputable def ContKind.estimateInterval (k : ContKind) (ker : Kernel) (h : Bandwidth)
    (a : ContArgs) (c : CiArgs ℝ) (draws : List (List ℕ)) : Py (CiOut ℝ) := do
  k.check a
  let r ← k.round ker h a
  bootstrapCI r c draws

end Obp
