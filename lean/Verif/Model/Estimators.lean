import Verif.Model.Checks
import Verif.Model.Bootstrap

/-!
# Model of `obp/ope/estimators.py`

`RoundIn` holds what `_estimate_round_rewards` receives after validation. The eleven estimator
classes are the constructors of `Kind`; class inheritance in the Python file is mirrored by the
functions shared between kinds.
-/

namespace Obp

variable {K : Type} [Field K] [LinearOrder K]

/-- Keyword arguments of `estimate_policy_value` / `estimate_interval`
(`obp/ope/estimators.py:116-123, 340-349, 743-749, 998-1008, 2266-2274`). Every estimator takes
`**kwargs`, so all of them can be called with the full set. -/
structure EstArgs (K : Type) where
  reward : Arg1 K := .none
  action : Arg1 K := .none
  actionDist : Arg3 K
  pscore : Arg1 K := .none
  position : Arg1 K := .none
  estimatedPscore : Arg1 K := .none
  regModel : Arg3 K := .none
  estIw : Arg1 K := .none

/-- Arguments of `_estimate_round_rewards` after validation. -/
structure RoundIn (K : Type) where
  reward : List K
  action : List ℤ
  pscore : List K
  dist : Arr3 K
  q : Arr3 K
  estIw : List K
  position : List ℤ

/-- The estimator classes of `obp/ope/estimators.py`. -/
inductive Kind
  | rm | ipw | snipw | dm | dr | sndr | switchDr | drOs | sgIpw | sgDr | bIpw
  deriving DecidableEq, Repr

/-- An estimator object: its class and dataclass fields `lambda_`, `use_estimated_pscore`
(unused fields are ignored by classes that lack them). -/
structure Estimator (K : Type) where
  kind : Kind
  lam : Lam K
  useEstimatedPscore : Bool

/-- `__post_init__` of the estimator classes (`obp/ope/estimators.py:280-293, 922-935, 1408-1421,
1613-1626, 1818-1832, 2002-2016, 2210-2219`). `useEst = none` stands for a value that is not a
bool. `ReplayMethod` and `DirectMethod` have no parameters to check; `b-ipw` has no
`use_estimated_pscore`. -/
def mkEstimator (k : Kind) (lam : PyScalar K) (useEst : Option Bool) : Py (Estimator K) :=
  match k with
  | .rm => .ok ⟨.rm, .inf, false⟩
  | .dm => .ok ⟨.dm, .inf, false⟩
  | .bIpw => do
      let l ← checkLambda none lam
      pure ⟨.bIpw, l, false⟩
  | .sgIpw => withFlag (some 1)
  | .sgDr => withFlag (some 1)
  | _ => withFlag none
where
  /-- the common checks: `lambda_`, then the type of `use_estimated_pscore` -/
  withFlag (hi : Option K) : Py (Estimator K) := do
    let l ← checkLambda hi lam
    match useEst with
    | some b => pure ⟨k, l, b⟩
    | none => .error .typeError

/-- In-place `xs += ys` on a 1-D array: the right operand must broadcast to the shape of `xs`. -/
def iadd (xs ys : List K) : Py (List K) :=
  if xs.length = ys.length then .ok (List.zipWith (· + ·) xs ys)
  else match ys with
    | [b] => .ok (xs.map (· + b))
    | _ => .error .valueError

/-- `iw = action_dist[np.arange(action.shape[0]), action, position] / pscore`
(`obp/ope/estimators.py:334, 655, 981, 1344, 1464, 1669, 1870, 2059`). -/
def iwOf (r : RoundIn K) : Py (List K) := do
  let d ← fancy3 r.dist (arange r.action.length) r.action r.position
  bopM npDiv d r.pscore

/-- `obp/ope/estimators.py:108-114` `ReplayMethod._estimate_round_rewards`. -/
def rmRound (r : RoundIn K) : Py (List K) := do
  let d ← fancy3 r.dist (arange r.action.length) r.action r.position
  let m := d.map fun x => if x = 1 then (1 : K) else 0
  if 0 < m.sum then do
    let num ← bop (· * ·) m r.reward
    let mm ← npMean m
    num.mapM (npDiv · mm)
  else pure (m.map fun _ => 0)

/-- `obp/ope/estimators.py:331-338` `InverseProbabilityWeighting._estimate_round_rewards`. -/
def ipwRound (lam : Lam K) (r : RoundIn K) : Py (List K) := do
  let iw ← iwOf r
  bop (· * ·) r.reward (iw.map lam.clip)

/-- `obp/ope/estimators.py:652-656`
`SelfNormalizedInverseProbabilityWeighting._estimate_round_rewards`. -/
def snipwRound (r : RoundIn K) : Py (List K) := do
  let iw ← iwOf r
  let p ← bop (· * ·) r.reward iw
  let m ← npMean iw
  p.mapM (npDiv · m)

/-- The model-based part shared by the DR classes: `np.average(q_hat_at_position,
weights=pi_e_at_position, axis=1)` with rows selected by `np.arange(n)` and `position`
(`obp/ope/estimators.py:734-741, 986-993, 1345-1352, 1466-1473, 1675-1682, 2062-2069`). -/
def dmPart (r : RoundIn K) (n : ℕ) : Py (List K) := do
  let qRows ← fancyRow r.q (arange n) r.position
  let pRows ← fancyRow r.dist (arange n) r.position
  npAverageRows qRows pRows

/-- `obp/ope/estimators.py:731-741` `DirectMethod._estimate_round_rewards`;
here `n = position.shape[0]`. -/
def dmRound (r : RoundIn K) : Py (List K) := dmPart r r.position.length

/-- `q_hat_factual = estimated_rewards_by_reg_model[np.arange(n), action, position]`
(`obp/ope/estimators.py:987, 1346, 1467, 1676, 2063`). -/
def qFactual (r : RoundIn K) : Py (List K) :=
  fancy3 r.q (arange r.action.length) r.action r.position

/-- `obp/ope/estimators.py:977-996` `DoublyRobust._estimate_round_rewards`. -/
def drRound (lam : Lam K) (r : RoundIn K) : Py (List K) := do
  let iw ← iwOf r
  let iw' := iw.map lam.clip
  let base ← dmPart r r.action.length
  let qf ← qFactual r
  let res ← bop (· - ·) r.reward qf
  let corr ← bop (· * ·) iw' res
  iadd base corr

/-- `obp/ope/estimators.py:1343-1355` `SelfNormalizedDoublyRobust._estimate_round_rewards`. -/
def sndrRound (r : RoundIn K) : Py (List K) := do
  let iw ← iwOf r
  let base ← dmPart r r.action.length
  let qf ← qFactual r
  let res ← bop (· - ·) r.reward qf
  let corr ← bop (· * ·) iw res
  let m ← npMean iw
  let corr' ← corr.mapM (npDiv · m)
  iadd base corr'

/-- `obp/ope/estimators.py:1463-1476` `SwitchDoublyRobust._estimate_round_rewards`. -/
def switchDrRound (lam : Lam K) (r : RoundIn K) : Py (List K) := do
  let iw ← iwOf r
  let iw' := iw.map fun w => (if lam.geB w then (1 : K) else 0) * w
  let base ← dmPart r r.action.length
  let qf ← qFactual r
  let res ← bop (· - ·) r.reward qf
  let corr ← bop (· * ·) iw' res
  iadd base corr

/-- The shrinkage weight `(lambda_ * iw) / (iw**2 + lambda_)`, or `iw` when `lambda_` is infinite
(`obp/ope/estimators.py:1670-1673`). -/
def drOsWeight (lam : Lam K) (w : K) : Py K :=
  match lam with
  | .fin l => npDiv (l * w) (w ^ 2 + l)
  | .inf => .ok w

/-- `obp/ope/estimators.py:1668-1685` `DoublyRobustWithShrinkage._estimate_round_rewards`. -/
def drOsRound (lam : Lam K) (r : RoundIn K) : Py (List K) := do
  let iw ← iwOf r
  let iw' ← iw.mapM (drOsWeight lam)
  let base ← dmPart r r.action.length
  let qf ← qFactual r
  let res ← bop (· - ·) r.reward qf
  let corr ← bop (· * ·) iw' res
  iadd base corr

/-- The sub-Gaussian weight `iw / (1 - lambda_ + lambda_ * iw)` (`obp/ope/estimators.py:1871,
2060`). An infinite `lambda_` (rejected by `__post_init__`) would give nan. -/
def sgWeight (lam : Lam K) (w : K) : Py K :=
  match lam with
  | .fin l => npDiv w (1 - l + l * w)
  | .inf => .error .nonFinite

/-- `obp/ope/estimators.py:1870-1874`
`SubGaussianInverseProbabilityWeighting._estimate_round_rewards`. -/
def sgIpwRound (lam : Lam K) (r : RoundIn K) : Py (List K) := do
  let iw ← iwOf r
  let iw' ← iw.mapM (sgWeight lam)
  bop (· * ·) iw' r.reward

/-- `obp/ope/estimators.py:2058-2072` `SubGaussianDoublyRobust._estimate_round_rewards`. -/
def sgDrRound (lam : Lam K) (r : RoundIn K) : Py (List K) := do
  let iw ← iwOf r
  let iw' ← iw.mapM (sgWeight lam)
  let base ← dmPart r r.action.length
  let qf ← qFactual r
  let res ← bop (· - ·) r.reward qf
  let corr ← bop (· * ·) iw' res
  iadd base corr

/-- `obp/ope/estimators.py:2257-2264`
`BalancedInverseProbabilityWeighting._estimate_round_rewards`. -/
def bIpwRound (lam : Lam K) (r : RoundIn K) : Py (List K) := do
  let iw := r.estIw.map lam.clip
  let p ← bop (· * ·) r.reward iw
  let m ← npMean iw
  p.mapM (npDiv · m)

/-- Dynamic dispatch of `_estimate_round_rewards`. -/
def Estimator.round (e : Estimator K) (r : RoundIn K) : Py (List K) :=
  match e.kind with
  | .rm => rmRound r
  | .ipw => ipwRound e.lam r
  | .snipw => snipwRound r
  | .dm => dmRound r
  | .dr => drRound e.lam r
  | .sndr => sndrRound r
  | .switchDr => switchDrRound e.lam r
  | .drOs => drOsRound e.lam r
  | .sgIpw => sgIpwRound e.lam r
  | .sgDr => sgDrRound e.lam r
  | .bIpw => bIpwRound e.lam r

/-- `if position is None: position = np.zeros(action_dist.shape[0], dtype=int)`
(`obp/ope/estimators.py:153-154, 398-399, 781-782, 1065-1066, 2316-2317`). -/
def positionOrZeros (x : Arr3 K) (position : Arg1 K) : Py (List ℤ) :=
  if position.isNone then .ok (List.replicate x.n 0) else position.ints

/-- An array argument that the estimator at hand does not use. -/
def noArr : Arr3 K := ⟨0, 0, 0, fun i => i.elim0⟩

/-- Validation part of `ReplayMethod.estimate_policy_value` and `.estimate_interval`
(`obp/ope/estimators.py:148-154, 207-213`). -/
def rmPrepare (a : EstArgs K) : Py (RoundIn K) := do
  checkArray1 a.reward
  checkArray1 a.action
  let x ← checkOpeInputs
    { actionDist := a.actionDist, position := a.position, action := a.action, reward := a.reward }
  let pos ← positionOrZeros x a.position
  let act ← a.action.ints
  pure { reward := a.reward.vals, action := act, pscore := [], dist := x, q := noArr, estIw := [],
         position := pos }

/-- Selection of the propensities (`obp/ope/estimators.py:384-389, 1051-1056`). -/
def choosePscore (useEst : Bool) (a : EstArgs K) : Py (Arg1 K) :=
  if useEst then do
    checkArray1 a.estimatedPscore
    pure a.estimatedPscore
  else do
    checkArray1 a.pscore
    pure a.pscore

/-- Validation part of `InverseProbabilityWeighting.estimate_policy_value` and
`.estimate_interval` (`obp/ope/estimators.py:382-399, 463-480`), inherited by SNIPW and SGIPW. -/
def ipwPrepare (useEst : Bool) (a : EstArgs K) : Py (RoundIn K) := do
  checkArray1 a.reward
  checkArray1 a.action
  let ps ← choosePscore useEst a
  let x ← checkOpeInputs
    { actionDist := a.actionDist, position := a.position, action := a.action, reward := a.reward,
      pscore := ps }
  let pos ← positionOrZeros x a.position
  let act ← a.action.ints
  pure { reward := a.reward.vals, action := act, pscore := ps.vals, dist := x, q := noArr,
         estIw := [], position := pos }

/-- Validation part of `DirectMethod.estimate_policy_value` and `.estimate_interval`
(`obp/ope/estimators.py:771-782, 830-841`). -/
def dmPrepare (a : EstArgs K) : Py (RoundIn K) := do
  let q ← checkArray3 a.regModel
  let x ← checkOpeInputs
    { actionDist := a.actionDist, regModel := a.regModel, position := a.position }
  let pos ← positionOrZeros x a.position
  pure { reward := [], action := [], pscore := [], dist := x, q := q, estIw := [],
         position := pos }

/-- Validation part of `DoublyRobust.estimate_policy_value` and `.estimate_interval`
(`obp/ope/estimators.py:1044-1066, 1135-1157`), inherited by SNDR, Switch-DR, DRos and SGDR. -/
def drPrepare (useEst : Bool) (a : EstArgs K) : Py (RoundIn K) := do
  let q ← checkArray3 a.regModel
  checkArray1 a.reward
  checkArray1 a.action
  let ps ← choosePscore useEst a
  let x ← checkOpeInputs
    { actionDist := a.actionDist, position := a.position, action := a.action, reward := a.reward,
      pscore := ps, regModel := a.regModel }
  let pos ← positionOrZeros x a.position
  let act ← a.action.ints
  pure { reward := a.reward.vals, action := act, pscore := ps.vals, dist := x, q := q, estIw := [],
         position := pos }

/-- Validation part of `BalancedInverseProbabilityWeighting.estimate_policy_value` and
`.estimate_interval` (`obp/ope/estimators.py:2302-2317, 2374-2389`). -/
def bIpwPrepare (a : EstArgs K) : Py (RoundIn K) := do
  checkArray1 a.reward
  checkArray1 a.action
  checkArray1 a.estIw
  let x ← checkOpeInputs
    { actionDist := a.actionDist, position := a.position, action := a.action, reward := a.reward,
      estIw := a.estIw }
  let pos ← positionOrZeros x a.position
  let act ← a.action.ints
  pure { reward := a.reward.vals, action := act, pscore := [], dist := x, q := noArr,
         estIw := a.estIw.vals, position := pos }

/-- Dispatch of the validation part to the class that defines (or inherits) it. -/
def Estimator.prepare (e : Estimator K) (a : EstArgs K) : Py (RoundIn K) :=
  match e.kind with
  | .rm => rmPrepare a
  | .ipw | .snipw | .sgIpw => ipwPrepare e.useEstimatedPscore a
  | .dm => dmPrepare a
  | .dr | .sndr | .switchDr | .drOs | .sgDr => drPrepare e.useEstimatedPscore a
  | .bIpw => bIpwPrepare a

/-- `estimate_policy_value` of the eleven classes
(`obp/ope/estimators.py:116-161, 340-407, 743-788, 998-1075, 2266-2324`). -/
def Estimator.estimatePolicyValue (e : Estimator K) (a : EstArgs K) : Py K := do
  let r ← e.prepare a
  let rr ← e.round r
  npMean rr

/-- `estimate_interval` of the eleven classes
(`obp/ope/estimators.py:163-226, 409-494, 790-853, 1077-1172, 2326-2403`). -/
def Estimator.estimateInterval [IsStrictOrderedRing K] [FloorRing K]
    (e : Estimator K) (a : EstArgs K) (c : CiArgs K) (draws : List (List ℕ)) : Py (CiOut K) := do
  let r ← e.prepare a
  let rr ← e.round r
  bootstrapCI rr c draws

end Obp
