import Verif.Model.Estimators

/-!
# Model of `obp/ope/estimators_multi.py` and `check_multi_loggers_ope_inputs`
-/

namespace Obp

variable {K : Type} [Field K] [LinearOrder K]

/-- The six estimator classes of `obp/ope/estimators_multi.py`. -/
inductive MultiKind
  | naiveIpw | balancedIpw | weightedIpw | naiveDr | balancedDr | weightedDr
  deriving DecidableEq, Repr

/-- Keyword arguments of `estimate_policy_value` / `estimate_interval`
(`obp/ope/estimators_multi.py:150-159, 422-431, 695-705, 996-1006, 1305-1315, 1616-1627`). -/
structure MultiArgs (K : Type) where
  reward : Arg1 K := .none
  action : Arg1 K := .none
  actionDist : Arg3 K
  stratumIdx : Arg1 K := .none
  pscore : Arg1 K := .none
  pscoreAvg : Arg1 K := .none
  position : Arg1 K := .none
  estimatedPscore : Arg1 K := .none
  estimatedPscoreAvg : Arg1 K := .none
  regModel : Arg3 K := .none

/-- The arguments that the naive classes pass on: the single-logger arguments. -/
def MultiArgs.single (a : MultiArgs K) : EstArgs K where
  reward := a.reward
  action := a.action
  actionDist := a.actionDist
  pscore := a.pscore
  position := a.position
  estimatedPscore := a.estimatedPscore
  regModel := a.regModel

/-- The arguments that the balanced classes pass on: `pscore_avg` in place of `pscore`. -/
def MultiArgs.balanced (a : MultiArgs K) : EstArgs K :=
  { a.single with pscore := a.pscoreAvg, estimatedPscore := a.estimatedPscoreAvg }

/-- An estimator object with its dataclass fields. -/
structure MultiEstimator (K : Type) where
  kind : MultiKind
  lam : Lam K
  useEstimatedPscore : Bool

/-- `__post_init__` (`obp/ope/estimators_multi.py:89-102, 361-374, 919-932, 1228-1241`), inherited by
the weighted classes. `useEst = none` stands for a value that is not a bool. -/
def mkMultiEstimator (k : MultiKind) (lam : PyScalar K) (useEst : Option Bool) :
    Py (MultiEstimator K) := do
  let l ← checkLambda none lam
  match useEst with
  | some b => pure ⟨k, l, b⟩
  | none => .error .typeError

/-- The stratum block of `check_multi_loggers_ope_inputs` (`obp/utils.py:459-469`), called with a
given `stratum_idx`. -/
def checkStratum (x : Arr3 K) (stratumIdx : Arg1 K) : Py Unit := do
  checkArray1 stratumIdx
  let s0 ← stratumIdx.shape0
  raiseIf (x.n ≠ s0) .valueError
  let okInt ← intNonneg stratumIdx
  raiseIf (okInt = false) .valueError

/-- `x[mask]` with a boolean mask: IndexError when the lengths differ. -/
def maskSel (mask : List Bool) (xs : List K) : Py (List K) :=
  if mask.length = xs.length then .ok (((List.zip mask xs).filter (·.1)).map (·.2))
  else .error .indexError

/-- `v[k] = x`: IndexError when `k` is out of range. -/
def setIdx (v : List K) (k : ℤ) (x : K) : Py (List K) :=
  match wrapIdx v.length k with
  | some i => .ok (v.set i x)
  | none => .error .indexError

/-- `v[ks]` with an integer array. -/
def takeIdx (v : List K) (ks : List ℤ) : Py (List K) :=
  ks.mapM fun k => match wrapIdx v.length k with
    | some i => .ok (v.get i)
    | none => .error .indexError

/-- The loop `for k in unique_stratum_idx: var_k[k] = np.var(...)`
(`obp/ope/estimators_multi.py:687-690, 1604-1610`); `vals mask` is the array whose variance is
taken. -/
def varLoop (stratum : List ℤ) (vals : List Bool → Py (List K)) : Py (List K) :=
  let uniq := npUnique stratum
  uniq.foldlM (fun v k => do
    let xs ← vals (stratum.map fun s => decide (s = k))
    let var ← npVar xs
    setIdx v k var) (List.replicate uniq.length (0 : K))

/-- `n_data_strata` of `np.unique(stratum_idx, return_counts=True)`. -/
def strataCounts (stratum : List ℤ) : List K :=
  (npUnique stratum).map fun k => ((stratum.count k : ℕ) : K)

/-- `weight_k = n / (var_k * np.sum(n_data_strata / var_k))`
(`obp/ope/estimators_multi.py:691, 1611`). -/
def weightK (n : ℕ) (stratum : List ℤ) (varK : List K) : Py (List K) := do
  let rs ← bopM npDiv (strataCounts stratum) varK
  varK.mapM fun v => npDiv (n : K) (v * rs.sum)

/-- `obp/ope/estimators_multi.py:677-693`
`MultiLoggersWeightedInverseProbabilityWeighting._estimate_round_rewards`. -/
def weightedIpwRound (lam : Lam K) (stratum : List ℤ) (r : RoundIn K) : Py (List K) := do
  let iw ← iwOf r
  let iw' := iw.map lam.clip
  let varK ← varLoop stratum fun m => do
    let rs ← maskSel m r.reward
    let ws ← maskSel m iw'
    bop (· * ·) rs ws
  let wk ← weightK r.action.length stratum varK
  let p ← bop (· * ·) r.reward iw'
  let w ← takeIdx wk stratum
  bop (· * ·) p w

/-- `obp/ope/estimators_multi.py:1586-1614`
`MultiLoggersWeightedDoublyRobust._estimate_round_rewards`. -/
def weightedDrRound (lam : Lam K) (stratum : List ℤ) (r : RoundIn K) : Py (List K) := do
  let iw ← iwOf r
  let iw' := iw.map lam.clip
  let base ← dmPart r r.action.length
  let qf ← qFactual r
  let varK ← varLoop stratum fun m => do
    let bs ← maskSel m base
    let ws ← maskSel m iw'
    let rs ← maskSel m r.reward
    let qs ← maskSel m qf
    let d ← bop (· - ·) rs qs
    let c ← bop (· * ·) ws d
    bop (· + ·) bs c
  let wk ← weightK r.action.length stratum varK
  let res ← bop (· - ·) r.reward qf
  let corr ← bop (· * ·) iw' res
  let w ← takeIdx wk stratum
  let corr' ← bop (· * ·) corr w
  iadd base corr'

/-- Validation part of `MultiLoggersWeightedInverseProbabilityWeighting`
(`obp/ope/estimators_multi.py:741-760, 829-848`). -/
def weightedIpwPrepare (useEst : Bool) (a : MultiArgs K) : Py (RoundIn K × List ℤ) := do
  checkArray1 a.reward
  checkArray1 a.action
  checkArray1 a.stratumIdx
  let ps ← choosePscore useEst a.single
  let x ← checkOpeInputs
    { actionDist := a.actionDist, position := a.position, action := a.action, reward := a.reward,
      pscore := ps }
  checkStratum x a.stratumIdx
  let pos ← positionOrZeros x a.position
  let act ← a.action.ints
  let st ← a.stratumIdx.ints
  pure ({ reward := a.reward.vals, action := act, pscore := ps.vals, dist := x, q := noArr,
          estIw := [], position := pos }, st)

/-- Validation part of `MultiLoggersWeightedDoublyRobust`
(`obp/ope/estimators_multi.py:1666-1691, 1765-1790`). -/
def weightedDrPrepare (useEst : Bool) (a : MultiArgs K) : Py (RoundIn K × List ℤ) := do
  let q ← checkArray3 a.regModel
  checkArray1 a.reward
  checkArray1 a.action
  checkArray1 a.stratumIdx
  let ps ← choosePscore useEst a.single
  let x ← checkOpeInputs
    { actionDist := a.actionDist, position := a.position, action := a.action, reward := a.reward,
      pscore := ps, regModel := a.regModel }
  checkStratum x a.stratumIdx
  let pos ← positionOrZeros x a.position
  let act ← a.action.ints
  let st ← a.stratumIdx.ints
  pure ({ reward := a.reward.vals, action := act, pscore := ps.vals, dist := x, q := q,
          estIw := [], position := pos }, st)

/-- Validation followed by `_estimate_round_rewards`, as called from `estimate_policy_value`
(`obp/ope/estimators_multi.py:192-217, 464-491, 741-769, 1042-1074, 1351-1385, 1666-1701`). The
naive and balanced classes compute what the single-logger IPW / DR classes compute. -/
def MultiEstimator.rounds (e : MultiEstimator K) (a : MultiArgs K) : Py (List K) :=
  match e.kind with
  | .naiveIpw => do
      let r ← ipwPrepare e.useEstimatedPscore a.single
      ipwRound e.lam r
  | .balancedIpw => do
      let r ← ipwPrepare e.useEstimatedPscore a.balanced
      ipwRound e.lam r
  | .weightedIpw => do
      let (r, st) ← weightedIpwPrepare e.useEstimatedPscore a
      weightedIpwRound e.lam st r
  | .naiveDr => do
      let r ← drPrepare e.useEstimatedPscore a.single
      drRound e.lam r
  | .balancedDr => do
      let r ← drPrepare e.useEstimatedPscore a.balanced
      drRound e.lam r
  | .weightedDr => do
      let (r, st) ← weightedDrPrepare e.useEstimatedPscore a
      weightedDrRound e.lam st r

/-- `estimate_policy_value` of the six classes. -/
def MultiEstimator.estimatePolicyValue (e : MultiEstimator K) (a : MultiArgs K) : Py K := do
  let rr ← e.rounds a
  npMean rr

/-- Validation followed by `_estimate_round_rewards`, as called from `estimate_interval`
(`obp/ope/estimators_multi.py:273-298, 547-574, 829-857, 1134-1166, 1445-1479, 1765-1800`). The balanced
classes pass `pscore=` instead of the required parameter `pscore_avg` (568-574, 1472-1479), which is
a TypeError. -/
def MultiEstimator.intervalRounds (e : MultiEstimator K) (a : MultiArgs K) : Py (List K) :=
  match e.kind with
  | .balancedIpw => do
      let _ ← ipwPrepare e.useEstimatedPscore a.balanced
      .error .typeError
  | .balancedDr => do
      let _ ← drPrepare e.useEstimatedPscore a.balanced
      .error .typeError
  | _ => e.rounds a

/-- `estimate_interval` of the six classes. -/
def MultiEstimator.estimateInterval [IsStrictOrderedRing K] [FloorRing K] (e : MultiEstimator K)
    (a : MultiArgs K) (c : CiArgs K) (draws : List (List ℕ)) : Py (CiOut K) := do
  let rr ← e.intervalRounds a
  bootstrapCI rr c draws

end Obp
