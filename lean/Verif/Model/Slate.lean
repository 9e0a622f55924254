import Verif.Model.Bootstrap
import Mathlib.Data.List.Dedup
import Mathlib.Data.List.Rotate

/-!
# Model of the slate validators (`obp/utils.py`) and slate estimators (`obp/ope/estimators_slate.py`)

All arrays have one entry per (slate, position) row.
-/

namespace Obp

variable {K : Type} [Field K] [LinearOrder K]

/-- The arguments common to the slate functions. `pscore`/`evalPscore` stand for the pair that the
function at hand uses: `pscore`, `pscore_item_position` or `pscore_cascade`, and the corresponding
`evaluation_policy_*`. -/
structure SlateArgs (K : Type) where
  slateId : Arg1 K
  reward : Arg1 K
  position : Arg1 K
  pscore : Arg1 K
  evalPscore : Arg1 K

/-- One row of the data frame built in `check_*_inputs` (`obp/utils.py:730-735, 833-840`). -/
structure SlateRow (K : Type) where
  slate : ℤ
  pos : ℤ
  reward : K
  ps : K
  eps : K

/-- `obp/utils.py:622-691` `_check_slate_ope_inputs`; returns the rows of the validated arrays
(the Python function returns nothing, its callers use the arrays). `x.dtype == int` is modelled as
"integer array". -/
def checkSlateOpeInputs (a : SlateArgs K) : Py (List (SlateRow K)) := do
  checkArray1 a.position
  let okp ← intNonneg a.position
  raiseIf (okp = false) .valueError
  checkArray1 a.reward
  checkArray1 a.pscore
  raiseIf (a.pscore.vals.any (fun p => decide (p ≤ 0)) || a.pscore.vals.any (fun p => decide (1 < p)))
    .valueError
  checkArray1 a.evalPscore
  raiseIf (a.evalPscore.vals.any (fun p => decide (p < 0)) ||
    a.evalPscore.vals.any (fun p => decide (1 < p))) .valueError
  checkArray1 a.slateId
  let oks ← intNonneg a.slateId
  raiseIf (oks = false) .valueError
  let n1 ← a.slateId.shape0
  let n2 ← a.position.shape0
  let n3 ← a.reward.shape0
  let n4 ← a.pscore.shape0
  let n5 ← a.evalPscore.shape0
  raiseIf (¬ (n1 = n2 ∧ n2 = n3 ∧ n3 = n4 ∧ n4 = n5)) .valueError
  let sid ← a.slateId.ints
  let pos ← a.position.ints
  pure (List.zipWith (fun (s, p) (r, b, e) => ⟨s, p, r, b, e⟩) (sid.zip pos)
    (a.reward.vals.zip (a.pscore.vals.zip a.evalPscore.vals)))

/-- `df.duplicated(["slate_id", "position"]).sum() > 0` (`obp/utils.py:737, 793, 848`). -/
def hasDuplicates (rows : List (SlateRow K)) : Bool :=
  decide (¬ (rows.map fun r => (r.slate, r.pos)).Nodup)

/-- `(df.groupby("slate_id").apply(lambda x: x[col].unique().shape[0]) != 1).sum() > 0`
(`obp/utils.py:740-750`). -/
def notConstantPerSlate (f : SlateRow K → K) (rows : List (SlateRow K)) : Bool :=
  (npUnique (rows.map (·.slate))).any fun s =>
    decide (((rows.filter fun r => decide (r.slate = s)).map f).dedup.length ≠ 1)

/-- `obp/utils.py:694-750` `check_sips_inputs`. -/
def checkSipsInputs (a : SlateArgs K) : Py (List (SlateRow K)) := do
  let rows ← checkSlateOpeInputs a
  raiseIf (hasDuplicates rows) .valueError
  raiseIf (notConstantPerSlate (·.ps) rows) .valueError
  raiseIf (notConstantPerSlate (·.eps) rows) .valueError
  pure rows

/-- `obp/utils.py:753-794` `check_iips_inputs`. -/
def checkIipsInputs (a : SlateArgs K) : Py (List (SlateRow K)) := do
  let rows ← checkSlateOpeInputs a
  raiseIf (hasDuplicates rows) .valueError
  pure rows

/-- The order of `sort_values(["slate_id", "position"])` (`obp/utils.py:843`). -/
def rowLe (r s : SlateRow K) : Prop := r.slate < s.slate ∨ (r.slate = s.slate ∧ r.pos ≤ s.pos)

instance : DecidableRel (rowLe (K := K)) := fun r s =>
  inferInstanceAs (Decidable (r.slate < s.slate ∨ (r.slate = s.slate ∧ r.pos ≤ s.pos)))

/-- `df.sort_values(["slate_id", "position"])` (`obp/utils.py:842-846`). Rows with equal keys are
rejected afterwards, so their order is irrelevant. -/
def sortRows (rows : List (SlateRow K)) : List (SlateRow K) := rows.insertionSort rowLe

/-- `(df.groupby("slate_id")[col].expanding().min().values < df[col]).sum() > 0`
(`obp/utils.py:851-859, 864-873`), for a frame sorted by slate, so that the grouped values are in
row order. `seen` holds the rows above: the expanding minimum at a row is the minimum over the row
itself and the rows of the same slate above. -/
def exceedsExpandingMin (f : SlateRow K → K) : List (SlateRow K) → List (SlateRow K) → Bool
  | _, [] => false
  | seen, r :: rs =>
    decide (((seen.filter fun s => decide (s.slate = r.slate)).map f).foldl min (f r) < f r) ||
      exceedsExpandingMin f (seen ++ [r]) rs

/-- `obp/utils.py:797-876` `check_rips_inputs`. -/
def checkRipsInputs (a : SlateArgs K) : Py (List (SlateRow K)) := do
  let rows ← checkSlateOpeInputs a
  let sorted := sortRows rows
  raiseIf (hasDuplicates sorted) .valueError
  raiseIf (exceedsExpandingMin (·.ps) [] sorted) .valueError
  raiseIf (exceedsExpandingMin (·.eps) [] sorted) .valueError
  pure rows

/-- The arguments of the cascade doubly robust functions. -/
structure CascadeArgs (K : Type) extends SlateArgs K where
  action : Arg1 K
  qHat : Arg1 K
  evalDist : Arg1 K

/-- `x.reshape((-1, k)).sum(axis=1)` for a list whose length is a multiple of `k`. -/
def blockSums (k : ℕ) (xs : List K) : List K :=
  (List.range (xs.length / k)).map fun i => ((xs.drop (i * k)).take k).sum

/-- `obp/utils.py:879-974` `check_cascade_dr_inputs`; `nU` is `n_unique_action`, at least one by
`obp/ope/estimators_slate.py:613`. `reshape` raises ValueError if the length is not a multiple. -/
def checkCascadeDrInputs (nU : ℕ) (a : CascadeArgs K) : Py (List (SlateRow K)) := do
  let rows ← checkRipsInputs a.toSlateArgs
  checkArray1 a.action
  checkArray1 a.qHat
  checkArray1 a.evalDist
  let oka ← intInRange a.action nU
  raiseIf (oka = false) .valueError
  let n1 ← a.slateId.shape0
  let n2 ← a.action.shape0
  let n3 ← a.qHat.shape0
  let n4 ← a.evalDist.shape0
  raiseIf (¬ (n1 = n2 ∧ n2 = n3 / nU ∧ n3 / nU = n4 / nU)) .valueError
  raiseIf (n4 % nU ≠ 0) .valueError
  raiseIf (¬ (blockSums nU a.evalDist.vals).all closeToOne) .valueError
  pure rows

/-- The six slate estimators without a reward model (`obp/ope/estimators_slate.py`). -/
inductive SlateKind
  | sips | iips | rips | snSips | snIips | snRips
  deriving DecidableEq

/-- The validator that the estimator's methods call (`obp/ope/estimators_slate.py:196, 346, 492`). -/
def SlateKind.check (k : SlateKind) : SlateArgs K → Py (List (SlateRow K)) :=
  match k with
  | .sips | .snSips => checkSipsInputs
  | .iips | .snIips => checkIipsInputs
  | .rips | .snRips => checkRipsInputs

/-- `BaseSlateInverseProbabilityWeighting._estimate_round_rewards`
(`obp/ope/estimators_slate.py:85-87`). -/
def slateIpwRound (rows : List (SlateRow K)) : Py (List K) :=
  rows.mapM fun r => do
    let w ← npDiv r.eps r.ps
    pure (r.reward * w)

/-- `SelfNormalizedSlateStandardIPS._estimate_round_rewards`
(`obp/ope/estimators_slate.py:1031-1034`). -/
def slateSnGlobalRound (rows : List (SlateRow K)) : Py (List K) := do
  let iw ← rows.mapM fun r => npDiv r.eps r.ps
  let m ← npMean iw
  (List.zip rows iw).mapM fun p => npDiv (p.1.reward * p.2) m

/-- `BaseSlateSelfNormalizedInverseProbabilityWeighting._estimate_round_rewards`
(`obp/ope/estimators_slate.py:953-959`). Entry of a row at position `p < len_list`: its weighted
reward over the mean weight of the rows at `p`; rows at other positions keep the initial zero.
Simplified: `zeros_like` is taken to be a float array, i.e. `pscore` is not integer-typed. -/
def slateSnRound (lenList : ℕ) (rows : List (SlateRow K)) : Py (List K) :=
  rows.mapM fun r =>
    if r.pos < (lenList : ℤ) then do
      let iw ← (rows.filter fun s => decide (s.pos = r.pos)).mapM fun s => npDiv s.eps s.ps
      let m ← npMean iw
      let w ← npDiv r.eps r.ps
      npDiv (r.reward * w) m
    else pure 0

/-- `_estimate_round_rewards` of each class (inherited along the method resolution order). -/
def SlateKind.round (k : SlateKind) (lenList : ℕ) (rows : List (SlateRow K)) : Py (List K) :=
  match k with
  | .sips | .iips | .rips => slateIpwRound rows
  | .snSips => slateSnGlobalRound rows
  | .snIips | .snRips => slateSnRound lenList rows

/-- `estimate_policy_value` (`obp/ope/estimators_slate.py:196-211, 346-361, 492-507`): total over the
number of distinct slates. -/
def SlateKind.estimatePolicyValue (k : SlateKind) (lenList : ℕ) (a : SlateArgs K) : Py K := do
  let rows ← k.check a
  let est ← k.round lenList rows
  npDiv est.sum ((npUnique (rows.map (·.slate))).length : K)

/-- `estimated_rewards[slate_id == slate].sum()` for every distinct slate in increasing order
(`obp/ope/estimators_slate.py:122-127, 893-898`). -/
def slateSums (rows : List (SlateRow K)) (est : List K) : List K :=
  (npUnique (rows.map (·.slate))).map fun s =>
    (((List.zip rows est).filter fun p => decide (p.1.slate = s)).map (·.2)).sum

/-- `estimate_interval` (`obp/ope/estimators_slate.py:261-280, 411-430, 555-574` with 122-133). -/
def SlateKind.estimateInterval [IsStrictOrderedRing K] [FloorRing K] (k : SlateKind) (lenList : ℕ)
    (a : SlateArgs K) (c : CiArgs K) (draws : List (List ℕ)) : Py (CiOut K) := do
  let rows ← k.check a
  let est ← k.round lenList rows
  bootstrapCI (slateSums rows est) c draws

/-- `np.roll(xs, 1)` -/
def roll1 {α : Type} (xs : List α) : List α :=
  match xs.getLast? with
  | some x => x :: xs.dropLast
  | none => []

/-- `q_hat_3d[i, pos_, action[i * len_list + pos_]]` at `j = i * len_list + pos_`
(`obp/ope/estimators_slate.py:666-671`). -/
def qObserved (nU : ℕ) (action : List ℤ) (q : List K) (j : ℕ) : Py K :=
  match action[j]? with
  | none => .error .indexError
  | some a =>
    match (wrapIdx nU a).bind fun b => q[j * nU + b]? with
    | none => .error .indexError
    | some v => .ok v

/-- `SlateCascadeDoublyRobust._estimate_round_rewards` (`obp/ope/estimators_slate.py:661-690`), with
`n` = `self.n_rounds_`. `q_hat_3d[i, pos_, a]` of the row-major reshape is entry
`(i * len_list + pos_) * n_unique_action + a` of `q_hat`; the two loops run over
`i * len_list + pos_`. `reshape` with a length that is not a multiple of
`len_list * n_unique_action` (or zero `len_list`) is ValueError. -/
def cascadeDrRound (lenList nU n : ℕ) (rows : List (SlateRow K)) (action : List ℤ) (q dist : List K) :
    Py (List K) := do
  raiseIf (lenList * nU = 0 ∨ q.length % (lenList * nU) ≠ 0) .valueError
  let qObs ← (List.range (n * lenList)).mapM fun j =>
    qObserved nU action q j
  let prod ← bop (· * ·) dist q
  raiseIf (prod.length % (lenList * nU) ≠ 0) .valueError
  let expected := blockSums nU prod
  let iw ← rows.mapM fun r => npDiv r.eps r.ps
  let rolled := roll1 iw
  raiseIf ((List.range n).any fun i => decide (rolled.length ≤ i * lenList)) .indexError
  let iwPrev := rolled.mapIdx fun j w => if j % lenList = 0 ∧ j / lenList < n then 1 else w
  let diff ← bop (· - ·) (rows.map (·.reward)) qObs
  let t1 ← bop (· * ·) iw diff
  let t2 ← bop (· * ·) iwPrev expected
  bop (· + ·) t1 t2

/-- `SlateCascadeDoublyRobust.estimate_policy_value` (`obp/ope/estimators_slate.py:743-766`). -/
def cascadeDrValue (lenList nU : ℕ) (a : CascadeArgs K) : Py K := do
  let rows ← checkCascadeDrInputs nU a
  let act ← a.action.ints
  let n := (npUnique (rows.map (·.slate))).length
  let est ← cascadeDrRound lenList nU n rows act a.qHat.vals a.evalDist.vals
  npDiv est.sum (n : K)

/-- `SlateCascadeDoublyRobust.estimate_interval` (`obp/ope/estimators_slate.py:831-858, 893-904`). -/
def cascadeDrInterval [IsStrictOrderedRing K] [FloorRing K] (lenList nU : ℕ) (a : CascadeArgs K)
    (c : CiArgs K) (draws : List (List ℕ)) : Py (CiOut K) := do
  let rows ← checkCascadeDrInputs nU a
  let act ← a.action.ints
  let n := (npUnique (rows.map (·.slate))).length
  let est ← cascadeDrRound lenList nU n rows act a.qHat.vals a.evalDist.vals
  bootstrapCI (slateSums rows est) c draws

end Obp
