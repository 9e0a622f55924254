import Verif.Model.Helper

/-!
# Model of `obp/ope/estimators_embed.py`

Embedding entries are integers (the arrays are used as indices). The classifier is an arbitrary
function `learner` from the training data to the predicted probabilities; the quantile
`stats.t.ppf(1 - delta / 2, n - 1)` is an arbitrary number; `np.argsort` is an arbitrary function
`srt` (theorems assume that it sorts).
-/

namespace Obp

section generic
variable {K : Type} [Field K] [LinearOrder K]

/-- `x[:, d]` of a 2-D array: IndexError when there is no column `d`. -/
def Arr2.col {α : Type} (x : Arr2 α) (d : ℕ) : Py (List α) :=
  if h : d < x.d then .ok (List.ofFn fun i => x.val i ⟨d, h⟩) else .error .indexError

/-- `x[:, comb]` of a 2-D array with a tuple of column numbers. -/
def Arr2.cols {α : Type} (x : Arr2 α) (comb : List ℕ) : Py (Arr2 α) :=
  if h : ∀ c ∈ comb, c < x.d then
    .ok ⟨x.n, comb.length, fun i j => x.val i ⟨comb[j], h _ (List.getElem_mem _)⟩⟩
  else .error .indexError

/-- `x[:, :, comb]` of a 3-D array. -/
def Arr3.dims (x : Arr3 K) (comb : List ℕ) : Py (Arr3 K) :=
  if h : ∀ c ∈ comb, c < x.L then
    .ok ⟨x.n, x.A, comb.length, fun i a j => x.val i a ⟨comb[j], h _ (List.getElem_mem _)⟩⟩
  else .error .indexError

/-- `rows @ p_e_a[:, :, d]`: ValueError when the inner dimensions differ. -/
def matmulDim (rows : List (List K)) (p : Arr3 K) (d : Fin p.L) : Py (List (List K)) :=
  rows.mapM fun r =>
    if h : r.length = p.n then
      .ok (List.ofFn fun c => ∑ a : Fin p.n, r.get (a.cast h.symm) * p.val a c d)
    else .error .valueError

/-- `rows[np.arange(n), cs]` of a list of rows with an array of column numbers. -/
def fancy2 (rows : List (List K)) (is cs : List ℤ) : Py (List K) :=
  match bcastLen is.length cs.length with
  | none => .error .indexError
  | some N => (List.range N).mapM fun j =>
      match (bget is j).bind (wrapIdx rows.length) with
      | none => .error .indexError
      | some i =>
        match (bget cs j).bind (wrapIdx (rows.get i).length) with
        | none => .error .indexError
        | some c => .ok ((rows.get i).get c)

/-- In-place `xs *= ys`: the right operand must broadcast to the shape of `xs`. -/
def imul (xs ys : List K) : Py (List K) :=
  if xs.length = ys.length then .ok (List.zipWith (· * ·) xs ys)
  else match ys with
    | [b] => .ok (xs.map (· * b))
    | _ => .error .valueError

/-- What `_estimate_round_rewards` of the two classes receives after validation. `pEA` is the
optional embedding law, of shape (actions, categories, embedding dimensions). -/
structure EmbIn (K : Type) where
  reward : List K
  action : List ℤ
  embed : Arr2 ℤ
  context : Arr2 K
  piB : Arr3 K
  dist : Arr3 K
  position : List ℤ
  pEA : Option (Arr3 K)

/-- One pass of the loop over embedding dimensions
(`obp/ope/estimators_embed.py:168-172, 693-697`). -/
def embStep (r : EmbIn K) (p : Arr3 K) (n : ℕ) (acc : List K × List K) (d : Fin p.L) :
    Py (List K × List K) := do
  let rowsB ← fancyRow r.piB (arange n) r.position
  let mB ← matmulDim rowsB p d
  let col ← r.embed.col d
  let vB ← fancy2 mB (arange n) col
  let b ← imul acc.1 vB
  let rowsE ← fancyRow r.dist (arange n) r.position
  let mE ← matmulDim rowsE p d
  let vE ← fancy2 mE (arange n) col
  let e ← imul acc.2 vE
  pure (b, e)

/-- The weights computed from a given `p_e_a` (`obp/ope/estimators_embed.py:165-173, 690-698`). -/
def embWeightsGiven (r : EmbIn K) (p : Arr3 K) : Py (List K) := do
  let n := r.reward.length
  let acc ← (List.finRange p.L).foldlM (embStep r p n) (List.replicate n 1, List.replicate n 1)
  bopM npDiv acc.2 acc.1

/-- `np.where(w < np.inf, w, 0)` for `w = pi_e / pi_b` (`obp/ope/estimators_embed.py:205-206`):
`x / 0` is inf or nan and becomes 0, except for negative `x` (then -inf remains). -/
def ratioOrZero (pe pb : K) : Py K :=
  if pb = 0 then (if pe < 0 then .error .nonFinite else .ok 0) else .ok (pe / pb)

/-- `OneHotEncoder(sparse=False, drop="first").fit_transform(action_embed)`
(`obp/ope/estimators_embed.py:207-210`), a library function: for every column one indicator per
category except the smallest. -/
def oneHotDropFirst (e : Arr2 ℤ) : List (List K) :=
  List.ofFn fun i => (List.finRange e.d).flatMap fun d =>
    (npUnique (List.ofFn fun k => e.val k d)).tail.map fun c => if e.val i d = c then 1 else 0

/-- `np.c_[context, c]`: ValueError when the numbers of rows differ. -/
def hstack (context : Arr2 K) (c : List (List K)) : Py (List (List K)) :=
  if context.n = c.length then .ok (List.zipWith (· ++ ·) (List.ofFn fun i => List.ofFn (context.val i)) c)
  else .error .valueError

/-- One row of `pi_a_x_e[:, np.unique(action)] = proba` on a zero matrix with `nActions` columns
(`obp/ope/estimators_embed.py:212-214`). -/
def scatterRow (nActions : ℕ) (idx : List ℤ) (row : List K) : Py (List K) :=
  if idx.length = row.length then do
    let pairs ← (List.zip idx row).mapM fun p =>
      match wrapIdx nActions p.1 with
      | some j => .ok (j, p.2)
      | none => .error .indexError
    pure (List.ofFn fun j : Fin nActions => ((pairs.find? fun p => p.1 = j).map Prod.snd).getD 0)
  else .error .valueError

/-- `obp/ope/estimators_embed.py:195-217` `_estimate_w_x_e`. `learner x_e action` stands for
`pi_a_x_e_estimator.fit(x_e, action)` followed by `predict_proba(x_e)`; it returns one row per
round. -/
def embWeightsEstimated (nActions : ℕ) (learner : List (List K) → List ℤ → List (List K))
    (r : EmbIn K) : Py (List K) := do
  let n := r.reward.length
  let rowsE ← fancyRow r.dist (arange n) r.position
  let rowsB ← fancyRow r.piB (arange n) r.position
  let w ← (List.zip rowsE rowsB).mapM fun p => bopM ratioOrZero p.1 p.2
  let x ← hstack r.context (oneHotDropFirst r.embed)
  let post ← (learner x r.action).mapM (scatterRow nActions (npUnique r.action))
  (List.zip w post).mapM fun p => do
    let t ← bop (· * ·) p.1 p.2
    pure t.sum

/-- `w_x_e` (`obp/ope/estimators_embed.py:164-184, 689-709`). -/
def embWeights (nActions : ℕ) (learner : List (List K) → List ℤ → List (List K)) (r : EmbIn K) :
    Py (List K) :=
  match r.pEA with
  | some p => embWeightsGiven r p
  | none => embWeightsEstimated nActions learner r

/-- The two classes of `obp/ope/estimators_embed.py`. -/
inductive EmbKind
  | mipw | snmipw
  deriving DecidableEq

/-- `embedding_selection_method`. -/
inductive EmbSel
  | exact | greedy
  deriving DecidableEq

/-- `_estimate_round_rewards` with `with_dev=False` (`obp/ope/estimators_embed.py:193, 718`). -/
def EmbKind.round (k : EmbKind) (nActions : ℕ) (learner : List (List K) → List ℤ → List (List K))
    (r : EmbIn K) : Py (List K) := do
  let w ← embWeights nActions learner r
  let rw ← bop (· * ·) r.reward w
  match k with
  | .mipw => pure rw
  | .snmipw => do
    let m ← npMean w
    rw.mapM (npDiv · m)

/-- Keyword arguments of `estimate_policy_value` and `estimate_interval`
(`obp/ope/estimators_embed.py:219-230, 478-492`). -/
structure EmbArgs (K : Type) where
  reward : Arg1 K
  action : Arg1 K
  embed : Arg2 ℤ
  piB : Arg3 K
  actionDist : Arg3 K
  context : Arg2 K := .none
  pEA : Arg3 K := .none
  position : Arg1 K := .none

/-- The check of `p_e_a` or `context` (`obp/ope/estimators_embed.py:291-294, 562-565`). -/
def checkPea (a : EmbArgs K) : Py (Option (Arr3 K) × Arr2 K) :=
  if a.pEA.isNone then do
    let c ← checkArray2 a.context
    pure (none, c)
  else do
    let p ← checkArray3 a.pEA
    pure (some p, ⟨0, 0, fun i _ => i.elim0⟩)

/-- `check_array(action_embed, expected_dim=2)`. -/
def checkEmbed (a : Arg2 ℤ) : Py (Arr2 ℤ) :=
  match a with
  | .arr x => .ok x
  | _ => .error .valueError

/-- Validation part of `estimate_policy_value` and `estimate_interval`
(`obp/ope/estimators_embed.py:273-294, 544-565`). -/
def embPrepare (a : EmbArgs K) : Py (EmbIn K) := do
  checkArray1 a.reward
  let e ← checkEmbed a.embed
  let _ ← checkArray3 a.piB
  let _ ← checkArray3 a.actionDist
  let b ← checkOpeInputs
    { actionDist := a.piB, position := a.position, action := a.action, reward := a.reward }
  let x ← checkOpeInputs
    { actionDist := a.actionDist, position := a.position, action := a.action, reward := a.reward }
  let pos ← positionOrZeros x a.position
  let pc ← checkPea a
  let act ← a.action.ints
  pure { reward := a.reward.vals, action := act, embed := e, context := pc.2, piB := b, dist := x,
         position := pos, pEA := pc.1 }

/-- `estimate_policy_value` without embedding selection (`obp/ope/estimators_embed.py:273-294,
319-329`). -/
def EmbKind.plainValue (k : EmbKind) (nActions : ℕ)
    (learner : List (List K) → List ℤ → List (List K)) (a : EmbArgs K) : Py K := do
  let r ← embPrepare a
  let rr ← k.round nActions learner r
  npMean rr

/-- `estimate_interval` (`obp/ope/estimators_embed.py:544-582`); it never selects embeddings. -/
def EmbKind.estimateInterval [IsStrictOrderedRing K] [FloorRing K] (k : EmbKind) (nActions : ℕ)
    (learner : List (List K) → List ℤ → List (List K)) (a : EmbArgs K) (c : CiArgs K)
    (draws : List (List ℕ)) : Py (CiOut K) := do
  let r ← embPrepare a
  let rr ← k.round nActions learner r
  bootstrapCI rr c draws

/-- `itertools.combinations(xs, k)`, in lexicographic order. -/
def combinations {α : Type} : List α → ℕ → List (List α)
  | _, 0 => [[]]
  | [], _ + 1 => []
  | x :: xs, k + 1 => (combinations xs k).map (x :: ·) ++ combinations xs (k + 1)

/-- Restriction of the inputs to some embedding dimensions: `action_embed[:, comb]` and, if given,
`p_e_a[:, :, comb]` (`obp/ope/estimators_embed.py:350-372, 407-429, 438-460`). -/
def EmbIn.restrict (r : EmbIn K) (comb : List ℕ) : Py (EmbIn K) := do
  let e ← r.embed.cols comb
  match r.pEA with
  | none => pure { r with embed := e }
  | some p => do
    let p' ← p.dims comb
    pure { r with embed := e, pEA := some p' }

end generic

section real

/-- `_estimate_round_rewards` with `with_dev=True` (`obp/ope/estimators_embed.py:186-191, 711-716`):
the mean of the *unnormalised* weighted rewards, in both classes, and `tq * sqrt(var / (n - 1))`.
Simplified: for one round the code carries a nan width along; here that is `nonFinite`. -/
noncomputable def embDev (nActions : ℕ) (learner : List (List ℝ) → List ℤ → List (List ℝ)) (tq : ℝ)
    (r : EmbIn ℝ) : Py (ℝ × ℝ) := do
  let w ← embWeights nActions learner r
  let rw ← bop (· * ·) r.reward w
  let v ← npVar rw
  let s ← npDiv v ((r.reward.length : ℝ) - 1)
  let c ← npSqrt s
  let m ← npMean rw
  pure (m, c * tq)

/-- The acceptance test `(np.abs(theta_j - theta_i) <= cnf_i + C * cnf_j).all()` with
`C = sqrt(6) - 1` (`obp/ope/estimators_embed.py:345, 383, 404, 469`). -/
noncomputable def embAccept (acc : List (ℝ × ℝ)) (c : ℝ × ℝ) : Bool :=
  acc.all fun j => decide (|j.1 - c.1| ≤ c.2 + (√6 - 1) * j.2)

/-- Outcome of the inner loop: an early `return`, or the updated `theta_list`/`cnf_list` together
with the local variable `theta_j` (unbound = `none`). -/
inductive PruneStep
  | ret (v : Py ℝ)
  | cont (acc : List (ℝ × ℝ)) (thetaJ : Option (List ℝ))

/-- `theta_j[-1]`. -/
def lastTheta (ts : List ℝ) : Py ℝ :=
  match ts.getLast? with
  | some t => .ok t
  | none => .error .indexError

/-- The loop `for idx in idx_list` (`obp/ope/estimators_embed.py:380-386, 465-472`) over the
candidates in the order given by `idx_list`. -/
noncomputable def acceptLoop : List (ℝ × ℝ) → List (ℝ × ℝ) → Option (List ℝ) → PruneStep
  | [], acc, tj => .cont acc tj
  | c :: cs, acc, _ =>
    if embAccept acc c then acceptLoop cs (acc ++ [c]) (some (acc.map Prod.fst))
    else .ret (lastTheta (acc.map Prod.fst))

/-- `np.argsort(cnf_list_)[::-1]` applied to the candidates: they are visited in this order. -/
def byOrder {α : Type} (srt : List ℝ → List ℕ) (cs : List α) (key : α → ℝ) : List α :=
  (srt (cs.map key)).reverse.filterMap (cs[·]?)

/-- The final `return theta_j[-1]` (`obp/ope/estimators_embed.py:388, 476`). -/
def finalTheta (tj : Option (List ℝ)) : Py ℝ :=
  match tj with
  | none => .error .unboundLocalError
  | some ts => lastTheta ts

/-- The loop over subset sizes (`obp/ope/estimators_embed.py:346-388`). `ev` evaluates a subset of
embedding dimensions; while `theta_list` is empty results go there (this happens for the first
subset only, the full set), afterwards to the candidate list. -/
noncomputable def exactLoop (srt : List ℝ → List ℕ) (ev : List ℕ → Py (ℝ × ℝ)) (feats : List ℕ) :
    List ℕ → List (ℝ × ℝ) → Option (List ℝ) → Py ℝ
  | [], _, tj => finalTheta tj
  | i :: is, acc, tj => do
    let ests ← (combinations feats i).mapM ev
    let acc' := if acc.isEmpty then ests.take 1 else acc
    let cands := if acc.isEmpty then ests.drop 1 else ests
    match acceptLoop (byOrder srt cands Prod.snd) acc' tj with
    | .ret v => v
    | .cont acc'' tj' => exactLoop srt ev feats is acc'' tj'

/-- `np.arange(n_emb_dim, min_emb_dim - 1, -1)`. -/
def sizesDown (n m : ℕ) : List ℕ := ((List.range (n + 1)).filter fun i => decide (m ≤ i)).reverse

/-- `obp/ope/estimators_embed.py:331-388` `_estimate_with_exact_pruning`. -/
noncomputable def exactPruning (srt : List ℝ → List ℕ) (ev : List ℕ → Py (ℝ × ℝ)) (nEmb minEmb : ℕ) :
    Py ℝ := exactLoop srt ev (List.range nEmb) (sizesDown nEmb minEmb) [] none

/-- `current_feat[np.where(current_feat != d, True, False)]`
(`obp/ope/estimators_embed.py:436-437, 473-474`). -/
def without (feats : List ℕ) (d : ℕ) : List ℕ := feats.filter (· ≠ d)

/-- The `while` loop of greedy pruning (`obp/ope/estimators_embed.py:433-476`). After a pass in which
every candidate was accepted, `excluded_dim` is the dimension of the last candidate visited. -/
noncomputable def greedyLoop (srt : List ℝ → List ℕ) (ev : List ℕ → Py (ℝ × ℝ)) (minEmb : ℕ)
    (feats : List ℕ) (acc : List (ℝ × ℝ)) (tj : Option (List ℝ)) : Py ℝ :=
  if minEmb < feats.length then do
    let cands ← feats.mapM fun d => do
      let e ← ev (without feats d)
      pure (d, e)
    let order := byOrder srt cands fun c => c.2.2
    match acceptLoop (order.map Prod.snd) acc tj with
    | .ret v => v
    | .cont acc' tj' =>
      match order.getLast? with
      | none => .error .unboundLocalError
      | some c =>
        if _h : c.1 ∈ feats then greedyLoop srt ev minEmb (without feats c.1) acc' tj'
        else .error .indexError
  else finalTheta tj
termination_by feats.length
decreasing_by
  refine lt_of_le_of_ne (List.length_filter_le _ _) fun h => ?_
  rw [without] at h
  rw [List.length_filter_eq_length_iff] at h
  simpa using h _ _h

/-- `obp/ope/estimators_embed.py:390-476` `_estimate_with_greedy_pruning`. -/
noncomputable def greedyPruning (srt : List ℝ → List ℕ) (ev : List ℕ → Py (ℝ × ℝ)) (nEmb minEmb : ℕ) :
    Py ℝ := do
  let e ← ev (List.range nEmb)
  greedyLoop srt ev minEmb (List.range nEmb) [e] none

/-- `estimate_policy_value` (`obp/ope/estimators_embed.py:273-329`). -/
noncomputable def EmbKind.estimatePolicyValue (k : EmbKind) (nActions : ℕ)
    (learner : List (List ℝ) → List ℤ → List (List ℝ)) (sel : Option EmbSel) (minEmb : ℕ)
    (tq : ℝ) (srt : List ℝ → List ℕ) (a : EmbArgs ℝ) : Py ℝ := do
  let r ← embPrepare a
  let ev := fun comb => do
    let r' ← r.restrict comb
    embDev nActions learner tq r'
  match if 1 < r.embed.d then sel else none with
  | some .exact => exactPruning srt ev r.embed.d minEmb
  | some .greedy => greedyPruning srt ev r.embed.d minEmb
  | none => do
    let rr ← k.round nActions learner r
    npMean rr

end real

end Obp
