import Verif.Lemmas.Regression

/-! # C90, C91: `RegressionModel` -/

set_option linter.unusedSectionVars false

namespace Obp

variable {K : Type} [Field K] [LinearOrder K] [IsStrictOrderedRing K] {M : Type} {n A L d e : ℕ}

/-! ### C91 -/

/-- **C91.** On valid data with rounds at every position (and, for "iw" and "mrdr", an evaluation policy
that sums to one) `fit` succeeds iff the base model's fits do, and the new models are those fitted once
per position on exactly the rounds logged at that position with the documented weights. -/
theorem C91_fit {g : RegLog K n A L d e} (hg : g.Valid) {method : FitMethod}
    (hd : method ≠ .normal → g.DistOk) (hpos : ∀ p, ∃ i, g.position i = p)
    (lrn : Learner M K) (ms ms' : Fin L → M) :
    (g.config method).fit lrn g.args ms = .ok ms' ↔
      g.FittedOn lrn method (List.finRange n) ms ms' := by
  unfold RegConfig.fit
  rw [RegLog.prepare_ok hg]
  have hl : List.ofFn (g.row method) = (List.finRange n).map (g.row method) := List.ofFn_eq_map
  show (g.config method).fitRows lrn (List.ofFn (g.row method)) ms = _ ↔ _
  rw [hl, RegLog.fitRows_iff hg]
  constructor
  · exact fun h => h.2.2.2
  · intro h
    refine ⟨?_, fun hm i _ p => hd hm i p, fun p hp => ?_, h⟩
    · intro h0
      have := congrArg List.length h0
      rw [List.length_finRange] at this
      exact absurd this hg.rounds.ne'
    · obtain ⟨i, hi⟩ := hpos p
      have : i ∈ g.roundsAt (List.finRange n) p := List.mem_filter.2 ⟨List.mem_finRange i, by simpa using hi⟩
      rw [hp] at this
      cases this

/-- **C91.** If some position has no rounds, `fit` raises; with a base model that does not itself raise, a
ValueError. -/
theorem C91_no_data {g : RegLog K n A L d e} (hg : g.Valid) {method : FitMethod}
    (hd : method ≠ .normal → g.DistOk) {p : Fin L} (hp : ∀ i, g.position i ≠ p)
    (lrn : Learner M K) (ms : Fin L → M) :
    (∀ ms', (g.config method).fit lrn g.args ms ≠ .ok ms') ∧
    ((∀ m X y w, ∃ m', lrn.fit m X y w = .ok m') →
      (g.config method).fit lrn g.args ms = .error .valueError) := by
  have hl : List.ofFn (g.row method) = (List.finRange n).map (g.row method) := List.ofFn_eq_map
  have hfit : (g.config method).fit lrn g.args ms =
      (g.config method).fitRows lrn ((List.finRange n).map (g.row method)) ms := by
    unfold RegConfig.fit
    rw [RegLog.prepare_ok hg, ← hl]
    rfl
  have hnil : g.roundsAt (List.finRange n) p = [] := by
    unfold RegLog.roundsAt
    rw [List.filter_eq_nil_iff]
    intro i _
    simpa using hp i
  rw [hfit]
  constructor
  · intro ms' h
    rw [RegLog.fitRows_iff hg] at h
    exact h.2.2.1 p hnil
  · intro htot
    dsimp only [RegConfig.fitRows, RegLog.config]
    rw [raiseIf_neg (by simpa using hg.rounds.ne'), py_bind_ok, raiseIf_neg, py_bind_ok]
    · refine foldlM_update_error (fun p m => fitPosition lrn method ⟨A, e, g.table⟩
        ((List.finRange n).map (g.row method)) p m) _ (List.nodup_finRange L) ms (err := .valueError)
        ?_ (List.mem_finRange p) ?_
      · intro q _ err' h
        rw [RegLog.fitPosition_ok hg] at h
        split at h
        · exact (Except.error.inj h).symm
        · obtain ⟨m', hm'⟩ := htot (ms q) ((g.roundsAt (List.finRange n) q).map fun i => g.feature i (g.action i))
            ((g.roundsAt (List.finRange n) q).map g.reward)
            (if method = .normal then none
              else some ((g.roundsAt (List.finRange n) q).map (g.sampleWeight method)))
          rw [hm'] at h
          cases h
      · rw [RegLog.fitPosition_ok hg, if_pos hnil]
    · by_cases hm : method = .normal
      · subst hm; simp
      · have := (g.sums_ok hm (List.finRange n)).2 fun i _ q => hd hm i q
        simp [this]

/-- **C91.** An evaluation policy that does not sum to one is rejected by the weighted methods. -/
theorem C91_bad_dist {g : RegLog K n A L d e} (hg : g.Valid) {method : FitMethod} (hm : method ≠ .normal)
    (hd : ¬ g.DistOk) (lrn : Learner M K) (ms : Fin L → M) :
    (g.config method).fit lrn g.args ms = .error .valueError := by
  have hl : List.ofFn (g.row method) = (List.finRange n).map (g.row method) := List.ofFn_eq_map
  unfold RegConfig.fit
  rw [RegLog.prepare_ok hg]
  show (g.config method).fitRows lrn (List.ofFn (g.row method)) ms = _
  rw [hl]
  have hs : distRowsSumToOne ((List.finRange n).map (g.row method)) = false := by
    rw [← Bool.not_eq_true, g.sums_ok hm]
    exact fun h => hd fun i p => h i (List.mem_finRange i) p
  dsimp only [RegConfig.fitRows, RegLog.config]
  rw [raiseIf_neg (by simpa using hg.rounds.ne'), py_bind_ok, raiseIf_pos (by simp [hs, hm])]
  rfl

/-- **C91.** Without `pscore` the propensities are taken to be uniform: the result is that for the data
with `1 / n_actions` recorded. -/
theorem C91_default_pscore {g : RegLog K n A L d e} (hn : 0 < n) (hps : ∀ i, g.pscore i = 1 / (A : K))
    (method : FitMethod) (lrn : Learner M K) (ms : Fin L → M) :
    (g.config method).fit lrn { g.args with pscore := .none } ms = (g.config method).fit lrn g.args ms := by
  have hA : 0 < A := by
    have := (g.action ⟨0, hn⟩).isLt
    omega
  have hg : g.Valid := ⟨hn, fun i => by rw [hps]; positivity⟩
  unfold RegConfig.fit
  congr 1
  rw [RegLog.prepare_ok hg]
  unfold RegConfig.prepare
  have hc := RegLog.check_ok hg method
  rw [C10_accept_iff] at hc
  obtain ⟨k, acts, h1, h2, h3, h4, h5, h6, h7⟩ := hc
  have hc' : checkBanditFeedbackInputs { context := g.args.context, action := g.args.action
                                         reward := g.args.reward, position := g.args.position
                                         pscore := .none
                                         actionContext := (g.config method).actionContext } = .ok () := by
    rw [C10_accept_iff]
    exact ⟨k, acts, h1, h2, h3, h4, Or.inl rfl, h6, h7⟩
  rw [hc']
  simp only [py_bind_ok, RegLog.args, checkArray2, Arg1.ints, RegLog.config]
  rw [RegLog.positions_ok hg.rounds]
  simp only [py_bind_ok, Arg1.isNone, if_true, Arg1.vals]
  have hgd : ∀ i : Fin n, (List.replicate n (1 / (A : K))).getD i 0 = g.pscore i := by
    intro i
    rw [hps, List.getD_eq_getElem?_getD, List.getElem?_replicate]
    simp
  by_cases hm : method = .normal
  · subst hm
    simp only [if_true, py_pure, py_bind_ok, RegLog.getD_ofFn, hgd]
    rfl
  · simp only [hm, if_false, checkDistShape, RegLog.view_ok, py_bind_ok, py_pure, RegLog.getD_ofFn, hgd]
    congr 2
    funext i
    simp [RegLog.row, hm]

/-! ### C90 -/

theorem predictRows_forall₂ (g : RegLog K n A L d e) (method : FitMethod) (lrn : Learner M K)
    (ms : Fin L → M) (idx : List (Fin n)) {vs : List (Fin A → Fin L → K)}
    (h : (g.config method).predictRows lrn ms (idx.map fun i => (g.row method i).x) = .ok vs) :
    List.Forall₂ (fun i v => v = fun a p => lrn.predict (ms p) (g.feature i a)) idx vs := by
  dsimp only [RegConfig.predictRows, RegLog.config] at h
  simp only [checkArray2, py_bind_ok] at h
  rw [dif_pos (le_refl A)] at h
  obtain rfl := Except.ok.inj h
  rw [List.map_map, List.forall₂_map_right_iff, List.forall₂_same]
  intro i _
  rfl

/-- **C90.** `fit_predict` with at least two folds, whatever the split, the base model and the models'
previous state: every round is in the test set of exactly one fold, is not among that fold's training
rounds, and its predictions are those of models fitted on exactly that fold's training rounds. -/
theorem C90_regression {g : RegLog K n A L d e} (hg : g.Valid) {method : FitMethod} {k : ℕ} (hk : 2 ≤ k)
    {folds : ∀ n, Folds n} (hf : IsKFold k (folds n)) (lrn : Learner M K) (ms : Fin L → M)
    {q : List (Fin A → Fin L → K)}
    (h : (g.config method).fitPredict lrn g.args (.int k) folds ms = .ok q) :
    q.length = n ∧ ∀ i : Fin n, ∃ f ∈ folds n, i ∈ f.2 ∧ i ∉ f.1 ∧ (∀ f' ∈ folds n, i ∈ f'.2 → f' = f) ∧
      ∃ ms₀ ms₁, g.FittedOn lrn method f.1 ms₀ ms₁ ∧
        q[i.val]? = some fun a p => lrn.predict (ms₁ p) (g.feature i a) := by
  unfold RegConfig.fitPredict at h
  rw [RegLog.prepare_ok hg] at h
  have h1 : checkIntMin (K := K) 1 (.int (k : ℤ)) = .ok (k : ℤ) := by
    simp only [checkIntMin]
    rw [if_neg (by omega)]
  simp only [py_bind_ok, h1] at h
  rw [if_neg (by omega)] at h
  simp only [py_bind_eq_ok, kfoldSplit, exists_unit] at h
  obtain ⟨fs, ⟨-, hfs⟩, out, hout, hq⟩ := h
  obtain rfl := Except.ok.inj hfs
  obtain rfl := Except.ok.inj hq
  refine ⟨List.length_ofFn, fun i => ?_⟩
  obtain ⟨f, hfm, hi, hni, m, m', hm, hv⟩ := crossFit_kfold
    (pv := fun (ms : Fin L → M) i v => v = fun a p => lrn.predict (ms p) (g.feature i a))
    (fun m idx vs hvs => predictRows_forall₂ g method lrn m idx hvs) hf hout i
  simp only [py_bind_eq_ok, exists_unit] at hm
  have hfit := ((RegLog.fitRows_iff hg lrn method f.1 m m').1 hm.2).2.2.2
  refine ⟨f, hfm, hi, hni, fun f' hf' hi' => hf.unique hf' hfm hi' hi, m, m', hfit, ?_⟩
  rw [List.getElem?_ofFn, dif_pos i.isLt]
  congr 1

/-- **C90.** With a single fold the models are fitted on all rounds and predict all rounds. -/
theorem C90_single_fold {g : RegLog K n A L d e} (hg : g.Valid) {method : FitMethod}
    (folds : ∀ n, Folds n) (lrn : Learner M K) (ms : Fin L → M) {q : List (Fin A → Fin L → K)}
    (h : (g.config method).fitPredict lrn g.args (.int 1) folds ms = .ok q) :
    ∃ ms', g.FittedOn lrn method (List.finRange n) ms ms' ∧
      q = List.ofFn fun i a p => lrn.predict (ms' p) (g.feature i a) := by
  unfold RegConfig.fitPredict at h
  rw [RegLog.prepare_ok hg] at h
  have h1 : checkIntMin (K := K) 1 (.int 1) = .ok 1 := rfl
  simp only [py_bind_ok, h1, if_true, py_bind_eq_ok] at h
  obtain ⟨ms', h2, h3⟩ := h
  have hl : List.ofFn (g.row method) = (List.finRange n).map (g.row method) := List.ofFn_eq_map
  rw [hl, RegLog.fitRows_iff hg] at h2
  refine ⟨ms', h2.2.2.2, ?_⟩
  have hx : (List.ofFn fun i => (g.row method i).x) = (List.finRange n).map fun i => (g.row method i).x :=
    List.ofFn_eq_map
  rw [hx] at h3
  have := predictRows_forall₂ g method lrn ms' _ h3
  rw [List.ofFn_eq_map, ← List.forall₂_eq_eq_eq, List.forall₂_map_right_iff]
  have h4 := this.flip
  refine (List.forall₂_iff_get.2 ⟨h4.length_eq, fun i hi hi' => ?_⟩)
  exact (List.forall₂_iff_get.1 h4).2 i hi hi'

/-- **C90.** The call succeeds whenever every fold's training part has rounds at every position (and, for the
weighted methods, the evaluation policy sums to one) and the base model does not itself raise. -/
theorem C90_succeeds {g : RegLog K n A L d e} (hg : g.Valid) {method : FitMethod} {k : ℕ} (hk : 2 ≤ k)
    (hkn : k ≤ n) {folds : ∀ n, Folds n} (hd : method ≠ .normal → g.DistOk)
    (hpos : ∀ f ∈ folds n, ∀ p, ∃ i ∈ f.1, g.position i = p) {lrn : Learner M K}
    (htot : ∀ m X y w, ∃ m', lrn.fit m X y w = .ok m') (ms : Fin L → M) :
    ∃ q, (g.config method).fitPredict lrn g.args (.int k) folds ms = .ok q := by
  have hL : 0 < L := by
    have := (g.position ⟨0, hg.rounds⟩).isLt
    omega
  unfold RegConfig.fitPredict
  rw [RegLog.prepare_ok hg]
  have h1 : checkIntMin (K := K) 1 (.int (k : ℤ)) = .ok (k : ℤ) := by
    simp only [checkIntMin]
    rw [if_neg (by omega)]
  simp only [py_bind_ok, h1]
  rw [if_neg (by omega)]
  simp only [kfoldSplit]
  rw [raiseIf_neg (by simpa using hkn)]
  simp only [py_bind_ok, py_pure]
  obtain ⟨out, hout⟩ := crossFit_ok (folds := folds n)
    (fit := fun ms idx => do
      sliceDist idx g.args.actionDist
      (g.config method).fitRows lrn (idx.map (g.row method)) ms)
    (predict := fun ms idx => (g.config method).predictRows lrn ms (idx.map fun i => (g.row method i).x))
    (fun m f hfm => by
      have hsl : sliceDist f.1 g.args.actionDist = .ok () := by
        simp only [RegLog.args, sliceDist]
        rw [raiseIf_neg]
        rw [List.any_eq_false]
        intro i _
        simp only [decide_eq_true_eq, not_le]
        exact i.isLt
      choose fm hfm' using htot
      refine ⟨fun p => fm (m p) ((g.roundsAt f.1 p).map fun i => g.feature i (g.action i))
        ((g.roundsAt f.1 p).map g.reward)
        (if method = .normal then none else some ((g.roundsAt f.1 p).map (g.sampleWeight method))), ?_⟩
      simp only [hsl, py_bind_ok]
      rw [RegLog.fitRows_iff hg]
      refine ⟨?_, fun hm i _ p => hd hm i p, fun p hp => ?_, fun p => hfm' _ _ _ _⟩
      · intro h0
        obtain ⟨i, hi, -⟩ := hpos f hfm ⟨0, hL⟩
        rw [h0] at hi
        cases hi
      · obtain ⟨i, hi, hip⟩ := hpos f hfm p
        have : i ∈ g.roundsAt f.1 p := List.mem_filter.2 ⟨hi, by simpa using hip⟩
        rw [hp] at this
        cases this)
    (fun m idx => by
      dsimp only [RegConfig.predictRows]
      simp only [checkArray2, py_bind_ok]
      rw [dif_pos (le_refl A)]
      exact ⟨_, rfl⟩)
    (ms, fun _ _ _ => 0)
  exact ⟨List.ofFn out.2, by rw [hout]; rfl⟩

/-- two data sets that agree except for what was logged in round `i` (its context stays) -/
structure AgreeExcept (g g' : RegLog K n A L d e) (i : Fin n) : Prop where
  context : g'.context = g.context
  table : g'.table = g.table
  others : ∀ j, j ≠ i → g'.action j = g.action j ∧ g'.reward j = g.reward j ∧ g'.pscore j = g.pscore j ∧
    g'.position j = g.position j ∧ g'.piE j = g.piE j

theorem FittedOn_congr {g g' : RegLog K n A L d e} {i : Fin n} (hag : AgreeExcept g g' i) {lrn : Learner M K}
    {method : FitMethod} {idx : List (Fin n)} (hi : i ∉ idx) {ms ms' : Fin L → M} :
    g'.FittedOn lrn method idx ms ms' ↔ g.FittedOn lrn method idx ms ms' := by
  have hne : ∀ j ∈ idx, j ≠ i := fun j hj h => hi (h ▸ hj)
  have hr : ∀ p, g'.roundsAt idx p = g.roundsAt idx p := fun p => by
    unfold RegLog.roundsAt
    refine List.filter_congr fun j hj => ?_
    rw [(hag.others j (hne j hj)).2.2.2.1]
  refine forall_congr' fun p => ?_
  rw [hr p]
  have hmem : ∀ j ∈ g.roundsAt idx p, j ≠ i := fun j hj => hne j (List.mem_filter.1 hj).1
  have e1 : (g.roundsAt idx p).map (fun i => g'.feature i (g'.action i)) =
      (g.roundsAt idx p).map fun i => g.feature i (g.action i) := by
    refine List.map_congr_left fun j hj => ?_
    simp only [RegLog.feature, hag.context, hag.table, (hag.others j (hmem j hj)).1]
  have e2 : (g.roundsAt idx p).map g'.reward = (g.roundsAt idx p).map g.reward :=
    List.map_congr_left fun j hj => (hag.others j (hmem j hj)).2.1
  have e3 : (g.roundsAt idx p).map (g'.sampleWeight method) = (g.roundsAt idx p).map (g.sampleWeight method) := by
    refine List.map_congr_left fun j hj => ?_
    obtain ⟨h1, -, h3, h4, h5⟩ := hag.others j (hmem j hj)
    unfold RegLog.sampleWeight
    rw [h1, h3, h4, h5]
  rw [e1, e2, e3]

/-- **C90.** Hence, for a base model whose `fit` forgets earlier fits, what was logged in a round (action,
reward, propensity, position, evaluation policy) has no influence on the round's own predictions. Missing: base models with
`warm_start` (see `C90_warm_start_leaks`). -/
theorem C90_no_leakage_partial {g g' : RegLog K n A L d e} (hg : g.Valid) (hg' : g'.Valid) {i : Fin n}
    (hag : AgreeExcept g g' i) {method : FitMethod} {k : ℕ} (hk : 2 ≤ k) {folds : ∀ n, Folds n}
    (hf : IsKFold k (folds n)) {lrn : Learner M K} (hl : lrn.Forgets) (ms ms' : Fin L → M)
    {q q' : List (Fin A → Fin L → K)}
    (h : (g.config method).fitPredict lrn g.args (.int k) folds ms = .ok q)
    (h' : (g'.config method).fitPredict lrn g'.args (.int k) folds ms' = .ok q') :
    q'[i.val]? = q[i.val]? := by
  obtain ⟨-, h1⟩ := C90_regression hg hk hf lrn ms h
  obtain ⟨-, h2⟩ := C90_regression hg' hk hf lrn ms' h'
  obtain ⟨f, hfm, hi, hni, -, m0, m1, hfit, hq⟩ := h1 i
  obtain ⟨f', hfm', hi', hni', -, m0', m1', hfit', hq'⟩ := h2 i
  obtain rfl := hf.unique hfm hfm' hi hi'
  rw [FittedOn_congr hag hni] at hfit'
  have : m1' = m1 := by
    funext p
    have a := hfit p
    have b := hfit' p
    rw [hl (m0' p) (m0 p)] at b
    rw [a] at b
    exact (Except.ok.inj b).symm
  rw [hq, hq', this]
  simp only [RegLog.feature, hag.context, hag.table]

/-! ### Examples, and the need for `Forgets` -/

/-- a base model that predicts the sum of all rewards it has ever been fitted on -/
def warmLearner : Learner ℚ ℚ where
  fit := fun m _ y _ => .ok (m + y.sum)
  predict := fun m _ => m

/-- a base model that predicts the sum of the rewards of its last fit -/
def coldLearner : Learner ℚ ℚ where
  fit := fun _ _ y _ => .ok y.sum
  predict := fun m _ => m

theorem coldLearner_forgets : coldLearner.Forgets := fun _ _ _ _ _ => rfl

/-- two rounds, two actions, one position -/
def exReg (r1 : ℚ) : RegLog ℚ 2 2 1 1 2 where
  context := fun i _ => i.val
  action := fun i => i
  reward := ![1, r1]
  pscore := fun _ => 1 / 2
  position := fun _ => 0
  piE := fun _ _ _ => 1 / 2
  table := fun a b => if a = b then 1 else 0

theorem exReg_valid (r1 : ℚ) : (exReg r1).Valid := ⟨by decide, fun _ => by norm_num [exReg]⟩

theorem exReg_agree (r s : ℚ) : AgreeExcept (exReg r) (exReg s) 1 where
  context := rfl
  table := rfl
  others := by
    intro j hj
    have : j = 0 := by omega
    subst this
    exact ⟨rfl, rfl, rfl, rfl, rfl⟩

/-- leave-one-out splits -/
def exFolds (n : ℕ) : Folds n := (List.finRange n).map fun i => ((List.finRange n).filter (· ≠ i), [i])

theorem exFolds_isKFold : IsKFold 2 (exFolds 2) := by
  refine ⟨by decide, by decide, by decide, by decide⟩

/-- **C90, limit.** For a base model with `warm_start` the claim is false: the same objects are refitted in
every fold, so a later fold's model has been trained on its test rounds in an earlier fold. Here the
prediction of round 1 changes with the reward of round 1. -/
theorem C90_warm_start_leaks (r1 : ℚ) :
    ((exReg r1).config .normal).fitPredict warmLearner (exReg r1).args (.int 2) exFolds (fun _ => 0) =
      .ok [fun _ _ => r1, fun _ _ => r1 + 1] := by
  have hv := exReg_valid r1
  unfold RegConfig.fitPredict
  rw [RegLog.prepare_ok hv]
  have hsp : (kfoldSplit 2 (exFolds 2) : Py _) = .ok [([1], [0]), ([0], [1])] := rfl
  have hfit : ∀ ms j, ((exReg r1).config .normal).fitRows warmLearner ([j].map ((exReg r1).row .normal)) ms =
      .ok fun p => ms p + (exReg r1).reward j := by
    intro ms j
    rw [RegLog.fitRows_iff hv]
    refine ⟨by simp, by simp, fun p => ?_, fun p => ?_⟩
    · have : (exReg r1).position j = p := Subsingleton.elim _ _
      simp [RegLog.roundsAt, this]
    · have : (exReg r1).position j = p := Subsingleton.elim _ _
      simp [RegLog.roundsAt, this, warmLearner]
  have hk2 : checkIntMin (K := ℚ) 1 (.int 2) = .ok 2 := rfl
  simp only [py_bind_ok, hk2, if_neg (by decide : ¬ (2 : ℤ) = 1)]
  have hsl : ∀ idx : List (Fin 2), sliceDist idx (exReg r1).args.actionDist = .ok () := by
    intro idx
    simp only [RegLog.args, sliceDist]
    rw [raiseIf_neg]
    rw [List.any_eq_false]
    intro i _
    simp only [decide_eq_true_eq, not_le]
    exact i.isLt
  have hpr : ∀ ms (j : Fin 2), ((exReg r1).config .normal).predictRows warmLearner ms
      ([j].map fun i => ((exReg r1).row .normal i).x) = .ok [fun _ p => ms p] := fun _ _ => rfl
  have hcf : crossFit (fun ms idx => do
        sliceDist idx (exReg r1).args.actionDist
        ((exReg r1).config .normal).fitRows warmLearner (idx.map ((exReg r1).row .normal)) ms)
      (fun ms idx => ((exReg r1).config .normal).predictRows warmLearner ms
        (idx.map fun i => ((exReg r1).row .normal i).x)) [([1], [0]), ([0], [1])]
      ((fun _ => (0 : ℚ)), fun _ _ _ => 0) =
      .ok (fun _ => r1 + 1, ![fun _ _ => r1, fun _ _ => r1 + 1]) := by
    simp only [crossFit, List.foldlM_cons, List.foldlM_nil, hsl, py_bind_ok, hfit, hpr, py_pure,
      List.zip_cons_cons, List.zip_nil_right, List.foldl_cons, List.foldl_nil]
    congr 1
    refine Prod.ext (funext fun p => ?_) (funext fun i => ?_)
    · simp [exReg]
    · fin_cases i
      · simp [exReg]
      · simp [exReg]
  show (kfoldSplit 2 (exFolds 2) >>= _) = _
  rw [hsp, py_bind_ok]
  refine (congrArg (· >>= _) hcf).trans ?_
  rfl

/-- the hypotheses of `C90_no_leakage_partial` are satisfiable, and so is the success of the call -/
example : ∃ q, ((exReg 5).config .normal).fitPredict coldLearner (exReg 5).args (.int 2) exFolds (fun _ => 0) =
    .ok q :=
  C90_succeeds (exReg_valid 5) (k := 2) (folds := exFolds) (by decide) (by decide) (by simp)
    (by decide) (fun _ _ y _ => ⟨y.sum, rfl⟩) _
example {q q'} := C90_no_leakage_partial (exReg_valid 5) (exReg_valid 7) (exReg_agree 5 7) (method := .normal) (k := 2)
  (by decide) (folds := exFolds) exFolds_isKFold coldLearner_forgets (fun _ => 0) (fun _ => 1) (q := q) (q' := q')
example := C91_fit (exReg_valid 5) (method := .mrdr) (fun _ => fun i p => by
  norm_num [exReg, Fin.sum_univ_two]) (fun p => ⟨0, Subsingleton.elim _ _⟩) coldLearner (fun _ => 0) (fun _ => 6)
/-- the evaluation policy (1, 1) is rejected -/
example := C91_bad_dist (g := { exReg 5 with piE := fun _ _ _ => 1 }) ⟨by decide, fun _ => by norm_num [exReg]⟩
  (method := .iw) (by simp) (fun h => by have := h 0 0; norm_num [Fin.sum_univ_two] at this) coldLearner (fun _ => 0)

end Obp
