import Verif.Lemmas.Classification

/-! # C90 (classification models) and C93 -/

set_option linter.unusedSectionVars false

namespace Obp

variable {K : Type} [Field K] [LinearOrder K] [IsStrictOrderedRing K] {M : Type} {n A L d e : ℕ}

/-! ### C90 -/

/-- **C90.** `PropensityScoreEstimator.fit_predict` with at least two folds: every round is in the test set of
exactly one fold and not among its training rounds, and its value is the column of its logged action in the
`predict_proba` of a classifier fitted on exactly that fold's training rounds at its position. -/
theorem C90_propensity (g : RegLog K n A L d e) (hn : 0 < n) {k : ℕ} (hk : 2 ≤ k) {folds : ∀ n, Folds n}
    (hf : IsKFold k (folds n)) (clf : Classifier M K) (ms : Fin L → M) {q : List K}
    (h : propensityFitPredict clf A L g.args.context g.args.action g.args.position (.int k) folds ms = .ok q) :
    q.length = n ∧ ∀ i : Fin n, ∃ f ∈ folds n, i ∈ f.2 ∧ i ∉ f.1 ∧ (∀ f' ∈ folds n, i ∈ f'.2 → f' = f) ∧
      ∃ ms₀ ms₁, g.PropensityFittedOn clf f.1 ms₀ ms₁ ∧
        q[i.val]? = (clf.proba (ms₁ (g.position i)) (List.ofFn (g.context i)))[(g.action i).val]? := by
  unfold propensityFitPredict at h
  rw [g.preparePropensity_ok hn] at h
  have h1 : checkIntMin (K := K) 1 (.int (k : ℤ)) = .ok (k : ℤ) := by
    simp only [checkIntMin]
    rw [if_neg (by omega)]
  simp only [py_bind_ok, h1] at h
  rw [if_neg (by omega)] at h
  simp only [py_bind_eq_ok, kfoldSplit, exists_unit] at h
  obtain ⟨fs, ⟨-, hfs⟩, out, hout, hq⟩ := h
  obtain rfl := Except.ok.inj hfs
  obtain rfl := Except.ok.inj hq
  refine ⟨List.length_ofFn, fun i => ?_⟩
  obtain ⟨f, hfm, hi, hni, m, m', hm, hv⟩ := crossFit_kfold
    (pv := fun (ms : Fin L → M) i v =>
      (clf.proba (ms (g.position i)) (List.ofFn (g.context i)))[(g.action i).val]? = some v)
    (fun m idx vs hvs => g.propensityPredict_forall₂ _ clf m idx hvs) hf hout i
  rw [g.propensityFitRows_iff] at hm
  refine ⟨f, hfm, hi, hni, fun f' hf' hi' => hf.unique hf' hfm hi' hi, m, m', hm.2.2, ?_⟩
  rw [hv, List.getElem?_ofFn, dif_pos i.isLt]

/-- **C90.** `ImportanceWeightEstimator.fit_predict` with at least two folds: every round is in the test set of
exactly one fold and not among its training rounds, and its value is `p / (1 - p)` for the probability `p` of
the evaluation class under a classifier fitted on exactly that fold's training rounds at its position
(logged features as class 0, evaluation features as class 1). -/
theorem C90_importance_weight (g : RegLog K n A L d e) (hn : 0 < n) (hd : g.DistOk) (method : IweMethod)
    {k : ℕ} (hk : 2 ≤ k) {folds : ∀ n, Folds n} (hf : IsKFold k (folds n)) (clf : Classifier M K)
    {draws : ℕ → ℕ → List K} (hdr : ∀ p k, (draws p k).length = k) (ms : Fin L → M) {q : List K}
    (h : (g.iweConfig method).fitPredict clf draws g.args.context g.args.action g.args.position
      g.args.actionDist (.int k) folds ms = .ok q) :
    q.length = n ∧ ∀ i : Fin n, ∃ f ∈ folds n, i ∈ f.2 ∧ i ∉ f.1 ∧ (∀ f' ∈ folds n, i ∈ f'.2 → f' = f) ∧
      ∃ sampled ms₀ ms₁ pr, g.SampledBy draws f.1 sampled ∧ g.IweFittedOn method clf sampled f.1 ms₀ ms₁ ∧
        (clf.proba (ms₁ (g.position i)) (g.feature i (g.action i)))[1]? = some pr ∧ pr ≠ 1 ∧
        q[i.val]? = some (pr / (1 - pr)) := by
  unfold IweConfig.fitPredict at h
  rw [g.iwePrepare_ok hn hd] at h
  have h1 : checkIntMin (K := K) 1 (.int (k : ℤ)) = .ok (k : ℤ) := by
    simp only [checkIntMin]
    rw [if_neg (by omega)]
  simp only [py_bind_ok, h1] at h
  rw [if_neg (by omega)] at h
  simp only [py_bind_eq_ok, kfoldSplit, exists_unit] at h
  obtain ⟨fs, ⟨-, hfs⟩, out, hout, hq⟩ := h
  obtain rfl := Except.ok.inj hfs
  obtain rfl := Except.ok.inj hq
  refine ⟨List.length_ofFn, fun i => ?_⟩
  obtain ⟨f, hfm, hi, hni, m, m', hm, hv⟩ := crossFit_kfold
    (pv := fun (ms : Fin L → M) i v => ∃ pr,
      (clf.proba (ms (g.position i)) (g.feature i (g.action i)))[1]? = some pr ∧ pr ≠ 1 ∧ v = pr / (1 - pr))
    (fun m idx vs hvs => g.iwePredict_forall₂ method _ clf m idx hvs) hf hout i
  obtain ⟨s, hs⟩ := g.exists_sampledBy hn hdr (hf.nodup f hfm)
  rw [g.iweFitRows_iff method clf hs] at hm
  obtain ⟨pr, h2, h3, h4⟩ := hv
  refine ⟨f, hfm, hi, hni, fun f' hf' hi' => hf.unique hf' hfm hi' hi, s, m, m', pr, hs, hm.2.2, h2, h3, ?_⟩
  rw [List.getElem?_ofFn, dif_pos i.isLt, ← h4]

/-! ### C93: propensities -/

theorem npUnique_range {y : List ℤ} {A : ℕ} (h : ∀ z, z ∈ y ↔ ∃ a : Fin A, z = (a.val : ℤ)) :
    npUnique y = List.ofFn fun a : Fin A => (a.val : ℤ) := by
  refine List.Perm.eq_of_pairwise' (r := (· ≤ ·)) (List.pairwise_insertionSort _ _) ?_ ?_
  · rw [List.pairwise_ofFn]
    intro i j hij
    simp only [Int.ofNat_le]
    exact hij.le
  · rw [List.perm_ext_iff_of_nodup (npUnique_nodup y)]
    · intro z
      rw [npUnique_mem, h, List.mem_ofFn]
      simp [eq_comm]
    · rw [List.nodup_ofFn]
      intro i j hij
      ext
      simpa using hij

/-- **C93 (partial).** `PropensityScoreEstimator.fit_predict` without cross-fitting returns, for every round, the
fitted model's probability of the logged action — provided that every action was logged at every position.
Missing: when some action never appears at a position, columns and actions no longer correspond (see
`C93_absent_action`). -/
theorem C93_propensity_partial (g : RegLog K n A L d e) (hn : 0 < n)
    (hall : ∀ p a, ∃ i, g.position i = p ∧ g.action i = a)
    {clf : Classifier M K} {P : M → List K → ℤ → K} (hP : clf.ClassColumns P)
    (folds : ∀ n, Folds n) (ms : Fin L → M) {q : List K}
    (h : propensityFitPredict clf A L g.args.context g.args.action g.args.position (.int 1) folds ms = .ok q) :
    ∃ ms', g.PropensityFittedOn clf (List.finRange n) ms ms' ∧
      q = List.ofFn fun i => P (ms' (g.position i)) (List.ofFn (g.context i)) ((g.action i : ℕ) : ℤ) := by
  unfold propensityFitPredict at h
  rw [g.preparePropensity_ok hn] at h
  have h1 : checkIntMin (K := K) 1 (.int 1) = .ok 1 := rfl
  simp only [py_bind_ok, h1, if_true, py_bind_eq_ok] at h
  obtain ⟨ms', h2, h3⟩ := h
  have hl : List.ofFn (g.clfRow fun _ _ _ => 0) = (List.finRange n).map (g.clfRow fun _ _ _ => (0 : K)) :=
    List.ofFn_eq_map
  rw [hl] at h2 h3
  rw [g.propensityFitRows_iff] at h2
  refine ⟨ms', h2.2.2, ?_⟩
  have h4 := g.propensityPredict_forall₂ _ clf ms' _ h3
  rw [List.ofFn_eq_map]
  have h5 : List.Forall₂ (fun i v => v = P (ms' (g.position i)) (List.ofFn (g.context i)) ((g.action i : ℕ) : ℤ))
      (List.finRange n) q := by
    refine h4.imp fun i v hv => ?_
    rw [hP _ _ _ _ (h2.2.2 (g.position i)), npUnique_range (A := A)] at hv
    · rw [List.map_ofFn, List.getElem?_ofFn, dif_pos (g.action i).isLt] at hv
      exact (Option.some.inj hv).symm
    · intro z
      simp only [List.mem_map, RegLog.roundsAt, List.mem_filter, List.mem_finRange, true_and, decide_eq_true_eq]
      constructor
      · rintro ⟨j, -, rfl⟩; exact ⟨_, rfl⟩
      · rintro ⟨a, rfl⟩
        obtain ⟨j, hj, rfl⟩ := hall (g.position i) a
        exact ⟨j, hj, rfl⟩
  clear h4 h3 h2 hl
  generalize List.finRange n = l at h5
  induction h5 with
  | nil => rfl
  | cons hx _ ih => rw [List.map_cons, ← ih, hx]

/-- **C93, negation.** If the actions seen in training at the round's position are `0` and `2` only, the value
returned for a round with logged action `a` is the probability of the `a`-th seen action: for action 2 there is
no such column and the call raises IndexError. -/
theorem C93_absent_action {clf : Classifier M K} {P : M → List K → ℤ → K} (hP : clf.ClassColumns P)
    {m m' : M} {X : List (List K)} {y : List ℤ} (hfit : clf.fit m X y = .ok m') (hy : ∀ z, z ∈ y ↔ z = 0 ∨ z = 2)
    (x : List K) :
    propensityPredict clf (fun _ : Fin 1 => m') [(x, 1)] (some [0]) = .ok [P m' x 2] ∧
    propensityPredict clf (fun _ : Fin 1 => m') [(x, 2)] (some [0]) = .error .indexError := by
  have hu : npUnique y = [0, 2] := by
    refine List.Perm.eq_of_pairwise' (r := (· ≤ ·)) (List.pairwise_insertionSort _ _) (by decide) ?_
    rw [List.perm_ext_iff_of_nodup (npUnique_nodup y) (by decide)]
    intro z
    rw [npUnique_mem, hy]
    simp
  have hp : clf.proba m' x = [P m' x 0, P m' x 2] := by
    rw [hP _ _ _ _ hfit, hu]; rfl
  constructor
  · simp only [propensityPredict, List.zip_cons_cons, List.zip_nil_right, List.mapM_cons, List.mapM_nil,
      propensityRound, hp]
    rfl
  · simp only [propensityPredict, List.zip_cons_cons, List.zip_nil_right, List.mapM_cons, List.mapM_nil,
      propensityRound, hp]
    rfl

/-- **C93, negation.** `PropensityScoreEstimator.predict` without `position` (the documented default)
returns zeros, for every classifier and input, also when `len_list` is one. -/
theorem C93_position_none (clf : Classifier M K) (ms : Fin L → M) (rows : List (List K × ℤ)) :
    propensityPredict clf ms rows none = .ok (List.replicate rows.length 0) := rfl

/-! ### C93: importance weights -/

/-- **C93.** `ImportanceWeightEstimator.predict` returns `p / (1 - p)` for the probability `p` that the round's
classifier gives to the evaluation class at (context, features of the logged action), for every fitted
classifier; it does not return when `p = 1`. -/
theorem C93_weight_value (g : RegLog K n A L d e) (method : IweMethod) (clf : Classifier M K) (ms : Fin L → M)
    {w : List K}
    (h : (g.iweConfig method).predict clf ms
      (List.ofFn fun i => (List.ofFn (g.context i), ((g.action i : ℕ) : ℤ)))
      (some (List.ofFn fun i => ((g.position i : ℕ) : ℤ))) = .ok w) :
    w.length = n ∧ ∀ i : Fin n, ∃ pr, (clf.proba (ms (g.position i)) (g.feature i (g.action i)))[1]? = some pr ∧
      pr ≠ 1 ∧ w[i.val]? = some (pr / (1 - pr)) := by
  have e1 : (List.ofFn fun i => (List.ofFn (g.context i), ((g.action i : ℕ) : ℤ))) =
      ((List.finRange n).map (g.clfRow g.piE)).map fun r => (r.x, r.action) := by
    rw [List.map_map, List.ofFn_eq_map]; rfl
  have e2 : (List.ofFn fun i => ((g.position i : ℕ) : ℤ)) =
      ((List.finRange n).map (g.clfRow g.piE)).map (·.position) := by
    rw [List.map_map, List.ofFn_eq_map]; rfl
  rw [e1, e2] at h
  have h2 := g.iwePredict_forall₂ method _ clf ms _ h
  refine ⟨by rw [← h2.length_eq, List.length_finRange], fun i => ?_⟩
  have hi : i.val < w.length := by rw [← h2.length_eq, List.length_finRange]; exact i.isLt
  have h3 := (List.forall₂_iff_get.1 h2).2 i.val (by rw [List.length_finRange]; exact i.isLt) hi
  simp only [List.get_eq_getElem, List.getElem_finRange] at h3
  obtain ⟨pr, h4, h5, h6⟩ := h3
  exact ⟨pr, h4, h5, by rw [List.getElem?_eq_getElem hi, h6]⟩

/-- **C93.** If the predicted probability is calibrated, i.e. it is `e / (b + e)` for the densities `b` and `e`
of the features under the behaviour and the evaluation policy, the weight is the density ratio. -/
theorem C93_density_ratio {b e' : K} (_hb : b ≠ 0) (hs : b + e' ≠ 0) :
    (e' / (b + e')) / (1 - e' / (b + e')) = e' / b := by
  have h1 : 1 - e' / (b + e') = b / (b + e') := by field_simp; ring
  rw [h1, div_div_div_cancel_right₀ hs]

theorem rowCount_zero {X Y : List (List K)} {a b : ℕ} (hX : X.length = a) (x : List K) (c : ℤ) :
    rowCount (X ++ Y) (List.replicate a 0 ++ List.replicate b 1) x c =
      (if c = 0 then X.count x else 0) + if c = 1 then (Y.take b).count x else 0 := by
  unfold rowCount
  rw [List.zip_append (by simpa using hX), List.count_append]
  have key : ∀ (Z : List (List K)) (k : ℕ) (v : ℤ), (Z.zip (List.replicate k v)).count (x, c) =
      if c = v then (Z.take k).count x else 0 := by
    intro Z
    induction Z with
    | nil => intro k v; simp
    | cons z Z ih =>
      intro k v
      cases k with
      | zero => simp
      | succ k =>
        rw [List.replicate_succ, List.zip_cons_cons, List.count_cons, ih, List.take_succ_cons, List.count_cons]
        by_cases hc : c = v
        · subst hc; simp
        · have : ((z, v) == (x, c)) = false := by simp [Ne.symm hc]
          simp [hc, this]
  rw [key, key, ← hX, List.take_length]

/-- **C93.** `ImportanceWeightEstimator.fit_predict` with a classifier that is calibrated on its training data
returns the ratio of the empirical densities: for every round the number of evaluation features of its
position that equal its logged features, over the number of logged features that do (both out of the same
number of rounds). -/
theorem C93_calibrated (g : RegLog K n A L d e) (hn : 0 < n) (hd : g.DistOk) (method : IweMethod)
    {clf : Classifier M K} (hc : clf.Calibrated) {draws : ℕ → ℕ → List K} (hdr : ∀ p k, (draws p k).length = k)
    (folds : ∀ n, Folds n) (ms : Fin L → M) {q : List K}
    (h : (g.iweConfig method).fitPredict clf draws g.args.context g.args.action g.args.position
      g.args.actionDist (.int 1) folds ms = .ok q) :
    ∃ sampled, g.SampledBy draws (List.finRange n) sampled ∧ ∀ i : Fin n,
      q[i.val]? = some
        (((Finset.univ.filter fun j => g.position j = g.position i ∧
            g.evalFeature method (g.position i) (sampled (g.position i)) j = g.feature i (g.action i)).card : K) /
          ((Finset.univ.filter fun j => g.position j = g.position i ∧
            g.feature j (g.action j) = g.feature i (g.action i)).card : K)) := by
  unfold IweConfig.fitPredict at h
  rw [g.iwePrepare_ok hn hd] at h
  have h1 : checkIntMin (K := K) 1 (.int 1) = .ok 1 := rfl
  simp only [py_bind_ok, h1, if_true, py_bind_eq_ok] at h
  obtain ⟨ms', h2, h3⟩ := h
  have hl : List.ofFn (g.clfRow g.piE) = (List.finRange n).map (g.clfRow g.piE) := List.ofFn_eq_map
  rw [hl] at h2 h3
  obtain ⟨s, hs⟩ := g.exists_sampledBy hn hdr (List.nodup_finRange n)
  rw [g.iweFitRows_iff method clf hs] at h2
  refine ⟨s, hs, fun i => ?_⟩
  have h4 := g.iwePredict_forall₂ method _ clf ms' _ h3
  have hi : i.val < q.length := by rw [← h4.length_eq, List.length_finRange]; exact i.isLt
  have h5 := (List.forall₂_iff_get.1 h4).2 i.val (by rw [List.length_finRange]; exact i.isLt) hi
  simp only [List.get_eq_getElem, List.getElem_finRange] at h5
  change ∃ pr, (clf.proba (ms' (g.position i)) (g.feature i (g.action i)))[1]? = some pr ∧ pr ≠ 1 ∧
    q[i.val] = pr / (1 - pr) at h5
  obtain ⟨pr, h6, h7, h8⟩ := h5
  set p := g.position i with hp
  set rs := g.roundsAt (List.finRange n) p with hrs
  set x := g.feature i (g.action i) with hx
  have himem : i ∈ rs := by
    rw [hrs]
    exact List.mem_filter.2 ⟨List.mem_finRange i, by simp [hp]⟩
  set B := rs.map fun j => g.feature j (g.action j) with hB
  set E := rs.map (g.evalFeature method p (s p)) with hE
  have hxB : x ∈ B := List.mem_map.2 ⟨i, himem, rfl⟩
  have hpr := hc _ _ _ _ (h2.2.2 p) x (List.mem_append_left _ hxB)
  have hpos : 0 < rs.length := List.length_pos_of_mem himem
  have hu : npUnique (List.replicate rs.length (0 : ℤ) ++ List.replicate rs.length 1) = [0, 1] := by
    refine List.Perm.eq_of_pairwise' (r := (· ≤ ·)) (List.pairwise_insertionSort _ _) (by decide) ?_
    rw [List.perm_ext_iff_of_nodup (npUnique_nodup _) (by decide)]
    intro z
    rw [npUnique_mem]
    simp [List.mem_append, List.mem_replicate, hpos.ne']
  rw [hu] at hpr
  rw [hpr] at h6
  simp only [List.map_cons, List.map_nil, List.getElem?_cons_succ, List.getElem?_cons_zero, Option.some.injEq] at h6
  rw [rowCount_zero (by simp)] at h6
  have hEt : E.take rs.length = E := List.take_of_length_le (by simp [hE])
  simp only [one_ne_zero, if_false, if_true, zero_add, List.count_append] at h6
  rw [hEt] at h6
  have hcnt : ∀ f : Fin n → List K, (rs.map f).count x =
      (Finset.univ.filter fun j => g.position j = p ∧ f j = x).card := by
    intro f
    have hnd : ((List.finRange n).filter fun j => decide (g.position j = p ∧ f j = x)).Nodup :=
      (List.nodup_finRange n).filter _
    have h9 : (Finset.univ.filter fun j => g.position j = p ∧ f j = x) =
        ((List.finRange n).filter fun j => decide (g.position j = p ∧ f j = x)).toFinset := by
      ext j; simp
    rw [h9, List.toFinset_card_of_nodup hnd, List.count, List.countP_map, List.countP_eq_length_filter, hrs]
    unfold RegLog.roundsAt
    rw [List.filter_filter]
    congr 1
    refine List.filter_congr fun j _ => ?_
    rw [Bool.eq_iff_iff]
    simp [and_comm]
  have hBpos : 0 < B.count x := List.count_pos_iff.2 hxB
  rw [List.getElem?_eq_getElem hi, h8, ← h6]
  rw [← hcnt, ← hcnt, ← hB, ← hE, Nat.cast_add]
  congr 1
  refine C93_density_ratio (by exact_mod_cast hBpos.ne') ?_
  exact_mod_cast (by omega : B.count x + E.count x ≠ 0)

/-- **C93, negation.** `ImportanceWeightEstimator.predict` without `position` (the documented default) raises,
for every classifier and input; so it does when some position has no rounds among those to predict. -/
theorem C93_weight_position_none (g : RegLog K n A L d e) (method : IweMethod) (clf : Classifier M K)
    (ms : Fin L → M) (rows : List (List K × ℤ)) :
    (g.iweConfig method).predict clf ms rows none = .error .valueError ∧
    ∀ (ps : List ℤ) (p : Fin L), (p.val : ℤ) ∉ ps →
      (g.iweConfig method).predict clf ms rows (some ps) = .error .valueError := by
  refine ⟨rfl, fun ps p hp => ?_⟩
  unfold IweConfig.predict
  simp only [checkArray2, py_bind_ok]
  rw [raiseIf_pos]
  · rfl
  · rw [List.any_eq_true]
    refine ⟨p, List.mem_finRange p, ?_⟩
    rw [List.all_eq_true]
    intro z hz
    simp only [ne_eq, decide_eq_true_eq]
    rintro rfl
    exact hp hz

/-! ### A calibrated classifier, and concrete cases -/

/-- stores the training data and predicts class shares -/
def shareClassifier : Classifier (List (List K) × List ℤ) K where
  fit := fun _ X y => .ok (X, y)
  proba := fun m x => (npUnique m.2).map fun c => (rowCount m.1 m.2 x c : K) / (m.1.count x : K)

theorem shareClassifier_calibrated : (shareClassifier (K := K)).Calibrated := by
  intro m X y m' h x _
  obtain rfl := Except.ok.inj h
  rfl

theorem shareClassifier_columns : (shareClassifier (K := K)).ClassColumns
    fun m x c => (rowCount m.1 m.2 x c : K) / (m.1.count x : K) := by
  intro m X y m' h x
  obtain rfl := Except.ok.inj h
  rfl

/-- four rounds, two actions, one position, one context -/
def exClf : RegLog ℚ 4 2 1 1 2 where
  context := fun _ _ => 0
  action := ![0, 1, 0, 0]
  reward := fun _ => 0
  pscore := fun _ => 1 / 2
  position := fun _ => 0
  piE := fun _ _ _ => 1 / 2
  table := fun a b => if a = b then 1 else 0

/-- the empirical propensities 3/4 and 1/4 -/
example : propensityFitPredict shareClassifier 2 1 exClf.args.context exClf.args.action exClf.args.position
    (.int 1) (fun _ => []) (fun _ => ([], [])) = .ok [3 / 4, 1 / 4, 3 / 4, 3 / 4] := by decide +kernel
example {q} := C93_propensity_partial exClf (by decide) (by decide) shareClassifier_columns (fun _ => [])
  (fun _ => ([], [])) (q := q)

/-- two of four sampled actions are 0, three of four logged ones: 2/3 and 2/1 -/
example : (exClf.iweConfig .sample).fitPredict shareClassifier
    (fun _ k => List.ofFn fun i : Fin k => if i.val % 2 = 0 then 1 / 4 else 3 / 4)
    exClf.args.context exClf.args.action exClf.args.position exClf.args.actionDist
    (.int 1) (fun _ => []) (fun _ => ([], [])) = .ok [2 / 3, 2, 2 / 3, 2 / 3] := by decide +kernel
example {q} := C93_calibrated exClf (by decide) (fun _ _ => by norm_num [exClf, Fin.sum_univ_two]) .sample
  shareClassifier_calibrated
  (draws := fun _ k => List.ofFn fun i : Fin k => if i.val % 2 = 0 then 1 / 4 else 3 / 4)
  (fun _ _ => by simp) (fun _ => []) (fun _ => ([], [])) (q := q)
/-- two folds -/
def exFolds2 (n : ℕ) : Folds n :=
  [((List.finRange n).filter fun i => ¬ i.val < 2, (List.finRange n).filter fun i => i.val < 2),
   ((List.finRange n).filter fun i => i.val < 2, (List.finRange n).filter fun i => ¬ i.val < 2)]
theorem exFolds2_isKFold : IsKFold 2 (exFolds2 4) := ⟨by decide, by decide, by decide, by decide⟩
example {q} := C90_propensity exClf (by decide) (k := 2) (by decide) exFolds2_isKFold
  shareClassifier (fun _ => ([], [])) (q := q)
/-- the first fold's classifier has seen action 0 only, so there is no column for round 1's action -/
example : propensityFitPredict shareClassifier 2 1 exClf.args.context exClf.args.action exClf.args.position
    (.int 2) exFolds2 (fun _ => ([], [])) = .error .indexError := by decide +kernel
example {q} := C90_importance_weight exClf (by decide) (fun _ _ => by norm_num [exClf, Fin.sum_univ_two]) .sample
  (k := 2) (by decide) exFolds2_isKFold shareClassifier
  (draws := fun _ k => List.ofFn fun i : Fin k => if i.val % 2 = 0 then 1 / 4 else 3 / 4)
  (fun _ _ => by simp) (fun _ => ([], [])) (q := q)

end Obp
