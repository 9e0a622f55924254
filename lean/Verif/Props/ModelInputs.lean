import Verif.Props.Regression
import Verif.Props.Classification
import Verif.Props.SlateRegression
import Verif.Props.LearnerSelect

/-! # C139: which data the nuisance models and the offline learners accept -/

set_option linter.unusedSectionVars false

namespace Obp

variable {K : Type} [Field K] [LinearOrder K] [IsStrictOrderedRing K] {M : Type} {n A L d e : ℕ}

/-- A three-dimensional array of the given shape. -/
def Arg3.HasShape (t : Arg3 K) (n A L : ℕ) : Prop := ∃ v, t = .arr ⟨n, A, L, v⟩

theorem checkDistShape_ok {t : Arg3 K} {v : Fin n → Fin A → Fin L → K} :
    checkDistShape n A L t = .ok v ↔ t = .arr ⟨n, A, L, v⟩ := by
  cases t with
  | arr t =>
    obtain ⟨n', A', L', v'⟩ := t
    simp only [checkDistShape, Arr3.view]
    by_cases h : n' = n ∧ A' = A ∧ L' = L
    · obtain ⟨rfl, rfl, rfl⟩ := h
      simp [Fin.cast_eq_self]
    · rw [dif_neg h]
      constructor
      · intro h'; cases h'
      · intro h'
        injection h' with h'
        injection h' with h1 h2 h3
        exact absurd ⟨h1, h2, h3⟩ h
  | _ => simp [checkDistShape]

theorem checkDistShape_error {t : Arg3 K} (h : ¬ t.HasShape n A L) :
    checkDistShape n A L t = .error .valueError := by
  cases hc : checkDistShape n A L t with
  | ok v => exact absurd ⟨v, checkDistShape_ok.1 hc⟩ h
  | error err =>
    cases t with
    | arr t =>
      simp only [checkDistShape] at hc
      split at hc
      · cases hc
      · rw [← Except.error.inj hc]
    | _ => simp only [checkDistShape] at hc; rw [← Except.error.inj hc]

/-- **C139.** With the weighted methods an `action_dist` that is missing or not of shape
`(n_rounds, n_actions, len_list)` is rejected with ValueError, by `fit` and by `fit_predict`. -/
theorem C139_regression_shape {g : RegLog K n A L d e} (hg : g.Valid) {method : FitMethod} (hm : method ≠ .normal)
    {t : Arg3 K} (ht : ¬ t.HasShape n A L) (lrn : Learner M K) (nFolds : PyScalar K) (folds : ∀ n, Folds n)
    (ms : Fin L → M) :
    (g.config method).fit lrn { g.args with actionDist := t } ms = .error .valueError ∧
    (g.config method).fitPredict lrn { g.args with actionDist := t } nFolds folds ms = .error .valueError := by
  have hp : (g.config method).prepare { g.args with actionDist := t } = .error .valueError := by
    unfold RegConfig.prepare
    dsimp only
    rw [RegLog.check_ok hg method]
    simp only [py_bind_ok, RegLog.args, checkArray2, Arg1.ints]
    rw [RegLog.positions_ok hg.rounds, py_bind_ok, if_neg hm, checkDistShape_error ht]
    rfl
  constructor
  · unfold RegConfig.fit; rw [hp]; rfl
  · unfold RegConfig.fitPredict; rw [hp]; rfl

/-- **C139.** With "normal" `fit` does not look at `action_dist` at all. -/
theorem C139_regression_normal (cfg : RegConfig K) (hm : cfg.method = .normal) (a : RegArgs K) (t : Arg3 K)
    (lrn : Learner M K) (ms : Fin cfg.lenList → M) :
    cfg.fit lrn { a with actionDist := t } ms = cfg.fit lrn a ms := by
  unfold RegConfig.fit
  congr 1
  unfold RegConfig.prepare
  simp only [hm, if_true]

theorem sliceDist_ok {idx : List (Fin n)} {t : Arg3 K} :
    sliceDist idx t = .ok () ↔ t = .none ∨ (∃ k s, t = .nd (k :: s) ∧ ∀ i ∈ idx, i.val < k) ∨
      ∃ x : Arr3 K, t = .arr x ∧ ∀ i ∈ idx, i.val < x.n := by
  cases t with
  | none => simp [sliceDist]
  | notArray => simp [sliceDist]
  | nd s =>
    cases s with
    | nil => simp [sliceDist]
    | cons k s => simp [sliceDist, raiseIf_ok]
  | arr x => simp [sliceDist, raiseIf_ok]

/-- **C139.** `fit_predict` with folds however slices it: with "normal" a call that returns had no `action_dist`, or
one with an entry for every round (any number of dimensions). -/
theorem C139_normal_sliced {g : RegLog K n A L d e} (hg : g.Valid) {k : ℕ} (hk : 2 ≤ k) {folds : ∀ n, Folds n}
    (hf : IsKFold k (folds n)) {t : Arg3 K} {lrn : Learner M K} {ms : Fin L → M}
    {q : List (Fin A → Fin L → K)}
    (h : (g.config .normal).fitPredict lrn { g.args with actionDist := t } (.int k) folds ms = .ok q) :
    t = .none ∨ (∃ k' s, t = .nd (k' :: s) ∧ n ≤ k') ∨ ∃ x : Arr3 K, t = .arr x ∧ n ≤ x.n := by
  have hp : (g.config .normal).prepare { g.args with actionDist := t } = .ok ⟨n, g.row .normal⟩ := by
    rw [← RegLog.prepare_ok hg]
    unfold RegConfig.prepare
    rfl
  unfold RegConfig.fitPredict at h
  rw [hp, py_bind_ok] at h
  have h1 : checkIntMin (K := K) 1 (.int (k : ℤ)) = .ok (k : ℤ) := by
    simp only [checkIntMin]; rw [if_neg (by omega)]
  rw [h1, py_bind_ok, if_neg (by omega)] at h
  obtain ⟨fs, hfs, h⟩ := py_bind_eq_ok.1 h
  obtain ⟨out, hout, -⟩ := py_bind_eq_ok.1 h
  have hfs' : fs = folds n := by
    unfold kfoldSplit at hfs
    obtain ⟨_, _, h⟩ := py_bind_eq_ok.1 hfs
    exact (Except.ok.inj h).symm
  subst hfs'
  -- every fold's training part is sliced
  have hall : ∀ f ∈ folds n, sliceDist f.1 t = .ok () := by
    have key : ∀ (fs : Folds n) (s s' : (Fin L → M) × (Fin n → Fin A → Fin L → K)),
        crossFit (fun ms idx => do
          sliceDist idx t
          (g.config .normal).fitRows lrn (idx.map (g.row .normal)) ms)
          (fun ms idx => (g.config .normal).predictRows lrn ms (idx.map fun i => (g.row .normal i).x)) fs s =
          .ok s' → ∀ f ∈ fs, sliceDist f.1 t = .ok () := by
      intro fs
      induction fs with
      | nil => intro s s' _ f hf; cases hf
      | cons f0 fs ih =>
        intro s s' hs f hf
        unfold crossFit at hs
        rw [List.foldlM_cons] at hs
        obtain ⟨s1, hs1, hs2⟩ := py_bind_eq_ok.1 hs
        obtain ⟨m, hm, -⟩ := py_bind_eq_ok.1 hs1
        obtain ⟨u, hu, -⟩ := py_bind_eq_ok.1 hm
        rcases List.mem_cons.1 hf with rfl | hf
        · exact hu
        · exact ih s1 s' hs2 f hf
    exact key _ _ _ hout
  -- every round is in some training part
  have hcov : ∀ i : Fin n, ∃ f ∈ folds n, i ∈ f.1 := by
    intro i
    obtain ⟨f, hfm, hi⟩ := hf.exists i
    by_contra hno
    push Not at hno
    have hall' : ∀ f' ∈ folds n, f' = f := fun f' hf' => by
      have : i ∈ f'.2 := by
        by_contra hn2
        exact hno f' hf' ((hf.train f' hf' i).2 hn2)
      exact hf.unique hf' hfm this hi
    have hlen := hf.length_eq
    have h2 : ∃ f1 f2 : List (Fin n) × List (Fin n), ∃ r, folds n = f1 :: f2 :: r := by
      rcases hfo : folds n with _ | ⟨f1, _ | ⟨f2, r⟩⟩
      · rw [hfo] at hlen; simp at hlen; omega
      · rw [hfo] at hlen; simp at hlen; omega
      · exact ⟨f1, f2, r, rfl⟩
    obtain ⟨f1, f2, r, hr⟩ := h2
    have e1 := hall' f1 (by rw [hr]; simp)
    have e2 := hall' f2 (by rw [hr]; simp)
    have := hf.once i
    rw [hr, List.countP_cons, List.countP_cons, e1, e2] at this
    simp [hi] at this
  have hbound : ∀ b : ℕ, (∀ f ∈ folds n, ∀ i ∈ f.1, i.val < b) → n ≤ b := by
    intro b hb
    by_contra hlt
    push Not at hlt
    obtain ⟨f, hfm, hi⟩ := hcov ⟨b, hlt⟩
    exact absurd (hb f hfm _ hi) (lt_irrefl _)
  obtain ⟨f0, hf0, -⟩ := hcov ⟨0, hg.rounds⟩
  rcases sliceDist_ok.1 (hall f0 hf0) with ht | ⟨k', s, ht, -⟩ | ⟨x, ht, -⟩
  · exact Or.inl ht
  · refine Or.inr (Or.inl ⟨k', s, ht, hbound _ fun f hfm i hi => ?_⟩)
    rcases sliceDist_ok.1 (hall f hfm) with h' | ⟨k2, s2, h', h2⟩ | ⟨x, h', -⟩
    · rw [ht] at h'; cases h'
    · rw [ht] at h'; cases h'; exact h2 i hi
    · rw [ht] at h'; cases h'
  · refine Or.inr (Or.inr ⟨x, ht, hbound _ fun f hfm i hi => ?_⟩)
    rcases sliceDist_ok.1 (hall f hfm) with h' | ⟨k2, s2, h', -⟩ | ⟨x2, h', h2⟩
    · rw [ht] at h'; cases h'
    · rw [ht] at h'; cases h'
    · rw [ht] at h'; cases h'; exact h2 i hi

/-- **C139.** `ImportanceWeightEstimator` rejects an evaluation policy of another shape, or one that does not sum to
one, with ValueError. -/
theorem C139_iwe_dist (g : RegLog K n A L d e) (hn : 0 < n) (method : IweMethod) {t : Arg3 K}
    (ht : ¬ ∃ v, t = .arr ⟨n, A, L, v⟩ ∧ ∀ i p, |∑ a, v i a p - 1| ≤ 1 / 10 ^ 8 + 1 / 10 ^ 5)
    (clf : Classifier M K) (draws : ℕ → ℕ → List K) (nFolds : PyScalar K) (folds : ∀ n, Folds n) (ms : Fin L → M) :
    (g.iweConfig method).fitPredict clf draws g.args.context g.args.action g.args.position t nFolds folds ms =
      .error .valueError := by
  unfold IweConfig.fitPredict
  have hp : (g.iweConfig method).prepare g.args.context g.args.action g.args.position t = .error .valueError := by
    unfold IweConfig.prepare
    have h1 := g.clf_check_ok hn g.table
    simp only [RegLog.args, Arg1.ints, py_bind_ok, List.length_ofFn] at h1 ⊢
    rw [h1]
    simp only [py_bind_ok, checkArray2]
    rw [RegLog.positions_ok hn, py_bind_ok]
    by_cases hs : t.HasShape n A L
    · obtain ⟨v, hv⟩ := hs
      rw [show checkDistShape n (g.iweConfig method).nActions (g.iweConfig method).lenList t = .ok v from
        checkDistShape_ok.2 hv, py_bind_ok, raiseIf_pos]
      · rfl
      · simp only [decide_eq_true_eq, decide_eq_false_iff_not]
        intro hall
        exact ht ⟨v, hv, fun i p => by simpa [closeToOne] using hall i p⟩
    · rw [show checkDistShape n (g.iweConfig method).nActions (g.iweConfig method).lenList t = .error .valueError
        from checkDistShape_error hs]
      rfl
  rw [hp]
  rfl

/-- **C139.** `PropensityScoreEstimator.fit_predict` without folds raises ValueError when some position has no rounds
(with classifiers that do not themselves raise). -/
theorem C139_propensity_no_data (g : RegLog K n A L d e) (hn : 0 < n) {p : Fin L} (hp : ∀ i, g.position i ≠ p)
    {clf : Classifier M K} (htot : ∀ m X y, ∃ m', clf.fit m X y = .ok m') (folds : ∀ n, Folds n) (ms : Fin L → M) :
    propensityFitPredict clf A L g.args.context g.args.action g.args.position (.int 1) folds ms =
      .error .valueError := by
  unfold propensityFitPredict
  rw [g.preparePropensity_ok hn, py_bind_ok, show checkIntMin (K := K) 1 (.int 1) = .ok 1 from rfl, py_bind_ok]
  dsimp only
  rw [if_pos rfl]
  have hl : List.ofFn (g.clfRow fun _ _ _ => 0) = (List.finRange n).map (g.clfRow fun _ _ _ => 0) :=
    List.ofFn_eq_map
  have hfit : propensityFitRows clf (List.ofFn (g.clfRow fun _ _ _ => 0)) ms = .error .valueError := by
    rw [hl]
    unfold propensityFitRows
    rw [raiseIf_neg (by simpa using hn.ne'), py_bind_ok]
    have hnil : g.roundsAt (List.finRange n) p = [] := by
      unfold RegLog.roundsAt
      rw [List.filter_eq_nil_iff]
      intro i _
      simpa using hp i
    refine foldlM_update_error (fun p m => propensityFitPosition clf
      ((List.finRange n).map (g.clfRow fun _ _ _ => 0)) p m) _ (List.nodup_finRange L) ms (err := .valueError)
      ?_ (List.mem_finRange p) ?_
    · intro q _ err' h
      unfold propensityFitPosition at h
      dsimp only at h
      by_cases hq : (decide ((((List.finRange n).map (g.clfRow fun _ _ _ => (0 : K))).filter
          fun r => r.position = (q.val : ℤ)).length = 0)) = true
      · rw [raiseIf_pos hq] at h
        exact (Except.error.inj h).symm
      · rw [raiseIf_neg (Bool.eq_false_iff.2 hq), py_bind_ok] at h
        obtain ⟨m', hm'⟩ := htot (ms q) _ _
        rw [hm'] at h
        cases h
    · unfold propensityFitPosition
      rw [g.filter_clfRows, hnil]
      rfl
  rw [hfit]
  rfl

/-- **C139.** A round whose position is none of `0, ..., len_list - 1` gets propensity 0 and importance weight 0, for
every model and every logged action, without an exception. -/
theorem C139_other_positions (clf : Classifier M K) (ac : Arr2 K) (ms : Fin L → M) (x : List K) (a pos : ℤ)
    (hpos : pos < 0 ∨ (L : ℤ) ≤ pos) :
    propensityPredict clf ms [(x, a)] (some [pos]) = .ok [0] ∧ iweRound clf ac ms x a pos = .ok 0 := by
  have hno : ¬ (0 ≤ pos ∧ pos < (L : ℤ)) := by omega
  constructor
  · show ([((x, a), pos)].mapM fun q => propensityRound clf ms q.1.1 q.1.2 q.2) = _
    simp only [List.mapM_cons, List.mapM_nil, propensityRound, dif_neg hno]
    rfl
  · simp only [iweRound, dif_neg hno]
    show npDiv (0 : K) (1 - 0) = _
    rw [npDiv_ok (by simp)]
    simp

/-- **C139.** `IPWLearner.fit` and `QLearner.fit` for several positions need `position`. -/
theorem C139_positions_needed {g : RegLog K n A L d A} (hg : g.Valid) (hr : ∀ i, 0 ≤ g.reward i) (hL : L ≠ 1)
    (clf : WClassifier M K) (lrn : Learner M K) (method : FitMethod) (ms : Fin L → M) :
    ipwLearnerFit clf ⟨A, L⟩ { g.args with position := .none } ms = .error .valueError ∧
    qLearnerFit lrn (qConfig K A L method) { g.args with position := .none } ms = .error .valueError := by
  have hc : checkBanditFeedbackInputs { context := g.args.context, action := g.args.action, reward := g.args.reward
                                        position := .none, pscore := g.args.pscore } = .ok () := by
    have hc := RegLog.check_plain hg
    rw [C10_accept_iff] at hc ⊢
    obtain ⟨k, acts, h1, h2, h3, h4, h5, h6, h7⟩ := hc
    exact ⟨k, acts, h1, h2, h3, h4, h5, Or.inl rfl, h7⟩
  have ho : offlinePositions (K := K) L n .none = .error .valueError := by
    unfold offlinePositions
    rw [if_neg hL]
    rfl
  constructor
  · unfold ipwLearnerFit ipwLearnerPrepare
    dsimp only
    rw [hc, py_bind_ok]
    change ((raiseIf ((List.ofFn g.reward).any fun r => r < 0) .valueError >>= _) >>= _) = _
    rw [raiseIf_neg (by
      rw [Bool.eq_false_iff, ne_eq, List.any_eq_true]
      rintro ⟨r, hmem, hlt⟩
      obtain ⟨i, rfl⟩ := List.mem_ofFn.1 hmem
      exact absurd (of_decide_eq_true hlt) (not_lt.2 (hr i))), py_bind_ok]
    change ((offlinePositions (K := K) L n .none >>= _) >>= _) = _
    rw [ho]
    rfl
  · unfold qLearnerFit
    dsimp only
    rw [hc, py_bind_ok]
    change (offlinePositions (K := K) L n .none >>= _) = _
    rw [ho]
    rfl

/-- **C139.** `SlateRegressionModel.fit` accepts exactly: a two-dimensional context, non-empty integer actions in range,
rewards and cascade propensities (in `(0, 1]`) with one entry per round and position, and an evaluation policy with one
entry per round, position and action that sums to one (within the tolerance of `np.allclose`). -/
theorem C139_slate_accepts (a : SlateRegArgs K) :
    (∃ rows, prepareSlateReg L A a = .ok rows) ↔ ∃ ctx : Arr2 K, a.context = .arr ctx ∧
      a.action.IsIndexVec (ctx.n * L) A ∧ a.reward.IsVec (ctx.n * L) ∧
      (a.pscoreCascade.IsVec (ctx.n * L) ∧ ∀ p ∈ a.pscoreCascade.vals, 0 < p ∧ p ≤ 1) ∧
      (a.evalPscoreCascade.IsVec (ctx.n * L) ∧ ∀ p ∈ a.evalPscoreCascade.vals, 0 < p ∧ p ≤ 1) ∧
      a.evalDist.IsVec (ctx.n * L * A) ∧
      ∀ j < ctx.n * L, |1 - ∑ b : Fin A, a.evalDist.vals.getD (j * A + b) 0| ≤
        1 / 10 ^ 8 + 1 / 10 ^ 5 * |∑ b : Fin A, a.evalDist.vals.getD (j * A + b) 0| := by
  have hb : ∀ {p : Py Bool}, (∃ b, p = .ok b ∧ (decide (b = false)) = false) ↔ p = .ok true := by
    intro p
    constructor
    · rintro ⟨b, h, hb⟩; cases b <;> simp_all
    · intro h; exact ⟨true, h, by simp⟩
  have hps : ∀ l : List K, (l.any fun p => decide (p ≤ 0) || decide (1 < p)) = false ↔ ∀ p ∈ l, 0 < p ∧ p ≤ 1 := by
    intro l
    rw [Bool.eq_false_iff, ne_eq, List.any_eq_true]
    push Not
    refine forall_congr' fun p => imp_congr Iff.rfl ?_
    simp [not_or]
  have hcl : ∀ m : ℕ, ((List.range m).any fun j =>
      !oneCloseTo (∑ b : Fin A, a.evalDist.vals.getD (j * A + b) 0)) = false ↔
      ∀ j < m, |1 - ∑ b : Fin A, a.evalDist.vals.getD (j * A + b) 0| ≤
        1 / 10 ^ 8 + 1 / 10 ^ 5 * |∑ b : Fin A, a.evalDist.vals.getD (j * A + b) 0| := by
    intro m
    rw [Bool.eq_false_iff, ne_eq, List.any_eq_true]
    push Not
    refine forall_congr' fun j => ?_
    simp [oneCloseTo]
  obtain ⟨ctx0, act, rew, ps, eps, ed⟩ := a
  dsimp only at hcl
  simp only [prepareSlateReg, py_bind_eq_ok, exists_unit, checkArray1_ok, shape0_ok, raiseIf_ok, py_pure]
  constructor
  · rintro ⟨rows, ctx, hctx, ⟨k1, v1⟩, ⟨k2, v2⟩, ⟨k3, v3⟩, ⟨k4, v4⟩, ⟨k5, v5⟩, n1, l1, n2, l2, n3, l3, n4, l4, hl, n5,
      l5, hl5, okb, hok, hok', hp, hq, hd, acts, hacts, -⟩
    have hci : ctx0 = .arr ctx := by cases ctx0 <;> simp_all [checkArray2]
    obtain rfl := isVec_unique (isVec_leading v1) l1
    obtain rfl := isVec_unique (isVec_leading v2) l2
    obtain rfl := isVec_unique (isVec_leading v3) l3
    obtain rfl := isVec_unique (isVec_leading v4) l4
    obtain rfl := isVec_unique (isVec_leading v5) l5
    simp only [decide_eq_false_iff_not, not_not] at hl hl5
    obtain ⟨e1, e2, e3, e4⟩ := hl
    have hin := intInRange_ok_true.1 (hb.1 ⟨okb, hok, hok'⟩)
    obtain ⟨xs, rfl, hne, hr⟩ := hin
    refine ⟨ctx, hci, ⟨xs, rfl, ?_, hne, hr⟩, ?_, ⟨?_, (hps _).1 hp⟩, ⟨?_, (hps _).1 hq⟩, ?_, (hcl _).1 hd⟩
    · have := isVec_unique (isVec_leading v1) (isVec_leading (Or.inl ⟨xs, rfl, rfl⟩))
      omega
    · rw [← e4, ← e3, ← e2]; exact v2
    · rw [← e4, ← e3]; exact v3
    · rw [← e4]; exact v4
    · rw [← hl5]; exact v5
  · rintro ⟨ctx, rfl, ⟨xs, rfl, hlen, hne, hr⟩, hrew, ⟨hpv, hp⟩, ⟨hqv, hq⟩, hdv, hd⟩
    refine ⟨_, ctx, rfl, ⟨_, Or.inl ⟨xs, rfl, hlen⟩⟩, ⟨_, hrew⟩, ⟨_, hpv⟩, ⟨_, hqv⟩, ⟨_, hdv⟩, _,
      isVec_leading (Or.inl ⟨xs, rfl, hlen⟩), _, isVec_leading hrew, _, isVec_leading hpv, _, isVec_leading hqv,
      by simp, _, isVec_leading hdv, by simp, true, intInRange_ok_true.2 ⟨xs, rfl, hne, hr⟩, by simp,
      (hps _).2 hp, (hps _).2 hq, (hcl _).2 hd, xs, rfl, rfl⟩

/-- A policy that is missing for the log of four rounds, and one of another shape. -/
example : exQLog.Valid ∧ ¬ (Arg3.none : Arg3 ℚ).HasShape 4 2 2 ∧
    ¬ (Arg3.arr ⟨4, 2, 1, fun _ _ _ => 1 / 2⟩ : Arg3 ℚ).HasShape 4 2 2 := by
  refine ⟨⟨by decide, by decide +kernel⟩, ?_, ?_⟩
  · rintro ⟨v, hv⟩; cases hv
  · rintro ⟨v, hv⟩
    injection hv with hv
    injection hv with _ _ h
    omega

/-- A log in which the second of two positions does not occur. -/
example : ∀ i, ({ exQLog with position := fun _ => 0 } : RegLog ℚ 4 2 2 1 2).position i ≠ 1 := by decide

/-- One slate with two positions and two actions is accepted, one whose policy does not sum to one is not. -/
example : (∃ rows, prepareSlateReg (K := ℚ) 2 2 ⟨.arr ⟨1, 1, fun _ _ => 0⟩, .int [0, 1], .int [1, 0],
      .flt [1 / 2, 1 / 4], .flt [1, 1], .flt [1 / 2, 1 / 2, 0, 1]⟩ = .ok rows) ∧
    ¬ ∃ rows, prepareSlateReg (K := ℚ) 2 2 ⟨.arr ⟨1, 1, fun _ _ => 0⟩, .int [0, 1], .int [1, 0],
      .flt [1 / 2, 1 / 4], .flt [1, 1], .flt [1 / 2, 1 / 2, 0, 1 / 2]⟩ = .ok rows := by
  constructor
  · rw [C139_slate_accepts]
    refine ⟨_, rfl, ⟨_, rfl, rfl, by simp, by decide⟩, Or.inl ⟨_, rfl, rfl⟩, ⟨Or.inr ⟨_, rfl, rfl⟩, by decide +kernel⟩,
      ⟨Or.inr ⟨_, rfl, rfl⟩, by decide +kernel⟩, Or.inr ⟨_, rfl, rfl⟩, by decide +kernel⟩
  · rintro ⟨rows, h⟩
    obtain ⟨ctx, hc, -, -, -, -, -, h⟩ := (C139_slate_accepts _).1 ⟨rows, h⟩
    injection hc with hc
    subst hc
    have := h 1 (by decide)
    revert this
    decide +kernel

end Obp
