import Verif.Lemmas.Offline
import Verif.Props.Regression
import Verif.Props.EstimatorValues
import Verif.Props.Utils

/-!
# C70, C71, C74, C100, C101: the offline policy learners

Arrays are passed with their documented shapes; classifiers, regressors, networks, noise and the resolution
of ties by `np.argsort` are arbitrary.
-/

set_option linter.unusedSectionVars false

namespace Obp

variable {K : Type} [Field K] [LinearOrder K] [IsStrictOrderedRing K] {M : Type} {A L n d : ℕ}

/-! ### C70 -/

/-- **C70.** `IPWLearner.predict` puts all mass on the action predicted by the classifier of the position,
for every round and position. -/
theorem C70_ipw (clf : WClassifier M K) (ms : Fin L → M) (c : Fin n → Fin d → K) (label : Fin n → Fin L → Fin A)
    (hlab : ∀ i p, clf.predict (ms p) (List.ofFn (c i)) = ((label i p : ℕ) : ℤ)) :
    ipwPredict clf ⟨A, L⟩ ms (.arr ⟨n, d, c⟩) = .ok (List.ofFn fun i a p => pointMass (label i p) a) := by
  unfold ipwPredict
  rw [checkArray2_arr', py_bind_ok]
  refine mapM_ofFn_ok fun i => ?_
  rw [cols_mapM (g := fun p (a : Fin A) => if a = label i p then (0 : K) + 1 else 0) fun p => by
    unfold ipwPredictEntry
    rw [show clf.predict (ms p) (List.ofFn (({ n := n, d := d, val := c } : Arr2 K).val i)) = _ from hlab i p,
      wrapIdx_natCast]]
  rw [py_bind_ok]
  change Except.ok _ = _
  congr 1
  funext a p
  rw [getD_ofFn']
  simp [pointMass]

/-- **C70.** A label outside of `0..n_actions-1` (an action that is logged but not declared) is not
silently dropped: prediction raises IndexError. -/
theorem C70_ipw_label_range (clf : WClassifier M K) (ms : Fin L → M) (c : Fin n → Fin d → K)
    {i : Fin n} {p : Fin L} (hlab : (A : ℤ) ≤ clf.predict (ms p) (List.ofFn (c i))) :
    ipwPredict clf ⟨A, L⟩ ms (.arr ⟨n, d, c⟩) = .error .indexError := by
  have hentry : ∀ m x, (∃ y, ipwPredictEntry clf A m x = .ok y) ∨
      ipwPredictEntry clf A m x = .error .indexError := by
    intro m x
    unfold ipwPredictEntry
    cases wrapIdx A (clf.predict m x) with
    | none => exact Or.inr rfl
    | some b => exact Or.inl ⟨_, rfl⟩
  have hcols : ∀ x, (∃ ys, (List.finRange L).mapM (fun p => ipwPredictEntry clf A (ms p) x) = .ok ys) ∨
      (List.finRange L).mapM (fun p => ipwPredictEntry clf A (ms p) x) = .error .indexError := by
    intro x
    by_cases h : ∃ p ∈ List.finRange L, ipwPredictEntry clf A (ms p) x = .error .indexError
    · exact Or.inr (mapM_error_of (fun p _ => hentry (ms p) x) h)
    · left
      have : ∀ p, ∃ y, ipwPredictEntry clf A (ms p) x = .ok y := fun p =>
        (hentry (ms p) x).resolve_right fun hp => h ⟨p, List.mem_finRange p, hp⟩
      choose y hy using this
      exact ⟨_, cols_mapM hy⟩
  unfold ipwPredict
  rw [checkArray2_arr', py_bind_ok]
  refine mapM_error_of (fun x _ => ?_) ⟨List.ofFn (c i), by simp, ?_⟩
  · rcases hcols x with ⟨ys, hys⟩ | hx
    · left; rw [hys]; exact ⟨_, rfl⟩
    · right; rw [hx]; rfl
  · rw [mapM_error_of (e := .indexError) (fun p _ => hentry (ms p) _) ⟨p, List.mem_finRange p, ?_⟩]
    · rfl
    · unfold ipwPredictEntry
      have : wrapIdx A (clf.predict (ms p) (List.ofFn (c i))) = none := by
        unfold wrapIdx
        rw [dif_neg (by omega), dif_neg (by omega)]
      rw [this]

/-- **C70.** `QLearner.predict` puts all mass on the first action of highest predicted reward, for every
round and position; the temperature plays no part. -/
theorem C70_q [NeZero A] (lrn : Learner M K) (method : FitMethod) (ms : Fin L → M) (c : Fin n → Fin d → K)
    {tau : K} (ht : 0 ≤ tau) :
    ∃ best : Fin n → Fin L → Fin A, (∀ i p, IsFirstBest (qValue lrn c i (ms p)) (best i p)) ∧
      qLearnerPredict lrn (qConfig K A L method) ms (.arr ⟨n, d, c⟩) (.flt tau) =
        .ok (List.ofFn fun i a p => pointMass (best i p) a) := by
  choose b hb using fun i => argmaxRow_eq (A := A) fun a p => qValue lrn c i (ms p) a
  refine ⟨b, fun i p => (hb i).1 p, ?_⟩
  unfold qLearnerPredict
  rw [checkArray2_arr', py_bind_ok, checkTau_pos ht, py_bind_ok, qLearnerScore_ok, py_bind_ok]
  exact mapM_ofFn_ok fun i => (hb i).2

/-- **C70.** `NNPolicyLearner.predict` puts all mass on the first action of highest probability. -/
theorem C70_nn [NeZero A] (net : List K → Fin A → K) (c : Fin n → Fin d → K) :
    ∃ best : Fin n → Fin A, (∀ i, IsFirstBest (net (List.ofFn (c i))) (best i)) ∧
      nnPredict d net (.arr ⟨n, d, c⟩) = .ok (List.ofFn fun i a _ => pointMass (best i) a) := by
  choose b hb using fun i => argmaxRow_eq (A := A) (L := 1) fun a _ => net (List.ofFn (c i)) a
  refine ⟨fun i => b i 0, fun i => (hb i).1 0, ?_⟩
  unfold nnPredict
  rw [nnPredictProba_ok, py_bind_ok]
  rw [mapM_ofFn_ok fun i => (hb i).2]
  congr 2
  funext i a p
  rw [Fin.fin_one_eq_zero p]

/-- **C70.** Point masses are distributions. -/
theorem C70_one_hot (b : Fin A) : (∀ a, 0 ≤ pointMass (K := K) b a) ∧ ∑ a, pointMass (K := K) b a = 1 := by
  refine ⟨fun a => ?_, by simp [pointMass]⟩
  unfold pointMass
  split <;> simp

/-- Ties go to the first action; a later better action wins. -/
example : IsFirstBest (A := 4) ![(1 : ℚ), 3, 3, 2] 1 := ⟨by decide +kernel, by decide +kernel⟩

/-- A classifier whose state shifts its predictions. -/
def exShiftClassifier : WClassifier ℤ ℚ where
  fit m _ _ _ := .ok m
  predict m x := m + x.length
  proba _ _ := []

/-- Two rounds, three actions and two positions. -/
example : ipwPredict exShiftClassifier ⟨3, 2⟩ ![0, 1] (.arr ⟨2, 1, fun _ _ => 5⟩) =
    .ok (List.ofFn fun (_ : Fin 2) a p => pointMass (![1, 2] p) a) :=
  C70_ipw _ _ _ (fun _ p => ![1, 2] p) (by decide +kernel)

/-! ### C71 -/

/-- **C71.** `IPWLearner.sample_action` returns, for all scores, positive temperatures and noise, a ranking
without repetition by descending perturbed score. -/
theorem C71_ipw {argsort : List K → List ℕ} (hs : IsArgsort argsort) (clf : WClassifier M K) (hL : 0 < L)
    (hLA : L ≤ A) (ms : Fin L → M) (c : Fin n → Fin d → K)
    (h : ∀ i p, (clf.proba (ms p) (List.ofFn (c i))).length = A) {tau : K} (ht : 0 < tau)
    (noise : ℕ → Fin A → K) :
    ∃ out : Fin n → Fin A → Fin L → K,
      ipwSampleAction clf ⟨A, L⟩ ms (.arr ⟨n, d, c⟩) (.flt tau) argsort noise = .ok (List.ofFn out) ∧
      ∀ i, IsSampledRanking (utility (fun a p => (clf.proba (ms p) (List.ofFn (c i))).getD a 0) tau (noise i))
        (out i) := by
  obtain ⟨out, h1, h2⟩ := sampleRankings_ok hL hs hLA ht (fun i (a : Fin A) p =>
    (clf.proba (ms p) (List.ofFn (c i)))[a.val]'(by rw [h]; exact a.isLt)) noise
  refine ⟨out, ?_, fun i => ?_⟩
  · unfold ipwSampleAction
    rw [checkArray2_arr', py_bind_ok, checkTau_pos ht.le, py_bind_ok, ipwScore_ok clf ms c h, py_bind_ok]
    exact h1
  · have e : (fun (a : Fin A) p => (clf.proba (ms p) (List.ofFn (c i))).getD a 0) = fun a p =>
        (clf.proba (ms p) (List.ofFn (c i)))[a.val]'(by rw [h]; exact a.isLt) := by
      funext a p
      have := a.isLt
      simp [List.getD_eq_getElem?_getD, h]
    rw [e]
    exact h2 i

/-- **C71.** The same for `QLearner.sample_action`. -/
theorem C71_q {argsort : List K → List ℕ} (hs : IsArgsort argsort) (lrn : Learner M K) (method : FitMethod)
    (hL : 0 < L) (hLA : L ≤ A) (ms : Fin L → M) (c : Fin n → Fin d → K) {tau : K} (ht : 0 < tau)
    (noise : ℕ → Fin A → K) :
    ∃ out : Fin n → Fin A → Fin L → K,
      qLearnerSampleAction lrn (qConfig K A L method) ms (.arr ⟨n, d, c⟩) (.flt tau) argsort noise =
        .ok (List.ofFn out) ∧
      ∀ i, IsSampledRanking (utility (fun a p => qValue lrn c i (ms p) a) tau (noise i)) (out i) := by
  obtain ⟨out, h1, h2⟩ := sampleRankings_ok hL hs hLA ht (fun i (a : Fin A) p => qValue lrn c i (ms p) a) noise
  refine ⟨out, ?_, h2⟩
  unfold qLearnerSampleAction
  rw [checkArray2_arr', py_bind_ok, checkTau_pos ht.le, py_bind_ok, qLearnerScore_ok, py_bind_ok]
  exact h1

/-- **C71.** The same for `NNPolicyLearner.sample_action`. -/
theorem C71_nn {argsort : List K → List ℕ} (hs : IsArgsort argsort) (net : List K → Fin A → K)
    (hLA : L ≤ A) (c : Fin n → Fin d → K) {tau : K} (ht : 0 < tau) (noise : ℕ → Fin A → K) :
    ∃ out : Fin n → Fin A → Fin L → K,
      nnSampleAction d L net (.arr ⟨n, d, c⟩) (.flt tau) argsort noise = .ok (List.ofFn out) ∧
      ∀ i, IsSampledRanking (fun a => net (List.ofFn (c i)) a / tau + noise i a) (out i) := by
  obtain ⟨out, h1, h2⟩ := sampleRankings_ok (L' := 1) one_pos hs hLA ht
    (fun i (a : Fin A) _ => net (List.ofFn (c i)) a) noise
  refine ⟨out, ?_, fun i => ?_⟩
  · unfold nnSampleAction
    rw [checkArray2_arr', py_bind_ok, checkTau_pos ht.le, py_bind_ok, nnPredictProba_ok, py_bind_ok]
    exact h1
  · have := h2 i
    unfold utility at this
    simpa using this

/-- **C71.** A classifier that has not seen all actions cannot rank them: unless it knows exactly one class,
`sample_action` raises ValueError. -/
theorem C71_ipw_missing_class (argsort : List K → List ℕ) (clf : WClassifier M K) (hL : 0 < L)
    (ms : Fin L → M) (c : Fin n → Fin d → K) (hn : 0 < n) {k : ℕ} (hk : k ≠ A) (hk1 : k ≠ 1)
    (h : ∀ i p, (clf.proba (ms p) (List.ofFn (c i))).length = k) {tau : K} (ht : 0 < tau)
    (noise : ℕ → Fin A → K) :
    ipwSampleAction clf ⟨A, L⟩ ms (.arr ⟨n, d, c⟩) (.flt tau) argsort noise = .error .valueError := by
  unfold ipwSampleAction
  rw [checkArray2_arr', py_bind_ok, checkTau_pos ht.le, py_bind_ok]
  have hs : ipwScore clf ⟨A, L⟩ ms (.arr ⟨n, d, c⟩) = .error .valueError := by
    have hrow : ∀ i, (List.finRange L).mapM (fun p => ipwScoreEntry clf A (ms p) (List.ofFn (c i))) =
        .error .valueError := fun i => by
      have he : ∀ p, ipwScoreEntry clf A (ms p) (List.ofFn (c i)) = .error .valueError := fun p => by
        unfold ipwScoreEntry
        simp only [h, if_neg hk, if_neg hk1]
      exact mapM_error_of (fun p _ => Or.inr (he p)) ⟨⟨0, hL⟩, List.mem_finRange _, he _⟩
    unfold ipwScore
    rw [checkArray2_arr', py_bind_ok]
    refine mapM_error_of (fun x hx => Or.inr ?_) ⟨List.ofFn (c ⟨0, hn⟩), by simp, ?_⟩
    · obtain ⟨i, rfl⟩ := List.mem_ofFn.1 hx
      change (List.mapM (fun p => ipwScoreEntry clf A (ms p) (List.ofFn (c i))) _ >>= _) = _
      rw [hrow i]; rfl
    · change (List.mapM (fun p => ipwScoreEntry clf A (ms p) (List.ofFn (c ⟨0, hn⟩))) _ >>= _) = _
      rw [hrow]; rfl
  rw [hs]; rfl

/-- **C71.** Classifiers that have seen a single class give all actions the same score: `predict_score` repeats the one column they return for every
action, and the sampled ranking is by the noise alone. -/
theorem C71_ipw_single_class {argsort : List K → List ℕ} (hs : IsArgsort argsort) (clf : WClassifier M K) (hL : 0 < L)
    (hLA : L ≤ A) (ms : Fin L → M) (c : Fin n → Fin d → K) (q : Fin n → Fin L → K)
    (h : ∀ i p, clf.proba (ms p) (List.ofFn (c i)) = [q i p]) {tau : K} (ht : 0 < tau)
    (noise : ℕ → Fin A → K) :
    ipwScore clf ⟨A, L⟩ ms (.arr ⟨n, d, c⟩) = .ok (List.ofFn fun i _ p => q i p) ∧
    ∃ out : Fin n → Fin A → Fin L → K,
      ipwSampleAction clf ⟨A, L⟩ ms (.arr ⟨n, d, c⟩) (.flt tau) argsort noise = .ok (List.ofFn out) ∧
      ∀ i : Fin n, IsSampledRanking (noise i) (out i) := by
  have hsc : ipwScore clf ⟨A, L⟩ ms (.arr ⟨n, d, c⟩) = .ok (List.ofFn fun i (_ : Fin A) p => q i p) := by
    unfold ipwScore
    rw [checkArray2_arr', py_bind_ok]
    refine mapM_ofFn_ok fun i => ?_
    rw [cols_mapM (g := fun p (_ : Fin A) => q i p) fun p => by
      unfold ipwScoreEntry
      rw [h i p]
      by_cases hA : A = 1
      · subst hA
        rw [if_pos (by simp)]
        congr 1
        funext a
        have : a = (0 : Fin 1) := Subsingleton.elim (α := Fin 1) _ _
        rw [this]
        rfl
      · rw [if_neg (by simp; omega), if_pos (by simp)]
        rfl]
    rw [py_bind_ok]
    change Except.ok _ = _
    congr 1
    funext a p
    rw [getD_ofFn']
  obtain ⟨out, h1, h2⟩ := sampleRankings_ok hL hs hLA ht (fun i (_ : Fin A) p => q i p) noise
  refine ⟨hsc, out, ?_, fun i => ?_⟩
  · unfold ipwSampleAction
    rw [checkArray2_arr', py_bind_ok, checkTau_pos ht.le, py_bind_ok, hsc, py_bind_ok]
    exact h1
  · obtain ⟨r, r1, r2, r3, r4⟩ := h2 i
    exact ⟨r, r1, r2, fun p p' hp => le_of_add_le_add_left (r3 p p' hp), fun a ha p => le_of_add_le_add_left (r4 a ha p)⟩

/-- Three actions, two positions: with perturbed scores 1, 3, 2 the ranking is (1, 2). -/
example : IsSampledRanking (A := 3) (L := 2) ![(1 : ℚ), 3, 2] (fun a p => pointMass (![1, 2] p) a) :=
  ⟨![1, 2], by decide +kernel, fun _ _ => rfl, by decide +kernel, by decide +kernel⟩

/-! ### C74 -/

/-- The data with the constant "evaluation policy" and the one-hot action features that `QLearner` uses. -/
def RegLog.forQLearner (g : RegLog K n A L d A) : RegLog K n A L d A :=
  { g with piE := fun _ _ _ => 1, table := fun i j => if i = j then 1 else 0 }

theorem RegLog.check_plain {e : ℕ} {g : RegLog K n A L d e} (hg : g.Valid) :
    checkBanditFeedbackInputs { context := g.args.context, action := g.args.action, reward := g.args.reward
                                position := g.args.position, pscore := g.args.pscore } = .ok () := by
  have hc := RegLog.check_ok hg .normal
  rw [C10_accept_iff] at hc ⊢
  obtain ⟨k, acts, h1, h2, h3, h4, h5, h6, -⟩ := hc
  exact ⟨k, acts, h1, h2, h3, h4, h5, h6, Or.inl rfl⟩

theorem offlinePositions_ok (pos : Fin n → Fin L) :
    offlinePositions (K := K) L n (.int (List.ofFn fun i => ((pos i : ℕ) : ℤ))) =
      .ok (List.ofFn fun i => ((pos i : ℕ) : ℤ)) := by
  unfold offlinePositions
  by_cases hL : L = 1
  · subst hL
    rw [if_pos rfl]
    congr 1
    refine List.ext_getElem (by simp) fun i h1 h2 => ?_
    simp
  · rw [if_neg hL]; rfl

theorem qLearnerFit_eq {g : RegLog K n A L d A} (hg : g.Valid) (method : FitMethod) (lrn : Learner M K)
    (ms : Fin L → M) :
    qLearnerFit lrn (qConfig K A L method) g.args ms =
      (g.forQLearner.config method).fit lrn g.forQLearner.args ms := by
  unfold qLearnerFit
  rw [RegLog.check_plain hg, py_bind_ok]
  change (offlinePositions L n _ >>= _) = _
  rw [show g.args.position = .int (List.ofFn fun i => ((g.position i : ℕ) : ℤ)) from rfl, offlinePositions_ok]
  rfl

/-- **C74.** `QLearner.fit` with `fitting_method` "iw" or "mrdr" fails on every input whatsoever. -/
theorem C74_weighted_never_fits (hA : 2 ≤ A) {method : FitMethod} (hm : method ≠ .normal) (lrn : Learner M K)
    (hL : 0 < L) (a : RegArgs K) (ms ms' : Fin L → M) : qLearnerFit lrn (qConfig K A L method) a ms ≠ .ok ms' := by
  intro h
  unfold qLearnerFit at h
  obtain ⟨_, _, h⟩ := py_bind_eq_ok.1 h
  obtain ⟨ctx, hctx, h⟩ := py_bind_eq_ok.1 h
  obtain ⟨acts, _, h⟩ := py_bind_eq_ok.1 h
  obtain ⟨ps, _, h⟩ := py_bind_eq_ok.1 h
  obtain ⟨pos, _, h⟩ := py_bind_eq_ok.1 h
  unfold RegConfig.fit at h
  obtain ⟨data, hdata, h⟩ := py_bind_eq_ok.1 h
  have hrow : ∀ i, (data.get i).dist = some fun _ _ => 1 := by
    unfold RegConfig.prepare at hdata
    obtain ⟨_, _, hdata⟩ := py_bind_eq_ok.1 hdata
    obtain ⟨ctx', hctx', hdata⟩ := py_bind_eq_ok.1 hdata
    obtain rfl : ctx' = ctx := by
      rw [show checkArray2 a.context = .ok ctx from hctx] at hctx'
      exact (Except.ok.inj hctx').symm
    obtain ⟨_, _, hdata⟩ := py_bind_eq_ok.1 hdata
    obtain ⟨_, _, hdata⟩ := py_bind_eq_ok.1 hdata
    dsimp only at hdata
    rw [if_neg hm] at hdata
    obtain ⟨v, hv, hdata⟩ := py_bind_eq_ok.1 hdata
    have hd : v = fun _ _ _ => 1 := by
      have : checkDistShape (K := K) ctx'.n A L (.arr ⟨ctx'.n, A, L, fun _ _ _ => 1⟩) = .ok fun _ _ _ => 1 := by
        unfold checkDistShape Arr3.view
        simp
      rw [this] at hv
      exact (Except.ok.inj hv).symm
    obtain rfl := Except.ok.inj hdata
    intro i
    simp only [hd]
    rfl
  unfold RegConfig.fitRows at h
  obtain ⟨_, h0, h⟩ := py_bind_eq_ok.1 h
  obtain ⟨_, h1, -⟩ := py_bind_eq_ok.1 h
  have hne : data.n ≠ 0 := by
    intro hz
    rw [raiseIf_pos (by simpa using hz)] at h0
    cases h0
  have hsum : distRowsSumToOne (List.ofFn data.get) = false := by
    unfold distRowsSumToOne
    rw [List.all_eq_false]
    refine ⟨data.get ⟨0, Nat.pos_of_ne_zero hne⟩, List.mem_ofFn.2 ⟨_, rfl⟩, ?_⟩
    rw [hrow]
    simp only [Finset.sum_const, Finset.card_univ, Fintype.card_fin, nsmul_eq_mul, mul_one, decide_eq_true_eq,
      not_forall]
    refine ⟨⟨0, hL⟩, ?_⟩
    unfold closeToOne
    rw [decide_eq_true_eq, not_le]
    have hA' : (2 : K) ≤ (A : K) := by exact_mod_cast hA
    have : (1 : K) ≤ |(A : K) - 1| := by
      rw [le_abs]; left; linarith
    refine lt_of_lt_of_le ?_ this
    norm_num
  rw [raiseIf_pos (by simp [hsum, hm])] at h1
  cases h1

/-- **C74.** The exception is a ValueError on all well-formed data. -/
theorem C74_weighted_error {g : RegLog K n A L d A} (hg : g.Valid) (hA : 2 ≤ A) (hL : 0 < L)
    {method : FitMethod} (hm : method ≠ .normal) (lrn : Learner M K) (ms : Fin L → M) :
    qLearnerFit lrn (qConfig K A L method) g.args ms = .error .valueError := by
  rw [qLearnerFit_eq hg]
  refine C91_bad_dist (g := g.forQLearner) ⟨hg.rounds, hg.pscore⟩ hm ?_ lrn ms
  intro h
  have := h ⟨0, hg.rounds⟩ ⟨0, hL⟩
  simp only [RegLog.forQLearner, Finset.sum_const, Finset.card_univ, Fintype.card_fin, nsmul_eq_mul,
    mul_one] at this
  have hA' : (2 : K) ≤ (A : K) := by exact_mod_cast hA
  have h1 : (1 : K) ≤ |(A : K) - 1| := by
    rw [le_abs]; left; linarith
  have := h1.trans this
  norm_num at this

/-- **C74.** What does work: with the fitting method "normal" every position's model is fitted on exactly the
rounds of that position, by contexts with the one-hot code of the action. Missing for the full property:
"iw" and "mrdr", which fail. -/
theorem C74_normal_partial {g : RegLog K n A L d A} (hg : g.Valid) (hpos : ∀ p, ∃ i, g.position i = p)
    (lrn : Learner M K) (ms ms' : Fin L → M) :
    qLearnerFit lrn (qConfig K A L .normal) g.args ms = .ok ms' ↔
      ∀ p, lrn.fit (ms p)
        ((g.roundsAt (List.finRange n) p).map fun i =>
          List.ofFn (g.context i) ++ List.ofFn fun b => if g.action i = b then (1 : K) else 0)
        ((g.roundsAt (List.finRange n) p).map g.reward) none = .ok (ms' p) := by
  rw [qLearnerFit_eq hg, C91_fit (g := g.forQLearner) ⟨hg.rounds, hg.pscore⟩ (fun h => absurd rfl h) hpos]
  rfl

/-- **C74.** The documented default `base_model=None` is rejected by the constructor. -/
theorem C74_default_base_model (nActions lenList : PyScalar K) (method : String) (cfg : RegConfig K) :
    mkQLearner nActions lenList method false ≠ .ok cfg := by
  intro h
  unfold mkQLearner at h
  obtain ⟨_, _, h⟩ := py_bind_eq_ok.1 h
  unfold mkRegression at h
  obtain ⟨_, _, h⟩ := py_bind_eq_ok.1 h
  obtain ⟨_, _, h⟩ := py_bind_eq_ok.1 h
  obtain ⟨_, _, h⟩ := py_bind_eq_ok.1 h
  cases h

/-- A `QLearner` with a base model is constructed. -/
example : ∃ cfg, mkQLearner (K := ℚ) (.int 3) (.int 2) "iw" true = .ok cfg := ⟨_, rfl⟩

/-- Four rounds at two positions with two actions. -/
def exQLog : RegLog ℚ 4 2 2 1 2 where
  context := fun i _ => i
  action := ![0, 1, 1, 0]
  reward := ![1, 0, 1, 1]
  pscore := fun _ => 1 / 2
  position := ![0, 0, 1, 1]
  piE := fun _ _ _ => 1 / 2
  table := fun _ _ => 0

example : exQLog.Valid ∧ ∀ p, ∃ i, exQLog.position i = p := ⟨⟨by decide, by decide +kernel⟩, by decide⟩

example (lrn : Learner M ℚ) (ms : Fin 2 → M) :
    qLearnerFit lrn (qConfig ℚ 2 2 .iw) exQLog.args ms = .error .valueError :=
  C74_weighted_error ⟨by decide, by decide +kernel⟩ (by decide) (by decide) (by decide) lrn ms

/-! ### C100 -/

theorem ipwLearnerPrepare_ok {e : ℕ} {g : RegLog K n A L d e} (hg : g.Valid) (hr : ∀ i, 0 ≤ g.reward i) :
    ipwLearnerPrepare ⟨A, L⟩ g.args = .ok ⟨n, fun i =>
      { x := List.ofFn (g.context i), action := ((g.action i : ℕ) : ℤ), reward := g.reward i
        pscore := g.pscore i, position := ((g.position i : ℕ) : ℤ) }⟩ := by
  unfold ipwLearnerPrepare
  rw [RegLog.check_plain hg, py_bind_ok]
  change (raiseIf ((List.ofFn g.reward).any fun r => r < 0) .valueError >>= _) = _
  rw [raiseIf_neg (by
    rw [Bool.eq_false_iff, ne_eq, List.any_eq_true]
    rintro ⟨r, hmem, hlt⟩
    obtain ⟨i, rfl⟩ := List.mem_ofFn.1 hmem
    exact absurd (of_decide_eq_true hlt) (not_lt.2 (hr i))), py_bind_ok]
  change (offlinePositions L n (.int (List.ofFn fun i => ((g.position i : ℕ) : ℤ))) >>= _) = _
  rw [offlinePositions_ok, py_bind_ok]
  simp only [RegLog.args, Arg1.vals, getD_ofFn', py_pure]

theorem ipwLearnerFitPosition_eq {e : ℕ} {g : RegLog K n A L d e} (hg : g.Valid) (clf : WClassifier M K)
    {p : Fin L} (hp : ∃ i, g.position i = p) (m : M) :
    ipwLearnerFitPosition clf (List.ofFn fun i : Fin n => (
      { x := List.ofFn (g.context i), action := ((g.action i : ℕ) : ℤ), reward := g.reward i
        pscore := g.pscore i, position := ((g.position i : ℕ) : ℤ) } : IpwRow K)) p.val m =
      clf.fit m ((g.roundsAt (List.finRange n) p).map fun i => List.ofFn (g.context i))
        ((g.roundsAt (List.finRange n) p).map fun i => ((g.action i : ℕ) : ℤ))
        ((g.roundsAt (List.finRange n) p).map fun i => g.reward i / g.pscore i) := by
  unfold ipwLearnerFitPosition
  have hf : (List.ofFn fun i : Fin n => (
      { x := List.ofFn (g.context i), action := ((g.action i : ℕ) : ℤ), reward := g.reward i
        pscore := g.pscore i, position := ((g.position i : ℕ) : ℤ) } : IpwRow K)).filter
        (fun r => r.position = (p.val : ℤ)) = (g.roundsAt (List.finRange n) p).map fun i =>
      { x := List.ofFn (g.context i), action := ((g.action i : ℕ) : ℤ), reward := g.reward i
        pscore := g.pscore i, position := ((g.position i : ℕ) : ℤ) } := by
    rw [List.ofFn_eq_map, List.filter_map]
    congr 1
    unfold RegLog.roundsAt
    refine List.filter_congr fun i _ => ?_
    simp [Fin.ext_iff]
  rw [hf]
  dsimp only
  rw [List.mapM_map]
  simp only [Function.comp_def]
  rw [mapM_map_ok (g := fun i => g.reward i / g.pscore i) fun i _ => npDiv_ok (hg.pscore i).ne', py_bind_ok]
  rw [raiseIf_neg, py_bind_ok, List.map_map, List.map_map]
  · rfl
  · obtain ⟨i, hi⟩ := hp
    rw [decide_eq_false_iff_not, List.length_eq_zero_iff, List.map_eq_nil_iff]
    refine List.ne_nil_of_mem (a := i) ?_
    simp [RegLog.roundsAt, hi]

/-- **C100.** `IPWLearner.fit` trains one classifier per position on exactly the rounds of that position, to
predict the logged action from the context with sample weight reward over propensity. -/
theorem C100_ipw_fit {e : ℕ} {g : RegLog K n A L d e} (hg : g.Valid) (hr : ∀ i, 0 ≤ g.reward i)
    (hpos : ∀ p, ∃ i, g.position i = p) (clf : WClassifier M K) (ms ms' : Fin L → M) :
    ipwLearnerFit clf ⟨A, L⟩ g.args ms = .ok ms' ↔
      ∀ p, clf.fit (ms p) ((g.roundsAt (List.finRange n) p).map fun i => List.ofFn (g.context i))
        ((g.roundsAt (List.finRange n) p).map fun i => ((g.action i : ℕ) : ℤ))
        ((g.roundsAt (List.finRange n) p).map fun i => g.reward i / g.pscore i) = .ok (ms' p) := by
  unfold ipwLearnerFit
  rw [ipwLearnerPrepare_ok hg hr, py_bind_ok]
  rw [foldlM_update_finRange (fun p m => ipwLearnerFitPosition clf _ p.val m)]
  refine forall_congr' fun p => ?_
  rw [ipwLearnerFitPosition_eq hg clf (hpos p)]

/-- **C100.** A negative reward is rejected. -/
theorem C100_negative_reward {e : ℕ} {g : RegLog K n A L d e} (hg : g.Valid) {i : Fin n} (hi : g.reward i < 0)
    (clf : WClassifier M K) (ms : Fin L → M) :
    ipwLearnerFit clf ⟨A, L⟩ g.args ms = .error .valueError := by
  unfold ipwLearnerFit ipwLearnerPrepare
  rw [RegLog.check_plain hg, py_bind_ok]
  change ((raiseIf ((List.ofFn g.reward).any fun r => r < 0) .valueError >>= _) >>= _) = _
  rw [raiseIf_pos]
  · rfl
  · rw [List.any_eq_true]
    exact ⟨_, List.mem_ofFn.2 ⟨i, rfl⟩, by simpa using hi⟩

/-- Inverse propensity weighted value of a policy that puts all mass on one action per round. -/
theorem ipw_value_pointMass {e : ℕ} {g : RegLog K n A L d e} (hg : g.Valid) (act : Fin n → Fin L → Fin A) :
    (Estimator.mk .ipw .inf false).estimatePolicyValue
      (g.opeLog fun i a p => pointMass (act i p) a).args =
      .ok ((∑ i, if act i (g.position i) = g.action i then g.reward i / g.pscore i else 0) / (n : K)) := by
  have hv : (g.opeLog fun i a p => pointMass (act i p) a).Valid := by
    refine ⟨hg.rounds, hg.pscore, hg.pscore, fun _ => le_rfl, fun i l => ?_⟩
    change closeToOne (∑ a, pointMass (act i l) a) = true
    rw [(C70_one_hot (act i l)).2, closeToOne_one]
  rw [value_ipw hv]
  congr 1
  unfold Log.avg
  congr 1
  refine Finset.sum_congr rfl fun i _ => ?_
  simp only [Lam.clip, Log.weight, RegLog.opeLog, pointMass]
  by_cases h : act i (g.position i) = g.action i
  · rw [if_pos h, if_pos h.symm]
    simp [div_eq_mul_inv]
  · rw [if_neg h, if_neg (Ne.symm h)]
    simp

theorem weightCorrect_roundsAt {e : ℕ} (g : RegLog K n A L d e) (p : Fin L) (rule : List K → ℤ) :
    weightCorrect ((g.roundsAt (List.finRange n) p).map fun i => List.ofFn (g.context i))
        ((g.roundsAt (List.finRange n) p).map fun i => ((g.action i : ℕ) : ℤ))
        ((g.roundsAt (List.finRange n) p).map fun i => g.reward i / g.pscore i) rule =
      ∑ i, if g.position i = p then
        (if rule (List.ofFn (g.context i)) = ((g.action i : ℕ) : ℤ) then g.reward i / g.pscore i else 0)
        else 0 := by
  unfold weightCorrect
  rw [List.zip_map', List.zip_map', List.map_map]
  unfold RegLog.roundsAt
  rw [← Finset.sum_filter, Fin.univ_def]
  rw [Finset.sum_eq_multiset_sum]
  simp [Finset.filter, Function.comp_def]

/-- **C100.** `IPWLearner` maximises the IPW estimate: if the base classifier reaches the highest weighted
training accuracy in a class of decision rules, the IPW estimate of the predicted policy on the training data
is at least that of every policy following rules of that class. -/
theorem C100_ipw_optimal {e : ℕ} {g : RegLog K n A L d e} (hg : g.Valid) (hr : ∀ i, 0 ≤ g.reward i)
    (hpos : ∀ p, ∃ i, g.position i = p) (clf : WClassifier M K) {rules : Set (List K → ℤ)}
    (hopt : clf.OptimalIn rules) (ms ms' : Fin L → M)
    (hfit : ipwLearnerFit clf ⟨A, L⟩ g.args ms = .ok ms') (out : Fin n → Fin A → Fin L → K)
    (hout : ipwPredict clf ⟨A, L⟩ ms' g.args.context = .ok (List.ofFn out))
    (rule : Fin L → List K → Fin A) (hrule : ∀ p, (fun x => ((rule p x : ℕ) : ℤ)) ∈ rules) :
    ∃ v w, (Estimator.mk .ipw .inf false).estimatePolicyValue (g.opeLog (g.follow rule)).args = .ok v ∧
      (Estimator.mk .ipw .inf false).estimatePolicyValue (g.opeLog out).args = .ok w ∧ v ≤ w := by
  -- what the predicted policy is
  have hact : ∃ act : Fin n → Fin L → Fin A, (∀ i p, wrapIdx A (clf.predict (ms' p) (List.ofFn (g.context i))) =
      some (act i p)) ∧ out = fun i a p => pointMass (act i p) a := by
    unfold ipwPredict at hout
    rw [show checkArray2 g.args.context = .ok ⟨n, d, g.context⟩ from rfl, py_bind_ok] at hout
    rw [mapM_ok_iff, List.forall₂_iff_get] at hout
    have hcol : ∀ i p, ∃ b, wrapIdx A (clf.predict (ms' p) (List.ofFn (g.context i))) = some b ∧
        ∀ a, out i a p = pointMass b a := by
      intro i p
      have := hout.2 i.val (by simp) (by simp)
      simp only [List.get_eq_getElem, List.getElem_ofFn] at this
      obtain ⟨cols, hc, hrow⟩ := py_bind_eq_ok.1 this
      rw [mapM_ok_iff, List.forall₂_iff_get] at hc
      have hl : cols.length = L := by simpa using hc.1.symm
      have h3 := hc.2 p.val (by simp) (by omega)
      simp only [List.get_eq_getElem, List.getElem_finRange, Fin.cast_mk, Fin.eta] at h3
      unfold ipwPredictEntry at h3
      split at h3
      · next b hb =>
        refine ⟨b, hb, fun a => ?_⟩
        have h4 := congrFun (congrFun (Except.ok.inj hrow) a) p
        have h5 : cols.getD p.val (fun _ => 0) = cols[p.val]'(by omega) := by
          rw [List.getD_eq_getElem?_getD, List.getElem?_eq_getElem (by omega)]; rfl
        rw [show out i a p = (cols.getD p.val fun _ => 0) a from h4.symm, h5, ← Except.ok.inj h3]
        simp [pointMass]
      · exact absurd h3 (by simp)
    choose act h1 h2 using hcol
    exact ⟨act, h1, funext fun i => funext fun a => funext fun p => h2 i p a⟩
  obtain ⟨act, hact, rfl⟩ := hact
  refine ⟨_, _, ipw_value_pointMass hg fun i p => rule p (List.ofFn (g.context i)),
    ipw_value_pointMass hg act, ?_⟩
  have hw : ∀ i, 0 ≤ g.reward i / g.pscore i := fun i => div_nonneg (hr i) (hg.pscore i).le
  refine div_le_div_of_nonneg_right ?_ (Nat.cast_nonneg n)
  have hsplit : ∀ f : Fin n → K, ∑ i, f i = ∑ p, ∑ i, if g.position i = p then f i else 0 := by
    intro f
    rw [Finset.sum_comm]
    simp
  rw [hsplit, hsplit fun i => if act i (g.position i) = g.action i then _ else _]
  refine Finset.sum_le_sum fun p _ => ?_
  have hp := (C100_ipw_fit hg hr hpos clf ms ms').1 hfit p
  have := hopt _ _ _ _ _ hp _ (hrule p)
  rw [weightCorrect_roundsAt, weightCorrect_roundsAt] at this
  refine le_trans (le_of_eq ?_) (this.trans ?_)
  · refine Finset.sum_congr rfl fun i _ => ?_
    by_cases h : g.position i = p
    · simp only [h, if_true, Nat.cast_inj, Fin.ext_iff]
    · simp [h]
  · refine Finset.sum_le_sum fun i _ => ?_
    by_cases h : g.position i = p
    · simp only [h, if_true]
      by_cases h2 : clf.predict (ms' p) (List.ofFn (g.context i)) = ((g.action i : ℕ) : ℤ)
      · have h3 := hact i p
        rw [h2, wrapIdx_natCast] at h3
        rw [if_pos h2, if_pos (Option.some.inj h3).symm]
      · rw [if_neg h2]
        split
        · exact hw i
        · exact le_rfl
    · simp [h]

/-- A classifier that predicts the same label for every context, the better one of 0 and 1. -/
def exConstClassifier : WClassifier ℤ ℚ where
  fit _ X y w := .ok (if weightCorrect X y w (fun _ => 0) ≤ weightCorrect X y w (fun _ => 1) then 1 else 0)
  predict m _ := m
  proba _ _ := []

/-- It is optimal among the constant rules. -/
theorem exConstClassifier_optimal : exConstClassifier.OptimalIn {fun _ => 0, fun _ => 1} := by
  intro m X y w m' h rule hrule
  obtain rfl := Except.ok.inj h
  simp only [exConstClassifier]
  rcases hrule with rfl | rfl
  · split
    · assumption
    · exact le_rfl
  · split
    · exact le_rfl
    · next h => exact (not_le.1 h).le

/-- On the four rounds of `exQLog` the learned policy plays action 0, then action 1 (or, with equal weights,
the later one), and is at least as good on the log as any constant policy. -/
example : ∃ v w, (Estimator.mk .ipw .inf false).estimatePolicyValue
      (exQLog.opeLog (exQLog.follow fun _ _ => 1)).args = .ok v ∧
    (Estimator.mk .ipw .inf false).estimatePolicyValue
      (exQLog.opeLog fun _ a p => pointMass (![0, 1] p) a).args = .ok w ∧ v ≤ w :=
  C100_ipw_optimal (M := ℤ) ⟨by decide, by decide +kernel⟩ (by decide +kernel) (by decide) exConstClassifier
    exConstClassifier_optimal (fun _ => 0) ![0, 1]
    ((C100_ipw_fit ⟨by decide, by decide +kernel⟩ (by decide +kernel) (by decide) exConstClassifier _ _).2
      (by decide +kernel))
    _ (C70_ipw _ _ _ (fun _ p => ![0, 1] p) (by decide +kernel)) _ (fun _ => Or.inr rfl)

/-! ### C101 -/

theorem softmaxRow_ok [NeZero A] {t : ℝ} (ht : t ≠ 0) (s : Fin A → Fin L → ℝ) :
    softmaxRow t s = .ok fun a p => Real.exp (s a p / t) / ∑ b, Real.exp (s b p / t) := by
  obtain ⟨k, rfl⟩ : ∃ k, A = k + 1 := ⟨A - 1, by have := NeZero.ne A; omega⟩
  unfold softmaxRow
  rw [cols_mapM (g := fun p => List.ofFn fun a => Real.exp (s a p / t) / ∑ b, Real.exp (s b p / t)) fun p => by
    rw [mapM_ofFn_ok (f := fun x => npDiv x t) (y := fun a => s a p / t) fun a => npDiv_ok ht, py_bind_ok,
      C06_softmax_value]]
  rw [py_bind_ok]
  change Except.ok _ = _
  congr 1
  funext a p
  rw [getD_ofFn', getD_ofFn']

/-- What `predict_proba` promises: positive probabilities that sum to one at every position, proportional to
the exponential of score over temperature, so that higher scores have higher probability. -/
structure IsBoltzmann (score : Fin A → Fin L → ℝ) (tau : ℝ) (v : Fin A → Fin L → ℝ) : Prop where
  pos : ∀ a p, 0 < v a p
  sum_one : ∀ p, ∑ a, v a p = 1
  odds : ∀ a b p, v a p / v b p = Real.exp ((score a p - score b p) / tau)

theorem isBoltzmann_softmax [NeZero A] (score : Fin A → Fin L → ℝ) (tau : ℝ) :
    IsBoltzmann score tau fun a p => Real.exp (score a p / tau) / ∑ b, Real.exp (score b p / tau) := by
  have hs : ∀ p, 0 < ∑ b, Real.exp (score b p / tau) := fun p =>
    Finset.sum_pos (fun _ _ => Real.exp_pos _) Finset.univ_nonempty
  refine ⟨fun a p => div_pos (Real.exp_pos _) (hs p), fun p => ?_, fun a b p => ?_⟩
  · rw [← Finset.sum_div, div_self (hs p).ne']
  · rw [div_div_div_cancel_right₀ (hs p).ne', ← Real.exp_sub, sub_div]

/-- **C101.** `IPWLearner.predict_proba` is the Boltzmann distribution of the classifier's scores. -/
theorem C101_ipw [NeZero A] {M : Type} (clf : WClassifier M ℝ) (ms : Fin 1 → M) (c : Fin n → Fin d → ℝ)
    (h : ∀ i p, (clf.proba (ms p) (List.ofFn (c i))).length = A) {tau : ℝ} (ht : 0 < tau) :
    ∃ out : Fin n → Fin A → Fin 1 → ℝ,
      ipwPredictProba clf ⟨A, 1⟩ ms (.arr ⟨n, d, c⟩) (.flt tau) = .ok (List.ofFn out) ∧
      ∀ i, IsBoltzmann (fun a p => (clf.proba (ms p) (List.ofFn (c i))).getD a 0) tau (out i) := by
  refine ⟨_, ?_, fun i => isBoltzmann_softmax _ tau⟩
  unfold ipwPredictProba
  rw [raiseIf_neg (by simp), py_bind_ok, checkArray2_arr', py_bind_ok, checkTau_pos ht.le, py_bind_ok,
    ipwScore_ok clf ms c h, py_bind_ok]
  have e : ∀ i, (fun (a : Fin A) p => (clf.proba (ms p) (List.ofFn (c i))).getD a 0) = fun a p =>
      (clf.proba (ms p) (List.ofFn (c i)))[a.val]'(by rw [h]; exact a.isLt) := by
    intro i
    funext a p
    have := a.isLt
    simp [List.getD_eq_getElem?_getD, h]
  refine mapM_ofFn_ok fun i => ?_
  rw [← e, softmaxRow_ok ht.ne']

/-- **C101.** With more than one slot `IPWLearner.predict_proba` refuses. -/
theorem C101_ipw_lists {M : Type} (clf : WClassifier M ℝ) (hL : L ≠ 1) (ms : Fin L → M) (context : Arg2 ℝ)
    (tau : PyScalar ℝ) : ipwPredictProba clf ⟨A, L⟩ ms context tau = .error .assertionError := by
  unfold ipwPredictProba
  rw [raiseIf_pos (by simpa using hL)]
  rfl

/-- **C101.** `QLearner.predict_proba` is, at every position, the Boltzmann distribution of the predicted
rewards. -/
theorem C101_q [NeZero A] {M : Type} (lrn : Learner M ℝ) (method : FitMethod) (ms : Fin L → M)
    (c : Fin n → Fin d → ℝ) {tau : ℝ} (ht : 0 < tau) :
    ∃ out : Fin n → Fin A → Fin L → ℝ,
      qLearnerPredictProba lrn (qConfig ℝ A L method) ms (.arr ⟨n, d, c⟩) (.flt tau) = .ok (List.ofFn out) ∧
      ∀ i, IsBoltzmann (fun a p => qValue lrn c i (ms p) a) tau (out i) := by
  refine ⟨_, ?_, fun i => isBoltzmann_softmax _ tau⟩
  unfold qLearnerPredictProba
  rw [checkArray2_arr', py_bind_ok, checkTau_pos ht.le, py_bind_ok, qLearnerScore_ok, py_bind_ok]
  exact mapM_ofFn_ok fun i => softmaxRow_ok ht.ne' _

end Obp
