import Verif.Spec.Regression
import Verif.Lemmas.Numpy
import Verif.Lemmas.Checks
import Verif.Props.InputChecks

set_option linter.unusedSectionVars false

namespace Obp

variable {K : Type} [Field K] [LinearOrder K] [IsStrictOrderedRing K] {M : Type} {n A L d e : ℕ}

/-- the loop over positions that updates one model at a time -/
theorem foldlM_update {L : ℕ} (f : Fin L → M → Py M) (l : List (Fin L)) (hnd : l.Nodup) (ms ms' : Fin L → M) :
    l.foldlM (fun ms p => do let m ← f p (ms p); pure (Function.update ms p m)) ms = (.ok ms' : Py _) ↔
      (∀ p ∈ l, f p (ms p) = .ok (ms' p)) ∧ ∀ p ∉ l, ms' p = ms p := by
  induction l generalizing ms with
  | nil =>
    simp only [List.foldlM_nil, py_pure, Except.ok.injEq, List.not_mem_nil, false_imp_iff, implies_true,
      not_false_eq_true, true_and, forall_true_left]
    exact ⟨fun h => by simp [h], fun h => funext fun p => (h p).symm⟩
  | cons p l ih =>
    rw [List.nodup_cons] at hnd
    rw [List.foldlM_cons]
    cases hf : f p (ms p) with
    | error err =>
      simp only [py_bind_error]
      constructor
      · rintro ⟨⟩
      · intro h
        have := h.1 p List.mem_cons_self
        rw [hf] at this
        cases this
    | ok m =>
      change List.foldlM (fun ms p => do let m ← f p (ms p); pure (Function.update ms p m))
        (Function.update ms p m) l = _ ↔ _
      rw [ih hnd.2]
      constructor
      · rintro ⟨h1, h2⟩
        refine ⟨fun q hq => ?_, fun q hq => ?_⟩
        · rcases List.mem_cons.1 hq with rfl | hq
          · rw [hf, h2 q hnd.1, Function.update_self]
          · have hne : q ≠ p := fun h => hnd.1 (h ▸ hq)
            have := h1 q hq
            rwa [Function.update_of_ne hne] at this
        · rw [List.mem_cons, not_or] at hq
          rw [h2 q hq.2, Function.update_of_ne hq.1]
      · rintro ⟨h1, h2⟩
        have hp := h1 p List.mem_cons_self
        rw [hf] at hp
        refine ⟨fun q hq => ?_, fun q hq => ?_⟩
        · have hne : q ≠ p := fun h => hnd.1 (h ▸ hq)
          rw [Function.update_of_ne hne]
          exact h1 q (List.mem_cons_of_mem _ hq)
        · by_cases hqp : q = p
          · subst hqp; rw [Function.update_self]; exact (Except.ok.inj hp).symm
          · rw [Function.update_of_ne hqp]
            exact h2 q (by simp [hqp, hq])

theorem foldlM_update_finRange {L : ℕ} (f : Fin L → M → Py M) (ms ms' : Fin L → M) :
    (List.finRange L).foldlM (fun ms p => do let m ← f p (ms p); pure (Function.update ms p m)) ms =
      (.ok ms' : Py _) ↔ ∀ p, f p (ms p) = .ok (ms' p) := by
  rw [foldlM_update f _ (List.nodup_finRange L)]
  simp

theorem foldlM_update_error {L : ℕ} (f : Fin L → M → Py M) (l : List (Fin L)) (hnd : l.Nodup)
    (ms : Fin L → M) {err : PyErr} (herr : ∀ p ∈ l, ∀ err', f p (ms p) = .error err' → err' = err)
    {p : Fin L} (hp : p ∈ l) (hfail : f p (ms p) = .error err) :
    l.foldlM (fun ms p => do let m ← f p (ms p); pure (Function.update ms p m)) ms = (.error err : Py _) := by
  induction l generalizing ms with
  | nil => cases hp
  | cons q l ih =>
    rw [List.nodup_cons] at hnd
    rw [List.foldlM_cons]
    cases hf : f q (ms q) with
    | error err' =>
      rw [herr q List.mem_cons_self err' hf]; rfl
    | ok m =>
      change List.foldlM (fun ms p => do let m ← f p (ms p); pure (Function.update ms p m))
        (Function.update ms q m) l = _
      rcases List.mem_cons.1 hp with rfl | hp'
      · rw [hf] at hfail; cases hfail
      · have hne : ∀ r ∈ l, r ≠ q := fun r hr h => hnd.1 (h ▸ hr)
        refine ih hnd.2 _ (fun r hr err' => ?_) hp' ?_
        · rw [Function.update_of_ne (hne r hr)]
          exact herr r (List.mem_cons_of_mem _ hr) err'
        · rw [Function.update_of_ne (hne p hp')]
          exact hfail

/-- writing a batch of results -/
theorem foldl_zip_update {V : Type} {pv : Fin n → V → Prop} {idx : List (Fin n)} {vs : List V}
    (h : List.Forall₂ pv idx vs) (out : Fin n → V) (i : Fin n) :
    (i ∈ idx ∧ pv i ((idx.zip vs).foldl (fun out p => Function.update out p.1 p.2) out i)) ∨
    (i ∉ idx ∧ (idx.zip vs).foldl (fun out p => Function.update out p.1 p.2) out i = out i) := by
  induction h generalizing out with
  | nil => right; simp
  | @cons j v idx vs hj hrest ih =>
    rw [List.zip_cons_cons, List.foldl_cons]
    rcases ih (Function.update out j v) with ⟨h1, h2⟩ | ⟨h1, h2⟩
    · exact Or.inl ⟨List.mem_cons_of_mem _ h1, h2⟩
    · by_cases hij : i = j
      · subst hij
        refine Or.inl ⟨List.mem_cons_self, ?_⟩
        rw [h2, Function.update_self]
        exact hj
      · refine Or.inr ⟨by simp [hij, h1], ?_⟩
        rw [h2, Function.update_of_ne hij]

theorem crossFit_spec {V : Type} {fit : M → List (Fin n) → Py M} {predict : M → List (Fin n) → Py (List V)}
    {pv : M → Fin n → V → Prop}
    (hpred : ∀ m idx vs, predict m idx = .ok vs → List.Forall₂ (pv m) idx vs)
    {folds : Folds n} {s s' : M × (Fin n → V)} (h : crossFit fit predict folds s = .ok s') (i : Fin n) :
    (∃ f ∈ folds, i ∈ f.2 ∧ ∃ m m', fit m f.1 = .ok m' ∧ pv m' i (s'.2 i)) ∨
    ((∀ f ∈ folds, i ∉ f.2) ∧ s'.2 i = s.2 i) := by
  induction folds generalizing s with
  | nil =>
    simp only [crossFit, List.foldlM_nil, py_pure, Except.ok.injEq] at h
    subst h
    right; simp
  | cons f folds ih =>
    simp only [crossFit, List.foldlM_cons, py_bind_eq_ok, py_pure, Except.ok.injEq] at h
    obtain ⟨s1, ⟨m, hm, vs, hvs, rfl⟩, h2⟩ := h
    rcases ih h2 with ⟨f', hf', h3⟩ | ⟨h3, h4⟩
    · exact Or.inl ⟨f', List.mem_cons_of_mem _ hf', h3⟩
    · rcases foldl_zip_update (hpred m f.2 vs hvs) s.2 i with ⟨h5, h6⟩ | ⟨h5, h6⟩
      · refine Or.inl ⟨f, List.mem_cons_self, h5, s.1, m, hm, ?_⟩
        rw [h4]; exact h6
      · refine Or.inr ⟨?_, h4.trans h6⟩
        intro f' hf'
        rcases List.mem_cons.1 hf' with rfl | hf'
        · exact h5
        · exact h3 f' hf'

theorem crossFit_ok {V : Type} {fit : M → List (Fin n) → Py M} {predict : M → List (Fin n) → Py (List V)}
    {folds : Folds n} (hfit : ∀ m, ∀ f ∈ folds, ∃ m', fit m f.1 = .ok m')
    (hpred : ∀ m idx, ∃ vs, predict m idx = .ok vs) (s : M × (Fin n → V)) :
    ∃ s', crossFit fit predict folds s = .ok s' := by
  induction folds generalizing s with
  | nil => exact ⟨s, rfl⟩
  | cons f folds ih =>
    obtain ⟨m, hm⟩ := hfit s.1 f List.mem_cons_self
    obtain ⟨vs, hvs⟩ := hpred m f.2
    obtain ⟨s', hs'⟩ := ih (fun m f hf => hfit m f (List.mem_cons_of_mem _ hf))
      (m, (f.2.zip vs).foldl (fun out p => Function.update out p.1 p.2) s.2)
    refine ⟨s', ?_⟩
    unfold crossFit at hs' ⊢
    rw [List.foldlM_cons]
    rw [hm, py_bind_ok, hvs, py_bind_ok]
    exact hs'

theorem IsKFold.exists {k : ℕ} {folds : Folds n} (hk : IsKFold k folds) (i : Fin n) :
    ∃ f ∈ folds, i ∈ f.2 := by
  have := hk.once i
  have : 0 < folds.countP (fun f => i ∈ f.2) := by omega
  obtain ⟨f, hf, hi⟩ := List.countP_pos_iff.1 this
  exact ⟨f, hf, by simpa using hi⟩

/-- results of cross-fitting under the contract of KFold -/
theorem crossFit_kfold {V : Type} {fit : M → List (Fin n) → Py M} {predict : M → List (Fin n) → Py (List V)}
    {pv : M → Fin n → V → Prop}
    (hpred : ∀ m idx vs, predict m idx = .ok vs → List.Forall₂ (pv m) idx vs) {k : ℕ}
    {folds : Folds n} (hk : IsKFold k folds) {s s' : M × (Fin n → V)}
    (h : crossFit fit predict folds s = .ok s') (i : Fin n) :
    ∃ f ∈ folds, i ∈ f.2 ∧ i ∉ f.1 ∧ ∃ m m', fit m f.1 = .ok m' ∧ pv m' i (s'.2 i) := by
  rcases crossFit_spec hpred h i with ⟨f, hf, hi, h2⟩ | ⟨h1, -⟩
  · exact ⟨f, hf, hi, fun h => ((hk.train f hf i).1 h) hi, h2⟩
  · obtain ⟨f, hf, hi⟩ := hk.exists i
    exact absurd hi (h1 f hf)

theorem IsKFold.unique {k : ℕ} {folds : Folds n} (hk : IsKFold k folds) {i : Fin n}
    {f f' : List (Fin n) × List (Fin n)} (hf : f ∈ folds) (hf' : f' ∈ folds) (hi : i ∈ f.2) (hi' : i ∈ f'.2) :
    f = f' := by
  have h1 := hk.once i
  rw [List.countP_eq_length_filter] at h1
  obtain ⟨g, hg⟩ := List.length_eq_one_iff.1 h1
  have m1 : f ∈ folds.filter (fun f => i ∈ f.2) := List.mem_filter.2 ⟨hf, by simpa using hi⟩
  have m2 : f' ∈ folds.filter (fun f => i ∈ f.2) := List.mem_filter.2 ⟨hf', by simpa using hi'⟩
  rw [hg, List.mem_singleton] at m1 m2
  rw [m1, m2]

/-! ### typed data -/

namespace RegLog

/-- the validated row of a round -/
def row (g : RegLog K n A L d e) (method : FitMethod) (i : Fin n) : RegRow K A L where
  x := List.ofFn (g.context i)
  action := ((g.action i : ℕ) : ℤ)
  reward := g.reward i
  pscore := g.pscore i
  position := ((g.position i : ℕ) : ℤ)
  dist := if method = .normal then none else some (g.piE i)

theorem getD_ofFn {α : Type} (f : Fin n → α) (i : Fin n) (x : α) : (List.ofFn f).getD i x = f i := by
  rw [List.getD_eq_getElem?_getD, List.getElem?_ofFn]
  simp

theorem ofFn_ne_nil {α : Type} (hn : 0 < n) (f : Fin n → α) : List.ofFn f ≠ [] := by
  intro h
  rw [List.ofFn_eq_nil_iff] at h
  omega

theorem check_ok {g : RegLog K n A L d e} (hg : g.Valid) (method : FitMethod) :
    checkBanditFeedbackInputs { context := g.args.context, action := g.args.action, reward := g.args.reward
                                position := g.args.position, pscore := g.args.pscore
                                actionContext := (g.config method).actionContext } = .ok () := by
  rw [C10_accept_iff]
  refine ⟨n, List.ofFn fun i => ((g.action i : ℕ) : ℤ), ?_⟩
  refine ⟨⟨_, rfl, rfl⟩, ⟨rfl, List.length_ofFn, ofFn_ne_nil hg.rounds _, ?_⟩, ?_, Or.inl rfl, Or.inr ⟨?_, ?_⟩,
    Or.inr ⟨_, rfl, List.length_ofFn, ofFn_ne_nil hg.rounds _, ?_⟩, Or.inr ⟨_, rfl, ?_⟩⟩
  · intro z hz
    obtain ⟨i, rfl⟩ := List.mem_ofFn.1 hz
    exact Int.natCast_nonneg _
  · exact Or.inr ⟨_, rfl, List.length_ofFn⟩
  · exact Or.inr ⟨_, rfl, List.length_ofFn⟩
  · intro p hp
    obtain ⟨i, rfl⟩ := List.mem_ofFn.1 hp
    exact hg.pscore i
  · intro z hz
    obtain ⟨i, rfl⟩ := List.mem_ofFn.1 hz
    exact Int.natCast_nonneg _
  · intro z hz
    obtain ⟨i, rfl⟩ := List.mem_ofFn.1 hz
    exact_mod_cast (g.action i).isLt

theorem positions_ok {n L : ℕ} (hn : 0 < n) (pos : Fin n → Fin L) :
    trainPositions (K := K) L n (.int (List.ofFn fun i => ((pos i : ℕ) : ℤ))) =
      .ok (List.ofFn fun i => ((pos i : ℕ) : ℤ)) := by
  unfold trainPositions
  by_cases h1 : L = 1
  · subst h1
    simp only [decide_true, Bool.or_true, if_true, Except.ok.injEq]
    refine List.ext_getElem (by simp) fun i _ _ => ?_
    simp
  · simp only [Arg1.isNone, h1, decide_false, Bool.or_self, Bool.false_eq_true, if_false, Arg1.ints,
      py_bind_ok]
    obtain ⟨m, hm, hmax, -⟩ := npMax_of_ne (ofFn_ne_nil hn fun i => ((pos i : ℕ) : ℤ))
    rw [hm, py_bind_ok, raiseIf_neg]
    · rfl
    · simp only [decide_eq_false_iff_not, not_le]
      have := (hmax (L : ℤ)).2 fun z hz => by
        obtain ⟨i, rfl⟩ := List.mem_ofFn.1 hz
        exact_mod_cast (pos i).isLt
      exact this

theorem view_ok (x : Fin n → Fin A → Fin L → K) : (⟨n, A, L, x⟩ : Arr3 K).view n A L = some x := by
  unfold Arr3.view
  rw [dif_pos ⟨rfl, rfl, rfl⟩]
  rfl

theorem prepare_ok {g : RegLog K n A L d e} (hg : g.Valid) (method : FitMethod) :
    (g.config method).prepare g.args = .ok ⟨n, g.row method⟩ := by
  unfold RegConfig.prepare
  rw [check_ok hg method]
  simp only [py_bind_ok, args, checkArray2, Arg1.ints, config]
  rw [positions_ok hg.rounds]
  simp only [py_bind_ok, Arg1.isNone, Bool.false_eq_true, if_false, Arg1.vals]
  by_cases hm : method = .normal
  · subst hm
    simp only [if_true, py_pure, py_bind_ok, getD_ofFn]
    rfl
  · simp only [hm, if_false, checkDistShape, view_ok, py_bind_ok, py_pure, getD_ofFn]
    congr 2
    funext i
    simp [row, hm]

theorem filter_rows (g : RegLog K n A L d e) (method : FitMethod) (idx : List (Fin n)) (p : Fin L) :
    (idx.map (g.row method)).filter (fun r => r.position = (p.val : ℤ)) =
      (g.roundsAt idx p).map (g.row method) := by
  rw [List.filter_map]
  congr 1
  unfold roundsAt
  refine List.filter_congr fun i _ => ?_
  simp [row, Fin.ext_iff]

theorem feature_ok (g : RegLog K n A L d e) (i : Fin n) (a : Fin A) :
    regFeature ⟨A, e, g.table⟩ (List.ofFn (g.context i)) ((a : ℕ) : ℤ) = .ok (g.feature i a) := by
  simp [regFeature, Arr2.row, feature]

theorem mapM_map {α β γ : Type} (xs : List α) (f : α → β) (h : β → Py γ) :
    (xs.map f).mapM h = xs.mapM fun x => h (f x) := by
  induction xs with
  | nil => rfl
  | cons x xs ih => rw [List.map_cons, List.mapM_cons, List.mapM_cons, ih]

theorem weights_ok {g : RegLog K n A L d e} (hg : g.Valid) {method : FitMethod} (hm : method ≠ .normal)
    (idx : List (Fin n)) (p : Fin L) :
    regWeights method (idx.map (g.row method)) p = .ok ((g.roundsAt idx p).map (g.sampleWeight method)) := by
  unfold regWeights
  have h1 : (idx.map (g.row method)).mapM (fun r => r.distAt p) =
      .ok (idx.map fun i => g.piE i (g.action i) p) := by
    rw [mapM_map]
    refine mapM_map_ok fun i _ => ?_
    simp [RegRow.distAt, row, hm]
  rw [h1, py_bind_ok]
  have h2 : ((idx.map (g.row method)).zip (idx.map fun i => g.piE i (g.action i) p)).filter
      (fun q => q.1.position = (p.val : ℤ)) =
      (g.roundsAt idx p).map fun i => (g.row method i, g.piE i (g.action i) p) := by
    rw [List.zip_map', List.filter_map]
    congr 1
    unfold roundsAt
    refine List.filter_congr fun i _ => ?_
    simp [row, Fin.ext_iff]
  rw [h2, mapM_map]
  refine mapM_map_ok fun i hi => ?_
  have hp : g.position i = p := by simpa using (List.mem_filter.1 hi).2
  have hps := hg.pscore i
  cases method with
  | normal => exact absurd rfl hm
  | iw =>
    change npDiv _ (g.pscore i) = _
    rw [npDiv_ok hps.ne']
    simp [sampleWeight, hp]
  | mrdr =>
    change npDiv (_ * (1 - g.pscore i)) (g.pscore i ^ 2) = _
    rw [npDiv_ok (pow_ne_zero 2 hps.ne')]
    simp [sampleWeight, hp]

theorem fitPosition_ok {g : RegLog K n A L d e} (hg : g.Valid) (lrn : Learner M K) (method : FitMethod)
    (idx : List (Fin n)) (p : Fin L) (m : M) :
    fitPosition lrn method ⟨A, e, g.table⟩ (idx.map (g.row method)) p m =
      if g.roundsAt idx p = [] then .error .valueError
      else lrn.fit m ((g.roundsAt idx p).map fun i => g.feature i (g.action i))
        ((g.roundsAt idx p).map g.reward)
        (if method = .normal then none else some ((g.roundsAt idx p).map (g.sampleWeight method))) := by
  unfold fitPosition
  rw [filter_rows]
  have h1 : ((g.roundsAt idx p).map (g.row method)).mapM
      (fun r => regFeature ⟨A, e, g.table⟩ r.x r.action) =
      .ok ((g.roundsAt idx p).map fun i => g.feature i (g.action i)) := by
    rw [mapM_map]
    exact mapM_map_ok fun i _ => g.feature_ok i (g.action i)
  dsimp only
  rw [h1, py_bind_ok]
  by_cases hr : g.roundsAt idx p = []
  · rw [if_pos hr, hr]; rfl
  · rw [if_neg hr, raiseIf_neg (by simpa using hr), py_bind_ok]
    have h2 : ((g.roundsAt idx p).map (g.row method)).map (fun r => r.reward) =
        (g.roundsAt idx p).map g.reward := by
      rw [List.map_map]; rfl
    rw [h2]
    cases method with
    | normal => rfl
    | iw => dsimp only; rw [weights_ok hg (by simp), py_bind_ok]; rfl
    | mrdr => dsimp only; rw [weights_ok hg (by simp), py_bind_ok]; rfl

theorem sums_ok (g : RegLog K n A L d e) {method : FitMethod} (hm : method ≠ .normal) (idx : List (Fin n)) :
    distRowsSumToOne (idx.map (g.row method)) = true ↔
      ∀ i ∈ idx, ∀ p, |∑ a, g.piE i a p - 1| ≤ 1 / 10 ^ 8 + 1 / 10 ^ 5 := by
  unfold distRowsSumToOne
  rw [List.all_map, List.all_eq_true]
  refine forall₂_congr fun i _ => ?_
  simp [row, hm, closeToOne]

theorem fitRows_iff {g : RegLog K n A L d e} (hg : g.Valid) (lrn : Learner M K) (method : FitMethod)
    (idx : List (Fin n)) (ms ms' : Fin L → M) :
    (g.config method).fitRows lrn (idx.map (g.row method)) ms = .ok ms' ↔
      idx ≠ [] ∧ (method ≠ .normal → ∀ i ∈ idx, ∀ p, |∑ a, g.piE i a p - 1| ≤ 1 / 10 ^ 8 + 1 / 10 ^ 5) ∧
      (∀ p, g.roundsAt idx p ≠ []) ∧ g.FittedOn lrn method idx ms ms' := by
  dsimp only [RegConfig.fitRows, config]
  simp only [py_bind_eq_ok, exists_unit, raiseIf_ok, decide_eq_false_iff_not, List.length_map,
    List.length_eq_zero_iff]
  refine and_congr Iff.rfl (and_congr ?_ ?_)
  · by_cases hm : method = .normal
    · subst hm; simp
    · simp only [ne_eq, hm, not_false_eq_true, decide_true, Bool.true_and, decide_eq_false_iff_not,
        Bool.not_eq_false, forall_true_left]
      exact g.sums_ok hm idx
  · simp only [checkArray2, Except.ok.injEq, exists_eq_left']
    refine (foldlM_update_finRange (fun p m => fitPosition lrn method ⟨A, e, g.table⟩
      (idx.map (g.row method)) p m) ms ms').trans ?_
    unfold FittedOn
    rw [← forall_and]
    refine forall_congr' fun p => ?_
    rw [fitPosition_ok hg]
    by_cases hr : g.roundsAt idx p = []
    · simp [hr]
    · simp [hr]

end RegLog

end Obp
