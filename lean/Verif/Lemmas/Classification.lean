import Verif.Spec.Classification
import Verif.Lemmas.Regression
import Verif.Lemmas.Slate

set_option linter.unusedSectionVars false

namespace Obp

variable {K : Type} [Field K] [LinearOrder K] [IsStrictOrderedRing K] {M : Type} {n A L d e : ℕ}

theorem probaColumn_nat {row : List K} {a : ℕ} {v : K} :
    probaColumn row (a : ℤ) = .ok v ↔ row[a]? = some v := by
  unfold probaColumn
  by_cases h : a < row.length
  · rw [wrapIdx_lt h]
    simp [List.getElem?_eq_getElem h]
  · have hn : wrapIdx row.length (a : ℤ) = none := by
      unfold wrapIdx
      rw [dif_neg (by omega), dif_neg (by omega)]
    rw [hn, List.getElem?_eq_none (by omega)]
    simp

theorem sampleActionRow_total (hA : 0 < A) (r : Fin A → K) (u : K) :
    ∃ a : Fin A, sampleActionRow (List.ofFn r) u = .ok a.val := by
  have hlen : ∀ (l : List K) acc, (cumsumFrom acc l).length = l.length := by
    intro l
    induction l with
    | nil => intro _; rfl
    | cons x l ih => intro acc; simp [cumsumFrom, ih]
  unfold sampleActionRow
  set bs := (cumsumFrom 0 (List.ofFn r)).map fun c => decide (u < c) with hbs
  have hb : bs.length = A := by rw [hbs, List.length_map, hlen, List.length_ofFn]
  cases hc : bs with
  | nil => rw [hc] at hb; simp at hb; omega
  | cons b t =>
    unfold argmaxBool
    cases hf : (b :: t).findIdx? (· = true) with
    | none => exact ⟨⟨0, hA⟩, by dsimp only; rw [hf]⟩
    | some i =>
      obtain ⟨hi, -⟩ := List.findIdx?_eq_some_iff_getElem.1 hf
      exact ⟨⟨i, by rw [hc] at hb; omega⟩, by dsimp only; rw [hf]⟩

theorem sampleActionFast_total (hA : 0 < A) (r : Fin n → Fin A → K) {rs : List (Fin n)} (hnd : rs.Nodup)
    {us : List K} (hl : us.length = rs.length) :
    ∃ s : Fin n → Fin A, sampleActionFast (rs.map fun i => List.ofFn (r i)) us =
      .ok (rs.map fun i => (s i).val) := by
  unfold sampleActionFast
  simp only [mapM_ok_iff]
  induction rs generalizing us with
  | nil => exact ⟨fun _ => ⟨0, hA⟩, by simp⟩
  | cons i rs ih =>
    cases us with
    | nil => simp at hl
    | cons u us =>
      rw [List.nodup_cons] at hnd
      obtain ⟨s, hs⟩ := ih hnd.2 (us := us) (by simpa using hl)
      obtain ⟨a, ha⟩ := sampleActionRow_total hA (r i) u
      refine ⟨Function.update s i a, ?_⟩
      rw [List.map_cons, List.map_cons, List.zip_cons_cons]
      refine List.Forall₂.cons (by simpa using ha) ?_
      have : rs.map (fun j => (Function.update s i a j).val) = rs.map fun j => (s j).val := by
        refine List.map_congr_left fun j hj => ?_
        have hne : j ≠ i := fun h => hnd.1 (h ▸ hj)
        rw [Function.update_of_ne hne]
      rw [this]
      exact hs

namespace RegLog

/-- the validated row of a round -/
def clfRow (g : RegLog K n A L d e) (dist : Fin n → Fin A → Fin L → K) (i : Fin n) : ClfRow K A L where
  x := List.ofFn (g.context i)
  action := ((g.action i : ℕ) : ℤ)
  position := ((g.position i : ℕ) : ℤ)
  dist := dist i

theorem clf_check_ok (g : RegLog K n A L d e) (hn : 0 < n) {e' : ℕ} (table : Fin A → Fin e' → K) :
    checkBanditFeedbackInputs { context := g.args.context, action := g.args.action
                                reward := .int (List.replicate n 0)
                                position := g.args.position, actionContext := .arr ⟨A, e', table⟩ } =
      .ok () := by
  rw [C10_accept_iff]
  refine ⟨n, List.ofFn fun i => ((g.action i : ℕ) : ℤ), ?_⟩
  refine ⟨⟨_, rfl, rfl⟩, ⟨rfl, List.length_ofFn, ofFn_ne_nil hn _, ?_⟩, ?_, Or.inl rfl, Or.inl rfl,
    Or.inr ⟨_, rfl, List.length_ofFn, ofFn_ne_nil hn _, ?_⟩, Or.inr ⟨_, rfl, ?_⟩⟩
  · intro z hz
    obtain ⟨i, rfl⟩ := List.mem_ofFn.1 hz
    exact Int.natCast_nonneg _
  · exact Or.inl ⟨_, rfl, by simp⟩
  · intro z hz
    obtain ⟨i, rfl⟩ := List.mem_ofFn.1 hz
    exact Int.natCast_nonneg _
  · intro z hz
    obtain ⟨i, rfl⟩ := List.mem_ofFn.1 hz
    exact_mod_cast (g.action i).isLt

theorem preparePropensity_ok (g : RegLog K n A L d e) (hn : 0 < n) :
    preparePropensity A L g.args.context g.args.action g.args.position =
      .ok ⟨n, g.clfRow fun _ _ _ => 0⟩ := by
  unfold preparePropensity
  have h1 := g.clf_check_ok hn (eye (K := K) A).val
  simp only [args, Arg1.ints, py_bind_ok, List.length_ofFn, eye] at h1 ⊢
  rw [h1]
  simp only [py_bind_ok, checkArray2]
  rw [positions_ok hn]
  simp only [py_bind_ok, py_pure, getD_ofFn]
  rfl

theorem filter_clfRows (g : RegLog K n A L d e) (dist : Fin n → Fin A → Fin L → K) (idx : List (Fin n)) (p : Fin L) :
    (idx.map (g.clfRow dist)).filter (fun r => r.position = (p.val : ℤ)) =
      (g.roundsAt idx p).map (g.clfRow dist) := by
  rw [List.filter_map]
  congr 1
  unfold roundsAt
  refine List.filter_congr fun i _ => ?_
  simp [clfRow, Fin.ext_iff]

theorem propensityFitRows_iff (g : RegLog K n A L d e) (dist : Fin n → Fin A → Fin L → K) (clf : Classifier M K)
    (idx : List (Fin n)) (ms ms' : Fin L → M) :
    propensityFitRows clf (idx.map (g.clfRow dist)) ms = .ok ms' ↔
      idx ≠ [] ∧ (∀ p, g.roundsAt idx p ≠ []) ∧ g.PropensityFittedOn clf idx ms ms' := by
  unfold propensityFitRows
  simp only [py_bind_eq_ok, exists_unit, raiseIf_ok, decide_eq_false_iff_not, List.length_map,
    List.length_eq_zero_iff]
  refine and_congr Iff.rfl ?_
  rw [foldlM_update_finRange (fun p m => propensityFitPosition clf (idx.map (g.clfRow dist)) p m),
    PropensityFittedOn, ← forall_and]
  refine forall_congr' fun p => ?_
  unfold propensityFitPosition
  simp only [filter_clfRows, py_bind_eq_ok, exists_unit, raiseIf_ok, decide_eq_false_iff_not, List.length_map,
    List.length_eq_zero_iff, List.map_map]
  rfl

theorem propensityPredict_forall₂ (g : RegLog K n A L d e) (dist : Fin n → Fin A → Fin L → K)
    (clf : Classifier M K) (ms : Fin L → M) (idx : List (Fin n)) {vs : List K}
    (h : propensityPredict clf ms ((idx.map (g.clfRow dist)).map fun r => (r.x, r.action))
      (some ((idx.map (g.clfRow dist)).map (·.position))) = .ok vs) :
    List.Forall₂ (fun i v => (clf.proba (ms (g.position i)) (List.ofFn (g.context i)))[(g.action i).val]? = some v)
      idx vs := by
  unfold propensityPredict at h
  simp only [List.map_map, List.zip_map'] at h
  rw [mapM_ok_iff, List.forall₂_map_left_iff] at h
  refine h.imp fun i v hv => ?_
  change propensityRound clf ms (List.ofFn (g.context i)) (g.action i : ℕ) (g.position i : ℕ) = _ at hv
  unfold propensityRound at hv
  have hp := (g.position i).isLt
  rw [dif_pos ⟨by omega, by omega⟩, probaColumn_nat] at hv
  exact hv

/-! ### ImportanceWeightEstimator -/

theorem exists_sampledBy (g : RegLog K n A L d e) (hn : 0 < n) {draws : ℕ → ℕ → List K}
    (hdr : ∀ p k, (draws p k).length = k) {idx : List (Fin n)} (hnd : idx.Nodup) :
    ∃ sampled, g.SampledBy draws idx sampled := by
  have hA : 0 < A := lt_of_le_of_lt (Nat.zero_le _) (g.action ⟨0, hn⟩).isLt
  have : ∀ p : Fin L, ∃ s : Fin n → Fin A,
      sampleActionFast ((g.roundsAt idx p).map fun i => List.ofFn fun a => g.piE i a p)
        (draws p (g.roundsAt idx p).length) = .ok ((g.roundsAt idx p).map fun i => (s i).val) := fun p =>
    sampleActionFast_total hA (fun i a => g.piE i a p) (hnd.filter _) (hdr _ _)
  choose s hs using this
  exact ⟨s, hs⟩

theorem iwePrepare_ok (g : RegLog K n A L d e) (hn : 0 < n) (hd : g.DistOk) (method : IweMethod) :
    (g.iweConfig method).prepare g.args.context g.args.action g.args.position g.args.actionDist =
      .ok ⟨n, g.clfRow g.piE⟩ := by
  unfold IweConfig.prepare
  have h1 := g.clf_check_ok hn g.table
  simp only [args, Arg1.ints, py_bind_ok, List.length_ofFn] at h1 ⊢
  rw [h1]
  simp only [py_bind_ok, checkArray2]
  rw [positions_ok hn]
  simp only [py_bind_ok, checkDistShape, view_ok]
  rw [raiseIf_neg]
  · simp only [py_bind_ok, py_pure, getD_ofFn]
    rfl
  · simp only [decide_eq_false_iff_not, not_not]
    intro i p
    simpa [closeToOne] using hd i p

theorem iweTraining_ok (g : RegLog K n A L d e) (method : IweMethod) (rs : List (Fin n)) (p : Fin L)
    (s : Fin n → Fin A) :
    iweTraining method ⟨A, e, g.table⟩ (rs.map (g.clfRow g.piE)) p
        (match method with | .sample => rs.map fun i => (s i).val | .raw => List.replicate rs.length 0) =
      .ok (rs.map (fun i => g.feature i (g.action i)) ++ rs.map (g.evalFeature method p s),
        List.replicate rs.length 0 ++ List.replicate rs.length 1) := by
  unfold iweTraining
  have h1 : (rs.map (g.clfRow g.piE)).mapM (fun r => regFeature ⟨A, e, g.table⟩ r.x r.action) =
      .ok (rs.map fun i => g.feature i (g.action i)) := by
    rw [mapM_map]
    exact mapM_map_ok fun i _ => g.feature_ok i (g.action i)
  rw [h1, py_bind_ok]
  cases method with
  | raw =>
    simp only [py_pure, py_bind_ok, List.map_map, List.length_map]
    rfl
  | sample =>
    have h2 : ((rs.map (g.clfRow g.piE)).zip (rs.map fun i => (s i).val)).mapM
        (fun q => regFeature ⟨A, e, g.table⟩ q.1.x (q.2 : ℤ)) = .ok (rs.map fun i => g.feature i (s i)) := by
      rw [List.zip_map', mapM_map]
      exact mapM_map_ok fun i _ => g.feature_ok i (s i)
    dsimp only
    rw [h2]
    simp only [py_pure, py_bind_ok, List.length_map]
    rfl

theorem iweFitRows_iff (g : RegLog K n A L d e) (method : IweMethod) (clf : Classifier M K)
    {draws : ℕ → ℕ → List K} {idx : List (Fin n)} {sampled : Fin L → Fin n → Fin A}
    (hs : g.SampledBy draws idx sampled) (ms ms' : Fin L → M) :
    (g.iweConfig method).fitRows clf draws (idx.map (g.clfRow g.piE)) ms = .ok ms' ↔
      idx ≠ [] ∧ (∀ p, g.roundsAt idx p ≠ []) ∧ g.IweFittedOn method clf sampled idx ms ms' := by
  dsimp only [IweConfig.fitRows]
  simp only [py_bind_eq_ok, exists_unit, raiseIf_ok, decide_eq_false_iff_not, List.length_map,
    List.length_eq_zero_iff, checkArray2, Except.ok.injEq, exists_eq_left']
  refine and_congr Iff.rfl ?_
  refine (foldlM_update_finRange (fun p m => iweFitPosition clf method ⟨A, e, g.table⟩ draws
    (idx.map (g.clfRow g.piE)) p m) ms ms').trans ?_
  rw [IweFittedOn, ← forall_and]
  refine forall_congr' fun p => ?_
  have ht := g.iweTraining_ok method (g.roundsAt idx p) p (sampled p)
  have he : ((g.roundsAt idx p).map (fun i => g.feature i (g.action i)) ++
      (g.roundsAt idx p).map (g.evalFeature method p (sampled p))).length = 0 ↔ g.roundsAt idx p = [] := by
    simp
  unfold iweFitPosition
  simp only [filter_clfRows]
  cases method with
  | raw =>
    simp only [py_pure, py_bind_ok, List.length_map]
    rw [ht, py_bind_ok]
    simp only [he, py_bind_eq_ok, exists_unit, raiseIf_ok, decide_eq_false_iff_not]
  | sample =>
    have hm : ((g.roundsAt idx p).map (g.clfRow g.piE)).map (fun r => List.ofFn fun a => r.dist a p) =
        (g.roundsAt idx p).map fun i => List.ofFn fun a => g.piE i a p := by
      rw [List.map_map]; rfl
    simp only [List.length_map, hm, hs p, py_bind_ok]
    rw [ht, py_bind_ok]
    simp only [he, py_bind_eq_ok, exists_unit, raiseIf_ok, decide_eq_false_iff_not]

theorem iwePredict_forall₂ (g : RegLog K n A L d e) (method : IweMethod) (dist : Fin n → Fin A → Fin L → K)
    (clf : Classifier M K) (ms : Fin L → M) (idx : List (Fin n)) {vs : List K}
    (h : (g.iweConfig method).predict clf ms ((idx.map (g.clfRow dist)).map fun r => (r.x, r.action))
      (some ((idx.map (g.clfRow dist)).map (·.position))) = .ok vs) :
    List.Forall₂ (fun i v => ∃ pr, (clf.proba (ms (g.position i)) (g.feature i (g.action i)))[1]? = some pr ∧
      pr ≠ 1 ∧ v = pr / (1 - pr)) idx vs := by
  unfold IweConfig.predict at h
  simp only [checkArray2, py_bind_ok, py_bind_eq_ok, exists_unit] at h
  obtain ⟨-, h⟩ := h
  simp only [List.map_map, List.zip_map'] at h
  rw [mapM_ok_iff, List.forall₂_map_left_iff] at h
  refine h.imp fun i v hv => ?_
  change iweRound clf ⟨A, e, g.table⟩ ms (List.ofFn (g.context i)) (g.action i : ℕ) (g.position i : ℕ) = _ at hv
  unfold iweRound at hv
  have hp := (g.position i).isLt
  have hcond : (0 : ℤ) ≤ ((g.position i : ℕ) : ℤ) ∧ ((g.position i : ℕ) : ℤ) < (L : ℤ) := ⟨by omega, by omega⟩
  rw [dif_pos hcond, feature_ok, py_bind_ok] at hv
  rw [py_bind_eq_ok] at hv
  obtain ⟨pr, hpr, hv⟩ := hv
  dsimp only at hv
  refine ⟨pr, (probaColumn_nat (a := 1)).1 hpr, ?_⟩
  by_cases h1 : pr = 1
  · rw [h1, sub_self, npDiv_zero] at hv
    cases hv
  · rw [npDiv_ok (sub_ne_zero.2 (Ne.symm h1))] at hv
    exact ⟨h1, (Except.ok.inj hv).symm⟩

end RegLog

end Obp
