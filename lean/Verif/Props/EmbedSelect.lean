import Verif.Spec.Selection
import Verif.Props.Embed
import Verif.Props.Mse
import Mathlib.Data.List.Pairwise
import Mathlib.Data.List.Nodup

/-! # C49: embedding selection -/

set_option linter.unusedSectionVars false

namespace Obp
open Log

/-! ### Combinations -/

theorem mem_combinations {α : Type} {l : List α} {k : ℕ} {s : List α} :
    s ∈ combinations l k ↔ s.Sublist l ∧ s.length = k := by
  induction l generalizing k s with
  | nil =>
    cases k with
    | zero => simp [combinations]
    | succ k =>
      simp only [combinations, List.not_mem_nil, List.sublist_nil, false_iff, not_and]
      rintro rfl; simp
  | cons x xs ih =>
    cases k with
    | zero =>
      simp only [combinations, List.mem_singleton]
      constructor
      · rintro rfl; simp
      · rintro ⟨-, h⟩; exact List.length_eq_zero_iff.1 h
    | succ k =>
      simp only [combinations, List.mem_append, List.mem_map, ih, List.sublist_cons_iff]
      constructor
      · rintro (⟨t, ⟨h1, h2⟩, rfl⟩ | ⟨h1, h2⟩)
        · exact ⟨Or.inr ⟨t, rfl, h1⟩, by simp [h2]⟩
        · exact ⟨Or.inl h1, h2⟩
      · rintro ⟨h | ⟨t, rfl, h⟩, hl⟩
        · exact Or.inr ⟨h, hl⟩
        · exact Or.inl ⟨t, ⟨h, by simpa using hl⟩, rfl⟩

theorem nodup_combinations {α : Type} {l : List α} (hl : l.Nodup) (k : ℕ) : (combinations l k).Nodup := by
  induction l generalizing k with
  | nil => cases k <;> simp [combinations]
  | cons x xs ih =>
    rw [List.nodup_cons] at hl
    cases k with
    | zero => simp [combinations]
    | succ k =>
      rw [combinations, List.nodup_append]
      refine ⟨(ih hl.2 k).map (fun a b h => by simpa using h), ih hl.2 _, ?_⟩
      rintro a ha b hb rfl
      obtain ⟨t, -, rfl⟩ := List.mem_map.1 ha
      exact hl.1 ((mem_combinations.1 hb).1.subset (by simp))

theorem combinations_self {α : Type} (l : List α) : combinations l l.length = [l] := by
  have big : ∀ (l : List α) k, l.length < k → combinations l k = [] := by
    intro l k h
    rw [List.eq_nil_iff_forall_not_mem]
    intro s hs
    have := mem_combinations.1 hs
    have := this.1.length_le
    omega
  induction l with
  | nil => rfl
  | cons x xs ih =>
    rw [List.length_cons, combinations, ih, big xs _ (by omega)]
    simp

/-! ### The order in which candidates are visited -/

theorem byOrder_map {α β : Type} (srt : List ℝ → List ℕ) (cs : List α) (f : α → β) (key : β → ℝ) :
    byOrder srt (cs.map f) key = (byOrder srt cs (key ∘ f)).map f := by
  unfold byOrder
  rw [List.map_map, List.map_filterMap]
  congr 1
  funext i
  simp

theorem byOrder_perm {α : Type} {srt : List ℝ → List ℕ} (hs : Argsort srt) (cs : List α) (key : α → ℝ) :
    (byOrder srt cs key).Perm cs := by
  unfold byOrder
  have h1 := (hs (cs.map key)).1
  rw [List.length_map] at h1
  have h2 : ((srt (cs.map key)).reverse.filterMap (cs[·]?)).Perm ((List.range cs.length).filterMap (cs[·]?)) :=
    ((List.reverse_perm _).trans h1).filterMap _
  refine h2.trans ?_
  have : (List.range cs.length).filterMap (cs[·]?) = cs := by
    have e : (List.range cs.length).filterMap (fun i => cs[i]?) =
        (List.finRange cs.length).map fun i => cs[i] := by
      rw [← List.map_coe_finRange_eq_range, List.filterMap_map]
      rw [← List.filterMap_eq_map]
      congr 1
      funext i
      simp
    rw [e]
    apply List.ext_getElem <;> simp
  rw [this]

theorem byOrder_sorted {α : Type} {srt : List ℝ → List ℕ} (hs : Argsort srt) (cs : List α) (key : α → ℝ) :
    (byOrder srt cs key).Pairwise fun a b => key b ≤ key a := by
  unfold byOrder
  rw [List.pairwise_filterMap, List.pairwise_reverse]
  refine (hs (cs.map key)).2.imp ?_
  intro i j hij a ha b hb
  simpa [ha, hb] using hij

/-! ### The scan -/

/-- Both methods scan a fixed sequence of candidates. -/
noncomputable def scanRun : List (ℝ × ℝ) → List (ℝ × ℝ) → Option (List ℝ) → Py ℝ
  | _, [], tj => finalTheta tj
  | acc, c :: cs, _ =>
    if embAccept acc c then scanRun (acc ++ [c]) cs (some (acc.map Prod.fst))
    else lastTheta (acc.map Prod.fst)

theorem scanRun_append (cs rest acc : List (ℝ × ℝ)) (tj : Option (List ℝ)) :
    scanRun acc (cs ++ rest) tj = match acceptLoop cs acc tj with
      | .ret v => v
      | .cont a t => scanRun a rest t := by
  induction cs generalizing acc tj with
  | nil => rfl
  | cons c cs ih =>
    simp only [List.cons_append, scanRun, acceptLoop]
    split
    · rw [ih]
    · rfl

theorem embAccept_iff (acc : List (ℝ × ℝ)) (c : ℝ × ℝ) (cs : List (ℝ × ℝ)) :
    embAccept acc c = true ↔ EmbCompatible (acc ++ c :: cs) acc.length := by
  unfold embAccept EmbCompatible
  rw [List.all_eq_true]
  have hc : (acc ++ c :: cs).getD acc.length (0, 0) = c := by simp [List.getD_eq_getElem?_getD]
  constructor
  · intro h j hj
    have := h acc[j] (List.getElem_mem hj)
    rw [hc]
    simpa [List.getD_eq_getElem?_getD, List.getElem?_append_left hj, List.getElem?_eq_getElem hj] using this
  · intro h x hx
    obtain ⟨j, hj, rfl⟩ := List.mem_iff_getElem.1 hx
    have := h j hj
    rw [hc] at this
    simpa [List.getD_eq_getElem?_getD, List.getElem?_append_left hj, List.getElem?_eq_getElem hj] using this

theorem lastTheta_eq (acc cs : List (ℝ × ℝ)) (h : acc ≠ []) :
    lastTheta (acc.map Prod.fst) = .ok ((acc ++ cs).getD (acc.length - 1) (0, 0)).1 := by
  unfold lastTheta
  have hl : 0 < acc.length := List.length_pos_iff.2 h
  rw [List.getLast?_eq_getElem?, List.length_map, List.getElem?_map, List.getElem?_eq_getElem (by omega)]
  simp [List.getD_eq_getElem?_getD, List.getElem?_append_left (show acc.length - 1 < acc.length by omega),
    List.getElem?_eq_getElem (show acc.length - 1 < acc.length by omega)]

theorem scanRun_spec (acc cs : List (ℝ × ℝ)) (tj : Option (List ℝ)) (ha : acc ≠ []) (hc : cs ≠ []) :
    ∃ k, acc.length ≤ k ∧ k < (acc ++ cs).length ∧
      (∀ i, acc.length ≤ i → i < k → EmbCompatible (acc ++ cs) i) ∧
      (k + 1 = (acc ++ cs).length ∨ ¬ EmbCompatible (acc ++ cs) k) ∧
      scanRun acc cs tj = .ok ((acc ++ cs).getD (k - 1) (0, 0)).1 := by
  induction cs generalizing acc tj with
  | nil => exact absurd rfl hc
  | cons c cs ih =>
    have hiff := embAccept_iff acc c cs
    by_cases h : embAccept acc c = true
    · by_cases hcs : cs = []
      · subst hcs
        refine ⟨acc.length, le_rfl, by simp, fun i h1 h2 => by omega, Or.inl (by simp), ?_⟩
        simp only [scanRun, h, if_true, finalTheta]
        exact lastTheta_eq acc [c] ha
      · obtain ⟨k, h1, h2, h3, h4, h5⟩ := ih (acc ++ [c]) (some (acc.map Prod.fst)) (by simp) hcs
        have e : acc ++ [c] ++ cs = acc ++ c :: cs := by simp
        rw [e] at h2 h3 h4 h5
        simp only [List.length_append, List.length_singleton] at h1
        refine ⟨k, by omega, h2, fun i hi hik => ?_, h4, ?_⟩
        · rcases Nat.eq_or_lt_of_le hi with rfl | hlt
          · exact hiff.1 h
          · exact h3 i (by simp; omega) hik
        · simp only [scanRun, h, if_true]
          exact h5
    · refine ⟨acc.length, le_rfl, by simp, fun i h1 h2 => by omega, Or.inr fun h' => h (hiff.2 h'), ?_⟩
      have h' : embAccept acc c = false := by simpa using h
      simp only [scanRun, h', Bool.false_eq_true, if_false]
      exact lastTheta_eq acc (c :: cs) ha

theorem scanRun_returns (c : ℝ × ℝ) (cs : List (ℝ × ℝ)) (hc : cs ≠ []) :
    ∃ v, scanRun [c] cs none = .ok v ∧ ReturnsBeforeLastTested (c :: cs) v := by
  obtain ⟨k, h1, h2, h3, h4, h5⟩ := scanRun_spec [c] cs none (by simp) hc
  exact ⟨_, h5, k, h1, h2, h3, h4, rfl⟩

/-! ### Exact method -/

theorem exactLoop_eq {srt : List ℝ → List ℕ} {ev : List ℕ → Py (ℝ × ℝ)} {est : List ℕ → ℝ × ℝ}
    {feats : List ℕ} (is : List ℕ)
    (hev : ∀ i ∈ is, ∀ s, s.Sublist feats → s.length = i → ev s = .ok (est s))
    (acc : List (ℝ × ℝ)) (tj : Option (List ℝ)) (ha : acc ≠ []) :
    exactLoop srt ev feats is acc tj = scanRun acc
      ((is.flatMap fun i => byOrder srt (combinations feats i) fun s => (est s).2).map est) tj := by
  induction is generalizing acc tj with
  | nil => rfl
  | cons i is ih =>
    have h1 : (combinations feats i).mapM ev = .ok ((combinations feats i).map est) :=
      mapM_map_ok fun s hs => hev i (by simp) s (mem_combinations.1 hs).1 (mem_combinations.1 hs).2
    have he : acc.isEmpty = false := by simpa using ha
    have hne : ∀ cs acc tj a t, acc ≠ [] → acceptLoop cs acc tj = .cont a t → a ≠ [] := by
      intro cs
      induction cs with
      | nil => intro acc tj a t h h'; simp only [acceptLoop, PruneStep.cont.injEq] at h'; rw [← h'.1]; exact h
      | cons c cs ih =>
        intro acc tj a t h h'
        simp only [acceptLoop] at h'
        split at h'
        · exact ih _ _ _ _ (by simp) h'
        · cases h'
    simp only [exactLoop, h1, py_bind_ok, he, Bool.false_eq_true, if_false]
    rw [List.flatMap_cons, List.map_append, scanRun_append, byOrder_map]
    have e : (Prod.snd ∘ est) = fun s => (est s).2 := rfl
    rw [e]
    cases hl : acceptLoop ((byOrder srt (combinations feats i) fun s => (est s).2).map est) acc tj with
    | ret v => rfl
    | cont a t => exact ih (fun j hj => hev j (by simp [hj])) a t (hne _ _ _ _ _ ha hl)

theorem sizesDown_cons {n m : ℕ} (h : m ≤ n) : sizesDown n m = n :: ((List.range n).filter fun i => decide (m ≤ i)).reverse := by
  unfold sizesDown
  rw [List.range_succ, List.filter_append]
  simp [h]

/-- **C49.** The exact method, for `1 <= min_emb_dim < n_emb_dim` and whatever the estimates and widths
of the embedding subsets are. The candidates are all subsets of at least `min_emb_dim` dimensions,
from large to small, within a size by non-increasing width; the estimate returned is that of the
candidate visited just before the last one tested. (The documentation asks for
`ReturnsLastAccepted`; the two differ exactly when every candidate is accepted:
`C49_rules_agree`, `C49_all_accepted_differs`.) -/
theorem C49_exact_rule_partial {srt : List ℝ → List ℕ} (hs : Argsort srt) {ev : List ℕ → Py (ℝ × ℝ)}
    {est : List ℕ → ℝ × ℝ} {nEmb minEmb : ℕ} (hlt : minEmb < nEmb)
    (hev : ∀ s, s.Sublist (List.range nEmb) → minEmb ≤ s.length → ev s = .ok (est s)) :
    ∃ subsets : List (List ℕ), subsets.head? = some (List.range nEmb) ∧ subsets.Nodup ∧
      (∀ s, s ∈ subsets ↔ s.Sublist (List.range nEmb) ∧ minEmb ≤ s.length) ∧
      subsets.Pairwise (fun s t => t.length ≤ s.length ∧ (t.length = s.length → (est t).2 ≤ (est s).2)) ∧
      ∃ v, exactPruning srt ev nEmb minEmb = .ok v ∧ ReturnsBeforeLastTested (subsets.map est) v := by
  set feats := List.range nEmb with hfeats
  set is := ((List.range nEmb).filter fun i => decide (minEmb ≤ i)).reverse with his
  have hmem : ∀ i, i ∈ is ↔ minEmb ≤ i ∧ i < nEmb := by
    intro i; simp [his, and_comm]
  set rest := is.flatMap fun i => byOrder srt (combinations feats i) fun s => (est s).2 with hrest
  have hmemr : ∀ s, s ∈ rest ↔ s.Sublist feats ∧ minEmb ≤ s.length ∧ s.length < nEmb := by
    intro s
    simp only [hrest, List.mem_flatMap, (byOrder_perm hs _ _).mem_iff, mem_combinations, hmem]
    constructor
    · rintro ⟨i, h, h1, rfl⟩; exact ⟨h1, h⟩
    · rintro ⟨h1, h2⟩; exact ⟨_, h2, h1, rfl⟩
  have hsorted : is.Pairwise (fun i j => j < i) := by
    rw [his, List.pairwise_reverse]
    exact (List.pairwise_lt_range).filter _
  have hlen : ∀ s : List ℕ, s.Sublist feats → s.length ≤ nEmb := fun s h => by
    have := h.length_le; simpa [hfeats] using this
  refine ⟨feats :: rest, rfl, ?_, ?_, ?_, ?_⟩
  · rw [List.nodup_cons]
    refine ⟨fun h => ?_, ?_⟩
    · have := ((hmemr _).1 h).2.2
      simp [hfeats] at this
    · rw [hrest, List.nodup_flatMap]
      refine ⟨fun i _ => ((byOrder_perm hs _ _).nodup_iff).2 (nodup_combinations List.nodup_range _), ?_⟩
      refine hsorted.imp ?_
      intro i j hij s h1 h2
      rw [(byOrder_perm hs _ _).mem_iff, mem_combinations] at h1 h2
      omega
  · intro s
    rw [List.mem_cons, hmemr]
    constructor
    · rintro (rfl | h)
      · exact ⟨List.Sublist.refl _, by simp [hfeats]; omega⟩
      · exact ⟨h.1, h.2.1⟩
    · rintro ⟨h1, h2⟩
      rcases Nat.lt_or_ge s.length nEmb with h | h
      · exact Or.inr ⟨h1, h2, h⟩
      · exact Or.inl (h1.eq_of_length_le (by simpa [hfeats] using h))
  · rw [List.pairwise_cons]
    constructor
    · intro s h
      have := (hmemr s).1 h
      have e : feats.length = nEmb := by simp [hfeats]
      exact ⟨by omega, fun h => by omega⟩
    · rw [hrest, List.pairwise_flatMap]
      constructor
      · intro i _
        have h1 := byOrder_sorted hs (combinations feats i) fun s => (est s).2
        have h2 : ∀ s ∈ byOrder srt (combinations feats i) fun s => (est s).2, s.length = i := by
          intro s h
          rw [(byOrder_perm hs _ _).mem_iff, mem_combinations] at h
          exact h.2
        refine h1.imp_of_mem ?_
        intro a b ha hb hab
        exact ⟨by rw [h2 a ha, h2 b hb], fun _ => hab⟩
      · refine hsorted.imp ?_
        intro i j hij s h1 t h2
        rw [(byOrder_perm hs _ _).mem_iff, mem_combinations] at h1 h2
        exact ⟨by omega, fun h => by omega⟩
  · have hne : rest.map est ≠ [] := by
      intro h
      rw [List.map_eq_nil_iff] at h
      have : List.range (nEmb - 1) ∈ rest := by
        rw [hmemr]
        exact ⟨List.range_sublist.2 (by omega), by simp; omega, by simp; omega⟩
      rw [h] at this; simp at this
    obtain ⟨v, h1, h2⟩ := scanRun_returns (est feats) (rest.map est) hne
    refine ⟨v, ?_, by simpa using h2⟩
    rw [← h1]
    unfold exactPruning
    rw [sizesDown_cons hlt.le]
    have hc : combinations feats nEmb = [feats] := by
      have := combinations_self feats
      rwa [show feats.length = nEmb by simp [hfeats]] at this
    have hfull : ev feats = .ok (est feats) := hev feats (List.Sublist.refl _) (by simp [hfeats]; omega)
    rw [exactLoop, ← hfeats, hc]
    have hm : ([feats].mapM ev) = .ok [est feats] := by
      simp [hfull]
    have hempty : byOrder srt ([] : List (ℝ × ℝ)) Prod.snd = [] :=
      (byOrder_perm hs _ _).eq_nil
    simp only [hm, py_bind_ok, List.isEmpty_nil, if_true, List.take_succ_cons, List.take_zero,
      List.drop_succ_cons, List.drop_zero, hempty, acceptLoop]
    rw [exactLoop_eq (est := est) _ (fun i hi s h1 h2 => hev s h1 (by rw [h2]; exact ((hmem i).1 hi).1)) _ _
      (by simp)]

/-- The two rules agree whenever some candidate is rejected. -/
theorem C49_rules_agree {seq : List (ℝ × ℝ)} {v : ℝ} (h : ∃ k, 1 ≤ k ∧ k < seq.length ∧ ¬ EmbCompatible seq k) :
    ReturnsBeforeLastTested seq v ↔ ReturnsLastAccepted seq v := by
  obtain ⟨k0, h0, h0', hk0⟩ := h
  constructor
  · rintro ⟨k, h1, h2, h3, h4, h5⟩
    have hkc : ¬ EmbCompatible seq k := by
      rcases h4 with h4 | h4
      · intro hc
        rcases Nat.lt_or_ge k0 k with hlt | hge
        · exact hk0 (h3 k0 h0 hlt)
        · have : k0 = k := by omega
          exact hk0 (this ▸ hc)
      · exact h4
    exact ⟨k - 1, by omega, fun i hi hik => h3 i hi (by omega), Or.inr (by rwa [Nat.sub_add_cancel h1]), h5⟩
  · rintro ⟨k, h2, h3, h4, h5⟩
    have hkl : ¬ EmbCompatible seq (k + 1) := by
      rcases h4 with h4 | h4
      · exact absurd (h3 k0 h0 (by omega)) hk0
      · exact h4
    have hlt : k + 1 < seq.length := by
      by_contra hc
      exact hk0 (h3 k0 h0 (by omega))
    exact ⟨k + 1, by omega, hlt, fun i hi hik => h3 i hi (by omega), Or.inr hkl, by simpa using h5⟩

/-- When all candidates are accepted, the code returns the last but one. -/
theorem C49_all_accepted_differs {seq : List (ℝ × ℝ)} {v : ℝ} (hl : 2 ≤ seq.length)
    (h : ∀ k, 1 ≤ k → k < seq.length → EmbCompatible seq k) :
    (ReturnsBeforeLastTested seq v ↔ v = (seq.getD (seq.length - 2) (0, 0)).1) ∧
      (ReturnsLastAccepted seq v ↔ v = (seq.getD (seq.length - 1) (0, 0)).1) := by
  constructor
  · constructor
    · rintro ⟨k, h1, h2, h3, h4, h5⟩
      have : k + 1 = seq.length := h4.resolve_right fun hc => hc (h k h1 h2)
      rw [h5, show k - 1 = seq.length - 2 by omega]
    · intro hv
      exact ⟨seq.length - 1, by omega, by omega, fun i hi hik => h i hi (by omega), Or.inl (by omega), by
        rw [hv]; congr 2⟩
  · constructor
    · rintro ⟨k, h2, h3, h4, h5⟩
      have : k + 1 = seq.length := by
        rcases h4 with h4 | h4
        · exact h4
        · by_contra hne; exact h4 (h (k + 1) (by omega) (by omega))
      rw [h5, show k = seq.length - 1 by omega]
    · intro hv
      exact ⟨seq.length - 1, by omega, fun i hi hik => h i hi (by omega), Or.inl (by omega), hv⟩

/-- **C49, negative part.** For `min_emb_dim >= n_emb_dim` the exact method always fails with
UnboundLocalError: equal case. -/
theorem C49_exact_unbound_eq {srt : List ℝ → List ℕ} (hs : Argsort srt) {ev : List ℕ → Py (ℝ × ℝ)} {nEmb : ℕ}
    {e : ℝ × ℝ} (hev : ev (List.range nEmb) = .ok e) :
    exactPruning srt ev nEmb nEmb = .error .unboundLocalError := by
  unfold exactPruning
  rw [sizesDown_cons le_rfl]
  have h0 : ((List.range nEmb).filter fun i => decide (nEmb ≤ i)) = [] := by
    rw [List.filter_eq_nil_iff]; intro i hi; simpa using hi
  have hc : combinations (List.range nEmb) nEmb = [List.range nEmb] := by
    have := combinations_self (List.range nEmb)
    rwa [List.length_range] at this
  have hempty : byOrder srt ([] : List (ℝ × ℝ)) Prod.snd = [] := (byOrder_perm hs _ _).eq_nil
  rw [h0, exactLoop, hc]
  have hm : ([List.range nEmb].mapM ev) = .ok [e] := by simp [hev]
  simp only [hm, py_bind_ok, List.isEmpty_nil, if_true, List.take_succ_cons, List.take_zero,
    List.drop_succ_cons, List.drop_zero, hempty, acceptLoop, List.reverse_nil]
  rfl

/-- **C49, negative part.** The exact method with `min_emb_dim > n_emb_dim`. -/
theorem C49_exact_unbound_gt {srt : List ℝ → List ℕ} {ev : List ℕ → Py (ℝ × ℝ)} {nEmb minEmb : ℕ}
    (h : nEmb < minEmb) : exactPruning srt ev nEmb minEmb = .error .unboundLocalError := by
  unfold exactPruning
  have h0 : sizesDown nEmb minEmb = [] := by
    unfold sizesDown
    rw [List.reverse_eq_nil_iff, List.filter_eq_nil_iff]
    intro i hi; simp at hi ⊢; omega
  rw [h0]
  rfl

/-- **C49, negative part.** The greedy method with `min_emb_dim >= n_emb_dim` always fails with
UnboundLocalError. -/
theorem C49_greedy_unbound {srt : List ℝ → List ℕ} {ev : List ℕ → Py (ℝ × ℝ)} {nEmb minEmb : ℕ} {e : ℝ × ℝ}
    (hev : ev (List.range nEmb) = .ok e) (h : nEmb ≤ minEmb) :
    greedyPruning srt ev nEmb minEmb = .error .unboundLocalError := by
  unfold greedyPruning
  rw [hev, py_bind_ok, greedyLoop, if_neg (by simp; omega)]
  rfl

/-! ### Greedy method -/

theorem greedyLoop_eq {srt : List ℝ → List ℕ} (hs : Argsort srt) {ev : List ℕ → Py (ℝ × ℝ)}
    {est : List ℕ → ℝ × ℝ} {minEmb : ℕ} (m : ℕ) (feats : List ℕ) (hm : feats.length = m) (hnd : feats.Nodup)
    (hev : ∀ s, s.Sublist feats → minEmb ≤ s.length → ev s = .ok (est s)) :
    ∃ seq, GreedySeq est minEmb feats seq ∧ (minEmb < feats.length → seq ≠ []) ∧
      (∀ s ∈ seq, s.Sublist feats ∧ minEmb ≤ s.length) ∧
      ∀ acc tj, greedyLoop srt ev minEmb feats acc tj = scanRun acc (seq.map est) tj := by
  induction m generalizing feats with
  | zero =>
    refine ⟨[], .stop _ (by omega), by omega, by simp, fun acc tj => ?_⟩
    rw [greedyLoop, if_neg (by omega)]
    rfl
  | succ m ih =>
    by_cases hlt : minEmb < feats.length
    swap
    · refine ⟨[], .stop _ (by omega), by omega, by simp, fun acc tj => ?_⟩
      rw [greedyLoop, if_neg hlt]
      rfl
    have hlen : ∀ d ∈ feats, (without feats d).length = m := by
      intro d hd
      have h1 : without feats d = feats.erase d := by
        rw [without, hnd.erase_eq_filter]; congr 1; funext x; simp [bne, beq_eq_decide]
      rw [h1, List.length_erase_of_mem hd, hm]; rfl
    set cands : List (ℕ × ℝ × ℝ) := feats.map fun d => (d, est (without feats d)) with hcands
    have hmap : (feats.mapM fun d => do let e ← ev (without feats d); pure (d, e)) = (.ok cands : Py _) :=
      mapM_map_ok fun d hd => by
        rw [hev (without feats d) List.filter_sublist (by rw [hlen d hd]; omega)]; rfl
    set order := byOrder srt feats fun d => (est (without feats d)).2 with horder
    have hord : byOrder srt cands (fun c => c.2.2) = order.map fun d => (d, est (without feats d)) := by
      rw [hcands, byOrder_map]
      rfl
    have hperm : order.Perm feats := byOrder_perm hs _ _
    have hone : order ≠ [] := by
      intro h
      rw [h] at hperm
      have := hperm.length_eq
      simp at this; omega
    obtain ⟨d, hd⟩ : ∃ d, order.getLast? = some d := ⟨_, List.getLast?_eq_some_getLast hone⟩
    have hdf : d ∈ feats := hperm.mem_iff.1 (List.mem_of_getLast? hd)
    obtain ⟨seq, g1, -, g3, g4⟩ := ih (without feats d) (hlen d hdf) (hnd.filter _)
      (fun s h1 h2 => hev s (h1.trans List.filter_sublist) h2)
    refine ⟨order.map (without feats) ++ seq, ?_, by simp [hone], ?_, ?_⟩
    · exact .step feats order d seq hlt hperm (byOrder_sorted hs _ _) hd g1
    · intro s hs'
      rcases List.mem_append.1 hs' with h | h
      · obtain ⟨e, he, rfl⟩ := List.mem_map.1 h
        exact ⟨List.filter_sublist, by rw [hlen e (hperm.mem_iff.1 he)]; omega⟩
      · exact ⟨(g3 s h).1.trans List.filter_sublist, (g3 s h).2⟩
    · intro acc tj
      rw [greedyLoop, if_pos hlt, hmap]
      simp only [py_bind_ok, hord, List.map_map, List.getLast?_map, hd, Option.map_some]
      rw [List.map_append, scanRun_append, List.map_map]
      have e1 : (Prod.snd ∘ fun d => (d, est (without feats d))) = est ∘ without feats := rfl
      rw [e1]
      cases acceptLoop (order.map (est ∘ without feats)) acc tj with
      | ret v => rfl
      | cont a t =>
        dsimp only
        rw [dif_pos hdf]
        exact g4 a t

/-- **C49.** The greedy method, for `min_emb_dim < n_emb_dim` and whatever the estimates and widths
are: the candidates are visited as described by `GreedySeq`, and the estimate returned is that of the
candidate visited just before the last one tested. -/
theorem C49_greedy_rule_partial {srt : List ℝ → List ℕ} (hs : Argsort srt) {ev : List ℕ → Py (ℝ × ℝ)}
    {est : List ℕ → ℝ × ℝ} {nEmb minEmb : ℕ} (hlt : minEmb < nEmb)
    (hev : ∀ s, s.Sublist (List.range nEmb) → minEmb ≤ s.length → ev s = .ok (est s)) :
    ∃ subsets : List (List ℕ), GreedySeq est minEmb (List.range nEmb) subsets ∧
      (∀ s ∈ subsets, s.Sublist (List.range nEmb) ∧ minEmb ≤ s.length) ∧
      ∃ v, greedyPruning srt ev nEmb minEmb = .ok v ∧
        ReturnsBeforeLastTested ((List.range nEmb :: subsets).map est) v := by
  obtain ⟨seq, g1, g2, g3, g4⟩ := greedyLoop_eq hs (minEmb := minEmb) nEmb (List.range nEmb) (by simp)
    List.nodup_range hev
  have hne : seq.map est ≠ [] := by
    rw [Ne, List.map_eq_nil_iff]; exact g2 (by simpa using hlt)
  obtain ⟨v, h1, h2⟩ := scanRun_returns (est (List.range nEmb)) (seq.map est) hne
  refine ⟨seq, g1, g3, v, ?_, by simpa using h2⟩
  unfold greedyPruning
  rw [hev _ (List.Sublist.refl _) (by simp; omega), py_bind_ok, g4, h1]

/-! ### The API -/

section api
variable {n A L C D : ℕ}

/-- A list of dimension numbers as a map. -/
def pick (S : List ℕ) (h : ∀ c ∈ S, c < D) : Fin S.length → Fin D :=
  fun j => ⟨S[j], h _ (List.getElem_mem _)⟩

theorem restrict_eq (g : EmbLog ℝ n A L C D) (ctx : Arr2 ℝ) (S : List ℕ) (h : ∀ c ∈ S, c < D) :
    (g.embIn (some ⟨A, C, D, g.pEA⟩) ctx).restrict S =
      .ok ((g.restrict (pick S h)).embIn (some ⟨A, C, S.length, (g.restrict (pick S h)).pEA⟩) ctx) := by
  unfold EmbIn.restrict
  have h1 : (g.embIn (some ⟨A, C, D, g.pEA⟩) ctx).embed.cols S =
      .ok ⟨n, S.length, fun i j => ((g.embed i (pick S h j) : ℕ) : ℤ)⟩ := by
    unfold Arr2.cols; exact dif_pos h
  have h2 : (Arr3.mk A C D g.pEA).dims S = .ok ⟨A, C, S.length, fun a c j => g.pEA a c (pick S h j)⟩ := by
    unfold Arr3.dims; exact dif_pos h
  rw [h1, py_bind_ok]
  show (do let p' ← (Arr3.mk A C D g.pEA).dims S; _) = _
  rw [h2, py_bind_ok]
  rfl

theorem restrict_marginal {D' : ℕ} (g : EmbLog ℝ n A L C D) (s : Fin D' → Fin D) (pi) (i : Fin n) (d : Fin D') :
    (g.restrict s).marginal pi i d = g.marginal pi i (s d) := rfl

/-- Width of the interval around the MIPS estimate used in the selection. -/
noncomputable def EmbLog.width (g : EmbLog ℝ n A L C D) (tq : ℝ) : ℝ :=
  √(popVar (fun i => g.reward i * g.weight i) / ((n : ℝ) - 1)) * tq

theorem embDev_eq (g : EmbLog ℝ n A L C D) (ctx : Arr2 ℝ) (hn : 2 ≤ n) (tq : ℝ)
    (hb : ∀ i d, g.marginal g.piB i d ≠ 0) (nA : ℕ) (lrn) :
    embDev nA lrn tq (g.embIn (some ⟨A, C, D, g.pEA⟩) ctx) =
      .ok (avg (fun i => g.reward i * g.weight i), g.width tq) := by
  have h0 : 0 < n := by omega
  have hn2 : (2 : ℝ) ≤ n := by exact_mod_cast hn
  unfold embDev embWeights
  simp only [EmbLog.embIn]
  have := g.weightsGiven_eq (some ⟨A, C, D, g.pEA⟩) ctx hb
  simp only [EmbLog.embIn] at this
  have hs : ¬ popVar (fun i => g.reward i * g.weight i) / ((n : ℝ) - 1) < 0 := by
    rw [not_lt]
    refine div_nonneg ?_ (by linarith)
    unfold popVar
    exact div_nonneg (Finset.sum_nonneg fun i _ => sq_nonneg _) (by positivity)
  rw [this, py_bind_ok, bop_ofFn, py_bind_ok, npVar_ofFn h0, py_bind_ok, List.length_ofFn,
    npDiv_ok (by linarith : (n : ℝ) - 1 ≠ 0), py_bind_ok, npSqrt, if_neg hs, py_bind_ok, npMean_ofFn h0]
  rfl

/-- **C49.** With embedding selection (either method, either class), at least two embedding
dimensions, `min_emb_dim` smaller than their number, at least two rounds, and every logged embedding
possible under the behaviour policy, `estimate_policy_value` succeeds and returns exactly the plain
MIPS estimate on the log with some subset of at least `min_emb_dim` embedding dimensions. (Which one:
`C49_exact_rule_partial`, `C49_greedy_rule_partial`. Also for the self-normalised class it is the
*unnormalised* estimate.) -/
theorem C49_api_value {g : EmbLog ℝ n A L C D} (hg : g.Valid) (hn : 2 ≤ n) (hD : 2 ≤ D)
    (hb : ∀ i d, g.marginal g.piB i d ≠ 0) {srt : List ℝ → List ℕ} (hs : Argsort srt) {minEmb : ℕ}
    (hmin : minEmb < D) (k : EmbKind) (sel : EmbSel) (nA : ℕ) (lrn) (tq : ℝ) :
    ∃ (D' : ℕ) (s : Fin D' → Fin D) (v : ℝ), minEmb ≤ D' ∧ D' ≤ D ∧ StrictMono s ∧
      k.estimatePolicyValue nA lrn (some sel) minEmb tq srt g.args = .ok v ∧
      EmbKind.mipw.plainValue nA lrn (g.restrict s).args = .ok v := by
  set ctx : Arr2 ℝ := ⟨0, 0, fun i _ => i.elim0⟩ with hctx
  set ev : List ℕ → Py (ℝ × ℝ) := fun comb => do
    let r' ← (g.embIn (some ⟨A, C, D, g.pEA⟩) ctx).restrict comb
    embDev nA lrn tq r' with hevd
  classical
  set est : List ℕ → ℝ × ℝ := fun S => if h : ∀ c ∈ S, c < D then
    (avg (fun i => (g.restrict (pick S h)).reward i * (g.restrict (pick S h)).weight i),
      (g.restrict (pick S h)).width tq) else (0, 0) with hest
  have hlt : ∀ S : List ℕ, S.Sublist (List.range D) → ∀ c ∈ S, c < D := fun S h c hc => by
    simpa using h.subset hc
  have hev : ∀ S : List ℕ, S.Sublist (List.range D) → minEmb ≤ S.length → ev S = .ok (est S) := by
    intro S hS _
    simp only [hevd, hest]
    rw [dif_pos (hlt S hS), restrict_eq g ctx S (hlt S hS), py_bind_ok]
    exact embDev_eq (g.restrict (pick S (hlt S hS))) ctx hn tq (fun i d => hb i _) nA lrn
  have key : ∀ (subsets : List (List ℕ)) (v : ℝ),
      (∀ S ∈ subsets, S.Sublist (List.range D) ∧ minEmb ≤ S.length) →
      ReturnsBeforeLastTested (subsets.map est) v →
      ∃ (D' : ℕ) (s : Fin D' → Fin D), minEmb ≤ D' ∧ D' ≤ D ∧ StrictMono s ∧
        EmbKind.mipw.plainValue nA lrn (g.restrict s).args = .ok v := by
    rintro subsets v hsub ⟨j, h1, h2, -, -, rfl⟩
    rw [List.length_map] at h2
    have hj : j - 1 < subsets.length := by omega
    have hm := hsub _ (List.getElem_mem hj)
    set S := subsets[j - 1] with hS
    refine ⟨S.length, pick S (hlt S hm.1), hm.2, by simpa using hm.1.length_le, ?_, ?_⟩
    · have hp : S.Pairwise (· < ·) := (List.pairwise_lt_range).sublist hm.1
      intro a b hab
      exact List.pairwise_iff_getElem.1 hp a b a.2 b.2 hab
    · have e : (subsets.map est).getD (j - 1) (0, 0) = est S := by
        rw [List.getD_eq_getElem?_getD, List.getElem?_map, List.getElem?_eq_getElem hj]
        rfl
      rw [e, EmbLog.value_mipw (g := g.restrict (pick S (hlt S hm.1)))
        ⟨hg.nonempty, hg.piB_sum, hg.piE_sum⟩ (fun i d => hb i _)]
      simp only [hest]
      rw [dif_pos (hlt S hm.1)]
  unfold EmbKind.estimatePolicyValue
  rw [EmbLog.prepare_eq hg, py_bind_ok]
  have hd : (g.embIn (some ⟨A, C, D, g.pEA⟩) ctx).embed.d = D := rfl
  dsimp only
  rw [← hctx, hd, if_pos (by omega : 1 < D)]
  cases sel with
  | exact =>
    obtain ⟨subsets, -, -, h3, -, v, h5, h6⟩ := C49_exact_rule_partial hs hmin hev
    obtain ⟨D', s, a, b, c, d⟩ := key subsets v (fun S hS => (h3 S).1 hS) h6
    exact ⟨D', s, v, a, b, c, h5, d⟩
  | greedy =>
    obtain ⟨subsets, -, h3, v, h5, h6⟩ := C49_greedy_rule_partial hs hmin hev
    obtain ⟨D', s, a, b, c, d⟩ := key _ v (fun S hS => by
      rcases List.mem_cons.1 hS with rfl | h
      · exact ⟨List.Sublist.refl _, by simp; omega⟩
      · exact h3 S h) h6
    exact ⟨D', s, v, a, b, c, h5, d⟩

/-- **C49, negative part.** With `min_emb_dim >= n_emb_dim >= 2` the call always fails with
UnboundLocalError. -/
theorem C49_api_unbound {g : EmbLog ℝ n A L C D} (hg : g.Valid) (hn : 2 ≤ n) (hD : 2 ≤ D)
    (hb : ∀ i d, g.marginal g.piB i d ≠ 0) {srt : List ℝ → List ℕ} (hs : Argsort srt) {minEmb : ℕ}
    (hmin : D ≤ minEmb) (k : EmbKind) (sel : EmbSel) (nA : ℕ) (lrn) (tq : ℝ) :
    k.estimatePolicyValue nA lrn (some sel) minEmb tq srt g.args = .error .unboundLocalError := by
  unfold EmbKind.estimatePolicyValue
  rw [EmbLog.prepare_eq hg, py_bind_ok]
  set ctx : Arr2 ℝ := ⟨0, 0, fun i _ => i.elim0⟩ with hctx
  have hd : (g.embIn (some ⟨A, C, D, g.pEA⟩) ctx).embed.d = D := rfl
  have hlt : ∀ c ∈ List.range D, c < D := fun c hc => by simpa using hc
  have hev := embDev_eq (g.restrict (pick (List.range D) hlt)) ctx hn tq (fun i d => hb i _) nA lrn
  dsimp only
  rw [hd, if_pos (by omega : 1 < D)]
  have hev' : ∃ e, (do
      let r' ← (g.embIn (some ⟨A, C, D, g.pEA⟩) ctx).restrict (List.range D)
      embDev nA lrn tq r') = .ok e := by
    rw [restrict_eq g ctx _ hlt, py_bind_ok]
    exact ⟨_, hev⟩
  obtain ⟨e, hev'⟩ := hev'
  cases sel with
  | exact =>
    rcases Nat.eq_or_lt_of_le hmin with rfl | h
    · exact C49_exact_unbound_eq hs (ev := fun comb => do
        let r' ← (g.embIn (some ⟨A, C, D, g.pEA⟩) ctx).restrict comb
        embDev nA lrn tq r') hev'
    · exact C49_exact_unbound_gt h
  | greedy =>
    exact C49_greedy_unbound (ev := fun comb => do
        let r' ← (g.embIn (some ⟨A, C, D, g.pEA⟩) ctx).restrict comb
        embDev nA lrn tq r') hev' hmin

/-- One embedding dimension: the selection method is ignored. -/
theorem C49_one_dim {g : EmbLog ℝ n A L C 1} (hg : g.Valid) (srt : List ℝ → List ℕ) (minEmb : ℕ)
    (k : EmbKind) (sel : Option EmbSel) (nA : ℕ) (lrn) (tq : ℝ) :
    k.estimatePolicyValue nA lrn sel minEmb tq srt g.args = k.plainValue nA lrn g.args := by
  unfold EmbKind.estimatePolicyValue EmbKind.plainValue
  rw [EmbLog.prepare_eq hg, py_bind_ok, py_bind_ok]
  rfl

end api

/-! ### Examples -/

/-- A sorting function exists. -/
noncomputable def exArgsort (xs : List ℝ) : List ℕ :=
  (List.range xs.length).mergeSort fun i j => decide (xs[i]?.getD 0 ≤ xs[j]?.getD 0)

theorem exArgsort_argsort : Argsort exArgsort := by
  intro xs
  refine ⟨List.mergeSort_perm _ _, ?_⟩
  refine (List.pairwise_mergeSort (fun a b c h1 h2 => ?_) (fun a b => ?_) _).imp (fun h => by simpa using h)
  · simp only [decide_eq_true_eq] at *; exact le_trans h1 h2
  · simp only [Bool.or_eq_true, decide_eq_true_eq]; exact le_total _ _

/-- Estimates of two dimensions and their subsets; all are compatible. -/
noncomputable def exEst : List ℕ → ℝ × ℝ
  | [0, 1] => (0, 11)
  | [0] => (1, 10)
  | [1] => (2, 9)
  | _ => (0, 0)

/-- **C49, negative part.** Two embedding dimensions whose subsets are all accepted; the last accepted
subset has estimate 2, but 1 is returned. -/
theorem C49_not_last_accepted {srt : List ℝ → List ℕ} (hs : Argsort srt) :
    exactPruning srt (fun s => .ok (exEst s)) 2 1 = .ok 1 ∧
      (∀ v, ReturnsLastAccepted ([[0, 1], [0], [1]].map exEst) v ↔ v = 2) := by
  have hsq : (1 : ℝ) ≤ √6 := by
    rw [show (1 : ℝ) = √1 by simp]; exact Real.sqrt_le_sqrt (by norm_num)
  have h1 : srt [10, 9] = [1, 0] := by
    have h := hs [10, 9]
    have hp : (srt [10, 9]).Perm [0, 1] := h.1
    have hl := hp.length_eq
    match hsrt : srt [10, 9], hl with
    | [a, b], _ =>
      rw [hsrt] at hp h
      have hab : (a = 0 ∧ b = 1) ∨ (a = 1 ∧ b = 0) := by
        have ha : a ∈ [0, 1] := hp.mem_iff.1 (by simp)
        have hb : b ∈ [0, 1] := hp.mem_iff.1 (by simp)
        have hn : [a, b].Nodup := hp.nodup_iff.2 (by simp)
        simp at ha hb hn
        omega
      rcases hab with ⟨rfl, rfl⟩ | ⟨rfl, rfl⟩
      · have := h.2; norm_num at this
      · rfl
  have h0 : srt [] = [] := (hs []).1.eq_nil
  have hc1 : EmbCompatible ([[0, 1], [0], [1]].map exEst) 1 := by
    intro j hj
    obtain rfl : j = 0 := by omega
    norm_num [exEst]; linarith
  have hc2 : EmbCompatible ([[0, 1], [0], [1]].map exEst) 2 := by
    intro j hj
    obtain rfl | rfl : j = 0 ∨ j = 1 := by omega
    · norm_num [exEst]; linarith
    · norm_num [exEst]; linarith
  constructor
  · have hd : sizesDown 2 1 = [2, 1] := by decide
    have ha1 : embAccept [exEst [0, 1]] (exEst [0]) = true :=
      (embAccept_iff [exEst [0, 1]] (exEst [0]) [exEst [1]]).2 hc1
    have ha2 : embAccept [exEst [0, 1], exEst [0]] (exEst [1]) = true :=
      (embAccept_iff [exEst [0, 1], exEst [0]] (exEst [1]) []).2 hc2
    have hr : List.range 2 = [0, 1] := by decide
    unfold exactPruning
    rw [hd, hr]
    have hc2' : combinations [0, 1] 2 = [[0, 1]] := by decide
    have hc1' : combinations [0, 1] 1 = [[0], [1]] := by decide
    have hb : byOrder srt [exEst [0], exEst [1]] Prod.snd = [exEst [0], exEst [1]].reverse.reverse := by
      unfold byOrder
      have : [exEst [0], exEst [1]].map Prod.snd = [10, 9] := rfl
      rw [this, h1]; rfl
    have hb0 : byOrder srt ([] : List (ℝ × ℝ)) Prod.snd = [] := by
      unfold byOrder; simp [h0]
    have hm2 : ([[0, 1]].mapM fun s => (.ok (exEst s) : Py (ℝ × ℝ))) = .ok [exEst [0, 1]] := rfl
    have hm1 : ([[0], [1]].mapM fun s => (.ok (exEst s) : Py (ℝ × ℝ))) = .ok [exEst [0], exEst [1]] := rfl
    rw [exactLoop, hc2', hm2]
    simp only [py_bind_ok, List.isEmpty_nil, if_true, List.take_succ_cons, List.take_zero,
      List.drop_succ_cons, List.drop_zero, hb0, acceptLoop]
    rw [exactLoop, hc1', hm1]
    simp only [py_bind_ok, List.isEmpty_cons, Bool.false_eq_true, if_false, hb, List.reverse_reverse, acceptLoop,
      ha1, if_true, List.cons_append, List.nil_append, ha2]
    rfl
  · intro v
    rw [(C49_all_accepted_differs (seq := [[0, 1], [0], [1]].map exEst) (by simp) (by
      intro k h1 h2
      simp only [List.length_map, List.length_cons, List.length_nil] at h2
      obtain rfl | rfl : k = 1 ∨ k = 2 := by omega
      · exact hc1
      · exact hc2)).2]
    simp [exEst]

example := C49_not_last_accepted exArgsort_argsort
example := C49_exact_rule_partial exArgsort_argsort (ev := fun s => .ok (exEst s)) (est := exEst)
  (nEmb := 2) (minEmb := 1) (by decide) (fun _ _ _ => rfl)
example := C49_greedy_rule_partial exArgsort_argsort (ev := fun s => .ok (exEst s)) (est := exEst)
  (nEmb := 2) (minEmb := 1) (by decide) (fun _ _ _ => rfl)

/-- two rounds, two actions, two embedding dimensions -/
noncomputable def exEmbLog2 : EmbLog ℝ 2 2 1 2 2 where
  action := ![0, 1]
  reward := ![3, 5]
  embed := fun i _ => i
  piB := fun _ a _ => (![1 / 4, 3 / 4] a : ℝ)
  piE := fun _ a _ => (![1 / 2, 1 / 2] a : ℝ)
  position := fun _ => 0
  pEA := fun a c _ => if c = a then 3 / 4 else 1 / 4

theorem exEmbLog2_valid : exEmbLog2.Valid := by
  refine ⟨by decide, fun i l => ?_, fun i l => ?_⟩
  · have : ∑ a, exEmbLog2.piB i a l = 1 := by simp [exEmbLog2, Fin.sum_univ_two]; norm_num
    rw [this]; exact closeToOne_one
  · have : ∑ a, exEmbLog2.piE i a l = 1 := by simp [exEmbLog2, Fin.sum_univ_two]; norm_num
    rw [this]; exact closeToOne_one

theorem exEmbLog2_support (i d) : exEmbLog2.marginal exEmbLog2.piB i d ≠ 0 := by
  fin_cases i <;> norm_num [EmbLog.marginal, exEmbLog2, Fin.sum_univ_two]

example (sel k lrn) := C49_api_value exEmbLog2_valid (by decide) (by decide) exEmbLog2_support
  exArgsort_argsort (minEmb := 1) (by decide) k sel 2 lrn 1
example (sel k lrn) := C49_api_unbound exEmbLog2_valid (by decide) (by decide) exEmbLog2_support
  exArgsort_argsort (minEmb := 2) (by decide) k sel 2 lrn 1

end Obp
