import Verif.Model.RealDataset
import Verif.Props.EmbedReal

set_option linter.unusedSectionVars false

/-! # Loading the Open Bandit Dataset -/

namespace Obp

section order
variable {S : Type} [LinearOrder S]

theorem mem_colLevels {col : List S} {x : S} : x ∈ colLevels col ↔ x ∈ col := by
  unfold colLevels
  rw [(List.perm_insertionSort _ _).mem_iff, List.mem_dedup]

theorem colLevels_nodup (col : List S) : (colLevels col).Nodup := by
  unfold colLevels
  exact (List.perm_insertionSort _ _).nodup_iff.2 (List.nodup_dedup _)

theorem colLevels_sorted (col : List S) : (colLevels col).Pairwise (· ≤ ·) := by
  unfold colLevels
  exact List.pairwise_insertionSort _ _

theorem filter_length_toFinset {l : List S} (h : l.Nodup) (x : S) : (l.filter (· < x)).length = (l.toFinset.filter (· < x)).card := by
  rw [← List.toFinset_card_of_nodup (h.filter _)]
  congr 1
  ext y
  simp

theorem labelCode_card (col : List S) (x : S) : labelCode col x = (col.toFinset.filter (· < x)).card := by
  unfold labelCode
  rw [filter_length_toFinset (colLevels_nodup col)]
  congr 2
  ext y
  simp [mem_colLevels]

theorem denseRank_card (ys : List ℤ) (y : ℤ) : denseRank ys y = (ys.toFinset.filter (· < y)).card := by
  unfold denseRank
  rw [filter_length_toFinset (npUnique_nodup ys)]
  congr 2
  ext z
  simp [mem_npUnique']

/-- Ranks in a finite set are ordered as the elements. -/
theorem rank_lt_iff (s : Finset S) {x y : S} (hx : x ∈ s) : (s.filter (· < x)).card < (s.filter (· < y)).card ↔ x < y := by
  constructor
  · intro h
    by_contra hxy
    refine absurd h (not_lt.2 (Finset.card_le_card fun z hz => ?_))
    rw [Finset.mem_filter] at hz ⊢
    exact ⟨hz.1, hz.2.trans_le (not_lt.1 hxy)⟩
  · intro h
    refine Finset.card_lt_card ⟨fun z hz => ?_, fun hsub => ?_⟩
    · rw [Finset.mem_filter] at hz ⊢
      exact ⟨hz.1, hz.2.trans h⟩
    · have := hsub (Finset.mem_filter.2 ⟨hx, h⟩)
      exact lt_irrefl x (Finset.mem_filter.1 this).2

theorem rank_inj (s : Finset S) {x y : S} (hx : x ∈ s) (hy : y ∈ s) (h : (s.filter (· < x)).card = (s.filter (· < y)).card) : x = y := by
  rcases lt_trichotomy x y with h' | h' | h'
  · exact absurd ((rank_lt_iff s hx).2 h') (by omega)
  · exact h'
  · exact absurd ((rank_lt_iff s hy).2 h') (by omega)

/-- The ranks of the elements of a finite set are the numbers below its size. -/
theorem rank_image (s : Finset S) : s.image (fun x => (s.filter (· < x)).card) = Finset.range s.card := by
  refine Finset.eq_of_subset_of_card_le (fun k hk => ?_) ?_
  · obtain ⟨x, hx, rfl⟩ := Finset.mem_image.1 hk
    rw [Finset.mem_range]
    refine Finset.card_lt_card ⟨Finset.filter_subset _ _, fun h => ?_⟩
    exact lt_irrefl x (Finset.mem_filter.1 (h hx)).2
  · rw [Finset.card_range, Finset.card_image_of_injOn]
    intro x hx y hy h
    exact rank_inj s hx hy h

end order

section dummies
variable {S K : Type} [LinearOrder S] [Field K]

theorem flatMap_eq_iff {α β : Type} {f g : α → List β} : ∀ {ds : List α}, (∀ d ∈ ds, (f d).length = (g d).length) →
    (ds.flatMap f = ds.flatMap g ↔ ∀ d ∈ ds, f d = g d)
  | [], _ => by simp
  | d :: ds, h => by
      have ih := flatMap_eq_iff (f := f) (g := g) fun e (he : e ∈ ds) => h e (by simp [he])
      rw [List.flatMap_cons, List.flatMap_cons, List.forall_mem_cons, ← ih]
      exact ⟨fun he => List.append_inj he (h d (by simp)), fun he => by rw [he.1, he.2]⟩

/-- The indicators of all values but the smallest determine the value. -/
theorem dummies_inj {col : List S} {x y : S} (hx : x ∈ col) (hy : y ∈ col)
    (h : ((colLevels col).tail.map fun c => if some x = some c then (1 : K) else 0) =
      (colLevels col).tail.map fun c => if some y = some c then (1 : K) else 0) : x = y := by
  have hx' := mem_colLevels.2 hx
  have hy' := mem_colLevels.2 hy
  rw [List.map_inj_left] at h
  cases hl : colLevels col with
  | nil => rw [hl] at hx'; simp at hx'
  | cons c cs =>
      rw [hl] at hx' hy' h
      rw [List.mem_cons] at hx' hy'
      simp only [List.tail_cons, Option.some.injEq] at h
      rcases hx' with rfl | hx'
      · rcases hy' with rfl | hy'
        · rfl
        · have := h y hy'
          by_contra hne
          simp [hne] at this
      · have := h x hx'
        by_contra hne
        simp [Ne.symm hne] at this

end dummies

section load
variable {T S K : Type} [LinearOrder T] [LinearOrder S] [Field K]

/-- **C158.** The loaded log consists of the rows of the file in the order of time, each with its own columns; `n_rounds` is the
number of rows. Positions are numbered from zero without gaps in the order of the file's positions, and `len_list` is the number of
distinct positions. -/
theorem C158_log (sort : List (ObdRow T S K) → List (ObdRow T S K)) (m : ℕ) (file : List (ObdRow T S K)) (hp : (sort file).Perm file)
    (hs : (sort file).Pairwise (·.timestamp ≤ ·.timestamp)) (hne : file ≠ []) :
    ∃ (rows : Fin file.length → ObdRow T S K) (lenList : ℕ) (pos : Fin file.length → ℕ),
      (List.ofFn rows).Perm file ∧ (∀ i j, i < j → (rows i).timestamp ≤ (rows j).timestamp) ∧
      obdRounds (obdLoad sort m file) = file.length ∧
      (obdLoad sort m file).action = (List.ofFn fun i => (rows i).item) ∧
      (obdLoad sort m file).reward = (List.ofFn fun i => (rows i).click) ∧
      (obdLoad sort m file).pscore = (List.ofFn fun i => (rows i).propensity) ∧
      (obdLoad sort m file).position = List.ofFn pos ∧ obdLenList (obdLoad sort m file) = .ok lenList ∧
      (∀ i j, pos i < pos j ↔ (rows i).position < (rows j).position) ∧ (∀ i, pos i < lenList) ∧ (∀ k < lenList, ∃ i, pos i = k) ∧
      lenList = (file.map (·.position)).toFinset.card := by
  have hlen : (sort file).length = file.length := hp.length_eq
  let rows : Fin file.length → ObdRow T S K := fun i => (sort file)[(i : ℕ)]'(by rw [hlen]; exact i.isLt)
  have hrows : sort file = List.ofFn rows := by
    refine List.ext_getElem (by simp [hlen]) fun k h1 h2 => by simp [rows]
  let s : Finset ℤ := (file.map (·.position)).toFinset
  have hset : ((sort file).map (·.position)).toFinset = s := List.toFinset_eq_of_perm _ _ (hp.map _)
  let pos : Fin file.length → ℕ := fun i => (s.filter (· < (rows i).position)).card
  have hmem : ∀ i, (rows i).position ∈ s := fun i => by
    rw [← hset, List.mem_toFinset, hrows]
    exact List.mem_map.2 ⟨rows i, List.mem_ofFn.2 ⟨i, rfl⟩, rfl⟩
  have hpos : (obdLoad sort m file).position = List.ofFn pos := by
    simp only [obdLoad, denseRank_card, hset]
    rw [hrows, List.map_ofFn]
    rfl
  have himg := rank_image s
  have hlt : ∀ i, pos i < s.card := fun i => by
    rw [← Finset.mem_range, ← himg]
    exact Finset.mem_image.2 ⟨_, hmem i, rfl⟩
  have hsurj : ∀ k < s.card, ∃ i, pos i = k := fun k hk => by
    rw [← Finset.mem_range, ← himg] at hk
    obtain ⟨x, hx, rfl⟩ := Finset.mem_image.1 hk
    rw [← hset, List.mem_toFinset, hrows] at hx
    obtain ⟨r, hr, rfl⟩ := List.mem_map.1 hx
    obtain ⟨i, rfl⟩ := List.mem_ofFn.1 hr
    exact ⟨i, rfl⟩
  have hfile : 0 < file.length := List.length_pos_iff.2 hne
  have hcard : 0 < s.card := Finset.card_pos.2 ⟨_, hmem ⟨0, hfile⟩⟩
  refine ⟨rows, s.card, pos, hrows ▸ hp, fun i j hij => ?_, ?_, ?_, ?_, ?_, hpos, ?_, fun i j => rank_lt_iff s (hmem i), hlt, hsurj, rfl⟩
  · rw [List.pairwise_iff_getElem] at hs
    exact hs i j (by rw [hlen]; exact i.isLt) (by rw [hlen]; exact j.isLt) hij
  · simp [obdRounds, obdLoad, hlen]
  · simp only [obdLoad, hrows, List.map_ofFn]; rfl
  · simp only [obdLoad, hrows, List.map_ofFn]; rfl
  · simp only [obdLoad, hrows, List.map_ofFn]; rfl
  · unfold obdLenList
    rw [hpos]
    obtain ⟨M, hM, h1, h2⟩ := npMax_of_ne (xs := List.ofFn pos) (by
      intro h
      have := congrArg List.length h
      simp at this
      exact hne this)
    rw [hM, py_bind_ok, py_pure]
    congr 1
    have hup : M < s.card := (h1 _).2 fun x hx => by
      obtain ⟨i, rfl⟩ := List.mem_ofFn.1 hx
      exact hlt i
    obtain ⟨i, hi⟩ := hsurj (s.card - 1) (by omega)
    have := (h2 M).1 le_rfl (pos i) (List.mem_ofFn.2 ⟨i, rfl⟩)
    omega

/-- **C158, contexts.** Two rounds have the same context exactly if all their user features are the same; all contexts have the
dimension `dim_context`, which is the sum over the features of the number of values less one. -/
theorem C158_context (sort : List (ObdRow T S K) → List (ObdRow T S K)) (m : ℕ) (file : List (ObdRow T S K)) (hp : (sort file).Perm file)
    (hm : ∀ r ∈ file, r.user.length = m) :
    ∃ ctx : ObdRow T S K → List K, (obdLoad sort m file).context = (sort file).map ctx ∧
      (∀ r ∈ file, ∀ r' ∈ file, ctx r = ctx r' ↔ r.user = r'.user) ∧ (∀ r ∈ file, ∀ x ∈ ctx r, x = 0 ∨ x = 1) ∧
      ∀ r ∈ file, (ctx r).length = (∑ d : Fin m, ((file.filterMap fun r => r.user[(d : ℕ)]?).toFinset.card - 1)) ∧
        obdDimContext (obdLoad sort m file) = some (ctx r).length := by
  set table := (sort file).map (·.user) with htable
  have hcol : ∀ d, (tableCol table d).toFinset = (file.filterMap fun r => r.user[d]?).toFinset := fun d => by
    unfold tableCol
    rw [htable, List.filterMap_map]
    exact List.toFinset_eq_of_perm _ _ (hp.filterMap _)
  let ctx : ObdRow T S K → List K := fun r =>
    (List.range m).flatMap fun d => (colLevels (tableCol table d)).tail.map fun c => if r.user[d]? = some c then 1 else 0
  have hmem : ∀ r ∈ file, ∀ d (hd : d < r.user.length), r.user[d] ∈ tableCol table d := fun r hr d hd => by
    rw [← List.mem_toFinset, hcol, List.mem_toFinset, List.mem_filterMap]
    exact ⟨r, hr, by simp [hd]⟩
  have hlength : ∀ r, (ctx r).length = ∑ d : Fin m, ((file.filterMap fun r => r.user[(d : ℕ)]?).toFinset.card - 1) := fun r => by
    have : ∀ d, (colLevels (tableCol table d)).length = (file.filterMap fun r => r.user[d]?).toFinset.card := fun d => by
      rw [← hcol, ← List.toFinset_card_of_nodup (colLevels_nodup (tableCol table d))]
      congr 1
      ext x
      simp [mem_colLevels]
    simp only [ctx, List.length_flatMap, List.length_map, List.length_tail, this]
    rw [← Finset.sum_range fun d => (file.filterMap fun r => r.user[d]?).toFinset.card - 1]
    rfl
  refine ⟨ctx, ?_, fun r hr r' hr' => ?_, fun r hr x hx => ?_, fun r hr => ⟨hlength r, ?_⟩⟩
  · simp only [obdLoad, getDummies]
    rw [← htable, htable, List.map_map]
    rfl
  · constructor
    · intro h
      simp only [ctx] at h
      rw [flatMap_eq_iff (by simp)] at h
      refine List.ext_getElem (by rw [hm r hr, hm r' hr']) fun d h1 h2 => ?_
      have := h d (by simpa [hm r hr] using h1)
      simp only [List.getElem?_eq_getElem h1, List.getElem?_eq_getElem h2] at this
      exact dummies_inj (hmem r hr d h1) (hmem r' hr' d h2) this
    · intro h
      simp only [ctx, h]
  · simp only [ctx, List.mem_flatMap, List.mem_map] at hx
    obtain ⟨d, -, c, -, rfl⟩ := hx
    split_ifs <;> simp
  · have hne : sort file ≠ [] := by
      intro h
      rw [h] at hp
      rw [← hp.mem_iff] at hr
      simp at hr
    obtain ⟨a, l, hal⟩ := List.exists_cons_of_ne_nil hne
    have : (obdLoad sort m file).context = (sort file).map ctx := by
      simp only [obdLoad, getDummies]
      rw [← htable, htable, List.map_map]
      rfl
    unfold obdDimContext
    rw [this, hal, List.map_cons, List.head?_cons, Option.map_some, hlength, hlength]

/-- **C158, failure.** The documentation of the feedback says that contexts contain the user-item affinity scores. They do not: logs that
agree in all other columns are loaded to the same data. -/
theorem C158_affinities_ignored (sort : List (ObdRow T S K) → List (ObdRow T S K)) (m : ℕ) (file : List (ObdRow T S K))
    (aff : ObdRow T S K → List K) (hsort : sort (file.map fun r => { r with other := aff r }) = (sort file).map fun r => { r with other := aff r }) :
    obdLoad sort m (file.map fun r => { r with other := aff r }) = obdLoad sort m file := by
  simp only [obdLoad, hsort, List.map_map]
  rfl

end load

section split
variable {T S K : Type} [LinearOrder T] [LinearOrder S] [Field K] [LinearOrder K] [IsStrictOrderedRing K] [FloorRing K]

/-- **C158, split in time.** No round of the training part is later than a round of the test part, and together they are the file. -/
theorem C158_split_in_time (sort : List (ObdRow T S K) → List (ObdRow T S K)) (m : ℕ) (file : List (ObdRow T S K))
    (hp : (sort file).Perm file) (hs : (sort file).Pairwise (·.timestamp ≤ ·.timestamp)) (hne : file ≠ []) (t : K) (h0 : 0 ≤ t) (h1 : t ≤ 1) :
    ∃ (tr te : ObdFeedback K (List K)) (before after : List (ObdRow T S K)), obdSplit (obdLoad sort m file) (.flt t) = .ok (tr, te) ∧
      (before ++ after).Perm file ∧ (∀ r ∈ before, ∀ r' ∈ after, r.timestamp ≤ r'.timestamp) ∧
      tr.nRounds = before.length ∧ te.nRounds = after.length ∧
      tr.cols.action = before.map (·.item) ∧ te.cols.action = after.map (·.item) ∧
      tr.cols.reward = before.map (·.click) ∧ te.cols.reward = after.map (·.click) ∧
      tr.cols.pscore = before.map (·.propensity) ∧ te.cols.pscore = after.map (·.propensity) := by
  have hlen : (sort file).length = file.length := hp.length_eq
  have hr : (obdLoad sort m file).Rect file.length := by
    constructor <;> simp [obdLoad, getDummies, hlen]
  obtain ⟨tr, te, k, M, hok, -, -, hk, hn1, hn2, htr, hte, ha, -, hrw, hps, -⟩ := C89_split (obdLoad sort m file) hr
    (List.length_pos_iff.2 hne) t h0 h1
  have hcut : ∀ {α : Type} (f : ObdRow T S K → α) (x y : List α), x ++ y = (sort file).map f → x.length = k →
      x = ((sort file).take k).map f ∧ y = ((sort file).drop k).map f := fun f x y h hx => by
    have hx' : ((sort file).take k).map f ++ ((sort file).drop k).map f = (sort file).map f := by
      rw [← List.map_append, List.take_append_drop]
    exact List.append_inj (h.trans hx'.symm) (by simp [hx, hlen, hk])
  refine ⟨tr, te, (sort file).take k, (sort file).drop k, hok, by rw [List.take_append_drop]; exact hp, fun r hr r' hr' => ?_,
    by rw [hn1, List.length_take, hlen, min_eq_left hk], by rw [hn2, List.length_drop, hlen], (hcut _ _ _ ha htr.action).1, (hcut _ _ _ ha htr.action).2,
    (hcut _ _ _ hrw htr.reward).1, (hcut _ _ _ hrw htr.reward).2, (hcut _ _ _ hps htr.pscore).1, (hcut _ _ _ hps htr.pscore).2⟩
  rw [← List.take_append_drop k (sort file), List.pairwise_append] at hs
  exact hs.2.2 r hr r' hr'

end split

section items
variable {S K : Type} [LinearOrder S]

/-- **C158, action contexts.** Row `k` of the action contexts describes the `k`-th line of `item_context.csv`. If the file lists the items
in the order of their numbers, row `a` describes item `a`: its last entry is the item's number and its other entries are codes that are
ordered as the features, so equal for two items exactly if the features are. Missing: files in another order (`C158_items_unsorted`). -/
theorem C158_action_context_partial (code : ℕ → K) (items : List (ObdItem S K))
    (hid : items.map (·.item) = List.range items.length) :
    ∃ rank : ℕ → S → ℕ,
      (∀ d, ∀ it ∈ items, ∀ it' ∈ items, ∀ x ∈ it.features[d]?, ∀ y ∈ it'.features[d]?, rank d x < rank d y ↔ x < y) ∧
      (obdActionContext code items).length = items.length ∧
      ∀ it ∈ items, (obdActionContext code items)[it.item]? =
        some ((it.features.mapIdx fun d x => code (rank d x)) ++ [it.number]) := by
  refine ⟨fun d x => labelCode (tableCol (items.map (·.features)) d) x, fun d it hit it' hit' x hx y hy => ?_, by simp [obdActionContext],
    fun it hit => ?_⟩
  · have hmem : x ∈ (tableCol (items.map (·.features)) d).toFinset := by
      rw [List.mem_toFinset]
      unfold tableCol
      rw [List.mem_filterMap]
      exact ⟨it.features, List.mem_map.2 ⟨it, hit, rfl⟩, hx⟩
    simp only [labelCode_card]
    exact rank_lt_iff _ hmem
  · obtain ⟨k, hk, rfl⟩ := List.getElem_of_mem hit
    have hik : (items[k]).item = k := by
      have := congrArg (fun l => l[k]?) hid
      simpa [hk] using this
    rw [hik]
    unfold obdActionContext
    rw [List.getElem?_map, List.getElem?_eq_getElem hk, Option.map_some]

/-- A file listing its items in order: the features are recoverable from the codes. -/
def exItems : List (ObdItem ℕ ℚ) := [⟨0, 1/2, [7, 3]⟩, ⟨1, 1/4, [5, 3]⟩, ⟨2, 3/4, [7, 4]⟩]

example : exItems.map (·.item) = List.range exItems.length := by decide +kernel
example : obdActionContext (fun k : ℕ => (k : ℚ)) exItems = [[1, 0, 1/2], [0, 0, 1/4], [1, 1, 3/4]] := by decide +kernel

/-- **C158, failure.** The rows keep the order of the file: in a file that lists item 1 before item 0, row 0 describes item 1. -/
theorem C158_items_unsorted :
    let items : List (ObdItem ℕ ℚ) := [⟨1, 1/4, [5]⟩, ⟨0, 1/2, [7]⟩]
    obdActionContext (fun k : ℕ => (k : ℚ)) items = [[0, 1/4], [1, 1/2]] ∧
      (∃ it ∈ items, it.item = 0 ∧ it.number = 1/2) := by
  refine ⟨by decide +kernel, ⟨0, 1/2, [7]⟩, by simp, rfl, rfl⟩

/-- **C158, failure.** The number of actions is that of the largest item in the log plus one, not the number of items: if the last item
was never shown, there are more action contexts than actions. -/
theorem C158_items_never_shown :
    let file : List (ObdRow ℕ ℕ ℚ) := [⟨0, 0, 1, 1, 1/3, [2], []⟩, ⟨1, 1, 1, 0, 1/3, [3], []⟩]
    obdActions (obdLoad id 1 file) = .ok 2 ∧ (obdActionContext (fun k : ℕ => (k : ℚ)) exItems).length = 3 := by
  decide +kernel

end items

/-- **C158, files.** The constructor accepts exactly the two policies, the three campaigns and a path that is a string, a path or left
out, and then reads the log and the item features of that policy and that campaign. -/
theorem C158_files (shipped behavior campaign : String) (p : DataPath) (log items : List String) :
    obdFiles shipped behavior campaign p = .ok (log, items) ↔
      (behavior = "bts" ∨ behavior = "random") ∧ (campaign = "all" ∨ campaign = "men" ∨ campaign = "women") ∧
      ∃ dir, (p = .str dir ∨ p = .path dir ∨ p = .none ∧ dir = shipped) ∧
        log = [dir, behavior, campaign, campaign ++ ".csv"] ∧ items = [dir, behavior, campaign, "item_context.csv"] := by
  unfold obdFiles
  by_cases hb : behavior = "bts" ∨ behavior = "random"
  · by_cases hc : campaign = "all" ∨ campaign = "men" ∨ campaign = "women"
    · rw [raiseIf_neg (by simpa using fun h => hb.resolve_left h), py_bind_ok, raiseIf_neg (by
        simp only [List.mem_cons, List.not_mem_nil, or_false, hc, not_true_eq_false]; rfl), py_bind_ok]
      cases p <;> simp [hb, hc, py_bind_ok, py_pure, py_bind_error, eq_comm]
    · rw [raiseIf_neg (by simpa using fun h => hb.resolve_left h), py_bind_ok, raiseIf_pos (by simpa using hc), py_bind_error]
      simp [hc]
  · rw [raiseIf_pos (by simpa using hb), py_bind_error]
    simp [hb]

example : obdFiles "pkg" "bts" "men" (.str "data") = .ok (["data", "bts", "men", "men.csv"], ["data", "bts", "men", "item_context.csv"]) := by
  decide +kernel
example : obdFiles "pkg" "greedy" "men" .none = .error .valueError := by decide +kernel

/-- A log whose rows are not in the order of time, with positions 1 and 3 and a user feature with three values. -/
def exRows : List (ObdRow ℕ ℕ ℚ) :=
  [⟨5, 2, 3, 1, 1/4, [9, 1], [1/2]⟩, ⟨1, 0, 1, 0, 1/2, [8, 1], [1/3]⟩, ⟨3, 1, 1, 1, 1/4, [7, 2], [1/5]⟩]

/-- Sorting by timestamp. -/
def exSort (l : List (ObdRow ℕ ℕ ℚ)) : List (ObdRow ℕ ℕ ℚ) := l.insertionSort fun a b => a.timestamp ≤ b.timestamp

example : (exSort exRows).Perm exRows := List.perm_insertionSort _ _
example : (exSort exRows).Pairwise (·.timestamp ≤ ·.timestamp) := by decide +kernel
example : ∀ r ∈ exRows, r.user.length = 2 := by decide +kernel
example : obdLoad exSort 2 exRows = ({
    action := [0, 1, 2]
    position := [0, 0, 1]
    reward := [0, 1, 1]
    pscore := [1/2, 1/4, 1/4]
    context := [[1, 0, 0], [0, 0, 1], [0, 1, 0]] } : ObdLog ℚ (List ℚ)) := by
  decide +kernel
example : obdLenList (obdLoad exSort 2 exRows) = .ok 2 ∧ obdDimContext (obdLoad exSort 2 exRows) = some 3 := by decide +kernel
example : exSort (exRows.map fun r => { r with other := [0] }) = (exSort exRows).map fun r => { r with other := [0] } := by decide +kernel

end Obp
