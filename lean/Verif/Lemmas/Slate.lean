import Verif.Spec.Slate
import Verif.Lemmas.Accept
import Mathlib.Data.Fintype.Card
import Mathlib.Data.List.FinRange

/-! # Lemmas about the slate validators and estimators -/

set_option linter.unusedSectionVars false

namespace Obp

variable {K : Type} [Field K] [LinearOrder K]

/-! ### Lists -/

theorem sum_map_filter {α : Type} {M : Type} [AddCommMonoid M] (l : List α) (p : α → Bool) (f : α → M) :
    ((l.filter p).map f).sum = (l.map fun x => if p x then f x else 0).sum := by
  induction l with
  | nil => rfl
  | cons x l ih => cases h : p x <;> simp [h, ih]

theorem sum_filter_ofFn {α : Type} {M : Type} [AddCommMonoid M] {N : ℕ} (x : Fin N → α) (p : α → Bool)
    (f : α → M) : (((List.ofFn x).filter p).map f).sum = ∑ i, if p (x i) then f (x i) else 0 := by
  rw [sum_map_filter, List.map_ofFn, List.sum_ofFn]; rfl

theorem length_filter_ofFn {α : Type} {N : ℕ} (x : Fin N → α) (p : α → Bool) :
    ((List.ofFn x).filter p).length = (Finset.univ.filter fun i => p (x i) = true).card := by
  have := sum_filter_ofFn (M := ℕ) x p fun _ => 1
  rw [List.map_const', List.sum_replicate] at this
  simp only [smul_eq_mul, mul_one] at this
  rw [this, Finset.card_filter]

theorem dedup_length_one {α : Type} [DecidableEq α] {l : List α} (h : l ≠ []) :
    l.dedup.length = 1 ↔ ∀ x ∈ l, ∀ y ∈ l, x = y := by
  constructor
  · intro hl x hx y hy
    obtain ⟨z, hz⟩ := List.length_eq_one_iff.1 hl
    rw [← List.mem_dedup, hz, List.mem_singleton] at hx hy
    rw [hx, hy]
  · intro hall
    obtain ⟨a, ha⟩ := List.exists_mem_of_ne_nil l h
    have hd : l.dedup = [a] := by
      have hnd := List.nodup_dedup l
      have hmem : ∀ x ∈ l.dedup, x = a := fun x hx => hall x (List.mem_dedup.1 hx) a ha
      have ha' : a ∈ l.dedup := List.mem_dedup.2 ha
      cases hl : l.dedup with
      | nil => rw [hl] at ha'; simp at ha'
      | cons x xs =>
        rw [hl] at hnd hmem
        have hx := hmem x (by simp)
        cases xs with
        | nil => rw [hx]
        | cons y ys =>
          have hy := hmem y (by simp)
          rw [hx, hy] at hnd
          simp at hnd
    rw [hd]; rfl

theorem npUnique_mem {xs : List ℤ} {s : ℤ} : s ∈ npUnique xs ↔ s ∈ xs := by
  unfold npUnique
  rw [List.mem_insertionSort, List.mem_dedup]

theorem npUnique_nodup (xs : List ℤ) : (npUnique xs).Nodup :=
  (List.perm_insertionSort _ _).nodup_iff.2 (List.nodup_dedup _)

theorem npUnique_perm {xs ys : List ℤ} (h : xs.Perm ys) : npUnique xs = npUnique ys := by
  unfold npUnique
  refine List.Perm.eq_of_pairwise' (r := (· ≤ ·)) (List.pairwise_insertionSort _ _)
    (List.pairwise_insertionSort _ _) ?_
  exact (List.perm_insertionSort _ _).trans
    ((List.Perm.dedup h).trans (List.perm_insertionSort _ _).symm)

/-! ### The data-frame checks -/

theorem hasDuplicates_false {rows : List (SlateRow K)} : hasDuplicates rows = false ↔
    (rows.map fun r => (r.slate, r.pos)).Nodup := by
  simp [hasDuplicates]

theorem notConstantPerSlate_false {f : SlateRow K → K} {rows : List (SlateRow K)} :
    notConstantPerSlate f rows = false ↔ ∀ r ∈ rows, ∀ s ∈ rows, r.slate = s.slate → f r = f s := by
  unfold notConstantPerSlate
  rw [List.any_eq_false]
  have key : ∀ s ∈ npUnique (rows.map (·.slate)),
      (¬ decide (((rows.filter fun r => decide (r.slate = s)).map f).dedup.length ≠ 1) = true ↔
        ∀ r ∈ rows, r.slate = s → ∀ r' ∈ rows, r'.slate = s → f r = f r') := by
    intro s hs
    rw [npUnique_mem] at hs
    obtain ⟨r0, hr0, rfl⟩ := List.mem_map.1 hs
    have hne : (rows.filter fun r => decide (r.slate = r0.slate)).map f ≠ [] := by
      intro h
      have : r0 ∈ rows.filter fun r => decide (r.slate = r0.slate) := by simp [hr0]
      rw [List.map_eq_nil_iff.1 h] at this
      simp at this
    rw [decide_eq_true_eq, ne_eq, not_not, dedup_length_one hne]
    simp only [List.mem_map, List.mem_filter, decide_eq_true_eq, forall_exists_index, and_imp]
    exact ⟨fun h r hr h1 r' hr' h2 => h _ r hr h1 rfl _ r' hr' h2 rfl,
      fun h x r hr h1 e y r' hr' h2 e' => by rw [← e, ← e']; exact h r hr h1 r' hr' h2⟩
  constructor
  · intro h r hr s hs hrs
    have hm : s.slate ∈ npUnique (rows.map (·.slate)) := npUnique_mem.2 (List.mem_map.2 ⟨s, hs, rfl⟩)
    exact (key _ hm).1 (h _ hm) r hr hrs s hs rfl
  · intro h s hs
    exact (key s hs).2 fun r hr h1 r' hr' h2 => h r hr r' hr' (by rw [h1, h2])

instance : IsTrans (SlateRow K) rowLe := ⟨by
  unfold rowLe
  rintro a b c (h | ⟨h, h'⟩) (h2 | ⟨h2, h3⟩)
  · exact Or.inl (h.trans h2)
  · exact Or.inl (by omega)
  · exact Or.inl (by omega)
  · exact Or.inr ⟨by omega, by omega⟩⟩

instance : Std.Total (rowLe (K := K)) := ⟨by
  unfold rowLe
  intro a b
  omega⟩

theorem sortRows_perm (rows : List (SlateRow K)) : (sortRows rows).Perm rows :=
  List.perm_insertionSort _ _

theorem sortRows_pairwise (rows : List (SlateRow K)) : (sortRows rows).Pairwise rowLe :=
  List.pairwise_insertionSort (r := rowLe) rows

theorem exceeds_false {f : SlateRow K → K} {seen rows : List (SlateRow K)} :
    exceedsExpandingMin f seen rows = false ↔
      (∀ s ∈ seen, ∀ r ∈ rows, s.slate = r.slate → f r ≤ f s) ∧
      rows.Pairwise fun s r => s.slate = r.slate → f r ≤ f s := by
  induction rows generalizing seen with
  | nil => simp [exceedsExpandingMin]
  | cons r rs ih =>
    have hmin : (decide (((seen.filter fun s => decide (s.slate = r.slate)).map f).foldl min (f r) <
        f r) = false) ↔ ∀ s ∈ seen, s.slate = r.slate → f r ≤ f s := by
      rw [decide_eq_false_iff_not, not_lt, foldl_min_le]
      simp only [le_refl, true_and, List.mem_map, List.mem_filter, decide_eq_true_eq,
        forall_exists_index, and_imp]
      exact ⟨fun h s hs he => h _ s hs he rfl, fun h x s hs he e => e ▸ h s hs he⟩
    simp only [exceedsExpandingMin, Bool.or_eq_false_iff, hmin, ih, List.pairwise_cons, List.mem_cons,
      List.mem_append]
    constructor
    · rintro ⟨h1, h2, h3⟩
      refine ⟨fun s hs r' hr' he => ?_, fun r' hr' he => h2 r (by simp) r' hr' he, h3⟩
      rcases hr' with rfl | hr'
      · exact h1 s hs he
      · exact h2 s (by simp [hs]) r' hr' he
    · rintro ⟨h1, h2, h3⟩
      refine ⟨fun s hs he => h1 s hs r (by simp) he, fun s hs r' hr' he => ?_, h3⟩
      rcases hs with hs | rfl | hs
      · exact h1 s hs r' (Or.inr hr') he
      · exact h2 r' hr' he
      · simp at hs

theorem exceeds_sorted {f : SlateRow K → K} {rows : List (SlateRow K)}
    (hnd : (rows.map fun r => (r.slate, r.pos)).Nodup) :
    exceedsExpandingMin f [] (sortRows rows) = false ↔
      ∀ r ∈ rows, ∀ s ∈ rows, r.slate = s.slate → r.pos < s.pos → f s ≤ f r := by
  rw [exceeds_false]
  have hp := sortRows_perm rows
  have hs := sortRows_pairwise rows
  have hnd' : ((sortRows rows).map fun r => (r.slate, r.pos)).Nodup := (hp.map _).nodup_iff.2 hnd
  simp only [List.not_mem_nil, false_imp_iff, implies_true, true_and]
  constructor
  · intro h r hr s hs' he hlt
    rw [← hp.mem_iff] at hr hs'
    obtain ⟨i, hi, rfl⟩ := List.mem_iff_getElem.1 hr
    obtain ⟨j, hj, rfl⟩ := List.mem_iff_getElem.1 hs'
    rcases lt_trichotomy i j with hij | rfl | hij
    · exact List.pairwise_iff_getElem.1 h i j hi hj hij he
    · exact absurd hlt (lt_irrefl _)
    · have := List.pairwise_iff_getElem.1 hs j i hj hi hij
      unfold rowLe at this
      omega
  · intro h
    rw [List.pairwise_iff_getElem]
    intro i j hi hj hij he
    refine h _ (hp.mem_iff.1 (List.getElem_mem hi)) _ (hp.mem_iff.1 (List.getElem_mem hj)) he ?_
    have h1 := List.pairwise_iff_getElem.1 hs i j hi hj hij
    have h2 : (sortRows rows)[i].pos ≠ (sortRows rows)[j].pos := by
      intro hpos
      have := List.pairwise_iff_getElem.1 hnd' i j (by simpa using hi) (by simpa using hj) hij
      simp [he, hpos] at this
    unfold rowLe at h1
    omega

/-! ### Typed logs -/

namespace SlateLog
variable {N : ℕ}

/-- The rows of a typed log. -/
def rows (g : SlateLog K N) : List (SlateRow K) :=
  List.ofFn fun i => ⟨g.slate i, g.pos i, g.reward i, g.ps i, g.eps i⟩

theorem args_encodes (g : SlateLog K N) : g.args.Encodes g where
  slateId := rfl
  position := rfl
  reward := ⟨Or.inr ⟨_, rfl, by simp⟩, rfl⟩
  pscore := ⟨Or.inr ⟨_, rfl, by simp⟩, rfl⟩
  evalPscore := ⟨Or.inr ⟨_, rfl, by simp⟩, rfl⟩

theorem uniquePositions_iff (g : SlateLog K N) :
    (g.rows.map fun r => (r.slate, r.pos)).Nodup ↔ g.UniquePositions := by
  unfold rows UniquePositions
  rw [List.map_ofFn, List.nodup_ofFn]
  constructor
  · intro h i j h1 h2; exact h (by simp [h1, h2])
  · intro h i j hij
    simp only [Function.comp, Prod.mk.injEq, Nat.cast_inj] at hij
    exact h i j hij.1 hij.2

theorem mem_rows {g : SlateLog K N} {r : SlateRow K} :
    r ∈ g.rows ↔ ∃ i, r = ⟨g.slate i, g.pos i, g.reward i, g.ps i, g.eps i⟩ := by
  unfold rows
  rw [List.mem_ofFn]
  exact ⟨fun ⟨i, h⟩ => ⟨i, h.symm⟩, fun ⟨i, h⟩ => ⟨i, h.symm⟩⟩

theorem constantPerSlate_iff (g : SlateLog K N) {f : SlateRow K → K} {c : Fin N → K}
    (hf : ∀ i, f ⟨g.slate i, g.pos i, g.reward i, g.ps i, g.eps i⟩ = c i) :
    notConstantPerSlate f g.rows = false ↔ g.ConstantPerSlate c := by
  rw [notConstantPerSlate_false]
  unfold ConstantPerSlate
  constructor
  · intro h i j hij
    have := h _ (mem_rows.2 ⟨i, rfl⟩) _ (mem_rows.2 ⟨j, rfl⟩) (by simp [hij])
    rwa [hf, hf] at this
  · intro h r hr s hs hrs
    obtain ⟨i, rfl⟩ := mem_rows.1 hr
    obtain ⟨j, rfl⟩ := mem_rows.1 hs
    rw [hf, hf]
    exact h i j (by simpa using hrs)

theorem nonincreasing_iff (g : SlateLog K N) (hu : g.UniquePositions) {f : SlateRow K → K}
    {c : Fin N → K} (hf : ∀ i, f ⟨g.slate i, g.pos i, g.reward i, g.ps i, g.eps i⟩ = c i) :
    exceedsExpandingMin f [] (sortRows g.rows) = false ↔ g.NonincreasingPerSlate c := by
  rw [exceeds_sorted ((uniquePositions_iff g).2 hu)]
  unfold NonincreasingPerSlate
  constructor
  · intro h i j hij hlt
    have := h _ (mem_rows.2 ⟨i, rfl⟩) _ (mem_rows.2 ⟨j, rfl⟩) (by simp [hij]) (by simpa using hlt)
    rwa [hf, hf] at this
  · intro h r hr s hs hrs hlt
    obtain ⟨i, rfl⟩ := mem_rows.1 hr
    obtain ⟨j, rfl⟩ := mem_rows.1 hs
    rw [hf, hf]
    exact h i j (by simpa using hrs) (by simpa using hlt)

end SlateLog

theorem nonneg_ints_ofFn {xs : List ℤ} {N : ℕ} (hl : xs.length = N) (h : ∀ z ∈ xs, 0 ≤ z) :
    ∃ f : Fin N → ℕ, xs = List.ofFn fun i => (f i : ℤ) := by
  obtain ⟨f, rfl⟩ := list_eq_ofFn hl
  refine ⟨fun i => (f i).toNat, ?_⟩
  congr 1; funext i
  exact (Int.toNat_of_nonneg (h (f i) (List.mem_ofFn.2 ⟨i, rfl⟩))).symm

theorem isVec_length {a : Arg1 K} {N : ℕ} (h : a.IsVec N) : a.shape0 = .ok N :=
  shape0_ok.2 (isVec_leading h)

theorem rows_zip {N : ℕ} (g : SlateLog K N) :
    List.zipWith (fun (s, p) (r, b, e) => (⟨s, p, r, b, e⟩ : SlateRow K))
      ((List.ofFn fun i => (g.slate i : ℤ)).zip (List.ofFn fun i => (g.pos i : ℤ)))
      ((List.ofFn g.reward).zip ((List.ofFn g.ps).zip (List.ofFn g.eps))) = g.rows := by
  unfold SlateLog.rows
  apply List.ext_getElem
  · simp
  · intro i h1 h2
    simp

theorem checkSlateOpeInputs_ok {a : SlateArgs K} {rows : List (SlateRow K)} :
    checkSlateOpeInputs a = .ok rows ↔
      ∃ (N : ℕ) (g : SlateLog K N), a.Encodes g ∧ 0 < N ∧ g.InRange ∧ rows = g.rows := by
  unfold checkSlateOpeInputs
  simp only [py_bind_eq_ok, exists_unit, raiseIf_ok, py_pure, Except.ok.injEq]
  constructor
  · rintro ⟨hp1, okp, hp2, hp3, hr, hb1, hb2, he1, he2, hs1, oks, hs2, hs3, n1, h1, n2, h2, n3, h3,
      n4, h4, n5, h5, hn, sid, hsid, pos, hpos, rfl⟩
    simp only [decide_eq_false_iff_not, Bool.not_eq_false] at hp3 hs3
    subst hp3 hs3
    obtain ⟨ps, hps, hpne, hp0⟩ := intNonneg_ok_true.1 hp2
    obtain ⟨ss, hss, hsne, hs0⟩ := intNonneg_ok_true.1 hs2
    simp only [decide_eq_false_iff_not, not_not] at hn
    obtain ⟨rfl, rfl, rfl, rfl⟩ := hn
    have hsl : ss.length = n1 := by rw [hss] at h1; simpa [Arg1.shape0] using h1
    have hpl : ps.length = n1 := by rw [hps] at h2; simpa [Arg1.shape0] using h2
    obtain ⟨fs, rfl⟩ := nonneg_ints_ofFn hsl hs0
    obtain ⟨fp, rfl⟩ := nonneg_ints_ofFn hpl hp0
    have hr' := isVec_of_checkArray1 hr (shape0_ok.1 h3)
    have hb' := isVec_of_checkArray1 hb1 (shape0_ok.1 h4)
    have he' := isVec_of_checkArray1 he1 (shape0_ok.1 h5)
    obtain ⟨fr, hfr⟩ := isVec_vals hr'
    obtain ⟨fb, hfb⟩ := isVec_vals hb'
    obtain ⟨fe, hfe⟩ := isVec_vals he'
    refine ⟨n1, ⟨fs, fp, fr, fb, fe⟩, ⟨hss, hps, ⟨hr', hfr⟩, ⟨hb', hfb⟩, ⟨he', hfe⟩⟩, ?_, ?_, ?_⟩
    · have := List.length_pos_of_ne_nil hsne; simpa using this
    · intro i
      simp only [hfb, Bool.or_eq_false_iff, List.any_eq_false, decide_eq_true_eq, not_le, not_lt] at hb2
      simp only [hfe, Bool.or_eq_false_iff, List.any_eq_false, decide_eq_true_eq, not_lt] at he2
      exact ⟨hb2.1 _ (List.mem_ofFn.2 ⟨i, rfl⟩), hb2.2 _ (List.mem_ofFn.2 ⟨i, rfl⟩),
        he2.1 _ (List.mem_ofFn.2 ⟨i, rfl⟩), he2.2 _ (List.mem_ofFn.2 ⟨i, rfl⟩)⟩
    · rw [hss] at hsid; rw [hps] at hpos
      simp only [Arg1.ints, Except.ok.injEq] at hsid hpos
      rw [← hsid, ← hpos, hfr, hfb, hfe]
      exact rows_zip ⟨fs, fp, fr, fb, fe⟩
  · rintro ⟨N, g, E, hN, hR, rfl⟩
    have hne : ∀ f : Fin N → ℕ, (List.ofFn fun i => (f i : ℤ)) ≠ [] := by
      intro f h; have := congrArg List.length h; simp at this; omega
    have hnn : ∀ f : Fin N → ℕ, ∀ z ∈ (List.ofFn fun i => (f i : ℤ)), 0 ≤ z := by
      intro f z hz; obtain ⟨i, rfl⟩ := List.mem_ofFn.1 hz; positivity
    refine ⟨by rw [E.position]; rfl, true, intNonneg_ok_true.2 ⟨_, E.position, hne _, hnn _⟩, by simp,
      checkArray1_ok.2 ⟨N, E.reward.1⟩, checkArray1_ok.2 ⟨N, E.pscore.1⟩, ?_,
      checkArray1_ok.2 ⟨N, E.evalPscore.1⟩, ?_, by rw [E.slateId]; rfl, true,
      intNonneg_ok_true.2 ⟨_, E.slateId, hne _, hnn _⟩, by simp, N, ?_, N, ?_, N,
      isVec_length E.reward.1, N, isVec_length E.pscore.1, N, isVec_length E.evalPscore.1, by simp,
      _, by rw [E.slateId]; rfl, _, by rw [E.position]; rfl, ?_⟩
    · simp only [E.pscore.2, Bool.or_eq_false_iff, List.any_eq_false, decide_eq_true_eq, not_le, not_lt]
      constructor <;> intro x hx <;> obtain ⟨i, rfl⟩ := List.mem_ofFn.1 hx
      · exact (hR i).1
      · exact (hR i).2.1
    · simp only [E.evalPscore.2, Bool.or_eq_false_iff, List.any_eq_false, decide_eq_true_eq, not_lt]
      constructor <;> intro x hx <;> obtain ⟨i, rfl⟩ := List.mem_ofFn.1 hx
      · exact (hR i).2.2.1
      · exact (hR i).2.2.2
    · rw [E.slateId]; simp [Arg1.shape0]
    · rw [E.position]; simp [Arg1.shape0]
    · rw [E.reward.2, E.pscore.2, E.evalPscore.2]; exact rows_zip g

theorem slateCheck_ok {k : SlateKind} {a : SlateArgs K} {rows : List (SlateRow K)} :
    k.check a = .ok rows ↔
      ∃ (N : ℕ) (g : SlateLog K N), a.Encodes g ∧ k.Accepts g ∧ rows = g.rows := by
  have hs : checkSipsInputs a = .ok rows ↔
      ∃ (N : ℕ) (g : SlateLog K N), a.Encodes g ∧ SlateKind.sips.Accepts g ∧ rows = g.rows := by
    simp only [checkSipsInputs, py_bind_eq_ok, checkSlateOpeInputs_ok, raiseIf_ok, py_pure, exists_unit,
      Except.ok.injEq, hasDuplicates_false]
    constructor
    · rintro ⟨rows', ⟨N, g, E, hN, hR, rfl⟩, h1, h2, h3, rfl⟩
      exact ⟨N, g, E, ⟨hN, hR, (g.uniquePositions_iff).1 h1,
        (g.constantPerSlate_iff fun _ => rfl).1 h2, (g.constantPerSlate_iff fun _ => rfl).1 h3⟩, rfl⟩
    · rintro ⟨N, g, E, ⟨hN, hR, h1, h2, h3⟩, rfl⟩
      exact ⟨_, ⟨N, g, E, hN, hR, rfl⟩, (g.uniquePositions_iff).2 h1,
        (g.constantPerSlate_iff fun _ => rfl).2 h2, (g.constantPerSlate_iff fun _ => rfl).2 h3, rfl⟩
  have hi : checkIipsInputs a = .ok rows ↔
      ∃ (N : ℕ) (g : SlateLog K N), a.Encodes g ∧ SlateKind.iips.Accepts g ∧ rows = g.rows := by
    simp only [checkIipsInputs, py_bind_eq_ok, checkSlateOpeInputs_ok, raiseIf_ok, py_pure, exists_unit,
      Except.ok.injEq, hasDuplicates_false]
    constructor
    · rintro ⟨rows', ⟨N, g, E, hN, hR, rfl⟩, h1, rfl⟩
      exact ⟨N, g, E, ⟨hN, hR, (g.uniquePositions_iff).1 h1, trivial⟩, rfl⟩
    · rintro ⟨N, g, E, ⟨hN, hR, h1, -⟩, rfl⟩
      exact ⟨_, ⟨N, g, E, hN, hR, rfl⟩, (g.uniquePositions_iff).2 h1, rfl⟩
  have hr : checkRipsInputs a = .ok rows ↔
      ∃ (N : ℕ) (g : SlateLog K N), a.Encodes g ∧ SlateKind.rips.Accepts g ∧ rows = g.rows := by
    have hperm : ∀ rows : List (SlateRow K), ((sortRows rows).map fun r => (r.slate, r.pos)).Nodup ↔
        (rows.map fun r => (r.slate, r.pos)).Nodup := fun rows =>
      ((sortRows_perm rows).map _).nodup_iff
    simp only [checkRipsInputs, py_bind_eq_ok, checkSlateOpeInputs_ok, raiseIf_ok, py_pure, exists_unit,
      Except.ok.injEq, hasDuplicates_false, hperm]
    constructor
    · rintro ⟨rows', ⟨N, g, E, hN, hR, rfl⟩, h1, h2, h3, rfl⟩
      have hu := (g.uniquePositions_iff).1 h1
      exact ⟨N, g, E, ⟨hN, hR, hu, (g.nonincreasing_iff hu fun _ => rfl).1 h2,
        (g.nonincreasing_iff hu fun _ => rfl).1 h3⟩, rfl⟩
    · rintro ⟨N, g, E, ⟨hN, hR, h1, h2, h3⟩, rfl⟩
      exact ⟨_, ⟨N, g, E, hN, hR, rfl⟩, (g.uniquePositions_iff).2 h1,
        (g.nonincreasing_iff h1 fun _ => rfl).2 h2, (g.nonincreasing_iff h1 fun _ => rfl).2 h3, rfl⟩
  cases k <;> assumption

/-- On a typed log the verdict is decided by that log. -/
theorem slateCheck_args {N : ℕ} (k : SlateKind) (g : SlateLog K N) (h : k.Accepts g) :
    k.check g.args = .ok g.rows := slateCheck_ok.2 ⟨N, g, g.args_encodes, h, rfl⟩

theorem onlyVE_checkSlateOpeInputs (a : SlateArgs K) : OnlyVE (checkSlateOpeInputs a) := by
  unfold checkSlateOpeInputs
  refine .bind (onlyVE_checkArray1 _) fun _ h1 => .bind (onlyVE_intNonneg _) fun b hb =>
    .bind (.raiseIf _) fun _ hr => .bind (onlyVE_checkArray1 _) fun _ h2 =>
    .bind (onlyVE_checkArray1 _) fun _ h3 => .bind (.raiseIf _) fun _ _ =>
    .bind (onlyVE_checkArray1 _) fun _ h4 => .bind (.raiseIf _) fun _ _ =>
    .bind (onlyVE_checkArray1 _) fun _ h5 => .bind (onlyVE_intNonneg _) fun c hc =>
    .bind (.raiseIf _) fun _ hr' => ?_
  obtain ⟨k1, h1⟩ := checkArray1_ok.1 h1
  obtain ⟨k2, h2⟩ := checkArray1_ok.1 h2
  obtain ⟨k3, h3⟩ := checkArray1_ok.1 h3
  obtain ⟨k4, h4⟩ := checkArray1_ok.1 h4
  obtain ⟨k5, h5⟩ := checkArray1_ok.1 h5
  have hbt : b = true := by simpa using raiseIf_ok.1 hr
  have hct : c = true := by simpa using raiseIf_ok.1 hr'
  subst hbt hct
  obtain ⟨xs, hx, -, -⟩ := intNonneg_ok_true.1 hb
  obtain ⟨ys, hy, -, -⟩ := intNonneg_ok_true.1 hc
  refine .bind (onlyVE_shape0 (isVec_leading h5)) fun _ _ =>
    .bind (onlyVE_shape0 (isVec_leading h1)) fun _ _ =>
    .bind (onlyVE_shape0 (isVec_leading h2)) fun _ _ =>
    .bind (onlyVE_shape0 (isVec_leading h3)) fun _ _ =>
    .bind (onlyVE_shape0 (isVec_leading h4)) fun _ _ => .bind (.raiseIf _) fun _ _ =>
    .bind (by rw [hy]; exact .ok _) fun _ _ => .bind (by rw [hx]; exact .ok _) fun _ _ => .ok _

theorem onlyVE_slateCheck (k : SlateKind) (a : SlateArgs K) : OnlyVE (k.check a) := by
  cases k <;> refine .bind (onlyVE_checkSlateOpeInputs a) fun _ _ => ?_ <;>
    first
      | exact .bind (.raiseIf _) fun _ _ => .bind (.raiseIf _) fun _ _ => .bind (.raiseIf _) fun _ _ => .ok _
      | exact .bind (.raiseIf _) fun _ _ => .ok _

/-! ### Values -/

namespace SlateLog
variable {N : ℕ} (g : SlateLog K N)

theorem unique_length : (npUnique (g.rows.map (·.slate))).length = g.numSlates := by
  have hmap : g.rows.map (·.slate) = (List.ofFn g.slate).map ((↑) : ℕ → ℤ) := by
    simp [rows, List.map_ofFn, Function.comp_def]
  have hnd := npUnique_nodup (g.rows.map (·.slate))
  rw [← List.toFinset_card_of_nodup hnd]
  unfold numSlates
  rw [← Finset.card_image_of_injective (Finset.univ.image g.slate) (Nat.cast_injective (R := ℤ))]
  congr 1
  ext s
  simp only [List.mem_toFinset, npUnique_mem, hmap, List.mem_map, List.mem_ofFn, Finset.mem_image,
    Finset.mem_univ, true_and]

theorem numSlates_pos (hN : 0 < N) : 0 < g.numSlates := by
  unfold numSlates
  rw [Finset.card_pos]
  exact ⟨g.slate ⟨0, hN⟩, Finset.mem_image_of_mem _ (Finset.mem_univ _)⟩

theorem iw_rows (h : g.InRange) : (g.rows.mapM fun r => npDiv r.eps r.ps) = .ok (List.ofFn g.weight) :=
  mapM_ofFn_ok fun i => npDiv_ok (h i).1.ne'

theorem slateIpwRound_eq (h : g.InRange) :
    slateIpwRound g.rows = .ok (List.ofFn fun i => g.reward i * g.weight i) := by
  refine mapM_ofFn_ok fun i => ?_
  rw [npDiv_ok (h i).1.ne']; rfl

theorem slateSnGlobalRound_eq (h : g.InRange) (hN : 0 < N) :
    slateSnGlobalRound g.rows =
      if (∑ i, g.weight i) / (N : K) = 0 then .error .nonFinite
      else .ok (List.ofFn fun i => g.reward i * g.weight i / ((∑ i, g.weight i) / (N : K))) := by
  unfold slateSnGlobalRound
  rw [iw_rows g h, py_bind_ok, npMean_ofFn hN, py_bind_ok]
  have hz : g.rows.zip (List.ofFn g.weight) =
      List.ofFn fun i => (⟨g.slate i, g.pos i, g.reward i, g.ps i, g.eps i⟩, g.weight i) := by
    unfold rows
    apply List.ext_getElem <;> simp
  rw [hz]
  split
  · next h0 =>
    refine mapM_error_of (fun x hx => Or.inr ?_) ⟨_, List.mem_ofFn.2 ⟨⟨0, hN⟩, rfl⟩, ?_⟩ <;>
    · rw [h0]; exact npDiv_zero _
  · next h0 => exact mapM_ofFn_ok fun i => npDiv_ok h0

/-- Mean weight of the rows at position `p`. -/
def posMean (p : ℕ) : K :=
  (∑ j, if g.pos j = p then g.weight j else 0) / ((Finset.univ.filter fun j => g.pos j = p).card : K)

theorem slateSnRound_eq (h : g.InRange) (lenList : ℕ) :
    slateSnRound lenList g.rows =
      if ∃ i, g.pos i < lenList ∧ g.posMean (g.pos i) = 0 then .error .nonFinite
      else .ok (List.ofFn fun i =>
        if g.pos i < lenList then g.reward i * g.weight i / g.posMean (g.pos i) else 0) := by
  have hrow : ∀ i : Fin N, (if ((g.pos i : ℕ) : ℤ) < (lenList : ℤ) then (do
      let iw ← (g.rows.filter fun s => decide (s.pos = ((g.pos i : ℕ) : ℤ))).mapM fun s => npDiv s.eps s.ps
      let m ← npMean iw
      let w ← npDiv (g.eps i) (g.ps i)
      npDiv (g.reward i * w) m) else (pure 0 : Py K)) =
      if g.pos i < lenList ∧ g.posMean (g.pos i) = 0 then .error .nonFinite
      else .ok (if g.pos i < lenList then g.reward i * g.weight i / g.posMean (g.pos i) else 0) := by
    intro i
    by_cases hlt : g.pos i < lenList
    · rw [if_pos (by exact_mod_cast hlt)]
      have h1 : ((g.rows.filter fun s => decide (s.pos = ((g.pos i : ℕ) : ℤ))).mapM
          fun s => npDiv s.eps s.ps) =
          .ok ((g.rows.filter fun s => decide (s.pos = ((g.pos i : ℕ) : ℤ))).map
            fun s => s.eps / s.ps) := by
        refine mapM_map_ok fun s hs => ?_
        obtain ⟨j, rfl⟩ := mem_rows.1 (List.mem_filter.1 hs).1
        exact npDiv_ok (h j).1.ne'
      have hlen : (g.rows.filter fun s => decide (s.pos = ((g.pos i : ℕ) : ℤ))).length =
          (Finset.univ.filter fun j => g.pos j = g.pos i).card := by
        unfold rows
        rw [length_filter_ofFn]
        simp
      have hpos : 0 < (Finset.univ.filter fun j => g.pos j = g.pos i).card :=
        Finset.card_pos.2 ⟨i, by simp⟩
      have h2 : npMean ((g.rows.filter fun s => decide (s.pos = ((g.pos i : ℕ) : ℤ))).map
            fun s => s.eps / s.ps) = .ok (g.posMean (g.pos i)) := by
        unfold npMean
        rw [List.length_map, hlen, if_neg hpos.ne']
        unfold rows
        rw [sum_filter_ofFn]
        simp only [decide_eq_true_eq, Nat.cast_inj]
        rfl
      rw [h1, py_bind_ok, h2, py_bind_ok, npDiv_ok (h i).1.ne', py_bind_ok]
      by_cases h0 : g.posMean (g.pos i) = 0
      · rw [if_pos ⟨hlt, h0⟩, h0, npDiv_zero]
      · rw [if_neg (fun hh => h0 hh.2), if_pos hlt, npDiv_ok h0]; rfl
    · rw [if_neg (by exact_mod_cast hlt), if_neg (fun hh => hlt hh.1), if_neg hlt]; rfl
  unfold slateSnRound
  conv_lhs => arg 2; unfold rows
  by_cases hex : ∃ i, g.pos i < lenList ∧ g.posMean (g.pos i) = 0
  · rw [if_pos hex]
    obtain ⟨i, hi⟩ := hex
    refine mapM_error_of (fun x hx => ?_) ⟨_, List.mem_ofFn.2 ⟨i, rfl⟩, ?_⟩
    · obtain ⟨j, rfl⟩ := List.mem_ofFn.1 hx
      rw [hrow j]
      split
      · exact Or.inr rfl
      · exact Or.inl ⟨_, rfl⟩
    · exact (hrow i).trans (if_pos hi)
  · rw [if_neg hex]
    refine mapM_ofFn_ok fun i => (hrow i).trans (if_neg fun hh => hex ⟨i, hh⟩)

end SlateLog

end Obp
