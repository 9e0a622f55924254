import Verif.Model.SlateDataset
import Verif.Spec.SlateDataset
import Verif.Props.Synthetic
import Verif.Lemmas.Classification
import Mathlib.Data.Finset.Sort

set_option linter.unusedSectionVars false

/-! # Lemmas about slate policies -/

namespace Obp

/-- The actions left after `a`. -/
def nextSet (fact : Bool) (S : Finset ℕ) (a : ℕ) : Finset ℕ := if fact then S else S.erase a

/-- The probability of a (partial) slate under sequential choice with weights `w`. -/
noncomputable def seqProb (w : ℕ → ℝ) (fact : Bool) : Finset ℕ → List ℕ → ℝ
  | _, [] => 1
  | S, a :: s => w a / (∑ b ∈ S, w b) * seqProb w fact (nextSet fact S a) s

section seq
variable {w : ℕ → ℝ} {fact : Bool}

theorem mem_slates_cons {L : ℕ} {S : Finset ℕ} {a : ℕ} {s : List ℕ} :
    a :: s ∈ slates fact (L + 1) S ↔ a ∈ S ∧ s ∈ slates fact L (nextSet fact S a) := by
  simp only [slates, Finset.mem_biUnion, Finset.mem_image, nextSet]
  constructor
  · rintro ⟨b, hb, t, ht, h⟩
    obtain ⟨rfl, rfl⟩ := List.cons.inj h
    exact ⟨hb, ht⟩
  · rintro ⟨ha, hs⟩
    exact ⟨a, ha, s, hs, rfl⟩

theorem sum_slates_succ (L : ℕ) (S : Finset ℕ) (f : List ℕ → ℝ) :
    ∑ s ∈ slates fact (L + 1) S, f s = ∑ a ∈ S, ∑ s ∈ slates fact L (nextSet fact S a), f (a :: s) := by
  rw [show slates fact (L + 1) S =
    S.biUnion fun a => (slates fact L (if fact then S else S.erase a)).image (a :: ·) from rfl, Finset.sum_biUnion]
  · refine Finset.sum_congr rfl fun a _ => ?_
    rw [Finset.sum_image]
    · rfl
    · intro x _ y _ h
      exact (List.cons.inj h).2
  · intro a _ b _ hab
    rw [Function.onFun, Finset.disjoint_left]
    intro s hs hs'
    obtain ⟨t, -, rfl⟩ := Finset.mem_image.1 hs
    obtain ⟨t', -, h⟩ := Finset.mem_image.1 hs'
    exact hab (List.cons.inj h).1.symm

/-- There are enough actions for `L` positions. -/
def Enough (fact : Bool) (L : ℕ) (S : Finset ℕ) : Prop := if fact then S.Nonempty else L ≤ S.card

theorem Enough.next {L : ℕ} {S : Finset ℕ} (h : Enough fact (L + 1) S) {a : ℕ} (ha : a ∈ S) :
    Enough fact L (nextSet fact S a) := by
  unfold Enough nextSet at *
  cases fact
  · simp only [Bool.false_eq_true, if_false] at *
    rw [Finset.card_erase_of_mem ha]
    omega
  · simpa using h

theorem Enough.nonempty {L : ℕ} {S : Finset ℕ} (h : Enough fact (L + 1) S) : S.Nonempty := by
  unfold Enough at h
  cases fact
  · simp only [Bool.false_eq_true, if_false] at h
    exact Finset.card_pos.1 (by omega)
  · simpa using h

theorem sum_w_pos (hw : ∀ a, 0 < w a) {S : Finset ℕ} (hS : S.Nonempty) : 0 < ∑ b ∈ S, w b :=
  Finset.sum_pos (fun b _ => hw b) hS

theorem seqProb_pos (hw : ∀ a, 0 < w a) {L : ℕ} {S : Finset ℕ} {s : List ℕ} (hs : s ∈ slates fact L S) :
    0 < seqProb w fact S s := by
  induction s generalizing L S with
  | nil => exact one_pos
  | cons a s ih =>
      cases L with
      | zero => simp [slates] at hs
      | succ L =>
          obtain ⟨ha, hs⟩ := mem_slates_cons.1 hs
          exact mul_pos (div_pos (hw a) (sum_w_pos hw ⟨a, ha⟩)) (ih hs)

theorem sum_seqProb (hw : ∀ a, 0 < w a) {L : ℕ} {S : Finset ℕ} (hS : Enough fact L S) :
    ∑ s ∈ slates fact L S, seqProb w fact S s = 1 := by
  induction L generalizing S with
  | zero => simp [slates, seqProb]
  | succ L ih =>
      rw [sum_slates_succ]
      have h : ∀ a ∈ S, ∑ s ∈ slates fact L (nextSet fact S a), seqProb w fact S (a :: s) =
          w a / ∑ b ∈ S, w b := fun a ha => by
        simp only [seqProb]
        rw [← Finset.mul_sum, ih (hS.next ha), mul_one]
      rw [Finset.sum_congr rfl h, ← Finset.sum_div, div_self (sum_w_pos hw hS.nonempty).ne']

/-- The slates that agree with `s` up to position `k` have together the probability of the prefix. -/
theorem sum_prefix (hw : ∀ a, 0 < w a) {L : ℕ} {S : Finset ℕ} (hS : Enough fact L S) {s : List ℕ}
    (hs : s ∈ slates fact L S) (k : ℕ) :
    ∑ t ∈ slates fact L S with t.take k = s.take k, seqProb w fact S t = seqProb w fact S (s.take k) := by
  induction k generalizing L S s with
  | zero => simpa [seqProb] using sum_seqProb hw hS
  | succ k ih =>
      cases s with
      | nil =>
          have hL : L = 0 := by
            have := (mem_slates.1 hs).1
            simpa using this.symm
          subst hL
          simp [slates, seqProb, Finset.filter_singleton]
      | cons a s =>
          cases L with
          | zero => simp [slates] at hs
          | succ L =>
              obtain ⟨ha, hs'⟩ := mem_slates_cons.1 hs
              rw [Finset.sum_filter, sum_slates_succ, Finset.sum_eq_single a]
              · simp only [List.take_succ_cons, List.cons.injEq, true_and, seqProb]
                rw [← Finset.sum_filter, ← Finset.mul_sum, ih (hS.next ha) hs']
              · intro b _ hb
                refine Finset.sum_eq_zero fun t _ => if_neg ?_
                simp only [List.take_succ_cons, List.cons.injEq, not_and]
                exact fun h => absurd h hb
              · exact fun h => absurd ha h

/-- With constant weights every action is equally likely at every position. -/
theorem sum_uniform_item {c : ℝ} (hc : 0 < c) {L : ℕ} {S : Finset ℕ} (hS : Enough fact L S) {k : ℕ} (hk : k < L) {a : ℕ}
    (ha : a ∈ S) :
    ∑ t ∈ slates fact L S with t[k]? = some a, seqProb (fun _ => c) fact S t = 1 / (S.card : ℝ) := by
  induction k generalizing L S with
  | zero =>
      cases L with
      | zero => omega
      | succ L =>
          rw [Finset.sum_filter, sum_slates_succ, Finset.sum_eq_single a]
          · simp only [List.getElem?_cons_zero, if_true, seqProb]
            rw [← Finset.mul_sum, sum_seqProb (fun _ => hc) (hS.next ha), mul_one, Finset.sum_const, nsmul_eq_mul]
            have hcard : (S.card : ℝ) ≠ 0 := by
              exact_mod_cast (Finset.card_pos.2 ⟨a, ha⟩).ne'
            field_simp
          · intro b _ hb
            refine Finset.sum_eq_zero fun t _ => if_neg ?_
            simpa using hb
          · exact fun h => absurd ha h
  | succ k ih =>
      cases L with
      | zero => omega
      | succ L =>
          rw [Finset.sum_filter, sum_slates_succ]
          have hcard : (0 : ℝ) < S.card := by exact_mod_cast Finset.card_pos.2 ⟨a, ha⟩
          have hsum : ∑ _b ∈ S, c = S.card * c := by rw [Finset.sum_const, nsmul_eq_mul]
          have hterm : ∀ b ∈ S, (∑ t ∈ slates fact L (nextSet fact S b),
              if (b :: t)[k + 1]? = some a then seqProb (fun _ => c) fact S (b :: t) else 0) =
              if a ∈ nextSet fact S b then 1 / (S.card : ℝ) * (1 / ((nextSet fact S b).card : ℝ)) else 0 := by
            intro b hb
            simp only [List.getElem?_cons_succ, seqProb]
            rw [← Finset.sum_filter, ← Finset.mul_sum, hsum]
            split
            · next hm =>
              rw [ih (hS.next hb) (by omega) hm]
              congr 1
              field_simp
            · next hm =>
              rw [Finset.sum_eq_zero, mul_zero]
              intro t ht
              obtain ⟨h1, h2⟩ := Finset.mem_filter.1 ht
              exact absurd ((mem_slates.1 h1).2.2 a (List.mem_of_getElem? h2)) hm
          rw [Finset.sum_congr rfl hterm]
          cases fact
          · have hm : ∀ b ∈ S, (if a ∈ nextSet false S b then
                1 / (S.card : ℝ) * (1 / ((nextSet false S b).card : ℝ)) else 0) =
                if b = a then 0 else 1 / (S.card : ℝ) * (1 / ((S.card - 1 : ℕ) : ℝ)) := by
              intro b hb
              unfold nextSet
              simp only [Bool.false_eq_true, if_false, Finset.mem_erase, Finset.card_erase_of_mem hb]
              by_cases h : b = a
              · subst h; simp
              · rw [if_pos ⟨fun h' => h h'.symm, ha⟩, if_neg h]
            rw [Finset.sum_congr rfl hm]
            have he : ∀ b ∈ S.erase a, (if b = a then (0 : ℝ) else 1 / (S.card : ℝ) * (1 / ((S.card - 1 : ℕ) : ℝ))) =
                1 / (S.card : ℝ) * (1 / ((S.card - 1 : ℕ) : ℝ)) := fun b hb => by
              rw [if_neg (Finset.ne_of_mem_erase hb)]
            rw [← Finset.add_sum_erase _ _ ha, if_pos rfl, zero_add, Finset.sum_congr rfl he, Finset.sum_const,
              Finset.card_erase_of_mem ha, nsmul_eq_mul]
            have hc1 : ((S.card - 1 : ℕ) : ℝ) ≠ 0 := by
              have : L + 1 ≤ S.card := by simpa [Enough] using hS
              have : S.card - 1 ≠ 0 := by omega
              exact_mod_cast this
            field_simp
          · simp only [nextSet, if_true, if_pos ha, Finset.sum_const, nsmul_eq_mul]
            field_simp

end seq

/-! ### the code computes `seqProb` -/

theorem whereFirst_mem {set : List ℕ} {a : ℕ} (ha : a ∈ set) :
    ∃ j, whereFirst set a = .ok j ∧ set[j]? = some a ∧ set.eraseIdx j = set.erase a := by
  have h : set.idxOf? a = some (set.idxOf a) :=
    List.findIdx?_eq_some_iff_findIdx_eq.2 ⟨List.idxOf_lt_length_of_mem ha, rfl⟩
  unfold whereFirst
  rw [h]
  refine ⟨set.idxOf a, rfl, ?_, ?_⟩
  · rw [List.getElem?_eq_getElem (List.idxOf_lt_length_of_mem ha), List.getElem_idxOf]
  · exact (List.erase_eq_eraseIdx_of_idxOf rfl).symm

theorem whereFirst_notMem {set : List ℕ} {a : ℕ} (ha : a ∉ set) : whereFirst set a = .error .indexError := by
  have h : set.idxOf? a = none := by
    unfold List.idxOf?
    rw [List.findIdx?_eq_none_iff]
    intro x hx
    simp only [beq_eq_false_iff_ne]
    rintro rfl
    exact ha hx
  unfold whereFirst
  rw [h]

/-- The weights of a softmax policy. -/
noncomputable def expW {A : ℕ} (l : Fin A → ℝ) (a : ℕ) : ℝ := if h : a < A then Real.exp (l ⟨a, h⟩) else 1

theorem expW_pos {A : ℕ} (l : Fin A → ℝ) (a : ℕ) : 0 < expW l a := by
  unfold expW
  split
  · exact Real.exp_pos _
  · exact one_pos

/-- `scores` normalises the weights `w` over any set of actions below `A`. -/
def Normalises (A : ℕ) (w : ℕ → ℝ) (scores : List ℕ → Py (List ℝ)) : Prop :=
  ∀ set : List ℕ, set ≠ [] → (∀ a ∈ set, a < A) → scores set = .ok (set.map fun a => w a / (set.map w).sum)

theorem takeAt_map {α : Type} {A : ℕ} (f : Fin A → α) (g : ℕ → α) (hg : ∀ a : Fin A, g a = f a) {set : List ℕ}
    (hs : ∀ a ∈ set, a < A) : takeAt (List.ofFn f) set = .ok (set.map g) := by
  unfold takeAt
  rw [mapM_ok_iff, List.forall₂_map_right_iff, List.forall₂_same]
  intro a ha
  rw [List.getElem?_ofFn, dif_pos (hs a ha)]
  dsimp only
  rw [← hg ⟨a, hs a ha⟩]

theorem slateScores_normalises {A : ℕ} (l : Fin A → ℝ) : Normalises A (expW l) (slateScores (List.ofFn l)) := by
  intro set hne hs
  unfold slateScores
  rw [takeAt_map l (fun a => if h : a < A then l ⟨a, h⟩ else 0) (fun a => by simp) hs, py_bind_ok,
    softmax_list (by simpa using hne), List.map_map, List.map_map]
  have he : ∀ a ∈ set, Real.exp (if h : a < A then l ⟨a, h⟩ else 0) = expW l a := fun a ha => by
    unfold expW
    rw [dif_pos (hs a ha), dif_pos (hs a ha)]
  congr 1
  have hsum : (set.map (Real.exp ∘ fun a => if h : a < A then l ⟨a, h⟩ else 0)).sum = (set.map (expW l)).sum := by
    congr 1
    exact List.map_congr_left he
  rw [hsum]
  exact List.map_congr_left fun a ha => by simp only [Function.comp, he a ha]

theorem normalizedScores_normalises {A : ℕ} (f : Fin A → ℝ) (hf : ∀ a, 0 < f a) (w : ℕ → ℝ) (hw : ∀ a : Fin A, w a = f a) :
    Normalises A w (normalizedScores (List.ofFn f)) := by
  intro set hne hs
  unfold normalizedScores
  rw [takeAt_map f w hw hs, py_bind_ok]
  have hpos : 0 < (set.map w).sum := by
    refine List.sum_pos _ (fun x hx => ?_) (by simpa using hne)
    obtain ⟨a, ha, rfl⟩ := List.mem_map.1 hx
    rw [hw ⟨a, hs a ha⟩]
    exact hf _
  rw [mapM_ok_iff, List.forall₂_map_right_iff, List.forall₂_map_left_iff, List.forall₂_same]
  exact fun a _ => npDiv_ok hpos.ne'

theorem entryAt_map {α : Type} {set : List ℕ} {j a : ℕ} (h : set[j]? = some a) (f : ℕ → α) :
    entryAt (set.map f) j = .ok (f a) := by
  unfold entryAt
  rw [List.getElem?_map, h]
  rfl

theorem list_sum_eq_finset {set : List ℕ} (hnd : set.Nodup) (w : ℕ → ℝ) :
    (set.map w).sum = ∑ b ∈ set.toFinset, w b := (List.sum_toFinset w hnd).symm

theorem slateRemaining_nodup {fact : Bool} {set : List ℕ} (h : set.Nodup) (a : ℕ) :
    (slateRemaining fact set a).Nodup := by
  unfold slateRemaining
  split
  · exact h
  · exact h.filter _

theorem slateRemaining_toFinset (fact : Bool) (set : List ℕ) (a : ℕ) :
    (slateRemaining fact set a).toFinset = nextSet fact set.toFinset a := by
  unfold slateRemaining nextSet
  split
  · rfl
  · ext b
    simp [and_comm]

theorem slateRemaining_mem {fact : Bool} {set : List ℕ} {a b : ℕ} (h : b ∈ slateRemaining fact set a) : b ∈ set := by
  unfold slateRemaining at h
  split at h
  · exact h
  · exact (List.mem_filter.1 h).1

theorem slateScore_ok {A : ℕ} {w : ℕ → ℝ} {logits : List ℝ} (hn : Normalises A w (slateScores logits))
    {set : List ℕ} (hnd : set.Nodup) (hs : ∀ a ∈ set, a < A) {a : ℕ}
    (ha : a ∈ set) : slateScore logits set a = .ok (w a / ∑ b ∈ set.toFinset, w b) := by
  obtain ⟨j, hj, hja, -⟩ := whereFirst_mem ha
  unfold slateScore
  rw [hn set (List.ne_nil_of_mem ha) hs, py_bind_ok, hj, py_bind_ok, entryAt_map hja,
    list_sum_eq_finset hnd]

/-- The running products are the probabilities of the prefixes. -/
theorem slateCascade_ok {A : ℕ} {w : ℕ → ℝ} {logits : List ℝ} (hn : Normalises A w (slateScores logits))
    {fact : Bool} {L : ℕ} {set : List ℕ} (hnd : set.Nodup)
    (hs : ∀ a ∈ set, a < A) (p : ℝ) {s : List ℕ} (hmem : s ∈ slates fact L set.toFinset) :
    slateCascade logits fact set p s =
      .ok ((List.range L).map fun k => p * seqProb w fact set.toFinset (s.take (k + 1))) := by
  induction s generalizing L set p with
  | nil =>
      have : L = 0 := by simpa using (mem_slates.1 hmem).1.symm
      subst this
      rfl
  | cons a s ih =>
      cases L with
      | zero => simp [slates] at hmem
      | succ L =>
          obtain ⟨ha, hmem⟩ := mem_slates_cons.1 hmem
          unfold slateCascade
          rw [slateScore_ok hn hnd hs (List.mem_toFinset.1 ha), py_bind_ok,
            ih (slateRemaining_nodup hnd a) (fun b hb => hs b (slateRemaining_mem hb))
              _ (by rw [slateRemaining_toFinset]; exact hmem), py_bind_ok, py_pure, slateRemaining_toFinset]
          rw [List.range_succ_eq_map, List.map_cons, List.map_map]
          congr 2
          · simp [seqProb]
          · refine List.map_congr_left fun k _ => ?_
            simp only [Function.comp, List.take_succ_cons, seqProb]
            ring

/-- A slate that the policy cannot produce is refused. -/
theorem slateCascade_error {A : ℕ} {w : ℕ → ℝ} {logits : List ℝ} (hn : Normalises A w (slateScores logits))
    {fact : Bool} {set : List ℕ} (hnd : set.Nodup)
    (hs : ∀ a ∈ set, a < A) (p : ℝ) {s : List ℕ} (hE : Enough fact s.length set.toFinset)
    (hmem : s ∉ slates fact s.length set.toFinset) :
    slateCascade logits fact set p s = .error .indexError := by
  induction s generalizing set p with
  | nil => simp [slates] at hmem
  | cons a s ih =>
      rw [List.length_cons, mem_slates_cons, not_and] at hmem
      unfold slateCascade
      by_cases ha : a ∈ set
      · rw [slateScore_ok hn hnd hs ha, py_bind_ok,
          ih (slateRemaining_nodup hnd a) (fun b hb => hs b (slateRemaining_mem hb)) _
            (by rw [slateRemaining_toFinset]; exact hE.next (List.mem_toFinset.2 ha))
            (by rw [slateRemaining_toFinset]; exact hmem (List.mem_toFinset.2 ha)), py_bind_error]
      · have hne : set ≠ [] := by
          rintro rfl
          exact absurd hE.nonempty (by simp)
        unfold slateScore
        rw [hn set hne hs, py_bind_ok, whereFirst_notMem ha, py_bind_error, py_bind_error]

/-- The product over the positions is the probability of the slate. -/
theorem slateProduct_ok {A : ℕ} {w : ℕ → ℝ} {scores : List ℕ → Py (List ℝ)} (hn : Normalises A w scores)
    {L : ℕ} {set : List ℕ} (hnd : set.Nodup) (hs : ∀ a ∈ set, a < A) (p : ℝ) {s : List ℕ}
    (hmem : s ∈ slates false L set.toFinset) :
    slateProduct scores set p s = .ok (p * seqProb w false set.toFinset s) := by
  induction s generalizing L set p with
  | nil => simp [slateProduct, seqProb]
  | cons a s ih =>
      cases L with
      | zero => simp [slates] at hmem
      | succ L =>
          obtain ⟨ha, hmem⟩ := mem_slates_cons.1 hmem
          have ha' := List.mem_toFinset.1 ha
          obtain ⟨j, hj, hja, herase⟩ := whereFirst_mem ha'
          unfold slateProduct
          have hfs : (set.erase a).toFinset = nextSet false set.toFinset a := by
            unfold nextSet
            rw [if_neg (by simp), hnd.erase_eq_filter]
            ext b
            simp [and_comm]
          rw [hn set (List.ne_nil_of_mem ha') hs, py_bind_ok, hj, py_bind_ok, entryAt_map hja, py_bind_ok, herase,
            ih (hnd.erase a) (fun b hb => hs b (List.mem_of_mem_erase hb)) _ (by rw [hfs]; exact hmem), hfs,
            list_sum_eq_finset hnd]
          simp only [seqProb]
          rw [mul_assoc]

theorem permutationsOf_spec {L : ℕ} {pool : List ℕ} (hnd : pool.Nodup) :
    (permutationsOf L pool).Nodup ∧ (permutationsOf L pool).toFinset = slates false L pool.toFinset := by
  induction L generalizing pool with
  | zero => simp [permutationsOf, slates]
  | succ L ih =>
      constructor
      · unfold permutationsOf
        rw [List.nodup_flatMap]
        refine ⟨fun a ha => ((ih (hnd.erase a)).1).map fun x y h => (List.cons.inj h).2, ?_⟩
        refine hnd.imp_of_mem fun {a b} _ _ hab => ?_
        intro s hs hs'
        obtain ⟨t, -, rfl⟩ := List.mem_map.1 hs
        obtain ⟨t', -, h⟩ := List.mem_map.1 hs'
        exact hab (List.cons.inj h).1.symm
      · ext s
        cases s with
        | nil => simp [permutationsOf, mem_slates]
        | cons a s =>
            rw [mem_slates_cons, List.mem_toFinset]
            unfold permutationsOf
            simp only [List.mem_flatMap, List.mem_map, List.cons.injEq]
            have hfs : (pool.erase a).toFinset = nextSet false pool.toFinset a := by
              unfold nextSet
              rw [if_neg (by simp), hnd.erase_eq_filter]
              ext b
              simp [and_comm]
            rw [← hfs, ← (ih (hnd.erase a)).2, List.mem_toFinset, List.mem_toFinset]
            constructor
            · rintro ⟨b, hb, t, ht, rfl, rfl⟩
              exact ⟨hb, ht⟩
            · rintro ⟨hb, ht⟩
              exact ⟨a, hb, s, ht, rfl, rfl⟩

theorem range_toFinset (A : ℕ) : (List.range A).toFinset = Finset.range A := by
  ext a
  simp

theorem itemPositionSum_ok {A L : ℕ} {logits : List ℝ} {clip : Option ℝ} {w : ℕ → ℝ}
    (hn : Normalises A w (enumeratedScores clip logits)) (pos a : ℕ) :
    itemPositionSum A L clip logits pos a =
      .ok (∑ t ∈ slates false L (Finset.range A) with t[pos]? = some a, seqProb w false (Finset.range A) t) := by
  have hp := permutationsOf_spec (L := L) (List.nodup_range (n := A))
  unfold itemPositionSum
  dsimp only
  have hm : (permutationsOf L (List.range A)).mapM
      (fun s => slateProduct (enumeratedScores clip logits) (List.range A) 1 s) =
      .ok ((permutationsOf L (List.range A)).map fun s => seqProb w false (Finset.range A) s) := by
    rw [mapM_ok_iff, List.forall₂_map_right_iff, List.forall₂_same]
    intro s hs
    rw [slateProduct_ok hn List.nodup_range (fun a ha => List.mem_range.1 ha) 1 (L := L), one_mul, range_toFinset]
    rw [← hp.2]
    simpa using hs
  rw [hm, py_bind_ok, py_pure]
  congr 1
  have hz : ∀ xs : List (List ℕ), (((xs.zip (xs.map fun s => seqProb w false (Finset.range A) s)).filter
      fun x => decide (x.1[pos]? = some a)).map (·.2)) =
      (xs.filter fun t => decide (t[pos]? = some a)).map fun s => seqProb w false (Finset.range A) s := by
    intro xs
    induction xs with
    | nil => rfl
    | cons x xs ih =>
        rw [List.map_cons, List.zip_cons_cons, List.filter_cons, List.filter_cons]
        split
        · rw [List.map_cons, List.map_cons, ih]
        · exact ih
  rw [hz, ← List.sum_toFinset _ (hp.1.filter _), List.toFinset_filter, hp.2, range_toFinset]
  simp

/-! ### logits given by a function -/

theorem Normalises.congr {A : ℕ} {w w' : ℕ → ℝ} {scores : List ℕ → Py (List ℝ)} (hn : Normalises A w scores)
    (h : ∀ a < A, w a = w' a) : Normalises A w' scores := by
  intro set hne hs
  rw [hn set hne hs]
  have hm : set.map w = set.map w' := List.map_congr_left fun a ha => h a (hs a ha)
  rw [hm]
  congr 1
  exact List.map_congr_left fun a ha => by rw [h a (hs a ha)]

theorem range_map_ofFn {α : Type} (A : ℕ) (l : ℕ → α) : (List.range A).map l = List.ofFn fun a : Fin A => l a := by
  rw [List.ofFn_eq_map, ← List.map_coe_finRange_eq_range, List.map_map]
  rfl

theorem range_map_ofFn_id (A : ℕ) : List.range A = List.ofFn fun a : Fin A => a.val := by
  rw [← range_map_ofFn A fun a => a, List.map_id']

theorem slateScores_range (A : ℕ) (l : ℕ → ℝ) :
    Normalises A (fun a => Real.exp (l a)) (slateScores ((List.range A).map l)) := by
  rw [range_map_ofFn]
  refine (slateScores_normalises _).congr fun a ha => ?_
  unfold expW
  rw [dif_pos ha]

/-- The logits used for the item-position propensities. -/
noncomputable def clippedLogit (clip : Option ℝ) (l : ℕ → ℝ) (a : ℕ) : ℝ :=
  match clip with
  | some c => min (l a) c
  | none => l a

theorem enumeratedScores_range (A : ℕ) (clip : Option ℝ) (l : ℕ → ℝ) :
    Normalises A (fun a => Real.exp (clippedLogit clip l a)) (enumeratedScores clip ((List.range A).map l)) := by
  cases clip with
  | none => exact slateScores_range A l
  | some c =>
      simp only [enumeratedScores, clippedLogit]
      rw [List.map_map, range_map_ofFn]
      exact normalizedScores_normalises _ (fun a => Real.exp_pos _) _ fun a => rfl

theorem available_cons (fact : Bool) (S : Finset ℕ) (a : ℕ) (s : List ℕ) (k : ℕ) :
    available fact S (a :: s) (k + 1) = available fact (nextSet fact S a) s k := by
  unfold available nextSet
  cases fact
  · simp only [Bool.false_eq_true, if_false, List.take_succ_cons]
    ext b
    simp only [Finset.mem_sdiff, List.mem_toFinset, List.mem_cons, Finset.mem_erase, not_or]
    tauto
  · rfl

theorem available_zero (fact : Bool) (S : Finset ℕ) (s : List ℕ) : available fact S s 0 = S := by
  unfold available
  cases fact <;> simp

theorem seqProb_eq_prod (w : ℕ → ℝ) (fact : Bool) (S : Finset ℕ) (s : List ℕ) :
    seqProb w fact S s = ∏ k : Fin s.length, w s[k] / ∑ b ∈ available fact S s k, w b := by
  induction s generalizing S with
  | nil => simp [seqProb]
  | cons a s ih =>
      simp only [seqProb]
      rw [ih]
      change _ = ∏ k : Fin (s.length + 1), w (a :: s)[k] / ∑ b ∈ available fact S (a :: s) k, w b
      rw [Fin.prod_univ_succ]
      congr 1
      · rw [Fin.val_zero, available_zero]
        rfl
      · refine Finset.prod_congr rfl fun k _ => ?_
        rw [Fin.val_succ, available_cons]
        rfl

theorem slateProb_eq (l : ℕ → ℝ) (fact : Bool) (A : ℕ) (s : List ℕ) :
    slateProb l fact A s = seqProb (fun a => Real.exp (l a)) fact (Finset.range A) s :=
  (seqProb_eq_prod (fun a => Real.exp (l a)) fact (Finset.range A) s).symm

theorem enough_range {fact : Bool} {A L : ℕ} (hA : 0 < A) (hL : fact = false → L ≤ A) :
    Enough fact L (Finset.range A) := by
  unfold Enough
  cases fact
  · simpa using hL rfl
  · simpa using hA.ne'

theorem slatePrefix_eq {l : ℕ → ℝ} {fact : Bool} {A L : ℕ} (hA : 0 < A) (hL : fact = false → L ≤ A) {s : List ℕ}
    (hs : s ∈ slates fact L (Finset.range A)) (k : ℕ) :
    slatePrefix l fact A L s k = seqProb (fun a => Real.exp (l a)) fact (Finset.range A) (s.take (k + 1)) := by
  unfold slatePrefix
  simp only [slateProb_eq]
  exact sum_prefix (fun a => Real.exp_pos _) (enough_range hA hL) hs (k + 1)

/-- For the first position the running product is the marginal. -/
theorem slateMarginal_zero {l : ℕ → ℝ} {fact : Bool} {A L : ℕ} (hA : 0 < A) (hL : fact = false → L ≤ A) {s : List ℕ}
    (hs : s ∈ slates fact L (Finset.range A)) {a : ℕ} (h : s[0]? = some a) :
    slateMarginal l fact A L 0 a = seqProb (fun a => Real.exp (l a)) fact (Finset.range A) (s.take 1) := by
  rw [← slatePrefix_eq hA hL hs 0]
  unfold slateMarginal slatePrefix
  refine Finset.sum_congr (Finset.filter_congr fun t ht => ?_) fun _ _ => rfl
  have hlen : t.length = s.length := (mem_slates.1 ht).1.trans (mem_slates.1 hs).1.symm
  cases s with
  | nil => simp at h
  | cons b s =>
      cases t with
      | nil => simp at hlen
      | cons c t =>
          simp only [List.getElem?_cons_zero, Option.some.injEq] at h
          simp [h]

/-- For a factorizable policy the marginals are the softmax probabilities. -/
theorem sum_fact_item {w : ℕ → ℝ} (hw : ∀ a, 0 < w a) {L : ℕ} {S : Finset ℕ} {k : ℕ} (hk : k < L) {a : ℕ} (ha : a ∈ S) :
    ∑ t ∈ slates true L S with t[k]? = some a, seqProb w true S t = w a / ∑ b ∈ S, w b := by
  induction k generalizing L with
  | zero =>
      cases L with
      | zero => omega
      | succ L =>
          rw [Finset.sum_filter, sum_slates_succ, Finset.sum_eq_single a]
          · simp only [List.getElem?_cons_zero, if_true, seqProb]
            rw [← Finset.mul_sum, show nextSet true S a = S from rfl,
              sum_seqProb hw (by unfold Enough; simpa using ⟨a, ha⟩), mul_one]
          · intro b _ hb
            refine Finset.sum_eq_zero fun t _ => if_neg ?_
            simpa using hb
          · exact fun h => absurd ha h
  | succ k ih =>
      cases L with
      | zero => omega
      | succ L =>
          rw [Finset.sum_filter, sum_slates_succ]
          simp only [List.getElem?_cons_succ, seqProb, show ∀ b, nextSet true S b = S from fun _ => rfl]
          simp only [← Finset.sum_filter, ← Finset.mul_sum, ih (L := L) (by omega)]
          rw [← Finset.sum_mul, ← Finset.sum_div, div_self (sum_w_pos hw ⟨a, ha⟩).ne', one_mul]

theorem slateMarginal_fact {l : ℕ → ℝ} {A L k a : ℕ} (hk : k < L) (ha : a < A) :
    slateMarginal l true A L k a = Real.exp (l a) / ∑ b ∈ Finset.range A, Real.exp (l b) := by
  unfold slateMarginal
  simp only [slateProb_eq]
  exact sum_fact_item (w := fun a => Real.exp (l a)) (fun a => Real.exp_pos _) hk (Finset.mem_range.2 ha)

theorem mapM_zipIdx_ok {α β : Type} (f : α × ℕ → Py β) (g : ℕ → β) (xs : List α)
    (h : ∀ k (hk : k < xs.length), f (xs[k], k) = .ok (g k)) :
    xs.zipIdx.mapM f = .ok ((List.range xs.length).map g) := by
  rw [mapM_ok_iff, List.forall₂_iff_get]
  refine ⟨by simp, fun k hk hk' => ?_⟩
  simp only [List.get_eq_getElem, List.getElem_zipIdx, List.getElem_map, List.getElem_range, Nat.zero_add]
  exact h k (by simpa using hk)

/-- The item-position propensities that the code computes. -/
noncomputable def itemOf (fact : Bool) (clip : Option ℝ) (l : ℕ → ℝ) (A L k a : ℕ) : ℝ :=
  if k = 0 ∨ fact = true then slateMarginal l fact A L k a else slateMarginal (clippedLogit clip l) fact A L k a

theorem itemPosition_ok {l : ℕ → ℝ} {fact : Bool} {clip : Option ℝ} {A L : ℕ} (hA : 0 < A) (hL : fact = false → L ≤ A)
    {s : List ℕ} (hs : s ∈ slates fact L (Finset.range A)) {k : ℕ} (hk : k < s.length) :
    itemPosition A L fact clip ((List.range A).map l) k s[k]
      (seqProb (fun a => Real.exp (l a)) fact (Finset.range A) (s.take (k + 1))) =
      .ok (itemOf fact clip l A L k s[k]) := by
  obtain ⟨hlen, -, hmem⟩ := mem_slates.1 hs
  unfold itemPosition itemOf
  by_cases h0 : k = 0
  · subst h0
    rw [if_pos rfl, if_pos (Or.inl rfl), slateMarginal_zero hA hL hs (List.getElem?_eq_getElem hk)]
  · rw [if_neg h0]
    cases fact
    · rw [if_neg (by simp), if_neg (by simp [h0]), itemPositionSum_ok (enumeratedScores_range A clip l)]
      unfold slateMarginal
      simp only [slateProb_eq]
    · rw [if_pos rfl, if_pos (Or.inr rfl), slateMarginal_fact (hlen ▸ hk)
        (Finset.mem_range.1 (hmem _ (List.getElem_mem hk))),
        slateScore_ok (slateScores_range A l) List.nodup_range (fun a ha => List.mem_range.1 ha)
          (List.mem_range.2 (Finset.mem_range.1 (hmem _ (List.getElem_mem hk)))), range_toFinset]

theorem getLastD_map_range (L : ℕ) (f : ℕ → ℝ) (d : ℝ) :
    ((List.range L).map f).getLastD d = if L = 0 then d else f (L - 1) := by
  cases L with
  | zero => rfl
  | succ L => simp [List.range_succ]

theorem slatePscores_ok {l : ℕ → ℝ} {fact : Bool} {clip : Option ℝ} {A L : ℕ} (hA : 0 < A) (hL : fact = false → L ≤ A)
    {s : List ℕ} (hs : s ∈ slates fact L (Finset.range A)) :
    slatePscores A L fact clip ((List.range A).map l) s =
      .ok ⟨slateProb l fact A s, s.mapIdx (itemOf fact clip l A L),
        (List.range L).map (slatePrefix l fact A L s)⟩ := by
  obtain ⟨hlen, -, hmem⟩ := mem_slates.1 hs
  unfold slatePscores
  rw [slateCascade_ok (slateScores_range A l) List.nodup_range (fun a ha => List.mem_range.1 ha) 1
    (by rw [range_toFinset]; exact hs), py_bind_ok, range_toFinset]
  simp only [one_mul]
  rw [mapM_zipIdx_ok _ (fun k => itemOf fact clip l A L k (s.getD k 0)), py_bind_ok, py_pure]
  · congr 2
    · rw [getLastD_map_range, slateProb_eq]
      split
      · next h =>
        subst h
        rw [List.length_eq_zero_iff.1 hlen]
        rfl
      · next h => rw [show L - 1 + 1 = s.length by omega, List.take_length]
    · refine List.ext_getElem (by simp [hlen]) fun k h1 h2 => ?_
      have hk : k < s.length := by simpa using h2
      simp [hk]
    · exact List.map_congr_left fun k _ => (slatePrefix_eq hA hL hs k).symm
  · intro k hk
    have hk' : k < s.length := by
      simp only [List.length_zip, List.length_map, List.length_range] at hk
      omega
    simp only [List.getElem_zip, List.getElem_map, List.getElem_range]
    rw [itemPosition_ok hA hL hs hk']
    simp [hk']

/-! ### sampling -/

/-- The draw `u` selects the action `a` of `S`, the actions being laid out in increasing order. -/
def Selects (w : ℕ → ℝ) (S : Finset ℕ) (a : ℕ) (u : ℝ) : Prop :=
  (∑ b ∈ S with b < a, w b) / ∑ b ∈ S, w b ≤ u ∧ u < (∑ b ∈ S with b ≤ a, w b) / ∑ b ∈ S, w b

/-- The draws select the actions of the slate one after the other. -/
def Drawn (w : ℕ → ℝ) (fact : Bool) : Finset ℕ → List ℕ → List ℝ → Prop
  | _, [], [] => True
  | S, a :: s, u :: us => a ∈ S ∧ Selects w S a u ∧ Drawn w fact (nextSet fact S a) s us
  | _, _, _ => False

theorem sorted_take_sum {set : List ℕ} (hsort : set.Pairwise (· < ·)) (w : ℕ → ℝ) {j a : ℕ} (h : set[j]? = some a) :
    ((set.take j).map w).sum = ∑ b ∈ set.toFinset with b < a, w b ∧
    ((set.take (j + 1)).map w).sum = ∑ b ∈ set.toFinset with b ≤ a, w b := by
  induction set generalizing j with
  | nil => simp at h
  | cons x set ih =>
      obtain ⟨hx, hsort⟩ := List.pairwise_cons.1 hsort
      have hxs : x ∉ set.toFinset := fun hm => lt_irrefl x (hx x (List.mem_toFinset.1 hm))
      cases j with
      | zero =>
          obtain rfl : x = a := by simpa using h
          constructor
          · rw [List.take_zero, List.map_nil, List.sum_nil, Finset.sum_eq_zero]
            intro b hb
            obtain ⟨hb, hlt⟩ := Finset.mem_filter.1 hb
            rcases List.mem_cons.1 (List.mem_toFinset.1 hb) with rfl | hb
            · exact absurd hlt (lt_irrefl _)
            · exact absurd hlt (hx b hb).asymm
          · have he : {b ∈ (x :: set).toFinset | b ≤ x} = {x} := by
              ext b
              simp only [Finset.mem_filter, List.mem_toFinset, List.mem_cons, Finset.mem_singleton]
              constructor
              · rintro ⟨rfl | hb, hle⟩
                · rfl
                · exact absurd hle (not_le.2 (hx b hb))
              · rintro rfl
                exact ⟨Or.inl rfl, le_rfl⟩
            rw [he]
            simp
      | succ j =>
          have h' : set[j]? = some a := by simpa using h
          have hxa : x < a := hx a (List.mem_of_getElem? h')
          obtain ⟨h1, h2⟩ := ih hsort h'
          rw [List.take_succ_cons, List.take_succ_cons, List.map_cons, List.map_cons, List.sum_cons, List.sum_cons,
            h1, h2, List.toFinset_cons, Finset.filter_insert, if_pos hxa, Finset.filter_insert, if_pos hxa.le,
            Finset.sum_insert (fun hm => hxs (Finset.mem_filter.1 hm).1),
            Finset.sum_insert (fun hm => hxs (Finset.mem_filter.1 hm).1)]
          exact ⟨rfl, rfl⟩

theorem slateRemaining_sorted {fact : Bool} {set : List ℕ} (h : set.Pairwise (· < ·)) (a : ℕ) :
    (slateRemaining fact set a).Pairwise (· < ·) := by
  unfold slateRemaining
  split
  · exact h
  · exact h.filter _

theorem sorted_nodup {set : List ℕ} (h : set.Pairwise (· < ·)) : set.Nodup := h.imp fun h => h.ne

section sample
variable {w : ℕ → ℝ} {set : List ℕ}

theorem sum_scores (hw : ∀ a, 0 < w a) (hne : set ≠ []) : (set.map fun a => w a / (set.map w).sum).sum = 1 := by
  have hpos : 0 < (set.map w).sum := List.sum_pos _ (fun x hx => by
    obtain ⟨a, -, rfl⟩ := List.mem_map.1 hx
    exact hw a) (by simpa using hne)
  have h : ∀ c : ℝ, ∀ xs : List ℕ, (xs.map fun a => w a / c).sum = (xs.map w).sum / c := by
    intro c xs
    induction xs with
    | nil => simp
    | cons x xs ih => simp [ih, add_div]
  rw [h, div_self hpos.ne']

theorem take_scores (c : ℝ) (j : ℕ) :
    ((set.map fun a => w a / c).take j).sum = ((set.take j).map w).sum / c := by
  rw [← List.map_take]
  generalize set.take j = xs
  induction xs with
  | nil => simp
  | cons x xs ih => simp [ih, add_div]

/-- The sampling step picks the index `j` iff the draw selects the action there. -/
theorem sampleRow_selects (hw : ∀ a, 0 < w a) (hsort : set.Pairwise (· < ·)) {u : ℝ} (h0 : 0 ≤ u) (h1 : u < 1)
    {j a : ℕ} (hj : set[j]? = some a) :
    sampleActionRow (set.map fun a => w a / (set.map w).sum) u = .ok j ↔ Selects w set.toFinset a u := by
  have hne : set ≠ [] := by
    rintro rfl
    simp at hj
  have hlt : j < set.length := (List.getElem?_eq_some_iff.1 hj).1
  have hpos : 0 < (set.map w).sum := List.sum_pos _ (fun x hx => by
    obtain ⟨a, -, rfl⟩ := List.mem_map.1 hx
    exact hw a) (by simpa using hne)
  rw [sampleActionRow_iff (fun x hx => by
    obtain ⟨a, -, rfl⟩ := List.mem_map.1 hx
    exact (div_pos (hw a) hpos).le) h0 (by rw [sum_scores hw hne]; exact h1), take_scores, take_scores,
    (sorted_take_sum hsort w hj).1, (sorted_take_sum hsort w hj).2, list_sum_eq_finset (sorted_nodup hsort)]
  simp only [List.length_map, hlt, true_and]
  rfl

theorem sampleRow_exists (hw : ∀ a, 0 < w a) (hne : set ≠ []) {u : ℝ} (h0 : 0 ≤ u) (h1 : u < 1) :
    ∃ j a, sampleActionRow (set.map fun a => w a / (set.map w).sum) u = .ok j ∧ set[j]? = some a := by
  have hpos : 0 < (set.map w).sum := List.sum_pos _ (fun x hx => by
    obtain ⟨a, -, rfl⟩ := List.mem_map.1 hx
    exact hw a) (by simpa using hne)
  have htot : ∃ j, sampleActionRow (set.map fun a => w a / (set.map w).sum) u = .ok j := by
    have hlen : 0 < (set.map fun a => w a / (set.map w).sum).length := by
      simpa using List.length_pos_iff.2 hne
    obtain ⟨f, hf⟩ : ∃ f : Fin (set.map fun a => w a / (set.map w).sum).length → ℝ,
        (set.map fun a => w a / (set.map w).sum) = List.ofFn f := ⟨_, (List.ofFn_get _).symm⟩
    rw [hf]
    obtain ⟨a, ha⟩ := sampleActionRow_total hlen f u
    exact ⟨a, ha⟩
  obtain ⟨j, hj⟩ := htot
  have := (sampleActionRow_iff (fun x hx => by
    obtain ⟨a, -, rfl⟩ := List.mem_map.1 hx
    exact (div_pos (hw a) hpos).le) h0 (by rw [sum_scores hw hne]; exact h1) j).1 hj
  have hlt : j < set.length := by simpa using this.1
  exact ⟨j, set[j], hj, List.getElem?_eq_getElem hlt⟩

variable {A : ℕ} {logits : List ℝ}

theorem slateSample_drawn (hn : Normalises A w (slateScores logits)) (hw : ∀ a, 0 < w a) {fact : Bool}
    (hsort : set.Pairwise (· < ·)) (hs : ∀ a ∈ set, a < A) {s : List ℕ} {us : List ℝ}
    (hu : ∀ u ∈ us, 0 ≤ u ∧ u < 1) (hd : Drawn w fact set.toFinset s us) (p : ℝ) :
    slateSample logits fact set p us =
      .ok (s, (List.range us.length).map fun k => p * seqProb w fact set.toFinset (s.take (k + 1))) := by
  induction us generalizing set s p with
  | nil =>
      cases s with
      | nil => rfl
      | cons a s => simp [Drawn] at hd
  | cons u us ih =>
      cases s with
      | nil => simp [Drawn] at hd
      | cons a s =>
          obtain ⟨ha, hsel, hd⟩ := hd
          have ha' := List.mem_toFinset.1 ha
          obtain ⟨j, -, hj, -⟩ := whereFirst_mem ha'
          obtain ⟨h0, h1⟩ := hu u (by simp)
          unfold slateSample
          rw [hn set (List.ne_nil_of_mem ha') hs, py_bind_ok, (sampleRow_selects hw hsort h0 h1 hj).2 hsel, py_bind_ok]
          have he : entryAt set j = .ok a := by
            unfold entryAt
            rw [hj]
          rw [he, py_bind_ok, entryAt_map hj, py_bind_ok,
            ih (slateRemaining_sorted hsort a) (fun b hb => hs b (slateRemaining_mem hb))
              (fun u hu' => hu u (List.mem_cons_of_mem _ hu')) (by rw [slateRemaining_toFinset]; exact hd), py_bind_ok,
            py_pure, slateRemaining_toFinset, list_sum_eq_finset (sorted_nodup hsort), List.length_cons,
            List.range_succ_eq_map, List.map_cons, List.map_map]
          congr 3
          · simp [seqProb]
          · refine List.map_congr_left fun k _ => ?_
            simp only [Function.comp, List.take_succ_cons, seqProb]
            ring

theorem drawn_exists (hw : ∀ a, 0 < w a) {fact : Bool} {S : Finset ℕ} {us : List ℝ}
    (hu : ∀ u ∈ us, 0 ≤ u ∧ u < 1) (hE : Enough fact us.length S) :
    ∃ s ∈ slates fact us.length S, Drawn w fact S s us := by
  induction us generalizing S with
  | nil => exact ⟨[], by simp [slates], trivial⟩
  | cons u us ih =>
      obtain ⟨h0, h1⟩ := hu u (by simp)
      have hne : S.sort (· ≤ ·) ≠ [] := fun h => by
        have := hE.nonempty
        rw [← Finset.sort_toFinset S (· ≤ ·), h] at this
        simp at this
      obtain ⟨j, a, hj, hja⟩ := sampleRow_exists hw hne h0 h1
      have ha : a ∈ S := (Finset.mem_sort (· ≤ ·)).1 (List.mem_of_getElem? hja)
      obtain ⟨s, hs, hd⟩ := ih (S := nextSet fact S a) (fun u hu' => hu u (List.mem_cons_of_mem _ hu')) (hE.next ha)
      have hsel := (sampleRow_selects hw (Finset.sortedLT_sort S).pairwise h0 h1 hja).1 hj
      rw [Finset.sort_toFinset] at hsel
      exact ⟨a :: s, mem_slates_cons.2 ⟨ha, hs⟩, ha, hsel, hd⟩

theorem drawn_iff {fact : Bool} {S : Finset ℕ} {s : List ℕ} {us : List ℝ} (hs : s ∈ slates fact us.length S) :
    Drawn w fact S s us ↔ ∀ k (hk : k < s.length) (hk' : k < us.length),
      Selects w (available fact S s k) s[k] us[k] := by
  induction us generalizing S s with
  | nil =>
      have : s = [] := List.length_eq_zero_iff.1 (mem_slates.1 hs).1
      subst this
      simp [Drawn]
  | cons u us ih =>
      cases s with
      | nil => simp [mem_slates] at hs
      | cons a s =>
          obtain ⟨ha, hs⟩ := mem_slates_cons.1 hs
          simp only [Drawn]
          rw [ih hs]
          constructor
          · rintro ⟨-, h1, h2⟩ k hk hk'
            cases k with
            | zero =>
                rw [available_zero]
                exact h1
            | succ k =>
                rw [available_cons]
                exact h2 k (by simpa using hk) (by simpa using hk')
          · intro h
            refine ⟨ha, ?_, fun k hk hk' => ?_⟩
            · have := h 0 (by simp) (by simp)
              rw [available_zero] at this
              exact this
            · have := h (k + 1) (by simpa using hk) (by simpa using hk')
              rw [available_cons] at this
              exact this

end sample

end Obp
