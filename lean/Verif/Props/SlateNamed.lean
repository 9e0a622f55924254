import Verif.Props.SlatePolicy
import Verif.Spec.Argsort
import Mathlib.Data.Nat.Factorial.BigOperators

set_option linter.unusedSectionVars false

/-!
# Named slate evaluation policies (C88)
-/

namespace Obp

/-! ### the uniform policy -/

section uniform
variable {A L : ℕ} {fact : Bool}

theorem available_card {S : Finset ℕ} {t : List ℕ} (ht : t ∈ slates fact t.length S) {k : ℕ} (hk : k ≤ t.length) :
    (available fact S t k).card = if fact then S.card else S.card - k := by
  obtain ⟨-, htn, htm⟩ := mem_slates.1 ht
  unfold available
  cases fact
  · rw [if_neg (by simp), if_neg (by simp), Finset.card_sdiff_of_subset,
      List.toFinset_card_of_nodup ((htn rfl).sublist (List.take_sublist _ _)), List.length_take,
      min_eq_left hk]
    intro b hb
    exact htm b (List.mem_of_mem_take (List.mem_toFinset.1 hb))
  · rfl

theorem uniform_seq {t : List ℕ} (ht : t ∈ slates fact t.length (Finset.range A)) :
    seqProb (fun _ => (1 : ℝ)) fact (Finset.range A) t =
      1 / ∏ j ∈ Finset.range t.length, ((if fact then A else A - j : ℕ) : ℝ) := by
  rw [seqProb_eq_prod, one_div, ← Finset.prod_inv_distrib,
    ← Fin.prod_univ_eq_prod_range (fun j => (((if fact then A else A - j : ℕ) : ℝ))⁻¹) t.length]
  refine Finset.prod_congr rfl fun k _ => ?_
  rw [Finset.sum_const, nsmul_eq_mul, mul_one, available_card ht k.2.le, Finset.card_range, one_div]

theorem slates_take {s : List ℕ} (hs : s ∈ slates fact L (Finset.range A)) (k : ℕ) :
    s.take k ∈ slates fact (s.take k).length (Finset.range A) := by
  obtain ⟨-, h2, h3⟩ := mem_slates.1 hs
  exact mem_slates.2 ⟨rfl, fun h => (h2 h).sublist (List.take_sublist _ _), fun a ha => h3 a (List.mem_of_mem_take ha)⟩

theorem uniform_full (hA : 0 < A) (hL : fact = false → L ≤ A) {s : List ℕ} (hs : s ∈ slates fact L (Finset.range A)) :
    seqProb (fun _ => (1 : ℝ)) fact (Finset.range A) s = 1 / ((slates fact L (Finset.range A)).card : ℝ) := by
  have hsum := sum_seqProb (w := fun _ => (1 : ℝ)) (fun _ => one_pos) (enough_range hA hL)
  have hconst : ∀ t ∈ slates fact L (Finset.range A), seqProb (fun _ => (1 : ℝ)) fact (Finset.range A) t =
      seqProb (fun _ => (1 : ℝ)) fact (Finset.range A) s := by
    intro t ht
    have h1 := (mem_slates.1 ht).1
    have h2 := (mem_slates.1 hs).1
    rw [uniform_seq (h1 ▸ ht), uniform_seq (h2 ▸ hs), h1, h2]
  rw [Finset.sum_congr rfl hconst, Finset.sum_const, nsmul_eq_mul] at hsum
  exact eq_one_div_of_mul_eq_one_right hsum

theorem uniform_count (hA : 0 < A) (hL : fact = false → L ≤ A) (P : List ℕ → Prop) [DecidablePred P] :
    ∑ t ∈ slates fact L (Finset.range A) with P t, seqProb (fun _ => (1 : ℝ)) fact (Finset.range A) t =
      (({t ∈ slates fact L (Finset.range A) | P t} : Finset _).card : ℝ) / ((slates fact L (Finset.range A)).card : ℝ) := by
  rw [Finset.sum_congr rfl fun t ht => uniform_full hA hL (Finset.mem_filter.1 ht).1, Finset.sum_const, nsmul_eq_mul,
    mul_one_div]

/-- The propensities of the policy `random` are those of the uniform distribution over the slates: one over the number
of slates, the proportion of slates with the action at the position, and the proportion of slates with the same
prefix. -/
theorem C88_random_partial (hA : 0 < A) (hL : fact = false → L ≤ A) {s : List ℕ} (hs : s ∈ slates fact L (Finset.range A)) :
    let T := slates fact L (Finset.range A)
    randomPscores (K := ℝ) A L fact = (1 / (T.card : ℝ), 1 / (A : ℝ), (List.range L).map fun k =>
      (({t ∈ T | t.take (k + 1) = s.take (k + 1)} : Finset _).card : ℝ) / (T.card : ℝ)) ∧
    ∀ k < L, ∀ a < A, (({t ∈ T | t[k]? = some a} : Finset _).card : ℝ) / (T.card : ℝ) = 1 / (A : ℝ) := by
  intro T
  have hlen := (mem_slates.1 hs).1
  refine ⟨?_, fun k hk a ha => ?_⟩
  · unfold randomPscores
    dsimp only
    have hsteps : ∀ k, k ≤ L → (((List.range L).map fun k => if fact then (A : ℝ) else ((A - k : ℕ) : ℝ)).take k).prod =
        ∏ j ∈ Finset.range k, ((if fact then A else A - j : ℕ) : ℝ) := by
      intro k hk
      rw [← List.map_take, List.take_range, min_eq_left hk, ← range_toFinset, List.prod_toFinset _ List.nodup_range]
      congr 1
      refine List.map_congr_left fun j _ => ?_
      cases fact <;> simp
    refine Prod.ext ?_ (Prod.ext rfl ?_)
    · dsimp only
      rw [← uniform_full hA hL hs, uniform_seq (hlen ▸ hs), hlen]
      congr 1
      cases fact
      · rw [if_neg (by simp), Nat.descFactorial_eq_prod_range]
        push_cast
        exact Finset.prod_congr rfl fun j _ => by simp
      · simp
    · dsimp only
      refine List.map_congr_left fun k hk => ?_
      have hk := List.mem_range.1 hk
      rw [hsteps (k + 1) hk, ← uniform_count hA hL, sum_prefix (fun _ => one_pos) (enough_range hA hL) hs,
        uniform_seq (slates_take hs _), List.length_take, hlen, min_eq_left hk]
  · rw [← uniform_count hA hL, sum_uniform_item one_pos (enough_range hA hL) hk (Finset.mem_range.2 ha),
      Finset.card_range]

/-! ### epsilon-greedy -/

theorem zipWith_all (g s : List ℕ) (h : g.length = s.length) :
    (List.zipWith (fun r a => decide (r = a)) g s).all id = decide (s = g) := by
  induction g generalizing s with
  | nil =>
      cases s with
      | nil => rfl
      | cons a s => simp at h
  | cons r g ih =>
      cases s with
      | nil => simp at h
      | cons a s =>
          rw [List.zipWith_cons_cons, List.all_cons, ih s (by simpa using h), Bool.eq_iff_iff]
          simp only [id_eq, Bool.and_eq_true, decide_eq_true_eq, List.cons.injEq]
          exact ⟨fun ⟨h1, h2⟩ => ⟨h1.symm, h2⟩, fun ⟨h1, h2⟩ => ⟨h1.symm, h2⟩⟩

theorem cumAll_getElem (acc : Bool) (bs : List Bool) (k : ℕ) (h : k < (cumAll acc bs).length) :
    (cumAll acc bs)[k] = (acc && (bs.take (k + 1)).all id) := by
  induction bs generalizing acc k with
  | nil => simp [cumAll] at h
  | cons b bs ih =>
      cases k with
      | zero => simp [cumAll]
      | succ k =>
          simp only [cumAll, List.getElem_cons_succ, List.take_succ_cons, List.all_cons, id_eq]
          rw [ih, Bool.and_assoc]

theorem cumAll_length (acc : Bool) (bs : List Bool) : (cumAll acc bs).length = bs.length := by
  induction bs generalizing acc with
  | nil => rfl
  | cons b bs ih => simp [cumAll, ih]

theorem zipWith_take {α β γ : Type} (f : α → β → γ) (xs : List α) (ys : List β) (k : ℕ) :
    (List.zipWith f xs ys).take k = List.zipWith f (xs.take k) (ys.take k) := by
  induction xs generalizing ys k with
  | nil => simp
  | cons x xs ih =>
      cases ys with
      | nil => simp
      | cons y ys =>
          cases k with
          | zero => simp
          | succ k => simp [ih]

/-- The policies `optimal` and `anti-optimal` with parameter ε: the propensities returned are the joint probability, the
item-position marginals and the prefix probabilities of the mixture that plays the greedy slate with probability 1 - ε
and a uniformly random slate with probability ε. The greedy slate is the ranking or, for factorizable policies, the
first action of the ranking at every position. -/
theorem C88_epsilon_greedy_mixture_partial (hA : 0 < A) (hL0 : 0 < L) (hL : fact = false → L ≤ A) (eps : ℝ)
    {ranking s : List ℕ} (hr : ranking ∈ slates false L (Finset.range A)) (hs : s ∈ slates fact L (Finset.range A)) :
    ∃ (g : List ℕ) (mix : List ℕ → ℝ), g ∈ slates fact L (Finset.range A) ∧
      (fact = false → g = ranking) ∧ (fact = true → ∀ a ∈ g, ranking.head? = some a) ∧
      (∀ t, mix t = (1 - eps) * (if t = g then 1 else 0) + eps * (1 / ((slates fact L (Finset.range A)).card : ℝ))) ∧
      ∑ t ∈ slates fact L (Finset.range A), mix t = 1 ∧
      epsilonGreedyPscores A L fact eps ranking s = .ok (mix s,
        s.mapIdx fun k a => ∑ t ∈ slates fact L (Finset.range A) with t[k]? = some a, mix t,
        (List.range L).map fun k => ∑ t ∈ slates fact L (Finset.range A) with t.take (k + 1) = s.take (k + 1), mix t) := by
  obtain ⟨hrlen, hrnd, hrmem⟩ := mem_slates.1 hr
  obtain ⟨hslen, hsnd, hsmem⟩ := mem_slates.1 hs
  obtain ⟨x, rest, rfl⟩ : ∃ x rest, ranking = x :: rest := by
    cases ranking with
    | nil => simp at hrlen; omega
    | cons x rest => exact ⟨x, rest, rfl⟩
  set T := slates fact L (Finset.range A) with hT
  set g : List ℕ := if fact then List.replicate L x else x :: rest with hg
  have hgT : g ∈ T := by
    rw [hT, mem_slates]
    cases fact
    · rw [hg, if_neg (by simp)]
      exact ⟨hrlen, hrnd, hrmem⟩
    · rw [hg, if_pos rfl]
      exact ⟨by simp, by simp, fun a ha => by
        rw [List.eq_of_mem_replicate ha]
        exact hrmem x (by simp)⟩
  have hglen := (mem_slates.1 hgT).1
  set mix : List ℕ → ℝ := fun t => (1 - eps) * (if t = g then 1 else 0) + eps * (1 / (T.card : ℝ)) with hmix
  have hsum : ∀ (P : List ℕ → Prop) [DecidablePred P], ∑ t ∈ T with P t, mix t =
      (1 - eps) * (if P g then 1 else 0) + eps * ((({t ∈ T | P t} : Finset _).card : ℝ) / (T.card : ℝ)) := by
    intro P _
    rw [hmix, Finset.sum_add_distrib, ← Finset.mul_sum, Finset.sum_const, nsmul_eq_mul]
    have : ∑ t ∈ T with P t, (if t = g then (1 : ℝ) else 0) = if P g then 1 else 0 := by
      rw [Finset.sum_ite_eq' _ g]
      simp [hgT]
    rw [this]
    ring
  obtain ⟨hrand, hitem⟩ := C88_random_partial hA hL hs
  refine ⟨g, mix, hgT, fun h => by rw [hg, h]; rfl, fun h a ha => ?_, fun t => rfl, ?_, ?_⟩
  · rw [hg, h, if_pos rfl] at ha
    rw [List.eq_of_mem_replicate ha]
    rfl
  · have := hsum (fun _ => True)
    have hne : (T.card : ℝ) ≠ 0 := by
      exact_mod_cast (Finset.card_pos.2 ⟨g, hgT⟩).ne'
    simp only [Finset.filter_true, if_true] at this
    rw [this, div_self hne]
    ring
  · unfold epsilonGreedyPscores
    rw [raiseIf_neg (by
      cases fact
      · have : (npUnique (s.map Int.ofNat)).length = L := by
          unfold npUnique
          rw [List.length_insertionSort, List.Nodup.dedup ((hsnd rfl).map fun a b h => Int.ofNat.inj h), List.length_map,
            hslen]
        simp [this]
      · simp), py_bind_ok, hrand]
    have hflags : matchFlags fact (x :: rest) s = List.zipWith (fun r a => decide (r = a)) g s := by
      unfold matchFlags
      cases fact
      · simp [hg]
      · rw [if_pos rfl, hg, if_pos rfl]
        refine List.ext_getElem (by simp [hslen]) fun k h1 h2 => ?_
        simp
    have hflen : (List.zipWith (fun r a => decide (r = a)) g s).length = L := by
      simp [hglen, hslen]
    rw [hflags, py_pure]
    congr 1
    refine Prod.ext ?_ (Prod.ext ?_ ?_)
    · dsimp only
      rw [zipWith_all g s (hglen.trans hslen.symm), hmix]
      simp only [decide_eq_true_eq]
      ring
    · dsimp only
      refine List.ext_getElem (by simp [hglen, hslen]) fun k h1 h2 => ?_
      have hk : k < L := by simpa [hglen, hslen] using h1
      have hks : k < s.length := by omega
      have hkg : k < g.length := by omega
      rw [List.getElem_map, List.getElem_zipWith, List.getElem_mapIdx, hsum,
        hitem k hk _ (Finset.mem_range.1 (hsmem _ (List.getElem_mem hks))), List.getElem?_eq_getElem hkg]
      simp only [decide_eq_true_eq, Option.some.injEq]
      ring
    · dsimp only
      refine List.ext_getElem (by simp [cumAll_length, hflen]) fun k h1 h2 => ?_
      have hk : k < L := by simpa using h2
      rw [List.getElem_zipWith, List.getElem_map, List.getElem_map, List.getElem_range, cumAll_getElem, Bool.true_and,
        zipWith_take, zipWith_all _ _ (by simp [hglen, hslen]), hsum]
      simp only [decide_eq_true_eq]
      have : s.take (k + 1) = g.take (k + 1) ↔ g.take (k + 1) = s.take (k + 1) := eq_comm
      simp only [this]
      ring

/-- Slates with a repeated action are refused for non-factorizable policies. -/
theorem C88_repeated_refused {K : Type} [Field K] [LinearOrder K] (eps : K) (ranking : List ℕ) {s : List ℕ}
    (hlen : s.length = L) (hs : ¬ s.Nodup) :
    epsilonGreedyPscores A L false eps ranking s = .error .valueError := by
  unfold epsilonGreedyPscores
  have hne : (npUnique (s.map Int.ofNat)).length ≠ L := by
    unfold npUnique
    rw [List.length_insertionSort]
    intro h
    have h2 : (s.map Int.ofNat).dedup = s.map Int.ofNat :=
      (List.dedup_sublist _).eq_of_length (by rw [h, List.length_map, hlen])
    exact hs (List.Nodup.of_map _ (List.dedup_eq_self.1 h2))
  rw [raiseIf_pos (by simp [hne]), py_bind_error]

end uniform

/-! ### which slate is greedy -/

section ranking
variable {K : Type} [Field K] [LinearOrder K] [IsStrictOrderedRing K]

/-- The policy called `optimal` follows the `len_list` actions of *lowest* base expected reward, the one called
`anti-optimal` those of *highest*, the best of them last. -/
theorem C88_optimal_swapped {A L : ℕ} (hL : L ≤ A) (argsort : List K → List ℕ) (hsort : IsArgsort argsort)
    (f : Fin A → K) :
    let opt := namedRanking true L (argsort (List.ofFn f))
    let anti := namedRanking false L (argsort (List.ofFn f))
    opt ∈ slates false L (Finset.range A) ∧ anti ∈ slates false L (Finset.range A) ∧
    (∀ a b : Fin A, a.val ∈ opt → b.val ∉ opt → f a ≤ f b) ∧
    (∀ a b : Fin A, a.val ∈ anti → b.val ∉ anti → f b ≤ f a) ∧
    opt.Pairwise (fun i j => ∀ a b : Fin A, a.val = i → b.val = j → f a ≤ f b) ∧
    anti.Pairwise (fun i j => ∀ a b : Fin A, a.val = i → b.val = j → f a ≤ f b) := by
  intro opt anti
  obtain ⟨hperm, hpw⟩ := hsort (List.ofFn f)
  rw [List.length_ofFn] at hperm
  set xs := argsort (List.ofFn f) with hxs
  have hlen : xs.length = A := by simpa using hperm.length_eq
  have hnd : xs.Nodup := hperm.nodup_iff.2 List.nodup_range
  have hmem : ∀ a, a ∈ xs ↔ a < A := fun a => by rw [hperm.mem_iff, List.mem_range]
  have hpw' : xs.Pairwise (fun i j => ∀ a b : Fin A, a.val = i → b.val = j → f a ≤ f b) := by
    refine hpw.imp fun {i j} h a b ha hb => ?_
    subst ha hb
    exact h _ _ (by simp) (by simp)
  have ho : opt = xs.take L := rfl
  have hd : anti = xs.drop (xs.length - L) := rfl
  have hle : ∀ m, ∀ a b : Fin A, a.val ∈ xs.take m → b.val ∈ xs.drop m → f a ≤ f b := by
    intro m a b ha hb
    rw [← List.take_append_drop m xs] at hpw'
    exact (List.pairwise_append.1 hpw').2.2 _ ha _ hb _ _ rfl rfl
  have hor : ∀ m, ∀ b : Fin A, b.val ∈ xs.take m ∨ b.val ∈ xs.drop m := by
    intro m b
    rw [← List.mem_append, List.take_append_drop]
    exact (hmem _).2 b.2
  refine ⟨?_, ?_, ?_, ?_, ?_, ?_⟩
  · rw [mem_slates, ho]
    exact ⟨by simp [hlen, hL], fun _ => hnd.sublist (List.take_sublist _ _), fun a ha =>
      Finset.mem_range.2 ((hmem a).1 (List.mem_of_mem_take ha))⟩
  · rw [mem_slates, hd]
    exact ⟨by simp [hlen]; omega, fun _ => hnd.sublist (List.drop_sublist _ _), fun a ha =>
      Finset.mem_range.2 ((hmem a).1 (List.mem_of_mem_drop ha))⟩
  · intro a b ha hb
    exact hle L a b ha ((hor L b).resolve_left hb)
  · intro a b ha hb
    exact hle (xs.length - L) b a ((hor _ b).resolve_right hb) ha
  · exact hpw'.sublist (List.take_sublist _ _)
  · exact hpw'.sublist (List.drop_sublist _ _)

/-- Three actions with rewards 1, 2, 3: with slates of two, `optimal` follows actions 0 and 1. -/
example : namedRanking true 2 [0, 1, 2] = [0, 1] ∧ namedRanking false 2 [0, 1, 2] = [1, 2] := by decide

end ranking

example : epsilonGreedyPscores 3 2 false (1 / 2 : ℚ) [0, 1] [0, 2] =
    .ok (1 / 12, [2 / 3, 1 / 6], [2 / 3, 1 / 12]) := by decide +kernel

end Obp
