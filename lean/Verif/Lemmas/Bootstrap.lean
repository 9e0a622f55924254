import Verif.Model.Bootstrap
import Verif.Lemmas.Numpy

/-! # Lemmas about the percentile and the bootstrap -/

set_option linter.unusedSectionVars false

namespace Obp

variable {K : Type} [Field K] [LinearOrder K] [IsStrictOrderedRing K] [FloorRing K]

/-- Linear interpolation of a sequence at a non-negative real position. -/
def interp (g : ℕ → K) (pos : K) : K :=
  g ⌊pos⌋₊ + (g (⌊pos⌋₊ + 1) - g ⌊pos⌋₊) * (pos - (⌊pos⌋₊ : K))

theorem interp_ge {g : ℕ → K} (hg : Monotone g) {pos : K} (h0 : 0 ≤ pos) :
    g ⌊pos⌋₊ ≤ interp g pos := by
  have h1 : 0 ≤ g (⌊pos⌋₊ + 1) - g ⌊pos⌋₊ := sub_nonneg.2 (hg (Nat.le_succ _))
  have h2 : 0 ≤ pos - (⌊pos⌋₊ : K) := sub_nonneg.2 (Nat.floor_le h0)
  have := mul_nonneg h1 h2
  unfold interp; linarith

theorem interp_le {g : ℕ → K} (hg : Monotone g) {pos : K} :
    interp g pos ≤ g (⌊pos⌋₊ + 1) := by
  have h1 : 0 ≤ g (⌊pos⌋₊ + 1) - g ⌊pos⌋₊ := sub_nonneg.2 (hg (Nat.le_succ _))
  have h2 : pos - (⌊pos⌋₊ : K) ≤ 1 := by have := (Nat.lt_floor_add_one pos).le; linarith
  have := mul_le_mul_of_nonneg_left h2 h1
  unfold interp; linarith

theorem interp_mono {g : ℕ → K} (hg : Monotone g) {p q : K} (h0 : 0 ≤ p) (hpq : p ≤ q) :
    interp g p ≤ interp g q := by
  rcases (Nat.floor_le_floor hpq).eq_or_lt with h | h
  · have h1 : 0 ≤ g (⌊p⌋₊ + 1) - g ⌊p⌋₊ := sub_nonneg.2 (hg (Nat.le_succ _))
    unfold interp
    rw [← h]
    have : p - (⌊p⌋₊ : K) ≤ q - (⌊p⌋₊ : K) := by linarith
    have := mul_le_mul_of_nonneg_left this h1
    linarith
  · exact (interp_le hg).trans ((hg h).trans (interp_ge hg (h0.trans hpq)))

theorem interp_affine (g : ℕ → K) (c d pos : K) :
    interp (fun j => c * g j + d) pos = c * interp g pos + d := by
  unfold interp; ring

/-- The sorted data extended to the right by its last entry. -/
def sortedSeq (xs : List K) (j : ℕ) : K :=
  (xs.insertionSort (· ≤ ·)).getD (min j (xs.length - 1)) 0

theorem sortedSeq_eq {xs : List K} (hx : xs ≠ []) (j : ℕ) :
    ∃ h, sortedSeq xs j = (xs.insertionSort (· ≤ ·))[min j (xs.length - 1)]'h := by
  have hl := List.length_pos_of_ne_nil hx
  have h : min j (xs.length - 1) < (xs.insertionSort (· ≤ ·)).length := by
    rw [List.length_insertionSort]; omega
  exact ⟨h, by unfold sortedSeq; simp [List.getD, List.getElem?_eq_getElem h]⟩

theorem sortedSeq_mem {xs : List K} (hx : xs ≠ []) (j : ℕ) : sortedSeq xs j ∈ xs := by
  obtain ⟨h, he⟩ := sortedSeq_eq hx j
  rw [he, ← List.mem_insertionSort (r := (· ≤ ·))]
  exact List.getElem_mem h

theorem sortedSeq_mono {xs : List K} (hx : xs ≠ []) : Monotone (sortedSeq xs) := by
  intro i j hij
  obtain ⟨hi, ei⟩ := sortedSeq_eq hx i
  obtain ⟨hj, ej⟩ := sortedSeq_eq hx j
  rw [ei, ej]
  have := List.sortedLE_iff_getElem_le_getElem_of_le.1
    (List.sortedLE_iff_pairwise.2 (List.pairwise_insertionSort (· ≤ ·) xs))
  exact this (by omega)

theorem insertionSort_map_mono {f : K → K} (hf : Monotone f) (xs : List K) :
    (xs.map f).insertionSort (· ≤ ·) = (xs.insertionSort (· ≤ ·)).map f := by
  refine List.Perm.eq_of_pairwise' (r := (· ≤ ·)) (List.pairwise_insertionSort _ _) ?_ ?_
  · rw [List.pairwise_map]
    exact (List.pairwise_insertionSort (· ≤ ·) xs).imp fun h => hf h
  · exact (List.perm_insertionSort _ _).trans ((List.perm_insertionSort _ _).symm.map f)

theorem sortedSeq_map {f : K → K} (hf : Monotone f) {xs : List K} (hx : xs ≠ []) (j : ℕ) :
    sortedSeq (xs.map f) j = f (sortedSeq xs j) := by
  obtain ⟨h, he⟩ := sortedSeq_eq hx j
  obtain ⟨h', he'⟩ := sortedSeq_eq (xs := xs.map f) (by simpa using hx) j
  rw [he, he']
  simp [insertionSort_map_mono hf]

theorem sorted_getElem? {xs : List K} (hx : xs ≠ []) {j : ℕ} (hj : j ≤ xs.length - 1) :
    (xs.insertionSort (· ≤ ·))[j]? = some (sortedSeq xs j) := by
  obtain ⟨h, he⟩ := sortedSeq_eq hx j
  rw [he, List.getElem?_eq_getElem (by rwa [min_eq_left hj] at h)]
  simp [min_eq_left hj]

theorem percentile_eq {xs : List K} (hx : xs ≠ []) {p : K} (h0 : 0 ≤ p) (h1 : p ≤ 1) :
    percentile xs p = .ok (interp (sortedSeq xs) (p * ((xs.length : K) - 1))) := by
  have hl := List.length_pos_of_ne_nil hx
  have hm : ((xs.length - 1 : ℕ) : K) = (xs.length : K) - 1 := by
    rw [Nat.cast_sub hl]; simp
  have hlo : ⌊p * ((xs.length : K) - 1)⌋₊ ≤ xs.length - 1 := by
    rw [← hm]
    calc ⌊p * ((xs.length - 1 : ℕ) : K)⌋₊ ≤ ⌊((xs.length - 1 : ℕ) : K)⌋₊ :=
          Nat.floor_le_floor (by
            have : (0 : K) ≤ ((xs.length - 1 : ℕ) : K) := Nat.cast_nonneg _
            nlinarith)
      _ = xs.length - 1 := Nat.floor_natCast _
  unfold percentile
  rw [if_neg (by push Not; exact ⟨h0, h1⟩)]
  simp only
  rw [sorted_getElem? hx hlo]
  rcases hlo.eq_or_lt with h | h
  · have hnone : (xs.insertionSort (· ≤ ·))[⌊p * ((xs.length : K) - 1)⌋₊ + 1]? = none := by
      rw [List.getElem?_eq_none_iff, List.length_insertionSort]; omega
    rw [hnone]
    have heq : sortedSeq xs (⌊p * ((xs.length : K) - 1)⌋₊ + 1) =
        sortedSeq xs ⌊p * ((xs.length : K) - 1)⌋₊ := by
      unfold sortedSeq; rw [h]; congr 1; omega
    simp [interp, heq]
  · rw [sorted_getElem? hx (by omega : ⌊p * ((xs.length : K) - 1)⌋₊ + 1 ≤ xs.length - 1)]
    rfl

theorem npMean_bounds {xs : List K} (hx : xs ≠ []) {lo hi : K} (h : ∀ x ∈ xs, lo ≤ x ∧ x ≤ hi) :
    ∃ m, npMean xs = .ok m ∧ lo ≤ m ∧ m ≤ hi := by
  have hl := List.length_pos_of_ne_nil hx
  have hp : (0 : K) < xs.length := by exact_mod_cast hl
  refine ⟨_, by rw [npMean, if_neg hl.ne'], ?_, ?_⟩
  · rw [le_div_iff₀ hp]
    have := List.card_nsmul_le_sum xs lo (fun x hx => (h x hx).1)
    rw [nsmul_eq_mul] at this; linarith
  · rw [div_le_iff₀ hp]
    have := List.sum_le_card_nsmul xs hi (fun x hx => (h x hx).2)
    rw [nsmul_eq_mul] at this; linarith

theorem npMean_map_affine {xs : List K} (hx : xs ≠ []) (c d : K) :
    ∃ m, npMean xs = .ok m ∧ npMean (xs.map fun x => c * x + d) = .ok (c * m + d) := by
  have hl := List.length_pos_of_ne_nil hx
  have hp : (xs.length : K) ≠ 0 := by exact_mod_cast hl.ne'
  refine ⟨_, by rw [npMean, if_neg hl.ne'], ?_⟩
  rw [npMean, List.length_map, if_neg hl.ne']
  congr 1
  rw [List.sum_map_add, List.sum_map_mul_left]
  simp only [List.map_const', List.sum_replicate, nsmul_eq_mul, List.map_id']
  field_simp

theorem resample_mem {xs : List K} {idx : List ℕ} {x : K} (h : x ∈ resample xs idx) : x ∈ xs := by
  unfold resample at h
  rw [List.mem_filterMap] at h
  obtain ⟨j, _, hj⟩ := h
  exact List.mem_of_getElem? hj

theorem resample_map (f : K → K) (xs : List K) (idx : List ℕ) :
    resample (xs.map f) idx = (resample xs idx).map f := by
  unfold resample
  rw [List.map_filterMap]
  congr 1; funext j; simp

theorem resample_length {xs : List K} {idx : List ℕ} (h : ∀ j ∈ idx, j < xs.length) :
    (resample xs idx).length = idx.length := by
  unfold resample
  induction idx with
  | nil => rfl
  | cons j idx ih =>
    have hj := h j (by simp)
    rw [List.filterMap_cons, List.getElem?_eq_getElem hj]
    simp [ih fun k hk => h k (by simp [hk])]

end Obp
