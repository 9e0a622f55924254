import Verif.Model.Dataset
import Verif.Lemmas.Numpy
import Verif.Spec.Prob
import Mathlib.Data.List.Sort
import Mathlib.Data.Finset.Sort
import Mathlib.Data.Fintype.Card
import Mathlib.Algebra.Order.BigOperators.Group.Finset
import Mathlib.Algebra.BigOperators.Field
import Mathlib.Tactic.Ring
import Mathlib.Tactic.Linarith
import Mathlib.Tactic.FieldSimp
import Mathlib.Tactic.Positivity

set_option linter.unusedSectionVars false

/-! # Lemmas about the data set models -/

namespace Obp

section lists
variable {α β : Type}

theorem zip_ofFn {n : ℕ} (x : Fin n → α) (y : Fin n → β) :
    (List.ofFn x).zip (List.ofFn y) = List.ofFn fun i => (x i, y i) := by
  apply List.ext_getElem <;> simp

theorem takeAt_ofFn {n m : ℕ} (x : Fin n → α) (idx : Fin m → Fin n) :
    takeAt (List.ofFn x) (List.ofFn fun j => (idx j : ℕ)) = .ok (List.ofFn fun j => x (idx j)) := by
  unfold takeAt
  refine mapM_ofFn_ok fun j => ?_
  have : (List.ofFn x)[(idx j : ℕ)]? = some (x (idx j)) := by simp
  rw [this]

theorem gather_ofFn {n m : ℕ} (x : Fin n → Fin m → α) (a : Fin n → Fin m) :
    gather (List.ofFn fun i => List.ofFn (x i)) (List.ofFn fun i => (a i : ℕ)) =
      .ok (List.ofFn fun i => x i (a i)) := by
  unfold gather
  rw [zip_ofFn]
  refine mapM_ofFn_ok fun i => ?_
  have : (List.ofFn (x i))[(a i : ℕ)]? = some (x i (a i)) := by simp
  simp only [this]

theorem mapIdx_ofFn_fin {n : ℕ} (x : Fin n → α) (f : ℕ → α → β) :
    (List.ofFn x).mapIdx f = List.ofFn fun i => f i (x i) := by
  apply List.ext_getElem <;> simp

theorem scatter_length (row : List α) (idx : List ℕ) (vals : List α) :
    (scatter row idx vals).length = row.length := by
  unfold scatter
  induction idx generalizing row vals with
  | nil => simp
  | cons i idx ih =>
      cases vals with
      | nil => simp
      | cons v vals => simp only [List.zip_cons_cons, List.foldl_cons]; rw [ih]; simp

theorem scatter_getElem?_notMem (idx : List ℕ) : ∀ (row vals : List α) (j : ℕ), j ∉ idx →
    (scatter row idx vals)[j]? = row[j]? := by
  unfold scatter
  induction idx with
  | nil => intro row vals j _; simp
  | cons i idx ih =>
      intro row vals j hj
      cases vals with
      | nil => simp
      | cons v vals =>
          simp only [List.zip_cons_cons, List.foldl_cons]
          rw [ih _ _ _ (fun h => hj (List.mem_cons_of_mem _ h)), List.getElem?_set]
          rw [if_neg]
          rintro rfl
          exact hj List.mem_cons_self

theorem scatter_getElem?_mem (idx : List ℕ) : ∀ (row vals : List α), idx.Nodup → idx.length = vals.length →
    (∀ j ∈ idx, j < row.length) → ∀ k, ∀ hk : k < idx.length, ∀ hv : k < vals.length,
    (scatter row idx vals)[idx[k]]? = some vals[k] := by
  induction idx with
  | nil => intro row vals _ _ _ k hk; simp at hk
  | cons i idx ih =>
      intro row vals hnd hlen hlt k hk hv
      cases vals with
      | nil => simp at hlen
      | cons v vals =>
          have hs : scatter row (i :: idx) (v :: vals) = scatter (row.set i v) idx vals := rfl
          rw [hs]
          cases k with
          | zero =>
              simp only [List.getElem_cons_zero]
              rw [scatter_getElem?_notMem _ _ _ _ (List.nodup_cons.1 hnd).1]
              rw [List.getElem?_set_self (hlt i List.mem_cons_self)]
          | succ k =>
              simp only [List.getElem_cons_succ]
              exact ih _ _ (List.nodup_cons.1 hnd).2 (by simpa using hlen)
                (fun j hj => by rw [List.length_set]; exact hlt j (List.mem_cons_of_mem _ hj)) k
                (by simpa using hk) (by simpa using hv)

end lists

section labels

theorem npUnique_nodup (xs : List ℤ) : (npUnique xs).Nodup :=
  (List.perm_insertionSort _ _).nodup_iff.2 xs.nodup_dedup

theorem mem_npUnique' {xs : List ℤ} {x : ℤ} : x ∈ npUnique xs ↔ x ∈ xs := by
  unfold npUnique
  rw [List.mem_insertionSort, List.mem_dedup]

theorem npUnique_length_ofFn {n : ℕ} (y : Fin n → ℤ) :
    (npUnique (List.ofFn y)).length = (Finset.univ.image y).card := by
  rw [← List.toFinset_card_of_nodup (npUnique_nodup _)]
  congr 1
  ext x
  simp [mem_npUnique', List.mem_ofFn]

theorem denseRank_ofFn {n : ℕ} (y : Fin n → ℤ) (v : ℤ) :
    denseRank (List.ofFn y) v = ((Finset.univ.image y).filter (· < v)).card := by
  unfold denseRank
  rw [← List.toFinset_card_of_nodup ((npUnique_nodup _).filter _)]
  congr 1
  ext x
  simp [mem_npUnique', List.mem_ofFn]

theorem image_fin_labels {n k : ℕ} (y : Fin n → Fin k) (hy : Function.Surjective y) :
    (Finset.univ.image fun i => ((y i : ℕ) : ℤ)) = (Finset.univ : Finset (Fin k)).image fun a : Fin k => ((a : ℕ) : ℤ) := by
  ext x
  simp only [Finset.mem_image, Finset.mem_univ, true_and]
  constructor
  · rintro ⟨i, rfl⟩; exact ⟨y i, rfl⟩
  · rintro ⟨a, rfl⟩; obtain ⟨i, rfl⟩ := hy a; exact ⟨i, rfl⟩

theorem fin_cast_injective (k : ℕ) : Function.Injective fun a : Fin k => ((a : ℕ) : ℤ) := by
  intro a b h
  have : ((a : ℕ) : ℤ) = ((b : ℕ) : ℤ) := h
  exact Fin.ext (by exact_mod_cast this)

theorem labels_card {n k : ℕ} (y : Fin n → Fin k) (hy : Function.Surjective y) :
    (npUnique (List.ofFn fun i => ((y i : ℕ) : ℤ))).length = k := by
  rw [npUnique_length_ofFn, image_fin_labels y hy, Finset.card_image_of_injective _ (fin_cast_injective k)]
  simp

theorem labels_rank {n k : ℕ} (y : Fin n → Fin k) (hy : Function.Surjective y) (i : Fin n) :
    denseRank (List.ofFn fun i => ((y i : ℕ) : ℤ)) ((y i : ℕ) : ℤ) = (y i : ℕ) := by
  rw [denseRank_ofFn, image_fin_labels y hy, Finset.filter_image, Finset.card_image_of_injective _ (fin_cast_injective k)]
  have : (Finset.univ.filter fun a : Fin k => ((a : ℕ) : ℤ) < ((y i : ℕ) : ℤ)) = Finset.Iio (y i) := by
    ext a
    simp
  rw [this]
  simp

end labels

section rows
variable {K : Type} [Field K] [LinearOrder K] [IsStrictOrderedRing K]

theorem checkAlpha_none {alpha : K} (h0 : 0 ≤ alpha) : checkAlpha none (.flt alpha) = .ok alpha := by
  unfold checkAlpha
  dsimp only
  rw [raiseIf_neg (decide_eq_false (not_lt.2 h0)), py_bind_ok, raiseIf_neg rfl, py_bind_ok, py_pure]

theorem checkAlpha_one {alpha : K} (h0 : 0 ≤ alpha) (h1 : alpha ≤ 1) :
    checkAlpha (some 1) (.flt alpha) = .ok alpha := by
  unfold checkAlpha
  dsimp only
  rw [raiseIf_neg (decide_eq_false (not_lt.2 h0)), py_bind_ok, raiseIf_neg (decide_eq_false (not_lt.2 h1)), py_bind_ok,
    py_pure]

theorem checkAlpha_bad {alpha : K} (h : alpha < 0 ∨ 1 < alpha) :
    checkAlpha (some 1) (.flt alpha) = .error .valueError := by
  unfold checkAlpha
  dsimp only
  by_cases h0 : alpha < 0
  · rw [raiseIf_pos (decide_eq_true h0)]; rfl
  · rw [raiseIf_neg (decide_eq_false h0), py_bind_ok, raiseIf_pos (decide_eq_true (h.resolve_left h0))]; rfl

theorem checkIntBetween_int {lo hi z : ℤ} (h0 : lo ≤ z) (h1 : z ≤ hi) :
    checkIntBetween (K := K) lo hi (.int z) = .ok z := by
  unfold checkIntBetween checkIntBetween.bound
  dsimp only
  rw [raiseIf_neg (decide_eq_false (not_lt.2 h0)), py_bind_ok, raiseIf_neg (decide_eq_false (not_lt.2 h1)), py_bind_ok,
    py_pure]

theorem predictionRow_fin {k : ℕ} (alpha : K) (c : Fin k) :
    predictionRow k alpha ((c : ℕ) : ℤ) =
      .ok (List.ofFn fun a : Fin k => if a = c then alpha + (1 - alpha) / k else (1 - alpha) / k) := by
  unfold predictionRow
  rw [wrapIdx_natCast]

theorem labelRow_fin {k : ℕ} (c : Fin k) :
    labelRow (K := K) k ((c : ℕ) : ℤ) = .ok (List.ofFn fun a : Fin k => if a = c then 1 else 0) := by
  unfold labelRow
  rw [wrapIdx_natCast]

theorem dropActions_ofFn {k : ℕ} (p : Fin k → K) (gone : List ℕ)
    (h : (∑ a : Fin k, if (a : ℕ) ∈ gone then 0 else p a) ≠ 0) :
    dropActions (List.ofFn p) gone = .ok (List.ofFn fun a : Fin k =>
      if (a : ℕ) ∈ gone then 0 else p a / ∑ b : Fin k, if (b : ℕ) ∈ gone then 0 else p b) := by
  unfold dropActions
  dsimp only
  rw [mapIdx_ofFn_fin, List.sum_ofFn]
  refine mapM_ofFn_ok fun a => ?_
  rw [npDiv_ok h]
  split <;> simp

theorem predictionRow_dist {k : ℕ} (alpha : K) (h0 : 0 ≤ alpha) (h1 : alpha ≤ 1) (c : Fin k) :
    IsDist (fun a : Fin k => if a = c then alpha + (1 - alpha) / k else (1 - alpha) / k) := by
  have hk : 0 < k := Fin.pos c
  have hk' : (0 : K) < k := by exact_mod_cast hk
  refine ⟨fun a => ?_, ?_⟩
  · have h2 : 0 ≤ (1 - alpha) / (k : K) := div_nonneg (by linarith) hk'.le
    split <;> linarith
  · have : ∀ a : Fin k, (if a = c then alpha + (1 - alpha) / k else (1 - alpha) / (k : K)) =
        (if a = c then alpha else 0) + (1 - alpha) / k := by
      intro a; split <;> ring
    simp only [this, Finset.sum_add_distrib, Finset.sum_ite_eq', Finset.mem_univ, if_true, Finset.sum_const,
      Finset.card_univ, Fintype.card_fin, nsmul_eq_mul]
    field_simp
    ring

end rows

end Obp
