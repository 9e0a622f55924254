import Verif.Props.SlatePolicy
import Verif.Props.SlateReward

set_option linter.unusedSectionVars false

/-!
# Ground truth of the slate dataset, from the logits to the value

C118.
-/

namespace Obp

theorem productOf_spec {L : ℕ} {pool : List ℕ} (hnd : pool.Nodup) :
    (productOf L pool).Nodup ∧ (productOf L pool).toFinset = slates true L pool.toFinset := by
  induction L with
  | zero => simp [productOf, slates]
  | succ L ih =>
      constructor
      · unfold productOf
        rw [List.nodup_flatMap]
        refine ⟨fun a _ => ih.1.map fun x y h => (List.cons.inj h).2, ?_⟩
        refine hnd.imp_of_mem fun {a b} _ _ hab => ?_
        intro s hs hs'
        obtain ⟨t, -, rfl⟩ := List.mem_map.1 hs
        obtain ⟨t', -, h⟩ := List.mem_map.1 hs'
        exact hab (List.cons.inj h).1.symm
      · ext s
        cases s with
        | nil => simp [productOf, mem_slates]
        | cons a s =>
            rw [mem_slates_cons, List.mem_toFinset]
            unfold productOf
            simp only [List.mem_flatMap, List.mem_map, List.cons.injEq]
            rw [show nextSet true pool.toFinset a = pool.toFinset from if_pos rfl, ← ih.2, List.mem_toFinset,
              List.mem_toFinset]
            constructor
            · rintro ⟨b, hb, t, ht, rfl, rfl⟩
              exact ⟨hb, ht⟩
            · rintro ⟨hb, ht⟩
              exact ⟨a, hb, s, ht, rfl, rfl⟩

theorem truthSlates_spec (fact : Bool) (A L : ℕ) :
    (truthSlates fact A L).Nodup ∧ (truthSlates fact A L).toFinset = slates fact L (Finset.range A) := by
  unfold truthSlates
  cases fact
  · simpa [range_toFinset] using permutationsOf_spec (L := L) (List.nodup_range (n := A))
  · simpa [range_toFinset] using productOf_spec (L := L) (List.nodup_range (n := A))

/-- **C118.** The ground truth runs through every slate that the policy can show exactly once: all sequences for a
factorizable policy, all sequences without repetition otherwise. -/
theorem C118_slates_enumerated (fact : Bool) (A L : ℕ) :
    (truthSlates fact A L).Nodup ∧
    ∀ s, s ∈ truthSlates fact A L ↔ s.length = L ∧ (fact = false → s.Nodup) ∧ ∀ a ∈ s, a < A := by
  obtain ⟨h1, h2⟩ := truthSlates_spec fact A L
  refine ⟨h1, fun s => ?_⟩
  rw [← List.mem_toFinset, h2, mem_slates]
  simp only [Finset.mem_range]

example : truthSlates false 3 2 = [[0, 1], [0, 2], [1, 0], [1, 2], [2, 0], [2, 1]] ∧
    truthSlates true 2 2 = [[0, 0], [0, 1], [1, 0], [1, 1]] := by decide +kernel

theorem int8Actions_ok {s : List ℕ} (h : ∀ a ∈ s, a < 128) : s.mapM int8Action = .ok s := by
  rw [mapM_ok_iff, List.forall₂_same]
  intro a ha
  exact if_pos (toInt8_small (h a ha))

theorem truthPscores_ok {A L : ℕ} (hA : 0 < A) (fact : Bool) (hL : fact = false → L ≤ A) (h8 : A ≤ 128)
    (l : ℕ → ℝ) :
    truthPscores fact A L ((List.range A).map l) = .ok ((truthSlates fact A L).map (slateProb l fact A)) := by
  have hmem : ∀ s ∈ truthSlates fact A L, s ∈ slates fact L (Finset.range A) := fun s hs => by
    rw [← (truthSlates_spec fact A L).2]
    exact List.mem_toFinset.2 hs
  unfold truthPscores
  cases fact with
  | false =>
      rw [if_neg (by simp), mapM_ok_iff, List.forall₂_map_right_iff, List.forall₂_same]
      intro s hs
      rw [int8Actions_ok fun a ha => by
        have := Finset.mem_range.1 ((mem_slates.1 (hmem s hs)).2.2 a ha)
        omega, py_bind_ok]
      rw [slateProduct_ok (slateScores_range A l) List.nodup_range (fun a ha => List.mem_range.1 ha) 1
        (by rw [range_toFinset]; exact hmem s hs), range_toFinset, one_mul, slateProb_eq]
  | true =>
      rw [if_pos rfl]
      have hsm := slateScores_range A l (List.range A) (by simpa using hA.ne') fun a ha => List.mem_range.1 ha
      have htake : takeAt ((List.range A).map l) (List.range A) = .ok ((List.range A).map l) := by
        rw [range_map_ofFn A l, range_map_ofFn_id]
        rw [takeAt_ofFn]
      unfold slateScores at hsm
      rw [htake, py_bind_ok] at hsm
      rw [hsm, py_bind_ok, mapM_ok_iff, List.forall₂_map_right_iff, List.forall₂_same]
      intro s hs
      obtain ⟨-, -, hlt⟩ := mem_slates.1 (hmem s hs)
      have hx : s.mapM (int8Entry ((List.range A).map fun a => Real.exp (l a) /
          ((List.range A).map fun a => Real.exp (l a)).sum)) =
          .ok (s.map fun a => Real.exp (l a) / ((List.range A).map fun a => Real.exp (l a)).sum) := by
        rw [mapM_ok_iff, List.forall₂_map_right_iff, List.forall₂_same]
        intro a ha
        have haA : a < A := Finset.mem_range.1 (hlt a ha)
        rw [range_map_ofFn A fun a => Real.exp (l a) / ((List.range A).map fun a => Real.exp (l a)).sum]
        exact C111_small_partial h8 _ ⟨a, haA⟩
      rw [hx, py_bind_ok, py_pure]
      congr 1
      unfold slateProb
      rw [list_sum_eq_finset List.nodup_range, range_toFinset]
      simp only [available, if_true]
      rw [← List.prod_ofFn]
      congr 1
      refine List.ext_getElem (by simp) fun k h1 h2 => ?_
      simp

/-- **C118.** Every round weights the slates with their probabilities under the softmax policy, which add up to one, if
there are at most 128 actions. -/
theorem C118_pscores_partial {A L : ℕ} (hA : 0 < A) (fact : Bool) (hL : fact = false → L ≤ A)
    (h8 : A ≤ 128) (l : ℕ → ℝ) :
    ∃ p : List ℕ → ℝ, truthPscores fact A L ((List.range A).map l) = .ok ((truthSlates fact A L).map p) ∧
      (∀ s, p s = ∏ k : Fin s.length, Real.exp (l s[k]) / ∑ b ∈ available fact (Finset.range A) s k, Real.exp (l b)) ∧
      ((truthSlates fact A L).map p).sum = 1 := by
  refine ⟨slateProb l fact A, truthPscores_ok hA fact hL h8 l, fun s => rfl, ?_⟩
  obtain ⟨h1, h2⟩ := truthSlates_spec fact A L
  rw [← List.sum_toFinset _ h1, h2]
  simp only [slateProb_eq]
  exact sum_seqProb (fun a => Real.exp_pos _) (enough_range hA hL)

/-- With 129 to 255 actions a factorizable policy's slates of one action are weighted with the probabilities of other
actions, so the weights need not add up to one. -/
theorem C118_overflow {A : ℕ} (h1 : 192 ≤ A) (h2 : A < 256) (l : ℕ → ℝ) :
    truthPscores true A 1 ((List.range A).map l) = .ok ((List.range A).map fun a =>
      Real.exp (l (if a < 128 then a else a + A - 256)) / ∑ b ∈ Finset.range A, Real.exp (l b)) := by
  unfold truthPscores
  rw [if_pos rfl]
  have hsm := slateScores_range A l (List.range A) (by simp; omega) fun a ha => List.mem_range.1 ha
  have htake : takeAt ((List.range A).map l) (List.range A) = .ok ((List.range A).map l) := by
    rw [range_map_ofFn A l, range_map_ofFn_id, takeAt_ofFn]
  unfold slateScores at hsm
  rw [htake, py_bind_ok] at hsm
  rw [hsm, py_bind_ok]
  have hs : truthSlates true A 1 = (List.range A).map fun a => [a] := by
    simp [truthSlates, productOf, ← List.map_eq_flatMap]
  rw [hs, mapM_ok_iff, List.forall₂_map_left_iff, List.forall₂_map_right_iff, List.forall₂_same]
  intro a ha
  have haA := List.mem_range.1 ha
  have hx : int8Entry ((List.range A).map fun a => Real.exp (l a) / ((List.range A).map fun a => Real.exp (l a)).sum) a =
      .ok (Real.exp (l (if a < 128 then a else a + A - 256)) / ∑ b ∈ Finset.range A, Real.exp (l b)) := by
    rw [list_sum_eq_finset List.nodup_range, range_toFinset,
      range_map_ofFn A fun a => Real.exp (l a) / ∑ b ∈ Finset.range A, Real.exp (l b)]
    by_cases h : a < 128
    · rw [if_pos h]
      exact int8Entry_ofFn _ ⟨a, haA⟩ h
    · rw [if_neg h]
      exact (C111_overflow h2 _ ⟨a, haA⟩ (by simpa using h)).1 (by simp; omega)
  rw [List.mapM_cons, hx, py_bind_ok, List.mapM_nil]
  simp [py_pure, py_bind_ok]

/-- With more than 128 actions a policy that is not factorizable has no ground truth at all: no remaining action matches
the converted actions from 128 on, and the enumeration ends with an IndexError. -/
theorem C118_many_actions {A L : ℕ} (hA : 128 < A) (hL0 : 0 < L) (hL : L ≤ A) (l : ℕ → ℝ) :
    truthPscores false A L ((List.range A).map l) = .error .indexError := by
  have hmem : ∀ s ∈ truthSlates false A L, s ∈ slates false L (Finset.range A) := fun s hs => by
    rw [← (truthSlates_spec false A L).2]
    exact List.mem_toFinset.2 hs
  have hact : ∀ s : List ℕ, s.mapM int8Action = .ok s ∨ s.mapM int8Action = .error .indexError := fun s => by
    by_cases h : ∀ a ∈ s, toInt8 a = a
    · left
      rw [mapM_ok_iff, List.forall₂_same]
      exact fun a ha => if_pos (h a ha)
    · right
      simp only [not_forall] at h
      obtain ⟨a, ha, hne⟩ := h
      refine mapM_error_of (fun b _ => ?_) ⟨a, ha, if_neg hne⟩
      by_cases hb : toInt8 b = b
      · exact Or.inl ⟨b, if_pos hb⟩
      · exact Or.inr (if_neg hb)
  unfold truthPscores
  rw [if_neg (by simp)]
  refine mapM_error_of (fun s hs => ?_) ?_
  · rcases hact s with h | h
    · left
      refine ⟨slateProb l false A s, ?_⟩
      rw [h, py_bind_ok, slateProduct_ok (slateScores_range A l) List.nodup_range (fun a ha => List.mem_range.1 ha) 1
        (by rw [range_toFinset]; exact hmem s hs), range_toFinset, one_mul, slateProb_eq]
    · right
      rw [h, py_bind_error]
  · have hp : (128 :: (List.range A).erase 128).Perm (List.range A) :=
      (List.perm_cons_erase (List.mem_range.2 hA)).symm
    refine ⟨(128 :: (List.range A).erase 128).take L, ?_, ?_⟩
    · rw [(C118_slates_enumerated false A L).2]
      refine ⟨?_, fun _ => (hp.nodup_iff.2 List.nodup_range).sublist (List.take_sublist _ _), fun a ha => ?_⟩
      · rw [List.length_take, hp.length_eq, List.length_range]
        omega
      · exact List.mem_range.1 (hp.mem_iff.1 (List.mem_of_mem_take ha))
    · obtain ⟨k, rfl⟩ : ∃ k, L = k + 1 := ⟨L - 1, by omega⟩
      rw [List.take_succ_cons, List.mapM_cons, show int8Action 128 = .error .indexError by decide, py_bind_error,
        py_bind_error]

/-- The same for `calc_ground_truth_policy_value` as a whole, whatever the rewards. -/
theorem C118_many_actions_value {C : Type} {n A L : ℕ} (hn : 0 < n) (hA : 128 < A) (hL0 : 0 < L) (hL : L ≤ A)
    (ctx : Fin n → C) (l : Fin n → ℕ → ℝ) (rw : TruthReward C) :
    slateGroundTruth false A L true (List.ofFn ctx) (List.ofFn fun i => (List.range A).map (l i)) rw =
      .error .indexError := by
  unfold slateGroundTruth
  obtain ⟨n, rfl⟩ : ∃ k, n = k + 1 := ⟨n - 1, by omega⟩
  rw [raiseIf_neg (by
    rw [List.any_eq_false]
    intro r hr
    obtain ⟨i, rfl⟩ := List.mem_ofFn.1 hr
    simp), py_bind_ok, raiseIf_neg (by simp), py_bind_ok, raiseIf_neg (by simp), py_bind_ok, List.ofFn_succ,
    List.mapM_cons, C118_many_actions hA hL0 hL, py_bind_error, py_bind_error]

/-- 200 actions and slates of two of them. -/
example := C118_many_actions_value (C := ℕ) (n := 1) (A := 200) (L := 2) (by norm_num) (by norm_num) (by norm_num)
  (by norm_num) ![0] ![fun a => (a : ℝ)] (.contextFree [])

/-- **C118.** The ground truth of a dataset with a base reward function is the average over the rounds of the expected
reward of the slate drawn by the evaluation policy, if the rewards `g` of a slate depend on the round's own context only
(for the reward functions of the package this is so for `len_list = 1`, see C110) and there are at most 128 actions. -/
theorem C118_value_partial {C : Type} {n A L : ℕ} (hn : 0 < n) (hA : 0 < A) (fact : Bool) (hL : fact = false → L ≤ A)
    (h8 : A ≤ 128) (ctx : Fin n → C) (l : Fin n → ℕ → ℝ) (g : C → List ℕ → List ℝ)
    (click : List ℝ → List ℝ) :
    slateGroundTruth fact A L true (List.ofFn ctx) (List.ofFn fun i => (List.range A).map (l i))
      (.base (fun ss cs => .ok (cs.flatMap fun c => ss.map (g c))) click) =
      .ok ((∑ i, ∑ s ∈ slates fact L (Finset.range A), slateProb (l i) fact A s * (click (g (ctx i) s)).sum) / (n : ℝ)) := by
  obtain ⟨h1, h2⟩ := truthSlates_spec fact A L
  unfold slateGroundTruth
  rw [raiseIf_neg (by
    rw [List.any_eq_false]
    intro r hr
    obtain ⟨i, rfl⟩ := List.mem_ofFn.1 hr
    simp), py_bind_ok, raiseIf_neg (by simp), py_bind_ok, raiseIf_neg (by simp), py_bind_ok,
    mapM_ofFn_ok (y := fun i => (truthSlates fact A L).map (slateProb (l i) fact A))
      fun i => truthPscores_ok hA fact hL h8 (l i), py_bind_ok]
  dsimp only
  set ss := truthSlates fact A L with hss
  have e : ∀ {β : Type} (f : List ℕ → β), ss.map f = List.ofFn fun j : Fin ss.length => f ss[j] := fun f => by
    refine List.ext_getElem (by simp) fun j h3 h4 => ?_
    simp
  simp only [e]
  rw [List.length_ofFn, C87_batched_average_partial hn ctx (fun i j => slateProb (l i) fact A ss[j])
    (fun c j => g c ss[j]) click]
  congr 2
  refine Finset.sum_congr rfl fun i _ => ?_
  rw [← h2, List.sum_toFinset _ h1, e, List.sum_ofFn]

/-- **C118.** Without a base reward function the result is the sum over the rounds (not the average, see C87) of the
expected reward of the slate, position by position from the table `slot`. -/
theorem C118_context_free {C : Type} {n A L : ℕ} (hA : 0 < A) (fact : Bool) (hL : fact = false → L ≤ A)
    (h8 : A ≤ 128) (ctx : Fin n → C) (l : Fin n → ℕ → ℝ) (slot : ℕ → ℕ → ℝ) :
    slateGroundTruth fact A L true (List.ofFn ctx) (List.ofFn fun i => (List.range A).map (l i))
      (.contextFree ((List.range A).map fun a => (List.range L).map (slot a))) =
      .ok (∑ i, ∑ s ∈ slates fact L (Finset.range A), slateProb (l i) fact A s *
        ∑ k : Fin s.length, slot s[k] k) := by
  obtain ⟨h1, h2⟩ := truthSlates_spec fact A L
  unfold slateGroundTruth
  rw [raiseIf_neg (by
    rw [List.any_eq_false]
    intro r hr
    obtain ⟨i, rfl⟩ := List.mem_ofFn.1 hr
    simp), py_bind_ok, raiseIf_neg (by simp), py_bind_ok, raiseIf_neg (by simp), py_bind_ok,
    mapM_ofFn_ok (y := fun i => (truthSlates fact A L).map (slateProb (l i) fact A))
      fun i => truthPscores_ok hA fact hL h8 (l i), py_bind_ok]
  dsimp only
  have hmem := (C118_slates_enumerated fact A L).2
  set ss := truthSlates fact A L with hss
  have e : ∀ {β : Type} (f : List ℕ → β), ss.map f = List.ofFn fun j : Fin ss.length => f ss[j] := fun f => by
    refine List.ext_getElem (by simp) fun j h3 h4 => ?_
    simp
  have hj : ∀ j : Fin ss.length, ss[j].length = L ∧ ∀ a ∈ ss[j], a < A := fun j =>
    ⟨((hmem _).1 (List.getElem_mem j.2)).1, ((hmem _).1 (List.getElem_mem j.2)).2.2⟩
  have key := C87_context_free_total (K := ℝ) h8 (fun (i : Fin n) (j : Fin ss.length) => slateProb (l i) fact A ss[j])
    (fun j (k : Fin L) => (⟨ss[j][k.val]'(by rw [(hj j).1]; exact k.2),
      (hj j).2 _ (List.getElem_mem _)⟩ : Fin A)) (fun a k => slot a k)
  have e1 : (List.ofFn fun j : Fin ss.length => List.ofFn fun k : Fin L => ss[j][k.val]'(by rw [(hj j).1]; exact k.2)) =
      ss := by
    refine List.ext_getElem (by simp) fun j h3 h4 => ?_
    rw [List.getElem_ofFn]
    refine List.ext_getElem (by simpa using ((hj ⟨j, h4⟩).1).symm) fun k h5 h6 => ?_
    simp
  rw [e1] at key
  simp only [range_map_ofFn, e]
  rw [key]
  congr 1
  refine Finset.sum_congr rfl fun i _ => ?_
  rw [← h2, List.sum_toFinset _ h1, e, List.sum_ofFn]
  refine Finset.sum_congr rfl fun j _ => ?_
  congr 1
  exact Fintype.sum_equiv (finCongr (hj j).1.symm) _ _ fun k => rfl

/-- **C118.** Logits or contexts of the wrong shape are refused. -/
theorem C118_refused {C : Type} (fact : Bool) (A L : ℕ) (ctxOk : Bool) (ctxs : List C) (logits : List (List ℝ))
    (rw : TruthReward C)
    (h : (∃ r ∈ logits, r.length ≠ A) ∨ ctxOk = false ∨ logits.length ≠ ctxs.length) :
    slateGroundTruth fact A L ctxOk ctxs logits rw = .error .valueError := by
  unfold slateGroundTruth
  by_cases h1 : ∃ r ∈ logits, r.length ≠ A
  · rw [raiseIf_pos (by simpa using h1), py_bind_error]
  rw [raiseIf_neg (by simpa using h1), py_bind_ok]
  cases ctxOk with
  | false => rfl
  | true =>
      rw [raiseIf_neg (by simp), py_bind_ok, raiseIf_pos (by simpa [h1] using h), py_bind_error]

/-- Two rounds, three actions, slates of two actions, rewards `c` at the first and 1 at the second position. -/
example := C118_value_partial (C := ℕ) (n := 2) (A := 3) (L := 2) (by norm_num) (by norm_num) false (by simp) (by norm_num)
  ![0, 5] ![fun a => 1 + (a : ℝ), fun a => 3 * (a : ℝ)] (fun c _ => [(c : ℝ), 1]) id

example := C118_context_free (C := ℕ) (n := 2) (A := 3) (L := 2) (by norm_num) true (by simp) (by norm_num)
  ![0, 5] ![fun a => 1 + (a : ℝ), fun a => 3 * (a : ℝ)] fun a k => a + k

end Obp
