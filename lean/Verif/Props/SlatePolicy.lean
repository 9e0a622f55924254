import Verif.Lemmas.SlateDataset

set_option linter.unusedSectionVars false

/-!
# Slate policies: propensities, sampling and conditional action distributions

Logits of a round are given by a function `l` on actions, the row passed to the code being
`l 0, …, l (A - 1)`.
-/

namespace Obp

/-! ### C85: propensities are a distribution over slates -/

/-- The propensities returned for a slate are: the probability of the slate under sequential softmax choice, and the
probabilities of its prefixes. They are positive, sum to one over all slates, and do not increase along the slate. -/
theorem C85_slate_propensities {A L : ℕ} (hA : 0 < A) (fact : Bool) (hL : fact = false → L ≤ A) (clip : Option ℝ)
    (l : ℕ → ℝ) :
    ∃ p : List ℕ → ℝ, ∑ s ∈ slates fact L (Finset.range A), p s = 1 ∧
      ∀ s ∈ slates fact L (Finset.range A), 0 < p s ∧
        p s = ∏ k : Fin s.length, Real.exp (l s[k]) / ∑ b ∈ available fact (Finset.range A) s k, Real.exp (l b) ∧
        ∃ item cascade, slatePscores A L fact clip ((List.range A).map l) s = .ok ⟨p s, item, cascade⟩ ∧
          (cascade = (List.range L).map fun k =>
            ∑ t ∈ slates fact L (Finset.range A) with t.take (k + 1) = s.take (k + 1), p t) ∧
          cascade.Pairwise (fun x y => y ≤ x) ∧ ∀ h : cascade ≠ [], cascade.getLast h = p s := by
  have hpos : ∀ s ∈ slates fact L (Finset.range A), 0 < slateProb l fact A s := fun s hs => by
    rw [slateProb_eq]
    exact seqProb_pos (fun a => Real.exp_pos _) hs
  refine ⟨slateProb l fact A, ?_, fun s hs => ⟨hpos s hs, rfl, _, _, slatePscores_ok hA hL hs, rfl, ?_, fun h => ?_⟩⟩
  · simp only [slateProb_eq]
    exact sum_seqProb (fun a => Real.exp_pos _) (enough_range hA hL)
  · rw [List.pairwise_map]
    refine List.pairwise_lt_range.imp fun {i j} hij => ?_
    refine Finset.sum_le_sum_of_subset_of_nonneg (fun t ht => ?_) fun t ht _ => (hpos t (Finset.mem_filter.1 ht).1).le
    obtain ⟨h1, h2⟩ := Finset.mem_filter.1 ht
    refine Finset.mem_filter.2 ⟨h1, ?_⟩
    have := congrArg (List.take (i + 1)) h2
    rwa [List.take_take, List.take_take, min_eq_left (by omega)] at this
  · have hlen := (mem_slates.1 hs).1
    have hL0 : L ≠ 0 := by
      rintro rfl
      simp at h
    rw [List.getLast_map (by simpa using h), List.getLast_range, slatePrefix_eq hA hL hs, slateProb_eq,
      show L - 1 + 1 = s.length by omega, List.take_length]

/-- A slate of the right length is accepted exactly if the policy can produce it. -/
theorem C85_accepts_iff {A L : ℕ} (hA : 0 < A) (fact : Bool) (hL : fact = false → L ≤ A) (clip : Option ℝ)
    (l : ℕ → ℝ) {s : List ℕ} (hs : s.length = L) :
    ((∃ r, slatePscores A L fact clip ((List.range A).map l) s = .ok r) ↔
      (∀ a ∈ s, a < A) ∧ (fact = false → s.Nodup)) ∧
    (¬ ((∀ a ∈ s, a < A) ∧ (fact = false → s.Nodup)) →
      slatePscores A L fact clip ((List.range A).map l) s = .error .indexError) := by
  have hiff : s ∈ slates fact L (Finset.range A) ↔ (∀ a ∈ s, a < A) ∧ (fact = false → s.Nodup) := by
    rw [mem_slates]
    simp only [hs, true_and, Finset.mem_range]
    exact and_comm
  have herr : ¬ ((∀ a ∈ s, a < A) ∧ (fact = false → s.Nodup)) →
      slatePscores A L fact clip ((List.range A).map l) s = .error .indexError := by
    intro h
    unfold slatePscores
    rw [slateCascade_error (slateScores_range A l) List.nodup_range (fun a ha => List.mem_range.1 ha) 1
      (by rw [range_toFinset, hs]; exact enough_range hA hL) (by rw [range_toFinset, hs, hiff]; exact h), py_bind_error]
  refine ⟨⟨fun ⟨r, hr⟩ => ?_, fun h => ⟨_, slatePscores_ok hA hL (hiff.2 h)⟩⟩, herr⟩
  by_contra h
  rw [herr h] at hr
  exact absurd hr (by simp)

theorem slateOf_flatten {n L : ℕ} (s : Fin n → List ℕ) (hs : ∀ i, (s i).length = L) (i : Fin n) :
    slateOf L (List.ofFn s).flatten i = s i := by
  unfold slateOf
  induction n with
  | zero => exact i.elim0
  | succ n ih =>
      rw [List.ofFn_succ, List.flatten_cons]
      refine Fin.cases ?_ (fun i => ?_) i
      · simp [hs]
      · rw [Fin.val_succ, show (i.val + 1) * L = (s 0).length + i.val * L by rw [hs]; ring,
          List.drop_append, List.drop_eq_nil_of_le (by omega), List.nil_append,
          show (s 0).length + i.val * L - (s 0).length = i.val * L by omega]
        exact ih (fun i => s i.succ) (fun i => hs _) i

/-- For `n` rounds, the three arrays returned are those of the rounds in order; the joint propensity is repeated for
every position. -/
theorem C85_rounds {A L n : ℕ} (hA : 0 < A) (fact : Bool) (hL : fact = false → L ≤ A) (clip : Option ℝ)
    (hc : ∀ c, clip = some c → c ≤ 700) (l : Fin n → ℕ → ℝ) (s : Fin n → List ℕ)
    (hs : ∀ i, s i ∈ slates fact L (Finset.range A)) :
    ∃ r : Fin n → SlatePscores, (∀ i, slatePscores A L fact clip ((List.range A).map (l i)) (s i) = .ok (r i)) ∧
      obtainSlatePscores A L fact (clip.map .flt) (List.ofFn s).flatten (List.ofFn fun i => (List.range A).map (l i)) =
        .ok ((List.ofFn fun i => List.replicate L (r i).joint).flatten, (List.ofFn fun i => (r i).item).flatten,
          (List.ofFn fun i => (r i).cascade).flatten) := by
  have hlen : ∀ i, (s i).length = L := fun i => (mem_slates.1 (hs i)).1
  refine ⟨_, fun i => slatePscores_ok hA hL (hs i), ?_⟩
  unfold obtainSlatePscores
  have hfl : (List.ofFn s).flatten.length = L * n := by
    rw [List.length_flatten, List.map_ofFn, show (List.length ∘ s) = fun _ => L from funext hlen, List.sum_ofFn]
    simp [mul_comm]
  have hck : checkClip (clip.map .flt) = .ok clip := by
    cases clip with
    | none => rfl
    | some c =>
        simp only [Option.map_some, checkClip]
        rw [if_neg (not_lt.2 (hc c rfl))]
  rw [raiseIf_neg (by simp [hfl]), py_bind_ok, raiseIf_neg (by
    rw [List.any_eq_false]
    intro r hr
    obtain ⟨i, rfl⟩ := List.mem_ofFn.1 hr
    simp), py_bind_ok, hck, py_bind_ok]
  have hm : (List.ofFn fun i => (List.range A).map (l i)).zipIdx.mapM
      (fun x => slatePscores A L fact clip x.1 (slateOf L (List.ofFn s).flatten x.2)) =
      .ok (List.ofFn fun i => (⟨slateProb (l i) fact A (s i), (s i).mapIdx (itemOf fact clip (l i) A L),
        (List.range L).map (slatePrefix (l i) fact A L (s i))⟩ : SlatePscores)) := by
    rw [mapM_ok_iff, List.forall₂_iff_get]
    refine ⟨by simp, fun k h1 h2 => ?_⟩
    have hk : k < n := by simpa using h2
    simp only [List.get_eq_getElem, List.getElem_zipIdx, List.getElem_ofFn, Nat.zero_add]
    rw [slateOf_flatten s hlen ⟨k, hk⟩]
    exact slatePscores_ok hA hL (hs ⟨k, hk⟩)
  rw [hm, py_bind_ok, py_pure, List.map_ofFn, List.map_ofFn, List.map_ofFn]
  rfl

/-- Shapes that do not fit and a too large or non-float clip value are refused. -/
theorem C85_refused {A L : ℕ} (fact : Bool) (action : List ℕ) (logits : List (List ℝ)) (clip : Option (PyScalar ℝ)) :
    (action.length ≠ L * logits.length ∨ (∃ r ∈ logits, r.length ≠ A) →
      obtainSlatePscores A L fact clip action logits = .error .valueError) ∧
    (∀ c : ℝ, 700 < c → obtainSlatePscores A L fact (some (.flt c)) action logits = .error .valueError) ∧
    (∀ (k : ℤ), action.length = L * logits.length → (∀ r ∈ logits, r.length = A) →
      obtainSlatePscores A L fact (some (.int k)) action logits = .error .typeError) := by
  unfold obtainSlatePscores
  by_cases h1 : action.length = L * logits.length
  · by_cases h2 : ∀ r ∈ logits, r.length = A
    · have hg : raiseIf (decide (action.length ≠ L * logits.length)) PyErr.valueError = .ok () := raiseIf_neg (by simp [h1]) _
      have hg2 : raiseIf (logits.any fun r => decide (r.length ≠ A)) PyErr.valueError = .ok () := raiseIf_neg (by
        rw [List.any_eq_false]
        intro r hr
        simp [h2 r hr]) _
      refine ⟨fun h => ?_, fun c hc => ?_, fun k _ _ => ?_⟩
      · rcases h with h | ⟨r, hr, hne⟩
        · exact absurd h1 h
        · exact absurd (h2 r hr) hne
      · rw [hg, py_bind_ok, hg2, py_bind_ok]
        simp only [checkClip]
        rw [if_pos hc, py_bind_error]
      · rw [hg, py_bind_ok, hg2, py_bind_ok]
        rfl
    · have hg : raiseIf (decide (action.length ≠ L * logits.length)) PyErr.valueError = .ok () := raiseIf_neg (by simp [h1]) _
      have hg2 : raiseIf (logits.any fun r => decide (r.length ≠ A)) PyErr.valueError = .error .valueError :=
        raiseIf_pos (by
          push Not at h2
          obtain ⟨r, hr, hne⟩ := h2
          rw [List.any_eq_true]
          exact ⟨r, hr, by simpa using hne⟩) _
      refine ⟨fun _ => ?_, fun c _ => ?_, fun k _ h => absurd h h2⟩ <;>
      rw [hg, py_bind_ok, hg2, py_bind_error]
  · have hg : raiseIf (decide (action.length ≠ L * logits.length)) PyErr.valueError = .error .valueError :=
      raiseIf_pos (by simp [h1]) _
    refine ⟨fun _ => ?_, fun c _ => ?_, fun k h => absurd h h1⟩ <;>
    rw [hg, py_bind_error]

/-- The slates of two of three actions. -/
example : slates false 2 (Finset.range 3) = {[0, 1], [0, 2], [1, 0], [1, 2], [2, 0], [2, 1]} := by decide

/-- A concrete propensity: logits `0, log 2, 0`, slate `(1, 0)`, probability `2/4 * 1/2`. -/
example : slateProb (fun a => if a = 1 then Real.log 2 else 0) false 3 [1, 0] = 1 / 4 := by
  rw [slateProb_eq]
  have h1 : nextSet false (Finset.range 3) 1 = {0, 2} := by decide
  simp only [seqProb, h1]
  norm_num [Finset.sum_range_succ, Real.exp_log]

/-! ### C86: item-position propensities -/

/-- A clip value that cuts off no logit does not change the item-position propensities. -/
theorem itemOf_eq_marginal {A L : ℕ} {fact : Bool} {clip : Option ℝ} {l : ℕ → ℝ} (hclip : ∀ c, clip = some c → ∀ a < A, l a ≤ c) :
    itemOf fact clip l A L = slateMarginal l fact A L := by
  funext k a
  unfold itemOf
  split
  · rfl
  · unfold slateMarginal
    refine Finset.sum_congr rfl fun t ht => ?_
    have ht := (mem_slates.1 (Finset.mem_filter.1 ht).1).2.2
    have hcl : ∀ b < A, clippedLogit clip l b = l b := fun b hb => by
      cases clip with
      | none => rfl
      | some c => exact min_eq_left (hclip c rfl b hb)
    unfold slateProb
    refine Finset.prod_congr rfl fun k _ => ?_
    rw [hcl t[k] (Finset.mem_range.1 (ht _ (List.getElem_mem k.2)))]
    congr 1
    refine Finset.sum_congr rfl fun b hb => ?_
    rw [hcl]
    unfold available at hb
    split at hb
    · exact Finset.mem_range.1 hb
    · exact Finset.mem_range.1 (Finset.mem_sdiff.1 hb).1

/-- Unless the clip value cuts off a logit, the item-position propensities are the marginals of the joint
propensities, and at every position they sum to one over the actions. -/
theorem C86_item_position_partial {A L : ℕ} (hA : 0 < A) (fact : Bool) (hL : fact = false → L ≤ A) (clip : Option ℝ)
    (l : ℕ → ℝ) (hclip : ∀ c, clip = some c → ∀ a < A, l a ≤ c) :
    ∃ m : ℕ → ℕ → ℝ, (∀ k < L, ∑ a ∈ Finset.range A, m k a = 1) ∧
      ∃ p : List ℕ → ℝ, (∀ k a, m k a = ∑ t ∈ slates fact L (Finset.range A) with t[k]? = some a, p t) ∧
        ∀ s ∈ slates fact L (Finset.range A),
          ∃ cascade, slatePscores A L fact clip ((List.range A).map l) s = .ok ⟨p s, s.mapIdx m, cascade⟩ := by
  have hp1 : ∑ t ∈ slates fact L (Finset.range A), slateProb l fact A t = 1 := by
    simp only [slateProb_eq]
    exact sum_seqProb (fun a => Real.exp_pos _) (enough_range hA hL)
  refine ⟨slateMarginal l fact A L, fun k hk => ?_, slateProb l fact A, fun k a => rfl, fun s hs => ?_⟩
  · unfold slateMarginal
    simp only [Finset.sum_filter]
    rw [Finset.sum_comm, ← hp1]
    refine Finset.sum_congr rfl fun t ht => ?_
    obtain ⟨hlen, -, hmem⟩ := mem_slates.1 ht
    have hk' : k < t.length := hlen ▸ hk
    rw [Finset.sum_eq_single t[k]]
    · rw [if_pos (List.getElem?_eq_getElem hk')]
    · intro b _ hb
      refine if_neg ?_
      rw [List.getElem?_eq_getElem hk', Option.some.injEq]
      exact fun h => hb h.symm
    · exact fun h => absurd (hmem _ (List.getElem_mem hk')) h
  · rw [slatePscores_ok hA hL hs]
    refine ⟨(List.range L).map (slatePrefix l fact A L s), ?_⟩
    rw [itemOf_eq_marginal hclip]

/-- The hypothesis about the clip value is needed: with two actions of logits `log 3` and `0` and
`clip_logit_value = 0`, the action 0 is at the second position with probability 1/4, but its item-position propensity
is 1/2. -/
theorem C86_clip_inconsistent :
    let l : ℕ → ℝ := fun a => if a = 0 then Real.log 3 else 0
    ∃ r, slatePscores 2 2 false (some 0) ((List.range 2).map l) [1, 0] = .ok r ∧ r.item = [1 / 4, 1 / 2] ∧
      r.joint = 1 / 4 ∧ slateMarginal l false 2 2 1 0 = 1 / 4 := by
  intro l
  have hsl : slates false 2 (Finset.range 2) = {[0, 1], [1, 0]} := by decide
  have hf : ({t ∈ slates false 2 (Finset.range 2) | t[1]? = some 0} : Finset (List ℕ)) = {[1, 0]} := by decide
  have hf0 : ({t ∈ slates false 2 (Finset.range 2) | t[0]? = some 1} : Finset (List ℕ)) = {[1, 0]} := by decide
  have hl : ∀ l' : ℕ → ℝ, slateProb l' false 2 [1, 0] = Real.exp (l' 1) / (Real.exp (l' 0) + Real.exp (l' 1)) := by
    intro l'
    rw [slateProb_eq]
    have h1 : nextSet false (Finset.range 2) 1 = {0} := by decide
    simp only [seqProb, h1, Finset.sum_range_succ, Finset.sum_range_zero, Finset.sum_singleton, zero_add, mul_one]
    rw [div_self (Real.exp_pos _).ne', mul_one]
  have hp : slateProb l false 2 [1, 0] = 1 / 4 := by
    rw [hl]
    norm_num [l, Real.exp_log]
  have hpc : slateProb (clippedLogit (some 0) l) false 2 [1, 0] = 1 / 2 := by
    rw [hl]
    have : (0 : ℝ) ≤ Real.log 3 := Real.log_nonneg (by norm_num)
    norm_num [l, clippedLogit, min_eq_right this]
  refine ⟨_, slatePscores_ok (by omega) (fun _ => le_rfl) (by rw [hsl]; decide), ?_, hp, ?_⟩
  · simp [itemOf, slateMarginal, hf, hf0, hp, hpc]
  · simp [slateMarginal, hf, hp]

/-! ### C113: sampled slates -/

/-- The slate that is sampled is the one whose actions are selected, position by position, by the uniform draws among
the actions still available, an action having the width of its conditional softmax probability. The propensities
logged are those that the dataset would report for the slate later. -/
theorem C113_sampled_slate {A L : ℕ} (hA : 0 < A) (fact : Bool) (hL : fact = false → L ≤ A) (clip : Option ℝ)
    (l : ℕ → ℝ) (us : List ℝ) (hlen : us.length = L) (hu : ∀ u ∈ us, 0 ≤ u ∧ u < 1) :
    ∃ s ∈ slates fact L (Finset.range A), ∃ r,
      slateSampleRound A L false fact clip ((List.range A).map l) us = .ok (s, r) ∧
      slatePscores A L fact clip ((List.range A).map l) s = .ok r ∧
      ∀ s' ∈ slates fact L (Finset.range A), s' = s ↔ ∀ k (hk : k < s'.length) (hk' : k < us.length),
        let S := available fact (Finset.range A) s' k
        (∑ b ∈ S with b < s'[k], Real.exp (l b)) / ∑ b ∈ S, Real.exp (l b) ≤ us[k] ∧
        us[k] < (∑ b ∈ S with b ≤ s'[k], Real.exp (l b)) / ∑ b ∈ S, Real.exp (l b) := by
  subst hlen
  set w : ℕ → ℝ := fun a => Real.exp (l a) with hw
  have hwp : ∀ a, 0 < w a := fun a => Real.exp_pos _
  obtain ⟨s, hs, hd⟩ := drawn_exists hwp hu (enough_range hA hL)
  have hsample : ∀ s', Drawn w fact (Finset.range A) s' us →
      slateSample ((List.range A).map l) fact (List.range A) 1 us =
        .ok (s', (List.range us.length).map fun k => seqProb w fact (Finset.range A) (s'.take (k + 1))) := by
    intro s' hd'
    rw [slateSample_drawn (slateScores_range A l) hwp List.pairwise_lt_range (fun a ha => List.mem_range.1 ha) hu
      (by rw [range_toFinset]; exact hd'), range_toFinset]
    simp only [one_mul, hw]
  have hslen := (mem_slates.1 hs).1
  refine ⟨s, hs, ?_⟩
  have hps := slatePscores_ok (l := l) (clip := clip) hA hL hs
  refine ⟨_, ?_, hps, fun s' hs' => ?_⟩
  · unfold slateSampleRound
    unfold slatePscores at hps
    rw [slateCascade_ok (slateScores_range A l) List.nodup_range (fun a ha => List.mem_range.1 ha) 1
      (by rw [range_toFinset]; exact hs), py_bind_ok, range_toFinset] at hps
    simp only [one_mul] at hps
    rw [hsample s hd, py_bind_ok]
    dsimp only
    obtain ⟨item, hitem, hps⟩ := py_bind_eq_ok.1 hps
    have hcongr : (s.zip ((List.range us.length).map fun k => seqProb w fact (Finset.range A) (s.take (k + 1)))).zipIdx.mapM
        (fun x => sampledItemPosition A us.length false fact clip ((List.range A).map l) x.2 x.1.1 x.1.2) =
        .ok item := by
      rw [← hitem, mapM_zipIdx_ok _ (fun k => itemOf fact clip l A us.length k (s.getD k 0)),
        mapM_zipIdx_ok _ (fun k => itemOf fact clip l A us.length k (s.getD k 0))]
      · intro k hk
        have hk' : k < s.length := by
          simp only [List.length_zip, List.length_map, List.length_range] at hk
          omega
        simp only [List.getElem_zip, List.getElem_map, List.getElem_range]
        rw [itemPosition_ok hA hL hs hk']
        simp [hk']
      · intro k hk
        have hk' : k < s.length := by
          simp only [List.length_zip, List.length_map, List.length_range] at hk
          omega
        simp only [List.getElem_zip, List.getElem_map, List.getElem_range]
        have := itemPosition_ok (l := l) (clip := clip) hA hL hs hk'
        unfold itemPosition at this
        unfold sampledItemPosition
        rw [if_neg (by simp)]
        have hg : s.getD k 0 = s[k] := by simp [hk']
        rw [hg]
        cases fact
        · rw [if_neg (by simp)]
          rw [if_neg (show ¬ (false = true) by simp)] at this
          exact this
        · rw [if_pos rfl]
          have ha : s[k] < A := Finset.mem_range.1 ((mem_slates.1 hs).2.2 _ (List.getElem_mem hk'))
          rw [slateScore_ok (slateScores_range A l) List.nodup_range (fun a ha => List.mem_range.1 ha)
            (List.mem_range.2 ha), range_toFinset]
          unfold itemOf
          rw [if_pos (Or.inr rfl), slateMarginal_fact (hslen ▸ hk') ha]
    rw [hcongr, py_bind_ok]
    rw [py_pure] at hps ⊢
    have := Except.ok.inj hps
    rw [← this]
  · have hiff := drawn_iff (w := w) hs'
    constructor
    · rintro rfl
      exact hiff.1 hd
    · intro h
      have h' := hsample s' (hiff.2 h)
      rw [hsample s hd] at h'
      exact (Prod.mk.inj (Except.ok.inj h')).1.symm

/-- For the default uniform behaviour policy (no behaviour policy function, constant logits) the logged item-position
propensity `1 / n_unique_action` is the marginal probability of the action at the position, and the joint propensity is
that of the uniform distribution over slates. -/
theorem C113_uniform {A L : ℕ} (hA : 0 < A) (fact : Bool) (hL : fact = false → L ≤ A) (clip : Option ℝ)
    (c : ℝ) (us : List ℝ) (hlen : us.length = L) (hu : ∀ u ∈ us, 0 ≤ u ∧ u < 1) :
    ∃ s ∈ slates fact L (Finset.range A), ∃ r,
      slateSampleRound A L true fact clip ((List.range A).map fun _ => c) us = .ok (s, r) ∧
      slatePscores A L fact clip ((List.range A).map fun _ => c) s = .ok r ∧
      r.item = List.replicate L (1 / (A : ℝ)) ∧
      (∀ k < L, ∀ a < A, slateMarginal (fun _ => c) fact A L k a = 1 / (A : ℝ)) ∧
      r.joint = 1 / ((slates fact L (Finset.range A)).card : ℝ) := by
  obtain ⟨s, hs, r, hr, hps, -⟩ := C113_sampled_slate hA fact hL clip (fun _ => c) us hlen hu
  have hmarg : ∀ c' : ℝ, ∀ k < L, ∀ a < A, slateMarginal (fun _ => c') fact A L k a = 1 / (A : ℝ) := by
    intro c' k hk a ha
    unfold slateMarginal
    simp only [slateProb_eq]
    rw [sum_uniform_item (Real.exp_pos c') (enough_range hA hL) hk (Finset.mem_range.2 ha), Finset.card_range]
  obtain ⟨hslen, -, hmem⟩ := mem_slates.1 hs
  have hcl : clippedLogit clip (fun _ => c) = fun _ => clippedLogit clip (fun _ => c) 0 := by
    funext a
    cases clip <;> rfl
  have hitem : s.mapIdx (itemOf fact clip (fun _ => c) A L) = List.replicate L (1 / (A : ℝ)) := by
    refine List.ext_getElem (by simp [hslen]) fun k h1 h2 => ?_
    have hk : k < s.length := by simpa using h1
    rw [List.getElem_mapIdx, List.getElem_replicate]
    have ha := Finset.mem_range.1 (hmem _ (List.getElem_mem hk))
    unfold itemOf
    split
    · exact hmarg c k (hslen ▸ hk) _ ha
    · have := hmarg (clippedLogit clip (fun _ => c) 0) k (hslen ▸ hk) _ ha
      rw [← hcl] at this
      exact this
  rw [slatePscores_ok hA hL hs] at hps
  have hr' := Except.ok.inj hps
  refine ⟨s, hs, r, ?_, by rw [slatePscores_ok hA hL hs, hr'], by rw [← hr', hitem], hmarg c, ?_⟩
  · unfold slateSampleRound at hr ⊢
    obtain ⟨q, hq, hr⟩ := py_bind_eq_ok.1 hr
    obtain ⟨it, hit, hr⟩ := py_bind_eq_ok.1 hr
    rw [py_pure] at hr
    obtain ⟨h1, h2⟩ := Prod.mk.inj (Except.ok.inj hr)
    have hq2 : q.2.length = L := by
      have : r.cascade.length = L := by
        rw [← hr']
        simp
      rw [← h2] at this
      exact this
    rw [hq, py_bind_ok]
    have hA' : (A : ℝ) ≠ 0 := by exact_mod_cast hA.ne'
    have hm : (q.1.zip q.2).zipIdx.mapM (fun x => sampledItemPosition A L true fact clip
        ((List.range A).map fun _ => c) x.2 x.1.1 x.1.2) = .ok (List.replicate L (1 / (A : ℝ))) := by
      rw [mapM_zipIdx_ok _ (fun _ => 1 / (A : ℝ))]
      · rw [List.map_const', List.length_range, List.length_zip, h1, hq2, hslen, min_self]
      · intro k hk
        unfold sampledItemPosition
        rw [if_pos rfl, npDiv_ok hA']
    rw [hm, py_bind_ok, py_pure, h1]
    congr 2
    rw [← h2]
    congr 1
    have := congrArg SlatePscores.item hr'
    rw [← h2] at this
    rw [← hitem]
    exact this
  · rw [← hr']
    change slateProb (fun _ => c) fact A s = _
    have hconst : ∀ t ∈ slates fact L (Finset.range A), slateProb (fun _ => c) fact A t = slateProb (fun _ => c) fact A s := by
      intro t ht
      obtain ⟨htl, htn, htm⟩ := mem_slates.1 ht
      obtain ⟨-, hsn, -⟩ := mem_slates.1 hs
      have hform : ∀ t ∈ slates fact L (Finset.range A), slateProb (fun _ => c) fact A t =
          ∏ k : Fin L, Real.exp c / ((if fact then A else A - k.val : ℕ) * Real.exp c) := by
        intro t ht
        obtain ⟨htl, htn, htm⟩ := mem_slates.1 ht
        subst htl
        unfold slateProb
        refine Finset.prod_congr rfl fun k _ => ?_
        rw [Finset.sum_const, nsmul_eq_mul]
        congr 3
        unfold available
        cases fact
        · rw [if_neg (by simp), if_neg (by simp), Finset.card_sdiff_of_subset, Finset.card_range,
            List.toFinset_card_of_nodup ((htn rfl).sublist (List.take_sublist _ _)), List.length_take,
            min_eq_left k.2.le]
          intro b hb
          exact htm b (List.mem_of_mem_take (List.mem_toFinset.1 hb))
        · rw [if_pos rfl, if_pos rfl, Finset.card_range]
      rw [hform t ht, hform s hs]
    have hsum : ∑ t ∈ slates fact L (Finset.range A), slateProb (fun _ => c) fact A t = 1 := by
      simp only [slateProb_eq]
      exact sum_seqProb (fun a => Real.exp_pos _) (enough_range hA hL)
    rw [Finset.sum_congr rfl hconst, Finset.sum_const, nsmul_eq_mul] at hsum
    exact eq_one_div_of_mul_eq_one_right hsum

/-- Draws for which the sampled slate is `(1, 0)`: two equal logits, draws `3/4` and `1/2`. -/
example : Drawn (fun _ => (1 : ℝ)) false (Finset.range 2) [1, 0] [3 / 4, 1 / 2] := by
  have h1 : nextSet false (Finset.range 2) 1 = {0} := by decide
  have h2 : ({b ∈ Finset.range 2 | b < 1} : Finset ℕ) = {0} := by decide
  have h3 : ({b ∈ Finset.range 2 | b ≤ 1} : Finset ℕ) = {0, 1} := by decide
  have h4 : ({b ∈ ({0} : Finset ℕ) | b ≤ 0} : Finset ℕ) = {0} := by decide
  simp only [Drawn, Selects, h1, h2, h3, h4]
  norm_num

/-! ### C115: conditional action distributions -/

/-- The logits after masking the actions at the earlier positions. -/
noncomputable def maskedLogit (fact : Bool) (l : ℕ → ℝ) (s : List ℕ) (k a : ℕ) : ℝ :=
  if fact = false ∧ a ∈ s.take k then -10000 else l a

theorem slateActionDist_ok {A : ℕ} (hA : 0 < A) (fact : Bool) (l : ℕ → ℝ) (s : List ℕ) (hs : ∀ a ∈ s, a < A) :
    slateActionDist fact ((List.range A).map l) s = .ok ((List.range s.length).map fun k => (List.range A).map fun a =>
      Real.exp (maskedLogit fact l s k a) / ∑ b ∈ Finset.range A, Real.exp (maskedLogit fact l s k b)) := by
  induction s generalizing l with
  | nil => rfl
  | cons x s ih =>
      have hrow : softmaxWith Real.exp ((List.range A).map l) = .ok ((List.range A).map fun a =>
          Real.exp (l a) / ∑ b ∈ Finset.range A, Real.exp (l b)) := by
        rw [softmax_list (by simpa using hA.ne'), List.map_map, List.map_map]
        congr 1
      have hset : (if fact then (List.range A).map l else ((List.range A).map l).set x (-10000)) =
          (List.range A).map fun b => if fact = false ∧ b = x then -10000 else l b := by
        cases fact
        · refine List.ext_getElem (by simp) fun j h1 h2 => ?_
          simp only [Bool.false_eq_true, if_false, List.getElem_set, List.getElem_map, List.getElem_range, true_and]
          by_cases h : x = j
          · rw [if_pos h, if_pos h.symm]
          · rw [if_neg h, if_neg fun h' => h h'.symm]
        · simp
      unfold slateActionDist
      rw [hrow, py_bind_ok, hset, ih _ fun a ha => hs a (List.mem_cons_of_mem _ ha), py_bind_ok, py_pure,
        List.length_cons, List.range_succ_eq_map, List.map_cons, List.map_map]
      have hm : ∀ k b, maskedLogit fact l (x :: s) (k + 1) b =
          maskedLogit fact (fun b => if fact = false ∧ b = x then -10000 else l b) s k b := by
        intro k b
        unfold maskedLogit
        cases fact
        · simp only [List.take_succ_cons, List.mem_cons, true_and]
          by_cases h1 : b ∈ s.take k
          · simp [h1]
          · simp [h1]
        · simp
      congr 2
      · simp [maskedLogit]
      · refine List.map_congr_left fun k _ => ?_
        simp only [Function.comp, hm]

/-- The conditional distributions returned: at position `k` an action still available has its softmax weight and every
action placed earlier the weight `exp (-10000)`. For factorizable policies, and at the first position, this is exactly
the policy's distribution; otherwise it is a distribution with full support close to it. -/
theorem C115_action_dist_partial {A L : ℕ} (hA : 0 < A) (fact : Bool) (l : ℕ → ℝ) {s : List ℕ}
    (hs : s ∈ slates fact L (Finset.range A)) :
    ∃ rows : Fin L → Fin A → ℝ,
      slateActionDist fact ((List.range A).map l) s = .ok (List.ofFn fun k => List.ofFn (rows k)) ∧
      ∀ k : Fin L, IsDist (rows k) ∧ ∀ a : Fin A,
        let S := available fact (Finset.range A) s k
        rows k a = (if a.val ∈ S then Real.exp (l a) else Real.exp (-10000)) /
          (∑ b ∈ S, Real.exp (l b) + (if fact then 0 else (k : ℝ)) * Real.exp (-10000)) := by
  obtain ⟨hlen, hnd, hmem⟩ := mem_slates.1 hs
  have hmem' : ∀ a ∈ s, a < A := fun a ha => Finset.mem_range.1 (hmem a ha)
  have hZ : ∀ k, 0 < ∑ b ∈ Finset.range A, Real.exp (maskedLogit fact l s k b) := fun k =>
    Finset.sum_pos (fun b _ => Real.exp_pos _) (by simpa using hA.ne')
  refine ⟨fun k a => Real.exp (maskedLogit fact l s k a) / ∑ b ∈ Finset.range A, Real.exp (maskedLogit fact l s k b),
    ?_, fun k => ⟨⟨fun a => (div_pos (Real.exp_pos _) (hZ k)).le, ?_⟩, fun a => ?_⟩⟩
  · rw [slateActionDist_ok hA fact l s hmem', hlen, range_map_ofFn]
    congr 2
    funext k
    exact range_map_ofFn A _
  · rw [← Finset.sum_div, Fin.sum_univ_eq_sum_range (fun a => Real.exp (maskedLogit fact l s k a)) A, div_self (hZ k).ne']
  · intro S
    have hk : (k : ℕ) ≤ s.length := by omega
    have hml : ∀ b, b ∈ S ↔ b ∈ Finset.range A ∧ ¬ (fact = false ∧ b ∈ s.take k) := by
      intro b
      simp only [S, available]
      cases fact
      · simp
      · simp
    have hSsub : S ⊆ Finset.range A := fun b hb => ((hml b).1 hb).1
    have hden : ∑ b ∈ Finset.range A, Real.exp (maskedLogit fact l s k b) =
        ∑ b ∈ S, Real.exp (l b) + (if fact then 0 else (k : ℝ)) * Real.exp (-10000) := by
      rw [← Finset.sum_sdiff hSsub, add_comm]
      congr 1
      · refine Finset.sum_congr rfl fun b hb => ?_
        unfold maskedLogit
        rw [if_neg ((hml b).1 hb).2]
      · have h1 : ∀ b ∈ Finset.range A \ S, Real.exp (maskedLogit fact l s k b) = Real.exp (-10000) := fun b hb => by
          obtain ⟨hb1, hb2⟩ := Finset.mem_sdiff.1 hb
          unfold maskedLogit
          rw [if_pos (by
            by_contra h
            exact hb2 ((hml b).2 ⟨hb1, h⟩))]
        rw [Finset.sum_congr rfl h1, Finset.sum_const, nsmul_eq_mul]
        congr 1
        cases fact
        · have h2 : Finset.range A \ S = (s.take k).toFinset := by
            ext b
            simp only [Finset.mem_sdiff, hml, List.mem_toFinset, true_and, not_and, not_not]
            exact ⟨fun h => h.2 h.1, fun h => ⟨hmem b (List.mem_of_mem_take h), fun _ => h⟩⟩
          rw [h2, List.toFinset_card_of_nodup ((hnd rfl).sublist (List.take_sublist _ _)), List.length_take,
            min_eq_left hk]
          simp
        · have h2 : Finset.range A \ S = ∅ := by
            ext b
            simp [hml]
          simp [h2]
    dsimp only
    rw [hden]
    congr 1
    have hiff := hml a
    unfold maskedLogit
    by_cases h : a.val ∈ S
    · rw [if_pos h, if_neg (hiff.1 h).2]
    · rw [if_neg h, if_pos]
      by_contra h'
      exact h (hiff.2 ⟨Finset.mem_range.2 a.2, h'⟩)

/-- The distribution that the documentation promises, zero for actions placed earlier, is never returned for
non-factorizable policies beyond the first position. -/
theorem C115_masked_positive {A L : ℕ} (hA : 0 < A) (l : ℕ → ℝ) {s : List ℕ}
    (hs : s ∈ slates false L (Finset.range A)) {i k : ℕ} (hik : i < k) (hk : k < s.length) :
    ∃ rows, slateActionDist false ((List.range A).map l) s = .ok rows ∧
      ∃ row, rows[k]? = some row ∧ ∃ x, row[s[i]]? = some x ∧ 0 < x := by
  obtain ⟨hlen, hnd, hmem⟩ := mem_slates.1 hs
  have hmem' : ∀ a ∈ s, a < A := fun a ha => Finset.mem_range.1 (hmem a ha)
  refine ⟨_, slateActionDist_ok hA false l s hmem', _, by
    rw [List.getElem?_map, List.getElem?_range hk]
    rfl, _, by
    rw [List.getElem?_map, List.getElem?_range (hmem' _ (List.getElem_mem (hik.trans hk)))]
    rfl, div_pos (Real.exp_pos _) (Finset.sum_pos (fun b _ => Real.exp_pos _) (by simpa using hA.ne'))⟩

/-- With logits far below -10000 the action already placed is even the most likely one: two actions with logits -20000,
slate `(0, 1)`; at the second position action 0 has more than half of the probability. -/
theorem C115_masked_dominates :
    ∃ rows, slateActionDist false ((List.range 2).map fun _ => (-20000 : ℝ)) [0, 1] = .ok rows ∧
      ∃ row, rows[1]? = some row ∧ ∃ x, row[0]? = some x ∧ 1 / 2 < x := by
  refine ⟨_, slateActionDist_ok (by omega) false _ _ (by decide), _, rfl, _, rfl, ?_⟩
  have h : Real.exp (-20000) < Real.exp (-10000) := Real.exp_lt_exp.2 (by norm_num)
  have hp := Real.exp_pos (-20000)
  have hp' := Real.exp_pos (-10000)
  have e0 : maskedLogit false (fun _ => (-20000 : ℝ)) [0, 1] 1 0 = -10000 := by simp [maskedLogit]
  have e1 : maskedLogit false (fun _ => (-20000 : ℝ)) [0, 1] 1 1 = -20000 := by simp [maskedLogit]
  dsimp only
  rw [e0, Finset.sum_range_succ, Finset.sum_range_succ, Finset.sum_range_zero, e0, e1, lt_div_iff₀ (by linarith)]
  linarith

end Obp
