import Verif.Lemmas.SlateDraws
import Verif.Props.EndToEnd

set_option linter.unusedSectionVars false

/-! # From simulated slate data to the slate estimates

`SlateDraws`, `SlateRewardDraws` and `slateOpeArgs` are in `Spec/SlateDraws`, `slates` and `slateProb` in `Spec/SlateDataset`. -/

namespace Obp
open MeasureTheory ProbabilityTheory

variable {Ω : Type} [MeasurableSpace Ω] {P : Measure Ω} [IsProbabilityMeasure P] {n A L : ℕ}

theorem slateProb_pos {l : ℕ → ℝ} {fact : Bool} {s : List ℕ} (hs : s ∈ slates fact L (Finset.range A)) : 0 < slateProb l fact A s := by
  rw [slateProb_eq]
  exact seqProb_pos (fun a => Real.exp_pos _) hs

theorem sum_slateProb (hA : 0 < A) {fact : Bool} (hL : fact = false → L ≤ A) (l : ℕ → ℝ) :
    ∑ t ∈ slates fact L (Finset.range A), slateProb l fact A t = 1 := by
  simp only [slateProb_eq]
  exact sum_seqProb (fun a => Real.exp_pos _) (enough_range hA hL)

/-- The probability of a set of slates lies between zero and one, and is positive if it contains a slate. -/
theorem slateClass_bounds (hA : 0 < A) {fact : Bool} (hL : fact = false → L ≤ A) (l : ℕ → ℝ) (C : List ℕ → Prop) [DecidablePred C]
    {s : List ℕ} (hs : s ∈ slates fact L (Finset.range A)) (hC : C s) :
    0 < ∑ t ∈ slates fact L (Finset.range A) with C t, slateProb l fact A t ∧
      ∑ t ∈ slates fact L (Finset.range A) with C t, slateProb l fact A t ≤ 1 := by
  refine ⟨Finset.sum_pos (fun t ht => slateProb_pos (Finset.mem_filter.1 ht).1) ⟨s, Finset.mem_filter.2 ⟨hs, hC⟩⟩, ?_⟩
  rw [← sum_slateProb hA hL l]
  exact Finset.sum_le_sum_of_subset_of_nonneg (Finset.filter_subset _ _) fun t ht _ => (slateProb_pos ht).le

open Classical in
/-- The probability that the sampled slate belongs to a class of slates. -/
theorem slateClass_prob {U : Fin n → Fin L → Ω → ℝ} (hU : SlateDraws P U) (i : Fin n) (hA : 0 < A) {fact : Bool}
    (hL : fact = false → L ≤ A) (clip : Option ℝ) (l : ℕ → ℝ) {uniform : Bool} (huni : uniform = true → ∃ c, l = fun _ => c)
    (C : List ℕ → Prop) :
    P.real {ω | ∃ t r, slateSampleRound A L uniform fact clip ((List.range A).map l) (List.ofFn fun k => U i k ω) = .ok (t, r) ∧ C t} =
      ∑ t ∈ slates fact L (Finset.range A) with C t, slateProb l fact A t := by
  have h := fun ω => slate_sampled hA hL clip l huni (fun k => U i k ω) fun k => (hU.uniform i).range k ω
  choose slate hmem r hok hps hpick using h
  have hset : {ω | ∃ t r, slateSampleRound A L uniform fact clip ((List.range A).map l) (List.ofFn fun k => U i k ω) = .ok (t, r) ∧ C t} =
      ⋃ t ∈ (slates fact L (Finset.range A)).filter C, {ω | SlatePicks l fact A t fun k => U i k ω} := by
    ext ω
    simp only [Set.mem_ofPred_eq, Set.mem_iUnion, Finset.mem_filter, exists_prop]
    constructor
    · rintro ⟨t, r', ht, hC⟩
      rw [hok] at ht
      have : slate ω = t := congrArg Prod.fst (Except.ok.inj ht)
      subst this
      exact ⟨_, ⟨hmem ω, hC⟩, (hpick ω _ (hmem ω)).1 rfl⟩
    · rintro ⟨t, ⟨ht, hC⟩, hp⟩
      have := (hpick ω t ht).2 hp
      subst this
      exact ⟨_, _, hok ω, hC⟩
  rw [hset, measureReal_biUnion_finset]
  · refine Finset.sum_congr rfl fun t ht => ?_
    exact slatePicks_prob hU i l (Finset.mem_filter.1 ht).1
  · intro t ht t' ht' hne
    refine Set.disjoint_left.2 fun ω h1 h2 => hne ?_
    rw [(hpick ω t (Finset.mem_filter.1 ht).1).2 h1, (hpick ω t' (Finset.mem_filter.1 ht').1).2 h2]
  · intro t _
    exact (measurable_pi_lambda _ fun k => (hU.uniform i).meas k) (slatePicks_meas l fact t)

/-- **C156, propensities.** The propensities the dataset reports are probabilities of its own sampling: the joint propensity of a
slate is the probability that the dataset samples the slate, the cascade propensity at a position is the probability that it samples
a slate with the same actions up to the position, and the item-position propensity (unless the clip value cuts off a logit) the
probability that it samples a slate with the same action at the position. -/
theorem C156_propensities {U : Fin n → Fin L → Ω → ℝ} (hU : SlateDraws P U) (i : Fin n) (hA : 0 < A) {fact : Bool}
    (hL : fact = false → L ≤ A) (clip : Option ℝ) (l : ℕ → ℝ) {uniform : Bool} (huni : uniform = true → ∃ c, l = fun _ => c)
    {s : List ℕ} (hs : s ∈ slates fact L (Finset.range A)) :
    ∃ r, slatePscores A L fact clip ((List.range A).map l) s = .ok r ∧
      r.joint = P.real {ω | ∃ t r, slateSampleRound A L uniform fact clip ((List.range A).map l) (List.ofFn fun k => U i k ω) = .ok (t, r) ∧
        t = s} ∧
      r.cascade = List.ofFn (fun k : Fin L => P.real {ω | ∃ t r, slateSampleRound A L uniform fact clip ((List.range A).map l)
        (List.ofFn fun k => U i k ω) = .ok (t, r) ∧ t.take (k + 1) = s.take (k + 1)}) ∧
      ((∀ c, clip = some c → ∀ a < A, l a ≤ c) →
        r.item = List.ofFn (fun k : Fin L => P.real {ω | ∃ t r, slateSampleRound A L uniform fact clip ((List.range A).map l)
          (List.ofFn fun k => U i k ω) = .ok (t, r) ∧ t[(k : ℕ)]? = s[(k : ℕ)]?})) := by
  classical
  have hlen := (mem_slates.1 hs).1
  refine ⟨_, slatePscores_ok hA hL hs, ?_, ?_, fun hclip => ?_⟩
  · rw [slateClass_prob hU i hA hL clip l huni fun t => t = s]
    rw [Finset.sum_filter, Finset.sum_eq_single_of_mem s hs]
    · rw [if_pos rfl]
    · exact fun t _ ht => if_neg ht
  · refine List.ext_getElem (by simp) fun k h1 h2 => ?_
    have hk : k < L := by simpa using h2
    simp only [List.getElem_map, List.getElem_range, List.getElem_ofFn]
    rw [slateClass_prob hU i hA hL clip l huni fun t => t.take (k + 1) = s.take (k + 1)]
    unfold slatePrefix
    congr!
  · refine List.ext_getElem (by simp [hlen]) fun k h1 h2 => ?_
    have hk : k < s.length := by simpa using h1
    simp only [List.getElem_mapIdx, List.getElem_ofFn]
    rw [slateClass_prob hU i hA hL clip l huni fun t => t[k]? = s[k]?]
    show itemOf fact clip l A L k s[k] = _
    rw [itemOf_eq_marginal hclip]
    unfold slateMarginal
    rw [List.getElem?_eq_getElem hk]
    congr!

/-- Reweighting over a finite set of slates. -/
theorem slate_reweight (T : Finset (List ℕ)) (Rel : List ℕ → List ℕ → Prop) [DecidableRel Rel] (hRel : Equivalence Rel)
    (pB pE f : List ℕ → ℝ) (hB : ∀ s ∈ T, 0 < pB s) (hf : ∀ s ∈ T, ∀ t ∈ T, Rel s t → f s = f t) :
    ∑ s ∈ T, pB s * ((∑ t ∈ T with Rel t s, pE t) / (∑ t ∈ T with Rel t s, pB t) * f s) = ∑ s ∈ T, pE s * f s := by
  have hcls : ∀ (p : List ℕ → ℝ) (s : List ℕ), ∑ t ∈ T with Rel t s, p t = ∑ t : T, if Rel t s then p t else 0 := fun p s => by
    rw [Finset.sum_filter, ← Finset.sum_coe_sort]
  have := reweight (Ω := T) (fun a b => Rel a b) ⟨fun a => hRel.refl a, fun h => hRel.symm h, fun h h' => hRel.trans h h'⟩
    (fun a => pB a) (fun a => pE a) (fun a => f a) (fun a b h => hf a a.2 b b.2 h) (fun c _ => ?_)
  · rw [← Finset.sum_coe_sort T, ← Finset.sum_coe_sort T]
    simp only [hcls]
    exact this
  · rw [← hcls]
    have hc : (c : List ℕ) ∈ T.filter fun t => Rel t c := Finset.mem_filter.2 ⟨c.2, hRel.refl _⟩
    exact (Finset.sum_pos (fun t ht => hB t (Finset.mem_filter.1 ht).1) ⟨_, hc⟩).ne'

/-- **C156, estimates.** For all behaviour and evaluation logits, clip values and reward means: the slates sampled by the dataset and
their logged propensities, with the evaluation propensities that the dataset computes for them, are accepted by the slate estimators,
and
* SIPS is unbiased for the expected total reward of a slate of the evaluation policy,
* RIPS is, if the mean reward at a position depends only on the actions up to the position,
* IIPS is, if it depends only on the action at the position and the clip value cuts off no logit. -/
theorem C156_estimates (hn : 0 < n) (hL0 : 0 < L) (hA : 0 < A) {fact : Bool} (hL : fact = false → L ≤ A) (clip : Option ℝ)
    (hc : ∀ c, clip = some c → c ≤ 700) (lB lE : Fin n → ℕ → ℝ) {uniform : Bool} (huni : uniform = true → ∃ c, lB = fun _ _ => c)
    {U : Fin n → Fin L → Ω → ℝ} (hU : SlateDraws P U) {m : Fin n → List ℕ → Fin L → ℝ} {R : Fin n → List ℕ → Fin L → Ω → ℝ}
    (hR : SlateRewardDraws P U m R) :
    ∃ (s : Ω → Fin n → List ℕ) (r : Ω → Fin n → SlatePscores) (joint item cascade : Ω → List ℝ) (V : ℝ),
      (∀ ω i, slateSampleRound A L uniform fact clip ((List.range A).map (lB i)) (List.ofFn fun k => U i k ω) = .ok (s ω i, r ω i)) ∧
      (∀ ω, obtainSlatePscores A L fact (clip.map .flt) (List.ofFn (s ω)).flatten (List.ofFn fun i => (List.range A).map (lE i)) =
        .ok (joint ω, item ω, cascade ω)) ∧
      V = (∑ i, ∑ t ∈ slates fact L (Finset.range A), slateProb (lE i) fact A t * ∑ l, m i t l) / n ∧
      (∃ v : Ω → ℝ, (∀ ω, SlateKind.sips.estimatePolicyValue L (slateOpeArgs (fun i l => R i (s ω i) l ω)
          (List.ofFn fun i => List.replicate L (r ω i).joint).flatten (joint ω)) = .ok (v ω)) ∧
        Integrable v P ∧ ∫ ω, v ω ∂P = V) ∧
      ((∀ i (l : Fin L), ∀ t ∈ slates fact L (Finset.range A), ∀ t' ∈ slates fact L (Finset.range A),
          t.take (l + 1) = t'.take (l + 1) → m i t l = m i t' l) →
        ∃ v : Ω → ℝ, (∀ ω, SlateKind.rips.estimatePolicyValue L (slateOpeArgs (fun i l => R i (s ω i) l ω)
          (List.ofFn fun i => (r ω i).cascade).flatten (cascade ω)) = .ok (v ω)) ∧
        Integrable v P ∧ ∫ ω, v ω ∂P = V) ∧
      ((∀ i (l : Fin L), ∀ t ∈ slates fact L (Finset.range A), ∀ t' ∈ slates fact L (Finset.range A),
          t[(l : ℕ)]? = t'[(l : ℕ)]? → m i t l = m i t' l) →
        (∀ c, clip = some c → ∀ i, ∀ a < A, lB i a ≤ c ∧ lE i a ≤ c) →
        ∃ v : Ω → ℝ, (∀ ω, SlateKind.iips.estimatePolicyValue L (slateOpeArgs (fun i l => R i (s ω i) l ω)
          (List.ofFn fun i => (r ω i).item).flatten (item ω)) = .ok (v ω)) ∧
        Integrable v P ∧ ∫ ω, v ω ∂P = V) := by
  have h := fun ω i => slate_sampled hA hL clip (lB i) (uniform := uniform) (fun h => (huni h).imp fun c hc => by rw [hc])
    (fun k => U i k ω) fun k => (hU.uniform i).range k ω
  choose s hmem r hok hps hpick using h
  have hr : ∀ ω i, r ω i = ⟨slateProb (lB i) fact A (s ω i), (s ω i).mapIdx (itemOf fact clip (lB i) A L),
      (List.range L).map (slatePrefix (lB i) fact A L (s ω i))⟩ := fun ω i => by
    have := hps ω i
    rw [slatePscores_ok hA hL (hmem ω i)] at this
    exact (Except.ok.inj this).symm
  have hE := fun ω => C85_rounds hA fact hL clip hc lE (s ω) (hmem ω)
  choose e he hobt using hE
  have hre : ∀ ω i, e ω i = ⟨slateProb (lE i) fact A (s ω i), (s ω i).mapIdx (itemOf fact clip (lE i) A L),
      (List.range L).map (slatePrefix (lE i) fact A L (s ω i))⟩ := fun ω i => by
    have := he ω i
    rw [slatePscores_ok hA hL (hmem ω i)] at this
    exact (Except.ok.inj this).symm
  have hlen : ∀ ω i, (s ω i).length = L := fun ω i => (mem_slates.1 (hmem ω i)).1
  have hrange : ∀ {r pb pe : Fin n → Fin L → ℝ}, (∀ i l, 0 < pb i l ∧ pb i l ≤ 1) → (∀ i l, 0 < pe i l ∧ pe i l ≤ 1) →
      (gridLog r pb pe).InRange := fun h1 h2 j =>
    ⟨(h1 _ _).1, (h1 _ _).2, (h2 _ _).1.le, (h2 _ _).2⟩
  have huniq : ∀ r pb pe : Fin n → Fin L → ℝ, (gridLog r pb pe).UniquePositions := fun _ _ _ _ _ h1 h2 =>
    grid_eq (Fin.ext h1) (Fin.ext h2)
  have hbounds : ∀ (l : Fin n → ℕ → ℝ) ω i (C : List ℕ → List ℕ → Prop) [DecidableRel C], C (s ω i) (s ω i) →
      0 < ∑ t ∈ slates fact L (Finset.range A) with C t (s ω i), slateProb (l i) fact A t ∧
      ∑ t ∈ slates fact L (Finset.range A) with C t (s ω i), slateProb (l i) fact A t ≤ 1 := fun l ω i C _ hC =>
    slateClass_bounds hA hL (l i) (fun t => C t (s ω i)) (hmem ω i) hC
  have hle : ∀ (l : Fin n → ℕ → ℝ) ω i, 0 < slateProb (l i) fact A (s ω i) ∧ slateProb (l i) fact A (s ω i) ≤ 1 := fun l ω i => by
    have := hbounds l ω i (fun t t' => t = t') rfl
    simpa [Finset.filter_eq', hmem ω i] using this
  refine ⟨s, r, _, _, _, _, hok, hobt, rfl, ?_, fun hcas => ?_, fun hind hclip => ?_⟩
  · obtain ⟨v, h1, h2, h3⟩ := slate_pipeline (k := .sips) (.inl rfl) hL0 lB lE hU hR hmem hpick
      (pb := fun i t _ => slateProb (lB i) fact A t) (pe := fun i t _ => slateProb (lE i) fact A t)
      (fun ω => ⟨Nat.mul_pos hn hL0, hrange (fun i l => hle lB ω i) (fun i l => hle lE ω i), huniq _ _ _, fun j k h => by
        simp only [gridLog, show j.divNat = k.divNat from Fin.ext h], fun j k h => by
        simp only [gridLog, show j.divNat = k.divNat from Fin.ext h]⟩) (fun i l => Finset.sum_congr rfl fun t ht => by
        have := (slateProb_pos (l := lB i) ht).ne'
        field_simp)
    refine ⟨v, fun ω => ?_, h2, h3⟩
    rw [← h1 ω]
    simp only [hr, hre, List.ofFn_const]
  · obtain ⟨v, h1, h2, h3⟩ := slate_pipeline (k := .rips) (.inr (.inr rfl)) hL0 lB lE hU hR hmem hpick
      (pb := fun i t l => slatePrefix (lB i) fact A L t l) (pe := fun i t l => slatePrefix (lE i) fact A L t l)
      (fun ω => by
        have hmono : ∀ (l : Fin n → ℕ → ℝ) (i : Fin n) (j k : ℕ), j < k →
            slatePrefix (l i) fact A L (s ω i) k ≤ slatePrefix (l i) fact A L (s ω i) j := fun l i j k hjk => by
          refine Finset.sum_le_sum_of_subset_of_nonneg (fun t ht => ?_) fun t ht _ => (slateProb_pos (Finset.mem_filter.1 ht).1).le
          obtain ⟨h1, h2⟩ := Finset.mem_filter.1 ht
          refine Finset.mem_filter.2 ⟨h1, ?_⟩
          have := congrArg (List.take (j + 1)) h2
          rwa [List.take_take, List.take_take, min_eq_left (by omega)] at this
        refine ⟨Nat.mul_pos hn hL0, hrange
          (fun i l => hbounds lB ω i (fun t t' => t.take (l + 1) = t'.take (l + 1)) rfl)
          (fun i l => hbounds lE ω i (fun t t' => t.take (l + 1) = t'.take (l + 1)) rfl), huniq _ _ _, fun j k h h' => ?_, fun j k h h' => ?_⟩
        · simp only [gridLog, show j.divNat = k.divNat from Fin.ext h]
          exact hmono lB _ _ _ h'
        · simp only [gridLog, show j.divNat = k.divNat from Fin.ext h]
          exact hmono lE _ _ _ h')
      (fun i l => slate_reweight (slates fact L (Finset.range A)) (fun t t' => t.take (l + 1) = t'.take (l + 1))
        ⟨fun _ => rfl, fun h => h.symm, fun h h' => h.trans h'⟩ (slateProb (lB i) fact A) (slateProb (lE i) fact A) (fun t => m i t l)
        (fun t ht => slateProb_pos ht) (fun t ht t' ht' h => hcas i l t ht t' ht' h))
    refine ⟨v, fun ω => ?_, h2, h3⟩
    rw [← h1 ω]
    have : ∀ f : ℕ → ℝ, (List.range L).map f = List.ofFn fun l : Fin L => f l := fun f => by
      refine List.ext_getElem (by simp) fun k h1 h2 => by simp
    simp only [hr, hre, this]
  · have hm : ∀ (l : Fin n → ℕ → ℝ), (∀ c, clip = some c → ∀ i, ∀ a < A, l i a ≤ c) → ∀ ω i,
        (s ω i).mapIdx (itemOf fact clip (l i) A L) = List.ofFn fun k : Fin L =>
          ∑ t ∈ slates fact L (Finset.range A) with t[(k : ℕ)]? = (s ω i)[(k : ℕ)]?, slateProb (l i) fact A t := fun l hl ω i => by
      rw [itemOf_eq_marginal fun c hc a ha => hl c hc i a ha]
      refine List.ext_getElem (by simp [hlen ω i]) fun k h1 h2 => ?_
      have hk : k < (s ω i).length := by simpa using h1
      simp only [List.getElem_mapIdx, List.getElem_ofFn, List.getElem?_eq_getElem hk]
      rfl
    obtain ⟨v, h1, h2, h3⟩ := slate_pipeline (k := .iips) (.inr (.inl rfl)) hL0 lB lE hU hR hmem hpick
      (pb := fun i t k => ∑ t' ∈ slates fact L (Finset.range A) with t'[(k : ℕ)]? = t[(k : ℕ)]?, slateProb (lB i) fact A t')
      (pe := fun i t k => ∑ t' ∈ slates fact L (Finset.range A) with t'[(k : ℕ)]? = t[(k : ℕ)]?, slateProb (lE i) fact A t')
      (fun ω => ⟨Nat.mul_pos hn hL0, hrange (fun i l => hbounds lB ω i (fun t t' => t[(l : ℕ)]? = t'[(l : ℕ)]?) rfl)
        (fun i l => hbounds lE ω i (fun t t' => t[(l : ℕ)]? = t'[(l : ℕ)]?) rfl), huniq _ _ _, trivial⟩)
      (fun i l => slate_reweight (slates fact L (Finset.range A)) (fun t t' => t[(l : ℕ)]? = t'[(l : ℕ)]?)
        ⟨fun _ => rfl, fun h => h.symm, fun h h' => h.trans h'⟩ (slateProb (lB i) fact A) (slateProb (lE i) fact A) (fun t => m i t l)
        (fun t ht => slateProb_pos ht) (fun t ht t' ht' h => hind i l t ht t' ht' h))
    refine ⟨v, fun ω => ?_, h2, h3⟩
    rw [← h1 ω]
    simp only [hr, hre, hm lB fun c hc i a ha => (hclip c hc i a ha).1, hm lE fun c hc i a ha => (hclip c hc i a ha).2]

/-! ### such draws exist -/

/-- Two independent uniform numbers, one for every position. -/
noncomputable def exSlateDraws : Measure (Fin 2 → ℝ) := Measure.pi fun _ => volume.restrict (Set.Ico (0 : ℝ) 1)

instance exSlateDraws_prob : IsProbabilityMeasure exSlateDraws := by unfold exSlateDraws; infer_instance

theorem exSlateDraws_draws : SlateDraws exSlateDraws (fun (_ : Fin n) (k : Fin 2) ω => Int.fract (ω k)) := by
  refine ⟨fun _ => ⟨fun k => measurable_fract.comp (measurable_pi_apply k), fun k ω => ⟨Int.fract_nonneg _, Int.fract_lt_one _⟩,
    fun k t h0 h1 => ?_⟩, fun _ => ?_⟩
  · have hm : MeasurableSet {x : ℝ | Int.fract x < t} := measurableSet_lt measurable_fract measurable_const
    have := (measurePreserving_eval (fun _ : Fin 2 => volume.restrict (Set.Ico (0 : ℝ) 1)) k).measureReal_preimage hm.nullMeasurableSet
    rw [exUnif_cdf t h0 h1] at this
    exact this
  · exact iIndepFun_pi (μ := fun _ : Fin 2 => volume.restrict (Set.Ico (0 : ℝ) 1)) (X := fun _ x => Int.fract x)
      fun k => measurable_fract.aemeasurable

/-- The theorem applied: slates of two out of two actions, a uniform behaviour policy, an evaluation policy that puts the first action
on top twice as often, a reward of one for the first action on top and of one half below. -/
example : ∃ v : (Fin 2 → ℝ) → ℝ, Integrable v exSlateDraws ∧ ∫ ω, v ω ∂exSlateDraws = 5 / 6 := by
  let m : Fin 1 → List ℕ → Fin 2 → ℝ := fun _ t l => if t[(l : ℕ)]? = some 0 then (if l = 0 then 1 else 1 / 2) else 0
  obtain ⟨s, r, joint, item, cascade, V, -, -, hV, -, -, hI⟩ := C156_estimates (n := 1) (L := 2) (A := 2) (fact := false) one_pos
    two_pos two_pos (fun _ => le_rfl) none (by simp) (fun _ _ => 0) (fun _ a => if a = 0 then Real.log 2 else 0) (uniform := true)
    (fun _ => ⟨0, rfl⟩) exSlateDraws_draws (m := m) (R := fun i t l _ => m i t l)
    ⟨fun _ _ _ => integrable_const _, fun _ _ _ => by simp, fun _ _ _ => indepFun_const_right _ _⟩
  obtain ⟨v, -, h1, h2⟩ := hI (fun i l t _ t' _ h => by simp only [m, h]) (by simp)
  refine ⟨v, h1, ?_⟩
  rw [h2, hV, show slates false 2 (Finset.range 2) = {[0, 1], [1, 0]} by decide]
  have e1 : available false (Finset.range 2) [0, 1] 0 = {0, 1} := by decide
  have e2 : available false (Finset.range 2) [0, 1] 1 = {1} := by decide
  have e3 : available false (Finset.range 2) [1, 0] 0 = {0, 1} := by decide
  have e4 : available false (Finset.range 2) [1, 0] 1 = {0} := by decide
  have h01 : slateProb (fun a => if a = 0 then Real.log 2 else 0) false 2 [0, 1] = 2 / 3 := by
    unfold slateProb
    rw [show (∏ k : Fin [0, 1].length, _) = ∏ k : Fin 2, _ from rfl, Fin.prod_univ_two]
    simp [e1, e2, Real.exp_log]
    norm_num
  have h10 : slateProb (fun a => if a = 0 then Real.log 2 else 0) false 2 [1, 0] = 1 / 3 := by
    unfold slateProb
    rw [show (∏ k : Fin [1, 0].length, _) = ∏ k : Fin 2, _ from rfl, Fin.prod_univ_two]
    simp [e3, e4, Real.exp_log]
    norm_num
  rw [Fin.sum_univ_one, Finset.sum_pair (by decide), h01, h10]
  simp only [m, Fin.sum_univ_two]
  norm_num

end Obp
