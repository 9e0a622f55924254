import Mathlib.MeasureTheory.Constructions.Pi
import Mathlib.Probability.Independence.Basic
import Mathlib.MeasureTheory.Integral.Bochner.Set

set_option linter.unusedSectionVars false

/-!
# The rank of one among independent, equally distributed values

Every rank is equally likely.
-/

namespace Obp
open MeasureTheory ProbabilityTheory

variable {ι : Type} [Fintype ι] [DecidableEq ι]

/-- More than `k` of the other entries are at most entry `i`, and more than `k` are at least entry `i`. -/
def midRank (k : ℕ) (i : ι) : Set (ι → ℝ) :=
  {w | k < (Finset.univ.filter fun j => j ≠ i ∧ w j ≤ w i).card ∧ k < (Finset.univ.filter fun j => j ≠ i ∧ w i ≤ w j).card}

/-- Number of entries below entry `i`. -/
noncomputable def rankBelow (w : ι → ℝ) (i : ι) : ℕ := (Finset.univ.filter fun j => w j < w i).card

theorem rankBelow_lt {w : ι → ℝ} {i j : ι} (h : w i < w j) : rankBelow w i < rankBelow w j := by
  refine Finset.card_lt_card ⟨fun l hl => ?_, fun hsub => ?_⟩
  · simp only [Finset.mem_filter, Finset.mem_univ, true_and] at hl ⊢
    exact hl.trans h
  · have := hsub (by simpa using h : i ∈ Finset.univ.filter fun l => w l < w j)
    simp at this

theorem rankBelow_injective {w : ι → ℝ} (hw : Function.Injective w) : Function.Injective (rankBelow w) := by
  intro i j h
  by_contra hne
  rcases lt_or_gt_of_ne (hw.ne hne) with h1 | h1
  · exact (rankBelow_lt h1).ne h
  · exact (rankBelow_lt h1).ne h.symm

theorem rankBelow_lt_card (w : ι → ℝ) (i : ι) : rankBelow w i < Fintype.card ι := by
  refine (Finset.card_lt_univ_of_notMem (x := i) ?_)
  simp

theorem mem_midRank {w : ι → ℝ} (hw : Function.Injective w) (k : ℕ) (i : ι) :
    w ∈ midRank k i ↔ k < rankBelow w i ∧ k + 1 + rankBelow w i < Fintype.card ι := by
  have h1 : (Finset.univ.filter fun j => j ≠ i ∧ w j ≤ w i) = Finset.univ.filter fun j => w j < w i := by
    refine Finset.filter_congr fun j _ => ?_
    constructor
    · rintro ⟨a, b⟩
      exact lt_of_le_of_ne b (hw.ne a)
    · intro a
      exact ⟨fun e => by subst e; exact lt_irrefl _ a, a.le⟩
  have h2 : (Finset.univ.filter fun j => j ≠ i ∧ w i ≤ w j) = Finset.univ.filter fun j => w i < w j := by
    refine Finset.filter_congr fun j _ => ?_
    constructor
    · rintro ⟨a, b⟩
      exact lt_of_le_of_ne b (hw.ne a.symm)
    · intro a
      exact ⟨fun e => by subst e; exact lt_irrefl _ a, a.le⟩
  have h3 : rankBelow w i + ((Finset.univ.filter fun j => w i < w j).card + 1) = Fintype.card ι := by
    have hsplit : (Finset.univ : Finset ι) = (Finset.univ.filter fun j => w j < w i) ∪
        insert i (Finset.univ.filter fun j => w i < w j) := by
      ext j
      simp only [Finset.mem_univ, Finset.mem_union, Finset.mem_filter, true_and, Finset.mem_insert, true_iff]
      rcases lt_trichotomy (w j) (w i) with h | h | h
      · exact Or.inl h
      · exact Or.inr (Or.inl (hw h))
      · exact Or.inr (Or.inr h)
    rw [← Finset.card_univ]
    conv_rhs => rw [hsplit]
    rw [Finset.card_union_of_disjoint, Finset.card_insert_of_notMem (by simp)]
    · rfl
    · rw [Finset.disjoint_left]
      intro j hj
      simp only [Finset.mem_filter, Finset.mem_univ, true_and, Finset.mem_insert, not_or, not_lt] at hj ⊢
      exact ⟨fun e => by subst e; exact lt_irrefl _ hj, hj.le⟩
  simp only [midRank, Set.mem_ofPred_eq, h1, h2]
  change k < rankBelow w i ∧ _ ↔ _
  refine and_congr_right fun _ => ?_
  omega

theorem card_midRank {w : ι → ℝ} (hw : Function.Injective w) (k : ℕ) [∀ i, Decidable (w ∈ midRank k i)] :
    (Finset.univ.filter fun i => w ∈ midRank k i).card = Fintype.card ι - 2 - 2 * k := by
  have hbij : (Finset.univ.filter fun i => w ∈ midRank k i).image (rankBelow w) = Finset.Ioo k (Fintype.card ι - 1 - k) := by
    ext r
    simp only [Finset.mem_image, Finset.mem_filter, Finset.mem_univ, true_and, Finset.mem_Ioo, mem_midRank hw]
    constructor
    · rintro ⟨i, ⟨h1, h2⟩, rfl⟩
      omega
    · rintro ⟨h1, h2⟩
      have himg : Finset.univ.image (rankBelow w) = Finset.range (Fintype.card ι) := by
        refine Finset.eq_of_subset_of_card_le (fun r hr => ?_) ?_
        · obtain ⟨i, -, rfl⟩ := Finset.mem_image.1 hr
          exact Finset.mem_range.2 (rankBelow_lt_card w i)
        · rw [Finset.card_image_of_injective _ (rankBelow_injective hw)]
          simp
      have : r ∈ Finset.univ.image (rankBelow w) := by
        rw [himg, Finset.mem_range]
        omega
      obtain ⟨i, -, rfl⟩ := Finset.mem_image.1 this
      exact ⟨i, ⟨h1, by omega⟩, rfl⟩
  rw [← Finset.card_image_of_injective _ (rankBelow_injective hw), hbij, Nat.card_Ioo]
  omega

theorem isClosed_midRank (k : ℕ) (i : ι) : IsClosed (midRank k i) := by
  have key : ∀ f : (ι → ℝ) → ι → ℝ, Continuous f →
      IsClosed {w : ι → ℝ | k < (Finset.univ.filter fun j => j ≠ i ∧ 0 ≤ f w j).card} := by
    intro f hf
    have : {w : ι → ℝ | k < (Finset.univ.filter fun j => j ≠ i ∧ 0 ≤ f w j).card} =
        ⋃ s ∈ (Finset.univ.filter fun s : Finset ι => k < s.card ∧ i ∉ s), ⋂ j ∈ s, {w | 0 ≤ f w j} := by
      ext w
      simp only [Set.mem_ofPred_eq, Finset.mem_filter, Finset.mem_univ, true_and, Set.mem_iUnion, Set.mem_iInter,
        exists_prop]
      constructor
      · intro h
        exact ⟨_, ⟨h, by simp⟩, fun j hj => (Finset.mem_filter.1 hj).2.2⟩
      · rintro ⟨s, ⟨h1, h2⟩, h3⟩
        refine h1.trans_le (Finset.card_le_card fun j hj => ?_)
        exact Finset.mem_filter.2 ⟨Finset.mem_univ _, fun e => h2 (e ▸ hj), h3 j hj⟩
    rw [this]
    refine isClosed_biUnion_finset fun s _ => isClosed_biInter fun j _ => ?_
    exact isClosed_le continuous_const ((continuous_apply j).comp hf)
  have e : midRank k i = {w | k < (Finset.univ.filter fun j => j ≠ i ∧ 0 ≤ (fun (w : ι → ℝ) j => w i - w j) w j).card} ∩
      {w | k < (Finset.univ.filter fun j => j ≠ i ∧ 0 ≤ (fun (w : ι → ℝ) j => w j - w i) w j).card} := by
    ext w
    simp only [midRank, Set.mem_ofPred_eq, Set.mem_inter_iff, sub_nonneg]
  rw [e]
  exact (key _ (by fun_prop)).inter (key _ (by fun_prop))

/-- Where no other entry equals entry `i`, the set is also a neighbourhood of its points. -/
theorem midRank_frontier (k : ℕ) (i : ι) : frontier (midRank k i) ⊆ {w | ∃ j, j ≠ i ∧ w j = w i} := by
  intro w hw
  by_contra hno
  simp only [Set.mem_ofPred_eq, not_exists, not_and] at hno
  rw [(isClosed_midRank k i).frontier_eq] at hw
  refine hw.2 ?_
  rw [mem_interior_iff_mem_nhds]
  have hnear : ∀ j, j ≠ i → ∀ᶠ w' in nhds w, (w' j ≤ w' i ↔ w j ≤ w i) ∧ (w' i ≤ w' j ↔ w i ≤ w j) := by
    intro j hj
    rcases lt_or_gt_of_ne (hno j hj) with h | h
    · filter_upwards [(isOpen_lt (continuous_apply (A := fun _ : ι => ℝ) j) (continuous_apply i)).mem_nhds (Set.mem_ofPred_eq.mpr h)] with w' hw'
      have hw' : w' j < w' i := hw'
      simp [hw'.le, h.le, hw'.not_ge, h.not_ge]
    · filter_upwards [(isOpen_lt (continuous_apply (A := fun _ : ι => ℝ) i) (continuous_apply j)).mem_nhds (Set.mem_ofPred_eq.mpr h)] with w' hw'
      have hw' : w' i < w' j := hw'
      have h : w i < w j := h
      simp [hw'.le, h.le, hw'.not_ge, h.not_ge]
  have hall : ∀ᶠ w' in nhds w, ∀ j, j ≠ i → (w' j ≤ w' i ↔ w j ≤ w i) ∧ (w' i ≤ w' j ↔ w i ≤ w j) := by
    rw [Filter.eventually_all]
    intro j
    by_cases h : j = i
    · exact Filter.Eventually.of_forall fun _ hj => absurd h hj
    · filter_upwards [hnear j h] with w' hw' _ using hw'
  filter_upwards [hall] with w' hw'
  have h1 := hw.1
  simp only [midRank, Set.mem_ofPred_eq] at h1 ⊢
  rw [Finset.filter_congr (q := fun j => j ≠ i ∧ w j ≤ w i) fun j _ => and_congr_right fun hj => (hw' j hj).1,
    Finset.filter_congr (q := fun j => j ≠ i ∧ w i ≤ w j) fun j _ => and_congr_right fun hj => (hw' j hj).2]
  exact h1

variable (μ : Measure ℝ) [IsProbabilityMeasure μ] [NullSingletonClass μ]

/-- Independent draws from a law without atoms differ. -/
theorem pi_ne {i j : ι} (h : j ≠ i) : Measure.pi (fun _ : ι => μ) {w | w j = w i} = 0 := by
  have hind := (iIndepFun_pi (μ := fun _ : ι => μ) (X := fun _ => id) fun _ => aemeasurable_id).indepFun h
  have hmap := (indepFun_iff_map_prod_eq_prod_map_map (measurable_pi_apply j).aemeasurable (measurable_pi_apply i).aemeasurable).1 hind
  have hm : ∀ l : ι, (Measure.pi fun _ : ι => μ).map (fun w => w l) = μ := fun l =>
    (measurePreserving_eval (fun _ : ι => μ) l).map_eq
  rw [hm, hm] at hmap
  have hset : MeasurableSet {x : ℝ × ℝ | x.1 = x.2} := measurableSet_eq_fun measurable_fst measurable_snd
  have : Measure.pi (fun _ : ι => μ) {w | w j = w i} = (μ.prod μ) {x : ℝ × ℝ | x.1 = x.2} := by
    rw [← hmap, Measure.map_apply (by fun_prop) hset]
    rfl
  rw [this, Measure.measure_prod_null hset]
  refine Filter.Eventually.of_forall fun x => ?_
  have : Prod.mk x ⁻¹' {x : ℝ × ℝ | x.1 = x.2} = {x} := by
    ext y
    simp [eq_comm]
  simp [this]

theorem pi_injective : ∀ᵐ w ∂Measure.pi (fun _ : ι => μ), Function.Injective w := by
  have : ∀ i j : ι, ∀ᵐ w ∂Measure.pi (fun _ : ι => μ), w i = w j → i = j := by
    intro i j
    by_cases h : i = j
    · exact Filter.Eventually.of_forall fun _ _ => h
    · rw [ae_iff]
      refine measure_mono_null (fun w hw => ?_) (pi_ne μ (i := j) (j := i) h)
      simp only [Set.mem_ofPred_eq, h, imp_false, not_not] at hw
      exact hw
  have h2 : ∀ᵐ w ∂Measure.pi (fun _ : ι => μ), ∀ i j : ι, w i = w j → i = j :=
    ae_all_iff.2 fun i => ae_all_iff.2 fun j => this i j
  filter_upwards [h2] with w hw i j h using hw i j h

theorem midRank_frontier_null (k : ℕ) (i : ι) : Measure.pi (fun _ : ι => μ) (frontier (midRank k i)) = 0 := by
  refine measure_mono_null (midRank_frontier k i) ?_
  have : {w : ι → ℝ | ∃ j, j ≠ i ∧ w j = w i} = ⋃ j ∈ {j | j ≠ i}, {w | w j = w i} := by
    ext w
    simp
  rw [this, measure_biUnion_null_iff (Set.to_countable _)]
  exact fun j hj => pi_ne μ hj

theorem pi_midRank_swap (k : ℕ) (i j : ι) :
    Measure.pi (fun _ : ι => μ) (midRank k i) = Measure.pi (fun _ : ι => μ) (midRank k j) := by
  have hp := measurePreserving_piCongrLeft (fun _ : ι => μ) (Equiv.swap i j)
  rw [← hp.measure_preimage (isClosed_midRank k j).measurableSet.nullMeasurableSet]
  congr 1
  ext w
  have hw : ∀ l, (MeasurableEquiv.piCongrLeft (fun _ : ι => ℝ) (Equiv.swap i j)) w l = w (Equiv.swap i j l) := by
    intro l
    have := Equiv.piCongrLeft_apply_apply (fun _ : ι => ℝ) (Equiv.swap i j) w (Equiv.swap i j l)
    rw [Equiv.swap_apply_self] at this
    exact this
  have hc : ∀ p : ι → Prop, ∀ [DecidablePred p], (Finset.univ.filter fun l => p (Equiv.swap i j l)).card = (Finset.univ.filter p).card := by
    intro p _
    refine Finset.card_bij (fun l _ => Equiv.swap i j l) (fun l hl => ?_) (fun a _ b _ h => (Equiv.swap i j).injective h) fun l hl => ?_
    · simpa using hl
    · exact ⟨Equiv.swap i j l, by simpa using hl, by simp⟩
  simp only [midRank, Set.mem_preimage, Set.mem_ofPred_eq, hw, Equiv.swap_apply_right]
  have hne : ∀ l, l ≠ j ↔ Equiv.swap i j l ≠ i := by
    intro l
    rw [not_iff_not, Equiv.swap_apply_eq_iff, Equiv.swap_apply_left]
  rw [Finset.filter_congr (p := fun l => l ≠ j ∧ w (Equiv.swap i j l) ≤ w i)
      (q := fun l => (fun l => l ≠ i ∧ w l ≤ w i) (Equiv.swap i j l)) (fun l _ => and_congr_left fun _ => hne l),
    Finset.filter_congr (p := fun l => l ≠ j ∧ w i ≤ w (Equiv.swap i j l))
      (q := fun l => (fun l => l ≠ i ∧ w i ≤ w l) (Equiv.swap i j l)) (fun l _ => and_congr_left fun _ => hne l),
    hc fun l => l ≠ i ∧ w l ≤ w i, hc fun l => l ≠ i ∧ w i ≤ w l]

/-- The entry `i` has more than `k` others on either side with probability `(N - 2 - 2k)/N`. -/
theorem pi_midRank (k : ℕ) (i : ι) : (Measure.pi fun _ : ι => μ).real (midRank k i) =
    ((Fintype.card ι - 2 - 2 * k : ℕ) : ℝ) / Fintype.card ι := by
  classical
  have hN : (0 : ℝ) < Fintype.card ι := by
    have : Nonempty ι := ⟨i⟩
    exact_mod_cast Fintype.card_pos
  have hmeas : ∀ j : ι, MeasurableSet (midRank k j) := fun j => (isClosed_midRank k j).measurableSet
  have hsum : ∑ j : ι, (Measure.pi fun _ : ι => μ).real (midRank k j) = ((Fintype.card ι - 2 - 2 * k : ℕ) : ℝ) := by
    simp only [← integral_indicator_one (hmeas _)]
    rw [← integral_finsetSum _ fun j _ => (integrable_const 1).indicator (hmeas j)]
    have : (fun w : ι → ℝ => ∑ j : ι, (midRank k j).indicator (1 : (ι → ℝ) → ℝ) w) =ᵐ[Measure.pi fun _ : ι => μ]
        fun _ => ((Fintype.card ι - 2 - 2 * k : ℕ) : ℝ) := by
      filter_upwards [pi_injective μ] with w hw
      rw [← card_midRank hw k, Finset.card_filter]
      push_cast
      exact Finset.sum_congr rfl fun j _ => by simp [Set.indicator]
    rw [integral_congr_ae this]
    simp
  have hall : ∀ j : ι, (Measure.pi fun _ : ι => μ).real (midRank k j) = (Measure.pi fun _ : ι => μ).real (midRank k i) :=
    fun j => by simp only [Measure.real, pi_midRank_swap μ k j i]
  rw [Finset.sum_congr rfl fun j _ => hall j, Finset.sum_const, Finset.card_univ, nsmul_eq_mul] at hsum
  rw [eq_div_iff hN.ne', mul_comm]
  exact hsum

end Obp
