import Verif.Lemmas.BootstrapLaw
import Verif.Props.Bootstrap

set_option linter.unusedSectionVars false

/-!
# When a bootstrap interval contains a value

The interval contains the value if enough bootstrap averages lie on either side of it, and only if.
-/

namespace Obp
open MeasureTheory ProbabilityTheory Filter Topology

section interp
variable {K : Type} [Field K] [LinearOrder K] [IsStrictOrderedRing K] [FloorRing K]

theorem interp_le_ceil {g : ℕ → K} (hg : Monotone g) {pos : K} (h0 : 0 ≤ pos) : interp g pos ≤ g ⌈pos⌉₊ := by
  rcases eq_or_lt_of_le (Nat.floor_le h0) with h | h
  · have hc : ⌈pos⌉₊ = ⌊pos⌋₊ := by
      rw [← h, Nat.ceil_natCast, Nat.floor_natCast]
    rw [interp, h, sub_self, mul_zero, add_zero, hc]
  · have hc : ⌊pos⌋₊ + 1 ≤ ⌈pos⌉₊ := by
      rw [Nat.succ_le_iff, Nat.lt_ceil]
      exact h
    exact (interp_le hg).trans (hg hc)

theorem sortedSeq_le_of_count {xs : List K} (hx : xs ≠ []) {j : ℕ} {y : K}
    (h : j < xs.countP fun x => decide (x ≤ y)) : sortedSeq xs j ≤ y := by
  by_contra hno
  rw [not_le] at hno
  have h1 := count_lt_of_sorted hx (le_refl (sortedSeq xs j))
  have h2 : (xs.countP fun x => decide (x ≤ y)) ≤ xs.countP fun x => decide (x < sortedSeq xs j) :=
    List.countP_mono_left fun x _ hxy => by
      simp only [decide_eq_true_eq] at hxy ⊢
      exact hxy.trans_lt hno
  omega

theorem count_compl (xs : List K) (y : K) :
    (xs.countP fun x => decide (x < y)) + (xs.countP fun x => decide (y ≤ x)) = xs.length := by
  have := xs.length_eq_countP_add_countP (fun x => decide (x < y))
  rw [this]
  congr 2
  funext x
  simp [not_lt]

theorem le_sortedSeq_of_count {xs : List K} (hx : xs ≠ []) {j : ℕ} (hj : j < xs.length) {y : K}
    (h : xs.length - 1 - j < xs.countP fun x => decide (y ≤ x)) : y ≤ sortedSeq xs j := by
  by_contra hno
  rw [not_le] at hno
  have h1 := count_le_of_sorted hx (j := j) (by omega) (le_refl (sortedSeq xs j))
  have h2 : (xs.countP fun x => decide (x ≤ sortedSeq xs j)) ≤ xs.countP fun x => decide (x < y) :=
    List.countP_mono_left fun x _ hxy => by
      simp only [decide_eq_true_eq] at hxy ⊢
      exact hxy.trans_lt hno
  have h3 := count_compl xs y
  omega

end interp

namespace Resampling
variable {Ω : Type} [MeasurableSpace Ω] {P : Measure Ω} [IsProbabilityMeasure P] {X : ℕ → Ω → ℝ} {B : ℕ}

theorem draws_valid (R : Resampling P X B) (n : ℕ) (ω : Ω) : ValidDraws n B (R.draws n ω) := by
  refine ⟨by simp [draws], fun l hl => ?_⟩
  simp only [draws, List.mem_ofFn] at hl
  obtain ⟨j, rfl⟩ := hl
  refine ⟨by simp, fun i hi => ?_⟩
  simp only [List.mem_ofFn] at hi
  obtain ⟨i, rfl⟩ := hi
  exact (R.idx n j i ω).isLt

theorem means_eq (R : Resampling P X B) (n : ℕ) (ω : Ω) :
    (R.draws n ω).map (resampledMean (List.ofFn fun i : Fin n => X i ω)) = List.ofFn fun j => R.bootMean n j ω := by
  rw [draws, List.map_ofFn]
  congr 1
  funext j
  simp only [Function.comp, resampledMean, List.map_ofFn, List.length_ofFn, bootMean]
  congr 1
  rw [List.sum_ofFn]
  refine Finset.sum_congr rfl fun i _ => ?_
  simp [List.getD]

theorem countP_ofFn {m : ℕ} (f : Fin m → ℝ) (p : ℝ → Prop) [DecidablePred p] :
    (List.ofFn f).countP (fun x => decide (p x)) = (Finset.univ.filter fun j => p (f j)).card := by
  rw [List.ofFn_eq_map, List.countP_map, List.countP_eq_length_filter]
  rfl

theorem mem_midRank_iff (R : Resampling P X B) {n : ℕ} (hn : 0 < n) (v : ℝ) (k : ℕ) (ω : Ω) :
    R.spread v n ω ∈ midRank k none ↔ (k < (List.ofFn fun j => R.bootMean n j ω).countP fun x => decide (x ≤ v)) ∧
      k < (List.ofFn fun j => R.bootMean n j ω).countP fun x => decide (v ≤ x) := by
  have hs : 0 < √(n : ℝ) := Real.sqrt_pos.2 (by exact_mod_cast hn)
  rw [countP_ofFn _ fun x => x ≤ v, countP_ofFn _ fun x => v ≤ x]
  have key : ∀ p : Option (Fin B) → Prop, ∀ [DecidablePred p],
      (Finset.univ.filter fun o => o ≠ none ∧ p o).card = (Finset.univ.filter fun j => p (some j)).card := by
    intro p _
    refine (Finset.card_bij (fun j _ => some j) (fun j hj => ?_) (fun a _ b _ h => Option.some.inj h) fun o ho => ?_).symm
    · simpa using hj
    · simp only [Finset.mem_filter, Finset.mem_univ, true_and] at ho
      cases o with
      | none => exact absurd rfl ho.1
      | some j => exact ⟨j, by simpa using ho.2, rfl⟩
  simp only [midRank, Set.mem_ofPred_eq]
  rw [key fun o => R.spread v n ω o ≤ R.spread v n ω none, key fun o => R.spread v n ω none ≤ R.spread v n ω o]
  simp only [spread, mul_le_mul_iff_right₀ hs, sub_le_sub_iff_right]

/-- Position of the lower bound among the sorted bootstrap averages. -/
theorem contains_of_midRank (R : Resampling P X B) {n : ℕ} (hn : 0 < n) (hB : 1 ≤ B) {alpha : ℝ} (h0 : 0 ≤ alpha)
    (h1 : alpha ≤ 1) {v : ℝ} {ω : Ω} (h : R.spread v n ω ∈ midRank ⌈alpha / 2 * ((B : ℝ) - 1)⌉₊ none) :
    R.Contains alpha v n ω := by
  rw [R.mem_midRank_iff hn] at h
  obtain ⟨ha, hb⟩ := h
  have hne : (List.ofFn fun i : Fin n => X i ω) ≠ [] := by
    intro e
    have := congrArg List.length e
    simp at this
    omega
  obtain ⟨m, -, hci⟩ := bootstrapCI_eq hne h0 h1 hB (by simpa using R.draws_valid n ω)
  simp only [R.means_eq] at hci
  set xs := List.ofFn fun j => R.bootMean n j ω with hxs
  have hl : xs.length = B := by simp [hxs]
  have hxne : xs ≠ [] := by
    intro e
    rw [e] at hl
    simp at hl
    omega
  have hB1 : (0 : ℝ) ≤ (B : ℝ) - 1 := by
    have : (1 : ℝ) ≤ B := by exact_mod_cast hB
    linarith
  refine ⟨_, hci, ?_, ?_⟩
  · exact (interp_le_ceil (sortedSeq_mono hxne) (by positivity)).trans (sortedSeq_le_of_count hxne ha)
  · have hpos : 0 ≤ (1 - alpha / 2) * ((B : ℝ) - 1) := mul_nonneg (by linarith) hB1
    refine le_trans ?_ (interp_ge (sortedSeq_mono hxne) hpos)
    have hp1 : alpha / 2 * ((B : ℝ) - 1) ≤ ((B - 1 : ℕ) : ℝ) := by
      rw [Nat.cast_sub hB, Nat.cast_one]
      nlinarith
    have hc : ⌈alpha / 2 * ((B : ℝ) - 1)⌉₊ ≤ B - 1 := Nat.ceil_le.2 hp1
    have hfl : B - 1 - ⌈alpha / 2 * ((B : ℝ) - 1)⌉₊ ≤ ⌊(1 - alpha / 2) * ((B : ℝ) - 1)⌋₊ := by
      refine Nat.le_floor ?_
      rw [Nat.cast_sub hc, Nat.cast_sub hB, Nat.cast_one]
      have := Nat.le_ceil (alpha / 2 * ((B : ℝ) - 1))
      linarith
    refine le_trans ?_ (sortedSeq_mono hxne hfl)
    refine le_sortedSeq_of_count hxne (by omega) ?_
    rw [hl]
    omega

theorem midRank_of_contains (R : Resampling P X B) {n : ℕ} (hn : 0 < n) (hB : 1 ≤ B) {alpha : ℝ} (h0 : 0 ≤ alpha)
    (h1 : alpha ≤ 1) {v : ℝ} {ω : Ω} (h : R.Contains alpha v n ω) :
    R.spread v n ω ∈ midRank ⌊alpha / 2 * ((B : ℝ) - 1)⌋₊ none := by
  rw [R.mem_midRank_iff hn]
  have hne : (List.ofFn fun i : Fin n => X i ω) ≠ [] := by
    intro e
    have := congrArg List.length e
    simp at this
    omega
  obtain ⟨m, -, hci⟩ := bootstrapCI_eq hne h0 h1 hB (by simpa using R.draws_valid n ω)
  obtain ⟨o, ho, hlo, hup⟩ := h
  rw [hci] at ho
  cases ho
  simp only [R.means_eq] at hlo hup
  set xs := List.ofFn fun j => R.bootMean n j ω with hxs
  have hl : xs.length = B := by simp [hxs]
  have hxne : xs ≠ [] := by
    intro e
    rw [e] at hl
    simp at hl
    omega
  have hB1 : (0 : ℝ) ≤ (B : ℝ) - 1 := by
    have : (1 : ℝ) ≤ B := by exact_mod_cast hB
    linarith
  have hp0 : 0 ≤ alpha / 2 * ((B : ℝ) - 1) := by positivity
  have hp1 : alpha / 2 * ((B : ℝ) - 1) ≤ ((B - 1 : ℕ) : ℝ) := by
    rw [Nat.cast_sub hB, Nat.cast_one]
    nlinarith
  have hc : ⌊alpha / 2 * ((B : ℝ) - 1)⌋₊ ≤ B - 1 := by
    have := Nat.floor_le_floor hp1
    rwa [Nat.floor_natCast] at this
  constructor
  · exact count_le_of_sorted hxne (by rw [hl]; exact hc) ((interp_ge (sortedSeq_mono hxne) hp0).trans hlo)
  · have hpos : 0 ≤ (1 - alpha / 2) * ((B : ℝ) - 1) := mul_nonneg (by linarith) hB1
    have h2 := hup.trans (interp_le_ceil (sortedSeq_mono hxne) hpos)
    have hcl : ⌈(1 - alpha / 2) * ((B : ℝ) - 1)⌉₊ ≤ B - 1 - ⌊alpha / 2 * ((B : ℝ) - 1)⌋₊ := by
      refine Nat.ceil_le.2 ?_
      rw [Nat.cast_sub hc, Nat.cast_sub hB, Nat.cast_one]
      have := Nat.floor_le hp0
      linarith
    have h3 := count_lt_of_sorted hxne (h2.trans (sortedSeq_mono hxne hcl))
    have h4 := count_compl xs v
    omega

end Resampling
end Obp
