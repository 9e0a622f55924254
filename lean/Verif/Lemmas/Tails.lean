import Verif.Lemmas.IidClt
import Verif.Spec.Misses
import Mathlib.Probability.Moments.SubGaussian

set_option linter.unusedSectionVars false

/-!
# Large errors of averages and of ratios of averages

Hoeffding's inequality for functions of independent rounds.
-/

namespace Obp
open MeasureTheory ProbabilityTheory Filter Topology

variable {Ω S : Type} [MeasurableSpace Ω] [MeasurableSpace S] {P : Measure Ω} [IsProbabilityMeasure P] {Z : ℕ → Ω → S} {n : ℕ}

/-- Hoeffding's inequality, one side. -/
theorem Iid.tail (hZ : Iid P Z) {F : S → ℝ} (hF : Measurable F) {a b v t : ℝ} (hb : ∀ᵐ ω ∂P, F (Z 0 ω) ∈ Set.Icc a b)
    (hm : ∫ ω, F (Z 0 ω) ∂P = v) (hn : 0 < n) (ht : 0 ≤ t) :
    P.real {ω | v + t ≤ meanTo (fun i => F (Z i ω)) n} ≤ Real.exp (-(2 * n * t ^ 2 / (b - a) ^ 2)) := by
  obtain ⟨w1, w2, w3⟩ := hZ.fn hF
  have hn' : (0 : ℝ) < n := by exact_mod_cast hn
  have hmi : ∀ i, ∫ ω, F (Z i ω) ∂P = v := fun i => (w3 i).integral_eq.trans hm
  have hbi : ∀ i, ∀ᵐ ω ∂P, F (Z i ω) ∈ Set.Icc a b := fun i => by
    have h1 : ∀ᵐ x ∂(P.map fun ω => F (Z 0 ω)), x ∈ Set.Icc a b := (ae_map_iff (w1 0).aemeasurable measurableSet_Icc).2 hb
    rw [← (w3 i).map_eq] at h1
    exact (ae_map_iff (w1 i).aemeasurable measurableSet_Icc).1 h1
  have hsub : ∀ i < n, HasSubgaussianMGF (fun ω => F (Z i ω) - v) ((‖b - a‖₊ / 2) ^ 2) P := fun i _ => by
    have := hasSubgaussianMGF_of_mem_Icc (w1 i).aemeasurable (hbi i)
    rwa [hmi i] at this
  have hind : iIndepFun (fun i ω => F (Z i ω) - v) P := w2.comp (fun _ x => x - v) fun _ => measurable_id.sub_const _
  have key := HasSubgaussianMGF.measure_sum_range_ge_le_of_iIndepFun hind hsub (ε := n * t) (by positivity)
  refine (measureReal_mono fun ω hω => ?_).trans (key.trans_eq ?_)
  · simp only [Set.mem_ofPred_eq, meanTo] at hω ⊢
    rw [le_div_iff₀ hn'] at hω
    rw [Finset.sum_sub_distrib, Finset.sum_const, Finset.card_range, nsmul_eq_mul]
    nlinarith
  · congr 1
    push_cast
    simp only [Real.norm_eq_abs, div_pow, sq_abs]
    rcases eq_or_ne (b - a) 0 with h0 | h0
    · simp [h0]
    · field_simp

/-- Both sides, for results that are averages. -/
theorem misses_mean (hZ : Iid P Z) {F : S → ℝ} (hF : Measurable F) {a b v t : ℝ} (hb : ∀ᵐ ω ∂P, F (Z 0 ω) ∈ Set.Icc a b)
    (hm : ∫ ω, F (Z 0 ω) ∂P = v) (hn : 0 < n) (ht : 0 ≤ t) {r : Ω → Py ℝ} (hr : ∀ᵐ ω ∂P, r ω = .ok (meanTo (fun i => F (Z i ω)) n)) :
    P.real {ω | Misses (r ω) v t} ≤ 2 * Real.exp (-(2 * n * t ^ 2 / (b - a) ^ 2)) := by
  have k1 := hZ.tail hF hb hm hn ht
  have k2 := hZ.tail hF.neg (a := -b) (b := -a) (v := -v) (t := t) (by
    filter_upwards [hb] with ω hω
    exact ⟨neg_le_neg hω.2, neg_le_neg hω.1⟩) (by
    simp only [Pi.neg_apply]
    rw [integral_neg, hm]) hn ht
  rw [show -a - -b = b - a by ring] at k2
  have h1 : P.real {ω | Misses (r ω) v t} ≤ P.real ({ω | v + t ≤ meanTo (fun i => F (Z i ω)) n} ∪
      {ω | -v + t ≤ meanTo (fun i => (-F) (Z i ω)) n}) := by
    refine ENNReal.toReal_mono (measure_ne_top _ _) (measure_mono_ae ?_)
    filter_upwards [hr] with ω hω hmiss
    have h2 : t ≤ |meanTo (fun i => F (Z i ω)) n - v| := not_lt.1 fun h => hmiss ⟨_, hω, h⟩
    have h3 : meanTo (fun i => (-F) (Z i ω)) n = -meanTo (fun i => F (Z i ω)) n := by
      simp [meanTo, Finset.sum_neg_distrib, neg_div]
    rcases le_abs.1 h2 with h | h
    · exact .inl (by simp only [Set.mem_ofPred_eq]; linarith)
    · exact .inr (by simp only [Set.mem_ofPred_eq, h3]; linarith)
  exact h1.trans ((measureReal_union_le _ _).trans ((add_le_add k1 k2).trans_eq (two_mul _).symm))

theorem measureReal_le_of_ae {s t : Set Ω} (h : ∀ᵐ ω ∂P, ω ∈ s → ω ∈ t) : P.real s ≤ P.real t :=
  ENNReal.toReal_mono (measure_ne_top _ _) (measure_mono_ae h)

/-- One side of a ratio: the weighted averages of numbers that exceed the mean `v` by `t`. -/
theorem ratio_tail (hZ : Iid P Z) {FW FR : S → ℝ} (hW : Measurable FW) (hR : Measurable FR) {W lo hi v t : ℝ}
    (hWb : ∀ᵐ ω ∂P, FW (Z 0 ω) ∈ Set.Icc 0 W) (hRb : ∀ᵐ ω ∂P, FR (Z 0 ω) ∈ Set.Icc lo hi) (hW1 : ∫ ω, FW (Z 0 ω) ∂P = 1)
    (hv : ∫ ω, FW (Z 0 ω) * FR (Z 0 ω) ∂P = v) (hlo : lo ≤ v) (hn : 0 < n) (ht : 0 ≤ t) (hu : v + t ≤ hi) :
    P.real {ω | 0 ≤ meanTo (fun i => FW (Z i ω) * (FR (Z i ω) - (v + t))) n} ≤
      Real.exp (-(2 * n * t ^ 2 / (W * (hi - lo)) ^ 2)) := by
  have hiW : Integrable (fun ω => FW (Z 0 ω)) P := Integrable.of_mem_Icc 0 W (hW.comp (hZ.meas 0)).aemeasurable hWb
  have hiR : Integrable (fun ω => FW (Z 0 ω) * FR (Z 0 ω)) P := by
    refine Integrable.of_bound ((hW.comp (hZ.meas 0)).mul (hR.comp (hZ.meas 0))).aestronglyMeasurable (W * max |lo| |hi|) ?_
    filter_upwards [hWb, hRb] with ω h1 h2
    rw [norm_mul, Real.norm_of_nonneg h1.1]
    exact mul_le_mul h1.2 (abs_le_max_abs_abs h2.1 h2.2) (abs_nonneg _) (h1.1.trans h1.2)
  have hG : Measurable fun x => FW x * (FR x - (v + t)) := hW.mul (hR.sub_const _)
  have key := hZ.tail hG (a := W * (lo - (v + t))) (b := W * (hi - (v + t))) (v := -t) (t := t) ?_ ?_ hn ht
  · rw [show W * (hi - (v + t)) - W * (lo - (v + t)) = W * (hi - lo) by ring] at key
    simpa using key
  · filter_upwards [hWb, hRb] with ω h1 h2
    constructor
    · nlinarith [h1.1, h1.2, h2.1]
    · nlinarith [h1.1, h1.2, h2.2]
  · have : ∀ ω, FW (Z 0 ω) * (FR (Z 0 ω) - (v + t)) = FW (Z 0 ω) * FR (Z 0 ω) - FW (Z 0 ω) * (v + t) := fun ω => by ring
    simp only [this]
    rw [integral_sub hiR (hiW.mul_const _), hv, integral_mul_const, hW1]
    ring

/-- The chance that all weights are zero. -/
theorem weights_zero (hZ : Iid P Z) {FW : S → ℝ} (hW : Measurable FW) {W : ℝ} (hWb : ∀ᵐ ω ∂P, FW (Z 0 ω) ∈ Set.Icc 0 W)
    (hW1 : ∫ ω, FW (Z 0 ω) ∂P = 1) (hn : 0 < n) : P.real {ω | meanTo (fun i => FW (Z i ω)) n = 0} ≤ Real.exp (-(2 * n / W ^ 2)) := by
  have key := hZ.tail hW.neg (a := -W) (b := 0) (v := -1) (t := 1) (by
    filter_upwards [hWb] with ω hω
    exact ⟨neg_le_neg hω.2, neg_nonpos.2 hω.1⟩) (by
    simp only [Pi.neg_apply]
    rw [integral_neg, hW1]) hn zero_le_one
  refine (measureReal_mono fun ω hω => ?_).trans (key.trans_eq ?_)
  · simp only [Set.mem_ofPred_eq, meanTo, Pi.neg_apply, Finset.sum_neg_distrib, neg_div] at hω ⊢
    rw [hω]
    norm_num
  · simp

/-- Results that are ratios of averages with mean weight one. Failures when all weights are zero are counted as errors. -/
theorem misses_ratio (hZ : Iid P Z) {FW FR : S → ℝ} (hW : Measurable FW) (hR : Measurable FR) {W lo hi v t : ℝ}
    (hWb : ∀ᵐ ω ∂P, FW (Z 0 ω) ∈ Set.Icc 0 W) (hRb : ∀ᵐ ω ∂P, FR (Z 0 ω) ∈ Set.Icc lo hi) (hW1 : ∫ ω, FW (Z 0 ω) ∂P = 1)
    (hv : ∫ ω, FW (Z 0 ω) * FR (Z 0 ω) ∂P = v) (hn : 0 < n) (ht : 0 ≤ t) (ht' : t ≤ hi - lo) {r : Ω → Py ℝ}
    (hr : ∀ᵐ ω ∂P, meanTo (fun i => FW (Z i ω)) n ≠ 0 →
      r ω = .ok (meanTo (fun i => FW (Z i ω) * FR (Z i ω)) n / meanTo (fun i => FW (Z i ω)) n)) :
    P.real {ω | Misses (r ω) v t} ≤ 2 * Real.exp (-(2 * n * t ^ 2 / (W * (hi - lo)) ^ 2)) := by
  set e := Real.exp (-(2 * n * t ^ 2 / (W * (hi - lo)) ^ 2)) with he
  have he0 : 0 ≤ e := (Real.exp_pos _).le
  have hn' : (0 : ℝ) < n := by exact_mod_cast hn
  have hiW : Integrable (fun ω => FW (Z 0 ω)) P := Integrable.of_mem_Icc 0 W (hW.comp (hZ.meas 0)).aemeasurable hWb
  have hiR : Integrable (fun ω => FW (Z 0 ω) * FR (Z 0 ω)) P := by
    refine Integrable.of_bound ((hW.comp (hZ.meas 0)).mul (hR.comp (hZ.meas 0))).aestronglyMeasurable (W * max |lo| |hi|) ?_
    filter_upwards [hWb, hRb] with ω h1 h2
    rw [norm_mul, Real.norm_of_nonneg h1.1]
    exact mul_le_mul h1.2 (abs_le_max_abs_abs h2.1 h2.2) (abs_nonneg _) (h1.1.trans h1.2)
  have hlo : lo ≤ v := by
    rw [← hv, ← one_mul lo, ← hW1, ← integral_mul_const]
    refine integral_mono_ae (hiW.mul_const _) hiR ?_
    filter_upwards [hWb, hRb] with ω h1 h2
    exact mul_le_mul_of_nonneg_left h2.1 h1.1
  have hhi : v ≤ hi := by
    rw [← hv, ← one_mul hi, ← hW1, ← integral_mul_const]
    refine integral_mono_ae hiR (hiW.mul_const _) ?_
    filter_upwards [hWb, hRb] with ω h1 h2
    exact mul_le_mul_of_nonneg_left h2.2 h1.1
  have hall : ∀ᵐ ω ∂P, ∀ i, FW (Z i ω) ∈ Set.Icc 0 W ∧ FR (Z i ω) ∈ Set.Icc lo hi := by
    refine ae_all_iff.2 fun i => ?_
    have hs : MeasurableSet {x | FW x ∈ Set.Icc 0 W ∧ FR x ∈ Set.Icc lo hi} := (hW measurableSet_Icc).inter (hR measurableSet_Icc)
    have h1 : ∀ᵐ x ∂(P.map (Z 0)), FW x ∈ Set.Icc 0 W ∧ FR x ∈ Set.Icc lo hi :=
      (ae_map_iff (hZ.meas 0).aemeasurable hs).2 (hWb.and hRb)
    rw [← (hZ.ident i).map_eq] at h1
    exact (ae_map_iff (hZ.meas i).aemeasurable hs).1 h1
  -- what a miss means
  have hcase : ∀ᵐ ω ∂P, Misses (r ω) v t → meanTo (fun i => FW (Z i ω)) n = 0 ∨
      (0 ≤ meanTo (fun i => FW (Z i ω) * (FR (Z i ω) - (v + t))) n ∧ v + t ≤ hi) ∨
      (0 ≤ meanTo (fun i => FW (Z i ω) * (-FR (Z i ω) - (-v + t))) n ∧ lo ≤ v - t) := by
    filter_upwards [hr, hall] with ω h1 h2 hmiss
    by_cases h0 : meanTo (fun i => FW (Z i ω)) n = 0
    · exact .inl h0
    refine .inr ?_
    have hpos : 0 < meanTo (fun i => FW (Z i ω)) n :=
      lt_of_le_of_ne (div_nonneg (Finset.sum_nonneg fun i _ => (h2 i).1.1) hn'.le) (Ne.symm h0)
    have h3 : t ≤ |meanTo (fun i => FW (Z i ω) * FR (Z i ω)) n / meanTo (fun i => FW (Z i ω)) n - v| :=
      not_lt.1 fun h => hmiss ⟨_, h1 h0, h⟩
    have hlin : ∀ c : ℝ, meanTo (fun i => FW (Z i ω) * (FR (Z i ω) - c)) n =
        meanTo (fun i => FW (Z i ω) * FR (Z i ω)) n - c * meanTo (fun i => FW (Z i ω)) n := fun c => by
      simp only [meanTo, mul_sub, Finset.sum_sub_distrib, ← Finset.sum_mul]
      rw [sub_div, mul_div_assoc' c, mul_comm c]
    have hneg : meanTo (fun i => FW (Z i ω) * (-FR (Z i ω) - (-v + t))) n =
        -(meanTo (fun i => FW (Z i ω) * (FR (Z i ω) - (v - t))) n) := by
      simp only [meanTo]
      rw [← neg_div, ← Finset.sum_neg_distrib]
      refine congrArg (· / _) (Finset.sum_congr rfl fun i _ => ?_)
      ring
    have hle : meanTo (fun i => FW (Z i ω) * FR (Z i ω)) n ≤ hi * meanTo (fun i => FW (Z i ω)) n := by
      have : 0 ≤ -meanTo (fun i => FW (Z i ω) * (FR (Z i ω) - hi)) n := by
        simp only [meanTo]
        rw [← neg_div, ← Finset.sum_neg_distrib]
        exact div_nonneg (Finset.sum_nonneg fun i _ => by nlinarith [(h2 i).1.1, (h2 i).2.2]) hn'.le
      rw [hlin] at this
      linarith
    have hge : lo * meanTo (fun i => FW (Z i ω)) n ≤ meanTo (fun i => FW (Z i ω) * FR (Z i ω)) n := by
      have : 0 ≤ meanTo (fun i => FW (Z i ω) * (FR (Z i ω) - lo)) n :=
        div_nonneg (Finset.sum_nonneg fun i _ => mul_nonneg (h2 i).1.1 (sub_nonneg.2 (h2 i).2.1)) hn'.le
      rw [hlin] at this
      linarith
    rcases le_abs.1 h3 with h | h
    · have h4 : v + t ≤ meanTo (fun i => FW (Z i ω) * FR (Z i ω)) n / meanTo (fun i => FW (Z i ω)) n := by linarith
      refine .inl ⟨?_, h4.trans ((div_le_iff₀ hpos).2 hle)⟩
      rw [hlin]
      rw [le_div_iff₀ hpos] at h4
      linarith
    · have h4 : meanTo (fun i => FW (Z i ω) * FR (Z i ω)) n / meanTo (fun i => FW (Z i ω)) n ≤ v - t := by linarith
      refine .inr ⟨?_, ((le_div_iff₀ hpos).2 hge).trans h4⟩
      rw [hneg, hlin]
      rw [div_le_iff₀ hpos] at h4
      linarith
  have hU : v + t ≤ hi → P.real {ω | 0 ≤ meanTo (fun i => FW (Z i ω) * (FR (Z i ω) - (v + t))) n} ≤ e := fun h =>
    ratio_tail hZ hW hR hWb hRb hW1 hv hlo hn ht h
  have hL : lo ≤ v - t → P.real {ω | 0 ≤ meanTo (fun i => FW (Z i ω) * (-FR (Z i ω) - (-v + t))) n} ≤ e := fun h => by
    have := ratio_tail hZ hW hR.neg (lo := -hi) (hi := -lo) (v := -v) (t := t) (n := n) hWb (by
      filter_upwards [hRb] with ω h2
      exact ⟨neg_le_neg h2.2, neg_le_neg h2.1⟩) hW1 (by
      simp only [Pi.neg_apply, mul_neg]
      rw [integral_neg, hv]) (by linarith) hn ht (by linarith)
    rwa [show -lo - -hi = hi - lo by ring] at this
  have zero_mem : ∀ {ω : Ω}, (∀ i, FW (Z i ω) ∈ Set.Icc 0 W ∧ FR (Z i ω) ∈ Set.Icc lo hi) → meanTo (fun i => FW (Z i ω)) n = 0 →
      ∀ f : ℕ → ℝ, meanTo (fun i => FW (Z i ω) * f i) n = 0 := fun {ω} h2 h0 f => by
    simp only [meanTo, div_eq_zero_iff, hn'.ne', or_false] at h0 ⊢
    have := (Finset.sum_eq_zero_iff_of_nonneg fun i _ => (h2 i).1.1).1 h0
    exact Finset.sum_eq_zero fun i hi => by rw [this i hi, zero_mul]
  by_cases h1 : v + t ≤ hi
  · by_cases h2 : lo ≤ v - t
    · refine (measureReal_le_of_ae (t := {ω | 0 ≤ meanTo (fun i => FW (Z i ω) * (FR (Z i ω) - (v + t))) n} ∪
        {ω | 0 ≤ meanTo (fun i => FW (Z i ω) * (-FR (Z i ω) - (-v + t))) n}) ?_).trans
        ((measureReal_union_le _ _).trans ((add_le_add (hU h1) (hL h2)).trans_eq (two_mul _).symm))
      filter_upwards [hcase, hall] with ω hc ha hm
      rcases hc hm with h | h | h
      · exact .inl (zero_mem ha h _).ge
      · exact .inl h.1
      · exact .inr h.1
    · refine (measureReal_le_of_ae ?_).trans ((hU h1).trans (by linarith))
      filter_upwards [hcase, hall] with ω hc ha hm
      rcases hc hm with h | h | h
      · exact (zero_mem ha h _).ge
      · exact h.1
      · exact absurd h.2 h2
  · by_cases h2 : lo ≤ v - t
    · refine (measureReal_le_of_ae ?_).trans ((hL h2).trans (by linarith))
      filter_upwards [hcase, hall] with ω hc ha hm
      rcases hc hm with h | h | h
      · exact (zero_mem ha h _).ge
      · exact absurd h.2 h1
      · exact h.1
    · refine (measureReal_le_of_ae (t := {ω | meanTo (fun i => FW (Z i ω)) n = 0}) ?_).trans
        ((weights_zero hZ hW hWb hW1 hn).trans ?_)
      · filter_upwards [hcase] with ω hc hm
        rcases hc hm with h | h | h
        · exact h
        · exact absurd h.2 h1
        · exact absurd h.2 h2
      · refine le_trans ?_ (show e ≤ 2 * e by linarith)
        rw [he, Real.exp_le_exp, neg_le_neg_iff]
        have ht0 : 0 < hi - lo := by
          rcases (ht.trans ht').lt_or_eq with h | h
          · exact h
          · exfalso
            apply h1
            linarith
        rcases eq_or_ne W 0 with h0 | h0
        · simp [h0]
        · rw [mul_pow, div_le_div_iff₀ (by positivity) (by positivity)]
          have : t ^ 2 ≤ (hi - lo) ^ 2 := pow_le_pow_left₀ ht ht' 2
          have h3 : 0 ≤ 2 * (n : ℝ) * W ^ 2 := by positivity
          nlinarith

/-- Results that are an average plus a ratio of averages. -/
theorem misses_sum_ratio (hZ : Iid P Z) {F FW FR : S → ℝ} (hF : Measurable F) (hW : Measurable FW) (hR : Measurable FR)
    {a b W lo hi u v t₁ t₂ : ℝ} (hb : ∀ᵐ ω ∂P, F (Z 0 ω) ∈ Set.Icc a b) (hm : ∫ ω, F (Z 0 ω) ∂P = u)
    (hWb : ∀ᵐ ω ∂P, FW (Z 0 ω) ∈ Set.Icc 0 W) (hRb : ∀ᵐ ω ∂P, FR (Z 0 ω) ∈ Set.Icc lo hi) (hW1 : ∫ ω, FW (Z 0 ω) ∂P = 1)
    (hv : ∫ ω, FW (Z 0 ω) * FR (Z 0 ω) ∂P = v) (hn : 0 < n) (h1 : 0 ≤ t₁) (h2 : 0 ≤ t₂) (h2' : t₂ ≤ hi - lo) {r : Ω → Py ℝ}
    (hr : ∀ᵐ ω ∂P, meanTo (fun i => FW (Z i ω)) n ≠ 0 → r ω = .ok (meanTo (fun i => F (Z i ω)) n +
      meanTo (fun i => FW (Z i ω) * FR (Z i ω)) n / meanTo (fun i => FW (Z i ω)) n)) :
    P.real {ω | Misses (r ω) (u + v) (t₁ + t₂)} ≤ 2 * Real.exp (-(2 * n * t₁ ^ 2 / (b - a) ^ 2)) +
      2 * Real.exp (-(2 * n * t₂ ^ 2 / (W * (hi - lo)) ^ 2)) := by
  classical
  let r₁ : Ω → Py ℝ := fun ω => .ok (meanTo (fun i => F (Z i ω)) n)
  let r₂ : Ω → Py ℝ := fun ω => if meanTo (fun i => FW (Z i ω)) n = 0 then .error .nonFinite else
    .ok (meanTo (fun i => FW (Z i ω) * FR (Z i ω)) n / meanTo (fun i => FW (Z i ω)) n)
  have k1 := misses_mean hZ hF hb hm hn h1 (r := r₁) (ae_of_all _ fun _ => rfl)
  have k2 := misses_ratio hZ hW hR hWb hRb hW1 hv hn h2 h2' (r := r₂) (ae_of_all _ fun ω h => if_neg h)
  refine (measureReal_le_of_ae (t := {ω | Misses (r₁ ω) u t₁} ∪ {ω | Misses (r₂ ω) v t₂}) ?_).trans
    ((measureReal_union_le _ _).trans (add_le_add k1 k2))
  filter_upwards [hr] with ω hω hmiss
  by_contra hc
  simp only [Set.mem_union, Set.mem_ofPred_eq, not_or, Misses, not_not] at hc
  obtain ⟨⟨x, hx, hx'⟩, y, hy, hy'⟩ := hc
  simp only [r₁, Except.ok.injEq] at hx
  by_cases h0 : meanTo (fun i => FW (Z i ω)) n = 0
  · simp [r₂, h0] at hy
  simp only [r₂, if_neg h0, Except.ok.injEq] at hy
  refine hmiss ⟨_, hω h0, ?_⟩
  rw [hx, hy, add_sub_add_comm]
  exact (abs_add_le _ _).trans_lt (add_lt_add hx' hy')

end Obp
