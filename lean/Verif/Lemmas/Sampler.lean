import Verif.Lemmas.Draws
import Verif.Lemmas.ContinuousDataset
import Mathlib.Probability.Independence.Integration
import Mathlib.MeasureTheory.Constructions.BorelSpace.Order

set_option linter.unusedSectionVars false

/-! # Sampling by inversion -/

namespace Obp
open MeasureTheory ProbabilityTheory Set

/-- `A` turns a uniform number into one with density `p`. -/
structure Sampler (A p : ℝ → ℝ) : Prop where
  nonneg : ∀ x, 0 ≤ p x
  meas : Measurable p
  total : ∫ x, p x = 1
  mono : MonotoneOn A (Ioo 0 1)
  law : ∀ x, volume.real {u : ℝ | 0 < u ∧ u < 1 ∧ A u ≤ x} = ∫ y in Iic x, p y
  pos : ∀ u, 0 < u → u < 1 → 0 < p (A u)

variable {A p : ℝ → ℝ}

theorem Sampler.integrable (h : Sampler A p) : Integrable p := by
  by_contra hc
  have := h.total
  rw [integral_undef hc] at this
  exact zero_ne_one this

theorem Sampler.aemeasurable (h : Sampler A p) : AEMeasurable A (volume.restrict (Ioo 0 1)) :=
  aemeasurable_restrict_of_monotoneOn measurableSet_Ioo h.mono

theorem Sampler.map_eq (h : Sampler A p) :
    (volume.restrict (Ioo (0 : ℝ) 1)).map A = volume.withDensity fun x => ENNReal.ofReal (p x) := by
  have : IsFiniteMeasure ((volume.restrict (Ioo (0 : ℝ) 1)).map A) := by infer_instance
  refine Measure.ext_of_Iic _ _ fun x => ?_
  rw [Measure.map_apply_of_aemeasurable h.aemeasurable measurableSet_Iic, withDensity_apply _ measurableSet_Iic,
    ← ofReal_integral_eq_lintegral_ofReal h.integrable.integrableOn (Filter.Eventually.of_forall h.nonneg), ← h.law,
    Measure.restrict_apply₀' measurableSet_Ioo.nullMeasurableSet]
  have hset : A ⁻¹' Iic x ∩ Ioo 0 1 = {u : ℝ | 0 < u ∧ u < 1 ∧ A u ≤ x} := by
    ext u
    simp only [mem_inter_iff, mem_preimage, mem_Iic, mem_Ioo, mem_ofPred_eq]
    tauto
  have hfin : volume {u : ℝ | 0 < u ∧ u < 1 ∧ A u ≤ x} ≠ ⊤ :=
    ((measure_mono (show _ ⊆ Ioo (0 : ℝ) 1 from fun u hu => ⟨hu.1, hu.2.1⟩)).trans_lt (measure_Ioo_lt_top (a := (0 : ℝ)) (b := 1))).ne
  rw [hset, ofReal_measureReal hfin]

variable {Ω : Type} [MeasurableSpace Ω] {P : Measure Ω} [IsProbabilityMeasure P] {n : ℕ}

theorem UniformDraws.map_eq {U : Fin n → Ω → ℝ} (hU : UniformDraws P U) (i : Fin n) :
    P.map (U i) = volume.restrict (Ioo (0 : ℝ) 1) := by
  have : IsFiniteMeasure (P.map (U i)) := by infer_instance
  refine Measure.ext_of_Ici _ _ fun a => ?_
  rw [Measure.map_apply (hU.meas i) measurableSet_Ici, Measure.restrict_apply measurableSet_Ici]
  have hm : MeasurableSet {ω | U i ω < a} := measurableSet_lt (hU.meas i) measurable_const
  have hset : U i ⁻¹' Ici a = {ω | U i ω < a}ᶜ := by
    ext ω
    simp
  have hprob : P (U i ⁻¹' Ici a) = ENNReal.ofReal (1 - P.real {ω | U i ω < a}) := by
    rw [hset, ← probReal_compl_eq_one_sub hm, ofReal_measureReal]
  rw [hprob]
  rcases le_total a 0 with h0 | h0
  · have : {ω | U i ω < a} = ∅ := by
      ext ω
      simp only [mem_ofPred_eq, mem_empty_iff_false, iff_false, not_lt]
      exact h0.trans (hU.range i ω).1
    have h2 : Ici a ∩ Ioo 0 1 = Ioo (0 : ℝ) 1 := inter_eq_right.2 fun x hx => h0.trans hx.1.le
    rw [this, h2, Real.volume_Ioo]
    simp
  · rcases le_total a 1 with h1 | h1
    · rw [hU.cdf i a h0 h1]
      rcases h0.eq_or_lt with rfl | h0
      · have h2 : Ici (0 : ℝ) ∩ Ioo 0 1 = Ioo (0 : ℝ) 1 := inter_eq_right.2 fun x hx => hx.1.le
        rw [h2, Real.volume_Ioo]
      · have h2 : Ici a ∩ Ioo 0 1 = Ico a 1 := by
          ext x
          simp only [mem_inter_iff, mem_Ici, mem_Ioo, mem_Ico]
          constructor
          · exact fun h => ⟨h.1, h.2.2⟩
          · exact fun h => ⟨h.1, h0.trans_le h.1, h.2⟩
        rw [h2, Real.volume_Ico]
    · have : {ω | U i ω < a} = univ := by
        ext ω
        simp only [mem_ofPred_eq, mem_univ, iff_true]
        exact (hU.range i ω).2.trans_le h1
      have h2 : Ici a ∩ Ioo 0 1 = ∅ := by
        ext x
        simp only [mem_inter_iff, mem_Ici, mem_Ioo, mem_empty_iff_false, iff_false, not_and, not_lt]
        exact fun h _ => h1.trans h
      rw [this, h2]
      simp

/-- A uniform number is almost surely positive. -/
theorem UniformDraws.ae_pos {U : Fin n → Ω → ℝ} (hU : UniformDraws P U) : ∀ᵐ ω ∂P, ∀ i, 0 < U i ω ∧ U i ω < 1 := by
  rw [ae_all_iff]
  intro i
  have h : ∀ᵐ u ∂(P.map (U i)), u ∈ Ioo (0 : ℝ) 1 := by
    rw [hU.map_eq i]
    exact ae_restrict_mem measurableSet_Ioo
  exact ae_of_ae_map (hU.meas i).aemeasurable h

/-- Expectations of functions of a number sampled by inversion. -/
theorem Sampler.expect (h : Sampler A p) {U : Fin n → Ω → ℝ} (hU : UniformDraws P U) (i : Fin n) {g : ℝ → ℝ} (hg : Measurable g)
    (hi : Integrable fun x => p x * g x) :
    AEMeasurable (fun u => g (A u)) (P.map (U i)) ∧ Integrable (fun ω => g (A (U i ω))) P ∧
      ∫ ω, g (A (U i ω)) ∂P = ∫ x, p x * g x := by
  have hA : AEMeasurable A (P.map (U i)) := by
    rw [hU.map_eq i]
    exact h.aemeasurable
  have hmap : P.map (fun ω => A (U i ω)) = volume.withDensity fun x => ENNReal.ofReal (p x) := by
    rw [← h.map_eq, ← hU.map_eq i, AEMeasurable.map_map_of_aemeasurable hA (hU.meas i).aemeasurable]
    rfl
  have hAU : AEMeasurable (fun ω => A (U i ω)) P := hA.comp_aemeasurable (hU.meas i).aemeasurable
  have hd : Measurable fun x => ENNReal.ofReal (p x) := h.meas.ennreal_ofReal
  have hto : ∀ x, (ENNReal.ofReal (p x)).toReal • g x = p x * g x := fun x => by
    rw [ENNReal.toReal_ofReal (h.nonneg x), smul_eq_mul]
  refine ⟨hg.comp_aemeasurable hA, ?_, ?_⟩
  · have := (integrable_map_measure (f := fun ω => A (U i ω)) (g := g) hg.aestronglyMeasurable hAU).1 (by
      rw [hmap, integrable_withDensity_iff_integrable_smul' hd (Filter.Eventually.of_forall fun _ => ENNReal.ofReal_lt_top)]
      simpa only [hto] using hi)
    exact this
  · have := integral_map hAU (f := g) hg.aestronglyMeasurable
    rw [hmap, integral_withDensity_eq_integral_toReal_smul hd (Filter.Eventually.of_forall fun _ => ENNReal.ofReal_lt_top)] at this
    simp only [hto] at this
    exact this.symm

/-- The two samplers of the dataset. -/
theorem gaussian_sampler (m : ℝ) {s : ℝ} (hs : 0 < s) {lo hi : PyNum ℝ} (h : lo.Below hi) :
    Sampler (fun u => truncRvsN (PyNum.standardize m s lo) (PyNum.standardize m s hi) m s u)
      (normalGivenPdf m s (actionRange lo hi)) := by
  have hb := (standardize_below (m := m) hs lo hi).2 h
  have hT : MeasurableSet (actionRange lo hi) := by
    have hf : Measurable fun x : ℝ => (x - m) / s := by fun_prop
    rw [actionRange_eq (m := m) hs h]
    exact hf (measurableSet_cdf _ _)
  refine ⟨fun x => ?_, ?_, normalGivenPdf_total hs h, ?_, truncRvsN_law hs h, fun u h0 h1 =>
    normalGivenPdf_pos hs h (truncRvsN_range hs h h0 h1)⟩
  · by_cases hx : x ∈ actionRange lo hi
    · exact (normalGivenPdf_pos hs h hx).le
    · rw [normalGivenPdf, if_neg hx]
  · rw [show normalGivenPdf m s (actionRange lo hi) = _ from funext (normalGivenPdf_eq hs h)]
    refine Measurable.indicator ?_ hT
    have := gaussianKernel_continuous.measurable
    fun_prop
  · intro u hu v hv huv
    dsimp only
    rw [truncRvsN, truncRvsN, if_neg hs.ne', if_neg hs.ne']
    have : truncPpfN (PyNum.standardize m s lo) (PyNum.standardize m s hi) u ≤
        truncPpfN (PyNum.standardize m s lo) (PyNum.standardize m s hi) v := by
      rw [← normalCdf_strictMono.le_iff_le, truncPpfN_spec hb hu.1 hu.2, truncPpfN_spec hb hv.1 hv.2]
      have := cdfAt_lt hb
      nlinarith
    nlinarith

theorem uniform_sampler {l h : ℝ} (hlh : l < h) :
    Sampler (fun u => l + (h - l) * u) ((actionRange (.fin l) (.fin h)).indicator fun _ => 1 / (h - l)) := by
  have hd : 0 < h - l := sub_pos.2 hlh
  have hT : actionRange (.fin l) (.fin h) = Icc l h := by
    ext x
    simp [actionRange]
  have hr : ∀ u, 0 < u → u < 1 → l + (h - l) * u ∈ Icc l h := fun u h0 h1 => by
    constructor <;> nlinarith
  rw [hT]
  refine ⟨fun x => indicator_nonneg (fun _ _ => by positivity) x, measurable_const.indicator measurableSet_Icc, ?_, ?_, fun x => ?_,
    fun u h0 h1 => ?_⟩
  · rw [MeasureTheory.integral_indicator measurableSet_Icc, setIntegral_const, Real.volume_real_Icc_of_le hlh.le, smul_eq_mul,
      mul_one_div, div_self hd.ne']
  · intro u _ v _ huv
    dsimp only
    nlinarith
  · rw [setIntegral_indicator measurableSet_Icc, setIntegral_const, smul_eq_mul]
    rcases lt_or_ge x l with hx | hx
    · have e1 : {u : ℝ | 0 < u ∧ u < 1 ∧ l + (h - l) * u ≤ x} = ∅ := by
        ext u
        simp only [mem_ofPred_eq, mem_empty_iff_false, iff_false, not_and, not_le]
        intro h0 h1
        nlinarith
      have e2 : Iic x ∩ Icc l h = ∅ := by
        ext y
        simp only [mem_inter_iff, mem_Iic, mem_Icc, mem_empty_iff_false, iff_false, not_and, not_le]
        intro h1 h2
        linarith
      rw [e1, e2]
      simp
    · rcases lt_or_ge x h with hx2 | hx2
      · have e1 : {u : ℝ | 0 < u ∧ u < 1 ∧ l + (h - l) * u ≤ x} = Ioc 0 ((x - l) / (h - l)) := by
          ext u
          simp only [mem_ofPred_eq, mem_Ioc, le_div_iff₀ hd]
          constructor
          · rintro ⟨a, b, c⟩
            exact ⟨a, by linarith⟩
          · rintro ⟨a, b⟩
            refine ⟨a, ?_, by linarith⟩
            nlinarith
        have e2 : Iic x ∩ Icc l h = Icc l x := by
          ext y
          simp only [mem_inter_iff, mem_Iic, mem_Icc]
          constructor
          · exact fun h => ⟨h.2.1, h.1⟩
          · exact fun h' => ⟨h'.2, h'.1, h'.2.trans hx2.le⟩
        rw [e1, e2, Real.volume_real_Ioc_of_le (div_nonneg (by linarith) hd.le), Real.volume_real_Icc_of_le hx]
        ring
      · have e1 : {u : ℝ | 0 < u ∧ u < 1 ∧ l + (h - l) * u ≤ x} = Ioo 0 1 := by
          ext u
          simp only [mem_ofPred_eq, mem_Ioo]
          constructor
          · exact fun h => ⟨h.1, h.2.1⟩
          · exact fun h' => ⟨h'.1, h'.2, (hr u h'.1 h'.2).2.trans hx2⟩
        have e2 : Iic x ∩ Icc l h = Icc l h := inter_eq_right.2 fun y hy => hy.2.trans hx2
        rw [e1, e2, Real.volume_real_Ioo_of_le zero_le_one, Real.volume_real_Icc_of_le hlh.le, mul_one_div, div_self hd.ne', sub_zero]
  · rw [indicator_of_mem (hr u h0 h1)]
    positivity

end Obp
