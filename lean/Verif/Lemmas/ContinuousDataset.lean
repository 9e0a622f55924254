import Verif.Model.ContinuousDataset
import Verif.Spec.ContinuousDataset
import Verif.Lemmas.TruncNormal
import Verif.Props.DatasetInit
import Mathlib.MeasureTheory.Integral.IntegralEqImproper

set_option linter.unusedSectionVars false

/-! # The truncated normal distribution with infinite bounds -/

namespace Obp
open MeasureTheory Filter Topology

theorem gaussianKernel_integrable : Integrable gaussianKernel := by
  unfold gaussianKernel
  have h := integrable_exp_neg_mul_sq (b := 1 / 2) (by norm_num)
  refine (h.div_const (Real.sqrt (2 * Real.pi))).congr (Eventually.of_forall fun x => ?_)
  dsimp only
  congr 2
  ring

/-- The distribution function of the standard normal distribution. -/
noncomputable def normalCdf (z : ℝ) : ℝ := ∫ y in Set.Iic z, gaussianKernel y

theorem normalCdf_sub (p q : ℝ) : normalCdf q - normalCdf p = normalMass p q :=
  intervalIntegral.integral_Iic_sub_Iic gaussianKernel_integrable.integrableOn gaussianKernel_integrable.integrableOn

theorem normalCdf_strictMono : StrictMono normalCdf := by
  intro p q h
  have := normalCdf_sub p q
  have := normalMass_pos h
  linarith

theorem normalCdf_continuous : Continuous normalCdf := by
  have h : normalCdf = fun z => normalCdf 0 + normalMass 0 z := by
    funext z
    rw [← normalCdf_sub]
    ring
  rw [h]
  exact continuous_const.add (continuous_iff_continuousAt.2 fun z => (normalMass_hasDerivAt 0 z).continuousAt)

theorem normalCdf_atTop : Tendsto normalCdf atTop (𝓝 1) := by
  have h := (aecover_Iic (μ := volume) (ι := ℝ) (l := atTop) tendsto_id).integral_tendsto_of_countably_generated
    gaussianKernel_integrable
  rwa [show ∫ x, gaussianKernel x = 1 from C38_integral .gaussian] at h

theorem normalCdf_atBot : Tendsto normalCdf atBot (𝓝 0) := by
  have h := intervalIntegral_tendsto_integral_Iic 0 (gaussianKernel_integrable.integrableOn (s := Set.Iic 0)) tendsto_id
  have h2 : normalCdf = fun z => normalCdf 0 - normalMass z 0 := by
    funext z
    rw [← normalCdf_sub]
    ring
  have h3 := (tendsto_const_nhds (x := normalCdf 0)).sub h
  rw [h2]
  rwa [show ∫ y in Set.Iic (0 : ℝ), gaussianKernel y = normalCdf 0 from rfl, sub_self] at h3

theorem normalCdf_pos (z : ℝ) : 0 < normalCdf z := by
  have h1 : 0 ≤ normalCdf (z - 1) := setIntegral_nonneg measurableSet_Iic fun y _ => (gaussianKernel_pos y).le
  exact h1.trans_lt (normalCdf_strictMono (by linarith))

theorem normalCdf_lt_one (z : ℝ) : normalCdf z < 1 := by
  have h1 : normalCdf (z + 1) ≤ 1 := normalCdf_strictMono.monotone.ge_of_tendsto normalCdf_atTop _
  exact (normalCdf_strictMono (by linarith)).trans_le h1

theorem exists_normalCdf {u : ℝ} (h0 : 0 < u) (h1 : u < 1) : ∃ z, normalCdf z = u := by
  have e1 : ∃ a, normalCdf a ≤ u := ((normalCdf_atBot.eventually (eventually_le_nhds h0)).exists)
  have e2 : ∃ a, u ≤ normalCdf a := ((normalCdf_atTop.eventually (eventually_ge_nhds h1)).exists)
  exact mem_range_of_exists_le_of_exists_ge normalCdf_continuous e1 e2

/-- The distribution function at a bound. -/
noncomputable def cdfAt : PyNum ℝ → ℝ
  | .fin z => normalCdf z
  | .inf => 1
  | .negInf => 0
  | .nan => 0

theorem cdfAt_mem (a : PyNum ℝ) : 0 ≤ cdfAt a ∧ cdfAt a ≤ 1 := by
  cases a <;> simp [cdfAt, (normalCdf_pos _).le, (normalCdf_lt_one _).le]

theorem cdfAt_lt {a b : PyNum ℝ} (h : a.Below b) : cdfAt a < cdfAt b := by
  cases a <;> cases b <;> simp only [PyNum.Below] at h <;> simp only [cdfAt]
  · exact normalCdf_strictMono h
  · exact normalCdf_lt_one _
  · exact normalCdf_pos _
  · norm_num

theorem ltNum_iff {a b : PyNum ℝ} : a.ltNum b = true ↔ a.Below b := by
  cases a <;> cases b <;> simp [PyNum.ltNum, PyNum.Below]

theorem le_fin_iff {a : PyNum ℝ} {z : ℝ} (ha : a ≠ .nan) : a.le (.fin z) = true ↔ cdfAt a ≤ normalCdf z := by
  cases a with
  | fin x => simp [PyNum.le, cdfAt, normalCdf_strictMono.le_iff_le]
  | inf => simp [PyNum.le, cdfAt, normalCdf_lt_one z]
  | negInf => simp [PyNum.le, cdfAt, (normalCdf_pos z).le]
  | nan => exact absurd rfl ha

theorem fin_le_iff {b : PyNum ℝ} {z : ℝ} (hb : b ≠ .nan) : (PyNum.fin z).le b = true ↔ normalCdf z ≤ cdfAt b := by
  cases b with
  | fin x => simp [PyNum.le, cdfAt, normalCdf_strictMono.le_iff_le]
  | inf => simp [PyNum.le, cdfAt, (normalCdf_lt_one z).le]
  | negInf => simp [PyNum.le, cdfAt, normalCdf_pos z]
  | nan => exact absurd rfl hb

theorem Below.ne_nan {a b : PyNum ℝ} (h : a.Below b) : a ≠ .nan ∧ b ≠ .nan := by
  cases a <;> cases b <;> simp_all [PyNum.Below]

/-- The points between two bounds, as an interval. -/
theorem between_eq {a b : PyNum ℝ} (h : a.Below b) :
    {z : ℝ | a.le (.fin z) = true ∧ (PyNum.fin z).le b = true} = {z | cdfAt a ≤ normalCdf z ∧ normalCdf z ≤ cdfAt b} := by
  ext z
  rw [Set.mem_ofPred_eq, Set.mem_ofPred_eq, le_fin_iff (Below.ne_nan h).1, fin_le_iff (Below.ne_nan h).2]

theorem measurableSet_cdf (p q : ℝ) : MeasurableSet {z : ℝ | p ≤ normalCdf z ∧ normalCdf z ≤ q} :=
  (isClosed_le continuous_const normalCdf_continuous |>.inter
    (isClosed_le normalCdf_continuous continuous_const)).measurableSet

/-- The mass of the standard normal distribution on the points with distribution function between `p` and `q`. -/
theorem setIntegral_cdf {p q : ℝ} (hp : 0 ≤ p) (hpq : p ≤ q) (hq : q ≤ 1) :
    ∫ z in {z : ℝ | p ≤ normalCdf z ∧ normalCdf z ≤ q}, gaussianKernel z = q - p := by
  have upto : ∀ r, 0 ≤ r → r ≤ 1 → ∫ z in {z : ℝ | normalCdf z < r}, gaussianKernel z = r := by
    intro r h0 h1
    rcases h0.eq_or_lt with rfl | h0
    · have : {z : ℝ | normalCdf z < 0} = ∅ := by
        ext z
        simp [(normalCdf_pos z).le]
      simp [this]
    rcases h1.eq_or_lt with rfl | h1
    · have : {z : ℝ | normalCdf z < 1} = Set.univ := by
        ext z
        simp [normalCdf_lt_one z]
      rw [this, setIntegral_univ]
      exact C38_integral .gaussian
    obtain ⟨z, rfl⟩ := exists_normalCdf h0 h1
    have : {y : ℝ | normalCdf y < normalCdf z} = Set.Iio z := by
      ext y
      simp [normalCdf_strictMono.lt_iff_lt]
    rw [this, ← integral_Iic_eq_integral_Iio]
    rfl
  have upto' : ∀ r, 0 ≤ r → r ≤ 1 → ∫ z in {z : ℝ | normalCdf z ≤ r}, gaussianKernel z = r := by
    intro r h0 h1
    rcases h0.eq_or_lt with rfl | h0
    · have : {z : ℝ | normalCdf z ≤ 0} = ∅ := by
        ext z
        simp [normalCdf_pos z]
      simp [this]
    rcases h1.eq_or_lt with rfl | h1
    · have : {z : ℝ | normalCdf z ≤ 1} = Set.univ := by
        ext z
        simp [(normalCdf_lt_one z).le]
      rw [this, setIntegral_univ]
      exact C38_integral .gaussian
    obtain ⟨z, rfl⟩ := exists_normalCdf h0 h1
    have : {y : ℝ | normalCdf y ≤ normalCdf z} = Set.Iic z := by
      ext y
      simp [normalCdf_strictMono.le_iff_le]
    rw [this]
    rfl
  have hm : MeasurableSet {z : ℝ | normalCdf z < p} :=
    (isOpen_lt normalCdf_continuous continuous_const).measurableSet
  have hd : {z : ℝ | normalCdf z ≤ q} \ {z : ℝ | normalCdf z < p} = {z : ℝ | p ≤ normalCdf z ∧ normalCdf z ≤ q} := by
    ext z
    simp only [Set.mem_sdiff, Set.mem_ofPred_eq, not_lt]
    exact and_comm
  have := setIntegral_sdiff hm (gaussianKernel_integrable.integrableOn (s := {z : ℝ | normalCdf z ≤ q}))
    (fun z (hz : normalCdf z < p) => (hz.le.trans hpq : normalCdf z ≤ q))
  rw [hd, upto p hp (hpq.trans hq), upto' q (hp.trans hpq) hq] at this
  exact this

theorem truncMassN_eq {a b : PyNum ℝ} (h : a.Below b) : truncMassN a b = cdfAt b - cdfAt a := by
  rw [truncMassN, between_eq h]
  exact setIntegral_cdf (cdfAt_mem a).1 (cdfAt_lt h).le (cdfAt_mem b).2

/-- The quantile function inverts the distribution function. -/
theorem truncPpfN_spec {a b : PyNum ℝ} (h : a.Below b) {u : ℝ} (h0 : 0 < u) (h1 : u < 1) :
    normalCdf (truncPpfN a b u) = cdfAt a + u * (cdfAt b - cdfAt a) := by
  have hab := cdfAt_lt h
  have ha := cdfAt_mem a
  have hb := cdfAt_mem b
  have hl : 0 < cdfAt a + u * (cdfAt b - cdfAt a) := by nlinarith
  have hu : cdfAt a + u * (cdfAt b - cdfAt a) < 1 := by nlinarith
  obtain ⟨z, hz⟩ := exists_normalCdf hl hu
  have hza : cdfAt a < normalCdf z := by rw [hz]; nlinarith
  have hzb : normalCdf z < cdfAt b := by rw [hz]; nlinarith
  have hmass : ∀ y : ℝ, a.le (.fin y) = true → (PyNum.fin y).le b = true →
      truncMassN a (.fin y) = normalCdf y - cdfAt a := by
    intro y h1 h2
    rw [le_fin_iff (Below.ne_nan h).1] at h1
    have : {z : ℝ | a.le (.fin z) = true ∧ (PyNum.fin z).le (.fin y) = true} =
        {z | cdfAt a ≤ normalCdf z ∧ normalCdf z ≤ normalCdf y} := by
      ext z
      rw [Set.mem_ofPred_eq, Set.mem_ofPred_eq, le_fin_iff (Below.ne_nan h).1, fin_le_iff (by simp)]
      rfl
    rw [truncMassN, this]
    exact setIntegral_cdf ha.1 h1 (normalCdf_lt_one y).le
  have hg : IsGreatest {z : ℝ | a.le (.fin z) = true ∧ (PyNum.fin z).le b = true ∧
      truncMassN a (.fin z) ≤ u * truncMassN a b} z := by
    have z1 : a.le (.fin z) = true := (le_fin_iff (Below.ne_nan h).1).2 hza.le
    have z2 : (PyNum.fin z).le b = true := (fin_le_iff (Below.ne_nan h).2).2 hzb.le
    refine ⟨⟨z1, z2, ?_⟩, ?_⟩
    · rw [hmass z z1 z2, truncMassN_eq h, hz]
      linarith
    · rintro y ⟨y1, y2, y3⟩
      rw [hmass y y1 y2, truncMassN_eq h] at y3
      rw [← normalCdf_strictMono.le_iff_le, hz]
      linarith
  rw [truncPpfN, hg.csSup_eq, hz]

theorem standardize_below {m s : ℝ} (hs : 0 < s) (lo hi : PyNum ℝ) :
    (PyNum.standardize m s lo).Below (PyNum.standardize m s hi) ↔ lo.Below hi := by
  cases lo <;> cases hi <;> simp [PyNum.standardize, PyNum.Below, hs.ne', div_lt_div_iff_of_pos_right hs]

theorem standardize_range {m s : ℝ} (hs : 0 < s) {lo hi : PyNum ℝ} (h : lo.Below hi) (x : ℝ) :
    ((PyNum.standardize m s lo).le (.fin ((x - m) / s)) = true ∧
      (PyNum.fin ((x - m) / s)).le (PyNum.standardize m s hi) = true) ↔ x ∈ actionRange lo hi := by
  cases lo <;> cases hi <;> simp only [PyNum.Below] at h <;>
    simp [PyNum.standardize, actionRange, PyNum.le, hs.ne', div_le_div_iff_of_pos_right hs]

theorem integral_standardize {m s : ℝ} (hs : 0 < s) {T : Set ℝ} (hT : MeasurableSet T) (g : ℝ → ℝ) :
    ∫ x in {x | (x - m) / s ∈ T}, g ((x - m) / s) = s * ∫ z in T, g z := by
  have hm : MeasurableSet {x : ℝ | (x - m) / s ∈ T} := by
    have : Measurable fun x : ℝ => (x - m) / s := by fun_prop
    exact this hT
  rw [← MeasureTheory.integral_indicator hm, ← MeasureTheory.integral_indicator hT]
  have h1 : (Set.indicator {x | (x - m) / s ∈ T} fun x => g ((x - m) / s))
      = fun x => (fun y => T.indicator g (y / s)) (x - m) := by
    funext x
    by_cases hx : (x - m) / s ∈ T
    · rw [Set.indicator_of_mem (by exact hx)]
      exact (Set.indicator_of_mem hx g).symm
    · rw [Set.indicator_of_notMem (by exact hx)]
      exact (Set.indicator_of_notMem hx g).symm
  rw [h1, integral_sub_right_eq_self (fun y => T.indicator g (y / s)) m, Measure.integral_comp_div, abs_of_pos hs,
    smul_eq_mul]

/-- The points of the action range, standardised. -/
theorem actionRange_eq {m s : ℝ} (hs : 0 < s) {lo hi : PyNum ℝ} (h : lo.Below hi) :
    actionRange lo hi = {x | (x - m) / s ∈ {z | cdfAt (PyNum.standardize m s lo) ≤ normalCdf z ∧
      normalCdf z ≤ cdfAt (PyNum.standardize m s hi)}} := by
  ext x
  rw [← standardize_range (m := m) hs h, Set.mem_ofPred_eq, ← between_eq ((standardize_below hs lo hi).2 h)]
  rfl

theorem gaussian_exp (z : ℝ) : Real.exp (-z ^ 2 / 2) = gaussianKernel z * Real.sqrt (2 * Real.pi) := by
  rw [gaussianKernel, div_mul_cancel₀]
  exact (Real.sqrt_pos.2 (by positivity)).ne'

theorem normalGivenPdf_eq {m s : ℝ} (hs : 0 < s) {lo hi : PyNum ℝ} (h : lo.Below hi) (x : ℝ) :
    normalGivenPdf m s (actionRange lo hi) x = (actionRange lo hi).indicator (fun x => gaussianKernel ((x - m) / s)
      / (s * (cdfAt (PyNum.standardize m s hi) - cdfAt (PyNum.standardize m s lo)))) x := by
  have hb := (standardize_below (m := m) hs lo hi).2 h
  have hp : (0 : ℝ) < Real.sqrt (2 * Real.pi) := Real.sqrt_pos.2 (by positivity)
  have hden : ∫ y in actionRange lo hi, Real.exp (-((y - m) / s) ^ 2 / 2) =
      s * (cdfAt (PyNum.standardize m s hi) - cdfAt (PyNum.standardize m s lo)) * Real.sqrt (2 * Real.pi) := by
    simp only [gaussian_exp]
    rw [MeasureTheory.integral_mul_const, actionRange_eq (m := m) hs h, integral_standardize hs (measurableSet_cdf _ _) gaussianKernel,
      setIntegral_cdf (cdfAt_mem _).1 (cdfAt_lt hb).le (cdfAt_mem _).2]
  unfold normalGivenPdf
  by_cases hx : x ∈ actionRange lo hi
  · rw [if_pos hx, Set.indicator_of_mem hx, hden, gaussian_exp, mul_div_mul_right _ _ hp.ne']
  · rw [if_neg hx, Set.indicator_of_notMem hx]

theorem truncPdfN_eq {m s : ℝ} (hs : 0 < s) {lo hi : PyNum ℝ} (h : lo.Below hi) (x : ℝ) :
    truncPdfN (PyNum.standardize m s lo) (PyNum.standardize m s hi) m s x
      = .ok (normalGivenPdf m s (actionRange lo hi) x) := by
  have hb := (standardize_below (m := m) hs lo hi).2 h
  rw [normalGivenPdf_eq hs h, truncPdfN, if_neg hs.ne', truncMassN_eq hb]
  by_cases hx : x ∈ actionRange lo hi
  · rw [if_pos ((standardize_range hs h x).2 hx), Set.indicator_of_mem hx]
  · rw [if_neg fun h' => hx ((standardize_range hs h x).1 h'), Set.indicator_of_notMem hx]

theorem normalGivenPdf_integral {m s : ℝ} (hs : 0 < s) {lo hi : PyNum ℝ} (h : lo.Below hi) (x : ℝ) :
    ∫ y in Set.Iic x, normalGivenPdf m s (actionRange lo hi) y =
      (∫ z in {z | cdfAt (PyNum.standardize m s lo) ≤ normalCdf z ∧
        normalCdf z ≤ min (cdfAt (PyNum.standardize m s hi)) (normalCdf ((x - m) / s))}, gaussianKernel z) /
      (cdfAt (PyNum.standardize m s hi) - cdfAt (PyNum.standardize m s lo)) := by
  have hm : MeasurableSet (actionRange lo hi) := by
    have hf : Measurable fun x : ℝ => (x - m) / s := by fun_prop
    rw [actionRange_eq (m := m) hs h]
    exact hf (measurableSet_cdf _ _)
  simp only [normalGivenPdf_eq hs h]
  rw [setIntegral_indicator hm, MeasureTheory.integral_div]
  have hset : Set.Iic x ∩ actionRange lo hi = {y | (y - m) / s ∈ {z | cdfAt (PyNum.standardize m s lo) ≤ normalCdf z ∧
        normalCdf z ≤ min (cdfAt (PyNum.standardize m s hi)) (normalCdf ((x - m) / s))}} := by
    rw [actionRange_eq (m := m) hs h]
    ext y
    simp only [Set.mem_inter_iff, Set.mem_Iic, Set.mem_ofPred_eq, le_min_iff, normalCdf_strictMono.le_iff_le,
      div_le_div_iff_of_pos_right hs, sub_le_sub_iff_right]
    tauto
  rw [hset, integral_standardize hs (measurableSet_cdf _ _) gaussianKernel, mul_div_mul_left _ _ hs.ne']

/-- Inverting the distribution function at a uniform number gives the stated distribution. -/
theorem truncRvsN_law {m s : ℝ} (hs : 0 < s) {lo hi : PyNum ℝ} (h : lo.Below hi) (x : ℝ) :
    volume.real {u : ℝ | 0 < u ∧ u < 1 ∧
      truncRvsN (PyNum.standardize m s lo) (PyNum.standardize m s hi) m s u ≤ x} =
    ∫ y in Set.Iic x, normalGivenPdf m s (actionRange lo hi) y := by
  have hb := (standardize_below (m := m) hs lo hi).2 h
  rw [normalGivenPdf_integral hs h]
  set a := PyNum.standardize m s lo with ha'
  set b := PyNum.standardize m s hi with hb'
  have hab := cdfAt_lt hb
  have hd : 0 < cdfAt b - cdfAt a := sub_pos.2 hab
  have ha := cdfAt_mem a
  have hb1 := cdfAt_mem b
  set N := normalCdf ((x - m) / s) with hN
  have hset : {u : ℝ | 0 < u ∧ u < 1 ∧ truncRvsN a b m s u ≤ x} =
      {u : ℝ | 0 < u ∧ u < 1 ∧ u ≤ (N - cdfAt a) / (cdfAt b - cdfAt a)} := by
    ext u
    simp only [Set.mem_ofPred_eq, and_congr_right_iff]
    intro h0 h1
    rw [truncRvsN, if_neg hs.ne', le_div_iff₀ hd, hN, le_sub_iff_add_le', ← truncPpfN_spec hb h0 h1,
      normalCdf_strictMono.le_iff_le, le_div_iff₀ hs, le_sub_iff_add_le', mul_comm]
  rw [hset]
  rcases lt_or_ge N (cdfAt a) with hlt | hge
  · have e1 : {u : ℝ | 0 < u ∧ u < 1 ∧ u ≤ (N - cdfAt a) / (cdfAt b - cdfAt a)} = ∅ := by
      ext u
      simp only [Set.mem_ofPred_eq, Set.mem_empty_iff_false, iff_false, not_and, not_le]
      intro h0 _
      exact (div_neg_of_neg_of_pos (by linarith) hd).trans h0
    have e2 : {z | cdfAt a ≤ normalCdf z ∧ normalCdf z ≤ min (cdfAt b) N} = ∅ := by
      ext z
      simp only [Set.mem_ofPred_eq, Set.mem_empty_iff_false, iff_false, not_and, not_le]
      intro h0
      exact (min_le_right _ _).trans_lt (hlt.trans_le h0)
    rw [e1, e2]
    simp
  · rw [setIntegral_cdf ha.1 (le_min hab.le hge) ((min_le_left _ _).trans hb1.2)]
    rcases le_total (cdfAt b) N with hbN | hNb
    · have e1 : {u : ℝ | 0 < u ∧ u < 1 ∧ u ≤ (N - cdfAt a) / (cdfAt b - cdfAt a)} = Set.Ioo 0 1 := by
        ext u
        simp only [Set.mem_ofPred_eq, Set.mem_Ioo]
        constructor
        · exact fun h => ⟨h.1, h.2.1⟩
        · rintro ⟨h0, h1⟩
          refine ⟨h0, h1, h1.le.trans ?_⟩
          rw [le_div_iff₀ hd]
          linarith
      rw [e1, min_eq_left hbN, div_self hd.ne', Real.volume_real_Ioo_of_le zero_le_one, sub_zero]
    · have hle : (N - cdfAt a) / (cdfAt b - cdfAt a) ≤ 1 := by
        rw [div_le_one hd]
        linarith
      have hnn : 0 ≤ (N - cdfAt a) / (cdfAt b - cdfAt a) := div_nonneg (by linarith) hd.le
      rw [min_eq_right hNb]
      refine le_antisymm ?_ ?_
      · have : {u : ℝ | 0 < u ∧ u < 1 ∧ u ≤ (N - cdfAt a) / (cdfAt b - cdfAt a)} ⊆
            Set.Ioc 0 ((N - cdfAt a) / (cdfAt b - cdfAt a)) := fun u h => ⟨h.1, h.2.2⟩
        refine (measureReal_mono this (by simp)).trans ?_
        rw [Real.volume_real_Ioc_of_le hnn, sub_zero]
      · have : Set.Ioo 0 ((N - cdfAt a) / (cdfAt b - cdfAt a)) ⊆
            {u : ℝ | 0 < u ∧ u < 1 ∧ u ≤ (N - cdfAt a) / (cdfAt b - cdfAt a)} :=
          fun u h => ⟨h.1, h.2.trans_le hle, h.2.le⟩
        have hfin : volume {u : ℝ | 0 < u ∧ u < 1 ∧ u ≤ (N - cdfAt a) / (cdfAt b - cdfAt a)} ≠ ⊤ := by
          refine ((measure_mono ?_).trans_lt (measure_Ioo_lt_top (a := (0 : ℝ)) (b := 1))).ne
          exact fun u h => ⟨h.1, h.2.1⟩
        refine le_trans ?_ (measureReal_mono this hfin)
        rw [Real.volume_real_Ioo_of_le hnn, sub_zero]

theorem normalGivenPdf_total {m s : ℝ} (hs : 0 < s) {lo hi : PyNum ℝ} (h : lo.Below hi) :
    ∫ y, normalGivenPdf m s (actionRange lo hi) y = 1 := by
  have hb := (standardize_below (m := m) hs lo hi).2 h
  have hm : MeasurableSet (actionRange lo hi) := by
    have hf : Measurable fun x : ℝ => (x - m) / s := by fun_prop
    rw [actionRange_eq (m := m) hs h]
    exact hf (measurableSet_cdf _ _)
  simp only [normalGivenPdf_eq hs h]
  rw [MeasureTheory.integral_indicator hm, MeasureTheory.integral_div, actionRange_eq (m := m) hs h,
    integral_standardize hs (measurableSet_cdf _ _) gaussianKernel,
    setIntegral_cdf (cdfAt_mem _).1 (cdfAt_lt hb).le (cdfAt_mem _).2]
  exact div_self (mul_pos hs (sub_pos.2 (cdfAt_lt hb))).ne'

theorem normalGivenPdf_pos {m s : ℝ} (hs : 0 < s) {lo hi : PyNum ℝ} (h : lo.Below hi) {x : ℝ}
    (hx : x ∈ actionRange lo hi) : 0 < normalGivenPdf m s (actionRange lo hi) x := by
  have hb := (standardize_below (m := m) hs lo hi).2 h
  rw [normalGivenPdf_eq hs h, Set.indicator_of_mem hx]
  exact div_pos (gaussianKernel_pos _) (mul_pos hs (sub_pos.2 (cdfAt_lt hb)))

theorem truncRvsN_range {m s : ℝ} (hs : 0 < s) {lo hi : PyNum ℝ} (h : lo.Below hi) {u : ℝ} (h0 : 0 < u) (h1 : u < 1) :
    truncRvsN (PyNum.standardize m s lo) (PyNum.standardize m s hi) m s u ∈ actionRange lo hi := by
  have hb := (standardize_below (m := m) hs lo hi).2 h
  have hab := cdfAt_lt hb
  rw [actionRange_eq (m := m) hs h, truncRvsN, if_neg hs.ne', Set.mem_ofPred_eq, add_sub_cancel_left,
    mul_div_cancel_left₀ _ hs.ne', Set.mem_ofPred_eq, truncPpfN_spec hb h0 h1]
  constructor <;> nlinarith

/-- Without bounds, the logged action is the mean plus noise that does not depend on the mean. -/
theorem truncRvsN_unbounded (m s u : ℝ) (hs : 0 < s) :
    truncRvsN (PyNum.standardize m s .negInf) (PyNum.standardize m s .inf) m s u = m + s * truncPpfN .negInf .inf u := by
  rw [truncRvsN, if_neg hs.ne']
  rfl

end Obp
