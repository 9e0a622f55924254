import Verif.Spec.TruncNormal
import Verif.Props.Kernels
import Verif.Lemmas.Estimators
import Mathlib.MeasureTheory.Integral.IntervalIntegral.FundThmCalculus
import Mathlib.MeasureTheory.Measure.Haar.NormedSpace
import Mathlib.MeasureTheory.Function.JacobianOneDim

set_option linter.unusedSectionVars false

/-! # The truncated normal distribution -/

namespace Obp
open MeasureTheory intervalIntegral

theorem gaussianKernel_pos (u : ℝ) : 0 < gaussianKernel u := C38_pos .gaussian (Or.inl rfl)

theorem gaussianKernel_continuous : Continuous gaussianKernel := by
  unfold gaussianKernel; fun_prop

theorem gaussianKernel_hasDerivAt (u : ℝ) : HasDerivAt gaussianKernel (-(u * gaussianKernel u)) u := by
  have h : HasDerivAt (fun u : ℝ => -(u ^ 2) / 2) (-u) u := by
    refine (((hasDerivAt_pow 2 u).neg).div_const 2).congr_deriv ?_
    push_cast; ring
  refine ((h.exp).div_const (Real.sqrt (2 * Real.pi))).congr_deriv ?_
  unfold gaussianKernel
  ring

theorem normalMass_pos {a b : ℝ} (h : a < b) : 0 < normalMass a b :=
  intervalIntegral_pos_of_pos_on (gaussianKernel_continuous.intervalIntegrable _ _)
    (fun u _ => gaussianKernel_pos u) h

theorem integral_id_gaussian (a b : ℝ) :
    ∫ z in a..b, z * gaussianKernel z = gaussianKernel a - gaussianKernel b := by
  have h := integral_eq_sub_of_hasDerivAt (a := a) (b := b) (fun u _ => gaussianKernel_hasDerivAt u)
    ((continuous_id.mul gaussianKernel_continuous).neg.intervalIntegrable _ _)
  rw [intervalIntegral.integral_neg] at h
  have h' : -∫ z in a..b, z * gaussianKernel z = gaussianKernel b - gaussianKernel a := h
  linarith

theorem gaussianKernel_lt_iff {u v : ℝ} : gaussianKernel v < gaussianKernel u ↔ u ^ 2 < v ^ 2 := by
  have hp : 0 < Real.sqrt (2 * Real.pi) := Real.sqrt_pos.2 (by positivity)
  unfold gaussianKernel
  rw [div_lt_div_iff_of_pos_right hp, Real.exp_lt_exp]
  constructor <;> intro h <;> linarith

theorem truncPdf_eq (a b loc scale x : ℝ) : truncPdf a b loc scale x =
    if a ≤ (x - loc) / scale ∧ (x - loc) / scale ≤ b then
      gaussianKernel ((x - loc) / scale) / (scale * normalMass a b) else 0 := rfl

/-- Expectations under the truncated normal distribution, standardised. -/
theorem truncnorm_expect {a b loc scale : ℝ} (hab : a < b) (hs : 0 < scale) (g : ℝ → ℝ) :
    ∫ x, g x * truncPdf a b loc scale x
      = (∫ z in a..b, g (loc + scale * z) * gaussianKernel z) / normalMass a b := by
  have hZ := normalMass_pos hab
  let h : ℝ → ℝ := fun z => if a ≤ z ∧ z ≤ b then g (loc + scale * z) * gaussianKernel z else 0
  have h1 : (fun x => g x * truncPdf a b loc scale x)
      = fun x => (fun y => h (y / scale) / (scale * normalMass a b)) (x - loc) := by
    funext x
    rw [truncPdf_eq]
    simp only [h]
    have hx : loc + scale * ((x - loc) / scale) = x := by field_simp; ring
    split
    · rw [hx, mul_div_assoc]
    · simp
  rw [h1, integral_sub_right_eq_self (fun y => h (y / scale) / (scale * normalMass a b)) loc,
    MeasureTheory.integral_div, Measure.integral_comp_div h scale, abs_of_pos hs, smul_eq_mul,
    mul_div_mul_left _ _ hs.ne']
  congr 1
  rw [intervalIntegral.integral_of_le hab.le, ← integral_Icc_eq_integral_Ioc,
    ← MeasureTheory.integral_indicator measurableSet_Icc]
  congr 1
  funext z
  simp only [h, Set.indicator, Set.mem_Icc]

theorem truncnorm_total {a b loc scale : ℝ} (hab : a < b) (hs : 0 < scale) :
    ∫ x, truncPdf a b loc scale x = 1 := by
  have h := truncnorm_expect (loc := loc) hab hs fun _ => 1
  simp only [one_mul] at h
  rw [h]
  exact div_self (normalMass_pos hab).ne'

theorem truncnorm_mean {a b loc scale : ℝ} (hab : a < b) (hs : 0 < scale) :
    ∫ x, x * truncPdf a b loc scale x = truncMean a b loc scale := by
  rw [truncnorm_expect hab hs fun x => x]
  have hZ := (normalMass_pos hab).ne'
  have h : ∫ z in a..b, (loc + scale * z) * gaussianKernel z
      = loc * normalMass a b + scale * (gaussianKernel a - gaussianKernel b) := by
    rw [← integral_id_gaussian, normalMass, ← intervalIntegral.integral_const_mul,
      ← intervalIntegral.integral_const_mul, ← intervalIntegral.integral_add]
    · congr 1; funext z; ring
    · exact (continuous_const.mul gaussianKernel_continuous).intervalIntegrable _ _
    · exact (continuous_const.mul (continuous_id.mul gaussianKernel_continuous)).intervalIntegrable _ _
  rw [h, truncMean]
  field_simp

/-- Truncation moves the mean towards the middle of the interval. -/
theorem truncMean_gt_iff {lo hi loc scale : ℝ} (h : lo < hi) (hs : 0 < scale) :
    loc < truncMean ((lo - loc) / scale) ((hi - loc) / scale) loc scale ↔ loc < (lo + hi) / 2 := by
  have hab : (lo - loc) / scale < (hi - loc) / scale := by gcongr
  have hZ := normalMass_pos hab
  rw [truncMean, lt_add_iff_pos_right, mul_pos_iff_of_pos_left hs, div_pos_iff_of_pos_right hZ, sub_pos,
    gaussianKernel_lt_iff, div_pow, div_pow, div_lt_div_iff_of_pos_right (by positivity)]
  constructor <;> intro h' <;> nlinarith

theorem truncMean_lt_iff {lo hi loc scale : ℝ} (h : lo < hi) (hs : 0 < scale) :
    truncMean ((lo - loc) / scale) ((hi - loc) / scale) loc scale < loc ↔ (lo + hi) / 2 < loc := by
  have hab : (lo - loc) / scale < (hi - loc) / scale := by gcongr
  have hZ := normalMass_pos hab
  have : truncMean ((lo - loc) / scale) ((hi - loc) / scale) loc scale < loc ↔
      gaussianKernel ((lo - loc) / scale) < gaussianKernel ((hi - loc) / scale) := by
    rw [truncMean, add_lt_iff_neg_left, mul_neg_iff]
    constructor
    · rintro (⟨_, h1⟩ | ⟨h1, _⟩)
      · rw [div_neg_iff] at h1
        rcases h1 with ⟨_, h2⟩ | ⟨h2, _⟩
        · exact absurd h2 hZ.not_gt
        · linarith
      · exact absurd h1 hs.not_gt
    · intro h1
      exact Or.inl ⟨hs, div_neg_of_neg_of_pos (by linarith) hZ⟩
  rw [this, gaussianKernel_lt_iff, div_pow, div_pow, div_lt_div_iff_of_pos_right (by positivity)]
  constructor <;> intro h' <;> nlinarith

theorem integral_centered {c h : ℝ} (hc : 0 < c) (hh : 0 < h) :
    ∫ u in (-h)..h, u * gaussianKernel (u + c) < 0 := by
  have hcont : Continuous fun u : ℝ => u * gaussianKernel (u + c) :=
    continuous_id.mul (gaussianKernel_continuous.comp (continuous_id.add continuous_const))
  have hcont2 : Continuous fun u : ℝ => (-u) * gaussianKernel (-u + c) := hcont.comp continuous_neg
  have h1 : ∫ u in (-h)..0, u * gaussianKernel (u + c) = ∫ u in (0:ℝ)..h, (-u) * gaussianKernel (-u + c) := by
    have := intervalIntegral.integral_comp_neg (a := 0) (b := h) fun u => u * gaussianKernel (u + c)
    simp only [neg_zero] at this
    exact this.symm
  rw [← intervalIntegral.integral_add_adjacent_intervals (b := 0) (hcont.intervalIntegrable _ _)
    (hcont.intervalIntegrable _ _), h1, ← intervalIntegral.integral_add (hcont2.intervalIntegrable _ _)
    (hcont.intervalIntegrable _ _)]
  have h2 : 0 < ∫ u in (0:ℝ)..h, -(-u * gaussianKernel (-u + c) + u * gaussianKernel (u + c)) := by
    refine intervalIntegral_pos_of_pos_on ((hcont2.add hcont).neg.intervalIntegrable _ _) ?_ hh
    rintro u ⟨hu, _⟩
    have : gaussianKernel (u + c) < gaussianKernel (-u + c) := by
      rw [gaussianKernel_lt_iff]; nlinarith
    nlinarith
  rw [intervalIntegral.integral_neg] at h2
  linarith

/-- A truncated normal distribution centred below the middle of the interval has its mean below it. -/
theorem truncMean_lt_mid {lo hi loc scale : ℝ} (h : lo < hi) (hs : 0 < scale) (hloc : loc < (lo + hi) / 2) :
    truncMean ((lo - loc) / scale) ((hi - loc) / scale) loc scale < (lo + hi) / 2 := by
  have hab : (lo - loc) / scale < (hi - loc) / scale := by gcongr
  have hZ := normalMass_pos hab
  set a := (lo - loc) / scale with ha
  set b := (hi - loc) / scale with hb
  have hc : 0 < (a + b) / 2 := by
    have : (a + b) / 2 = ((lo + hi) / 2 - loc) / scale := by rw [ha, hb]; field_simp; ring
    rw [this]; exact div_pos (by linarith) hs
  have key := integral_centered (h := (b - a) / 2) hc (by linarith)
  have hshift : ∫ u in (-((b - a) / 2))..((b - a) / 2), u * gaussianKernel (u + (a + b) / 2)
      = ∫ z in a..b, (z - (a + b) / 2) * gaussianKernel z := by
    have := intervalIntegral.integral_comp_add_right (a := -((b - a) / 2)) (b := (b - a) / 2)
      (fun z => (z - (a + b) / 2) * gaussianKernel z) ((a + b) / 2)
    simp only [add_sub_cancel_right] at this
    rw [this]
    congr 1 <;> ring
  have hlin : ∫ z in a..b, (z - (a + b) / 2) * gaussianKernel z
      = (gaussianKernel a - gaussianKernel b) - (a + b) / 2 * normalMass a b := by
    rw [← integral_id_gaussian, normalMass, ← intervalIntegral.integral_const_mul,
      ← intervalIntegral.integral_sub]
    · congr 1; funext z; ring
    · exact (continuous_id.mul gaussianKernel_continuous).intervalIntegrable _ _
    · exact (continuous_const.mul gaussianKernel_continuous).intervalIntegrable _ _
  rw [hshift, hlin] at key
  have h3 : (gaussianKernel a - gaussianKernel b) / normalMass a b < (a + b) / 2 := by
    rw [div_lt_iff₀ hZ]; linarith
  have h4 : (lo + hi) / 2 = loc + scale * ((a + b) / 2) := by rw [ha, hb]; field_simp; ring
  rw [truncMean, h4]
  have := mul_lt_mul_of_pos_left h3 hs
  linarith

theorem truncMean_neg (a b loc scale : ℝ) : truncMean (-b) (-a) (-loc) scale = -truncMean a b loc scale := by
  have h : normalMass (-b) (-a) = normalMass a b := by
    rw [normalMass, ← intervalIntegral.integral_comp_neg]
    exact intervalIntegral.integral_congr fun u _ => C38_symm .gaussian u
  have hk : ∀ u, gaussianKernel (-u) = gaussianKernel u := C38_symm .gaussian
  rw [truncMean, truncMean, h, hk, hk]
  ring

theorem truncMean_gt_mid {lo hi loc scale : ℝ} (h : lo < hi) (hs : 0 < scale) (hloc : (lo + hi) / 2 < loc) :
    (lo + hi) / 2 < truncMean ((lo - loc) / scale) ((hi - loc) / scale) loc scale := by
  have h1 := truncMean_lt_mid (lo := -hi) (hi := -lo) (loc := -loc) (by linarith) hs (by linarith)
  have e1 : (-hi - -loc) / scale = -((hi - loc) / scale) := by ring
  have e2 : (-lo - -loc) / scale = -((lo - loc) / scale) := by ring
  rw [e1, e2, truncMean_neg] at h1
  linarith

theorem truncMean_gt_lo {lo hi loc scale : ℝ} (h : lo < hi) (hs : 0 < scale) :
    lo < truncMean ((lo - loc) / scale) ((hi - loc) / scale) loc scale := by
  have hab : (lo - loc) / scale < (hi - loc) / scale := by gcongr
  have hZ := normalMass_pos hab
  have hpos : 0 < ∫ z in ((lo - loc) / scale)..((hi - loc) / scale), (z - (lo - loc) / scale) * gaussianKernel z := by
    refine intervalIntegral_pos_of_pos_on
      (((continuous_id.sub continuous_const).mul gaussianKernel_continuous).intervalIntegrable _ _) ?_ hab
    rintro z ⟨hz, _⟩
    exact mul_pos (sub_pos.2 hz) (gaussianKernel_pos z)
  have hlin : ∫ z in ((lo - loc) / scale)..((hi - loc) / scale), (z - (lo - loc) / scale) * gaussianKernel z
      = (gaussianKernel ((lo - loc) / scale) - gaussianKernel ((hi - loc) / scale))
        - (lo - loc) / scale * normalMass ((lo - loc) / scale) ((hi - loc) / scale) := by
    rw [← integral_id_gaussian, normalMass, ← intervalIntegral.integral_const_mul,
      ← intervalIntegral.integral_sub]
    · congr 1; funext z; ring
    · exact (continuous_id.mul gaussianKernel_continuous).intervalIntegrable _ _
    · exact (continuous_const.mul gaussianKernel_continuous).intervalIntegrable _ _
  rw [hlin] at hpos
  have h3 : (lo - loc) / scale < (gaussianKernel ((lo - loc) / scale) - gaussianKernel ((hi - loc) / scale))
      / normalMass ((lo - loc) / scale) ((hi - loc) / scale) := by
    rw [lt_div_iff₀ hZ]; linarith
  have h4 := mul_lt_mul_of_pos_left h3 hs
  rw [mul_div_cancel₀ _ hs.ne'] at h4
  rw [truncMean]
  linarith

theorem truncMean_lt_hi {lo hi loc scale : ℝ} (h : lo < hi) (hs : 0 < scale) :
    truncMean ((lo - loc) / scale) ((hi - loc) / scale) loc scale < hi := by
  have h1 := truncMean_gt_lo (lo := -hi) (hi := -lo) (loc := -loc) (by linarith) hs
  have e1 : (-hi - -loc) / scale = -((hi - loc) / scale) := by ring
  have e2 : (-lo - -loc) / scale = -((lo - loc) / scale) := by ring
  rw [e1, e2, truncMean_neg] at h1
  linarith

theorem normalMass_self (a : ℝ) : normalMass a a = 0 := intervalIntegral.integral_same

theorem normalMass_sub (a p q : ℝ) : normalMass a q - normalMass a p = normalMass p q := by
  have h := intervalIntegral.integral_add_adjacent_intervals
    (gaussianKernel_continuous.intervalIntegrable (μ := volume) a p)
    (gaussianKernel_continuous.intervalIntegrable (μ := volume) p q)
  unfold normalMass
  linarith

theorem normalMass_strictMono (a : ℝ) : StrictMono (normalMass a) := by
  intro p q h
  have := normalMass_sub a p q
  have := normalMass_pos h
  linarith

theorem normalMass_hasDerivAt (a z : ℝ) : HasDerivAt (normalMass a) (gaussianKernel z) z :=
  intervalIntegral.integral_hasDerivAt_right (gaussianKernel_continuous.intervalIntegrable _ _)
    (gaussianKernel_continuous.stronglyMeasurableAtFilter _ _) gaussianKernel_continuous.continuousAt

theorem truncPpf_cdf {a b z : ℝ} (hab : a < b) (h1 : a ≤ z) (h2 : z ≤ b) :
    truncPpf a b (normalMass a z / normalMass a b) = z := by
  have hZ := normalMass_pos hab
  have hset : {y | a ≤ y ∧ y ≤ b ∧ normalMass a y ≤ normalMass a z / normalMass a b * normalMass a b} = Set.Icc a z := by
    ext y
    rw [Set.mem_ofPred_eq, div_mul_cancel₀ _ hZ.ne', (normalMass_strictMono a).le_iff_le, Set.mem_Icc]
    exact ⟨fun h => ⟨h.1, h.2.2⟩, fun h => ⟨h.1, h.2.trans h2, h.2⟩⟩
  rw [truncPpf, hset, csSup_Icc h1]

/-- Inverse transform sampling: integrating over the uniform draw is integrating against the density. -/
theorem truncPpf_integral {a b p q : ℝ} (hab : a < b) (hp : a ≤ p) (hpq : p ≤ q) (hq : q ≤ b) (g : ℝ → ℝ) :
    ∫ u in Set.Icc (normalMass a p / normalMass a b) (normalMass a q / normalMass a b), g (truncPpf a b u)
      = (∫ z in p..q, g z * gaussianKernel z) / normalMass a b := by
  have hZ := normalMass_pos hab
  have himg : (fun z => normalMass a z / normalMass a b) '' Set.Icc p q
      = Set.Icc (normalMass a p / normalMass a b) (normalMass a q / normalMass a b) := by
    have hcont : Continuous fun z => normalMass a z / normalMass a b :=
      (continuous_iff_continuousAt.2 fun z => (normalMass_hasDerivAt a z).continuousAt).div_const _
    have hmono : Monotone fun z => normalMass a z / normalMass a b := fun x y h =>
      div_le_div_of_nonneg_right ((normalMass_strictMono a).monotone h) hZ.le
    refine subset_antisymm ?_ (intermediate_value_Icc hpq hcont.continuousOn)
    rintro _ ⟨z, hz, rfl⟩
    exact ⟨hmono hz.1, hmono hz.2⟩
  rw [← himg, integral_image_eq_integral_abs_deriv_smul measurableSet_Icc
    (fun z _ => ((normalMass_hasDerivAt a z).div_const _).hasDerivWithinAt)
    (fun x _ y _ h => (normalMass_strictMono a).injective (by
      have h' : normalMass a x / normalMass a b = normalMass a y / normalMass a b := h
      rwa [div_left_inj' hZ.ne'] at h'))]
  rw [intervalIntegral.integral_of_le hpq, ← integral_Icc_eq_integral_Ioc, ← MeasureTheory.integral_div]
  refine setIntegral_congr_fun measurableSet_Icc fun z hz => ?_
  rw [smul_eq_mul, abs_of_pos (div_pos (gaussianKernel_pos z) hZ), truncPpf_cdf hab (hp.trans hz.1) (hz.2.trans hq)]
  ring

/-- Every level is the distribution function of a point. -/
theorem exists_cdf {a b u : ℝ} (hab : a < b) (h0 : 0 ≤ u) (h1 : u ≤ 1) :
    ∃ z, a ≤ z ∧ z ≤ b ∧ normalMass a z / normalMass a b = u := by
  have hZ := normalMass_pos hab
  have hcont : Continuous fun z => normalMass a z / normalMass a b :=
    (continuous_iff_continuousAt.2 fun z => (normalMass_hasDerivAt a z).continuousAt).div_const _
  have := intermediate_value_Icc hab.le hcont.continuousOn
  obtain ⟨z, hz, hz'⟩ := this (show u ∈ _ by
    rw [normalMass_self, zero_div, div_self hZ.ne']; exact ⟨h0, h1⟩)
  exact ⟨z, hz.1, hz.2, hz'⟩

theorem truncRvs_mono {a b loc scale : ℝ} (hab : a < b) (hs : 0 < scale) {u v : ℝ} (h0 : 0 ≤ u) (huv : u < v)
    (h1 : v ≤ 1) : truncRvs a b loc scale u < truncRvs a b loc scale v := by
  obtain ⟨z, hz1, hz2, rfl⟩ := exists_cdf hab h0 (huv.le.trans h1)
  obtain ⟨w, hw1, hw2, rfl⟩ := exists_cdf hab (h0.trans huv.le) h1
  rw [div_lt_div_iff_of_pos_right (normalMass_pos hab), (normalMass_strictMono a).lt_iff_lt] at huv
  rw [truncRvs, truncRvs, truncPpf_cdf hab hz1 hz2, truncPpf_cdf hab hw1 hw2]
  have := mul_lt_mul_of_pos_left huv hs
  linarith

theorem integral_affine_gaussian (a b loc scale : ℝ) : ∫ z in a..b, (loc + scale * z) * gaussianKernel z
    = loc * normalMass a b + scale * ∫ z in a..b, z * gaussianKernel z := by
  rw [normalMass, ← intervalIntegral.integral_const_mul,
    ← intervalIntegral.integral_const_mul, ← intervalIntegral.integral_add]
  · congr 1; funext z; ring
  · exact (continuous_const.mul gaussianKernel_continuous).intervalIntegrable _ _
  · exact (continuous_const.mul (continuous_id.mul gaussianKernel_continuous)).intervalIntegrable _ _

/-- Averaging the draws over a lower part of the uniform numbers gives less than the mean, over an upper part more. -/
theorem truncRvs_lower {a b loc scale c : ℝ} (hab : a < b) (hs : 0 < scale) (h0 : 0 < c) (h1 : c < 1) :
    ∫ u in Set.Icc 0 c, truncRvs a b loc scale u < c * truncMean a b loc scale := by
  have hZ := normalMass_pos hab
  obtain ⟨y, hy1, hy2, rfl⟩ := exists_cdf hab h0.le h1.le
  have hay : a < y := by
    rcases hy1.lt_or_eq with h | h
    · exact h
    · rw [← h, normalMass_self, zero_div] at h0; exact absurd h0 (lt_irrefl _)
  have hyb : y < b := by
    rcases hy2.lt_or_eq with h | h
    · exact h
    · rw [h, div_self hZ.ne'] at h1; exact absurd h1 (lt_irrefl _)
  have hL : ∫ z in a..y, z * gaussianKernel z < y * normalMass a y := by
    have hp : 0 < ∫ z in a..y, (y - z) * gaussianKernel z :=
      intervalIntegral_pos_of_pos_on
        (((continuous_const.sub continuous_id).mul gaussianKernel_continuous).intervalIntegrable _ _)
        (fun z hz => mul_pos (sub_pos.2 hz.2) (gaussianKernel_pos z)) hay
    have := integral_affine_gaussian a y y (-1)
    have he : ∫ z in a..y, (y - z) * gaussianKernel z = ∫ z in a..y, (y + -1 * z) * gaussianKernel z := by
      congr 1; funext z; ring
    rw [he, this] at hp
    linarith
  have hU : y * normalMass y b < ∫ z in y..b, z * gaussianKernel z := by
    have hp : 0 < ∫ z in y..b, (z - y) * gaussianKernel z :=
      intervalIntegral_pos_of_pos_on
        (((continuous_id.sub continuous_const).mul gaussianKernel_continuous).intervalIntegrable _ _)
        (fun z hz => mul_pos (sub_pos.2 hz.1) (gaussianKernel_pos z)) hyb
    have := integral_affine_gaussian y b (-y) 1
    have he : ∫ z in y..b, (z - y) * gaussianKernel z = ∫ z in y..b, (-y + 1 * z) * gaussianKernel z := by
      congr 1; funext z; ring
    rw [he, this] at hp
    linarith
  have hsub := normalMass_sub a y b
  have hadd := intervalIntegral.integral_add_adjacent_intervals
    ((continuous_id.mul gaussianKernel_continuous).intervalIntegrable (μ := volume) a y)
    ((continuous_id.mul gaussianKernel_continuous).intervalIntegrable (μ := volume) y b)
  have hadd' : (∫ z in a..y, z * gaussianKernel z) + ∫ z in y..b, z * gaussianKernel z
      = gaussianKernel a - gaussianKernel b := hadd.trans (integral_id_gaussian a b)
  have hint := truncPpf_integral hab le_rfl hay.le hy2 fun z => loc + scale * z
  rw [normalMass_self, zero_div] at hint
  have hint' : ∫ u in Set.Icc 0 (normalMass a y / normalMass a b), truncRvs a b loc scale u
      = (∫ z in a..y, (loc + scale * z) * gaussianKernel z) / normalMass a b := hint
  rw [hint', integral_affine_gaussian, truncMean, ← hadd']
  have hm1 := normalMass_pos hay
  have hm2 := normalMass_pos hyb
  rw [div_lt_iff₀ hZ]
  have hkey : normalMass a b * (∫ z in a..y, z * gaussianKernel z)
      < normalMass a y * ((∫ z in a..y, z * gaussianKernel z) + ∫ z in y..b, z * gaussianKernel z) := by
    have e1 := mul_lt_mul_of_pos_left hL hm2
    have e2 := mul_lt_mul_of_pos_left hU hm1
    have e3 : normalMass a b = normalMass a y + normalMass y b := by linarith
    rw [e3]
    nlinarith
  have e : normalMass a y / normalMass a b * (loc + scale * (((∫ z in a..y, z * gaussianKernel z)
      + ∫ z in y..b, z * gaussianKernel z) / normalMass a b)) * normalMass a b
      = loc * normalMass a y + scale * (normalMass a y * ((∫ z in a..y, z * gaussianKernel z)
        + ∫ z in y..b, z * gaussianKernel z) / normalMass a b) := by
    field_simp
  rw [e]
  have : (∫ z in a..y, z * gaussianKernel z) < normalMass a y * ((∫ z in a..y, z * gaussianKernel z)
        + ∫ z in y..b, z * gaussianKernel z) / normalMass a b := by
    rw [lt_div_iff₀ hZ]; linarith
  have := mul_lt_mul_of_pos_left this hs
  linarith

theorem truncRvs_split {a b loc scale c : ℝ} (hab : a < b) (h0 : 0 ≤ c) (h1 : c ≤ 1) :
    (∫ u in Set.Icc 0 c, truncRvs a b loc scale u) + ∫ u in Set.Icc c 1, truncRvs a b loc scale u
      = truncMean a b loc scale := by
  have hZ := normalMass_pos hab
  obtain ⟨y, hy1, hy2, rfl⟩ := exists_cdf hab h0 h1
  have hl := truncPpf_integral hab le_rfl hy1 hy2 fun z => loc + scale * z
  have hu := truncPpf_integral hab hy1 hy2 le_rfl fun z => loc + scale * z
  rw [normalMass_self, zero_div] at hl
  rw [div_self hZ.ne'] at hu
  have hadd := intervalIntegral.integral_add_adjacent_intervals
    ((continuous_id.mul gaussianKernel_continuous).intervalIntegrable (μ := volume) a y)
    ((continuous_id.mul gaussianKernel_continuous).intervalIntegrable (μ := volume) y b)
  have hadd' : (∫ z in a..y, z * gaussianKernel z) + ∫ z in y..b, z * gaussianKernel z
      = gaussianKernel a - gaussianKernel b := hadd.trans (integral_id_gaussian a b)
  have hsub := normalMass_sub a y b
  unfold truncRvs
  rw [hl, hu, integral_affine_gaussian, integral_affine_gaussian, truncMean, ← hadd', ← hsub]
  field_simp
  ring

theorem truncRvs_upper {a b loc scale c : ℝ} (hab : a < b) (hs : 0 < scale) (h0 : 0 < c) (h1 : c < 1) :
    (1 - c) * truncMean a b loc scale < ∫ u in Set.Icc c 1, truncRvs a b loc scale u := by
  have := truncRvs_split (loc := loc) (scale := scale) hab h0.le h1.le
  have := truncRvs_lower (loc := loc) hab hs h0 h1
  linarith

end Obp
