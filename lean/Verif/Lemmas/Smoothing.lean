import Verif.Spec.ContinuousDraws
import Verif.Lemmas.ContinuousDataset
import Mathlib.MeasureTheory.Integral.DominatedConvergence
import Mathlib.MeasureTheory.Integral.IntegralEqImproper
import Mathlib.MeasureTheory.Measure.Lebesgue.Integral

set_option linter.unusedSectionVars false

/-! # Smoothing by the kernels -/

namespace Obp
open MeasureTheory Filter Topology Set

theorem clip1_continuous : Continuous clip1 := by unfold clip1; fun_prop

theorem kernel_continuous (k : Kernel) : Continuous k.fn := by
  have := clip1_continuous
  cases k <;> simp only [Kernel.fn]
  · exact gaussianKernel_continuous
  · unfold epanechnikovKernel; fun_prop
  · unfold triangularKernel; fun_prop
  · unfold cosineKernel; fun_prop

theorem kernel_scaled_integrable (k : Kernel) {h : ℝ} (hh : 0 < h) (e : ℝ) : Integrable fun a => k.fn ((e - a) / h) :=
  ((kernel_integrable k).comp_div hh.ne').comp_sub_left e

/-- Substituting the standardised distance. -/
theorem integral_kernel_subst {h : ℝ} (hh : 0 < h) (e : ℝ) (f : ℝ → ℝ) : ∫ a, f ((e - a) / h) = h * ∫ u, f u := by
  rw [integral_sub_left_eq_self (fun x => f (x / h)) volume e, Measure.integral_comp_div, abs_of_pos hh, smul_eq_mul]

theorem gaussian_abs : Integrable (fun u : ℝ => |u| * gaussianKernel u) ∧ ∫ u : ℝ, |u| * gaussianKernel u ≤ 1 := by
  have hsymm : ∀ u, gaussianKernel |u| = gaussianKernel u := fun u => by simp [gaussianKernel]
  have hI : Integrable fun u : ℝ => u * gaussianKernel u := by
    have h := integrable_mul_exp_neg_mul_sq (b := 1 / 2) (by norm_num)
    refine (h.div_const (Real.sqrt (2 * Real.pi))).congr (Filter.Eventually.of_forall fun x => ?_)
    dsimp only
    rw [gaussianKernel, mul_div_assoc]
    congr 3
    ring
  constructor
  · refine hI.abs.congr (Eventually.of_forall fun u => ?_)
    dsimp only
    rw [abs_mul, abs_of_pos (gaussianKernel_pos u)]
  · have h1 : (fun u : ℝ => |u| * gaussianKernel u) = fun u => (fun x => x * gaussianKernel x) |u| := by
      funext u
      dsimp only
      rw [hsymm]
    have h2 : ∫ u in Ioi (0 : ℝ), u * gaussianKernel u = 0 - -gaussianKernel 0 := by
      refine integral_Ioi_of_hasDerivAt_of_tendsto' (f := fun u => -gaussianKernel u) (fun u _ => ?_) hI.integrableOn ?_
      · have := (gaussianKernel_hasDerivAt u).neg
        rwa [neg_neg] at this
      · have h3 : Tendsto gaussianKernel atTop (𝓝 0) := by
          unfold gaussianKernel
          have h4 : Tendsto (fun u : ℝ => Real.exp (-(u ^ 2) / 2)) atTop (𝓝 0) := by
            refine Real.tendsto_exp_atBot.comp ?_
            have : (fun u : ℝ => -(u ^ 2) / 2) = fun u => -(u ^ 2 / 2) := by
              funext u; ring
            rw [this]
            exact tendsto_neg_atTop_atBot.comp ((tendsto_pow_atTop (by norm_num)).atTop_div_const (by norm_num))
          simpa using h4.div_const (Real.sqrt (2 * Real.pi))
        simpa using h3.neg
    rw [h1, integral_comp_abs (f := fun x => x * gaussianKernel x), h2]
    have h5 : gaussianKernel 0 ≤ 1 / 2 := by
      unfold gaussianKernel
      rw [div_le_div_iff₀ (Real.sqrt_pos.2 (by positivity)) (by norm_num)]
      have h6 : (2 : ℝ) ≤ Real.sqrt (2 * Real.pi) := by
        rw [Real.le_sqrt (by norm_num) (by positivity)]
        nlinarith [Real.two_le_pi]
      simpa using h6
    linarith

/-- The mean distance under every kernel is at most one. -/
theorem kernel_abs (k : Kernel) : Integrable (fun u : ℝ => |u| * k.fn u) ∧ ∫ u : ℝ, |u| * k.fn u ≤ 1 := by
  by_cases hk : k = .gaussian
  · subst hk
    exact gaussian_abs
  have hle : ∀ u, |u| * k.fn u ≤ k.fn u := fun u => by
    rcases le_or_gt 1 |u| with h | h
    · simp [C38_support hk h]
    · exact mul_le_of_le_one_left (C38_nonneg k u) h.le
  have hm : Continuous fun u : ℝ => |u| * k.fn u := continuous_abs.mul (kernel_continuous k)
  have hi : Integrable fun u : ℝ => |u| * k.fn u := (kernel_integrable k).mono hm.aestronglyMeasurable (Eventually.of_forall fun u => by
    rw [Real.norm_of_nonneg (mul_nonneg (abs_nonneg u) (C38_nonneg k u)), Real.norm_of_nonneg (C38_nonneg k u)]
    exact hle u)
  refine ⟨hi, ?_⟩
  rw [← C38_integral k]
  exact integral_mono hi (kernel_integrable k) hle

/-- Smoothing a function that is zero at `e` and Lipschitz there. -/
theorem smoothed_lipschitz (k : Kernel) {T : Set ℝ} (hT : MeasurableSet T) {h : ℝ} (hh : 0 < h) (e : ℝ) {q : ℝ → ℝ} {L : ℝ} (hL : 0 ≤ L)
    (hq : ∀ a ∈ T, |q a| ≤ L * |a - e|) : |smoothed k.fn T h e q| ≤ L * h := by
  have hi : Integrable fun a => L * h * (|(e - a) / h| * k.fn ((e - a) / h)) :=
    (((kernel_abs k).1.comp_div hh.ne').comp_sub_left e).const_mul (L * h)
  have hpt : ∀ a ∈ T, ‖k.fn ((e - a) / h) * q a‖ ≤ L * h * (|(e - a) / h| * k.fn ((e - a) / h)) := fun a ha => by
    rw [norm_mul, Real.norm_of_nonneg (C38_nonneg k _), Real.norm_eq_abs, abs_div, abs_of_pos hh]
    have h1 := hq a ha
    rw [abs_sub_comm] at h1
    have h2 := C38_nonneg k ((e - a) / h)
    calc k.fn ((e - a) / h) * |q a| ≤ k.fn ((e - a) / h) * (L * |e - a|) := mul_le_mul_of_nonneg_left h1 h2
      _ = L * h * (|e - a| / h * k.fn ((e - a) / h)) := by field_simp
  have hb : |∫ a in T, k.fn ((e - a) / h) * q a| ≤ L * h * (h * ∫ u, |u| * k.fn u) := by
    rw [← integral_kernel_subst hh e fun u => |u| * k.fn u, ← MeasureTheory.integral_const_mul]
    rw [← Real.norm_eq_abs]
    refine (norm_integral_le_of_norm_le (hi.integrableOn (s := T)) ((ae_restrict_iff' hT).2 (Eventually.of_forall hpt))).trans ?_
    exact setIntegral_le_integral hi (Eventually.of_forall fun a =>
      mul_nonneg (mul_nonneg hL hh.le) (mul_nonneg (abs_nonneg _) (C38_nonneg k _)))
  unfold smoothed
  rw [abs_div, abs_of_pos hh, div_le_iff₀ hh]
  refine hb.trans ?_
  have := (kernel_abs k).2
  have h1 : h * ∫ u, |u| * k.fn u ≤ h * 1 := mul_le_mul_of_nonneg_left this hh.le
  nlinarith [mul_le_mul_of_nonneg_left h1 (mul_nonneg hL hh.le)]

/-- The kernel's mass within the actions, if it reaches no further. -/
theorem smoothed_const (k : Kernel) {T : Set ℝ} {h : ℝ} (hh : 0 < h) (e c : ℝ) (hin : ∀ a, a ∉ T → k.fn ((e - a) / h) = 0) :
    smoothed k.fn T h e (fun _ => c) = c := by
  unfold smoothed
  rw [setIntegral_eq_integral_of_forall_compl_eq_zero fun a ha => by rw [hin a ha, zero_mul], MeasureTheory.integral_mul_const,
    integral_kernel_subst hh e k.fn, C38_integral]
  field_simp

theorem smoothed_sub (k : Kernel) {T : Set ℝ} {h : ℝ} (hh : 0 < h) (e c : ℝ) {q : ℝ → ℝ}
    (hq : IntegrableOn (fun a => k.fn ((e - a) / h) * q a) T) :
    smoothed k.fn T h e (fun a => q a - c) = smoothed k.fn T h e q - smoothed k.fn T h e fun _ => c := by
  unfold smoothed
  rw [← sub_div, ← integral_sub hq ((kernel_scaled_integrable k hh e).mul_const c).integrableOn]
  congr 1
  refine integral_congr_ae (Eventually.of_forall fun a => ?_)
  dsimp only
  ring

/-- The kernels have second moments. -/
theorem kernel_sq_integrable (k : Kernel) : Integrable fun u : ℝ => (1 + u ^ 2) * k.fn u := by
  by_cases hk : k = .gaussian
  · subst hk
    have h := integrable_rpow_mul_exp_neg_mul_sq (b := 1 / 2) (by norm_num) (s := 2) (by norm_num)
    refine ((kernel_integrable .gaussian).add (h.div_const (Real.sqrt (2 * Real.pi)))).congr (Filter.Eventually.of_forall fun x => ?_)
    simp only [Pi.add_apply, Kernel.fn, gaussianKernel, Real.rpow_ofNat]
    rw [show -(x ^ 2) / 2 = -(1 / 2) * x ^ 2 by ring]
    ring
  · refine Integrable.mono' ((kernel_integrable k).const_mul 2) (((by fun_prop : Continuous fun u : ℝ => 1 + u ^ 2).mul
      (kernel_continuous k)).aestronglyMeasurable) (Eventually.of_forall fun u => ?_)
    rw [norm_mul, Real.norm_of_nonneg (C38_nonneg k u), Real.norm_of_nonneg (by positivity)]
    rcases le_or_gt 1 |u| with hu | hu
    · rw [C38_support hk hu]; simp
    · refine mul_le_mul_of_nonneg_right ?_ (C38_nonneg k u)
      have := (sq_lt_one_iff_abs_lt_one u).2 hu
      linarith

/-- Smoothing with a vanishing bandwidth at an inner point gives the value there. -/
theorem smoothed_tendsto (k : Kernel) {T : Set ℝ} (hT : MeasurableSet T) {e : ℝ} (he : T ∈ 𝓝 e) {q : ℝ → ℝ} (hm : Measurable q)
    (hc : ContinuousAt q e) (hb : k = .gaussian → ∃ C, ∀ a ∈ T, |q a| ≤ C * (1 + a ^ 2)) :
    Tendsto (fun h => smoothed k.fn T h e q) (𝓝[>] 0) (𝓝 (q e)) := by
  have hsub : ∀ h > 0, smoothed k.fn T h e q = ∫ u, k.fn u * T.indicator q (e - h * u) := fun h hh => by
    have h1 : ∀ a, (T.indicator fun a => k.fn ((e - a) / h) * q a) a =
        (fun u => k.fn u * T.indicator q (e - h * u)) ((e - a) / h) := fun a => by
      have : e - h * ((e - a) / h) = a := by field_simp; ring
      dsimp only
      rw [this]
      by_cases ha : a ∈ T
      · rw [indicator_of_mem ha, indicator_of_mem ha]
      · rw [indicator_of_notMem ha, indicator_of_notMem ha, mul_zero]
    unfold smoothed
    rw [← MeasureTheory.integral_indicator hT, show (T.indicator fun a => k.fn ((e - a) / h) * q a) = _ from funext h1,
      integral_kernel_subst hh e fun u => k.fn u * T.indicator q (e - h * u)]
    field_simp
  have hlim : Tendsto (fun h : ℝ => ∫ u, k.fn u * T.indicator q (e - h * u)) (𝓝[>] 0) (𝓝 (∫ u, k.fn u * q e)) := by
    have hbound : ∃ C, ∀ᶠ h : ℝ in 𝓝[>] 0, ∀ u, ‖k.fn u * T.indicator q (e - h * u)‖ ≤ C * ((1 + u ^ 2) * k.fn u) := by
      by_cases hk : k = .gaussian
      · obtain ⟨C, hC⟩ := hb hk
        have hC0 : 0 ≤ C := by
          have := (abs_nonneg _).trans (hC e (mem_of_mem_nhds he))
          by_contra hn
          nlinarith [sq_nonneg e]
        refine ⟨C * (2 + 2 * e ^ 2), ?_⟩
        have : ∀ᶠ h : ℝ in 𝓝[>] 0, h ∈ Ioo (0 : ℝ) 1 := Ioo_mem_nhdsGT one_pos
        filter_upwards [this] with h hh u
        rw [norm_mul, Real.norm_of_nonneg (C38_nonneg k u), mul_comm, ← mul_assoc]
        refine mul_le_mul_of_nonneg_right ?_ (C38_nonneg k u)
        by_cases ha : e - h * u ∈ T
        · rw [indicator_of_mem ha, mul_assoc]
          refine (hC _ ha).trans (mul_le_mul_of_nonneg_left ?_ hC0)
          have h1 : h ^ 2 ≤ 1 := pow_le_one₀ hh.1.le hh.2.le
          nlinarith [sq_nonneg (e + h * u), sq_nonneg u, sq_nonneg e, mul_le_mul_of_nonneg_right h1 (sq_nonneg u),
            mul_nonneg (sq_nonneg e) (sq_nonneg u)]
        · rw [indicator_of_notMem ha, norm_zero]; positivity
      · have hnear : ∀ᶠ a in 𝓝 e, |q a| < |q e| + 1 := (hc.abs).eventually (eventually_lt_nhds (by simp))
        obtain ⟨δ, hδ, hball⟩ := Metric.eventually_nhds_iff.1 hnear
        refine ⟨|q e| + 1, ?_⟩
        have : ∀ᶠ h : ℝ in 𝓝[>] 0, h ∈ Ioo 0 δ := Ioo_mem_nhdsGT hδ
        filter_upwards [this] with h hh u
        refine le_trans ?_ (show (|q e| + 1) * k.fn u ≤ _ from mul_le_mul_of_nonneg_left
          (le_mul_of_one_le_left (C38_nonneg k u) (by nlinarith [sq_nonneg u])) (by positivity))
        rw [norm_mul, Real.norm_of_nonneg (C38_nonneg k u), mul_comm]
        rcases le_or_gt 1 |u| with hu | hu
        · rw [C38_support hk hu]; simp
        · refine mul_le_mul_of_nonneg_right ?_ (C38_nonneg k u)
          by_cases ha : e - h * u ∈ T
          · rw [indicator_of_mem ha]
            refine (hball ?_).le
            rw [Real.dist_eq, show e - h * u - e = -(h * u) by ring, abs_neg, abs_mul, abs_of_pos hh.1]
            nlinarith [hh.1, hh.2, abs_nonneg u]
          · rw [indicator_of_notMem ha, norm_zero]; positivity
    obtain ⟨C, hC⟩ := hbound
    refine tendsto_integral_filter_of_dominated_convergence (fun u => C * ((1 + u ^ 2) * k.fn u)) ?_ ?_ ((kernel_sq_integrable k).const_mul C) ?_
    · refine Eventually.of_forall fun h => ?_
      have h1 : Measurable fun u : ℝ => T.indicator q (e - h * u) := (hm.indicator hT).comp (by fun_prop)
      exact ((kernel_continuous k).measurable.mul h1).aestronglyMeasurable
    · exact hC.mono fun h hh => Eventually.of_forall hh
    · refine Eventually.of_forall fun u => ?_
      have h1 : Tendsto (fun h : ℝ => e - h * u) (𝓝[>] 0) (𝓝 e) := by
        have : Tendsto (fun h : ℝ => e - h * u) (𝓝 0) (𝓝 (e - 0 * u)) := by
          refine Continuous.tendsto ?_ 0
          fun_prop
        rw [zero_mul, sub_zero] at this
        exact this.mono_left nhdsWithin_le_nhds
      have h2 : Tendsto (fun h : ℝ => q (e - h * u)) (𝓝[>] 0) (𝓝 (q e)) := hc.tendsto.comp h1
      refine (h2.const_mul (k.fn u)).congr' ?_
      filter_upwards [h1.eventually he] with h hh
      rw [indicator_of_mem hh]
  rw [MeasureTheory.integral_mul_const, C38_integral, one_mul] at hlim
  refine hlim.congr' ?_
  filter_upwards [self_mem_nhdsWithin] with h hh
  exact (hsub h hh).symm

theorem lipschitz_integrable (k : Kernel) {T : Set ℝ} (hT : MeasurableSet T) {h : ℝ} (hh : 0 < h) (e : ℝ) {q : ℝ → ℝ} (hm : Measurable q)
    {L : ℝ} (hq : ∀ a ∈ T, |q a - q e| ≤ L * |a - e|) : IntegrableOn (fun a => k.fn ((e - a) / h) * q a) T := by
  have hi : Integrable fun a => L * h * (|(e - a) / h| * k.fn ((e - a) / h)) + |q e| * k.fn ((e - a) / h) :=
    ((((kernel_abs k).1.comp_div hh.ne').comp_sub_left e).const_mul (L * h)).add ((kernel_scaled_integrable k hh e).const_mul _)
  have hkm : Measurable fun a => k.fn ((e - a) / h) := (kernel_continuous k).measurable.comp (by fun_prop)
  refine Integrable.mono' hi.integrableOn (hkm.mul hm).aestronglyMeasurable ?_
  refine (ae_restrict_iff' hT).2 (Eventually.of_forall fun a ha => ?_)
  have h2 := C38_nonneg k ((e - a) / h)
  rw [norm_mul, Real.norm_of_nonneg h2, Real.norm_eq_abs, abs_div, abs_of_pos hh]
  have h1 : |q a| ≤ L * |e - a| + |q e| := by
    have := abs_sub_abs_le_abs_sub (q a) (q e)
    have h3 := hq a ha
    rw [abs_sub_comm a e] at h3
    linarith
  calc k.fn ((e - a) / h) * |q a| ≤ k.fn ((e - a) / h) * (L * |e - a| + |q e|) := mul_le_mul_of_nonneg_left h1 h2
    _ = _ := by field_simp

theorem continuous_kernel_integrable (k : Kernel) {T : Set ℝ} (hT : MeasurableSet T) {h : ℝ} (hh : 0 < h) (e : ℝ) {q : ℝ → ℝ}
    (hc : Continuous q) (hb : k = .gaussian → ∃ C, ∀ a ∈ T, |q a| ≤ C * (1 + a ^ 2)) : IntegrableOn (fun a => k.fn ((e - a) / h) * q a) T := by
  have hkc : Continuous fun a => k.fn ((e - a) / h) := (kernel_continuous k).comp (by fun_prop)
  by_cases hk : k = .gaussian
  · obtain ⟨C, hC⟩ := hb hk
    have hi : Integrable fun a => (1 + ((e - a) / h) ^ 2) * k.fn ((e - a) / h) := ((kernel_sq_integrable k).comp_div hh.ne').comp_sub_left e
    refine Integrable.mono' (hi.const_mul (|C| * (2 + 2 * e ^ 2 + 2 * h ^ 2))).integrableOn (hkc.mul hc).aestronglyMeasurable ?_
    refine (ae_restrict_iff' hT).2 (Eventually.of_forall fun a ha => ?_)
    have h2 := C38_nonneg k ((e - a) / h)
    rw [norm_mul, Real.norm_of_nonneg h2, Real.norm_eq_abs, mul_comm, ← mul_assoc]
    refine mul_le_mul_of_nonneg_right ((hC a ha).trans ?_) h2
    rw [mul_assoc]
    refine mul_le_mul (le_abs_self C) ?_ (by positivity) (abs_nonneg C)
    obtain ⟨u, hu⟩ : ∃ u, u = (e - a) / h := ⟨_, rfl⟩
    have ha' : a = e - h * u := by rw [hu]; field_simp; ring
    rw [← hu, ha']
    nlinarith [sq_nonneg (e + h * u), sq_nonneg u, sq_nonneg e, sq_nonneg h, mul_nonneg (sq_nonneg e) (sq_nonneg u),
      mul_nonneg (sq_nonneg h) (sq_nonneg u)]
  · refine Integrable.integrableOn ((hkc.mul hc).integrable_of_hasCompactSupport ?_)
    refine HasCompactSupport.of_support_subset_isCompact (isCompact_Icc (a := e - h) (b := e + h)) fun a ha => ?_
    have h1 : k.fn ((e - a) / h) ≠ 0 := left_ne_zero_of_mul ha
    by_contra hn
    refine h1 (C38_support hk ?_)
    rw [abs_div, abs_of_pos hh, le_div_iff₀ hh, one_mul]
    rw [Set.mem_Icc, not_and_or, not_le, not_le] at hn
    rcases hn with hn | hn
    · exact (by linarith : h ≤ e - a).trans (le_abs_self _)
    · exact (by linarith : h ≤ -(e - a)).trans (neg_le_abs _)

theorem actionRange_nhds {lo hi : PyNum ℝ} {e : ℝ} (hlo : ∀ l, lo = .fin l → l < e) (hhi : ∀ b, hi = .fin b → e < b) :
    actionRange lo hi ∈ 𝓝 e := by
  have h1 : {x | ∀ l, lo = .fin l → l ≤ x} ∈ 𝓝 e := by
    cases lo with
    | fin l => filter_upwards [Ici_mem_nhds (hlo l rfl)] with x hx l' hl; cases hl; exact hx
    | _ => filter_upwards with x l' hl; cases hl
  have h2 : {x | ∀ l, hi = .fin l → x ≤ l} ∈ 𝓝 e := by
    cases hi with
    | fin l => filter_upwards [Iic_mem_nhds (hhi l rfl)] with x hx l' hl; cases hl; exact hx
    | _ => filter_upwards with x l' hl; cases hl
  filter_upwards [h1, h2] with x a b
  exact ⟨a, b⟩

/-- Half of a kernel. -/
theorem kernel_half (k : Kernel) : ∫ u in Set.Ioi (0 : ℝ), k.fn u = 1 / 2 := by
  have h1 : ∫ u in Set.Iic (0 : ℝ), k.fn u = ∫ u in Set.Ioi (0 : ℝ), k.fn u := by
    have := integral_comp_neg_Iic (0 : ℝ) k.fn
    rw [neg_zero] at this
    rw [← this]
    exact integral_congr_ae (Eventually.of_forall fun u => (C38_symm k u).symm)
  have h2 := integral_add_compl (measurableSet_Iic (a := (0 : ℝ))) (kernel_integrable k)
  rw [Set.compl_Iic, h1, C38_integral] at h2
  linarith

theorem smoothed_edge {k : Kernel} (hk : k ≠ .gaussian) {l b h : ℝ} (hh : 0 < h) (hbl : h ≤ b - l) :
    smoothed k.fn (actionRange (.fin l) (.fin b)) h b (fun _ => 1) = 1 / 2 := by
  unfold smoothed
  have hT : MeasurableSet (actionRange (.fin l) (.fin b)) := by
    have : actionRange (.fin l) (.fin b) = Set.Icc l b := by
      ext x
      simp [actionRange]
    rw [this]
    exact measurableSet_Icc
  have h1 : (fun a => (actionRange (.fin l) (.fin b)).indicator (fun a => k.fn ((b - a) / h) * 1) a) =ᵐ[volume]
      fun a => (Set.Ioi (0 : ℝ)).indicator k.fn ((b - a) / h) := by
    filter_upwards [compl_mem_ae_iff.2 (measure_singleton b)] with a ha
    have hab : a ≠ b := ha
    by_cases h2 : a ∈ actionRange (.fin l) (.fin b)
    · have h3 : l ≤ a ∧ a ≤ b := by simpa [actionRange] using h2
      have : 0 < (b - a) / h := div_pos (sub_pos.2 (lt_of_le_of_ne h3.2 hab)) hh
      rw [Set.indicator_of_mem h2, Set.indicator_of_mem (show _ ∈ Set.Ioi (0 : ℝ) from this), mul_one]
    · rw [Set.indicator_of_notMem h2]
      symm
      rw [Set.indicator_apply_eq_zero]
      intro h3
      have h4 : 0 < b - a := by
        have := mul_pos (show 0 < (b - a) / h from h3) hh
        rwa [div_mul_cancel₀ _ hh.ne'] at this
      have h5 : ¬ l ≤ a := fun hl => h2 (by simpa [actionRange] using ⟨hl, (sub_pos.1 h4).le⟩)
      refine C38_support hk ?_
      rw [abs_div, abs_of_pos hh, le_div_iff₀ hh, one_mul, abs_of_pos h4]
      linarith
  rw [← MeasureTheory.integral_indicator hT, integral_congr_ae h1, integral_kernel_subst hh b ((Set.Ioi (0 : ℝ)).indicator k.fn),
    MeasureTheory.integral_indicator measurableSet_Ioi, kernel_half]
  field_simp

end Obp
