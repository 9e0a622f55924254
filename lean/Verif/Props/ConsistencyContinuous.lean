import Verif.Lemmas.ContStream
import Mathlib.Probability.Independence.InfinitePi

set_option linter.unusedSectionVars false

/-!
# Consistency of the kernelised estimators

C161: with more and more logged rounds, the kernelised estimates tend to the smoothed value of the evaluation policy.
-/

namespace Obp
open MeasureTheory ProbabilityTheory Filter Topology Log ContStream

variable {Ω C : Type} [MeasurableSpace Ω] [MeasurableSpace C] {P : Measure Ω} [IsProbabilityMeasure P]
variable {s : ContStream Ω C} {p m : C → ℝ → ℝ} {k : Kernel} {h : ℝ} {e q : C → ℝ}

namespace ContStream

theorem LoggedBy.lln_reward (hs : s.LoggedBy P p m) (he : Measurable e)
    (hi : Integrable (fun ω => k.fn ((e (s.ctx 0 ω) - s.act 0 ω) / h) / p (s.ctx 0 ω) (s.act 0 ω) * s.rew 0 ω) P) :
    ∀ᵐ ω ∂P, Tendsto (fun n => avg fun i => (s.log p e q n ω).reward i * (s.log p e q n ω).weight k.fn h i / h) atTop
      (𝓝 (s.smoothedValue P k h p e m)) := by
  have hwm := hs.kernelWeight_meas (k := k) (h := h) he
  have h1 := hs.lln (f := fun c a r => kernelWeight k h p e c a * r / h)
    (((hwm.comp (measurable_fst.prodMk (measurable_fst.comp measurable_snd))).mul (measurable_snd.comp measurable_snd)).div_const h)
    (hi.div_const h)
  have h2 := hs.integral_reward (f := kernelWeight k h p e) hwm hi
  have h3 := (hs.weighted he hs.m_meas h2.1).2
  rw [MeasureTheory.integral_div, h2.2, h3] at h1
  filter_upwards [h1] with ω hω
  refine hω.congr fun n => ?_
  simp only [log, ContLog.weight, kernelWeight, mul_comm]

theorem LoggedBy.lln_weighted_ctx (hs : s.LoggedBy P p m) (hh : 0 < h) (hE : Covers k h p e) {f : C → ℝ} (hq : Measurable f)
    (hi : Integrable (fun ω => f (s.ctx 0 ω)) P) :
    ∀ᵐ ω ∂P, Tendsto (fun n => avg fun i : Fin n => f (s.ctx i ω) * (s.log p e q n ω).weight k.fn h i / h) atTop
      (𝓝 (∫ ω, f (s.ctx 0 ω) ∂P)) := by
  have hwm := hs.kernelWeight_meas (k := k) (h := h) hE.meas
  obtain ⟨h1, h2⟩ := hs.weighted_ctx hh hE hq hi
  have h3 := hs.lln (f := fun c a _ => kernelWeight k h p e c a * f c / h)
    (((hwm.comp (measurable_fst.prodMk (measurable_fst.comp measurable_snd))).mul (hq.comp measurable_fst)).div_const h)
    (h1.div_const h)
  rw [MeasureTheory.integral_div, h2, mul_div_cancel_left₀ _ hh.ne'] at h3
  filter_upwards [h3] with ω hω
  refine hω.congr fun n => ?_
  simp only [log, ContLog.weight, kernelWeight, mul_comm]

theorem LoggedBy.lln_weight (hs : s.LoggedBy P p m) (hh : 0 < h) (hE : Covers k h p e) :
    ∀ᵐ ω ∂P, Tendsto (fun n => avg ((s.log p e q n ω).weight k.fn h)) atTop (𝓝 h) := by
  have h1 := hs.lln_weighted_ctx (q := q) hh hE (f := fun _ => h) measurable_const (integrable_const h)
  filter_upwards [h1] with ω hω
  simp only [integral_const, probReal_univ, one_smul] at hω
  refine hω.congr fun n => ?_
  congr 1
  funext i
  field_simp

theorem avg_add_fn {n : ℕ} (f g : Fin n → ℝ) : avg (fun i => f i + g i) = avg f + avg g := by
  simp only [avg, Finset.sum_add_distrib, add_div]

end ContStream

/-! ### C161 -/

/-- **C161.** With probability one, the estimates of `KernelizedInverseProbabilityWeighting` on longer and longer logs tend to
the smoothed value of the evaluation policy. (The kernel may reach beyond the actions that the logging policy takes. What is
there counts as zero.) -/
theorem C161_ipw (hs : s.LoggedBy P p m) (hh : 0 < h) (he : Measurable e)
    (hi : Integrable (fun ω => k.fn ((e (s.ctx 0 ω) - s.act 0 ω) / h) / p (s.ctx 0 ω) (s.act 0 ω) * s.rew 0 ω) P) :
    ∀ᵐ ω ∂P, ResultsTendTo (fun n => ContKind.ipw.estimatePolicyValue k (.fin h) (s.log p e q n ω).args)
      (s.smoothedValue P k h p e m) := by
  filter_upwards [hs.log_valid e q, hs.lln_reward (q := q) he hi] with ω hv hω
  refine ⟨_, ?_, hω⟩
  filter_upwards [eventually_gt_atTop 0] with n hn
  exact contValue_eq (hv n hn) .ipw k hh.ne' (fun h => by cases h)

/-- **C161.** The same for `KernelizedSelfNormalizedInverseProbabilityWeighting`. -/
theorem C161_snipw (hs : s.LoggedBy P p m) (hh : 0 < h) (hE : Covers k h p e)
    (hi : Integrable (fun ω => k.fn ((e (s.ctx 0 ω) - s.act 0 ω) / h) / p (s.ctx 0 ω) (s.act 0 ω) * s.rew 0 ω) P) :
    ∀ᵐ ω ∂P, ResultsTendTo (fun n => ContKind.snipw.estimatePolicyValue k (.fin h) (s.log p e q n ω).args)
      (s.smoothedValue P k h p e m) := by
  filter_upwards [hs.log_valid e q, hs.lln_reward (q := q) hE.meas hi, hs.lln_weight (q := q) hh hE] with ω hv hω hw
  have ht : Tendsto (fun n => avg ((s.log p e q n ω).roundReward .snipw k h)) atTop (𝓝 (s.smoothedValue P k h p e m)) := by
    have := (hω.mul_const h).div hw hh.ne'
    rw [mul_div_cancel_right₀ _ hh.ne'] at this
    refine this.congr fun n => ?_
    simp only [avg, ContLog.roundReward, ← Finset.sum_div, Pi.div_apply]
    field_simp
  refine ⟨_, ?_, ht⟩
  filter_upwards [eventually_gt_atTop 0, hw.eventually_ne hh.ne'] with n hn hne
  exact contValue_eq (hv n hn) .snipw k hh.ne' fun _ => hne

/-- **C161.** The same for `KernelizedDoublyRobust`, whatever the reward model predicts. -/
theorem C161_dr (hs : s.LoggedBy P p m) (hh : 0 < h) (hE : Covers k h p e)
    (hi : Integrable (fun ω => k.fn ((e (s.ctx 0 ω) - s.act 0 ω) / h) / p (s.ctx 0 ω) (s.act 0 ω) * s.rew 0 ω) P)
    (hq : Measurable q) (hqi : Integrable (fun ω => q (s.ctx 0 ω)) P) :
    ∀ᵐ ω ∂P, ResultsTendTo (fun n => ContKind.dr.estimatePolicyValue k (.fin h) (s.log p e q n ω).args)
      (s.smoothedValue P k h p e m) := by
  have hqm : ∀ᵐ ω ∂P, Tendsto (fun n => avg fun i : Fin n => q (s.ctx i ω)) atTop (𝓝 (∫ ω, q (s.ctx 0 ω) ∂P)) :=
    hs.lln (f := fun c _ _ => q c) (hq.comp measurable_fst) hqi
  filter_upwards [hs.log_valid e q, hs.lln_reward (q := q) hE.meas hi, hs.lln_weighted_ctx (q := q) hh hE hq hqi, hqm] with ω hv hω hw hm
  have ht : Tendsto (fun n => avg ((s.log p e q n ω).roundReward .dr k h)) atTop (𝓝 (s.smoothedValue P k h p e m)) := by
    have := (hω.sub hw).add hm
    rw [sub_add_cancel] at this
    refine this.congr fun n => ?_
    simp only [avg, ← sub_div, ← add_div, ← Finset.sum_sub_distrib, ← Finset.sum_add_distrib]
    refine congrArg (· / _) (Finset.sum_congr rfl fun i _ => ?_)
    simp only [ContLog.roundReward, log]
    ring
  refine ⟨_, ?_, ht⟩
  filter_upwards [eventually_gt_atTop 0] with n hn
  exact contValue_eq (hv n hn) .dr k hh.ne' (fun h => by cases h)

/-- **C161.** If the expected reward changes at most by `L` per unit of the action, among the actions that the logging policy
takes, then the smoothed value is within `L * h` of the value of the policy. -/
theorem C161_bias (hs : s.LoggedBy P p m) (hh : 0 < h) (hE : Covers k h p e)
    (hi : Integrable (fun ω => k.fn ((e (s.ctx 0 ω) - s.act 0 ω) / h) / p (s.ctx 0 ω) (s.act 0 ω) * s.rew 0 ω) P)
    {L : ℝ} (hL : ∀ c a, 0 < p c a → |m c a - m c (e c)| ≤ L * |a - e c|) (hL0 : 0 ≤ L) :
    |s.smoothedValue P k h p e m - s.value P e m| ≤ L * h := by
  obtain ⟨h1, -⟩ := hs.weighted hE.meas hs.m_meas (hs.integral_reward (f := kernelWeight k h p e) (hs.kernelWeight_meas hE.meas) hi).1
  have hmc : ∀ c, Measurable (m c) := fun c => hs.m_meas.comp measurable_prodMk_left
  have hset : ∀ c, MeasurableSet {a | 0 < p c a} := fun c => (hs.p_meas.comp measurable_prodMk_left) measurableSet_Ioi
  have hpt : ∀ c, |smoothed k.fn {a | 0 < p c a} h (e c) (m c) - m c (e c)| ≤ L * h := fun c => by
    have hint := lipschitz_integrable k (hset c) hh (e c) (hmc c) (hL c)
    have e1 := smoothed_sub k hh (e c) (m c (e c)) hint
    have e2 := smoothed_const k (T := {a | 0 < p c a}) hh (e c) (m c (e c)) fun a ha =>
      hE.support c a (le_antisymm (not_lt.1 ha) (hs.p_nonneg c a))
    rw [e2] at e1
    rw [← e1]
    exact smoothed_lipschitz k (hset c) hh (e c) hL0 (hL c)
  have hme : Measurable fun c => m c (e c) := hs.m_meas.comp (measurable_id.prodMk hE.meas)
  have hd : Integrable (fun ω => smoothed k.fn {a | 0 < p (s.ctx 0 ω) a} h (e (s.ctx 0 ω)) (m (s.ctx 0 ω)) -
      m (s.ctx 0 ω) (e (s.ctx 0 ω))) P :=
    Integrable.of_bound (h1.aestronglyMeasurable.sub (hme.comp (hs.ctx_meas 0)).aestronglyMeasurable) (L * h)
      (ae_of_all _ fun ω => hpt _)
  have hv : Integrable (fun ω => m (s.ctx 0 ω) (e (s.ctx 0 ω))) P := by
    refine (h1.sub hd).congr (ae_of_all _ fun ω => ?_)
    simp
  unfold smoothedValue value
  rw [← integral_sub h1 hv, ← Real.norm_eq_abs]
  refine (norm_integral_le_of_norm_le_const (C := L * h) (ae_of_all _ fun ω => hpt _)).trans ?_
  simp

/-! ### A concrete stream

Contexts and actions are independent and uniform on the unit interval, the reward is their sum. The evaluation policy takes the
action `1 / 4 + c / 2`. -/

noncomputable def exUnit : Measure ℝ := volume.restrict (Set.Icc 0 1)

instance : IsProbabilityMeasure exUnit := ⟨by simp [exUnit]⟩

noncomputable abbrev exContMeasure : Measure (ℕ → ℝ × ℝ) := Measure.infinitePi fun _ => exUnit.prod exUnit

noncomputable def exContStream : ContStream (ℕ → ℝ × ℝ) ℝ where
  ctx i ω := (ω i).1
  act i ω := (ω i).2
  rew i ω := (ω i).1 + (ω i).2

noncomputable def exDensity (_ : ℝ) : ℝ → ℝ := Set.indicator (Set.Icc 0 1) 1

theorem exContStream_round : exContMeasure.map (fun ω => ω 0) = exUnit.prod exUnit :=
  Measure.infinitePi_map_eval (fun _ : ℕ => exUnit.prod exUnit) 0

theorem exUnit_integrable {f : ℝ × ℝ → ℝ} (hf : Measurable f) {B : ℝ} (hB : ∀ x ∈ Set.Icc (0 : ℝ) 1 ×ˢ Set.Icc (0 : ℝ) 1, |f x| ≤ B) :
    Integrable (fun ω => f (ω 0)) exContMeasure := by
  have h1 : Integrable f (exUnit.prod exUnit) := by
    refine Integrable.of_bound hf.aestronglyMeasurable B ?_
    rw [exUnit, Measure.prod_restrict, ae_restrict_iff' (measurableSet_Icc.prod measurableSet_Icc)]
    exact ae_of_all _ hB
  rw [← exContStream_round] at h1
  exact (integrable_map_measure h1.aestronglyMeasurable (measurable_pi_apply 0).aemeasurable).1 h1

theorem exContStream_logged : exContStream.LoggedBy exContMeasure exDensity fun c a => c + a := by
  have hp : ∀ i, Measurable fun ω : ℕ → ℝ × ℝ => ω i := measurable_pi_apply
  have hround : Measurable fun x : ℝ × ℝ => (x.1, x.2, x.1 + x.2) := by fun_prop
  have hdens : Measurable (exDensity 0) := measurable_one.indicator measurableSet_Icc
  have hrew : Integrable (exContStream.rew 0) exContMeasure := by
    refine exUnit_integrable (f := fun x => x.1 + x.2) (by fun_prop) (B := 2) fun x hx => ?_
    obtain ⟨⟨h1, h2⟩, h3, h4⟩ := hx
    rw [abs_le]
    constructor <;> linarith
  refine ⟨fun i => measurable_fst.comp (hp i), fun i => measurable_snd.comp (hp i), fun i => ?_,
    iIndepFun_infinitePi (X := fun (_ : ℕ) (x : ℝ × ℝ) => (x.1, x.2, x.1 + x.2)) fun _ => hround, fun i => ?_, fun c a => ?_, fun c => ?_, fun c => ?_,
    hdens.comp measurable_snd, by fun_prop, fun B T hB hT => ?_, hrew, ?_⟩
  · exact (measurable_fst.comp (hp i)).add (measurable_snd.comp (hp i))
  · have hid : IdentDistrib (fun ω : ℕ → ℝ × ℝ => ω i) (fun ω => ω 0) exContMeasure exContMeasure := by
      refine ⟨(hp i).aemeasurable, (hp 0).aemeasurable, ?_⟩
      rw [exContStream_round]
      exact Measure.infinitePi_map_eval (fun _ : ℕ => exUnit.prod exUnit) i
    exact hid.comp hround
  · exact Set.indicator_nonneg (fun _ _ => zero_le_one) a
  · exact (integrable_indicator_iff measurableSet_Icc).2 (integrableOn_const (C := (1 : ℝ)) (by simp))
  · simp [exDensity, MeasureTheory.integral_indicator measurableSet_Icc]
  · have hdT : ∫ a in T, exDensity 0 a = exUnit.real T := by
      rw [exDensity, setIntegral_indicator measurableSet_Icc]
      simp [exUnit, measureReal_restrict_apply hT]
    have e1 : ∀ ω : ℕ → ℝ × ℝ, ∫ a in T, exDensity (exContStream.ctx 0 ω) a = exUnit.real T := fun ω => hdT
    simp only [e1]
    rw [setIntegral_const, smul_eq_mul]
    have r1 : exContMeasure.real {ω | exContStream.ctx 0 ω ∈ B ∧ exContStream.act 0 ω ∈ T} = (exUnit.prod exUnit).real (B ×ˢ T) := by
      rw [← exContStream_round, map_measureReal_apply (hp 0) (hB.prod hT)]
      rfl
    have r2 : exContMeasure.real {ω | exContStream.ctx 0 ω ∈ B} = (exUnit.prod exUnit).real (B ×ˢ Set.univ) := by
      rw [← exContStream_round, map_measureReal_apply (hp 0) (hB.prod MeasurableSet.univ)]
      congr 1
      ext ω
      simp [exContStream]
    rw [r1, r2, measureReal_prod_prod, measureReal_prod_prod]
    simp
  · have hpair : Measurable fun ω : ℕ → ℝ × ℝ => (exContStream.ctx 0 ω, exContStream.act 0 ω) := hp 0
    rw [condExp_of_stronglyMeasurable hpair.comap_le _ hrew]
    · rfl
    · have : Measurable fun x : ℝ × ℝ => x.1 + x.2 := by fun_prop
      exact (this.comp (comap_measurable _)).stronglyMeasurable

theorem exContStream_covers : Covers .epanechnikov (1 / 4) exDensity fun c => 1 / 4 + max 0 (min c 1) / 2 where
  meas := by fun_prop
  support c a hp := by
    refine C38_support (by decide) ?_
    have ha : a ∉ Set.Icc (0 : ℝ) 1 := fun h => by
      rw [exDensity, Set.indicator_of_mem h] at hp
      simp at hp
    have h1 : (0 : ℝ) ≤ max 0 (min c 1) := le_max_left _ _
    have h2 : max 0 (min c 1) ≤ (1 : ℝ) := max_le zero_le_one (min_le_right _ _)
    rw [Set.mem_Icc, not_and_or, not_le, not_le] at ha
    rw [abs_div, le_div_iff₀ (by norm_num), abs_of_pos (by norm_num : (0 : ℝ) < 1 / 4), one_mul]
    rcases ha with ha | ha
    · exact le_abs.2 (Or.inl (by linarith))
    · exact le_abs.2 (Or.inr (by linarith))

theorem epanechnikov_le (u : ℝ) : |Kernel.epanechnikov.fn u| ≤ 3 / 4 := by
  rw [abs_of_nonneg (C38_nonneg _ _)]
  show epanechnikovKernel u ≤ 3 / 4
  unfold epanechnikovKernel
  nlinarith [sq_nonneg (clip1 u)]

theorem exContStream_integrable (h : ℝ) {e : ℝ → ℝ} (he : Measurable e) : Integrable (fun ω =>
    Kernel.epanechnikov.fn ((e (exContStream.ctx 0 ω) - exContStream.act 0 ω) / h) /
      exDensity (exContStream.ctx 0 ω) (exContStream.act 0 ω) * exContStream.rew 0 ω) exContMeasure := by
  have hm := exContStream_logged.kernelWeight_meas (k := .epanechnikov) (h := h) he
  refine exUnit_integrable (f := fun x => Kernel.epanechnikov.fn ((e x.1 - x.2) / h) / exDensity x.1 x.2 * (x.1 + x.2))
    (hm.mul (by fun_prop)) (B := 2) fun x hx => ?_
  obtain ⟨⟨h1, h2⟩, h3, h4⟩ := hx
  rw [exDensity, Set.indicator_of_mem (show x.2 ∈ Set.Icc (0 : ℝ) 1 from ⟨h3, h4⟩), Pi.one_apply, div_one, abs_mul, abs_of_nonneg (by linarith : 0 ≤ x.1 + x.2)]
  have := epanechnikov_le ((e x.1 - x.2) / h)
  nlinarith [abs_nonneg (Kernel.epanechnikov.fn ((e x.1 - x.2) / h))]

/-- The three estimates tend to the smoothed value, the doubly robust one although its reward model is wrong, and the smoothed
value is close to the value of the policy. -/
example : (∀ᵐ ω ∂exContMeasure, ∀ kind, ResultsTendTo (fun n => ContKind.estimatePolicyValue kind .epanechnikov (.fin (1 / 4))
      (exContStream.log exDensity (fun c => 1 / 4 + max 0 (min c 1) / 2) (fun _ => 7) n ω).args)
      (exContStream.smoothedValue exContMeasure .epanechnikov (1 / 4) exDensity (fun c => 1 / 4 + max 0 (min c 1) / 2) fun c a => c + a)) ∧
    |exContStream.smoothedValue exContMeasure .epanechnikov (1 / 4) exDensity (fun c => 1 / 4 + max 0 (min c 1) / 2) (fun c a => c + a) -
      exContStream.value exContMeasure (fun c => 1 / 4 + max 0 (min c 1) / 2) fun c a => c + a| ≤ 1 * (1 / 4) := by
  have hi := exContStream_integrable (1 / 4) exContStream_covers.meas
  constructor
  · have h1 := C161_ipw (q := fun _ => 7) exContStream_logged (by norm_num) exContStream_covers.meas hi
    have h2 := C161_snipw (q := fun _ => 7) exContStream_logged (by norm_num) exContStream_covers hi
    have h3 := C161_dr (q := fun _ => 7) exContStream_logged (by norm_num) exContStream_covers hi measurable_const (integrable_const 7)
    filter_upwards [h1, h2, h3] with ω a b c kind
    cases kind
    · exact a
    · exact b
    · exact c
  · refine C161_bias exContStream_logged (by norm_num) exContStream_covers hi (fun c a _ => ?_) zero_le_one
    simp

end Obp
