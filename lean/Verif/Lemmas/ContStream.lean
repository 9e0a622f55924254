import Verif.Spec.ContStream
import Verif.Lemmas.LogStream
import Verif.Lemmas.Smoothing
import Verif.Props.Continuous
import Mathlib.MeasureTheory.Integral.Prod

set_option linter.unusedSectionVars false

namespace Obp
open MeasureTheory ProbabilityTheory Filter Topology

namespace ContStream
variable {Ω C : Type} [MeasurableSpace Ω] [MeasurableSpace C] {P : Measure Ω} [IsProbabilityMeasure P]
variable {s : ContStream Ω C} {p m : C → ℝ → ℝ}

/-- The joint law of context and action. -/
theorem LoggedBy.map_eq (hs : s.LoggedBy P p m) : P.map (fun ω => (s.ctx 0 ω, s.act 0 ω)) =
    ((P.map (s.ctx 0)).prod volume).withDensity fun x => ((p x.1 x.2).toNNReal : ENNReal) := by
  have hpair : Measurable fun ω => (s.ctx 0 ω, s.act 0 ω) := (hs.ctx_meas 0).prodMk (hs.act_meas 0)
  have hpm := hs.p_meas.real_toNNReal.coe_nnreal_ennreal
  have : IsProbabilityMeasure (P.map fun ω => (s.ctx 0 ω, s.act 0 ω)) := Measure.isProbabilityMeasure_map hpair.aemeasurable
  have : IsProbabilityMeasure (P.map (s.ctx 0)) := Measure.isProbabilityMeasure_map (hs.ctx_meas 0).aemeasurable
  refine Measure.ext_prod fun {B T} hB hT => ?_
  have hin : ∀ c, ∫⁻ a in T, ((p c a).toNNReal : ENNReal) = ENNReal.ofReal (∫ a in T, p c a) := fun c => by
    rw [ofReal_integral_eq_lintegral_ofReal (hs.p_int c).integrableOn (ae_of_all _ (hs.p_nonneg c))]
    rfl
  have hnn : ∀ c, 0 ≤ ∫ a in T, p c a := fun c => integral_nonneg (hs.p_nonneg c)
  have hmi : Measurable fun c => ∫ a in T, p c a :=
    (hs.p_meas.stronglyMeasurable.integral_prod_right' (ν := volume.restrict T)).measurable
  rw [Measure.map_apply hpair (hB.prod hT), withDensity_apply _ (hB.prod hT), ← Measure.prod_restrict,
    lintegral_prod _ hpm.aemeasurable]
  simp only [hin]
  rw [setLIntegral_map hB hmi.ennreal_ofReal (hs.ctx_meas 0)]
  have hset : (fun ω => (s.ctx 0 ω, s.act 0 ω)) ⁻¹' B ×ˢ T = {ω | s.ctx 0 ω ∈ B ∧ s.act 0 ω ∈ T} := rfl
  rw [hset, ← ofReal_measureReal, hs.policy B T hB hT, ofReal_integral_eq_lintegral_ofReal]
  · rfl
  · refine Integrable.of_bound (hmi.comp (hs.ctx_meas 0)).aestronglyMeasurable 1 (ae_of_all _ fun ω => ?_)
    rw [Real.norm_of_nonneg (hnn _), ← hs.p_one (s.ctx 0 ω)]
    exact setIntegral_le_integral (hs.p_int _) (ae_of_all _ (hs.p_nonneg _))
  · exact ae_of_all _ fun ω => hnn _

/-- Functions of context and action. -/
theorem LoggedBy.integrable_iff (hs : s.LoggedBy P p m) {f : C → ℝ → ℝ} (hf : Measurable fun x : C × ℝ => f x.1 x.2) :
    Integrable (fun ω => f (s.ctx 0 ω) (s.act 0 ω)) P ↔
      Integrable (fun x : C × ℝ => p x.1 x.2 * f x.1 x.2) ((P.map (s.ctx 0)).prod volume) := by
  have hpair : Measurable fun ω => (s.ctx 0 ω, s.act 0 ω) := (hs.ctx_meas 0).prodMk (hs.act_meas 0)
  have h1 : Integrable (fun x : C × ℝ => f x.1 x.2) (P.map fun ω => (s.ctx 0 ω, s.act 0 ω)) ↔
      Integrable (fun ω => f (s.ctx 0 ω) (s.act 0 ω)) P := integrable_map_measure hf.aestronglyMeasurable hpair.aemeasurable
  rw [← h1, hs.map_eq, integrable_withDensity_iff_integrable_coe_smul hs.p_meas.real_toNNReal]
  refine integrable_congr (ae_of_all _ fun x => ?_)
  simp [Real.coe_toNNReal _ (hs.p_nonneg x.1 x.2)]

theorem LoggedBy.integral_eq (hs : s.LoggedBy P p m) {f : C → ℝ → ℝ} (hf : Measurable fun x : C × ℝ => f x.1 x.2)
    (hi : Integrable (fun ω => f (s.ctx 0 ω) (s.act 0 ω)) P) :
    Integrable (fun ω => ∫ a, p (s.ctx 0 ω) a * f (s.ctx 0 ω) a) P ∧
      ∫ ω, f (s.ctx 0 ω) (s.act 0 ω) ∂P = ∫ ω, (∫ a, p (s.ctx 0 ω) a * f (s.ctx 0 ω) a) ∂P := by
  have hpair : Measurable fun ω => (s.ctx 0 ω, s.act 0 ω) := (hs.ctx_meas 0).prodMk (hs.act_meas 0)
  have : IsProbabilityMeasure (P.map (s.ctx 0)) := Measure.isProbabilityMeasure_map (hs.ctx_meas 0).aemeasurable
  have hi' := (hs.integrable_iff hf).1 hi
  have hm' : StronglyMeasurable fun c => ∫ a, p c a * f c a :=
    (hs.p_meas.mul hf).stronglyMeasurable.integral_prod_right' (ν := volume)
  refine ⟨?_, ?_⟩
  · have := hi'.integral_prod_left
    exact (integrable_map_measure (g := fun c => ∫ a, p c a * f c a) hm'.aestronglyMeasurable (hs.ctx_meas 0).aemeasurable).1 this
  · have h1 : ∫ x : C × ℝ, f x.1 x.2 ∂(P.map fun ω => (s.ctx 0 ω, s.act 0 ω)) = ∫ ω, f (s.ctx 0 ω) (s.act 0 ω) ∂P :=
      integral_map hpair.aemeasurable hf.aestronglyMeasurable
    have h2 : ∫ c, (∫ a, p c a * f c a) ∂(P.map (s.ctx 0)) = ∫ ω, (∫ a, p (s.ctx 0 ω) a * f (s.ctx 0 ω) a) ∂P :=
      integral_map (f := fun c => ∫ a, p c a * f c a) (hs.ctx_meas 0).aemeasurable hm'.aestronglyMeasurable
    rw [← h1, ← h2, hs.map_eq, integral_withDensity_eq_integral_smul hs.p_meas.real_toNNReal]
    rw [← integral_prod _ hi']
    refine integral_congr_ae (ae_of_all _ fun x => ?_)
    simp [NNReal.smul_def, Real.coe_toNNReal _ (hs.p_nonneg x.1 x.2)]

/-- Rewards may be replaced by their means. -/
theorem LoggedBy.integral_reward (hs : s.LoggedBy P p m) {f : C → ℝ → ℝ} (hf : Measurable fun x : C × ℝ => f x.1 x.2)
    (hi : Integrable (fun ω => f (s.ctx 0 ω) (s.act 0 ω) * s.rew 0 ω) P) :
    Integrable (fun ω => f (s.ctx 0 ω) (s.act 0 ω) * m (s.ctx 0 ω) (s.act 0 ω)) P ∧
      ∫ ω, f (s.ctx 0 ω) (s.act 0 ω) * s.rew 0 ω ∂P = ∫ ω, f (s.ctx 0 ω) (s.act 0 ω) * m (s.ctx 0 ω) (s.act 0 ω) ∂P := by
  have hpair : Measurable fun ω => (s.ctx 0 ω, s.act 0 ω) := (hs.ctx_meas 0).prodMk (hs.act_meas 0)
  have hle := hpair.comap_le
  have hf' : StronglyMeasurable[MeasurableSpace.comap (fun ω => (s.ctx 0 ω, s.act 0 ω)) inferInstance]
      (fun ω => f (s.ctx 0 ω) (s.act 0 ω)) :=
    (hf.comp (comap_measurable _)).stronglyMeasurable
  have h1 := condExp_mul_of_stronglyMeasurable_left hf' hi hs.rew_int
  have h2 : P[(fun ω => f (s.ctx 0 ω) (s.act 0 ω)) * s.rew 0 | MeasurableSpace.comap (fun ω => (s.ctx 0 ω, s.act 0 ω)) inferInstance]
      =ᵐ[P] fun ω => f (s.ctx 0 ω) (s.act 0 ω) * m (s.ctx 0 ω) (s.act 0 ω) := by
    filter_upwards [h1, hs.rew_mean] with ω e1 e2
    rw [e1, Pi.mul_apply, e2]
  refine ⟨integrable_condExp.congr h2, ?_⟩
  rw [← integral_congr_ae h2, integral_condExp hle]
  rfl

/-- The law of large numbers for functions of the rounds. -/
theorem LoggedBy.lln (hs : s.LoggedBy P p m) {f : C → ℝ → ℝ → ℝ}
    (hf : Measurable fun x : C × ℝ × ℝ => f x.1 x.2.1 x.2.2)
    (hi : Integrable (fun ω => f (s.ctx 0 ω) (s.act 0 ω) (s.rew 0 ω)) P) :
    ∀ᵐ ω ∂P, Tendsto (fun n : ℕ => Log.avg fun i : Fin n => f (s.ctx i ω) (s.act i ω) (s.rew i ω)) atTop
      (𝓝 (∫ ω, f (s.ctx 0 ω) (s.act 0 ω) (s.rew 0 ω) ∂P)) := by
  have key := strong_law_ae_real (μ := P) (fun i ω => f (s.ctx i ω) (s.act i ω) (s.rew i ω)) hi
    (fun i j hij => (hs.indep.indepFun hij).comp hf hf) fun i => (hs.ident i).comp hf
  filter_upwards [key] with ω hω
  refine hω.congr fun n => ?_
  rw [Log.avg, Fin.sum_univ_eq_sum_range (fun i => f (s.ctx i ω) (s.act i ω) (s.rew i ω))]

/-- All logged actions have positive density. -/
theorem LoggedBy.pscore_pos (hs : s.LoggedBy P p m) : ∀ᵐ ω ∂P, ∀ i, 0 < p (s.ctx i ω) (s.act i ω) := by
  have hset0 : MeasurableSet {x : C × ℝ | p x.1 x.2 = 0} := hs.p_meas (measurableSet_singleton 0)
  have h0 : ∀ᵐ ω ∂P, 0 < p (s.ctx 0 ω) (s.act 0 ω) := by
    have hpair : Measurable fun ω => (s.ctx 0 ω, s.act 0 ω) := (hs.ctx_meas 0).prodMk (hs.act_meas 0)
    have hz : (P.map fun ω => (s.ctx 0 ω, s.act 0 ω)) {x : C × ℝ | p x.1 x.2 = 0} = 0 := by
      rw [hs.map_eq, withDensity_apply _ hset0, setLIntegral_congr_fun hset0 (g := fun _ => 0) fun x hx => by
        simp only [Set.mem_ofPred_eq] at hx
        simp [hx]]
      simp
    rw [Measure.map_apply hpair hset0] at hz
    have : ∀ᵐ ω ∂P, p (s.ctx 0 ω) (s.act 0 ω) ≠ 0 := by
      rw [ae_iff]
      simpa using hz
    filter_upwards [this] with ω hω using lt_of_le_of_ne (hs.p_nonneg _ _) hω.symm
  rw [ae_all_iff]
  intro i
  have hset : MeasurableSet {x : C × ℝ × ℝ | 0 < p x.1 x.2.1} :=
    (hs.p_meas.comp (measurable_fst.prodMk (measurable_fst.comp measurable_snd))) measurableSet_Ioi
  exact (hs.ident i).symm.ae_snd hset h0

theorem LoggedBy.log_valid (hs : s.LoggedBy P p m) (e q : C → ℝ) :
    ∀ᵐ ω ∂P, ∀ n, 0 < n → (s.log p e q n ω).Valid := by
  filter_upwards [hs.pscore_pos] with ω hω n hn
  exact ⟨hn, fun i => hω i⟩

variable {k : Kernel} {h : ℝ} {e q : C → ℝ}

/-- The kernel weight of context and action. -/
noncomputable def kernelWeight (k : Kernel) (h : ℝ) (p : C → ℝ → ℝ) (e : C → ℝ) (c : C) (a : ℝ) : ℝ :=
  k.fn ((e c - a) / h) / p c a

theorem LoggedBy.kernelWeight_meas (hs : s.LoggedBy P p m) (he : Measurable e) :
    Measurable fun x : C × ℝ => kernelWeight k h p e x.1 x.2 := by
  have h1 : Measurable fun x : C × ℝ => (e x.1 - x.2) / h := ((he.comp measurable_fst).sub measurable_snd).div_const h
  exact ((kernel_continuous k).measurable.comp h1).div hs.p_meas

theorem Covers.cancel (hE : Covers k h p e) (c : C) (a x : ℝ) :
    p c a * (kernelWeight k h p e c a * x) = k.fn ((e c - a) / h) * x := by
  unfold kernelWeight
  by_cases hp : p c a = 0
  · rw [hp, hE.support c a hp]
    ring
  · field_simp

theorem LoggedBy.smoothed_eq (hs : s.LoggedBy P p m) (c : C) (f : ℝ → ℝ) :
    (∫ a, p c a * (kernelWeight k h p e c a * f a)) / h = smoothed k.fn {a | 0 < p c a} h (e c) f := by
  unfold smoothed
  have hset : MeasurableSet {a | 0 < p c a} := (hs.p_meas.comp measurable_prodMk_left) measurableSet_Ioi
  rw [← MeasureTheory.integral_indicator hset]
  congr 2
  funext a
  by_cases hp : 0 < p c a
  · rw [Set.indicator_of_mem (show a ∈ {a | 0 < p c a} from hp)]
    unfold kernelWeight
    field_simp
  · rw [Set.indicator_of_notMem (show a ∉ {a | 0 < p c a} from hp), le_antisymm (not_lt.1 hp) (hs.p_nonneg c a), zero_mul]

/-- The kernel weights of functions of context and action. -/
theorem LoggedBy.weighted (hs : s.LoggedBy P p m) (he : Measurable e) {f : C → ℝ → ℝ}
    (hf : Measurable fun x : C × ℝ => f x.1 x.2)
    (hi : Integrable (fun ω => kernelWeight k h p e (s.ctx 0 ω) (s.act 0 ω) * f (s.ctx 0 ω) (s.act 0 ω)) P) :
    Integrable (fun ω => smoothed k.fn {a | 0 < p (s.ctx 0 ω) a} h (e (s.ctx 0 ω)) (f (s.ctx 0 ω))) P ∧
    (∫ ω, kernelWeight k h p e (s.ctx 0 ω) (s.act 0 ω) * f (s.ctx 0 ω) (s.act 0 ω) ∂P) / h = s.smoothedValue P k h p e f := by
  have hm' : Measurable fun x : C × ℝ => kernelWeight k h p e x.1 x.2 * f x.1 x.2 := (hs.kernelWeight_meas he).mul hf
  have := hs.integral_eq (f := fun c a => kernelWeight k h p e c a * f c a) hm' hi
  unfold smoothedValue
  simp only [← hs.smoothed_eq]
  exact ⟨this.1.div_const h, by rw [this.2, MeasureTheory.integral_div]⟩

/-- Functions of the context, weighted by the kernel. -/
theorem LoggedBy.weighted_ctx (hs : s.LoggedBy P p m) (hh : 0 < h) (hE : Covers k h p e) (hq : Measurable q)
    (hi : Integrable (fun ω => q (s.ctx 0 ω)) P) :
    Integrable (fun ω => kernelWeight k h p e (s.ctx 0 ω) (s.act 0 ω) * q (s.ctx 0 ω)) P ∧
    ∫ ω, kernelWeight k h p e (s.ctx 0 ω) (s.act 0 ω) * q (s.ctx 0 ω) ∂P = h * ∫ ω, q (s.ctx 0 ω) ∂P := by
  have : IsProbabilityMeasure (P.map (s.ctx 0)) := Measure.isProbabilityMeasure_map (hs.ctx_meas 0).aemeasurable
  have hm' : Measurable fun x : C × ℝ => kernelWeight k h p e x.1 x.2 * q x.1 :=
    (hs.kernelWeight_meas hE.meas).mul (hq.comp measurable_fst)
  have hint : Integrable (fun ω => kernelWeight k h p e (s.ctx 0 ω) (s.act 0 ω) * q (s.ctx 0 ω)) P := by
    refine (hs.integrable_iff (f := fun c a => kernelWeight k h p e c a * q c) hm').2 ?_
    have hmeas : AEStronglyMeasurable (fun x : C × ℝ => p x.1 x.2 * (kernelWeight k h p e x.1 x.2 * q x.1))
        ((P.map (s.ctx 0)).prod volume) := (hs.p_meas.mul hm').aestronglyMeasurable
    rw [integrable_prod_iff hmeas]
    simp only [hE.cancel]
    refine ⟨ae_of_all _ fun c => (kernel_scaled_integrable k hh (e c)).mul_const (q c), ?_⟩
    have e1 : ∀ c, ∫ a, ‖k.fn ((e c - a) / h) * q c‖ = h * ‖q c‖ := fun c => by
      simp only [norm_mul, Real.norm_of_nonneg (C38_nonneg k _)]
      rw [MeasureTheory.integral_mul_const, integral_kernel_subst hh (e c) k.fn, C38_integral]
      ring
    simp only [e1]
    exact (((integrable_map_measure hq.aestronglyMeasurable (hs.ctx_meas 0).aemeasurable).2 hi).norm.const_mul h)
  refine ⟨hint, ?_⟩
  rw [(hs.integral_eq (f := fun c a => kernelWeight k h p e c a * q c) hm' hint).2]
  simp only [hE.cancel]
  rw [← MeasureTheory.integral_const_mul]
  refine integral_congr_ae (ae_of_all _ fun ω => ?_)
  dsimp only
  rw [MeasureTheory.integral_mul_const, integral_kernel_subst hh _ k.fn, C38_integral]
  ring

end ContStream

end Obp
