import Verif.Spec.LogStream
import Verif.Lemmas.Numpy
import Mathlib.MeasureTheory.Function.ConditionalExpectation.PullOut

set_option linter.unusedSectionVars false

namespace Obp
open MeasureTheory ProbabilityTheory Filter Topology

namespace LogStream
variable {Ω C : Type} [MeasurableSpace Ω] [MeasurableSpace C] {A L : ℕ} {P : Measure Ω} [IsProbabilityMeasure P]
variable {s : LogStream Ω C A} {piB m : C → Fin A → ℝ}

theorem LoggedBy.map_eq (hs : s.LoggedBy P piB m) (a : Fin A) :
    (P.restrict {ω | s.act 0 ω = a}).map (s.ctx 0) =
      (P.map (s.ctx 0)).withDensity fun c => ((piB c a).toNNReal : ENNReal) := by
  have hact : MeasurableSet {ω | s.act 0 ω = a} := hs.act_meas 0 (measurableSet_singleton a)
  ext B hB
  have hpre := hs.ctx_meas 0 hB
  rw [Measure.map_apply (hs.ctx_meas 0) hB, Measure.restrict_apply hpre, withDensity_apply _ hB,
    setLIntegral_map hB (hs.piB_meas a).real_toNNReal.coe_nnreal_ennreal (hs.ctx_meas 0)]
  have h1 := hs.policy a B hB
  have hset : (s.ctx 0 ⁻¹' B ∩ {ω | s.act 0 ω = a}) = {ω | s.ctx 0 ω ∈ B ∧ s.act 0 ω = a} := rfl
  rw [hset, ← ofReal_measureReal, h1, ofReal_integral_eq_lintegral_ofReal]
  · rfl
  · refine Integrable.of_bound ((hs.piB_meas a).comp (hs.ctx_meas 0)).aestronglyMeasurable 1 (ae_of_all _ fun ω => ?_)
    have hd := hs.piB_dist (s.ctx 0 ω)
    rw [Real.norm_of_nonneg (hd.nonneg a), ← hd.sum_one]
    exact Finset.single_le_sum (fun b _ => hd.nonneg b) (Finset.mem_univ a)
  · exact ae_of_all _ fun ω => (hs.piB_dist _).nonneg a

/-- Functions of the context in rounds with a given action. -/
theorem LoggedBy.integrableOn_act (hs : s.LoggedBy P piB m) (a : Fin A) {g : C → ℝ} (hg : Measurable g) :
    IntegrableOn (fun ω => g (s.ctx 0 ω)) {ω | s.act 0 ω = a} P ↔
      Integrable (fun ω => piB (s.ctx 0 ω) a * g (s.ctx 0 ω)) P := by
  have h1 : Integrable g ((P.restrict {ω | s.act 0 ω = a}).map (s.ctx 0)) ↔
      IntegrableOn (fun ω => g (s.ctx 0 ω)) {ω | s.act 0 ω = a} P :=
    integrable_map_measure hg.aestronglyMeasurable (hs.ctx_meas 0).aemeasurable
  rw [← h1, hs.map_eq a, integrable_withDensity_iff_integrable_coe_smul (hs.piB_meas a).real_toNNReal,
    integrable_map_measure (g := fun c => ((piB c a).toNNReal : ℝ) • g c)
      (((hs.piB_meas a).real_toNNReal.coe_nnreal_real.mul hg).aestronglyMeasurable) (hs.ctx_meas 0).aemeasurable]
  refine integrable_congr (ae_of_all _ fun ω => ?_)
  simp [Real.coe_toNNReal _ ((hs.piB_dist _).nonneg a)]

theorem LoggedBy.integral_act (hs : s.LoggedBy P piB m) (a : Fin A) {g : C → ℝ} (hg : Measurable g) :
    ∫ ω in {ω | s.act 0 ω = a}, g (s.ctx 0 ω) ∂P = ∫ ω, piB (s.ctx 0 ω) a * g (s.ctx 0 ω) ∂P := by
  rw [← integral_map (μ := P.restrict {ω | s.act 0 ω = a}) (hs.ctx_meas 0).aemeasurable hg.aestronglyMeasurable,
    hs.map_eq a, integral_withDensity_eq_integral_smul (hs.piB_meas a).real_toNNReal,
    integral_map (hs.ctx_meas 0).aemeasurable]
  · refine integral_congr_ae (ae_of_all _ fun ω => ?_)
    simp [NNReal.smul_def, Real.coe_toNNReal _ ((hs.piB_dist _).nonneg a)]
  · exact ((hs.piB_meas a).real_toNNReal.coe_nnreal_real.mul hg).aestronglyMeasurable

theorem sum_indicator_act (s : LogStream Ω C A) (h : C → Fin A → ℝ) (ω : Ω) :
    h (s.ctx 0 ω) (s.act 0 ω) = ∑ a, Set.indicator {ω | s.act 0 ω = a} (fun ω => h (s.ctx 0 ω) a) ω := by
  rw [Finset.sum_eq_single (s.act 0 ω)]
  · simp
  · intro b _ hb
    simp [Ne.symm hb]
  · simp

/-- Functions of context and action. -/
theorem LoggedBy.integrable_iff (hs : s.LoggedBy P piB m) {h : C → Fin A → ℝ} (hm : ∀ a, Measurable fun c => h c a) :
    Integrable (fun ω => h (s.ctx 0 ω) (s.act 0 ω)) P ↔
      ∀ a, Integrable (fun ω => piB (s.ctx 0 ω) a * h (s.ctx 0 ω) a) P := by
  have hact : ∀ a, MeasurableSet {ω | s.act 0 ω = a} := fun a => hs.act_meas 0 (measurableSet_singleton a)
  constructor
  · intro hi a
    rw [← hs.integrableOn_act a (hm a)]
    refine (hi.integrableOn (s := {ω | s.act 0 ω = a})).congr_fun (fun ω hω => ?_) (hact a)
    simp only [Set.mem_ofPred_eq] at hω
    simp [hω]
  · intro hi
    simp_rw [sum_indicator_act s h]
    refine integrable_finsetSum _ fun a _ => ?_
    rw [integrable_indicator_iff (hact a), hs.integrableOn_act a (hm a)]
    exact hi a

theorem LoggedBy.integral_eq (hs : s.LoggedBy P piB m) {h : C → Fin A → ℝ} (hm : ∀ a, Measurable fun c => h c a)
    (hi : ∀ a, Integrable (fun ω => piB (s.ctx 0 ω) a * h (s.ctx 0 ω) a) P) :
    ∫ ω, h (s.ctx 0 ω) (s.act 0 ω) ∂P = ∫ ω, ∑ a, piB (s.ctx 0 ω) a * h (s.ctx 0 ω) a ∂P := by
  have hact : ∀ a, MeasurableSet {ω | s.act 0 ω = a} := fun a => hs.act_meas 0 (measurableSet_singleton a)
  simp_rw [sum_indicator_act s h]
  rw [integral_finsetSum _ fun a _ => ?_, integral_finsetSum _ fun a _ => hi a]
  · refine Finset.sum_congr rfl fun a _ => ?_
    rw [integral_indicator (hact a), hs.integral_act a (hm a)]
  · rw [integrable_indicator_iff (hact a), hs.integrableOn_act a (hm a)]
    exact hi a

/-- Rewards may be replaced by their means. -/
theorem LoggedBy.integral_reward (hs : s.LoggedBy P piB m) {h : C → Fin A → ℝ} (hm : ∀ a, Measurable fun c => h c a)
    (hi : Integrable (fun ω => h (s.ctx 0 ω) (s.act 0 ω) * s.rew 0 ω) P) :
    Integrable (fun ω => h (s.ctx 0 ω) (s.act 0 ω) * m (s.ctx 0 ω) (s.act 0 ω)) P ∧
      ∫ ω, h (s.ctx 0 ω) (s.act 0 ω) * s.rew 0 ω ∂P = ∫ ω, h (s.ctx 0 ω) (s.act 0 ω) * m (s.ctx 0 ω) (s.act 0 ω) ∂P := by
  have hpair : Measurable fun ω => (s.ctx 0 ω, s.act 0 ω) := (hs.ctx_meas 0).prodMk (hs.act_meas 0)
  have hh : Measurable fun x : C × Fin A => h x.1 x.2 := measurable_from_prod_countable_left hm
  have hle := hpair.comap_le
  have hf : StronglyMeasurable[MeasurableSpace.comap (fun ω => (s.ctx 0 ω, s.act 0 ω)) inferInstance]
      (fun ω => h (s.ctx 0 ω) (s.act 0 ω)) :=
    (hh.comp (comap_measurable _)).stronglyMeasurable
  have h1 := condExp_mul_of_stronglyMeasurable_left hf hi hs.rew_int
  have h2 : P[(fun ω => h (s.ctx 0 ω) (s.act 0 ω)) * s.rew 0 | MeasurableSpace.comap (fun ω => (s.ctx 0 ω, s.act 0 ω)) inferInstance]
      =ᵐ[P] fun ω => h (s.ctx 0 ω) (s.act 0 ω) * m (s.ctx 0 ω) (s.act 0 ω) := by
    filter_upwards [h1, hs.rew_mean] with ω e1 e2
    rw [e1, Pi.mul_apply, e2]
  refine ⟨integrable_condExp.congr h2, ?_⟩
  rw [← integral_congr_ae h2, integral_condExp hle]
  rfl

/-- The law of large numbers for functions of the rounds. -/
theorem LoggedBy.lln (hs : s.LoggedBy P piB m) {f : C → Fin A → ℝ → ℝ}
    (hf : Measurable fun x : C × Fin A × ℝ => f x.1 x.2.1 x.2.2)
    (hi : Integrable (fun ω => f (s.ctx 0 ω) (s.act 0 ω) (s.rew 0 ω)) P) :
    ∀ᵐ ω ∂P, Tendsto (fun n : ℕ => Log.avg fun i : Fin n => f (s.ctx i ω) (s.act i ω) (s.rew i ω)) atTop
      (𝓝 (∫ ω, f (s.ctx 0 ω) (s.act 0 ω) (s.rew 0 ω) ∂P)) := by
  have key := strong_law_ae_real (μ := P) (fun i ω => f (s.ctx i ω) (s.act i ω) (s.rew i ω)) hi
    (fun i j hij => (hs.indep.indepFun hij).comp hf hf) fun i => (hs.ident i).comp hf
  filter_upwards [key] with ω hω
  refine hω.congr fun n => ?_
  rw [Log.avg, Fin.sum_univ_eq_sum_range (fun i => f (s.ctx i ω) (s.act i ω) (s.rew i ω))]

/-- All logged actions have positive probability. -/
theorem LoggedBy.pscore_pos (hs : s.LoggedBy P piB m) : ∀ᵐ ω ∂P, ∀ i, 0 < piB (s.ctx i ω) (s.act i ω) := by
  have hB : Measurable fun x : C × Fin A => piB x.1 x.2 := measurable_from_prod_countable_left hs.piB_meas
  have h0 : ∀ᵐ ω ∂P, 0 < piB (s.ctx 0 ω) (s.act 0 ω) := by
    have hint := hs.integral_eq (h := fun c a => if piB c a = 0 then 1 else 0)
      (fun a => Measurable.ite (hs.piB_meas a (measurableSet_singleton 0)) measurable_const measurable_const)
      (fun a => by
        refine (integrable_zero Ω ℝ P).congr (ae_of_all _ fun ω => ?_)
        by_cases h : piB (s.ctx 0 ω) a = 0 <;> simp [h])
    have hz : ∫ ω, ∑ a, piB (s.ctx 0 ω) a * (if piB (s.ctx 0 ω) a = 0 then (1 : ℝ) else 0) ∂P = 0 := by
      rw [← integral_zero Ω ℝ (μ := P)]
      refine integral_congr_ae (ae_of_all _ fun ω => Finset.sum_eq_zero fun a _ => ?_)
      by_cases h : piB (s.ctx 0 ω) a = 0 <;> simp [h]
    rw [hz, integral_eq_zero_iff_of_nonneg (fun ω => by dsimp only; split <;> simp)] at hint
    · filter_upwards [hint] with ω hω
      have hne : piB (s.ctx 0 ω) (s.act 0 ω) ≠ 0 := by
        intro h
        simp [h] at hω
      exact lt_of_le_of_ne ((hs.piB_dist _).nonneg _) hne.symm
    · refine Integrable.of_bound (Measurable.aestronglyMeasurable ?_) 1 (ae_of_all _ fun ω => by split <;> simp)
      refine Measurable.ite ?_ measurable_const measurable_const
      exact (hB.comp ((hs.ctx_meas 0).prodMk (hs.act_meas 0))) (measurableSet_singleton 0)
  rw [ae_all_iff]
  intro i
  have hset : MeasurableSet {x : C × Fin A × ℝ | 0 < piB x.1 x.2.1} :=
    (hB.comp (measurable_fst.prodMk (measurable_fst.comp measurable_snd))) measurableSet_Ioi
  exact (hs.ident i).symm.ae_snd hset h0

variable {pos : C → Fin L} {piE q : C → Fin A → Fin L → ℝ}

theorem LoggedBy.log_valid (hs : s.LoggedBy P piB m) (hE : Covers piB pos piE) :
    ∀ᵐ ω ∂P, ∀ n, 0 < n → (s.log piB pos piE q n ω).Valid := by
  filter_upwards [hs.pscore_pos] with ω hω n hn
  refine ⟨hn, fun i => hω i, fun i => hω i, fun i => div_nonneg ((hE.dist _ _).nonneg _) (hω i).le, fun i l => ?_⟩
  simp only [log, (hE.dist _ _).sum_one]
  exact closeToOne_one

theorem Covers.mul_div (hE : Covers piB pos piE) (c : C) (a : Fin A) :
    piB c a * (piE c a (pos c) / piB c a) = piE c a (pos c) := by
  by_cases h : piB c a = 0
  · rw [h, zero_mul, hE.support c a h]
  · field_simp

theorem LoggedBy.weight_meas (hs : s.LoggedBy P piB m) (hE : Covers piB pos piE) (a : Fin A) :
    Measurable fun c => piE c a (pos c) / piB c a := (hE.meas a).div (hs.piB_meas a)

/-- Weights turn averages over the log into averages under the evaluation policy. -/
theorem LoggedBy.weighted (hs : s.LoggedBy P piB m) (hE : Covers piB pos piE) {h : C → Fin A → ℝ}
    (hm : ∀ a, Measurable fun c => h c a) (hi : ∀ a, Integrable (fun ω => piE (s.ctx 0 ω) a (pos (s.ctx 0 ω)) * h (s.ctx 0 ω) a) P) :
    Integrable (fun ω => s.weight piB pos piE ω * h (s.ctx 0 ω) (s.act 0 ω)) P ∧
      ∫ ω, s.weight piB pos piE ω * h (s.ctx 0 ω) (s.act 0 ω) ∂P = s.value P pos piE h := by
  have hm' : ∀ a, Measurable fun c => piE c a (pos c) / piB c a * h c a := fun a => (hs.weight_meas hE a).mul (hm a)
  have e : ∀ c a, piB c a * (piE c a (pos c) / piB c a * h c a) = piE c a (pos c) * h c a := fun c a => by
    rw [← mul_assoc, hE.mul_div]
  have hi' : ∀ a, Integrable (fun ω => piB (s.ctx 0 ω) a *
      (piE (s.ctx 0 ω) a (pos (s.ctx 0 ω)) / piB (s.ctx 0 ω) a * h (s.ctx 0 ω) a)) P := by
    simpa only [e] using hi
  refine ⟨(hs.integrable_iff hm').2 hi', ?_⟩
  have := hs.integral_eq hm' hi'
  simp only [e] at this
  exact this

theorem LoggedBy.piE_int (hs : s.LoggedBy P piB m) (hE : Covers piB pos piE) (a : Fin A) :
    Integrable (fun ω => piE (s.ctx 0 ω) a (pos (s.ctx 0 ω))) P := by
  refine Integrable.of_bound ((hE.meas a).comp (hs.ctx_meas 0)).aestronglyMeasurable 1 (ae_of_all _ fun ω => ?_)
  have hd := hE.dist (s.ctx 0 ω) (pos (s.ctx 0 ω))
  rw [Real.norm_of_nonneg (hd.nonneg a), ← hd.sum_one]
  exact Finset.single_le_sum (f := fun b => piE (s.ctx 0 ω) b (pos (s.ctx 0 ω))) (fun b _ => hd.nonneg b) (Finset.mem_univ a)

/-- Weights are one on average. -/
theorem LoggedBy.weight_mean (hs : s.LoggedBy P piB m) (hE : Covers piB pos piE) :
    Integrable (s.weight piB pos piE) P ∧ ∫ ω, s.weight piB pos piE ω ∂P = 1 := by
  have := hs.weighted hE (h := fun _ _ => 1) (fun _ => measurable_const) (fun a => by simpa using hs.piE_int hE a)
  simp only [mul_one] at this
  refine ⟨this.1, this.2.trans ?_⟩
  simp [value, (hE.dist _ _).sum_one]

/-- The weighted reward has the policy value as its mean. -/
theorem LoggedBy.weighted_reward (hs : s.LoggedBy P piB m) (hE : Covers piB pos piE)
    (hi : Integrable (fun ω => s.weight piB pos piE ω * s.rew 0 ω) P) :
    (∀ a, Integrable (fun ω => piE (s.ctx 0 ω) a (pos (s.ctx 0 ω)) * m (s.ctx 0 ω) a) P) ∧
    ∫ ω, s.weight piB pos piE ω * s.rew 0 ω ∂P = s.value P pos piE m := by
  obtain ⟨h1, h2⟩ := hs.integral_reward (h := fun c a => piE c a (pos c) / piB c a) (hs.weight_meas hE) hi
  have e : ∀ c a, piB c a * (piE c a (pos c) / piB c a * m c a) = piE c a (pos c) * m c a := fun c a => by
    rw [← mul_assoc, hE.mul_div]
  have h3 := (hs.integrable_iff (h := fun c a => piE c a (pos c) / piB c a * m c a)
    fun a => (hs.weight_meas hE a).mul (hs.m_meas a)).1 h1
  simp only [e] at h3
  refine ⟨h3, ?_⟩
  exact h2.trans (hs.weighted hE hs.m_meas h3).2

end LogStream
end Obp
