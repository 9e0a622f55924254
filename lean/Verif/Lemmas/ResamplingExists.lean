import Verif.Spec.RoundTerms
import Mathlib.Probability.Distributions.Uniform
import Mathlib.Probability.ProductMeasure
import Mathlib.Probability.ProbabilityMassFunction.Integrals
import Mathlib.MeasureTheory.Measure.Prod

set_option linter.unusedSectionVars false

/-!
# A random generator beside a log

Any log (any samples) can be accompanied by resampling draws: on the product space.
-/

namespace Obp
open MeasureTheory ProbabilityTheory

instance tableNonempty (B n : ℕ) : Nonempty (Fin B → Fin n → Fin n) := ⟨fun _ => id⟩

/-- Tables of indices for every number of samples. -/
abbrev Tables (B : ℕ) : Type := ∀ n, Fin B → Fin n → Fin n

/-- All tables equally likely. -/
noncomputable def tableLaw (B n : ℕ) : Measure (Fin B → Fin n → Fin n) := (PMF.uniformOfFintype (Fin B → Fin n → Fin n)).toMeasure

instance (B n : ℕ) : IsProbabilityMeasure (tableLaw B n) := by unfold tableLaw; infer_instance

/-- Independent tables. -/
noncomputable def tablesLaw (B : ℕ) : Measure (Tables B) := Measure.infinitePi fun n => tableLaw B n

instance (B : ℕ) : IsProbabilityMeasure (tablesLaw B) := by unfold tablesLaw; infer_instance

theorem tablesLaw_eq (B n : ℕ) (f : Fin B → Fin n → Fin n) : (tablesLaw B).real {u | u n = f} = 1 / ((n : ℝ) ^ n) ^ B := by
  have h := Measure.infinitePi_map_eval (fun n => tableLaw B n) n
  have h2 : (tablesLaw B) {u | u n = f} = tableLaw B n {f} := by
    rw [← h, Measure.map_apply (measurable_pi_apply n) (measurableSet_singleton f)]
    rfl
  rw [Measure.real, h2, tableLaw, PMF.toMeasure_apply_singleton _ _ (measurableSet_singleton f), PMF.uniformOfFintype_apply]
  simp

variable {Ω C : Type} [MeasurableSpace Ω] [MeasurableSpace C] {A : ℕ} {P : Measure Ω} [IsProbabilityMeasure P]

/-- Resampling draws beside given samples. -/
noncomputable def Resampling.beside (X : ℕ → Ω → ℝ) (B : ℕ) :
    Resampling (P.prod (tablesLaw B)) (fun i ω => X i ω.1) B where
  idx n j i ω := ω.2 n j i
  idx_meas n j i := by
    have h1 : Measurable fun ω : Ω × Tables B => ω.2 n := (measurable_pi_apply n).comp measurable_snd
    exact (measurable_of_finite fun f : Fin B → Fin n → Fin n => f j i).comp h1
  equally_likely n f S hS := by
    have h1 : {ω : Ω × Tables B | (fun i => X i ω.1) ∈ S ∧ ∀ j i, ω.2 n j i = f j i} =
        {ω | (fun i => X i ω) ∈ S} ×ˢ {u : Tables B | u n = f} := by
      ext ω
      simp [funext_iff]
    have h2 : {ω : Ω × Tables B | (fun i => X i ω.1) ∈ S} = {ω | (fun i => X i ω) ∈ S} ×ˢ Set.univ := by
      ext ω
      simp
    rw [h1, h2, measureReal_prod_prod, measureReal_prod_prod, tablesLaw_eq]
    simp [div_eq_mul_inv]

/-- The log, forgetting the draws. -/
def LogStream.besideDraws (s : LogStream Ω C A) (B : ℕ) : LogStream (Ω × Tables B) C A where
  ctx i ω := s.ctx i ω.1
  act i ω := s.act i ω.1
  rew i ω := s.rew i ω.1

theorem integral_fst_tables {f : Ω → ℝ} (hf : AEStronglyMeasurable f P) (B : ℕ) :
    ∫ ω, f ω.1 ∂(P.prod (tablesLaw B)) = ∫ ω, f ω ∂P := by
  have h := (measurePreserving_fst (μ := P) (ν := tablesLaw B)).map_eq
  conv_rhs => rw [← h]
  rw [integral_map measurable_fst.aemeasurable (by rwa [h])]

theorem LogStream.LoggedBy.besideDraws {s : LogStream Ω C A} {piB m : C → Fin A → ℝ} (hs : s.LoggedBy P piB m) (B : ℕ) :
    (s.besideDraws B).LoggedBy (P.prod (tablesLaw B)) piB m := by
  have hmp := measurePreserving_fst (μ := P) (ν := tablesLaw B)
  have hround : ∀ i, Measurable fun ω => (s.ctx i ω, s.act i ω, s.rew i ω) := fun i =>
    (hs.ctx_meas i).prodMk ((hs.act_meas i).prodMk (hs.rew_meas i))
  refine ⟨fun i => (hs.ctx_meas i).comp measurable_fst, fun i => (hs.act_meas i).comp measurable_fst,
    fun i => (hs.rew_meas i).comp measurable_fst, ?_, fun i => ?_, hs.piB_dist, hs.piB_meas, hs.m_meas, fun a S hS => ?_, ?_, ?_⟩
  · have h := hs.indep
    rw [iIndepFun_iff_measure_inter_preimage_eq_mul] at h ⊢
    intro T sets hsets
    have h1 := h T hsets
    have e : ∀ (U : Set Ω), MeasurableSet U → (P.prod (tablesLaw B)) (Prod.fst ⁻¹' U) = P U := fun U hU =>
      hmp.measure_preimage hU.nullMeasurableSet
    have e1 : (⋂ i ∈ T, (fun ω : Ω × Tables B => ((s.besideDraws B).ctx i ω, (s.besideDraws B).act i ω, (s.besideDraws B).rew i ω)) ⁻¹' sets i) =
        Prod.fst ⁻¹' (⋂ i ∈ T, (fun ω => (s.ctx i ω, s.act i ω, s.rew i ω)) ⁻¹' sets i) := by
      ext ω
      simp [LogStream.besideDraws]
    rw [e1, e _ (Finset.measurableSet_biInter _ fun i hi => hround i (hsets i hi)), h1]
    refine Finset.prod_congr rfl fun i hi => ?_
    rw [← e _ (hround i (hsets i hi))]
    rfl
  · refine ⟨((hround i).comp measurable_fst).aemeasurable, ((hround 0).comp measurable_fst).aemeasurable, ?_⟩
    have e : ∀ j, (P.prod (tablesLaw B)).map (fun ω => (s.ctx j ω.1, s.act j ω.1, s.rew j ω.1)) =
        P.map fun ω => (s.ctx j ω, s.act j ω, s.rew j ω) := by
      intro j
      conv_rhs => rw [← hmp.map_eq]
      rw [Measure.map_map (hround j) measurable_fst]
      rfl
    exact (e i).trans ((hs.ident i).map_eq.trans (e 0).symm)
  · have h := hs.policy a S hS
    have hset : MeasurableSet {ω | s.ctx 0 ω ∈ S} := hs.ctx_meas 0 hS
    have hact : MeasurableSet {ω | s.ctx 0 ω ∈ S ∧ s.act 0 ω = a} :=
      hset.inter (hs.act_meas 0 (measurableSet_singleton a))
    have e1 : (P.prod (tablesLaw B)).real {ω | (s.besideDraws B).ctx 0 ω ∈ S ∧ (s.besideDraws B).act 0 ω = a} =
        P.real {ω | s.ctx 0 ω ∈ S ∧ s.act 0 ω = a} := by
      rw [Measure.real, Measure.real, ← hmp.measure_preimage hact.nullMeasurableSet]
      rfl
    have hset' : MeasurableSet {ω : Ω × Tables B | (s.besideDraws B).ctx 0 ω ∈ S} := measurable_fst hset
    rw [e1, h, ← integral_indicator hset, ← integral_indicator hset']
    have hm : Measurable fun ω => piB (s.ctx 0 ω) a := (hs.piB_meas a).comp (hs.ctx_meas 0)
    rw [← integral_fst_tables (hm.indicator hset).aestronglyMeasurable B]
    rfl
  · exact (hmp.integrable_comp hs.rew_int.aestronglyMeasurable).2 hs.rew_int
  · have hpair : Measurable fun ω => (s.ctx 0 ω, s.act 0 ω) := (hs.ctx_meas 0).prodMk (hs.act_meas 0)
    have hmm : Measurable fun x : C × Fin A => m x.1 x.2 := measurable_from_prod_countable_left hs.m_meas
    have hint : Integrable (fun ω => m (s.ctx 0 ω) (s.act 0 ω)) P := integrable_condExp.congr hs.rew_mean
    symm
    refine ae_eq_condExp_of_forall_setIntegral_eq ((hpair.comp measurable_fst).comap_le)
      ((hmp.integrable_comp hs.rew_int.aestronglyMeasurable).2 hs.rew_int)
      (fun t _ _ => ((hmp.integrable_comp hint.aestronglyMeasurable).2 hint).integrableOn) ?_ ?_
    · rintro t ⟨T, hT, rfl⟩ -
      have hset : MeasurableSet ((fun ω => (s.ctx 0 ω, s.act 0 ω)) ⁻¹' T) := hpair hT
      have hset' : MeasurableSet (((fun ω => (s.ctx 0 ω, s.act 0 ω)) ∘ (Prod.fst : Ω × Tables B → Ω)) ⁻¹' T) :=
        (hpair.comp measurable_fst) hT
      rw [← integral_indicator hset', ← integral_indicator hset']
      have e1 := integral_fst_tables (hint.indicator hset).aestronglyMeasurable B
      have e2 := integral_fst_tables (hs.rew_int.indicator hset).aestronglyMeasurable B
      refine Eq.trans e1 (Eq.trans ?_ e2.symm)
      rw [integral_indicator hset, integral_indicator hset,
        ← setIntegral_condExp hpair.comap_le hs.rew_int ⟨T, hT, rfl⟩]
      exact setIntegral_congr_ae hset (by filter_upwards [hs.rew_mean] with ω hω _ using hω.symm)
    · exact ((hmm.comp (comap_measurable _)).stronglyMeasurable).aestronglyMeasurable

theorem LogStream.value_besideDraws {L : ℕ} {s : LogStream Ω C A} {piB m : C → Fin A → ℝ} (hs : s.LoggedBy P piB m) {pos : C → Fin L}
    {piE : C → Fin A → Fin L → ℝ} (hE : LogStream.Covers piB pos piE) (B : ℕ) :
    (s.besideDraws B).value (P.prod (tablesLaw B)) pos piE m = s.value P pos piE m := by
  have hm : Measurable fun ω => ∑ a, piE (s.ctx 0 ω) a (pos (s.ctx 0 ω)) * m (s.ctx 0 ω) a :=
    (Finset.measurable_fun_sum _ fun a _ => (hE.meas a).mul (hs.m_meas a)).comp (hs.ctx_meas 0)
  exact integral_fst_tables hm.aestronglyMeasurable B

end Obp
