import Verif.Spec.EmbStream
import Verif.Lemmas.Embed
import Verif.Lemmas.SlateStream
import Verif.Props.Consistency

set_option linter.unusedSectionVars false

namespace Obp
open MeasureTheory ProbabilityTheory Filter Topology Log

namespace EmbStream
variable {Ω C : Type} [MeasurableSpace Ω] [MeasurableSpace C] {A E D L : ℕ} {P : Measure Ω} [IsProbabilityMeasure P]
variable {s : EmbStream Ω C A E D} {piB : C → Fin A → ℝ} {pEA : Fin A → Fin E → Fin D → ℝ} {m : C → (Fin D → Fin E) → ℝ}
variable {pos : C → Fin L} {piE : C → Fin A → Fin L → ℝ}

/-- The embedding seen as the action. -/
def asAction (s : EmbStream Ω C A E D) : LogStream Ω C (E ^ D) where
  ctx := s.ctx
  act i ω := SlateStream.code (s.emb i ω)
  rew := s.rew

/-- Probabilities of the numbered embeddings. -/
def codeProb (pEA : Fin A → Fin E → Fin D → ℝ) (pi : Fin A → ℝ) (x : Fin (E ^ D)) : ℝ := marginal pEA pi (SlateStream.code.symm x)

theorem embProb_sum (h : ∀ a d, IsDist fun k => pEA a k d) (a : Fin A) : ∑ e : Fin D → Fin E, ∏ d, pEA a (e d) d = 1 := by
  rw [← Fintype.prod_sum fun d k => pEA a k d]
  exact Finset.prod_eq_one fun d _ => (h a d).sum_one

theorem marginal_nonneg (h : ∀ a d, IsDist fun k => pEA a k d) {pi : Fin A → ℝ} (hp : IsDist pi) (e : Fin D → Fin E) :
    0 ≤ marginal pEA pi e :=
  Finset.sum_nonneg fun a _ => mul_nonneg (hp.nonneg a) (Finset.prod_nonneg fun d _ => (h a d).nonneg _)

theorem codeProb_dist (h : ∀ a d, IsDist fun k => pEA a k d) {pi : Fin A → ℝ} (hp : IsDist pi) : IsDist (codeProb pEA pi) := by
  refine ⟨fun x => marginal_nonneg h hp _, ?_⟩
  rw [show ∑ x, codeProb pEA pi x = ∑ e, marginal pEA pi e from
    Equiv.sum_comp (SlateStream.code (L := D) (A := E)).symm.toEquiv fun e => marginal pEA pi e]
  unfold marginal
  rw [Finset.sum_comm, ← hp.sum_one]
  refine Finset.sum_congr rfl fun a _ => ?_
  rw [← Finset.mul_sum, embProb_sum h, mul_one]

theorem marginal_meas {pi : C → Fin A → ℝ} (h : ∀ a, Measurable fun c => pi c a) (e : Fin D → Fin E) :
    Measurable fun c => marginal pEA (pi c) e :=
  Finset.measurable_sum _ fun a _ => (h a).mul_const _

theorem LoggedBy.asAction (hs : s.LoggedBy P piB pEA m) :
    s.asAction.LoggedBy P (fun c => codeProb pEA (piB c)) fun c x => m c (SlateStream.code.symm x) := by
  have hmap : Measurable fun x : C × Fin A × (Fin D → Fin E) × ℝ =>
      (x.1, (SlateStream.code x.2.2.1 : Fin (E ^ D)), x.2.2.2) :=
    measurable_fst.prodMk ((SlateStream.code.measurable.comp (measurable_fst.comp (measurable_snd.comp measurable_snd))).prodMk
      (measurable_snd.comp (measurable_snd.comp measurable_snd)))
  refine ⟨hs.ctx_meas, fun i => SlateStream.code.measurable.comp (hs.emb_meas i), hs.rew_meas,
    hs.indep.comp (fun _ => _) fun _ => hmap, fun i => (hs.ident i).comp hmap, fun c => codeProb_dist hs.pEA_dist (hs.piB_dist c),
    fun x => marginal_meas hs.piB_meas _, fun x => hs.m_meas _, fun x B hB => ?_, hs.rew_int, ?_⟩
  · have hB' : MeasurableSet {ω | s.ctx 0 ω ∈ B} := hs.ctx_meas 0 hB
    have e : {ω | s.asAction.ctx 0 ω ∈ B ∧ s.asAction.act 0 ω = x} =
        ⋃ a ∈ (Finset.univ : Finset (Fin A)), {ω | s.ctx 0 ω ∈ B ∧ s.act 0 ω = a ∧ s.emb 0 ω = SlateStream.code.symm x} := by
      ext ω
      simp only [EmbStream.asAction, Set.mem_ofPred_eq, Set.mem_iUnion, Finset.mem_univ, exists_const]
      constructor
      · rintro ⟨h1, h2⟩
        exact ⟨s.act 0 ω, h1, rfl, by rw [← h2, SlateStream.code.symm_apply_apply]⟩
      · rintro ⟨a, h1, -, h2⟩
        exact ⟨h1, by rw [h2, SlateStream.code.apply_symm_apply]⟩
    have hpi : ∀ a, IntegrableOn (fun ω => piB (s.ctx 0 ω) a * ∏ d, pEA a (SlateStream.code.symm x d) d) {ω | s.ctx 0 ω ∈ B} P := by
      intro a
      refine ((Integrable.of_bound ((hs.piB_meas a).comp (hs.ctx_meas 0)).aestronglyMeasurable 1 (ae_of_all _ fun ω => ?_)).mul_const _).integrableOn
      have hd := hs.piB_dist (s.ctx 0 ω)
      rw [Function.comp_apply, Real.norm_of_nonneg (hd.nonneg a), ← hd.sum_one]
      exact Finset.single_le_sum (f := fun b => piB (s.ctx 0 ω) b) (fun b _ => hd.nonneg b) (Finset.mem_univ a)
    rw [e, measureReal_biUnion_finset]
    · rw [Finset.sum_congr rfl fun a _ => hs.policy a (SlateStream.code.symm x) B hB]
      rw [← integral_finsetSum _ fun a _ => hpi a]
      rfl
    · intro a _ b _ hab
      refine Set.disjoint_left.2 fun ω h1 h2 => hab ?_
      rw [← h1.2.1, ← h2.2.1]
    · intro a _
      exact hB'.inter (((hs.act_meas 0) (measurableSet_singleton a)).inter ((hs.emb_meas 0) (measurableSet_singleton _)))
  · have hpair : Measurable fun ω => (s.asAction.ctx 0 ω, s.asAction.act 0 ω) :=
      (hs.ctx_meas 0).prodMk (SlateStream.code.measurable.comp (hs.emb_meas 0))
    have htrip : Measurable fun ω => (s.ctx 0 ω, s.act 0 ω, s.emb 0 ω) :=
      (hs.ctx_meas 0).prodMk ((hs.act_meas 0).prodMk (hs.emb_meas 0))
    have hle : MeasurableSpace.comap (fun ω => (s.asAction.ctx 0 ω, s.asAction.act 0 ω)) inferInstance ≤
        MeasurableSpace.comap (fun ω => (s.ctx 0 ω, s.act 0 ω, s.emb 0 ω)) inferInstance := by
      have hg : Measurable fun x : C × Fin A × (Fin D → Fin E) => (x.1, (SlateStream.code x.2.2 : Fin (E ^ D))) :=
        measurable_fst.prodMk (SlateStream.code.measurable.comp (measurable_snd.comp measurable_snd))
      rintro t ⟨T, hT, rfl⟩
      exact ⟨_, hg hT, rfl⟩
    have htower := condExp_condExp_of_le (μ := P) (f := s.rew 0) hle htrip.comap_le
    have hM : Measurable fun x : C × Fin (E ^ D) => m x.1 (SlateStream.code.symm x.2) :=
      measurable_from_prod_countable_left fun x => hs.m_meas (SlateStream.code.symm x)
    have hsm : StronglyMeasurable[MeasurableSpace.comap (fun ω => (s.asAction.ctx 0 ω, s.asAction.act 0 ω)) inferInstance]
        (fun ω => m (s.ctx 0 ω) (s.emb 0 ω)) := by
      have : (fun ω => m (s.ctx 0 ω) (s.emb 0 ω)) = (fun x : C × Fin (E ^ D) => m x.1 (SlateStream.code.symm x.2)) ∘
          fun ω => (s.asAction.ctx 0 ω, s.asAction.act 0 ω) := by
        funext ω
        simp [EmbStream.asAction]
      rw [this]
      exact (hM.comp (comap_measurable _)).stronglyMeasurable
    have hint : Integrable (fun ω => m (s.ctx 0 ω) (s.emb 0 ω)) P := integrable_condExp.congr hs.rew_mean
    have h1 := condExp_congr_ae (m := MeasurableSpace.comap (fun ω => (s.asAction.ctx 0 ω, s.asAction.act 0 ω)) inferInstance) hs.rew_mean
    rw [condExp_of_stronglyMeasurable hpair.comap_le hsm hint] at h1
    refine (htower.symm.trans h1).trans (ae_of_all _ fun ω => ?_)
    simp [EmbStream.asAction]

/-- The evaluation policy over numbered embeddings. -/
def codePolicy (pEA : Fin A → Fin E → Fin D → ℝ) (piE : C → Fin A → Fin L → ℝ) (c : C) (x : Fin (E ^ D)) (l : Fin L) : ℝ :=
  codeProb pEA (fun a => piE c a l) x

theorem Covers.asAction (hs : s.LoggedBy P piB pEA m) (hE : Covers pEA piB pos piE) :
    LogStream.Covers (fun c => codeProb pEA (piB c)) pos (codePolicy pEA piE) where
  dist c l := codeProb_dist hs.pEA_dist (hE.dist c l)
  meas x := marginal_meas (fun a => by
    have h : Measurable fun y : C × Fin L => piE y.1 a y.2 := measurable_from_prod_countable_left fun l => hE.meas a l
    exact h.comp (measurable_id.prodMk hE.pos_meas)) _
  support c x h := hE.support c _ h

theorem weight_asAction (ω : Ω) :
    s.asAction.weight (fun c => codeProb pEA (piB c)) pos (codePolicy pEA piE) ω = s.weight piB pEA pos piE ω := by
  simp [LogStream.weight, EmbStream.weight, codePolicy, codeProb, EmbStream.asAction]

theorem value_asAction : s.asAction.value P pos (codePolicy pEA piE) (fun c x => m c (SlateStream.code.symm x)) =
    s.value P pEA pos piE m := by
  unfold LogStream.value EmbStream.value
  refine integral_congr_ae (ae_of_all _ fun ω => ?_)
  dsimp only
  rw [show ∑ x, codePolicy pEA piE (s.asAction.ctx 0 ω) x (pos (s.asAction.ctx 0 ω)) *
      m (s.asAction.ctx 0 ω) (SlateStream.code.symm x) =
      ∑ e, marginal pEA (fun a => piE (s.ctx 0 ω) a (pos (s.ctx 0 ω))) e * m (s.ctx 0 ω) e from
    Equiv.sum_comp (SlateStream.code (L := D) (A := E)).symm.toEquiv fun e =>
      marginal pEA (fun a => piE (s.ctx 0 ω) a (pos (s.ctx 0 ω))) e * m (s.ctx 0 ω) e]
  simp only [marginal, Finset.sum_mul, Finset.mul_sum]
  rw [Finset.sum_comm]
  exact Finset.sum_congr rfl fun a _ => Finset.sum_congr rfl fun e _ => mul_assoc _ _ _

theorem log_weight (hB : ∀ c, Independent pEA (piB c)) (hI : ∀ c, Independent pEA fun a => piE c a (pos c)) (n : ℕ) (ω : Ω)
    (i : Fin n) : (s.log piB pEA pos piE n ω).weight i =
      (s.asAction.log (fun c => codeProb pEA (piB c)) pos (codePolicy pEA piE) (fun _ _ _ => 0) n ω).weight false i := by
  simp only [EmbLog.weight, EmbLog.marginal, log, LogStream.log, Log.weight, EmbStream.asAction, codePolicy, codeProb,
    SlateStream.code.symm_apply_apply, Bool.false_eq_true, if_false]
  rw [hB, hI]

theorem LoggedBy.log_valid (hs : s.LoggedBy P piB pEA m) (hE : Covers pEA piB pos piE) {n : ℕ} (hn : 0 < n) (ω : Ω) :
    (s.log piB pEA pos piE n ω).Valid where
  nonempty := hn
  piB_sum i l := by
    simp only [log, (hs.piB_dist _).sum_one]
    exact closeToOne_one
  piE_sum i l := by
    simp only [log, (hE.dist _ _).sum_one]
    exact closeToOne_one

theorem LoggedBy.marginal_ne (hs : s.LoggedBy P piB pEA m) (hB : ∀ c, Independent pEA (piB c)) :
    ∀ᵐ ω ∂P, ∀ n (i : Fin n) d, (s.log piB pEA pos piE n ω).marginal (s.log piB pEA pos piE n ω).piB i d ≠ 0 := by
  filter_upwards [hs.asAction.pscore_pos] with ω hω n i d h0
  have := hω i
  simp only [EmbStream.asAction, codeProb, SlateStream.code.symm_apply_apply] at this
  rw [hB] at this
  exact this.ne' (Finset.prod_eq_zero (Finset.mem_univ d) h0)

end EmbStream

end Obp
