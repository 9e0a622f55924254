import Verif.Lemmas.IidClt
import Verif.Props.ConsistencyEmbed
import Verif.Props.EmbedInterval

set_option linter.unusedSectionVars false

/-!
# Errors and intervals of the estimators with action embeddings

C183: the errors of the marginalised estimates are asymptotically normal, and how often the intervals contain the value.
-/

namespace Obp
open MeasureTheory ProbabilityTheory Filter Topology Log EmbStream

variable {Ω C : Type} [MeasurableSpace Ω] [MeasurableSpace C] {A E D L : ℕ} {P : Measure Ω} [IsProbabilityMeasure P]
variable {s : EmbStream Ω C A E D} {piB : C → Fin A → ℝ} {pEA : Fin A → Fin E → Fin D → ℝ} {m : C → (Fin D → Fin E) → ℝ}
variable {pos : C → Fin L} {piE : C → Fin A → Fin L → ℝ}

namespace EmbStream

theorem LoggedBy.iid (hs : s.LoggedBy P piB pEA m) : Iid P fun i ω => (s.ctx i ω, s.act i ω, s.emb i ω, s.rew i ω) :=
  ⟨fun i => (hs.ctx_meas i).prodMk ((hs.act_meas i).prodMk ((hs.emb_meas i).prodMk (hs.rew_meas i))), hs.indep, hs.ident⟩

/-- The weight of a round. -/
noncomputable def weightFn (piB : C → Fin A → ℝ) (pEA : Fin A → Fin E → Fin D → ℝ) (pos : C → Fin L)
    (piE : C → Fin A → Fin L → ℝ) (x : C × Fin A × (Fin D → Fin E) × ℝ) : ℝ :=
  marginal pEA (fun a => piE x.1 a (pos x.1)) x.2.2.1 / marginal pEA (piB x.1) x.2.2.1

noncomputable def mipsFn (piB : C → Fin A → ℝ) (pEA : Fin A → Fin E → Fin D → ℝ) (pos : C → Fin L)
    (piE : C → Fin A → Fin L → ℝ) (x : C × Fin A × (Fin D → Fin E) × ℝ) : ℝ := weightFn piB pEA pos piE x * x.2.2.2

theorem weightFn_meas (hs : s.LoggedBy P piB pEA m) (hE : EmbStream.Covers pEA piB pos piE) :
    Measurable (weightFn piB pEA pos piE) := by
  have h : Measurable fun x : C × (Fin D → Fin E) => marginal pEA (fun a => piE x.1 a (pos x.1)) x.2 / marginal pEA (piB x.1) x.2 :=
    measurable_from_prod_countable_left fun e => (marginal_meas (fun a => by
      have h : Measurable fun y : C × Fin L => piE y.1 a y.2 := measurable_from_prod_countable_left fun l => hE.meas a l
      exact h.comp (measurable_id.prodMk hE.pos_meas)) e).div (marginal_meas hs.piB_meas e)
  exact h.comp (measurable_fst.prodMk (measurable_fst.comp (measurable_snd.comp measurable_snd)))

theorem mipsFn_meas (hs : s.LoggedBy P piB pEA m) (hE : EmbStream.Covers pEA piB pos piE) : Measurable (mipsFn piB pEA pos piE) :=
  (weightFn_meas hs hE).mul (measurable_snd.comp (measurable_snd.comp measurable_snd))

theorem log_weight_eq (hB : ∀ c, Independent pEA (piB c)) (hI : ∀ c, Independent pEA fun a => piE c a (pos c)) (n : ℕ) (ω : Ω)
    (i : Fin n) : (s.log piB pEA pos piE n ω).weight i =
      weightFn piB pEA pos piE (s.ctx i ω, s.act i ω, s.emb i ω, s.rew i ω) := by
  simp only [EmbLog.weight, EmbLog.marginal, log, weightFn]
  rw [hB, hI]

theorem LoggedBy.mips_mean (hs : s.LoggedBy P piB pEA m) (hE : EmbStream.Covers pEA piB pos piE) (hB : ∀ c, Independent pEA (piB c))
    (hI : ∀ c, Independent pEA fun a => piE c a (pos c)) (nActions : ℕ) (learner) : ∀ᵐ ω ∂P, ∀ n, 0 < n →
      EmbKind.mipw.plainValue nActions learner (s.log piB pEA pos piE n ω).args = .ok (meanTo (fun i => s.mipsTerm piB pEA pos piE i ω) n) := by
  filter_upwards [hs.marginal_ne (pos := pos) (piE := piE) hB] with ω hne n hn
  rw [EmbLog.value_mipw (hs.log_valid hE hn ω) (hne n), meanTo_avg]
  refine congrArg Except.ok (congrArg avg (funext fun i => ?_))
  rw [log_weight_eq hB hI]
  exact mul_comm _ _

theorem LoggedBy.mips_interval (hs : s.LoggedBy P piB pEA m) (hE : EmbStream.Covers pEA piB pos piE) (hB : ∀ c, Independent pEA (piB c))
    (hI : ∀ c, Independent pEA fun a => piE c a (pos c)) (nActions : ℕ) (learner) : ∀ᵐ ω ∂P, ∀ n, 0 < n → ∀ c draws,
      EmbKind.mipw.estimateInterval nActions learner (s.log piB pEA pos piE n ω).args c draws =
        bootstrapCI (List.ofFn fun i : Fin n => s.mipsTerm piB pEA pos piE i ω) c draws := by
  filter_upwards [hs.marginal_ne (pos := pos) (piE := piE) hB] with ω hne n hn c draws
  rw [(C121_interval_formula (hs.log_valid hE hn ω) (hne n) nActions learner c draws).1]
  refine congrArg (fun xs => bootstrapCI (List.ofFn xs) c draws) (funext fun i => ?_)
  rw [log_weight_eq hB hI]
  exact mul_comm _ _

end EmbStream

/-- **C183.** Marginalised inverse propensity weighting: the errors are normal with the variance of the weighted reward of a
round. -/
theorem C183_mips (hs : s.LoggedBy P piB pEA m) (hE : EmbStream.Covers pEA piB pos piE) (hB : ∀ c, Independent pEA (piB c))
    (hI : ∀ c, Independent pEA fun a => piE c a (pos c)) (h2 : MemLp (s.mipsTerm piB pEA pos piE 0) 2 P)
    (hv : Var[s.mipsTerm piB pEA pos piE 0; P] ≠ 0) (nActions : ℕ) (learner) :
    NormalErrors P (fun n ω => EmbKind.mipw.plainValue nActions learner (s.log piB pEA pos piE n ω).args)
      (s.value P pEA pos piE m) (Var[s.mipsTerm piB pEA pos piE 0; P]) := by
  have hest := hs.mips_mean hE hB hI nActions learner
  have hm := hs.iid.mean_of_results (F := mipsFn piB pEA pos piE) (mipsFn_meas hs hE) (h2.integrable one_le_two) hest
    (C163_mips hs hE hB hI (h2.integrable one_le_two) nActions learner)
  exact normalErrors_mean (F := mipsFn piB pEA pos piE) hs.iid (mipsFn_meas hs hE) h2 hm hv hest

/-- **C183.** The intervals of the marginalised estimator. -/
theorem C183_mips_coverage (hs : s.LoggedBy P piB pEA m) (hE : EmbStream.Covers pEA piB pos piE) (hB : ∀ c, Independent pEA (piB c))
    (hI : ∀ c, Independent pEA fun a => piE c a (pos c)) (h2 : MemLp (s.mipsTerm piB pEA pos piE 0) 2 P)
    (hv : Var[s.mipsTerm piB pEA pos piE 0; P] ≠ 0) (nActions : ℕ) (learner) {Ω' : Type} [MeasurableSpace Ω'] {P' : Measure Ω'}
    [IsProbabilityMeasure P'] {f : Ω' → Ω} (hf : MeasurePreserving f P' P) {N : ℕ} (hN : 1 ≤ N)
    (R : Resampling P' (fun i ω => s.mipsTerm piB pEA pos piE i (f ω)) N) {alpha : ℝ} (h0 : 0 ≤ alpha) (h1 : alpha ≤ 1) :
    NearlyCovers (fun n => P'.real {ω | ReturnsAround (EmbKind.mipw.estimateInterval nActions learner
      (s.log piB pEA pos piE n (f ω)).args (ciCall alpha N) (R.draws n ω)) (s.value P pEA pos piE m)}) alpha N := by
  have hm := hs.iid.mean_of_results (F := mipsFn piB pEA pos piE) (mipsFn_meas hs hE) (h2.integrable one_le_two)
    (hs.mips_mean hE hB hI nActions learner) (C163_mips hs hE hB hI (h2.integrable one_le_two) nActions learner)
  exact nearlyCovers_rounds (F := mipsFn piB pEA pos piE) hs.iid (mipsFn_meas hs hE) h2 hm hv hf hN R h0 h1
    (hs.mips_interval hE hB hI nActions learner)

/-- **C183.** The self-normalised version: the variance is that of the weighted distance of the reward from the value. -/
theorem C183_snmips (hs : s.LoggedBy P piB pEA m) (hE : EmbStream.Covers pEA piB pos piE) (hB : ∀ c, Independent pEA (piB c))
    (hI : ∀ c, Independent pEA fun a => piE c a (pos c)) (h2 : MemLp (s.mipsTerm piB pEA pos piE 0) 2 P)
    (hw2 : MemLp (s.weight piB pEA pos piE) 2 P)
    (hv : Var[s.snmipsTerm piB pEA pos piE (s.value P pEA pos piE m) 0; P] ≠ 0) (nActions : ℕ) (learner) :
    NormalErrors P (fun n ω => EmbKind.snmipw.plainValue nActions learner (s.log piB pEA pos piE n ω).args)
      (s.value P pEA pos piE m) (Var[s.snmipsTerm piB pEA pos piE (s.value P pEA pos piE m) 0; P]) := by
  have hwm := weightFn_meas hs hE
  have hi := h2.integrable one_le_two
  have hm := hs.iid.mean_of_results (F := mipsFn piB pEA pos piE) (mipsFn_meas hs hE) hi
    (hs.mips_mean hE hB hI nActions learner) (C163_mips hs hE hB hI hi nActions learner)
  have hw : ∀ᵐ ω ∂P, Tendsto (fun n => meanTo (fun i => weightFn piB pEA pos piE (s.ctx i ω, s.act i ω, s.emb i ω, s.rew i ω)) n)
      atTop (𝓝 1) := by
    filter_upwards [hs.asAction.lln_weight (q := fun _ _ _ => 0) (hE.asAction hs)] with ω hω
    refine hω.congr fun n => ?_
    rw [meanTo_avg]
    refine congrArg avg (funext fun i => ?_)
    rw [← log_weight hB hI, log_weight_eq hB hI]
  have hw1 := hs.iid.mean_eq hwm (hw2.integrable one_le_two) hw
  refine normalErrors_ratios hs.iid (J := Unit) (FA := fun _ => 0)
    (FU := fun _ x => mipsFn piB pEA pos piE x - s.value P pEA pos piE m * weightFn piB pEA pos piE x)
    (FW := fun _ => weightFn piB pEA pos piE) measurable_const
    (fun _ => (mipsFn_meas hs hE).sub (hwm.const_mul _)) (fun _ => hwm) (memLp_const 0) (fun _ => h2.sub (hw2.const_mul _))
    (by simp) (fun _ => ?_) (hw.mono fun ω hω _ => hω) ?_ (lt_of_le_of_ne (variance_nonneg _ _) hv.symm) ?_
  · have e1 : Integrable (fun ω => mipsFn piB pEA pos piE (s.ctx 0 ω, s.act 0 ω, s.emb 0 ω, s.rew 0 ω)) P := hi
    have e2 : Integrable (fun ω => weightFn piB pEA pos piE (s.ctx 0 ω, s.act 0 ω, s.emb 0 ω, s.rew 0 ω)) P := hw2.integrable one_le_two
    rw [integral_sub e1 (e2.const_mul _), integral_const_mul, hm, hw1]
    ring
  · congr 1
    funext ω
    simp only [Finset.univ_unique, Finset.sum_const, Finset.card_singleton, one_smul, zero_add, snmipsTerm, mipsFn, weightFn]
    ring
  · filter_upwards [hs.marginal_ne (pos := pos) (piE := piE) hB] with ω hval n hn hne
    have hne := hne ()
    have ew : (s.log piB pEA pos piE n ω).weight =
        fun i : Fin n => weightFn piB pEA pos piE (s.ctx i ω, s.act i ω, s.emb i ω, s.rew i ω) := funext (log_weight_eq hB hI n ω)
    rw [meanTo_avg] at hne
    rw [EmbLog.value_snmipw (hs.log_valid hE hn ω) (hval n) (by rw [ew]; exact hne), ew]
    refine congrArg Except.ok ?_
    have h0 : meanTo (fun _ => (0 : ℝ)) n = 0 := by simp [meanTo]
    have hx : avg (fun i : Fin n => (s.log piB pEA pos piE n ω).reward i *
        weightFn piB pEA pos piE (s.ctx i ω, s.act i ω, s.emb i ω, s.rew i ω)) =
        meanTo (fun i => mipsFn piB pEA pos piE (s.ctx i ω, s.act i ω, s.emb i ω, s.rew i ω)) n := by
      rw [meanTo_avg]
      exact congrArg avg (funext fun i => mul_comm _ _)
    rw [h0, zero_add]
    simp only [Finset.univ_unique, Finset.sum_const, Finset.card_singleton, one_smul]
    rw [meanTo_sub_mul, ← hx]
    simp only [meanTo_avg] at hne ⊢
    have hd : ∀ (x : Fin n → ℝ) (y : ℝ), avg (fun i => x i / y) = avg x / y := fun x y => by
      simp only [avg, ← Finset.sum_div]
      exact div_right_comm _ _ _
    rw [hd]
    field_simp
    ring

/-! ### A case: half of the actions of the evaluation policy are never logged -/

theorem exEmb_memLp (f : ExEmbRound → ℝ) :
    MemLp (fun ω : ℕ → ExEmbRound => f (ω 0)) 2 (Measure.infinitePi fun _ : ℕ => exEmbLaw) :=
  (memLp_two_iff_integrable_sq (exEmb_meas f 0).aestronglyMeasurable).2 (exEmb_int fun o => f o ^ 2)

theorem exEmb_variance {f : ExEmbRound → ℝ} {o o' : ExEmbRound} (h : f o < f o') :
    Var[fun ω : ℕ → ExEmbRound => f (ω 0); Measure.infinitePi fun _ : ℕ => exEmbLaw] ≠ 0 := by
  intro h0
  rw [variance_eq_integral (exEmb_meas f 0).aemeasurable] at h0
  have e := exEmbStream_integral fun o => (f o - ∫ ω, f (ω 0) ∂Measure.infinitePi fun _ : ℕ => exEmbLaw) ^ 2
  rw [h0, eq_comm, Finset.sum_eq_zero_iff_of_nonneg fun _ _ => div_nonneg (sq_nonneg _) (by norm_num)] at e
  have e : ∀ o, f o = ∫ ω, f (ω 0) ∂Measure.infinitePi fun _ : ℕ => exEmbLaw := fun o =>
    sub_eq_zero.1 (pow_eq_zero_iff two_ne_zero |>.1 ((div_eq_zero_iff.1 (e o (Finset.mem_univ o))).resolve_right (by norm_num)))
  exact h.ne ((e o).trans (e o').symm)

theorem exEmb_value : exEmbStream.value (Measure.infinitePi fun _ : ℕ => exEmbLaw) exEmbP (fun _ => (0 : Fin 1)) exStreamEmbE exEmbMean =
    9 / 4 := by
  have := exEmbStream_integral fun o => ∑ a, exStreamEmbE o.1 a 0 * ∑ e : Fin 1 → Fin 2, (∏ d, exEmbP a (e d) d) * exEmbMean o.1 e
  unfold EmbStream.value
  refine this.trans ?_
  have hs : ∀ f : (Fin 1 → Fin 2) → ℝ, ∑ e, f e = f (fun _ => 0) + f fun _ => 1 := fun f => by
    rw [← Equiv.sum_comp (Equiv.funUnique (Fin 1) (Fin 2)).symm, Fin.sum_univ_two]
    rfl
  simp only [hs, Fintype.sum_prod_type, Fintype.sum_bool, Fin.sum_univ_three]
  simp [exStreamEmbE, exEmbP, exEmbMean]
  norm_num

/-- The weight of a round of the example. -/
noncomputable def exEmbWeight (o : ExEmbRound) : ℝ :=
  marginal exEmbP (fun a => exStreamEmbE o.1 a 0) (exEmbEmb o) / marginal exEmbP (exEmbB o.1) (exEmbEmb o)

theorem exEmbWeight_pos : 0 < exEmbWeight (true, true, 1, true) := by
  unfold exEmbWeight marginal
  simp [exEmbEmb, exEmbB, exEmbP, exStreamEmbE, Fin.sum_univ_three]
  norm_num

theorem exEmb_less (v : ℝ) : exEmbWeight (true, true, 1, false) * (exEmbReward (true, true, 1, false) - v) <
    exEmbWeight (true, true, 1, true) * (exEmbReward (true, true, 1, true) - v) := by
  have e : exEmbWeight (true, true, 1, false) = exEmbWeight (true, true, 1, true) := rfl
  rw [e]
  refine mul_lt_mul_of_pos_left ?_ exEmbWeight_pos
  have e2 : exEmbEmb (true, true, 1, false) = exEmbEmb (true, true, 1, true) := rfl
  simp only [exEmbReward, e2]
  norm_num

theorem exEmb_independent (pi : Fin 3 → ℝ) : Independent exEmbP pi := fun e => by simp [marginal]

theorem exEmb_mips_variance :
    Var[exEmbStream.mipsTerm exEmbB exEmbP (fun _ => (0 : Fin 1)) exStreamEmbE 0; Measure.infinitePi fun _ : ℕ => exEmbLaw] ≠ 0 := by
  have h := exEmb_less 0
  simp only [sub_zero] at h
  exact exEmb_variance (f := fun o => exEmbWeight o * exEmbReward o) h

/-- Estimates and intervals. -/
example (nActions : ℕ) (learner) :
    NormalErrors (Measure.infinitePi fun _ : ℕ => exEmbLaw) (fun n ω => EmbKind.mipw.plainValue nActions learner
      (exEmbStream.log exEmbB exEmbP (fun _ => (0 : Fin 1)) exStreamEmbE n ω).args) (9 / 4)
      (Var[exEmbStream.mipsTerm exEmbB exEmbP (fun _ => (0 : Fin 1)) exStreamEmbE 0; Measure.infinitePi fun _ : ℕ => exEmbLaw]) ∧
    NearlyCovers (fun n => ((Measure.infinitePi fun _ : ℕ => exEmbLaw).prod (tablesLaw 100)).real {ω | ReturnsAround
      (EmbKind.mipw.estimateInterval nActions learner (exEmbStream.log exEmbB exEmbP (fun _ => (0 : Fin 1)) exStreamEmbE n ω.1).args
      (ciCall (1 / 20) 100) ((Resampling.beside (P := Measure.infinitePi fun _ : ℕ => exEmbLaw)
        (exEmbStream.mipsTerm exEmbB exEmbP (fun _ => (0 : Fin 1)) exStreamEmbE) 100).draws n ω)) (9 / 4)}) (1 / 20) 100 := by
  rw [← exEmb_value]
  exact ⟨C183_mips exEmbStream_logged exEmb_covers (fun _ => exEmb_independent _) (fun _ => exEmb_independent _)
      (exEmb_memLp fun o => exEmbWeight o * exEmbReward o) exEmb_mips_variance nActions learner,
    C183_mips_coverage exEmbStream_logged exEmb_covers (fun _ => exEmb_independent _) (fun _ => exEmb_independent _)
      (exEmb_memLp fun o => exEmbWeight o * exEmbReward o) exEmb_mips_variance nActions learner measurePreserving_fst (by norm_num)
      (Resampling.beside (P := Measure.infinitePi fun _ : ℕ => exEmbLaw)
        (exEmbStream.mipsTerm exEmbB exEmbP (fun _ => (0 : Fin 1)) exStreamEmbE) 100) (by norm_num) (by norm_num)⟩

/-- The self-normalised estimates. -/
example (nActions : ℕ) (learner) :
    NormalErrors (Measure.infinitePi fun _ : ℕ => exEmbLaw) (fun n ω => EmbKind.snmipw.plainValue nActions learner
      (exEmbStream.log exEmbB exEmbP (fun _ => (0 : Fin 1)) exStreamEmbE n ω).args) (9 / 4)
      (Var[exEmbStream.snmipsTerm exEmbB exEmbP (fun _ => (0 : Fin 1)) exStreamEmbE (9 / 4) 0; Measure.infinitePi fun _ : ℕ => exEmbLaw]) := by
  have h : Var[exEmbStream.snmipsTerm exEmbB exEmbP (fun _ => (0 : Fin 1)) exStreamEmbE (9 / 4) 0; Measure.infinitePi fun _ : ℕ => exEmbLaw] ≠ 0 :=
    exEmb_variance (f := fun o => exEmbWeight o * (exEmbReward o - 9 / 4)) (exEmb_less _)
  rw [← exEmb_value] at h ⊢
  exact C183_snmips exEmbStream_logged exEmb_covers (fun _ => exEmb_independent _) (fun _ => exEmb_independent _)
    (exEmb_memLp fun o => exEmbWeight o * exEmbReward o) (exEmb_memLp exEmbWeight) h nActions learner

end Obp
