import Verif.Lemmas.EmbStream

set_option linter.unusedSectionVars false

/-!
# Consistency with action embeddings

C163: with more and more logged rounds, the marginalised estimates tend to the value of the evaluation policy.
-/

namespace Obp
open MeasureTheory ProbabilityTheory Filter Topology Log EmbStream

variable {Ω C : Type} [MeasurableSpace Ω] [MeasurableSpace C] {A E D L : ℕ} {P : Measure Ω} [IsProbabilityMeasure P]
variable {s : EmbStream Ω C A E D} {piB : C → Fin A → ℝ} {pEA : Fin A → Fin E → Fin D → ℝ} {m : C → (Fin D → Fin E) → ℝ}
variable {pos : C → Fin L} {piE : C → Fin A → Fin L → ℝ}

/-- **C163.** Marginalised inverse propensity weighting: if rewards depend on the action only through its embedding, and the
dimensions of the embedding are independent under both policies, the estimates tend to the value of the evaluation policy with
probability one, even if the evaluation policy takes actions that the logging policy never takes. -/
theorem C163_mips (hs : s.LoggedBy P piB pEA m) (hE : EmbStream.Covers pEA piB pos piE) (hB : ∀ c, Independent pEA (piB c))
    (hI : ∀ c, Independent pEA fun a => piE c a (pos c))
    (hi : Integrable (fun ω => s.weight piB pEA pos piE ω * s.rew 0 ω) P) (nActions : ℕ) (learner) :
    ∀ᵐ ω ∂P, ResultsTendTo (fun n => EmbKind.mipw.plainValue nActions learner (s.log piB pEA pos piE n ω).args)
      (s.value P pEA pos piE m) := by
  have hi' : Integrable (fun ω => s.asAction.weight (fun c => codeProb pEA (piB c)) pos (codePolicy pEA piE) ω * s.asAction.rew 0 ω) P := by
    simp only [weight_asAction]
    exact hi
  filter_upwards [hs.marginal_ne (pos := pos) (piE := piE) hB,
    hs.asAction.lln_weighted_reward (q := fun _ _ _ => 0) (hE.asAction hs) hi'] with ω hne ht
  rw [value_asAction] at ht
  refine ⟨_, ?_, ht⟩
  filter_upwards [eventually_gt_atTop 0] with n hn
  rw [EmbLog.value_mipw (hs.log_valid hE hn ω) (hne n)]
  simp only [log_weight hB hI]
  rfl

/-- **C163.** The self-normalised version. -/
theorem C163_snmips (hs : s.LoggedBy P piB pEA m) (hE : EmbStream.Covers pEA piB pos piE) (hB : ∀ c, Independent pEA (piB c))
    (hI : ∀ c, Independent pEA fun a => piE c a (pos c))
    (hi : Integrable (fun ω => s.weight piB pEA pos piE ω * s.rew 0 ω) P) (nActions : ℕ) (learner) :
    ∀ᵐ ω ∂P, ResultsTendTo (fun n => EmbKind.snmipw.plainValue nActions learner (s.log piB pEA pos piE n ω).args)
      (s.value P pEA pos piE m) := by
  have hi' : Integrable (fun ω => s.asAction.weight (fun c => codeProb pEA (piB c)) pos (codePolicy pEA piE) ω * s.asAction.rew 0 ω) P := by
    simp only [weight_asAction]
    exact hi
  filter_upwards [hs.marginal_ne (pos := pos) (piE := piE) hB,
    hs.asAction.lln_weighted_reward (q := fun _ _ _ => 0) (hE.asAction hs) hi',
    hs.asAction.lln_weight (q := fun _ _ _ => 0) (hE.asAction hs)] with ω hne ht hw
  rw [value_asAction] at ht
  have hq := ht.div hw one_ne_zero
  rw [div_one] at hq
  refine ⟨_, ?_, hq⟩
  filter_upwards [eventually_gt_atTop 0, hw.eventually_ne one_ne_zero] with n hn hw0
  have e : (s.log piB pEA pos piE n ω).weight =
      (s.asAction.log (fun c => codeProb pEA (piB c)) pos (codePolicy pEA piE) (fun _ _ _ => 0) n ω).weight false :=
    funext (log_weight hB hI n ω)
  rw [EmbLog.value_snmipw (hs.log_valid hE hn ω) (hne n) (by rw [e]; exact hw0), e]
  simp only [avg, Pi.div_apply, ← Finset.sum_div]
  rw [div_right_comm]
  rfl

/-- **C163.** One-dimensional embeddings need no independence. -/
theorem C163_one_dim {s : EmbStream Ω C A E 1} {pEA : Fin A → Fin E → Fin 1 → ℝ} {m : C → (Fin 1 → Fin E) → ℝ}
    (hs : s.LoggedBy P piB pEA m) (hE : EmbStream.Covers pEA piB pos piE)
    (hi : Integrable (fun ω => s.weight piB pEA pos piE ω * s.rew 0 ω) P) (nActions : ℕ) (learner) {k : EmbKind}
    (hk : k = .mipw ∨ k = .snmipw) :
    ∀ᵐ ω ∂P, ResultsTendTo (fun n => k.plainValue nActions learner (s.log piB pEA pos piE n ω).args) (s.value P pEA pos piE m) := by
  have : ∀ pi, Independent pEA pi := fun pi e => by simp [marginal]
  rcases hk with rfl | rfl
  · exact C163_mips hs hE (fun _ => this _) (fun _ => this _) hi nActions learner
  · exact C163_snmips hs hE (fun _ => this _) (fun _ => this _) hi nActions learner

/-! ### The hypotheses are met -/

/-- One round of the example: a fair coin for the context, one for the action, a die with three sides for the embedding and a
coin for the noise. -/
abbrev ExEmbRound := Bool × Bool × Fin 3 × Bool

/-- Uniform distribution of one round. -/
noncomputable def exEmbLaw : Measure ExEmbRound := (PMF.uniformOfFintype ExEmbRound).toMeasure

instance : IsProbabilityMeasure exEmbLaw := by unfold exEmbLaw; infer_instance

/-- The logged action: 0 or 1, never 2. -/
def exEmbAct (o : ExEmbRound) : Fin 3 := if o.2.1 then 1 else 0

/-- The logged embedding: the number of the action, but the other one if the die shows 0. -/
def exEmbEmb (o : ExEmbRound) : Fin 1 → Fin 2 := fun _ => if o.2.1 = true ↔ o.2.2.1 ≠ 0 then 1 else 0

/-- Mean reward. -/
def exEmbMean (c : Bool) (e : Fin 1 → Fin 2) : ℝ := if c then ((e 0 : ℕ) : ℝ) + 1 else 3

/-- Reward of the example. -/
def exEmbReward (o : ExEmbRound) : ℝ := exEmbMean o.1 (exEmbEmb o) + if o.2.2.2 then 1 else -1

/-- Probabilities of the embeddings. -/
noncomputable def exEmbP (a : Fin 3) (k : Fin 2) (_ : Fin 1) : ℝ := if a = 2 then 1 / 2 else if (a : ℕ) = k then 2 / 3 else 1 / 3

/-- The logging policy of the example. -/
noncomputable def exEmbB (_ : Bool) (a : Fin 3) : ℝ := if a = 2 then 0 else 1 / 2

/-- The evaluation policy prefers the action that is never logged. -/
noncomputable def exStreamEmbE (_ : Bool) (a : Fin 3) (_ : Fin 1) : ℝ := if a = 2 then 1 / 2 else 1 / 4

/-- Independent rounds. -/
noncomputable def exEmbStream : EmbStream (ℕ → ExEmbRound) Bool 3 2 1 where
  ctx i ω := (ω i).1
  act i ω := exEmbAct (ω i)
  emb i ω := exEmbEmb (ω i)
  rew i ω := exEmbReward (ω i)

theorem exEmbStream_integral (g : ExEmbRound → ℝ) :
    ∫ ω, g (ω 0) ∂(Measure.infinitePi fun _ : ℕ => exEmbLaw) = ∑ o, g o / 24 := by
  have h : ∫ o, g o ∂exEmbLaw = ∑ o, g o / 24 := by
    unfold exEmbLaw
    rw [PMF.integral_eq_sum]
    refine Finset.sum_congr rfl fun o _ => ?_
    rw [PMF.uniformOfFintype_apply]
    simp [ExEmbRound]
    ring
  rw [← h]
  conv_rhs => rw [← Measure.infinitePi_map_eval (fun _ : ℕ => exEmbLaw) 0]
  rw [integral_map (measurable_pi_apply 0).aemeasurable (measurable_of_finite g).aestronglyMeasurable]

theorem exEmb_meas {β : Type} [MeasurableSpace β] (f : ExEmbRound → β) (i : ℕ) : Measurable fun ω : ℕ → ExEmbRound => f (ω i) :=
  (measurable_of_finite f).comp (measurable_pi_apply i)

theorem exEmb_int (f : ExEmbRound → ℝ) : Integrable (fun ω : ℕ → ExEmbRound => f (ω 0)) (Measure.infinitePi fun _ : ℕ => exEmbLaw) := by
  obtain ⟨M, hM⟩ := (Set.finite_range fun o => ‖f o‖).bddAbove
  exact Integrable.of_bound (exEmb_meas f 0).aestronglyMeasurable M (ae_of_all _ fun ω => hM ⟨ω 0, rfl⟩)

theorem exEmbStream_logged : exEmbStream.LoggedBy (Measure.infinitePi fun _ : ℕ => exEmbLaw) exEmbB exEmbP exEmbMean := by
  let round : ExEmbRound → Bool × Fin 3 × (Fin 1 → Fin 2) × ℝ := fun o => (o.1, exEmbAct o, exEmbEmb o, exEmbReward o)
  refine ⟨fun i => exEmb_meas (fun o => o.1) i, fun i => exEmb_meas exEmbAct i, fun i => exEmb_meas exEmbEmb i,
    fun i => exEmb_meas exEmbReward i, ?_, fun i => ?_, fun c => ⟨fun a => ?_, ?_⟩, fun a => measurable_const,
    fun a d => ⟨fun k => ?_, ?_⟩, fun a => measurable_of_finite _, fun a e B hB => ?_, exEmb_int exEmbReward, ?_⟩
  · exact iIndepFun_infinitePi (X := fun _ => round) fun _ => measurable_of_finite _
  · refine ⟨(exEmb_meas round i).aemeasurable, (exEmb_meas round 0).aemeasurable, ?_⟩
    have : ∀ j : ℕ, (Measure.infinitePi fun _ : ℕ => exEmbLaw).map (fun ω => round (ω j)) = exEmbLaw.map round := by
      intro j
      conv_rhs => rw [← Measure.infinitePi_map_eval (fun _ : ℕ => exEmbLaw) j]
      exact (Measure.map_map (measurable_of_finite round) (measurable_pi_apply j)).symm
    exact (this i).trans (this 0).symm
  · unfold exEmbB
    split <;> norm_num
  · simp [exEmbB, Fin.sum_univ_three]
    norm_num
  · unfold exEmbP
    split
    · norm_num
    · split <;> norm_num
  · fin_cases a <;> simp [exEmbP, Fin.sum_univ_two] <;> norm_num
  · classical
    have h1 : MeasurableSet {ω : ℕ → ExEmbRound | exEmbStream.ctx 0 ω ∈ B} := exEmb_meas (fun o => o.1) 0 hB
    have hset : MeasurableSet {ω : ℕ → ExEmbRound | exEmbStream.ctx 0 ω ∈ B ∧ exEmbStream.act 0 ω = a ∧ exEmbStream.emb 0 ω = e} :=
      exEmb_meas (fun o => (decide (o.1 ∈ B ∧ exEmbAct o = a ∧ exEmbEmb o = e))) 0 (measurableSet_singleton true) |> fun h => by
        convert h using 1
        ext ω
        simp [exEmbStream]
    rw [← integral_indicator_one hset, ← integral_indicator h1]
    have e1 := exEmbStream_integral fun o => if o.1 ∈ B ∧ exEmbAct o = a ∧ exEmbEmb o = e then (1 : ℝ) else 0
    have e2 := exEmbStream_integral fun o => if o.1 ∈ B then exEmbB true a * ∏ d, exEmbP a (e d) d else 0
    have g1 : (fun ω : ℕ → ExEmbRound => {ω : ℕ → ExEmbRound | exEmbStream.ctx 0 ω ∈ B ∧ exEmbStream.act 0 ω = a ∧
        exEmbStream.emb 0 ω = e}.indicator (1 : (ℕ → ExEmbRound) → ℝ) ω) =
        fun ω => if (ω 0).1 ∈ B ∧ exEmbAct (ω 0) = a ∧ exEmbEmb (ω 0) = e then (1 : ℝ) else 0 := by
      funext ω
      simp only [Set.indicator, Set.mem_ofPred_eq, exEmbStream, Pi.one_apply]
      congr
    have g2 : (fun ω : ℕ → ExEmbRound => {ω : ℕ → ExEmbRound | exEmbStream.ctx 0 ω ∈ B}.indicator
        (fun ω => exEmbB (exEmbStream.ctx 0 ω) a * ∏ d, exEmbP a (e d) d) ω) =
        fun ω => if (ω 0).1 ∈ B then exEmbB true a * ∏ d, exEmbP a (e d) d else 0 := by
      funext ω
      simp [Set.indicator, exEmbStream, exEmbB]
    rw [g1, g2, e1, e2]
    obtain ⟨k, rfl⟩ : ∃ k : Fin 2, e = fun _ => k := ⟨e 0, by funext d; rw [Subsingleton.elim d 0]⟩
    have hk : ∀ o, (exEmbEmb o = fun _ => k) ↔ (if o.2.1 = true ↔ o.2.2.1 ≠ 0 then (1 : Fin 2) else 0) = k :=
      fun o => ⟨fun h => congrFun h 0, fun h => funext fun _ => h⟩
    simp only [hk, exEmbAct, Fintype.sum_prod_type, Fintype.sum_bool, Fin.sum_univ_three, Finset.univ_unique, Finset.prod_singleton]
    by_cases ht : true ∈ B <;> by_cases hf : false ∈ B <;> fin_cases a <;> fin_cases k <;> simp [ht, hf, exEmbB, exEmbP] <;> norm_num
  · symm
    refine ae_eq_condExp_of_forall_setIntegral_eq ((exEmb_meas (fun o => (o.1, exEmbAct o, exEmbEmb o)) 0).comap_le) (exEmb_int exEmbReward)
      (fun t _ _ => (exEmb_int fun o => exEmbMean o.1 (exEmbEmb o)).integrableOn) ?_ ?_
    · rintro t ⟨T, hT, rfl⟩ -
      classical
      have hpre : MeasurableSet ((fun ω : ℕ → ExEmbRound => ((ω 0).1, exEmbAct (ω 0), exEmbEmb (ω 0))) ⁻¹' T) :=
        exEmb_meas (fun o => (o.1, exEmbAct o, exEmbEmb o)) 0 hT
      have g1 : ∀ f : ExEmbRound → ℝ, ∫ ω in (fun ω : ℕ → ExEmbRound => ((ω 0).1, exEmbAct (ω 0), exEmbEmb (ω 0))) ⁻¹' T, f (ω 0)
          ∂(Measure.infinitePi fun _ : ℕ => exEmbLaw) = ∑ o : ExEmbRound, (if (o.1, exEmbAct o, exEmbEmb o) ∈ T then f o else 0) / 24 := by
        intro f
        rw [← integral_indicator hpre, ← exEmbStream_integral]
        refine integral_congr_ae (ae_of_all _ fun ω => ?_)
        simp [Set.indicator]
      refine (g1 fun o => exEmbMean o.1 (exEmbEmb o)).trans (Eq.trans ?_ (g1 exEmbReward).symm)
      simp only [Fintype.sum_prod_type]
      refine Finset.sum_congr rfl fun c _ => Finset.sum_congr rfl fun a _ => Finset.sum_congr rfl fun u _ => ?_
      have hu : ∀ b, exEmbEmb (c, a, u, b) = exEmbEmb (c, a, u, true) := fun b => rfl
      have ha : ∀ b, exEmbAct (c, a, u, b) = exEmbAct (c, a, u, true) := fun b => rfl
      simp only [Fintype.sum_bool, exEmbReward, hu false, ha false]
      split
      · simp
        ring
      · simp
    · exact ((measurable_of_finite fun x : Bool × Fin 3 × (Fin 1 → Fin 2) => exEmbMean x.1 x.2.2).comp
        (comap_measurable _)).aestronglyMeasurable

theorem exEmb_covers : EmbStream.Covers exEmbP exEmbB (fun _ => (0 : Fin 1)) exStreamEmbE where
  dist c l := ⟨fun a => by unfold exStreamEmbE; split <;> norm_num, by simp [exStreamEmbE, Fin.sum_univ_three]; norm_num⟩
  meas a l := measurable_const
  pos_meas := measurable_const
  support c e h := by
    exfalso
    obtain ⟨k, rfl⟩ : ∃ k : Fin 2, e = fun _ => k := ⟨e 0, by funext d; rw [Subsingleton.elim d 0]⟩
    revert h
    fin_cases k <;> simp [marginal, exEmbB, exEmbP, Fin.sum_univ_three] <;> norm_num

/-- The example stream meets the hypotheses; the logs lead to the value 9/4 although half of the evaluation policy's actions are
never logged. -/
example (nActions : ℕ) (learner) : ∀ᵐ ω ∂(Measure.infinitePi fun _ : ℕ => exEmbLaw), ResultsTendTo (fun n =>
    EmbKind.mipw.plainValue nActions learner (exEmbStream.log exEmbB exEmbP (fun _ => (0 : Fin 1)) exStreamEmbE n ω).args) (9 / 4) := by
  have hv : exEmbStream.value (Measure.infinitePi fun _ : ℕ => exEmbLaw) exEmbP (fun _ => (0 : Fin 1)) exStreamEmbE exEmbMean = 9 / 4 := by
    have := exEmbStream_integral fun o => ∑ a, exStreamEmbE o.1 a 0 * ∑ e : Fin 1 → Fin 2, (∏ d, exEmbP a (e d) d) * exEmbMean o.1 e
    unfold EmbStream.value
    refine this.trans ?_
    have hs : ∀ f : (Fin 1 → Fin 2) → ℝ, ∑ e, f e = f (fun _ => 0) + f fun _ => 1 := fun f => by
      rw [← Equiv.sum_comp (Equiv.funUnique (Fin 1) (Fin 2)).symm, Fin.sum_univ_two]
      rfl
    simp only [hs, Fintype.sum_prod_type, Fintype.sum_bool, Fin.sum_univ_three]
    simp [exStreamEmbE, exEmbP, exEmbMean]
    norm_num
  rw [← hv]
  refine C163_one_dim exEmbStream_logged exEmb_covers ?_ nActions learner (Or.inl rfl)
  exact exEmb_int fun o => marginal exEmbP (fun a => exStreamEmbE o.1 a 0) (exEmbEmb o) / marginal exEmbP (exEmbB o.1) (exEmbEmb o) * exEmbReward o

end Obp
