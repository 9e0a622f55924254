import Verif.Lemmas.LogStream
import Verif.Lemmas.Meta
import Mathlib.Probability.Distributions.Uniform
import Mathlib.Probability.Independence.InfinitePi
import Mathlib.Probability.ProbabilityMassFunction.Integrals

set_option linter.unusedSectionVars false

/-!
# Consistency

C151: with more and more logged rounds, the estimates tend to the value of the evaluation policy.
-/

namespace Obp
open MeasureTheory ProbabilityTheory Filter Topology Log

namespace LogStream
variable {Ω C : Type} [MeasurableSpace Ω] [MeasurableSpace C] {A L : ℕ} {P : Measure Ω} [IsProbabilityMeasure P]
variable {s : LogStream Ω C A} {piB m : C → Fin A → ℝ} {pos : C → Fin L} {piE q : C → Fin A → Fin L → ℝ}

theorem tendsto_of_rounds {e : Estimator ℝ} {g : ∀ n, Log ℝ n A L} (hv : ∀ n, 0 < n → (g n).Valid) {v : ℝ}
    {f : ∀ n, Fin n → ℝ} (hf : ∀ᶠ n in atTop, roundReward e (g n) = some (f n)) (ht : Tendsto (fun n => avg (f n)) atTop (𝓝 v)) :
    EstimatesTendTo e g v := by
  refine ⟨fun n => avg (f n), ?_, ht⟩
  filter_upwards [hf, eventually_gt_atTop 0] with n hn hpos
  rw [value_roundReward (hv n hpos), hn]

theorem LoggedBy.weightFn_meas (hs : s.LoggedBy P piB m) (hE : Covers piB pos piE) :
    Measurable fun x : C × Fin A × ℝ => piE x.1 x.2.1 (pos x.1) / piB x.1 x.2.1 := by
  have : Measurable fun x : C × Fin A => piE x.1 x.2 (pos x.1) / piB x.1 x.2 :=
    measurable_from_prod_countable_left (hs.weight_meas hE)
  exact this.comp (measurable_fst.prodMk (measurable_fst.comp measurable_snd))

theorem LoggedBy.lln_weight (hs : s.LoggedBy P piB m) (hE : Covers piB pos piE) :
    ∀ᵐ ω ∂P, Tendsto (fun n => avg ((s.log piB pos piE q n ω).weight false)) atTop (𝓝 1) := by
  obtain ⟨h1, h2⟩ := hs.weight_mean hE
  have := hs.lln (f := fun c a _ => piE c a (pos c) / piB c a) (hs.weightFn_meas hE) h1
  filter_upwards [this] with ω hω
  have h2' : ∫ ω, piE (s.ctx 0 ω) (s.act 0 ω) (pos (s.ctx 0 ω)) / piB (s.ctx 0 ω) (s.act 0 ω) ∂P = 1 := h2
  rw [h2'] at hω
  exact hω

theorem LoggedBy.lln_weighted_reward (hs : s.LoggedBy P piB m) (hE : Covers piB pos piE)
    (hi : Integrable (fun ω => s.weight piB pos piE ω * s.rew 0 ω) P) :
    ∀ᵐ ω ∂P, Tendsto (fun n => avg fun i => (s.log piB pos piE q n ω).reward i * (s.log piB pos piE q n ω).weight false i) atTop
      (𝓝 (s.value P pos piE m)) := by
  have := hs.lln (f := fun c a r => piE c a (pos c) / piB c a * r)
    ((hs.weightFn_meas hE).mul (measurable_snd.comp measurable_snd)) hi
  filter_upwards [this] with ω hω
  have h2 : ∫ ω, piE (s.ctx 0 ω) (s.act 0 ω) (pos (s.ctx 0 ω)) / piB (s.ctx 0 ω) (s.act 0 ω) * s.rew 0 ω ∂P =
    s.value P pos piE m := (hs.weighted_reward hE hi).2
  rw [h2] at hω
  refine hω.congr fun n => ?_
  simp only [log, Log.weight, avg]
  exact congrArg (· / _) (Finset.sum_congr rfl fun i _ => mul_comm _ _)

theorem log_modelValue (hE : Covers piB pos piE) (n : ℕ) (ω : Ω) (i : Fin n) :
    (s.log piB pos piE q n ω).modelValue i =
      ∑ a, piE (s.ctx i ω) a (pos (s.ctx i ω)) * q (s.ctx i ω) a (pos (s.ctx i ω)) := by
  simp only [log, Log.modelValue, (hE.dist _ _).sum_one, div_one]
  exact Finset.sum_congr rfl fun a _ => mul_comm _ _

theorem LoggedBy.lln_model (hs : s.LoggedBy P piB m) (hE : Covers piB pos piE)
    (hq : ∀ a, Measurable fun c => q c a (pos c))
    (hqi : ∀ a, Integrable (fun ω => piE (s.ctx 0 ω) a (pos (s.ctx 0 ω)) * q (s.ctx 0 ω) a (pos (s.ctx 0 ω))) P) :
    ∀ᵐ ω ∂P, Tendsto (fun n => avg (s.log piB pos piE q n ω).modelValue) atTop
      (𝓝 (s.value P pos piE fun c a => q c a (pos c))) := by
  have := hs.lln (f := fun c _ _ => ∑ a, piE c a (pos c) * q c a (pos c))
    ((Finset.measurable_sum _ fun a _ => (hE.meas a).mul (hq a)).comp measurable_fst) (integrable_finsetSum _ fun a _ => hqi a)
  filter_upwards [this] with ω hω
  refine hω.congr fun n => ?_
  congr 1
  funext i
  exact (log_modelValue hE n ω i).symm

theorem LoggedBy.lln_weighted_model (hs : s.LoggedBy P piB m) (hE : Covers piB pos piE)
    (hq : ∀ a, Measurable fun c => q c a (pos c))
    (hqi : ∀ a, Integrable (fun ω => piE (s.ctx 0 ω) a (pos (s.ctx 0 ω)) * q (s.ctx 0 ω) a (pos (s.ctx 0 ω))) P) :
    ∀ᵐ ω ∂P, Tendsto (fun n => avg fun i => (s.log piB pos piE q n ω).weight false i *
        (s.log piB pos piE q n ω).q i ((s.log piB pos piE q n ω).action i) ((s.log piB pos piE q n ω).position i)) atTop
      (𝓝 (s.value P pos piE fun c a => q c a (pos c))) := by
  have hqm : Measurable fun x : C × Fin A => q x.1 x.2 (pos x.1) := measurable_from_prod_countable_left hq
  obtain ⟨h1, h2⟩ := hs.weighted hE (h := fun c a => q c a (pos c)) hq hqi
  have := hs.lln (f := fun c a _ => piE c a (pos c) / piB c a * q c a (pos c))
    ((hs.weightFn_meas hE).mul (hqm.comp (measurable_fst.prodMk (measurable_fst.comp measurable_snd)))) h1
  filter_upwards [this] with ω hω
  rw [← h2]
  exact hω

/-- No weight exceeds the hyperparameter. -/
def NotClipped (lam : Lam ℝ) (piB : C → Fin A → ℝ) (pos : C → Fin L) (piE : C → Fin A → Fin L → ℝ) : Prop :=
  ∀ l, lam = .fin l → ∀ c a, piE c a (pos c) / piB c a ≤ l

theorem clip_weight {lam : Lam ℝ} (hl : NotClipped lam piB pos piE) (n : ℕ) (ω : Ω) (i : Fin n) :
    lam.clip ((s.log piB pos piE q n ω).weight false i) = (s.log piB pos piE q n ω).weight false i := by
  cases lam with
  | inf => rfl
  | fin l =>
    exact min_eq_left (hl l rfl _ _)

end LogStream

open LogStream
variable {Ω C : Type} [MeasurableSpace Ω] [MeasurableSpace C] {A L : ℕ} {P : Measure Ω} [IsProbabilityMeasure P]
variable {s : LogStream Ω C A} {piB m : C → Fin A → ℝ} {pos : C → Fin L} {piE q : C → Fin A → Fin L → ℝ}

/-- **C151.** Inverse propensity weighting, unclipped (`lambda_` infinite, or not below any weight): with probability one, the
estimates on growing logs tend to the value of the evaluation policy. -/
theorem C151_ipw (hs : s.LoggedBy P piB m) (hE : Covers piB pos piE)
    (hi : Integrable (fun ω => s.weight piB pos piE ω * s.rew 0 ω) P) {lam : Lam ℝ} (hl : NotClipped lam piB pos piE) :
    ∀ᵐ ω ∂P, EstimatesTendTo ⟨.ipw, lam, false⟩ (fun n => s.log piB pos piE q n ω) (s.value P pos piE m) := by
  filter_upwards [hs.log_valid (q := q) hE, hs.lln_weighted_reward (q := q) hE hi] with ω hv ht
  refine tendsto_of_rounds hv (f := fun n i => (s.log piB pos piE q n ω).reward i * (s.log piB pos piE q n ω).weight false i)
    (Eventually.of_forall fun n => ?_) ht
  simp only [roundReward, clip_weight hl]

/-- **C151.** Self-normalised inverse propensity weighting. -/
theorem C151_snipw (hs : s.LoggedBy P piB m) (hE : Covers piB pos piE)
    (hi : Integrable (fun ω => s.weight piB pos piE ω * s.rew 0 ω) P) (lam : Lam ℝ) :
    ∀ᵐ ω ∂P, EstimatesTendTo ⟨.snipw, lam, false⟩ (fun n => s.log piB pos piE q n ω) (s.value P pos piE m) := by
  filter_upwards [hs.log_valid (q := q) hE, hs.lln_weighted_reward (q := q) hE hi, hs.lln_weight (q := q) hE] with ω hv ht hw
  refine tendsto_of_rounds hv (f := fun n i => (s.log piB pos piE q n ω).reward i * (s.log piB pos piE q n ω).weight false i /
    avg ((s.log piB pos piE q n ω).weight false)) ?_ ?_
  · filter_upwards [hw.eventually_ne one_ne_zero] with n hn
    simp only [roundReward, if_neg hn]
  · have := ht.div hw one_ne_zero
    rw [div_one] at this
    refine this.congr fun n => ?_
    simp only [avg, Pi.div_apply]
    rw [← Finset.sum_div, div_right_comm]

/-- **C151.** Doubly robust estimates (unclipped; switch and optimistic shrinkage at `lambda_` infinite), for every reward
model, right or wrong. -/
theorem C151_dr (hs : s.LoggedBy P piB m) (hE : Covers piB pos piE)
    (hi : Integrable (fun ω => s.weight piB pos piE ω * s.rew 0 ω) P) (hq : ∀ a, Measurable fun c => q c a (pos c))
    (hqi : ∀ a, Integrable (fun ω => piE (s.ctx 0 ω) a (pos (s.ctx 0 ω)) * q (s.ctx 0 ω) a (pos (s.ctx 0 ω))) P)
    {k : Kind} {lam : Lam ℝ} (hk : k = .dr ∧ NotClipped lam piB pos piE ∨ (k = .switchDr ∨ k = .drOs) ∧ lam = .inf) :
    ∀ᵐ ω ∂P, EstimatesTendTo ⟨k, lam, false⟩ (fun n => s.log piB pos piE q n ω) (s.value P pos piE m) := by
  filter_upwards [hs.log_valid (q := q) hE, hs.lln_weighted_reward (q := q) hE hi, hs.lln_model hE hq hqi,
    hs.lln_weighted_model hE hq hqi] with ω hv ht h1 h2
  refine tendsto_of_rounds hv (f := fun n i => (s.log piB pos piE q n ω).modelValue i +
    (s.log piB pos piE q n ω).weight false i * (s.log piB pos piE q n ω).residual i) (Eventually.of_forall fun n => ?_) ?_
  · rcases hk with ⟨rfl, hl⟩ | ⟨rfl | rfl, rfl⟩
    · simp only [roundReward, clip_weight hl]
    · simp [roundReward, Lam.geB]
    · simp [roundReward]
  · have := (h1.add ht).sub h2
    rw [add_sub_cancel_left] at this
    refine this.congr fun n => ?_
    simp only [avg, ← add_div, ← sub_div, ← Finset.sum_add_distrib, ← Finset.sum_sub_distrib]
    refine congrArg (· / _) (Finset.sum_congr rfl fun i _ => ?_)
    simp only [Log.residual]
    ring

/-- **C151.** The self-normalised doubly robust estimate, for every reward model. -/
theorem C151_sndr (hs : s.LoggedBy P piB m) (hE : Covers piB pos piE)
    (hi : Integrable (fun ω => s.weight piB pos piE ω * s.rew 0 ω) P) (hq : ∀ a, Measurable fun c => q c a (pos c))
    (hqi : ∀ a, Integrable (fun ω => piE (s.ctx 0 ω) a (pos (s.ctx 0 ω)) * q (s.ctx 0 ω) a (pos (s.ctx 0 ω))) P) (lam : Lam ℝ) :
    ∀ᵐ ω ∂P, EstimatesTendTo ⟨.sndr, lam, false⟩ (fun n => s.log piB pos piE q n ω) (s.value P pos piE m) := by
  filter_upwards [hs.log_valid (q := q) hE, hs.lln_weighted_reward (q := q) hE hi, hs.lln_model hE hq hqi,
    hs.lln_weighted_model hE hq hqi, hs.lln_weight (q := q) hE] with ω hv ht h1 h2 hw
  refine tendsto_of_rounds hv (f := fun n i => (s.log piB pos piE q n ω).modelValue i +
    (s.log piB pos piE q n ω).weight false i * (s.log piB pos piE q n ω).residual i /
      avg ((s.log piB pos piE q n ω).weight false)) ?_ ?_
  · filter_upwards [hw.eventually_ne one_ne_zero] with n hn
    simp only [roundReward, if_neg hn]
  · have := h1.add ((ht.sub h2).div hw one_ne_zero)
    rw [div_one, add_sub_cancel] at this
    refine this.congr fun n => ?_
    simp only [avg, Pi.div_apply]
    rw [Finset.sum_add_distrib, ← Finset.sum_div, add_div, ← sub_div, ← Finset.sum_sub_distrib, div_right_comm]
    congr 4
    funext i
    simp only [Log.residual]
    ring

/-- **C151.** The direct method tends to the value that the reward model ascribes to the evaluation policy, which is the true
value if the model is right. -/
theorem C151_dm (hs : s.LoggedBy P piB m) (hE : Covers piB pos piE) (hq : ∀ a, Measurable fun c => q c a (pos c))
    (hqi : ∀ a, Integrable (fun ω => piE (s.ctx 0 ω) a (pos (s.ctx 0 ω)) * q (s.ctx 0 ω) a (pos (s.ctx 0 ω))) P) (lam : Lam ℝ) :
    ∀ᵐ ω ∂P, EstimatesTendTo ⟨.dm, lam, false⟩ (fun n => s.log piB pos piE q n ω)
      (s.value P pos piE fun c a => q c a (pos c)) := by
  filter_upwards [hs.log_valid (q := q) hE, hs.lln_model hE hq hqi] with ω hv h1
  exact tendsto_of_rounds hv (Eventually.of_forall fun n => rfl) h1

/-- **C151.** The replay method, for a deterministic evaluation policy and logging at random. -/
theorem C151_replay (hs : s.LoggedBy P piB m) (hE : Covers piB pos piE) (hB : ∀ c a, piB c a = 1 / A)
    {d : C → Fin A} (hd : ∀ c a, piE c a (pos c) = if a = d c then 1 else 0) (lam : Lam ℝ) :
    ∀ᵐ ω ∂P, EstimatesTendTo ⟨.rm, lam, false⟩ (fun n => s.log piB pos piE q n ω) (s.value P pos piE m) := by
  have hA : (0 : ℝ) < A := by
    obtain ⟨ω⟩ : Nonempty Ω := P.nonempty_of_neZero
    have := (s.act 0 ω).pos
    exact_mod_cast this
  have hwt : ∀ n ω (i : Fin n), (s.log piB pos piE q n ω).weight false i =
      A * (if (s.log piB pos piE q n ω).matched i then 1 else 0) := by
    intro n ω i
    simp only [log, Log.weight, Log.matched, hB, hd, Bool.false_eq_true, if_false]
    by_cases h : s.act i ω = d (s.ctx i ω) <;> simp [h]
  have hi : Integrable (fun ω => s.weight piB pos piE ω * s.rew 0 ω) P := by
    have hb : Integrable (fun ω => s.rew 0 ω * s.weight piB pos piE ω) P := by
      refine hs.rew_int.mul_bdd (c := A) ((hs.weight_mean hE).1.aestronglyMeasurable) (ae_of_all _ fun ω => ?_)
      simp only [LogStream.weight, hB, hd]
      split <;> simp [hA.le]
    simpa only [mul_comm] using hb
  filter_upwards [hs.log_valid (q := q) hE, hs.lln_weighted_reward (q := q) hE hi, hs.lln_weight (q := q) hE] with ω hv ht hw
  have hwavg : ∀ n, avg ((s.log piB pos piE q n ω).weight false) =
      A * avg fun i => if (s.log piB pos piE q n ω).matched i then (1 : ℝ) else 0 := by
    intro n
    simp only [avg, hwt, ← Finset.mul_sum, mul_div_assoc]
  refine tendsto_of_rounds hv (f := fun n i => (if (s.log piB pos piE q n ω).matched i then 1 else 0) *
    (s.log piB pos piE q n ω).reward i / avg fun i => if (s.log piB pos piE q n ω).matched i then (1 : ℝ) else 0) ?_ ?_
  · filter_upwards [hw.eventually_ne one_ne_zero] with n hn
    have hex : ∃ i, (s.log piB pos piE q n ω).matched i := by
      by_contra hno
      push Not at hno
      apply hn
      rw [hwavg]
      simp [avg, hno]
    simp only [roundReward, if_pos hex]
  · have := ht.div hw one_ne_zero
    rw [div_one] at this
    refine this.congr fun n => ?_
    simp only [Pi.div_apply]
    rw [hwavg]
    simp only [avg, hwt]
    rw [← Finset.sum_div]
    have : ∑ i, (s.log piB pos piE q n ω).reward i * (A * if (s.log piB pos piE q n ω).matched i then (1 : ℝ) else 0) =
        A * ∑ i, (if (s.log piB pos piE q n ω).matched i then (1 : ℝ) else 0) * (s.log piB pos piE q n ω).reward i := by
      rw [Finset.mul_sum]
      exact Finset.sum_congr rfl fun i _ => by ring
    rw [this, mul_div_assoc, mul_div_mul_left _ _ hA.ne', div_right_comm]

/-! ### The hypotheses are met -/

/-- One round of the example: a fair coin for the context, one for the action, one for the noise. -/
abbrev ExRound := Bool × Fin 2 × Bool

/-- Uniform distribution of one round. -/
noncomputable def exRoundLaw : Measure ExRound := (PMF.uniformOfFintype ExRound).toMeasure

instance : IsProbabilityMeasure exRoundLaw := by unfold exRoundLaw; infer_instance

theorem exRound_integral (g : ExRound → ℝ) : ∫ o, g o ∂exRoundLaw = ∑ o, g o / 8 := by
  unfold exRoundLaw
  rw [PMF.integral_eq_sum]
  refine Finset.sum_congr rfl fun o _ => ?_
  rw [PMF.uniformOfFintype_apply]
  simp [ExRound]
  ring

/-- Mean reward of the example. -/
def exMean (c : Bool) (a : Fin 2) : ℝ := if c then ((a : ℕ) : ℝ) + 1 else 3

/-- Reward of the example. -/
def exReward (o : ExRound) : ℝ := exMean o.1 o.2.1 + if o.2.2 then 1 else -1

/-- Independent rounds; the reward is a function `f` of the three coins. -/
def coinStream (f : ExRound → ℝ) : LogStream (ℕ → ExRound) Bool 2 where
  ctx i ω := (ω i).1
  act i ω := (ω i).2.1
  rew i ω := f (ω i)

/-- Mean reward. -/
noncomputable def coinMean (f : ExRound → ℝ) (c : Bool) (a : Fin 2) : ℝ := (f (c, a, true) + f (c, a, false)) / 2

theorem exStream_integral (g : ExRound → ℝ) :
    ∫ ω, g (ω 0) ∂(Measure.infinitePi fun _ : ℕ => exRoundLaw) = ∑ o, g o / 8 := by
  rw [← exRound_integral]
  conv_rhs => rw [← Measure.infinitePi_map_eval (fun _ : ℕ => exRoundLaw) 0]
  rw [integral_map (measurable_pi_apply 0).aemeasurable (measurable_of_finite g).aestronglyMeasurable]

theorem coinStream_logged (f : ExRound → ℝ) : (coinStream f).LoggedBy (Measure.infinitePi fun _ : ℕ => exRoundLaw) (fun _ _ => 1 / 2) (coinMean f) := by
  have hm : ∀ {β : Type} [MeasurableSpace β] (f : ExRound → β) (i : ℕ), Measurable fun ω : ℕ → ExRound => f (ω i) :=
    fun f i => (measurable_of_finite f).comp (measurable_pi_apply i)
  have hint : ∀ (f : ExRound → ℝ), Integrable (fun ω : ℕ → ExRound => f (ω 0)) (Measure.infinitePi fun _ : ℕ => exRoundLaw) := by
    intro f
    obtain ⟨M, hM⟩ := (Set.finite_range fun o => ‖f o‖).bddAbove
    exact Integrable.of_bound (hm f 0).aestronglyMeasurable M (ae_of_all _ fun ω => hM ⟨ω 0, rfl⟩)
  let round : ExRound → Bool × Fin 2 × ℝ := fun o => (o.1, o.2.1, f o)
  refine ⟨fun i => hm (fun o => o.1) i, fun i => hm (fun o => o.2.1) i, fun i => hm f i,
    ?_, fun i => ?_, fun c => ⟨fun _ => by norm_num, by norm_num⟩, fun a => measurable_const, fun a => measurable_of_finite _,
    fun a B hB => ?_, hint f, ?_⟩
  · exact iIndepFun_infinitePi (X := fun _ => round) fun _ => measurable_of_finite _
  · refine ⟨(hm round i).aemeasurable, (hm round 0).aemeasurable, ?_⟩
    have : ∀ j : ℕ, (Measure.infinitePi fun _ : ℕ => exRoundLaw).map (fun ω => round (ω j)) = exRoundLaw.map round := by
      intro j
      conv_rhs => rw [← Measure.infinitePi_map_eval (fun _ : ℕ => exRoundLaw) j]
      exact (Measure.map_map (measurable_of_finite round) (measurable_pi_apply j)).symm
    exact (this i).trans (this 0).symm
  · classical
    have h1 : MeasurableSet {ω : ℕ → ExRound | (coinStream f).ctx 0 ω ∈ B} := hm (fun o => o.1) 0 hB
    have hset : MeasurableSet {ω : ℕ → ExRound | (coinStream f).ctx 0 ω ∈ B ∧ (coinStream f).act 0 ω = a} :=
      hm (fun o => (decide (o.1 ∈ B ∧ o.2.1 = a))) 0 (measurableSet_singleton true) |> fun h => by
        convert h using 1
        ext ω
        simp [coinStream]
    rw [← integral_indicator_one hset, ← integral_indicator h1]
    have e1 := exStream_integral fun o => if o.1 ∈ B ∧ o.2.1 = a then (1 : ℝ) else 0
    have e2 := exStream_integral fun o => if o.1 ∈ B then (1 / 2 : ℝ) else 0
    have g1 : (fun ω : ℕ → ExRound => {ω : ℕ → ExRound | (coinStream f).ctx 0 ω ∈ B ∧ (coinStream f).act 0 ω = a}.indicator (1 : (ℕ → ExRound) → ℝ) ω) =
        fun ω => if (ω 0).1 ∈ B ∧ (ω 0).2.1 = a then (1 : ℝ) else 0 := by
      funext ω
      simp only [Set.indicator, Set.mem_ofPred_eq, coinStream, Pi.one_apply]
      congr
    have g2 : (fun ω : ℕ → ExRound => {ω : ℕ → ExRound | (coinStream f).ctx 0 ω ∈ B}.indicator (fun _ => (1 / 2 : ℝ)) ω) =
        fun ω => if (ω 0).1 ∈ B then (1 / 2 : ℝ) else 0 := by
      funext ω
      simp [Set.indicator, coinStream]
    rw [g1, g2, e1, e2]
    simp only [Fintype.sum_prod_type, Fintype.sum_bool, Fin.sum_univ_two]
    by_cases ht : true ∈ B <;> by_cases hf : false ∈ B <;> fin_cases a <;> simp [ht, hf] <;> norm_num
  · symm
    refine ae_eq_condExp_of_forall_setIntegral_eq ((hm (fun o => (o.1, o.2.1)) 0).comap_le) (hint f)
      (fun t _ _ => (hint fun o => coinMean f o.1 o.2.1).integrableOn) ?_ ?_
    · rintro t ⟨T, hT, rfl⟩ -
      classical
      have hpre : MeasurableSet ((fun ω : ℕ → ExRound => ((ω 0).1, (ω 0).2.1)) ⁻¹' T) := hm (fun o => (o.1, o.2.1)) 0 hT
      rw [← integral_indicator hpre, ← integral_indicator hpre]
      have e1 := exStream_integral fun o => if (o.1, o.2.1) ∈ T then coinMean f o.1 o.2.1 else 0
      have e2 := exStream_integral fun o => if (o.1, o.2.1) ∈ T then f o else 0
      have g1 : ∀ f : ExRound → ℝ, (fun ω : ℕ → ExRound => Set.indicator ((fun ω : ℕ → ExRound => ((ω 0).1, (ω 0).2.1)) ⁻¹' T)
          (fun ω => f (ω 0)) ω) = fun ω => if ((ω 0).1, (ω 0).2.1) ∈ T then f (ω 0) else 0 := by
        intro f
        funext ω
        simp [Set.indicator]
      have e3 : ∑ o : ExRound, (if (o.1, o.2.1) ∈ T then coinMean f o.1 o.2.1 else 0) / 8 =
          ∑ o : ExRound, (if (o.1, o.2.1) ∈ T then f o else 0) / 8 := by
        simp only [Fintype.sum_prod_type]
        refine Finset.sum_congr rfl fun c _ => Finset.sum_congr rfl fun a _ => ?_
        simp only [Fintype.sum_bool, coinMean]
        split
        · ring
        · rfl
      exact ((congrArg (∫ ω, · ω ∂_) (g1 fun o => coinMean f o.1 o.2.1)).trans (e1.trans e3)).trans
        ((congrArg (∫ ω, · ω ∂_) (g1 f)).trans e2).symm
    · exact (((measurable_of_finite fun x : Bool × Fin 2 => coinMean f x.1 x.2).comp
        (comap_measurable _)).stronglyMeasurable).aestronglyMeasurable

/-- Independent rounds; the reward is a function of context and action plus noise. -/
noncomputable def exStream : LogStream (ℕ → ExRound) Bool 2 where
  ctx i ω := (ω i).1
  act i ω := (ω i).2.1
  rew i ω := exReward (ω i)

theorem exStream_logged : exStream.LoggedBy (Measure.infinitePi fun _ : ℕ => exRoundLaw) (fun _ _ => 1 / 2) exMean := by
  have h := coinStream_logged exReward
  have hm : coinMean exReward = exMean := by
    funext c a
    simp only [coinMean, exReward, if_true, Bool.false_eq_true, if_false]
    ring
  rw [hm] at h
  exact h

/-- Evaluation policy of the example: follow the context with probability 3/4. -/
noncomputable def exEval (c : Bool) (a : Fin 2) (_ : Fin 1) : ℝ := if (a = 1) = c then 3 / 4 else 1 / 4

theorem exEval_covers : LogStream.Covers (fun _ _ => 1 / 2) (fun _ : Bool => (0 : Fin 1)) exEval := by
  refine ⟨fun c l => ⟨fun a => ?_, ?_⟩, fun a => measurable_of_finite _, fun c a h => by norm_num at h⟩
  · unfold exEval
    split <;> norm_num
  · cases c <;> simp [exEval, Fin.sum_univ_two] <;> norm_num

theorem exStream_integrable (h : Bool → Fin 2 → ℝ) :
    Integrable (fun ω => h (exStream.ctx 0 ω) (exStream.act 0 ω) * exStream.rew 0 ω)
      (Measure.infinitePi fun _ : ℕ => exRoundLaw) := by
  have hm : Measurable fun ω : ℕ → ExRound => h (exStream.ctx 0 ω) (exStream.act 0 ω) * exStream.rew 0 ω :=
    (measurable_of_finite fun o : ExRound => h o.1 o.2.1 * exReward o).comp (measurable_pi_apply 0)
  obtain ⟨M, hM⟩ := (Set.finite_range fun o : ExRound => ‖h o.1 o.2.1 * exReward o‖).bddAbove
  exact Integrable.of_bound hm.aestronglyMeasurable M (ae_of_all _ fun ω => hM ⟨ω 0, rfl⟩)

/-- The value of that policy is `(7/4 + 3) / 2`. -/
theorem exStream_value : exStream.value (Measure.infinitePi fun _ : ℕ => exRoundLaw) (fun _ => (0 : Fin 1)) exEval exMean =
    19 / 8 := by
  have := exStream_integral fun o => ∑ a, exEval o.1 a 0 * exMean o.1 a
  refine Eq.trans this ?_
  simp only [Fintype.sum_prod_type, Fintype.sum_bool, Fin.sum_univ_two]
  norm_num [exEval, exMean]

example : ∀ᵐ ω ∂(Measure.infinitePi fun _ : ℕ => exRoundLaw),
    EstimatesTendTo ⟨.ipw, .fin 2, false⟩
      (fun n => exStream.log (fun _ _ => 1 / 2) (fun _ => (0 : Fin 1)) exEval (fun _ _ _ => 0) n ω) (19 / 8) := by
  rw [← exStream_value]
  refine C151_ipw exStream_logged exEval_covers (exStream_integrable fun c a => exEval c a 0 / (1 / 2)) ?_
  intro l hl c a
  simp only [Lam.fin.injEq] at hl
  subst hl
  unfold exEval
  split <;> norm_num

example : ∀ᵐ ω ∂(Measure.infinitePi fun _ : ℕ => exRoundLaw),
    EstimatesTendTo ⟨.snipw, .inf, false⟩
      (fun n => exStream.log (fun _ _ => 1 / 2) (fun _ => (0 : Fin 1)) exEval (fun _ _ _ => 0) n ω) (19 / 8) := by
  rw [← exStream_value]
  exact C151_snipw exStream_logged exEval_covers (exStream_integrable fun c a => exEval c a 0 / (1 / 2)) _

/-- With a wrong reward model the doubly robust estimates still tend to the value, … -/
example : ∀ᵐ ω ∂(Measure.infinitePi fun _ : ℕ => exRoundLaw),
    EstimatesTendTo ⟨.dr, .inf, false⟩
      (fun n => exStream.log (fun _ _ => 1 / 2) (fun _ => (0 : Fin 1)) exEval (fun _ _ _ => 7) n ω) (19 / 8) ∧
    EstimatesTendTo ⟨.sndr, .inf, false⟩
      (fun n => exStream.log (fun _ _ => 1 / 2) (fun _ => (0 : Fin 1)) exEval (fun _ _ _ => 7) n ω) (19 / 8) := by
  rw [← exStream_value]
  have hq : ∀ a, Integrable (fun ω => exEval (exStream.ctx 0 ω) a 0 * 7) (Measure.infinitePi fun _ : ℕ => exRoundLaw) :=
    fun a => (exStream_logged.piE_int exEval_covers a).mul_const 7
  have h1 := C151_dr (q := fun _ _ _ => 7) exStream_logged exEval_covers
    (exStream_integrable fun c a => exEval c a 0 / (1 / 2)) (fun _ => measurable_const) hq
    (Or.inl ⟨rfl, fun l hl => by cases hl⟩ : Kind.dr = .dr ∧ LogStream.NotClipped .inf _ _ _ ∨ _)
  have h2 := C151_sndr (q := fun _ _ _ => 7) exStream_logged exEval_covers
    (exStream_integrable fun c a => exEval c a 0 / (1 / 2)) (fun _ => measurable_const) hq .inf
  filter_upwards [h1, h2] with ω a b using ⟨a, b⟩

/-- … while the direct method tends to the value given by the wrong model. -/
example : ∀ᵐ ω ∂(Measure.infinitePi fun _ : ℕ => exRoundLaw),
    EstimatesTendTo ⟨.dm, .inf, false⟩
      (fun n => exStream.log (fun _ _ => 1 / 2) (fun _ => (0 : Fin 1)) exEval (fun _ _ _ => 7) n ω) 7 := by
  have hq : ∀ a, Integrable (fun ω => exEval (exStream.ctx 0 ω) a 0 * 7) (Measure.infinitePi fun _ : ℕ => exRoundLaw) :=
    fun a => (exStream_logged.piE_int exEval_covers a).mul_const 7
  have := C151_dm (q := fun _ _ _ => 7) exStream_logged exEval_covers (fun _ => measurable_const) hq .inf
  have hv : exStream.value (Measure.infinitePi fun _ : ℕ => exRoundLaw) (fun _ => (0 : Fin 1)) exEval (fun _ _ => 7) = 7 := by
    simp [LogStream.value, ← Finset.sum_mul, (exEval_covers.dist _ _).sum_one]
  rwa [hv] at this

example : ∀ᵐ ω ∂(Measure.infinitePi fun _ : ℕ => exRoundLaw),
    EstimatesTendTo ⟨.rm, .inf, false⟩
      (fun n => exStream.log (fun _ _ => 1 / 2) (fun _ => (0 : Fin 1)) (fun c a _ => if a = (if c then 1 else 0) then 1 else 0)
        (fun _ _ _ => 0) n ω)
      (exStream.value (Measure.infinitePi fun _ : ℕ => exRoundLaw) (fun _ => (0 : Fin 1))
        (fun c a _ => if a = (if c then 1 else 0) then 1 else 0) exMean) := by
  refine C151_replay (d := fun c => if c then 1 else 0) exStream_logged ⟨fun c l => ⟨fun a => by split <;> split <;> norm_num, ?_⟩, fun a => measurable_of_finite _,
    fun c a h => by norm_num at h⟩ (fun c a => by norm_num) (fun c a => rfl) .inf
  simp

end Obp
