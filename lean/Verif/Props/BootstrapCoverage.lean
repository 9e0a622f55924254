import Verif.Spec.RoundTerms
import Verif.Lemmas.BootstrapCount
import Verif.Lemmas.ResamplingExists
import Verif.Props.Consistency
import Verif.Props.EstimatorApi

set_option linter.unusedSectionVars false

/-!
# How often bootstrap confidence intervals contain the true value

C175.
-/

namespace Obp
open MeasureTheory ProbabilityTheory Filter Topology Log

section general
variable {Ω : Type} [MeasurableSpace Ω] {P : Measure Ω} [IsProbabilityMeasure P] {X : ℕ → Ω → ℝ} {B : ℕ}

/-- **C175.** Independent, equally distributed samples with a variance that is not zero, and `B` bootstrap samples: with more
and more samples, the probability that the interval contains the true mean gets between `(B - 1 - 2⌈p⌉)/(B + 1)` and
`(B - 1 - 2⌊p⌋)/(B + 1)`, where `p = (alpha/2)(B - 1)`. -/
theorem C175_coverage_partial (R : Resampling P X B) (hX : ∀ i, Measurable (X i)) (h2 : MemLp (X 0) 2 P) (hindep : iIndepFun X P)
    (hident : ∀ i, IdentDistrib (X i) (X 0) P P) (hv : Var[X 0; P] ≠ 0) (hB : 1 ≤ B) {alpha : ℝ} (h0 : 0 ≤ alpha)
    (h1 : alpha ≤ 1) : NearlyCovers (fun n => P.real {ω | R.Contains alpha (∫ ω, X 0 ω ∂P) n ω}) alpha B := by
  intro ε hε
  have hB' : (1 : ℝ) ≤ B := by exact_mod_cast hB
  have hp0 : 0 ≤ alpha / 2 * ((B : ℝ) - 1) := mul_nonneg (by linarith) (by linarith)
  have hlo := (tendsto_order.1 (R.tendsto_midRank hX h2 hindep hident hv ⌈alpha / 2 * ((B : ℝ) - 1)⌉₊)).1 _
    (sub_lt_self _ hε)
  have hup := (tendsto_order.1 (R.tendsto_midRank hX h2 hindep hident hv ⌊alpha / 2 * ((B : ℝ) - 1)⌋₊)).2 _
    (lt_add_of_pos_right _ hε)
  filter_upwards [hlo, hup, eventually_gt_atTop 0] with n hn1 hn2 hn
  constructor
  · have hle : ((B : ℝ) - 1 - 2 * ⌈alpha / 2 * ((B : ℝ) - 1)⌉₊) / (B + 1) ≤
        ((B - 1 - 2 * ⌈alpha / 2 * ((B : ℝ) - 1)⌉₊ : ℕ) : ℝ) / (B + 1) := by
      gcongr
      rw [sub_le_iff_le_add, sub_le_iff_le_add]
      norm_cast
      omega
    refine lt_of_lt_of_le ((sub_le_sub_right hle ε).trans_lt hn1) (measureReal_mono fun ω hω => ?_)
    exact R.contains_of_midRank hn hB h0 h1 hω
  · have hle : ((B - 1 - 2 * ⌊alpha / 2 * ((B : ℝ) - 1)⌋₊ : ℕ) : ℝ) / (B + 1) =
        ((B : ℝ) - 1 - 2 * ⌊alpha / 2 * ((B : ℝ) - 1)⌋₊) / (B + 1) := by
      have hfl := Nat.floor_le hp0
      have h3 : 2 * ⌊alpha / 2 * ((B : ℝ) - 1)⌋₊ ≤ B - 1 := by
        have : (2 * ⌊alpha / 2 * ((B : ℝ) - 1)⌋₊ : ℝ) ≤ ((B - 1 : ℕ) : ℝ) := by
          rw [Nat.cast_sub hB, Nat.cast_one]
          nlinarith
        exact_mod_cast this
      rw [Nat.cast_sub h3, Nat.cast_sub hB]
      push_cast
      rfl
    rw [← hle]
    exact lt_of_le_of_lt (measureReal_mono fun ω hω => R.midRank_of_contains hn hB h0 h1 hω) hn2

/-- **C175.** If `(alpha/2)(B - 1)` is a whole number, the probability tends to `(1 - alpha)(B - 1)/(B + 1)`: less than
`1 - alpha`. -/
theorem C175_coverage_exact_partial (R : Resampling P X B) (hX : ∀ i, Measurable (X i)) (h2 : MemLp (X 0) 2 P)
    (hindep : iIndepFun X P) (hident : ∀ i, IdentDistrib (X i) (X 0) P P) (hv : Var[X 0; P] ≠ 0) (hB : 1 ≤ B) {alpha : ℝ}
    (h0 : 0 ≤ alpha) (h1 : alpha ≤ 1) {k : ℕ} (hk : alpha / 2 * ((B : ℝ) - 1) = k) :
    Tendsto (fun n => P.real {ω | R.Contains alpha (∫ ω, X 0 ω ∂P) n ω}) atTop
      (𝓝 ((1 - alpha) * (B - 1) / (B + 1))) := by
  have hval : ((B : ℝ) - 1 - 2 * (k : ℝ)) / (B + 1) = (1 - alpha) * (B - 1) / (B + 1) := by
    rw [← hk]
    congr 1
    ring
  rw [← hval]
  refine tendsto_order.2 ⟨fun a ha => ?_, fun a ha => ?_⟩
  · filter_upwards [C175_coverage_partial R hX h2 hindep hident hv hB h0 h1 _ (sub_pos.2 ha)] with n hn
    have := hn.1
    rw [hk, Nat.ceil_natCast] at this
    linarith
  · filter_upwards [C175_coverage_partial R hX h2 hindep hident hv hB h0 h1 _ (sub_pos.2 ha)] with n hn
    have := hn.2
    rw [hk, Nat.floor_natCast] at this
    linarith

/-- **C175.** With many bootstrap samples the probability is close to `1 - alpha`. -/
theorem C175_many_resamples {cov : ℕ → ℝ} {alpha : ℝ} (h : NearlyCovers cov alpha B) (hB : 1 ≤ B) (h0 : 0 ≤ alpha)
    (h1 : alpha ≤ 1) : ∀ᶠ n in atTop, |cov n - (1 - alpha)| < 5 / (B + 1) := by
  have hB' : (1 : ℝ) ≤ B := by exact_mod_cast hB
  have hp0 : 0 ≤ alpha / 2 * ((B : ℝ) - 1) := mul_nonneg (by linarith) (by linarith)
  have hB1 : (0 : ℝ) < B + 1 := by linarith
  filter_upwards [h (1 / (B + 1)) (by positivity)] with n hn
  obtain ⟨hn1, hn2⟩ := hn
  rw [← sub_div, div_lt_iff₀ hB1] at hn1
  rw [← add_div, lt_div_iff₀ hB1] at hn2
  have h3 := Nat.ceil_lt_add_one hp0
  have h4 := Nat.lt_floor_add_one (alpha / 2 * ((B : ℝ) - 1))
  rw [abs_lt, ← neg_div, div_lt_iff₀ hB1, lt_div_iff₀ hB1]
  constructor <;> nlinarith

/-- **C175.** The claim fails for the defaults `alpha = 0.05`, `n_bootstrap_samples = 100` of `OffPolicyEvaluation`: with
enough samples, the "95%" interval contains the true value with a probability below 0.942. -/
theorem C175_default_undercovers {cov : ℕ → ℝ} (h : NearlyCovers cov (1 / 20) 100) :
    ∀ᶠ n in atTop, 92 / 100 < cov n ∧ cov n < 942 / 1000 := by
  filter_upwards [h (1 / 2000) (by norm_num)] with n hn
  obtain ⟨hn1, hn2⟩ := hn
  have hc : ⌈(1 / 20 : ℝ) / 2 * (((100 : ℕ) : ℝ) - 1)⌉₊ = 3 := by
    rw [Nat.ceil_eq_iff (by norm_num)]
    norm_num
  have hf : ⌊(1 / 20 : ℝ) / 2 * (((100 : ℕ) : ℝ) - 1)⌋₊ = 2 := by
    rw [Nat.floor_eq_iff (by norm_num)]
    norm_num
  rw [hc] at hn1
  rw [hf] at hn2
  norm_num at hn1 hn2
  constructor <;> linarith

/-- If all samples are equal the interval is that number. -/
theorem C175_no_noise (R : Resampling P X B) (h2 : MemLp (X 0) 2 P)
    (hident : ∀ i, IdentDistrib (X i) (X 0) P P) (hv : Var[X 0; P] = 0) (hB : 1 ≤ B) {alpha : ℝ} (h0 : 0 ≤ alpha)
    (h1 : alpha ≤ 1) {n : ℕ} (hn : 0 < n) : ∀ᵐ ω ∂P, R.Contains alpha (∫ ω, X 0 ω ∂P) n ω := by
  have hall : ∀ᵐ ω ∂P, ∀ i, X i ω = ∫ ω, X 0 ω ∂P := by
    refine ae_all_iff.2 fun i => ?_
    have := ae_eq_integral_of_variance_eq_zero ((hident i).memLp_iff.2 h2) (by rw [(hident i).variance_eq, hv])
    filter_upwards [this] with ω hω
    rw [hω, (hident i).integral_eq]
  filter_upwards [hall] with ω hω
  have hne : (List.ofFn fun i : Fin n => X i ω) ≠ [] := by
    intro e
    have := congrArg List.length e
    simp at this
    omega
  refine ⟨_, C03_ci_constant hne h0 h1 hB (by simpa using R.draws_valid n ω) (∫ ω, X 0 ω ∂P) fun x hx => ?_, le_refl _, le_refl _⟩
  obtain ⟨i, rfl⟩ := List.mem_ofFn.1 hx
  exact hω i

end general

/-! ### Estimators -/

open LogStream
variable {Ω C : Type} [MeasurableSpace Ω] [MeasurableSpace C] {A L : ℕ} {P : Measure Ω} [IsProbabilityMeasure P]
variable {s : LogStream Ω C A} {piB m : C → Fin A → ℝ} {pos : C → Fin L} {piE q : C → Fin A → Fin L → ℝ}

theorem intervalContains_iff {e : Estimator ℝ} {n B : ℕ} {g : Log ℝ n A L} (h : g.Valid) {X : ℕ → Ω → ℝ} (R : Resampling P X B)
    {ω : Ω} (hr : roundReward e g = some fun i : Fin n => X i ω) (alpha v : ℝ) :
    e.IntervalContains g alpha B (R.draws n ω) v ↔ R.Contains alpha v n ω := by
  unfold Estimator.IntervalContains Resampling.Contains
  rw [interval_eq_rounds, rounds_eq h, hr]
  rfl

/-- Functions of the rounds are independent and equally distributed. -/
theorem LogStream.LoggedBy.rounds_iid (hs : s.LoggedBy P piB m) {F : C × Fin A × ℝ → ℝ} (hF : Measurable F) :
    (∀ i, Measurable fun ω => F (s.ctx i ω, s.act i ω, s.rew i ω)) ∧ iIndepFun (fun i ω => F (s.ctx i ω, s.act i ω, s.rew i ω)) P ∧
      ∀ i, IdentDistrib (fun ω => F (s.ctx i ω, s.act i ω, s.rew i ω)) (fun ω => F (s.ctx 0 ω, s.act 0 ω, s.rew 0 ω)) P P :=
  ⟨fun i => hF.comp ((hs.ctx_meas i).prodMk ((hs.act_meas i).prodMk (hs.rew_meas i))),
    hs.indep.comp (fun _ => F) fun _ => hF, fun i => (hs.ident i).comp hF⟩

theorem LogStream.LoggedBy.ipwTerm_iid (hs : s.LoggedBy P piB m) (hE : Covers piB pos piE) :
    (∀ i, Measurable (s.ipwTerm piB pos piE i)) ∧ iIndepFun (s.ipwTerm piB pos piE) P ∧
      ∀ i, IdentDistrib (s.ipwTerm piB pos piE i) (s.ipwTerm piB pos piE 0) P P :=
  hs.rounds_iid (F := fun x => x.2.2 * (piE x.1 x.2.1 (pos x.1) / piB x.1 x.2.1))
    ((measurable_snd.comp measurable_snd).mul (hs.weightFn_meas hE))

theorem LogStream.LoggedBy.drTerm_iid (hs : s.LoggedBy P piB m) (hE : Covers piB pos piE)
    (hq : ∀ a, Measurable fun c => q c a (pos c)) :
    (∀ i, Measurable (s.drTerm piB pos piE q i)) ∧ iIndepFun (s.drTerm piB pos piE q) P ∧
      ∀ i, IdentDistrib (s.drTerm piB pos piE q i) (s.drTerm piB pos piE q 0) P P := by
  have hqm : Measurable fun x : C × Fin A => q x.1 x.2 (pos x.1) := measurable_from_prod_countable_left hq
  refine hs.rounds_iid (F := fun x => (∑ a, piE x.1 a (pos x.1) * q x.1 a (pos x.1)) +
    piE x.1 x.2.1 (pos x.1) / piB x.1 x.2.1 * (x.2.2 - q x.1 x.2.1 (pos x.1))) ?_
  refine Measurable.add ?_ ((hs.weightFn_meas hE).mul ((measurable_snd.comp measurable_snd).sub
    (hqm.comp (measurable_fst.prodMk (measurable_fst.comp measurable_snd)))))
  exact (Finset.measurable_fun_sum _ fun a _ => (hE.meas a).mul (hq a)).comp measurable_fst

theorem LogStream.LoggedBy.ipwTerm_mean (hs : s.LoggedBy P piB m) (hE : Covers piB pos piE)
    (hi : Integrable (s.ipwTerm piB pos piE 0) P) : ∫ ω, s.ipwTerm piB pos piE 0 ω ∂P = s.value P pos piE m := by
  have h1 : s.ipwTerm piB pos piE 0 = fun ω => s.weight piB pos piE ω * s.rew 0 ω := by
    funext ω
    exact mul_comm _ _
  rw [h1] at hi ⊢
  exact (hs.weighted_reward hE hi).2

theorem LogStream.LoggedBy.drTerm_mean (hs : s.LoggedBy P piB m) (hE : Covers piB pos piE)
    (hi : Integrable (s.ipwTerm piB pos piE 0) P) (hq : ∀ a, Measurable fun c => q c a (pos c))
    (hqi : ∀ a, Integrable (fun ω => piE (s.ctx 0 ω) a (pos (s.ctx 0 ω)) * q (s.ctx 0 ω) a (pos (s.ctx 0 ω))) P) :
    ∫ ω, s.drTerm piB pos piE q 0 ω ∂P = s.value P pos piE m := by
  obtain ⟨h1, h2⟩ := hs.weighted hE (h := fun c a => q c a (pos c)) hq hqi
  have h3 : s.drTerm piB pos piE q 0 = fun ω => (∑ a, piE (s.ctx 0 ω) a (pos (s.ctx 0 ω)) * q (s.ctx 0 ω) a (pos (s.ctx 0 ω))) +
      (s.ipwTerm piB pos piE 0 ω - s.weight piB pos piE ω * q (s.ctx 0 ω) (s.act 0 ω) (pos (s.ctx 0 ω))) := by
    funext ω
    simp only [drTerm, ipwTerm, LogStream.weight]
    ring
  rw [h3]
  refine (integral_add (integrable_finsetSum _ fun a _ => hqi a) (hi.sub h1)).trans ?_
  have e : ∫ ω, (s.ipwTerm piB pos piE 0 - fun ω => s.weight piB pos piE ω * q (s.ctx 0 ω) (s.act 0 ω) (pos (s.ctx 0 ω))) ω ∂P =
      _ := integral_sub hi h1
  rw [e, h2, hs.ipwTerm_mean hE hi]
  simp only [LogStream.value]
  ring

/-- **C175.** Inverse propensity weighting, unclipped. -/
theorem C175_ipw_partial (hs : s.LoggedBy P piB m) (hE : Covers piB pos piE) (h2 : MemLp (s.ipwTerm piB pos piE 0) 2 P)
    (hv : Var[s.ipwTerm piB pos piE 0; P] ≠ 0) {lam : Lam ℝ} (hl : NotClipped lam piB pos piE) {B : ℕ} (hB : 1 ≤ B)
    (R : Resampling P (s.ipwTerm piB pos piE) B) {alpha : ℝ} (h0 : 0 ≤ alpha) (h1 : alpha ≤ 1) :
    NearlyCovers (fun n => P.real {ω | Estimator.IntervalContains ⟨.ipw, lam, false⟩ (s.log piB pos piE q n ω) alpha B
      (R.draws n ω) (s.value P pos piE m)}) alpha B := by
  obtain ⟨i1, i2, i3⟩ := hs.ipwTerm_iid hE
  have h := C175_coverage_partial R i1 h2 i2 i3 hv hB h0 h1
  intro ε hε
  filter_upwards [h ε hε, eventually_gt_atTop 0] with n hn hn0
  rw [hs.ipwTerm_mean hE (h2.integrable one_le_two)] at hn
  have : P.real {ω | Estimator.IntervalContains ⟨.ipw, lam, false⟩ (s.log piB pos piE q n ω) alpha B (R.draws n ω)
      (s.value P pos piE m)} = P.real {ω | R.Contains alpha (s.value P pos piE m) n ω} := by
    refine measureReal_congr ?_
    filter_upwards [hs.log_valid (q := q) hE] with ω hω
    refine propext (intervalContains_iff (hω n hn0) R ?_ alpha _)
    simp only [roundReward, clip_weight hl]
    rfl
  rw [this]
  exact hn

/-- **C175.** Doubly robust estimates (unclipped; switch and optimistic shrinkage at `lambda_` infinite), for every reward
model, right or wrong. -/
theorem C175_dr_partial (hs : s.LoggedBy P piB m) (hE : Covers piB pos piE) (hi : Integrable (s.ipwTerm piB pos piE 0) P)
    (hq : ∀ a, Measurable fun c => q c a (pos c))
    (hqi : ∀ a, Integrable (fun ω => piE (s.ctx 0 ω) a (pos (s.ctx 0 ω)) * q (s.ctx 0 ω) a (pos (s.ctx 0 ω))) P)
    (h2 : MemLp (s.drTerm piB pos piE q 0) 2 P) (hv : Var[s.drTerm piB pos piE q 0; P] ≠ 0)
    {k : Kind} {lam : Lam ℝ} (hk : k = .dr ∧ NotClipped lam piB pos piE ∨ (k = .switchDr ∨ k = .drOs) ∧ lam = .inf)
    {B : ℕ} (hB : 1 ≤ B) (R : Resampling P (s.drTerm piB pos piE q) B) {alpha : ℝ} (h0 : 0 ≤ alpha) (h1 : alpha ≤ 1) :
    NearlyCovers (fun n => P.real {ω | Estimator.IntervalContains ⟨k, lam, false⟩ (s.log piB pos piE q n ω) alpha B
      (R.draws n ω) (s.value P pos piE m)}) alpha B := by
  obtain ⟨i1, i2, i3⟩ := hs.drTerm_iid hE hq
  have h := C175_coverage_partial R i1 h2 i2 i3 hv hB h0 h1
  intro ε hε
  filter_upwards [h ε hε, eventually_gt_atTop 0] with n hn hn0
  rw [hs.drTerm_mean hE hi hq hqi] at hn
  have : P.real {ω | Estimator.IntervalContains ⟨k, lam, false⟩ (s.log piB pos piE q n ω) alpha B (R.draws n ω)
      (s.value P pos piE m)} = P.real {ω | R.Contains alpha (s.value P pos piE m) n ω} := by
    refine measureReal_congr ?_
    filter_upwards [hs.log_valid (q := q) hE] with ω hω
    refine propext (intervalContains_iff (hω n hn0) R ?_ alpha _)
    have hfun : (fun i : Fin n => (s.log piB pos piE q n ω).modelValue i +
        (s.log piB pos piE q n ω).weight false i * (s.log piB pos piE q n ω).residual i) = fun i : Fin n => s.drTerm piB pos piE q i ω := by
      funext i
      rw [log_modelValue hE]
      rfl
    rw [← hfun]
    rcases hk with ⟨rfl, hl⟩ | ⟨rfl | rfl, rfl⟩
    · simp only [roundReward, clip_weight hl]
    · simp [roundReward, Lam.geB]
    · simp [roundReward]
  rw [this]
  exact hn

/-! ### A concrete log -/

/-- The example log of C151 beside the draws of the random generator. -/
noncomputable abbrev exDrawLaw (B : ℕ) : Measure ((ℕ → ExRound) × Tables B) :=
  (Measure.infinitePi fun _ : ℕ => exRoundLaw).prod (tablesLaw B)

theorem exDraw_memLp (B : ℕ) (g : ExRound → ℝ) : MemLp (fun ω => g (ω.1 0)) 2 (exDrawLaw B) := by
  obtain ⟨M, hM⟩ := (Set.finite_range fun o => ‖g o‖).bddAbove
  exact MemLp.of_bound ((measurable_of_finite g).comp ((measurable_pi_apply 0).comp measurable_fst)).aestronglyMeasurable M
    (ae_of_all _ fun ω => hM ⟨ω.1 0, rfl⟩)

theorem exDraw_integral (B : ℕ) (g : ExRound → ℝ) : ∫ ω, g (ω.1 0) ∂(exDrawLaw B) = ∑ o, g o / 8 := by
  rw [← exStream_integral g]
  have hm : Measurable fun ω : ℕ → ExRound => g (ω 0) := (measurable_of_finite g).comp (measurable_pi_apply 0)
  exact integral_fst_tables hm.aestronglyMeasurable B

theorem exDraw_variance (B : ℕ) (g : ExRound → ℝ) :
    Var[fun ω => g (ω.1 0); exDrawLaw B] = ∑ o, (g o - ∑ o, g o / 8) ^ 2 / 8 := by
  rw [variance_eq_integral (exDraw_memLp B g).aestronglyMeasurable.aemeasurable, exDraw_integral]
  exact exDraw_integral B fun o => (g o - ∑ o, g o / 8) ^ 2

theorem exDraw_value (B : ℕ) : (exStream.besideDraws B).value (exDrawLaw B) (fun _ => (0 : Fin 1)) exEval exMean = 19 / 8 :=
  (LogStream.value_besideDraws exStream_logged exEval_covers B).trans exStream_value

/-- Probability that the interval of an estimator contains 19/8: `X` is what the estimator averages, `q` the reward model, `B` the
number of bootstrap samples. -/
noncomputable def exCoverage (k : Kind) (X : ℕ → (ℕ → ExRound) → ℝ) (q : Bool → Fin 2 → Fin 1 → ℝ) (alpha : ℝ) (B n : ℕ) : ℝ :=
  (exDrawLaw B).real {ω | Estimator.IntervalContains ⟨k, .inf, false⟩
    ((exStream.besideDraws B).log (fun _ _ => 1 / 2) (fun _ => (0 : Fin 1)) exEval q n ω) alpha B
    ((Resampling.beside (P := Measure.infinitePi fun _ : ℕ => exRoundLaw) X B).draws n ω) (19 / 8)}

theorem exCoverage_ipw {B : ℕ} (hB : 1 ≤ B) {alpha : ℝ} (h0 : 0 ≤ alpha) (h1 : alpha ≤ 1) :
    NearlyCovers (exCoverage .ipw (exStream.ipwTerm (fun _ _ => 1 / 2) (fun _ => (0 : Fin 1)) exEval) (fun _ _ _ => 0) alpha B)
      alpha B := by
  have hv : Var[(exStream.besideDraws B).ipwTerm (fun _ _ => 1 / 2) (fun _ => (0 : Fin 1)) exEval 0; exDrawLaw B] ≠ 0 := by
    refine ne_of_eq_of_ne (exDraw_variance B fun o => exReward o * (exEval o.1 o.2.1 0 / (1 / 2))) ?_
    simp only [Fintype.sum_prod_type, Fintype.sum_bool, Fin.sum_univ_two]
    norm_num [exEval, exMean, exReward]
  have h := C175_ipw_partial (q := fun _ _ _ => 0) (exStream_logged.besideDraws B) exEval_covers
    (exDraw_memLp B fun o => exReward o * (exEval o.1 o.2.1 0 / (1 / 2))) hv (lam := .inf) (fun l hl => by simp at hl) hB
    (Resampling.beside (P := Measure.infinitePi fun _ : ℕ => exRoundLaw)
      (exStream.ipwTerm (fun _ _ => 1 / 2) (fun _ => (0 : Fin 1)) exEval) B) h0 h1
  rw [exDraw_value] at h
  exact h

theorem exCoverage_dr {B : ℕ} (hB : 1 ≤ B) {alpha : ℝ} (h0 : 0 ≤ alpha) (h1 : alpha ≤ 1) :
    NearlyCovers (exCoverage .dr (exStream.drTerm (fun _ _ => 1 / 2) (fun _ => (0 : Fin 1)) exEval (fun _ _ _ => 7))
      (fun _ _ _ => 7) alpha B) alpha B := by
  have hv : Var[(exStream.besideDraws B).drTerm (fun _ _ => 1 / 2) (fun _ => (0 : Fin 1)) exEval (fun _ _ _ => 7) 0; exDrawLaw B] ≠ 0 := by
    refine ne_of_eq_of_ne (exDraw_variance B fun o => (∑ a, exEval o.1 a 0 * 7) + exEval o.1 o.2.1 0 / (1 / 2) * (exReward o - 7)) ?_
    simp only [Fintype.sum_prod_type, Fintype.sum_bool, Fin.sum_univ_two]
    norm_num [exEval, exMean, exReward]
  have h := C175_dr_partial (q := fun _ _ _ => 7) (exStream_logged.besideDraws B) exEval_covers
    ((exDraw_memLp B fun o => exReward o * (exEval o.1 o.2.1 0 / (1 / 2))).integrable one_le_two)
    (fun _ => measurable_const) (fun a => (exDraw_memLp B fun o => exEval o.1 a 0 * 7).integrable one_le_two)
    (exDraw_memLp B fun o => (∑ a, exEval o.1 a 0 * 7) + exEval o.1 o.2.1 0 / (1 / 2) * (exReward o - 7)) hv
    (lam := .inf) (.inl ⟨rfl, fun l hl => by simp at hl⟩) hB
    (Resampling.beside (P := Measure.infinitePi fun _ : ℕ => exRoundLaw)
      (exStream.drTerm (fun _ _ => 1 / 2) (fun _ => (0 : Fin 1)) exEval (fun _ _ _ => 7)) B) h0 h1
  rw [exDraw_value] at h
  exact h

/-- **C175** fails: a log with two contexts and two actions, uniformly chosen; the evaluation policy has the value 19/8. With the
defaults of `OffPolicyEvaluation` (`alpha = 0.05`, 100 bootstrap samples) the interval for inverse propensity weighting contains
that value with a probability below 0.942 for every large enough log. -/
theorem not_C175_ipw_default : ∀ᶠ n in atTop,
    92 / 100 < exCoverage .ipw (exStream.ipwTerm (fun _ _ => 1 / 2) (fun _ => (0 : Fin 1)) exEval) (fun _ _ _ => 0) (1 / 20) 100 n ∧
    exCoverage .ipw (exStream.ipwTerm (fun _ _ => 1 / 2) (fun _ => (0 : Fin 1)) exEval) (fun _ _ _ => 0) (1 / 20) 100 n < 942 / 1000 :=
  C175_default_undercovers (exCoverage_ipw (by norm_num) (by norm_num) (by norm_num))

/-- 399 bootstrap samples and a wrong reward model: the "95%" intervals of the doubly robust estimates contain the value 19/8 with a
probability that is in the end within 0.0125 of 0.95. -/
example : ∀ᶠ n in atTop, |exCoverage .dr (exStream.drTerm (fun _ _ => 1 / 2) (fun _ => (0 : Fin 1)) exEval (fun _ _ _ => 7))
      (fun _ _ _ => 7) (1 / 20) 399 n - (1 - 1 / 20)| < 5 / ((399 : ℕ) + 1) :=
  C175_many_resamples (exCoverage_dr (by norm_num) (by norm_num) (by norm_num)) (by norm_num) (by norm_num) (by norm_num)

end Obp
