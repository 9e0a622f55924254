import Verif.Lemmas.LinExploreRegret
import Verif.Props.LinUcbNoise

set_option linter.unusedSectionVars false

/-! # C173: `LinEpsilonGreedy` learns linear rewards, for any contexts -/

namespace Obp
open Matrix MeasureTheory ProbabilityTheory Filter Topology
open scoped ENNReal NNReal

variable {d : ℕ}

/-- **C173.** Run `LinEpsilonGreedy` with `0 < epsilon ≤ 1` through `BanditPolicySimulator` for `T` rounds, with any contexts of
squared length at most `X`. The reward of action `a` is the product of the context with coefficients `θ a`, of length at most
`S`, plus sub-Gaussian noise with parameter `σ`; all draws are independent. No step fails, and for every `δ > 0` the expected
total reward falls short of playing any sequence of actions with weight `1 - epsilon` and a uniformly drawn action with weight
`epsilon` by at most `1 - epsilon` times
`(S + σ sqrt(dim log(1 + T X / dim) + 2 log(n_actions / δ))) ·
sqrt(2 T (n_actions / epsilon) (1 + (batch_size - 1) X) (1 + X) n_actions dim log(1 + T X / dim)) + 2 δ S sqrt(X) T`. -/
theorem C173_linegreedy_regret {Ω : Type} [MeasurableSpace Ω] {P : Measure Ω} [IsProbabilityMeasure P] {dim n L b : ℤ}
    {cfg : CfConfig} (hc : mkCtxConfig dim n L b = .ok (d, cfg)) (W : ExploreWorld P cfg.nActions cfg.lenList)
    {argsort : List ℝ → List ℕ} (ha : IsArgsort argsort)
    (hm : ∀ l, MeasurableSet {x : Fin cfg.nActions → ℝ | argsort (List.ofFn x) = l}) {ε : ℝ} (h0 : 0 < ε) (h1 : ε ≤ 1)
    {σ : ℝ≥0} (hσ : 0 < σ) {X S δ : ℝ} (hX0 : 0 ≤ X) (hδ : 0 < δ)
    (θ : Fin cfg.nActions → Fin d → ℝ) (hθ : ∀ a, √(θ a ⬝ᵥ θ a) ≤ S) (x : ℕ → Fin d → ℝ) (hX : ∀ t, x t ⬝ᵥ x t ≤ X)
    (hmean : ∀ t a, ∫ ω, W.r t ω a ∂P = x t ⬝ᵥ θ a)
    (hsub : ∀ t a, HasSubgaussianMGF (fun ω => W.r t ω a - x t ⬝ᵥ θ a) (σ ^ 2) P) (T : ℕ) :
    ∃ s : Ω → SimState (LinState ℕ cfg.nActions d) ℝ,
      (∀ ω, simRun (linPolicy (W.rng ω) argsort cfg (.egreedy ε)) (LinState.init (W.rng ω).toRng cfg.nActions d)
        (simSteps (linRounds x (fun t => W.r t ω) T)) = .ok (s ω)) ∧
      Integrable (fun ω => (s ω).total) P ∧
      ∀ best : ℕ → Fin cfg.nActions,
        ∑ t ∈ Finset.range T, ((1 - ε) * x t ⬝ᵥ θ (best t) + ε / cfg.nActions * ∑ a, x t ⬝ᵥ θ a) - ∫ ω, (s ω).total ∂P ≤
        (1 - ε) * ((S + σ * √(d * Real.log (1 + T * X / d) + 2 * Real.log (cfg.nActions / δ))) *
          √(2 * T * (cfg.nActions / ε *
            ((1 + (cfg.batchSize - 1) * X) * ((1 + X) * (cfg.nActions * (d * Real.log (1 + T * X / d))))))) +
          δ * (2 * S * √X * T)) := by
  obtain ⟨-, hn, hL0, hL, hb⟩ := mkCtxConfig_ok hc
  dsimp only at hn hL0 hL hb
  have hn : 0 < cfg.nActions := by omega
  have hri : ∀ t a, Integrable (fun ω => W.r t ω a) P := by
    intro t a
    have := (hsub t a).integrable.add (integrable_const (x t ⬝ᵥ θ a))
    exact this.congr (Eventually.of_forall fun ω => sub_add_cancel _ _)
  have hrun := fun ω => simRun_explore hn hL0 hL ha (W.rng ω) ε (fun t => W.u t ω) (fun t => W.c t ω) (fun t => W.ranking_c t ω)
    (fun _ => rfl) (fun _ _ _ => rfl) rfl x (fun t => W.r t ω) T
  choose s hs1 _ _ hs4 using hrun
  have hround := fun t => W.integral_round hn hm cfg.batchSize h0 h1 x hL0 θ t (hri t) (hmean t)
  have htot : (fun ω => (s ω).total) = fun ω =>
      ∑ t ∈ Finset.range T, W.r t ω (W.act hn argsort cfg.batchSize ε x t ω) := funext hs4
  refine ⟨s, hs1, ?_, fun best => ?_⟩
  · rw [htot]
    exact integrable_finsetSum _ fun t _ => (hround t).1
  · rw [htot, integral_finsetSum _ fun t _ => (hround t).1, ← Finset.sum_sub_distrib]
    refine le_trans (le_of_eq ?_) (mul_le_mul_of_nonneg_left (W.greedy_regret hn hm cfg.batchSize h0 h1 x ha hL0 hL hb hσ hX0 hX hδ θ hθ
      hsub best T) (by linarith))
    rw [Finset.mul_sum]
    refine Finset.sum_congr rfl fun t _ => ?_
    have hgm : Measurable (W.greedy hn argsort cfg.batchSize ε x t) :=
      (W.measurable_greedy hn cfg.batchSize ε x hm t).mono (W.info_le _) le_rfl
    have hgi : Integrable (fun ω => x t ⬝ᵥ θ (W.greedy hn argsort cfg.batchSize ε x t ω)) P := by
      refine Integrable.of_bound (C := √X * S)
        ((measurable_of_countable (fun a => x t ⬝ᵥ θ a)).comp hgm).aestronglyMeasurable (Eventually.of_forall fun ω => ?_)
      exact (dot_le_sqrt _ _).trans
        (mul_le_mul (Real.sqrt_le_sqrt (hX t)) (hθ _) (Real.sqrt_nonneg _) (Real.sqrt_nonneg _))
    rw [(hround t).2, integral_sub (integrable_const _) hgi]
    simp
    ring

/-- The bound of C173 grows slower than the number of rounds, up to the term with `δ`. -/
theorem explore_bound_tendsto {S σ D c K X e : ℝ} (hX : 0 ≤ X) (he : 0 ≤ e) :
    Tendsto (fun T : ℕ => (S + σ * √(D * Real.log (1 + T * X / e) + c)) *
      √(2 * T * (K * (D * Real.log (1 + T * X / e)))) / T) atTop (𝓝 0) := by
  have hq : Tendsto (fun T : ℕ => √(T : ℝ)) atTop atTop := Real.tendsto_sqrt_atTop.comp tendsto_natCast_atTop_atTop
  have hlogT : Tendsto (fun T : ℕ => Real.log (T : ℝ) / √(T : ℝ)) atTop (𝓝 0) := by
    have h := (isLittleO_log_rpow_atTop (r := 1 / 2) (by norm_num)).tendsto_div_nhds_zero.comp tendsto_natCast_atTop_atTop
    refine h.congr fun T => ?_
    simp only [Function.comp, Real.sqrt_eq_rpow]
  have hxe : 0 ≤ X / e := div_nonneg hX he
  have hl : Tendsto (fun T : ℕ => Real.log (1 + T * X / e) / √(T : ℝ)) atTop (𝓝 0) := by
    have hup : Tendsto (fun T : ℕ => Real.log (1 + X / e) / √(T : ℝ) + Real.log (T : ℝ) / √(T : ℝ)) atTop (𝓝 0) := by
      simpa using (tendsto_const_nhds (x := Real.log (1 + X / e))).div_atTop hq |>.add hlogT
    refine tendsto_of_tendsto_of_tendsto_of_le_of_le' tendsto_const_nhds hup ?_ ?_
    · refine Eventually.of_forall fun T => div_nonneg (Real.log_nonneg ?_) (Real.sqrt_nonneg _)
      have : (0 : ℝ) ≤ T * X / e := by positivity
      linarith
    · filter_upwards [eventually_gt_atTop 0] with T hT
      have hT' : (1 : ℝ) ≤ T := by exact_mod_cast hT
      rw [← add_div, ← Real.log_mul (by positivity) (by positivity)]
      refine div_le_div_of_nonneg_right (Real.log_le_log ?_ ?_) (Real.sqrt_nonneg _)
      · have : (0 : ℝ) ≤ T * X / e := by positivity
        linarith
      · have e1 : (T : ℝ) * X / e = T * (X / e) := by ring
        rw [e1]
        nlinarith
  have hA : Tendsto (fun T : ℕ => S / √√(T : ℝ) + σ * √(D * (Real.log (1 + T * X / e) / √(T : ℝ)) + c / √(T : ℝ))) atTop
      (𝓝 0) := by
    have h1 : Tendsto (fun T : ℕ => S / √√(T : ℝ)) atTop (𝓝 0) :=
      tendsto_const_nhds.div_atTop (Real.tendsto_sqrt_atTop.comp hq)
    have h2 : Tendsto (fun T : ℕ => D * (Real.log (1 + T * X / e) / √(T : ℝ)) + c / √(T : ℝ)) atTop (𝓝 0) := by
      simpa using (hl.const_mul D).add ((tendsto_const_nhds (x := c)).div_atTop hq)
    have h3 := (Real.continuous_sqrt.tendsto 0).comp h2
    rw [Real.sqrt_zero] at h3
    simpa using h1.add (h3.const_mul σ)
  have hB : Tendsto (fun T : ℕ => √(2 * (K * (D * (Real.log (1 + T * X / e) / √(T : ℝ)))))) atTop (𝓝 0) := by
    have h2 : Tendsto (fun T : ℕ => 2 * (K * (D * (Real.log (1 + T * X / e) / √(T : ℝ))))) atTop (𝓝 0) := by
      simpa using ((hl.const_mul D).const_mul K).const_mul 2
    have h3 := (Real.continuous_sqrt.tendsto 0).comp h2
    rw [Real.sqrt_zero] at h3
    exact h3
  have hAB := hA.mul hB
  rw [mul_zero] at hAB
  refine hAB.congr' ?_
  filter_upwards [eventually_gt_atTop 0] with T hT
  have hT' : (0 : ℝ) < T := by exact_mod_cast hT
  set q := √(T : ℝ) with hqd
  have hq0 : 0 < q := Real.sqrt_pos.2 hT'
  have hqq : q * q = T := Real.mul_self_sqrt hT'.le
  set l := Real.log (1 + T * X / e)
  have e1 : √(D * (l / q) + c / q) = √(D * l + c) / √q := by
    rw [← Real.sqrt_div' _ hq0.le]
    congr 1
    ring
  have e2 : √(2 * (K * (D * (l / q)))) = √(2 * T * (K * (D * l))) * √q / T := by
    have : √(2 * T * (K * (D * l))) * √q = √(2 * T * (K * (D * l)) * q) := (Real.sqrt_mul' _ hq0.le).symm
    rw [this, ← hqq, ← Real.sqrt_sq (mul_nonneg hq0.le hq0.le), ← Real.sqrt_div' _ (sq_nonneg _)]
    rw [Real.sqrt_sq (mul_nonneg hq0.le hq0.le)]
    congr 1
    field_simp
  rw [e1, e2]
  have hsq : √q ≠ 0 := (Real.sqrt_pos.2 hq0).ne'
  field_simp

/-- **C173, in the long run.** Per round, the expected reward comes as close as wanted to that of playing the best action for the
context with weight `1 - epsilon` and a uniformly drawn action with weight `epsilon`. -/
theorem C173_linegreedy_learns {Ω : Type} [MeasurableSpace Ω] {P : Measure Ω} [IsProbabilityMeasure P] {dim n L b : ℤ}
    {cfg : CfConfig} (hc : mkCtxConfig dim n L b = .ok (d, cfg)) (W : ExploreWorld P cfg.nActions cfg.lenList)
    {argsort : List ℝ → List ℕ} (ha : IsArgsort argsort)
    (hm : ∀ l, MeasurableSet {x : Fin cfg.nActions → ℝ | argsort (List.ofFn x) = l}) {ε : ℝ} (h0 : 0 < ε) (h1 : ε ≤ 1)
    {σ : ℝ≥0} (hσ : 0 < σ) {X : ℝ} (θ : Fin cfg.nActions → Fin d → ℝ) (x : ℕ → Fin d → ℝ) (hX : ∀ t, x t ⬝ᵥ x t ≤ X)
    (hmean : ∀ t a, ∫ ω, W.r t ω a ∂P = x t ⬝ᵥ θ a)
    (hsub : ∀ t a, HasSubgaussianMGF (fun ω => W.r t ω a - x t ⬝ᵥ θ a) (σ ^ 2) P)
    {best : ℕ → Fin cfg.nActions} (hbest : ∀ t a, x t ⬝ᵥ θ a ≤ x t ⬝ᵥ θ (best t)) :
    ∃ s : ℕ → Ω → SimState (LinState ℕ cfg.nActions d) ℝ,
      (∀ T ω, simRun (linPolicy (W.rng ω) argsort cfg (.egreedy ε)) (LinState.init (W.rng ω).toRng cfg.nActions d)
        (simSteps (linRounds x (fun t => W.r t ω) T)) = .ok (s T ω)) ∧
      (∀ T, Integrable (fun ω => (s T ω).total) P) ∧
      Tendsto (fun T : ℕ => (∑ t ∈ Finset.range T, ((1 - ε) * x t ⬝ᵥ θ (best t) + ε / cfg.nActions * ∑ a, x t ⬝ᵥ θ a) -
        ∫ ω, (s T ω).total ∂P) / T) atTop (𝓝 0) := by
  have hok := mkCtxConfig_ok hc
  obtain ⟨-, hn, hL0, hL, hb⟩ := hok
  dsimp only at hn hL0 hL hb
  have hn : 0 < cfg.nActions := by omega
  have hX0 : 0 ≤ X := (Finset.sum_nonneg fun i _ => mul_self_nonneg (x 0 i)).trans (hX 0)
  set S : ℝ := ∑ a, √(θ a ⬝ᵥ θ a) with hS
  have hS0 : 0 ≤ S := Finset.sum_nonneg fun a _ => Real.sqrt_nonneg _
  have hθ : ∀ a, √(θ a ⬝ᵥ θ a) ≤ S := fun a =>
    Finset.single_le_sum (f := fun a => √(θ a ⬝ᵥ θ a)) (fun a _ => Real.sqrt_nonneg _) (Finset.mem_univ a)
  have hri : ∀ t a, Integrable (fun ω => W.r t ω a) P := by
    intro t a
    have := (hsub t a).integrable.add (integrable_const (x t ⬝ᵥ θ a))
    exact this.congr (Eventually.of_forall fun ω => sub_add_cancel _ _)
  have hrun := fun T => C173_linegreedy_regret hc W ha hm h0 h1 hσ hX0 zero_lt_one θ hθ x hX hmean hsub T
  choose s hs1 hs2 _ using hrun
  refine ⟨s, hs1, hs2, ?_⟩
  -- the shortfall is not negative
  have htot : ∀ T ω, (s T ω).total = ∑ t ∈ Finset.range T, W.r t ω (W.act hn argsort cfg.batchSize ε x t ω) := by
    intro T ω
    obtain ⟨s', h1', -, -, h4'⟩ := simRun_explore hn hL0 hL ha (W.rng ω) ε (fun t => W.u t ω) (fun t => W.c t ω)
      (fun t => W.ranking_c t ω) (fun _ => rfl) (fun _ _ _ => rfl) rfl x (fun t => W.r t ω) T
    rw [Except.ok.inj ((hs1 T ω).symm.trans h1')]
    exact h4'
  have hlow : ∀ T, 0 ≤ ∑ t ∈ Finset.range T, ((1 - ε) * x t ⬝ᵥ θ (best t) + ε / cfg.nActions * ∑ a, x t ⬝ᵥ θ a) -
      ∫ ω, (s T ω).total ∂P := by
    intro T
    have hround := fun t => W.integral_round hn hm cfg.batchSize h0 h1 x hL0 θ t (hri t) (hmean t)
    rw [funext (htot T), integral_finsetSum _ fun t _ => (hround t).1, ← Finset.sum_sub_distrib]
    refine Finset.sum_nonneg fun t _ => ?_
    rw [(hround t).2]
    have hgm : Measurable (W.greedy hn argsort cfg.batchSize ε x t) :=
      (W.measurable_greedy hn cfg.batchSize ε x hm t).mono (W.info_le _) le_rfl
    have hgi : Integrable (fun ω => x t ⬝ᵥ θ (W.greedy hn argsort cfg.batchSize ε x t ω)) P := by
      refine Integrable.of_bound (C := √X * S)
        ((measurable_of_countable (fun a => x t ⬝ᵥ θ a)).comp hgm).aestronglyMeasurable (Eventually.of_forall fun ω => ?_)
      exact (dot_le_sqrt _ _).trans
        (mul_le_mul (Real.sqrt_le_sqrt (hX t)) (hθ _) (Real.sqrt_nonneg _) (Real.sqrt_nonneg _))
    have hle := integral_mono hgi (integrable_const (x t ⬝ᵥ θ (best t))) fun ω =>
      hbest t (W.greedy hn argsort cfg.batchSize ε x t ω)
    simp only [integral_const, probReal_univ, one_smul] at hle
    have := mul_le_mul_of_nonneg_left hle (by linarith : 0 ≤ 1 - ε)
    linarith
  rw [Metric.tendsto_atTop]
  intro η hη
  -- a small `δ`
  set M : ℝ := 2 * S * √X with hM
  have hM0 : 0 ≤ M := by positivity
  set δ : ℝ := η / (2 * (M + 1)) with hδ
  have hδ0 : 0 < δ := by positivity
  have hδM : δ * M ≤ η / 2 := by
    rw [hδ, div_mul_eq_mul_div, div_le_iff₀ (by positivity)]
    nlinarith
  set K : ℝ := cfg.nActions / ε * ((1 + (cfg.batchSize - 1) * X) * ((1 + X) * cfg.nActions)) with hK
  have hlim := explore_bound_tendsto (S := S) (σ := σ) (D := d) (c := 2 * Real.log (cfg.nActions / δ)) (K := K)
    hX0 (Nat.cast_nonneg d)
  obtain ⟨T0, hT0⟩ := Metric.tendsto_atTop.1 hlim (η / 2) (by positivity)
  refine ⟨max T0 1, fun T hT => ?_⟩
  have hT1 : (0 : ℝ) < T := by
    have : 1 ≤ T := (le_max_right _ _).trans hT
    exact_mod_cast this
  have hlim' := hT0 T ((le_max_left _ _).trans hT)
  obtain ⟨s', h1', -, h3'⟩ := C173_linegreedy_regret hc W ha hm h0 h1 hσ hX0 hδ0 θ hθ x hX hmean hsub T
  have hs : s' = s T := funext fun ω => Except.ok.inj ((h1' ω).symm.trans (hs1 T ω))
  have hup := h3' best
  rw [hs] at hup
  rw [Real.dist_eq, sub_zero, abs_of_nonneg (div_nonneg (hlow T) hT1.le), div_lt_iff₀ hT1]
  rw [Real.dist_eq, sub_zero] at hlim'
  have hB := (le_abs_self _).trans_lt hlim'
  rw [div_lt_iff₀ hT1] at hB
  have eK : 2 * (T : ℝ) * (cfg.nActions / ε *
      ((1 + (cfg.batchSize - 1) * X) * ((1 + X) * (cfg.nActions * (d * Real.log (1 + T * X / d)))))) =
      2 * T * (K * (d * Real.log (1 + T * X / d))) := by
    rw [hK]; ring
  rw [eK] at hup
  have hA0 : 0 ≤ (S + σ * √(d * Real.log (1 + T * X / d) + 2 * Real.log (cfg.nActions / δ))) *
      √(2 * T * (K * (d * Real.log (1 + T * X / d)))) + δ * (2 * S * √X * T) := by positivity
  have hle : (1 - ε) * ((S + σ * √(d * Real.log (1 + T * X / d) + 2 * Real.log (cfg.nActions / δ))) *
      √(2 * T * (K * (d * Real.log (1 + T * X / d)))) + δ * (2 * S * √X * T)) ≤
      (S + σ * √(d * Real.log (1 + T * X / d) + 2 * Real.log (cfg.nActions / δ))) *
      √(2 * T * (K * (d * Real.log (1 + T * X / d)))) + δ * (2 * S * √X * T) := by
    nlinarith
  have hlast : δ * (2 * S * √X * T) ≤ η / 2 * T := by
    have := mul_le_mul_of_nonneg_right hδM hT1.le
    rw [hM] at this
    linarith
  linarith

/-! Non-vacuity: two actions with coefficients `(1/2, 1/4)` and `(1/4, 1/2)`, contexts that alternate, rewards 0 or 1. -/

/-- rewards of 0 or 1 -/
noncomputable def exExploreReward (t : ℕ) (y : ℝ) (a : Fin 2) : ℝ := if y ≤ exLinCtx t ⬝ᵥ exLinCoef a then 1 else 0

theorem exExploreReward_measurable (t : ℕ) : Measurable (exExploreReward t) :=
  measurable_pi_lambda _ fun _ => Measurable.ite measurableSet_Iic measurable_const measurable_const

/-- the experiment -/
noncomputable def exExplore : ExploreWorld exBanditMeasure 2 1 where
  u := exBandit.u
  c := exBandit.c
  r := fun t ω => exExploreReward t (ω (.rewards t))
  measurable_u := exBandit.measurable_u
  measurable_c := exBandit.measurable_c
  measurable_r := fun t => (exExploreReward_measurable t).comp (measurable_pi_apply _)
  independent := by
    have h : iIndepFun (fun (d : Draw) (ω : Draw → ℝ) => ω d) exBanditMeasure :=
      iIndepFun_infinitePi (X := fun _ x => x) fun _ => measurable_id
    refine iIndep_of_iIndep_of_le h.iIndep fun d => ?_
    cases d with
    | rand t => exact le_rfl
    | choice t =>
      show MeasurableSpace.comap (exPick ∘ fun ω : Draw → ℝ => ω (.choice t)) ⊤ ≤ _
      rw [← MeasurableSpace.comap_comp]
      refine MeasurableSpace.comap_mono ?_
      rintro _ ⟨A, -, rfl⟩
      have e : exPick ⁻¹' A = ⋃ l ∈ A, {x | exPick x = l} := by ext x; simp
      rw [e]
      exact MeasurableSet.biUnion (Set.to_countable _) fun l _ => exPick_measurable l
    | rewards t =>
      show MeasurableSpace.comap (exExploreReward t ∘ fun ω : Draw → ℝ => ω (.rewards t)) _ ≤ _
      rw [← MeasurableSpace.comap_comp]
      exact MeasurableSpace.comap_mono (exExploreReward_measurable t).comap_le
  uniform_u := exBandit.uniform_u
  ranking_c := exBandit.ranking_c
  uniform_c := exBandit.uniform_c

theorem exExplore_mean (t : ℕ) (a : Fin 2) : ∫ ω, exExplore.r t ω a ∂exBanditMeasure = exLinCtx t ⬝ᵥ exLinCoef a := by
  have hms : MeasurableSet {ω : Draw → ℝ | ω (.rewards t) ≤ exLinCtx t ⬝ᵥ exLinCoef a} :=
    measurable_pi_apply (Draw.rewards t) measurableSet_Iic
  rw [← exBandit_le (.rewards t) (exLin_mean t a).1 (exLin_mean t a).2, ← integral_indicator_one hms]
  refine integral_congr_ae (Eventually.of_forall fun ω => ?_)
  show exExploreReward t (ω (.rewards t)) a = _
  simp only [exExploreReward, Set.indicator, Set.mem_ofPred_eq, Pi.one_apply]

theorem exExplore_sub (t : ℕ) (a : Fin 2) :
    HasSubgaussianMGF (fun ω => exExplore.r t ω a - exLinCtx t ⬝ᵥ exLinCoef a) ((1 / 2 : ℝ≥0) ^ 2) exBanditMeasure := by
  have hb : ∀ ω, exExplore.r t ω a ∈ Set.Icc (0 : ℝ) 1 := by
    intro ω
    show exExploreReward t (ω (.rewards t)) a ∈ Set.Icc (0 : ℝ) 1
    unfold exExploreReward
    split <;> simp
  have h := hasSubgaussianMGF_of_mem_Icc (μ := exBanditMeasure) (((measurable_pi_apply a).comp (exExplore.measurable_r t)).aemeasurable)
    (Eventually.of_forall hb)
  simp only [Function.comp_def, exExplore_mean] at h
  have e : (‖(1 : ℝ) - 0‖₊ / 2) ^ 2 = (1 / 2 : ℝ≥0) ^ 2 := by simp
  rwa [e] at h

theorem exLin_best (t : ℕ) (a : Fin 2) : exLinCtx t ⬝ᵥ exLinCoef a ≤ exLinCtx t ⬝ᵥ exLinCoef (if t % 2 = 0 then 0 else 1) := by
  unfold exLinCtx exLinCoef
  by_cases h : t % 2 = 0
  · simp only [h, if_true]
    fin_cases a <;> simp only [dotProduct, Fin.sum_univ_two] <;> norm_num
  · simp only [h, if_false]
    fin_cases a <;> simp only [dotProduct, Fin.sum_univ_two] <;> norm_num

/-- The best action alternates and pays 1/2, the other one pays 1/4: with `epsilon = 1/10` the expected average reward converges
to 9/10 · 1/2 + 1/10 · 3/8 = 39/80. -/
example : ∃ s : ℕ → (Draw → ℝ) → SimState (LinState ℕ 2 2) ℝ,
    (∀ T ω, simRun (linPolicy (exExplore.rng ω) insArgsortReal ⟨2, 1, 3⟩ (.egreedy (1 / 10)))
      (LinState.init (exExplore.rng ω).toRng 2 2) (simSteps (linRounds exLinCtx (fun t => exExplore.r t ω) T)) = .ok (s T ω)) ∧
    Tendsto (fun T : ℕ => (∫ ω, (s T ω).total ∂exBanditMeasure) / (T : ℝ)) atTop (𝓝 (39 / 80)) := by
  have hval : ∀ t, exLinCtx t ⬝ᵥ exLinCoef (if t % 2 = 0 then 0 else 1) = 1 / 2 ∧ ∑ a, exLinCtx t ⬝ᵥ exLinCoef a = 3 / 4 := by
    intro t
    unfold exLinCtx exLinCoef
    by_cases h : t % 2 = 0
    · simp only [h, if_true, Fin.sum_univ_two]
      norm_num [dotProduct]
    · simp only [h, if_false, Fin.sum_univ_two]
      norm_num [dotProduct]
  obtain ⟨s, h1, -, h3⟩ := C173_linegreedy_learns (dim := 2) (n := 2) (L := 1) (b := 3) (cfg := ⟨2, 1, 3⟩) rfl exExplore
    insArgsortReal_isArgsort (insArgsortReal_measurable 2) (ε := 1 / 10) (by norm_num) (by norm_num) (σ := 1 / 2) (by norm_num)
    (X := 1) exLinCoef exLinCtx (fun t => by unfold exLinCtx; split <;> simp [dotProduct]) exExplore_mean exExplore_sub
    (best := fun t => if t % 2 = 0 then (0 : Fin 2) else 1) exLin_best
  refine ⟨s, h1, ?_⟩
  have h4 := h3.const_sub (39 / 80 : ℝ)
  rw [sub_zero] at h4
  refine h4.congr' ?_
  filter_upwards [eventually_gt_atTop 0] with T hT
  have hT' : (T : ℝ) ≠ 0 := by exact_mod_cast hT.ne'
  have e : ∑ t ∈ Finset.range T, ((1 - 1 / 10 : ℝ) * exLinCtx t ⬝ᵥ exLinCoef (if t % 2 = 0 then (0 : Fin 2) else 1) +
      1 / 10 / (2 : ℕ) * ∑ a, exLinCtx t ⬝ᵥ exLinCoef a) = T * (39 / 80) := by
    rw [Finset.sum_congr rfl fun t _ => by rw [(hval t).1, (hval t).2], Finset.sum_const, Finset.card_range, nsmul_eq_mul]
    norm_num
  have e' := congrArg (fun y => 39 / 80 - (y - ∫ ω, (s T ω).total ∂exBanditMeasure) / (T : ℝ)) e
  refine Eq.trans e' ?_
  field_simp
  ring

end Obp
