import Verif.Lemmas.LinUcbRegret
import Verif.Props.Contextual
import Verif.Props.EpsilonGreedyLearns
import Mathlib.Analysis.SpecialFunctions.Log.Deriv
import Mathlib.Analysis.SpecialFunctions.Pow.Asymptotics

set_option linter.unusedSectionVars false

/-! # C170: the regret of `LinUCB` when rewards are linear in the context -/

namespace Obp
open Matrix Filter Topology

variable {R : Type} {d : ℕ}

theorem quad_zero (D : List ((Fin d → ℝ) × ℝ)) : quad D 0 = 0 := by simp [quad]

/-- Data without noise. -/
theorem noiseOf_eq_zero {D : List ((Fin d → ℝ) × ℝ)} {θ : Fin d → ℝ} (h : ∀ p ∈ D, p.2 = p.1 ⬝ᵥ θ) : noiseOf D θ = 0 := by
  induction D using List.reverseRecOn with
  | nil => rfl
  | append_singleton D p ih =>
    rw [noiseOf_append, ih fun q hq => h q (List.mem_append_left _ hq), h p (by simp), sub_self, zero_smul, add_zero]

/-- **C170.** Run `LinUCB` through `BanditPolicySimulator` for `T` rounds with any contexts of squared length at most `X`, when
the reward of action `a` is the product of the context with coefficients `θ a` whose length is at most `epsilon`. No step fails,
and the total reward falls short of that of any other sequence of actions (so of the best one) by at most
`2 epsilon sqrt(T (1 + (batch_size - 1) X) (1 + X) n_actions dim log(1 + T X / dim))`. -/
theorem C170_linucb_regret {dim n L b : ℤ} {cfg : CfConfig} (hc : mkCtxConfig dim n L b = .ok (d, cfg))
    {argsort : List ℝ → List ℕ} (ha : IsArgsort argsort) (ops : GaussRng R) {ε X : ℝ} (hX0 : 0 ≤ X)
    (θ : Fin cfg.nActions → Fin d → ℝ) (hθ : ∀ a, √(θ a ⬝ᵥ θ a) ≤ ε) (x : ℕ → Fin d → ℝ) (hX : ∀ t, x t ⬝ᵥ x t ≤ X) (T : ℕ) :
    ∃ s, simRun (linPolicy ops argsort cfg (.ucb ε)) (LinState.init ops.toRng cfg.nActions d)
        (simSteps (linRounds x (fun t a => x t ⬝ᵥ θ a) T)) = .ok s ∧
      ∀ best : ℕ → Fin cfg.nActions, ∑ t ∈ Finset.range T, x t ⬝ᵥ θ (best t) - s.total ≤
        2 * ε * √(T * ((1 + (cfg.batchSize - 1) * X) * ((1 + X) * (cfg.nActions * (d * Real.log (1 + T * X / d)))))) := by
  obtain ⟨-, hn, hL0, hL, hb⟩ := mkCtxConfig_ok hc
  dsimp only at hn hL0 hL hb
  have hn : 0 < cfg.nActions := by omega
  have hε : 0 ≤ ε := (Real.sqrt_nonneg _).trans (hθ ⟨0, hn⟩)
  obtain ⟨s, h1, -, -, h4⟩ := simRun_ucb hn hL0 hL ha ops ε x (fun t a => x t ⬝ᵥ θ a) T
  refine ⟨s, h1, fun best => ?_⟩
  rw [h4, ← Finset.sum_sub_distrib]
  refine ucb_regret_le hn argsort cfg.lenList cfg.batchSize ε x _ ha hL0 hL hb hε hX0 hX θ T (fun t _ a => ?_) best
  rw [noiseOf_eq_zero, quad_zero, Real.sqrt_zero, zero_add]
  · exact hθ a
  · intro p hp
    unfold dataOf at hp
    obtain ⟨q, hq, rfl⟩ := List.mem_map.1 hp
    obtain ⟨hq, hnames⟩ := List.mem_filter.1 hq
    obtain ⟨t', -, rfl⟩ := mem_ucbHist hn argsort _ _ ε x _ ((completed_prefix _ _).subset hq)
    have : a = ucbAction hn argsort cfg.lenList cfg.batchSize ε x (fun t a => x t ⬝ᵥ θ a) t' :=
      Names.unique (of_decide_eq_true hnames) (Or.inl rfl)
    rw [this]

/-- **C170, average.** The average reward per round tends to that of the best actions: for every tolerance `δ` there is a
number of rounds from which on the average is at most `δ` below that of any other sequence of actions. -/
theorem C170_linucb_average {dim n L b : ℤ} {cfg : CfConfig} (hc : mkCtxConfig dim n L b = .ok (d, cfg))
    {argsort : List ℝ → List ℕ} (ha : IsArgsort argsort) (ops : GaussRng R) {ε X : ℝ} (hX0 : 0 ≤ X)
    (θ : Fin cfg.nActions → Fin d → ℝ) (hθ : ∀ a, √(θ a ⬝ᵥ θ a) ≤ ε) (x : ℕ → Fin d → ℝ) (hX : ∀ t, x t ⬝ᵥ x t ≤ X)
    {δ : ℝ} (hδ : 0 < δ) :
    ∃ T₀, ∀ T ≥ T₀, ∃ s, simRun (linPolicy ops argsort cfg (.ucb ε)) (LinState.init ops.toRng cfg.nActions d)
        (simSteps (linRounds x (fun t a => x t ⬝ᵥ θ a) T)) = .ok s ∧
      ∀ best : ℕ → Fin cfg.nActions, (∑ t ∈ Finset.range T, x t ⬝ᵥ θ (best t)) / T - δ ≤ s.total / T := by
  obtain ⟨hd, hn, hL0, hL, hb⟩ := mkCtxConfig_ok hc
  dsimp only at hd hn hL0 hL hb
  have hd' : (0 : ℝ) < d := by exact_mod_cast hd
  set C : ℝ := (1 + (cfg.batchSize - 1) * X) * ((1 + X) * (cfg.nActions * d)) with hC
  -- the logarithm grows slower than the number of rounds
  have hlog : Tendsto (fun T : ℕ => C * (Real.log (1 + T * X / d) / T)) atTop (𝓝 0) := by
    have h1 : Tendsto (fun y : ℝ => Real.log y / y) atTop (𝓝 0) := by
      have := Real.isLittleO_log_id_atTop.tendsto_div_nhds_zero
      simpa using this
    have hub : ∀ T : ℕ, 1 ≤ T → Real.log (1 + T * X / d) / T ≤
        (1 + X / d) * (Real.log ((1 + X / d) * T) / ((1 + X / d) * T)) := by
      intro T hT
      have hT' : (1 : ℝ) ≤ T := by exact_mod_cast hT
      have hq : 0 ≤ X / d := by positivity
      have hp : 0 < 1 + X / d := by positivity
      have e : (1 + X / d) * (Real.log ((1 + X / d) * T) / ((1 + X / d) * T)) = Real.log ((1 + X / d) * T) / T := by
        have hT0 : (T : ℝ) ≠ 0 := by positivity
        rw [mul_div_assoc', mul_div_mul_left _ _ hp.ne']
      rw [e]
      refine div_le_div_of_nonneg_right (Real.log_le_log (by positivity) ?_) (by positivity)
      rw [mul_div_assoc]
      nlinarith
    have hlim : Tendsto (fun T : ℕ => (1 + X / d) * (Real.log ((1 + X / d) * T) / ((1 + X / d) * T))) atTop (𝓝 0) := by
      have h2 : Tendsto (fun T : ℕ => (1 + X / d) * (T : ℝ)) atTop atTop :=
        tendsto_natCast_atTop_atTop.const_mul_atTop (by positivity)
      simpa using (h1.comp h2).const_mul (1 + X / d)
    have h0 : Tendsto (fun T : ℕ => Real.log (1 + T * X / d) / T) atTop (𝓝 0) := by
      refine squeeze_zero' (Eventually.of_forall fun T => ?_) ((eventually_ge_atTop 1).mono hub) hlim
      refine div_nonneg (Real.log_nonneg ?_) (Nat.cast_nonneg T)
      have : 0 ≤ T * X / d := by positivity
      linarith
    simpa using h0.const_mul C
  have hbound : Tendsto (fun T : ℕ => 2 * ε * √(C * (Real.log (1 + T * X / d) / T))) atTop (𝓝 0) := by
    have := (hlog.sqrt).const_mul (2 * ε)
    simpa using this
  obtain ⟨T₀, hT₀⟩ := (eventually_atTop.1 (hbound.eventually (gt_mem_nhds hδ)))
  refine ⟨max T₀ 1, fun T hT => ?_⟩
  have hT1 : 1 ≤ T := le_of_max_le_right hT
  have hTp : (0 : ℝ) < T := by exact_mod_cast hT1
  obtain ⟨s, hs, hreg⟩ := C170_linucb_regret hc ha ops hX0 θ hθ x hX T
  refine ⟨s, hs, fun best => ?_⟩
  have h1 := hreg best
  have h2 := hT₀ T (le_of_max_le_left hT)
  have e : √(T * ((1 + (cfg.batchSize - 1) * X) * ((1 + X) * (cfg.nActions * (d * Real.log (1 + T * X / d)))))) =
      T * √(C * (Real.log (1 + T * X / d) / T)) := by
    rw [← Real.sqrt_sq hTp.le, ← Real.sqrt_mul (sq_nonneg _), Real.sqrt_sq hTp.le, hC]
    congr 1
    field_simp
  rw [e] at h1
  have h3 : (∑ t ∈ Finset.range T, x t ⬝ᵥ θ (best t)) - T * δ ≤ s.total := by
    have := mul_le_mul_of_nonneg_left h2.le hTp.le
    linarith
  rw [sub_le_iff_le_add, div_add' _ _ _ hTp.ne', div_le_div_iff_of_pos_right hTp]
  linarith

/-! Non-vacuity: two actions, contexts of dimension two that alternate, batches of three. -/

example :
    ∃ s, simRun (linPolicy exGauss insArgsortReal ⟨2, 1, 3⟩ (.ucb 1)) (LinState.init exGauss.toRng 2 2)
        (simSteps (linRounds (fun t => if t % 2 = 0 then ![1, 0] else ![0, 1])
          (fun t a => (if t % 2 = 0 then ![1, 0] else ![0, 1]) ⬝ᵥ (![![1, 0], ![0, 1]] : Fin 2 → Fin 2 → ℝ) a) 1000)) = .ok s ∧
      ∀ best : ℕ → Fin 2, ∑ t ∈ Finset.range 1000, (if t % 2 = 0 then ![1, 0] else ![0, 1]) ⬝ᵥ
          (![![1, 0], ![0, 1]] : Fin 2 → Fin 2 → ℝ) (best t) - s.total ≤
        2 * 1 * √((1000 : ℕ) * ((1 + ((3 : ℕ) - 1) * 1) * ((1 + 1) * ((2 : ℕ) * ((2 : ℕ) * Real.log (1 + (1000 : ℕ) * 1 / (2 : ℕ))))))) :=
  C170_linucb_regret (dim := 2) (n := 2) (L := 1) (b := 3) (cfg := ⟨2, 1, 3⟩) rfl insArgsortReal_isArgsort exGauss zero_le_one
    ![![1, 0], ![0, 1]] (by intro a; fin_cases a <;> simp [dotProduct]) _
    (by intro t; split <;> simp [dotProduct]) 1000

end Obp
