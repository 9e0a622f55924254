import Verif.Lemmas.LinUcbNoise
import Verif.Props.LinUcb
import Mathlib.Probability.Independence.InfinitePi

set_option linter.unusedSectionVars false

/-! # C171: the regret of `LinUCB` when linear rewards are observed with noise -/

namespace Obp
open Matrix MeasureTheory ProbabilityTheory
open scoped ENNReal NNReal

variable {R : Type} {d : ℕ}

/-- **C171.** Run `LinUCB` through `BanditPolicySimulator` for `T` rounds with any contexts of squared length at most `X`. The
rewards of different rounds are independent, and the reward of action `a` is the product of the context with coefficients
`θ a`, of length at most `S`, plus sub-Gaussian noise with parameter `σ`. If `epsilon` is at least
`S + σ sqrt(dim log(1 + T X / dim) + 2 log(n_actions / δ))`, then with probability at least `1 - δ`: no step fails, and the
expected rewards of the selected actions add up to at most
`2 epsilon sqrt(T (1 + (batch_size - 1) X) (1 + X) n_actions dim log(1 + T X / dim))` less than those of any other sequence of
actions. -/
theorem C171_linucb_noise {Ω : Type} [MeasurableSpace Ω] {P : Measure Ω} [IsProbabilityMeasure P] {dim n L b : ℤ}
    {cfg : CfConfig} (hc : mkCtxConfig dim n L b = .ok (d, cfg)) {argsort : List ℝ → List ℕ} (ha : IsArgsort argsort)
    (hm : ∀ l, MeasurableSet {x : Fin cfg.nActions → ℝ | argsort (List.ofFn x) = l}) (ops : GaussRng R)
    {σ : ℝ≥0} (hσ : 0 < σ) {ε X S δ : ℝ} (hX0 : 0 ≤ X) (hδ : 0 < δ)
    (θ : Fin cfg.nActions → Fin d → ℝ) (hθ : ∀ a, √(θ a ⬝ᵥ θ a) ≤ S) (x : ℕ → Fin d → ℝ) (hX : ∀ t, x t ⬝ᵥ x t ≤ X)
    (r : ℕ → Ω → Fin cfg.nActions → ℝ) (hr : ∀ t, Measurable (r t)) (hind : iIndepFun r P)
    (hsub : ∀ t a, HasSubgaussianMGF (fun ω => r t ω a - x t ⬝ᵥ θ a) (σ ^ 2) P) (T : ℕ)
    (hε : S + σ * √(d * Real.log (1 + T * X / d) + 2 * Real.log (cfg.nActions / δ)) ≤ ε) :
    P {ω | ¬ ∃ s, simRun (linPolicy ops argsort cfg (.ucb ε)) (LinState.init ops.toRng cfg.nActions d)
        (simSteps (linRounds x (fun t => r t ω) T)) = .ok s ∧
      ∃ act : ℕ → Fin cfg.nActions, s.selected = (List.range T).map (fun t => ((act t).val : ℤ)) ∧
        s.total = ∑ t ∈ Finset.range T, r t ω (act t) ∧
        ∀ best : ℕ → Fin cfg.nActions, ∑ t ∈ Finset.range T, x t ⬝ᵥ θ (best t) - ∑ t ∈ Finset.range T, x t ⬝ᵥ θ (act t) ≤
          2 * ε * √(T * ((1 + (cfg.batchSize - 1) * X) * ((1 + X) * (cfg.nActions * (d * Real.log (1 + T * X / d))))))} ≤
      ENNReal.ofReal δ := by
  obtain ⟨-, hn, hL0, hL, hb⟩ := mkCtxConfig_ok hc
  dsimp only at hn hL0 hL hb
  have hn : 0 < cfg.nActions := by omega
  have hS : 0 ≤ S := (Real.sqrt_nonneg _).trans (hθ ⟨0, hn⟩)
  have hε0 : 0 ≤ ε := le_trans (by positivity) hε
  refine (measure_mono ?_).trans
    (ucb_confidence hn argsort cfg.lenList cfg.batchSize ε x r hm hσ hX0 hX θ hr hind hsub hδ T)
  intro ω hω hconf
  refine hω ?_
  obtain ⟨s, h1, -, h3, h4⟩ := simRun_ucb hn hL0 hL ha ops ε x (fun t => r t ω) T
  refine ⟨s, h1, _, h3, h4, fun best => ?_⟩
  rw [← Finset.sum_sub_distrib]
  refine ucb_regret_le hn argsort cfg.lenList cfg.batchSize ε x _ ha hL0 hL hb hε0 hX0 hX θ T (fun t ht a => ?_) best
  exact (add_le_add (hconf t ht a) (hθ a)).trans (by linarith)

/-- **C171, bounded rewards.** The same when the rewards lie between `lo` and `hi`, with `(hi - lo) / 2` in place of `σ`. -/
theorem C171_linucb_bounded {Ω : Type} [MeasurableSpace Ω] {P : Measure Ω} [IsProbabilityMeasure P] {dim n L b : ℤ}
    {cfg : CfConfig} (hc : mkCtxConfig dim n L b = .ok (d, cfg)) {argsort : List ℝ → List ℕ} (ha : IsArgsort argsort)
    (hm : ∀ l, MeasurableSet {x : Fin cfg.nActions → ℝ | argsort (List.ofFn x) = l}) (ops : GaussRng R)
    {lo hi : ℝ} (hlt : lo < hi) {ε X S δ : ℝ} (hX0 : 0 ≤ X) (hδ : 0 < δ)
    (θ : Fin cfg.nActions → Fin d → ℝ) (hθ : ∀ a, √(θ a ⬝ᵥ θ a) ≤ S) (x : ℕ → Fin d → ℝ) (hX : ∀ t, x t ⬝ᵥ x t ≤ X)
    (r : ℕ → Ω → Fin cfg.nActions → ℝ) (hr : ∀ t, Measurable (r t)) (hind : iIndepFun r P)
    (hbd : ∀ t ω a, lo ≤ r t ω a ∧ r t ω a ≤ hi) (hmean : ∀ t a, ∫ ω, r t ω a ∂P = x t ⬝ᵥ θ a) (T : ℕ)
    (hε : S + (hi - lo) / 2 * √(d * Real.log (1 + T * X / d) + 2 * Real.log (cfg.nActions / δ)) ≤ ε) :
    P {ω | ¬ ∃ s, simRun (linPolicy ops argsort cfg (.ucb ε)) (LinState.init ops.toRng cfg.nActions d)
        (simSteps (linRounds x (fun t => r t ω) T)) = .ok s ∧
      ∃ act : ℕ → Fin cfg.nActions, s.selected = (List.range T).map (fun t => ((act t).val : ℤ)) ∧
        s.total = ∑ t ∈ Finset.range T, r t ω (act t) ∧
        ∀ best : ℕ → Fin cfg.nActions, ∑ t ∈ Finset.range T, x t ⬝ᵥ θ (best t) - ∑ t ∈ Finset.range T, x t ⬝ᵥ θ (act t) ≤
          2 * ε * √(T * ((1 + (cfg.batchSize - 1) * X) * ((1 + X) * (cfg.nActions * (d * Real.log (1 + T * X / d))))))} ≤
      ENNReal.ofReal δ := by
  have hnorm : ((‖hi - lo‖₊ / 2 : ℝ≥0) : ℝ) = (hi - lo) / 2 := by
    push_cast
    rw [Real.norm_of_nonneg (by linarith)]
  refine C171_linucb_noise hc ha hm ops (σ := ‖hi - lo‖₊ / 2) ?_ hX0 hδ θ hθ x hX r hr hind (fun t a => ?_) T ?_
  · rw [← NNReal.coe_pos, hnorm]
    linarith
  · rw [← hmean t a]
    exact hasSubgaussianMGF_of_mem_Icc ((measurable_pi_apply a).comp (hr t)).aemeasurable
      (Filter.Eventually.of_forall fun ω => hbd t ω a)
  · rwa [hnorm]

/-- **C171, expected reward.** For bounded rewards the expected total reward of the simulator falls short of that of any other
sequence of actions by at most the same bound plus `δ (hi - lo) T`. -/
theorem C171_linucb_expected {Ω : Type} [MeasurableSpace Ω] {P : Measure Ω} [IsProbabilityMeasure P] {dim n L b : ℤ}
    {cfg : CfConfig} (hc : mkCtxConfig dim n L b = .ok (d, cfg)) {argsort : List ℝ → List ℕ} (ha : IsArgsort argsort)
    (hm : ∀ l, MeasurableSet {x : Fin cfg.nActions → ℝ | argsort (List.ofFn x) = l}) (ops : GaussRng R)
    {lo hi : ℝ} (hlt : lo < hi) {ε X S δ : ℝ} (hX0 : 0 ≤ X) (hδ : 0 < δ)
    (θ : Fin cfg.nActions → Fin d → ℝ) (hθ : ∀ a, √(θ a ⬝ᵥ θ a) ≤ S) (x : ℕ → Fin d → ℝ) (hX : ∀ t, x t ⬝ᵥ x t ≤ X)
    (r : ℕ → Ω → Fin cfg.nActions → ℝ) (hr : ∀ t, Measurable (r t)) (hind : iIndepFun r P)
    (hbd : ∀ t ω a, lo ≤ r t ω a ∧ r t ω a ≤ hi) (hmean : ∀ t a, ∫ ω, r t ω a ∂P = x t ⬝ᵥ θ a) (T : ℕ)
    (hε : S + (hi - lo) / 2 * √(d * Real.log (1 + T * X / d) + 2 * Real.log (cfg.nActions / δ)) ≤ ε) :
    ∃ s : Ω → SimState (LinState R cfg.nActions d) ℝ,
      (∀ ω, simRun (linPolicy ops argsort cfg (.ucb ε)) (LinState.init ops.toRng cfg.nActions d)
        (simSteps (linRounds x (fun t => r t ω) T)) = .ok (s ω)) ∧
      Integrable (fun ω => (s ω).total) P ∧
      ∀ best : ℕ → Fin cfg.nActions, ∑ t ∈ Finset.range T, x t ⬝ᵥ θ (best t) - ∫ ω, (s ω).total ∂P ≤
        2 * ε * √(T * ((1 + (cfg.batchSize - 1) * X) * ((1 + X) * (cfg.nActions * (d * Real.log (1 + T * X / d)))))) +
          δ * ((hi - lo) * T) := by
  classical
  obtain ⟨-, hn, hL0, hL, hb⟩ := mkCtxConfig_ok hc
  dsimp only at hn hL0 hL hb
  have hn : 0 < cfg.nActions := by omega
  set act : ℕ → Ω → Fin cfg.nActions := fun t ω =>
    ucbAction hn argsort cfg.lenList cfg.batchSize ε x (fun s => r s ω) t with hact
  have hactF : ∀ t, Measurable[rewardInfo r t] (act t) := measurable_ucbAction hn argsort cfg.lenList cfg.batchSize ε x r hm
  have hactm : ∀ t, Measurable (act t) := fun t => (hactF t).mono (rewardInfo_le r hr t) le_rfl
  have hrm : ∀ t a, Measurable fun ω => r t ω a := fun t a => (measurable_pi_apply a).comp (hr t)
  have hri : ∀ t a, Integrable (fun ω => r t ω a) P := fun t a =>
    Integrable.of_mem_Icc lo hi (hrm t a).aemeasurable (Filter.Eventually.of_forall fun ω => hbd t ω a)
  have hmb : ∀ t a, lo ≤ x t ⬝ᵥ θ a ∧ x t ⬝ᵥ θ a ≤ hi := by
    intro t a
    rw [← hmean t a]
    constructor
    · have := integral_mono (integrable_const lo) (hri t a) fun ω => (hbd t ω a).1
      simpa using this
    · have := integral_mono (hri t a) (integrable_const hi) fun ω => (hbd t ω a).2
      simpa using this
  have hsplit : ∀ t (f : Ω → Fin cfg.nActions → ℝ) ω, f ω (act t ω) = ∑ a, {ω | act t ω = a}.indicator (fun _ => (1 : ℝ)) ω * f ω a := by
    intro t f ω
    rw [Finset.sum_eq_single (act t ω)]
    · rw [Set.indicator_of_mem (by simp), one_mul]
    · intro a _ hne
      rw [Set.indicator_of_notMem (by simpa using hne.symm), zero_mul]
    · simp
  have hset : ∀ t a, MeasurableSet {ω | act t ω = a} := fun t a => hactm t (measurableSet_singleton a)
  have hi1 : ∀ t a, Integrable (fun ω => {ω | act t ω = a}.indicator (fun _ => (1 : ℝ)) ω * r t ω a) P := by
    intro t a
    refine (hri t a).bdd_mul ((measurable_const.indicator (hset t a)).aestronglyMeasurable) (c := 1)
      (Filter.Eventually.of_forall fun ω => ?_)
    by_cases h : ω ∈ {ω | act t ω = a}
    · rw [Set.indicator_of_mem h]; simp
    · rw [Set.indicator_of_notMem h]; simp
  have hi2 : ∀ t a, Integrable (fun ω => {ω | act t ω = a}.indicator (fun _ => (1 : ℝ)) ω * x t ⬝ᵥ θ a) P := fun t a =>
    ((integrable_const (1 : ℝ)).indicator (hset t a)).mul_const _
  -- the reward of a round has the mean of the action played
  have hround : ∀ t, ∫ ω, r t ω (act t ω) ∂P = ∫ ω, x t ⬝ᵥ θ (act t ω) ∂P := by
    intro t
    have e1 := funext (hsplit t (r t))
    have e2 := funext (hsplit t (fun _ a => x t ⬝ᵥ θ a))
    rw [e1, e2, integral_finsetSum _ fun a _ => hi1 t a, integral_finsetSum _ fun a _ => hi2 t a]
    refine Finset.sum_congr rfl fun a _ => ?_
    rw [integral_mul_const, ← hmean t a]
    have hindep : IndepFun ({ω | act t ω = a}.indicator fun _ => (1 : ℝ)) (fun ω => r t ω a) P := by
      rw [IndepFun_iff_Indep]
      refine indep_of_indep_of_le_left (indep_of_indep_of_le_right (rewardInfo_indep r hr hind t) ?_) ?_
      · have : Measurable[MeasurableSpace.comap (r t) inferInstance] fun ω => r t ω a :=
          (measurable_pi_apply a).comp (comap_measurable (r t))
        exact this.comap_le
      · have : Measurable[rewardInfo r t] ({ω | act t ω = a}.indicator fun _ => (1 : ℝ)) :=
          Measurable.indicator measurable_const (hactF t (measurableSet_singleton a))
        exact this.comap_le
    exact hindep.integral_mul_eq_mul_integral ((measurable_const.indicator (hset t a)).aestronglyMeasurable)
      (hrm t a).aestronglyMeasurable
  have hint1 : ∀ t, Integrable (fun ω => r t ω (act t ω)) P := by
    intro t
    rw [funext (hsplit t (r t))]
    exact integrable_finsetSum _ fun a _ => hi1 t a
  have hint2 : ∀ t, Integrable (fun ω => x t ⬝ᵥ θ (act t ω)) P := by
    intro t
    rw [funext (hsplit t (fun _ a => x t ⬝ᵥ θ a))]
    exact integrable_finsetSum _ fun a _ => hi2 t a
  have hrun := fun ω => simRun_ucb hn hL0 hL ha ops ε x (fun t => r t ω) T
  choose s h1 _ h3 h4 using hrun
  have htot : (fun ω => (s ω).total) = fun ω => ∑ t ∈ Finset.range T, r t ω (act t ω) := funext h4
  refine ⟨s, h1, ?_, fun best => ?_⟩
  · rw [htot]
    exact integrable_finsetSum _ fun t _ => hint1 t
  · set B := 2 * ε * √(T * ((1 + (cfg.batchSize - 1) * X) * ((1 + X) * (cfg.nActions * (d * Real.log (1 + T * X / d)))))) with hB
    have hB0 : 0 ≤ B := by
      have hS : 0 ≤ S := (Real.sqrt_nonneg _).trans (hθ ⟨0, hn⟩)
      have hd' : 0 ≤ (hi - lo) / 2 := by linarith
      have : 0 ≤ ε := le_trans (by positivity) hε
      positivity
    set G : Ω → ℝ := fun ω => ∑ t ∈ Finset.range T, (x t ⬝ᵥ θ (best t) - x t ⬝ᵥ θ (act t ω)) with hG
    have hGi : Integrable G P := integrable_finsetSum _ fun t _ => (integrable_const _).sub (hint2 t)
    have hGm : Measurable G := by
      refine Finset.measurable_fun_sum _ fun t _ => measurable_const.sub ?_
      exact (measurable_of_countable (fun a => x t ⬝ᵥ θ a)).comp (hactm t)
    have hGle : ∀ ω, G ω ≤ (hi - lo) * T := by
      intro ω
      refine (Finset.sum_le_card_nsmul _ _ (hi - lo) fun t _ => ?_).trans (by simp [mul_comm])
      linarith [(hmb t (best t)).2, (hmb t (act t ω)).1]
    have hbad : P.real {ω | B < G ω} ≤ δ := by
      refine ENNReal.toReal_le_of_le_ofReal hδ.le ((measure_mono ?_).trans
        (C171_linucb_bounded hc ha hm ops hlt hX0 hδ θ hθ x hX r hr hind hbd hmean T hε))
      rintro ω hω ⟨s', h1', act', h3', -, h5'⟩
      have hs : s' = s ω := by
        have := h1'.symm.trans (h1 ω)
        exact Except.ok.inj this
      have hsame : ∀ t ∈ Finset.range T, act' t = act t ω := by
        intro t ht
        rw [hs, h3 ω] at h3'
        have := List.map_inj_left.1 h3' t (List.mem_range.2 (Finset.mem_range.1 ht))
        exact Fin.ext (by exact_mod_cast this.symm)
      have h6 := h5' best
      have e : ∑ t ∈ Finset.range T, x t ⬝ᵥ θ (act' t) = ∑ t ∈ Finset.range T, x t ⬝ᵥ θ (act t ω) :=
        Finset.sum_congr rfl fun t ht => by rw [hsame t ht]
      rw [e, ← Finset.sum_sub_distrib] at h6
      exact absurd h6 (not_le.2 hω)
    have hms : MeasurableSet {ω | B < G ω} := hGm measurableSet_Ioi
    have hpoint : ∀ ω, G ω ≤ B + {ω | B < G ω}.indicator (fun _ => (hi - lo) * T) ω := by
      intro ω
      by_cases h : B < G ω
      · rw [Set.indicator_of_mem (show ω ∈ {ω | B < G ω} from h)]
        linarith [hGle ω]
      · rw [Set.indicator_of_notMem (show ω ∉ {ω | B < G ω} from h)]
        linarith
    have hI := integral_mono hGi ((integrable_const B).add ((integrable_const ((hi - lo) * T)).indicator hms)) hpoint
    have eI : ∫ ω, (fun _ => B) ω + {ω | B < G ω}.indicator (fun _ => (hi - lo) * T) ω ∂P =
        B + P.real {ω | B < G ω} * ((hi - lo) * T) := by
      rw [integral_add (integrable_const B) ((integrable_const ((hi - lo) * (T : ℝ))).indicator hms), integral_indicator_const _ hms]
      simp
    have eG : ∫ ω, G ω ∂P = ∑ t ∈ Finset.range T, x t ⬝ᵥ θ (best t) - ∫ ω, (s ω).total ∂P := by
      have hG' : ∀ t ∈ Finset.range T, Integrable (fun ω => x t ⬝ᵥ θ (best t) - x t ⬝ᵥ θ (act t ω)) P := fun t _ =>
        (integrable_const _).sub (hint2 t)
      rw [htot, hG, integral_finsetSum _ hG', integral_finsetSum _ fun t _ => hint1 t, ← Finset.sum_sub_distrib]
      refine Finset.sum_congr rfl fun t _ => ?_
      rw [integral_sub (integrable_const _) (hint2 t), hround t]
      simp
    rw [← eG]
    refine hI.trans ?_
    refine (le_of_eq eI).trans ?_
    have : 0 ≤ (hi - lo) * (T : ℝ) := mul_nonneg (by linarith) (Nat.cast_nonneg T)
    have := mul_le_mul_of_nonneg_right hbad this
    linarith

/-! Non-vacuity: two actions with coefficients `(1/2, 1/4)` and `(1/4, 1/2)`, contexts that alternate, rewards 0 or 1.
`C171_linucb_expected` has the same hypotheses. -/

/-- the contexts -/
def exLinCtx (t : ℕ) : Fin 2 → ℝ := if t % 2 = 0 then ![1, 0] else ![0, 1]

/-- the coefficients -/
noncomputable def exLinCoef : Fin 2 → Fin 2 → ℝ := ![![1 / 2, 1 / 4], ![1 / 4, 1 / 2]]

theorem exLin_mean (t : ℕ) (a : Fin 2) : 0 ≤ exLinCtx t ⬝ᵥ exLinCoef a ∧ exLinCtx t ⬝ᵥ exLinCoef a ≤ 1 := by
  unfold exLinCtx exLinCoef
  fin_cases a <;> split <;> norm_num [dotProduct]

theorem exLinCoef_le (a : Fin 2) : exLinCoef a ⬝ᵥ exLinCoef a ≤ 1 := by
  unfold exLinCoef
  fin_cases a <;> norm_num [dotProduct]

/-- rewards of 0 or 1 -/
noncomputable def exLinReward (t : ℕ) (ω : ℕ → ℝ) (a : Fin 2) : ℝ := if ω t ≤ exLinCtx t ⬝ᵥ exLinCoef a then 1 else 0

/-- the draws -/
noncomputable abbrev exLinMeasure : Measure (ℕ → ℝ) := Measure.infinitePi fun _ => exUnitInterval

theorem exLinReward_mean (t : ℕ) (a : Fin 2) : ∫ ω, exLinReward t ω a ∂exLinMeasure = exLinCtx t ⬝ᵥ exLinCoef a := by
  have hms : MeasurableSet {y : ℝ | y ≤ exLinCtx t ⬝ᵥ exLinCoef a} := measurableSet_Iic
  have hms' : MeasurableSet {ω : ℕ → ℝ | ω t ≤ exLinCtx t ⬝ᵥ exLinCoef a} := measurable_pi_apply t measurableSet_Iic
  have h := Measure.infinitePi_map_eval (fun _ : ℕ => exUnitInterval) t
  have h1 : exLinMeasure.real {ω | ω t ≤ exLinCtx t ⬝ᵥ exLinCoef a} = exUnitInterval.real {y | y ≤ exLinCtx t ⬝ᵥ exLinCoef a} := by
    rw [Measure.real, Measure.real, ← h, Measure.map_apply (measurable_pi_apply t) hms]
    rfl
  rw [exUnitInterval_le (exLin_mean t a).1 (exLin_mean t a).2] at h1
  rw [← h1, ← integral_indicator_one hms']
  refine integral_congr_ae (Filter.Eventually.of_forall fun ω => ?_)
  simp only [exLinReward, Set.indicator, Set.mem_ofPred_eq, Pi.one_apply]

example : exLinMeasure {ω | ¬ ∃ s, simRun (linPolicy exGauss insArgsortReal ⟨2, 1, 3⟩ (.ucb 4)) (LinState.init exGauss.toRng 2 2)
        (simSteps (linRounds exLinCtx (fun t => exLinReward t ω) 1000)) = .ok s ∧
      ∃ act : ℕ → Fin 2, s.selected = (List.range 1000).map (fun t => ((act t).val : ℤ)) ∧
        s.total = ∑ t ∈ Finset.range 1000, exLinReward t ω (act t) ∧
        ∀ best : ℕ → Fin 2, ∑ t ∈ Finset.range 1000, exLinCtx t ⬝ᵥ exLinCoef (best t) -
            ∑ t ∈ Finset.range 1000, exLinCtx t ⬝ᵥ exLinCoef (act t) ≤
          2 * 4 * √((1000 : ℕ) * ((1 + ((3 : ℕ) - 1) * 1) * ((1 + 1) * ((2 : ℕ) * ((2 : ℕ) * Real.log (1 + (1000 : ℕ) * 1 / (2 : ℕ)))))))} ≤
      ENNReal.ofReal (2 / 100) := by
  have hfam : iIndepFun exLinReward exLinMeasure := by
    have h : iIndepFun (fun (t : ℕ) (ω : ℕ → ℝ) => ω t) exLinMeasure :=
      iIndepFun_infinitePi (X := fun _ x => x) fun _ => measurable_id
    exact h.comp (fun t y a => if y ≤ exLinCtx t ⬝ᵥ exLinCoef a then (1 : ℝ) else 0) fun t =>
      measurable_pi_lambda _ fun a => Measurable.ite measurableSet_Iic measurable_const measurable_const
  refine C171_linucb_bounded (dim := 2) (n := 2) (L := 1) (b := 3) (cfg := ⟨2, 1, 3⟩) rfl insArgsortReal_isArgsort
    (insArgsortReal_measurable 2) exGauss (lo := 0) (hi := 1) zero_lt_one (S := 1) zero_le_one (by norm_num) exLinCoef ?_ exLinCtx
    ?_ exLinReward ?_ hfam ?_ exLinReward_mean 1000 ?_
  · intro a
    rw [Real.sqrt_le_one]
    exact exLinCoef_le a
  · intro t
    unfold exLinCtx
    split <;> simp [dotProduct]
  · intro t
    exact measurable_pi_lambda _ fun a => Measurable.ite (measurable_pi_apply t measurableSet_Iic) measurable_const
      measurable_const
  · intro t ω a
    unfold exLinReward
    split <;> norm_num
  · have hexp : ∀ (k : ℕ) {y : ℝ}, 0 < y → y ≤ 2 ^ k → Real.log y ≤ k := by
      intro k y h0 hy
      rw [Real.log_le_iff_le_exp h0]
      refine hy.trans ?_
      have h : (2 : ℝ) ≤ Real.exp 1 := by linarith [Real.add_one_le_exp (1 : ℝ)]
      calc (2 : ℝ) ^ k ≤ Real.exp 1 ^ k := pow_le_pow_left₀ (by norm_num) h k
        _ = Real.exp k := by rw [← Real.exp_nat_mul, mul_one]
    have h1 := hexp 9 (y := 1 + (1000 : ℕ) * 1 / (2 : ℕ)) (by norm_num) (by norm_num)
    have h2 := hexp 7 (y := (2 : ℕ) / (2 / 100)) (by norm_num) (by norm_num)
    have h3 : √((2 : ℕ) * Real.log (1 + (1000 : ℕ) * 1 / (2 : ℕ)) + 2 * Real.log ((2 : ℕ) / (2 / 100))) ≤ 6 := by
      rw [Real.sqrt_le_left (by norm_num)]
      push_cast at h1 h2 ⊢
      linarith
    show 1 + (1 - 0) / 2 * √((2 : ℕ) * Real.log (1 + (1000 : ℕ) * 1 / (2 : ℕ)) + 2 * Real.log ((2 : ℕ) / (2 / 100))) ≤ (4 : ℝ)
    linarith

end Obp
