import Verif.Lemmas.ThompsonAlmostSure
import Verif.Props.EpsilonGreedyLearns

set_option linter.unusedSectionVars false

/-! # C172: `BernoulliTS` finds the best action -/

namespace Obp
open MeasureTheory ProbabilityTheory Filter Topology

/-- **C172.** `BernoulliTS` with any positive prior in `BanditPolicySimulator`, in a stationary environment with binary rewards,
for any number of actions, list length and batch size. Almost surely: no step fails, every action whose expected reward is not
the largest is selected in a vanishing share of the rounds, and the average reward of the simulator converges to the largest
expected reward. -/
theorem C172_bts_learns {Ω : Type} [MeasurableSpace Ω] {P : Measure Ω} [IsProbabilityMeasure P] {n L b : ℤ}
    {cfg : CfConfig} (hc : mkCfConfig n L b = .ok cfg) (W : ThompsonWorld P cfg.nActions)
    {argsort : List ℝ → List ℕ} (ha : IsArgsort argsort)
    (hm : ∀ l, MeasurableSet {x : Fin cfg.nActions → ℝ | argsort (List.ofFn x) = l}) {alpha beta : Fin cfg.nActions → ℝ}
    (hα : ∀ a, 0 < alpha a) (hβ : ∀ a, 0 < beta a) (ctx : ℕ → SimContext ℝ) {best : Fin cfg.nActions}
    (hbest : ∀ a, W.mean a ≤ W.mean best) :
    ∀ᵐ ω ∂P, ∃ s : ℕ → SimState (CfState ℕ ℝ cfg.nActions) ℝ,
      (∀ T, simRun (cfPolicy (W.rng ω) argsort cfg (.bts alpha beta)) (CfState.init (W.rng ω) cfg.nActions)
        (simSteps (W.rounds ctx ω T)) = .ok (s T)) ∧
      (∀ a, W.mean a < W.mean best →
        Tendsto (fun T : ℕ => ((s T).selected.count (a.val : ℤ) : ℝ) / (T : ℝ)) atTop (𝓝 0)) ∧
      Tendsto (fun T : ℕ => (s T).total / (T : ℝ)) atTop (𝓝 (W.mean best)) := by
  obtain ⟨hn2, hL0, hL, hb⟩ := mkCfConfig_ok hc
  have hn : 0 < cfg.nActions := by omega
  have hL0' : 0 < cfg.lenList := by omega
  filter_upwards [ae_all_iff.2 fun a => W.ae_plays hn argsort cfg.lenList cfg.batchSize alpha beta hm a,
    ae_all_iff.2 fun a => W.ae_rewards hn argsort cfg.lenList cfg.batchSize alpha beta hm a] with ω h1 h2
  have hrun := fun T => simRun_ts hn hL0' hL ha (W.rng ω) alpha beta hα hβ (fun i x => W.θ i x ω)
    (fun i => W.r i ω) (fun t a => W.binary t ω a) (fun _ _ _ => rfl) rfl ctx T
  choose s hs1 hs2 hs3 hs4 using hrun
  set act : ℕ → Fin cfg.nActions := fun t => W.act hn argsort cfg.lenList cfg.batchSize alpha beta t ω with hact
  have hr : ∀ t a, W.r t ω a = 0 ∨ W.r t ω a = 1 := fun t a => W.binary t ω a
  have hwins : ∀ T, playReward act (fun i => W.r i ω) T = fun a => (playWins act (fun i => W.r i ω) T a : ℝ) :=
    fun T => playReward_eq_wins act hr T
  have hA : ∀ t j, 0 < ((W.counts hn argsort cfg.lenList cfg.batchSize alpha beta t ω).2 j : ℝ) + alpha j := by
    intro t j
    have := postA_pos (act := act) hr hα (cfg.batchSize * (t / cfg.batchSize)) j
    rw [postA, hwins] at this
    exact this
  have hB : ∀ t j, 0 < (((W.counts hn argsort cfg.lenList cfg.batchSize alpha beta t ω).1 j : ℝ) -
      ((W.counts hn argsort cfg.lenList cfg.batchSize alpha beta t ω).2 j : ℝ)) + beta j := by
    intro t j
    have := postB_pos (act := act) hr hβ (cfg.batchSize * (t / cfg.batchSize)) j
    rw [postB, hwins] at this
    exact this
  have h3 : ∀ t a x, (betaMeasure (postA act (fun i => W.r i ω) alpha (cfg.batchSize * (t / cfg.batchSize)) a)
      (postB act (fun i => W.r i ω) beta (cfg.batchSize * (t / cfg.batchSize)) a)).real (Set.Ioi x) *
      ∏ j ∈ Finset.univ.erase a, (betaMeasure (postA act (fun i => W.r i ω) alpha (cfg.batchSize * (t / cfg.batchSize)) j)
        (postB act (fun i => W.r i ω) beta (cfg.batchSize * (t / cfg.batchSize)) j)).real (Set.Iio x) ≤
      W.selProb hn argsort cfg.lenList alpha beta t
        (W.counts hn argsort cfg.lenList cfg.batchSize alpha beta t ω) a := by
    intro t a x
    have := W.selProb_lower hn ha hL0' hL t (W.counts hn argsort cfg.lenList cfg.batchSize alpha beta t ω) a x
      (hA t) (hB t)
    simp only [postA, postB, hwins]
    exact this
  have h4 : ∀ t a j x, a ≠ j → W.selProb hn argsort cfg.lenList alpha beta t
        (W.counts hn argsort cfg.lenList cfg.batchSize alpha beta t ω) a ≤
      (betaMeasure (postA act (fun i => W.r i ω) alpha (cfg.batchSize * (t / cfg.batchSize)) a)
        (postB act (fun i => W.r i ω) beta (cfg.batchSize * (t / cfg.batchSize)) a)).real (Set.Ici x) +
      (betaMeasure (postA act (fun i => W.r i ω) alpha (cfg.batchSize * (t / cfg.batchSize)) j)
        (postB act (fun i => W.r i ω) beta (cfg.batchSize * (t / cfg.batchSize)) j)).real (Set.Iic x) := by
    intro t a j x _
    have := W.selProb_upper hn ha hL0' hL t (W.counts hn argsort cfg.lenList cfg.batchSize alpha beta t ω) a j x
      (hA t) (hB t)
    simp only [postA, postB, hwins]
    exact this
  have hq : ∀ t a, 0 ≤ W.selProb hn argsort cfg.lenList alpha beta t
      (W.counts hn argsort cfg.lenList cfg.batchSize alpha beta t ω) a := fun _ _ => measureReal_nonneg
  have hμ : ∀ a, 0 ≤ W.mean a ∧ W.mean a ≤ 1 := W.mean_mem
  refine ⟨s, hs1, fun a hlt => ?_, ?_⟩
  · have h := thompson_share hb hr hα hβ hμ h1 h2 h3 h4 hq hbest hlt
    refine h.congr fun T => ?_
    have e : (s T).selected.count (a.val : ℤ) = playCount act T a := by
      rw [hs3]
      have key : ∀ T, List.count (a.val : ℤ) ((List.range T).map fun t => ((act t).val : ℤ)) = playCount act T a := by
        intro T
        induction T with
        | zero => simp [playCount]
        | succ T ih =>
          rw [List.range_succ, List.map_append, List.count_append, ih, playCount_succ]
          congr 1
          rw [List.map_cons, List.map_nil, List.count_singleton]
          by_cases h : act T = a
          · simp [h]
          · have : ((act T).val : ℤ) ≠ (a.val : ℤ) := by
              intro hc
              exact h (Fin.ext (by exact_mod_cast hc))
            simp [h, this]
      exact key T
    rw [e]
  · have h := thompson_total hb hr hα hβ hμ h1 h2 h3 h4 hq hbest
    simp only [hs4]
    exact h

/-! ### An experiment with two actions -/

/-- one draw: a number for every pair of Beta parameters -/
noncomputable abbrev exBetaDraw : Measure (ℝ × ℝ → ℝ) :=
  Measure.infinitePi fun p : ℝ × ℝ => if 0 < p.1 ∧ 0 < p.2 then betaMeasure p.1 p.2 else Measure.dirac 0

instance exBetaFamily (p : ℝ × ℝ) :
    IsProbabilityMeasure (if 0 < p.1 ∧ 0 < p.2 then betaMeasure p.1 p.2 else Measure.dirac 0) := by
  split
  · rename_i h; exact isProbabilityMeasureBeta h.1 h.2
  · infer_instance

/-- all draws are independent -/
noncomputable abbrev exThompsonMeasure : Measure (TsDraw → ℝ × ℝ → ℝ) := Measure.infinitePi fun _ => exBetaDraw

theorem exThompson_coord (d : TsDraw) {a b : ℝ} (ha : 0 < a) (hb : 0 < b) :
    exThompsonMeasure.map (fun ω => ω d (a, b)) = betaMeasure a b := by
  have h1 := Measure.infinitePi_map_eval (fun _ : TsDraw => exBetaDraw) d
  have h2 := Measure.infinitePi_map_eval
    (fun p : ℝ × ℝ => if 0 < p.1 ∧ 0 < p.2 then betaMeasure p.1 p.2 else Measure.dirac 0) (a, b)
  have e : (fun ω : TsDraw → ℝ × ℝ → ℝ => ω d (a, b)) = (fun x : ℝ × ℝ → ℝ => x (a, b)) ∘ fun ω => ω d := rfl
  rw [e, ← Measure.map_map (measurable_pi_apply _) (measurable_pi_apply _), h1]
  refine h2.trans ?_
  rw [if_pos ⟨ha, hb⟩]

/-- a number drawn with parameters (1, 1) is uniform -/
theorem betaMeasure_one_one {x : ℝ} (h0 : 0 ≤ x) (h1 : x ≤ 1) : (betaMeasure 1 1).real (Set.Iic x) = x := by
  have hpdf : ∀ y : ℝ, betaPDF 1 1 y = (Set.Ioo (0 : ℝ) 1).indicator 1 y := by
    intro y
    by_cases h : 0 < y ∧ y < 1
    · rw [betaPDF_of_pos_lt_one h.1 h.2, Set.indicator_of_mem (show y ∈ Set.Ioo 0 1 from h)]
      simp [beta, show (1 : ℝ) + 1 = 2 by norm_num]
    · rw [betaPDF_eq, if_neg h, Set.indicator_of_notMem (show y ∉ Set.Ioo 0 1 from h)]
      simp
  have hm : betaMeasure 1 1 = volume.restrict (Set.Ioo 0 1) := by
    rw [betaMeasure, show betaPDF 1 1 = (Set.Ioo (0 : ℝ) 1).indicator 1 from funext hpdf,
      withDensity_indicator_one measurableSet_Ioo]
  rw [hm, measureReal_restrict_apply measurableSet_Iic]
  rcases eq_or_lt_of_le h1 with h | h
  · subst h
    have e : Set.Iic (1 : ℝ) ∩ Set.Ioo 0 1 = Set.Ioo 0 1 := by
      ext y
      simp only [Set.mem_inter_iff, Set.mem_Iic, Set.mem_Ioo]
      exact ⟨fun h => h.2, fun h => ⟨h.2.le, h⟩⟩
    rw [e]; simp
  · have e : Set.Iic x ∩ Set.Ioo 0 1 = Set.Ioc 0 x := by
      ext y
      simp only [Set.mem_inter_iff, Set.mem_Iic, Set.mem_Ioo, Set.mem_Ioc]
      exact ⟨fun h => ⟨h.2.1, h.1⟩, fun h' => ⟨h'.2, h'.1, lt_of_le_of_lt h'.2 h⟩⟩
    rw [e]; simp [h0]

/-- two actions with expected rewards 1/3 and 2/3 -/
noncomputable def exThompson : ThompsonWorld exThompsonMeasure 2 where
  θ := fun t x ω => ω (.beta t x)
  r := fun t ω => exArm (ω (.rewards t) (1, 1))
  measurable_θ := fun t x => measurable_pi_apply _
  measurable_r := fun t => exArm_measurable.comp ((measurable_pi_apply ((1, 1) : ℝ × ℝ)).comp
    (measurable_pi_apply (X := fun _ : TsDraw => ℝ × ℝ → ℝ) (TsDraw.rewards t)))
  independent := by
    have h : iIndepFun (fun (d : TsDraw) (ω : TsDraw → ℝ × ℝ → ℝ) => ω d) exThompsonMeasure :=
      iIndepFun_infinitePi (X := fun _ x => x) fun _ => measurable_id
    refine iIndep_of_iIndep_of_le h.iIndep fun d => ?_
    cases d with
    | beta t x => exact le_rfl
    | rewards t =>
      show MeasurableSpace.comap ((fun x : ℝ × ℝ → ℝ => exArm (x (1, 1))) ∘
        fun ω : TsDraw → ℝ × ℝ → ℝ => ω (.rewards t)) _ ≤ _
      rw [← MeasurableSpace.comap_comp]
      exact MeasurableSpace.comap_mono (exArm_measurable.comp (measurable_pi_apply _)).comap_le
  beta_θ := fun t x a b ha hb => exThompson_coord _ ha hb
  stationary := fun t => by
    have hmeas : ∀ t, Measurable fun ω : TsDraw → ℝ × ℝ → ℝ => exArm (ω (.rewards t) (1, 1)) := fun t =>
      exArm_measurable.comp ((measurable_pi_apply ((1, 1) : ℝ × ℝ)).comp
        (measurable_pi_apply (X := fun _ : TsDraw => ℝ × ℝ → ℝ) (TsDraw.rewards t)))
    refine ⟨(hmeas t).aemeasurable, (hmeas 0).aemeasurable, ?_⟩
    have h : ∀ t, exThompsonMeasure.map (fun ω => exArm (ω (.rewards t) (1, 1))) = (betaMeasure 1 1).map exArm := by
      intro t
      conv_rhs => rw [← exThompson_coord (.rewards t) one_pos one_pos]
      have hcoord : Measurable fun ω : TsDraw → ℝ × ℝ → ℝ => ω (.rewards t) (1, 1) :=
        (measurable_pi_apply ((1, 1) : ℝ × ℝ)).comp
          (measurable_pi_apply (X := fun _ : TsDraw => ℝ × ℝ → ℝ) (TsDraw.rewards t))
      rw [Measure.map_map exArm_measurable hcoord]
      rfl
    exact (h t).trans (h 0).symm
  binary := fun t ω a => by
    show exArm (ω (.rewards t) (1, 1)) a = 0 ∨ exArm (ω (.rewards t) (1, 1)) a = 1
    unfold exArm
    by_cases h : ω (.rewards t) (1, 1) ≤ if a = 0 then 1 / 3 else 2 / 3
    · right; rw [if_pos h]
    · left; rw [if_neg h]

theorem exThompson_mean (a : Fin 2) : exThompson.mean a = if a = 0 then 1 / 3 else 2 / 3 := by
  have hx : (0 : ℝ) ≤ (if a = 0 then 1 / 3 else 2 / 3) ∧ (if a = 0 then 1 / 3 else 2 / 3 : ℝ) ≤ 1 := by
    split <;> norm_num
  have hmeas : Measurable fun ω : TsDraw → ℝ × ℝ → ℝ => ω (.rewards 0) (1, 1) :=
    (measurable_pi_apply ((1, 1) : ℝ × ℝ)).comp
      (measurable_pi_apply (X := fun _ : TsDraw => ℝ × ℝ → ℝ) (TsDraw.rewards 0))
  have hms : MeasurableSet {ω : TsDraw → ℝ × ℝ → ℝ | ω (.rewards 0) (1, 1) ≤ if a = 0 then 1 / 3 else 2 / 3} :=
    hmeas measurableSet_Iic
  have hp : exThompsonMeasure.real {ω | ω (.rewards 0) (1, 1) ≤ if a = 0 then 1 / 3 else 2 / 3} =
      if a = 0 then 1 / 3 else 2 / 3 := by
    refine Eq.trans ?_ (betaMeasure_one_one hx.1 hx.2)
    rw [Measure.real, Measure.real, ← exThompson_coord (.rewards 0) one_pos one_pos,
      Measure.map_apply hmeas measurableSet_Iic]
    rfl
  refine Eq.trans ?_ hp
  rw [← integral_indicator_one hms]
  refine integral_congr_ae (Eventually.of_forall fun ω => ?_)
  show exArm (ω (.rewards 0) (1, 1)) a = _
  simp only [exArm, Set.indicator, Set.mem_ofPred_eq, Pi.one_apply]

/-- The policy ends up at 2/3, with the uniform prior and updates every five rounds. -/
example (ctx : ℕ → SimContext ℝ) : ∀ᵐ ω ∂exThompsonMeasure, ∃ s : ℕ → SimState (CfState ℕ ℝ 2) ℝ,
    (∀ T, simRun (cfPolicy (exThompson.rng ω) insArgsortReal ⟨2, 1, 5⟩ (.bts (fun _ => 1) (fun _ => 1)))
      (CfState.init (exThompson.rng ω) 2) (simSteps (exThompson.rounds ctx ω T)) = .ok (s T)) ∧
    Tendsto (fun T : ℕ => ((s T).selected.count 0 : ℝ) / (T : ℝ)) atTop (𝓝 0) ∧
    Tendsto (fun T : ℕ => (s T).total / (T : ℝ)) atTop (𝓝 (2 / 3)) := by
  have h := C172_bts_learns (n := 2) (L := 1) (b := 5) (cfg := ⟨2, 1, 5⟩) rfl exThompson insArgsortReal_isArgsort
    (insArgsortReal_measurable 2) (alpha := fun _ => 1) (beta := fun _ => 1) (fun _ => one_pos) (fun _ => one_pos) ctx
    (best := (1 : Fin 2)) (fun a => by rw [exThompson_mean, exThompson_mean]; fin_cases a <;> norm_num)
  filter_upwards [h] with ω hω
  obtain ⟨s, h1, h2, h3⟩ := hω
  refine ⟨s, h1, ?_, ?_⟩
  · exact h2 (0 : Fin 2) (by rw [exThompson_mean, exThompson_mean]; norm_num)
  · have e : exThompson.mean 1 = 2 / 3 := by rw [exThompson_mean]; norm_num
    rw [← e]
    exact h3

end Obp
