import Verif.Lemmas.BanditAlmostSure
import Mathlib.Probability.Independence.InfinitePi
import Mathlib.Data.List.Sort
import Mathlib.MeasureTheory.Measure.Lebesgue.Basic

set_option linter.unusedSectionVars false

/-! # C167: `EpsilonGreedy` finds the best action -/

namespace Obp
open MeasureTheory ProbabilityTheory Filter Topology

/-- **C167.** `EpsilonGreedy` with `0 < epsilon ≤ 1` in `BanditPolicySimulator`, in a stationary environment with bounded
rewards, for any number of actions, list length and batch size. Almost surely: no step fails, the average reward that the policy
has recorded for each action converges to the expected reward of the action, from some round on every exploiting step plays an
action with the largest expected reward, and the average reward of the simulator converges to the largest expected reward
with weight `1 - epsilon` plus the average over the actions with weight `epsilon`. -/
theorem C167_egreedy_learns {Ω : Type} [MeasurableSpace Ω] {P : Measure Ω} [IsProbabilityMeasure P] {n L b : ℤ}
    {cfg : CfConfig} (hc : mkCfConfig n L b = .ok cfg) (W : BanditWorld P cfg.nActions cfg.lenList)
    {argsort : List ℝ → List ℕ} (ha : IsArgsort argsort)
    (hm : ∀ l, MeasurableSet {x : Fin cfg.nActions → ℝ | argsort (List.ofFn x) = l}) {ε : ℝ} (h0 : 0 < ε) (h1 : ε ≤ 1)
    (ctx : ℕ → SimContext ℝ) {best : Fin cfg.nActions} (hbest : ∀ a, W.mean a ≤ W.mean best) :
    ∀ᵐ ω ∂P, ∃ s : ℕ → SimState (CfState ℕ ℝ cfg.nActions) ℝ,
      (∀ T, simRun (cfPolicy (W.rng ω) argsort cfg (.egreedy ε)) (CfState.init (W.rng ω) cfg.nActions)
        (simSteps (W.rounds ctx ω T)) = .ok (s T)) ∧
      (∀ a, Tendsto (fun T => (s T).policy.rewardCounts a / ((s T).policy.actionCounts a : ℝ)) atTop
        (𝓝 (W.mean a))) ∧
      (∀ᶠ T in atTop, ε < W.u T ω → ∃ a : Fin cfg.nActions, (s (T + 1)).selected[T]? = some (a.val : ℤ) ∧
        ∀ a', W.mean a' ≤ W.mean a) ∧
      Tendsto (fun T : ℕ => (s T).total / (T : ℝ)) atTop
        (𝓝 ((1 - ε) * W.mean best + ε * ((∑ a, W.mean a) / cfg.nActions))) := by
  obtain ⟨hn2, hL0, hL, hb⟩ := mkCfConfig_ok hc
  have hn : 0 < cfg.nActions := by omega
  have hr := fun a => W.ae_rewards hn hm cfg.batchSize ε a
  have he := fun a => W.ae_explore h0.le h1 a
  filter_upwards [ae_all_iff.2 hr, ae_all_iff.2 he] with ω hω1 hω2
  have hrun := fun T => simRun_play hn (by omega) hL ha (W.rng ω) ε (fun i => W.u i ω) (fun i => W.c i ω)
    (fun i => W.r i ω) (fun t => W.ranking_c t ω) (fun _ => rfl) (fun _ _ _ => rfl) rfl ctx T
  choose s hs1 hs2 hs3 hs4 using hrun
  refine ⟨s, hs1, fun a => ?_, ?_, ?_⟩
  · simp only [hs2]
    exact (playAverage_tendsto hn h0 hω1 hω2 a).comp (tendsto_completed hb)
  · filter_upwards [playAction_best hn h0 hω1 hω2 ha (by omega) hL hb] with T hT hu
    exact ⟨_, by rw [hs3]; simp, hT hu⟩
  · simp only [hs4]
    exact playTotal_tendsto hn h0 hω1 hω2 ha (by omega) hL hb (fun t => W.ranking_c t ω) hbest

/-- **C167 (`Random`).** The `Random` policy, which is `EpsilonGreedy` with `epsilon = 1`, never exploits: almost surely its average reward
in the simulator converges to the plain average of the actions' expected rewards, and so falls short of the best action's by the average
gap. Its records converge all the same. -/
theorem C167_random {Ω : Type} [MeasurableSpace Ω] {P : Measure Ω} [IsProbabilityMeasure P] {n L b : ℤ}
    {cfg : CfConfig} (hc : mkCfConfig n L b = .ok cfg) (W : BanditWorld P cfg.nActions cfg.lenList)
    {argsort : List ℝ → List ℕ} (ha : IsArgsort argsort)
    (hm : ∀ l, MeasurableSet {x : Fin cfg.nActions → ℝ | argsort (List.ofFn x) = l}) (ctx : ℕ → SimContext ℝ)
    {best : Fin cfg.nActions} (hbest : ∀ a, W.mean a ≤ W.mean best) :
    ∀ᵐ ω ∂P, ∃ s : ℕ → SimState (CfState ℕ ℝ cfg.nActions) ℝ,
      (∀ T, simRun (cfPolicy (W.rng ω) argsort cfg (.egreedy 1)) (CfState.init (W.rng ω) cfg.nActions)
        (simSteps (W.rounds ctx ω T)) = .ok (s T)) ∧
      (∀ a, Tendsto (fun T => (s T).policy.rewardCounts a / ((s T).policy.actionCounts a : ℝ)) atTop (𝓝 (W.mean a))) ∧
      Tendsto (fun T : ℕ => (s T).total / (T : ℝ)) atTop (𝓝 ((∑ a, W.mean a) / cfg.nActions)) ∧
      Tendsto (fun T : ℕ => W.mean best - (s T).total / (T : ℝ)) atTop
        (𝓝 ((∑ a, (W.mean best - W.mean a)) / cfg.nActions)) := by
  have hn : (cfg.nActions : ℝ) ≠ 0 := by
    have := (mkCfConfig_ok hc).1
    exact_mod_cast (by omega : cfg.nActions ≠ 0)
  filter_upwards [C167_egreedy_learns hc W ha hm one_pos le_rfl ctx hbest] with ω h
  obtain ⟨s, h1, h2, -, h4⟩ := h
  rw [sub_self, zero_mul, zero_add, one_mul] at h4
  refine ⟨s, h1, h2, h4, ?_⟩
  have e : (∑ a, (W.mean best - W.mean a)) / (cfg.nActions : ℝ) = W.mean best - (∑ a, W.mean a) / cfg.nActions := by
    rw [Finset.sum_sub_distrib, Finset.sum_const, Finset.card_univ, Fintype.card_fin, nsmul_eq_mul, sub_div, mul_div_cancel_left₀ _ hn]
  rw [e]
  exact h4.const_sub _

/-! ### An experiment with two actions -/

/-- a stable argsort -/
noncomputable def insArgsortReal (xs : List ℝ) : List ℕ :=
  (List.range xs.length).insertionSort fun i j => xs.getD i 0 ≤ xs.getD j 0

theorem insArgsortReal_isArgsort : IsArgsort insArgsortReal := by
  intro xs
  refine ⟨List.perm_insertionSort _ _, ?_⟩
  have : Std.Total fun (i j : ℕ) => xs.getD i 0 ≤ xs.getD j 0 := ⟨fun i j => le_total _ _⟩
  have : IsTrans ℕ fun i j => xs.getD i 0 ≤ xs.getD j 0 := ⟨fun i j k => le_trans⟩
  refine (List.pairwise_insertionSort _ _).imp ?_
  intro i j hij x y hx hy
  rw [List.getD_eq_getElem?_getD, List.getD_eq_getElem?_getD, hx, hy] at hij
  exact hij

/-- which entries are at most which -/
noncomputable def exPattern (n : ℕ) (x : Fin n → ℝ) (p : Fin (n + 1) × Fin (n + 1)) : Bool :=
  decide ((List.ofFn x).getD p.1 0 ≤ (List.ofFn x).getD p.2 0)

theorem insArgsortReal_pattern {n : ℕ} {x y : Fin n → ℝ} (h : exPattern n x = exPattern n y) :
    insArgsortReal (List.ofFn x) = insArgsortReal (List.ofFn y) := by
  have hmin : ∀ (z : Fin n → ℝ) (i : ℕ), (List.ofFn z).getD i 0 = (List.ofFn z).getD (min i n) 0 := by
    intro z i
    rcases le_total i n with hi | hi
    · rw [min_eq_left hi]
    · rw [min_eq_right hi]; simp [hi]
  have hrel : (fun i j : ℕ => (List.ofFn x).getD i 0 ≤ (List.ofFn x).getD j 0) =
      fun i j : ℕ => (List.ofFn y).getD i 0 ≤ (List.ofFn y).getD j 0 := by
    funext i j
    have := congrFun h (⟨min i n, by omega⟩, ⟨min j n, by omega⟩)
    simp only [exPattern, decide_eq_decide] at this
    rw [hmin x i, hmin x j, hmin y i, hmin y j]
    exact propext this
  simp only [insArgsortReal, List.length_ofFn]
  congr 1

theorem insArgsortReal_measurable (n : ℕ) (l : List ℕ) :
    MeasurableSet {x : Fin n → ℝ | insArgsortReal (List.ofFn x) = l} := by
  have hget : ∀ i, Measurable fun x : Fin n → ℝ => (List.ofFn x).getD i 0 := by
    intro i
    by_cases hi : i < n
    · simpa [hi] using measurable_pi_apply (⟨i, hi⟩ : Fin n)
    · have : (fun x : Fin n → ℝ => (List.ofFn x).getD i 0) = fun _ => 0 := by
        funext x
        simp [hi]
      rw [this]
      exact measurable_const
  have hpat : Measurable (exPattern n) := by
    refine measurable_pi_lambda _ fun p => ?_
    refine measurable_to_bool ?_
    have : (fun x => exPattern n x p) ⁻¹' {true} =
        {x | (List.ofFn x).getD p.1 0 ≤ (List.ofFn x).getD p.2 0} := by
      ext x; simp [exPattern]
    rw [this]
    exact measurableSet_le (hget _) (hget _)
  have e : {x : Fin n → ℝ | insArgsortReal (List.ofFn x) = l} =
      exPattern n ⁻¹' (exPattern n '' {x | insArgsortReal (List.ofFn x) = l}) := by
    ext x
    constructor
    · exact fun h => ⟨x, h, rfl⟩
    · rintro ⟨y, hy, hxy⟩
      rw [Set.mem_ofPred_eq, ← insArgsortReal_pattern hxy]
      exact hy
  rw [e]
  exact hpat (Set.to_countable _).measurableSet

/-- the uniform distribution on [0, 1] -/
noncomputable abbrev exUnitInterval : Measure ℝ := volume.restrict (Set.Icc 0 1)

instance : IsProbabilityMeasure exUnitInterval := ⟨by simp [exUnitInterval]⟩

/-- all draws are made from uniform numbers -/
noncomputable abbrev exBanditMeasure : Measure (Draw → ℝ) := Measure.infinitePi fun _ => exUnitInterval

theorem exUnitInterval_le {x : ℝ} (h0 : 0 ≤ x) (h1 : x ≤ 1) : exUnitInterval.real {y | y ≤ x} = x := by
  have e : {y : ℝ | y ≤ x} ∩ Set.Icc 0 1 = Set.Icc 0 x := by
    ext y
    simp only [Set.mem_inter_iff, Set.mem_ofPred_eq, Set.mem_Icc]
    exact ⟨fun h => ⟨h.2.1, h.1⟩, fun h => ⟨h.2, h.1, h.2.trans h1⟩⟩
  have hm : MeasurableSet {y : ℝ | y ≤ x} := measurableSet_Iic
  rw [measureReal_restrict_apply hm, e]
  simp [h0]

theorem exBandit_coord (d : Draw) {A : Set ℝ} (hA : MeasurableSet A) :
    exBanditMeasure.real {ω | ω d ∈ A} = exUnitInterval.real A := by
  have h := Measure.infinitePi_map_eval (fun _ : Draw => exUnitInterval) d
  rw [Measure.real, Measure.real, ← h, Measure.map_apply (measurable_pi_apply d) hA]
  rfl

theorem exBandit_le (d : Draw) {x : ℝ} (h0 : 0 ≤ x) (h1 : x ≤ 1) : exBanditMeasure.real {ω | ω d ≤ x} = x :=
  (exBandit_coord d measurableSet_Iic).trans (exUnitInterval_le h0 h1)

/-- the reward of action 0 is 1 with probability 1/3, that of action 1 with probability 2/3 -/
noncomputable def exArm (x : ℝ) (a : Fin 2) : ℝ := if x ≤ if a = 0 then 1 / 3 else 2 / 3 then 1 else 0

theorem exArm_measurable : Measurable exArm :=
  measurable_pi_lambda _ fun _ => Measurable.ite measurableSet_Iic measurable_const measurable_const

/-- the action picked at random -/
noncomputable def exPick (x : ℝ) : List ℕ := if x ≤ 1 / 2 then [0] else [1]

theorem exPick_low {x : ℝ} (h : x ≤ 1 / 2) : exPick x = [0] := if_pos h

theorem exPick_high {x : ℝ} (h : ¬ x ≤ 1 / 2) : exPick x = [1] := if_neg h

theorem exPick_measurable (l : List ℕ) : MeasurableSet {x | exPick x = l} := by
  have hle : MeasurableSet {x : ℝ | x ≤ 1 / 2} := measurableSet_Iic
  have e : {x | exPick x = l} = ({x | x ≤ 1 / 2} ∩ {_x : ℝ | [0] = l}) ∪ ({x : ℝ | x ≤ 1 / 2}ᶜ ∩ {_x : ℝ | [1] = l}) := by
    ext x
    by_cases h : x ≤ 1 / 2
    · rw [Set.mem_ofPred_eq, exPick_low h]
      simp only [Set.mem_union, Set.mem_inter_iff, Set.mem_compl_iff, Set.mem_ofPred_eq, h, true_and, not_true,
        false_and, or_false]
    · rw [Set.mem_ofPred_eq, exPick_high h]
      simp only [Set.mem_union, Set.mem_inter_iff, Set.mem_compl_iff, Set.mem_ofPred_eq, h, true_and, not_false_eq_true,
        false_and, false_or]
  rw [e]
  exact (hle.inter (MeasurableSet.const _)).union (hle.compl.inter (MeasurableSet.const _))

/-- two actions, one of them selected at a time -/
noncomputable def exBandit : BanditWorld exBanditMeasure 2 1 where
  u := fun t ω => ω (.rand t)
  c := fun t ω => exPick (ω (.choice t))
  r := fun t ω => exArm (ω (.rewards t))
  measurable_u := fun t => measurable_pi_apply _
  measurable_c := fun t l => (measurable_pi_apply (X := fun _ : Draw => ℝ) (Draw.choice t)) (exPick_measurable l)
  measurable_r := fun t => exArm_measurable.comp (measurable_pi_apply _)
  independent := by
    have h : iIndepFun (fun (d : Draw) (ω : Draw → ℝ) => ω d) exBanditMeasure :=
      iIndepFun_infinitePi (X := fun _ x => x) fun _ => measurable_id
    refine iIndep_of_iIndep_of_le h.iIndep fun d => ?_
    cases d with
    | rand t => exact le_rfl
    | choice t =>
      show MeasurableSpace.comap (exPick ∘ fun ω : Draw → ℝ => ω (.choice t)) ⊤ ≤ _
      rw [← MeasurableSpace.comap_comp]
      refine MeasurableSpace.comap_mono ?_
      rintro _ ⟨A, -, rfl⟩
      have e : exPick ⁻¹' A = ⋃ l ∈ A, {x | exPick x = l} := by ext x; simp
      rw [e]
      exact MeasurableSet.biUnion (Set.to_countable _) fun l _ => exPick_measurable l
    | rewards t =>
      show MeasurableSpace.comap (exArm ∘ fun ω : Draw → ℝ => ω (.rewards t)) _ ≤ _
      rw [← MeasurableSpace.comap_comp]
      exact MeasurableSpace.comap_mono exArm_measurable.comap_le
  uniform_u := fun t x h0 h1 => exBandit_le _ h0 h1
  ranking_c := fun t ω => by
    by_cases h : ω (.choice t) ≤ 1 / 2
    · rw [exPick_low h]; exact ⟨rfl, by simp, by simp⟩
    · rw [exPick_high h]; exact ⟨rfl, by simp, by simp⟩
  uniform_c := fun t a => by
    have hle : exBanditMeasure.real {ω | ω (.choice t) ≤ 1 / 2} = 1 / 2 := exBandit_le _ (by norm_num) (by norm_num)
    have hms : MeasurableSet {ω : Draw → ℝ | ω (.choice t) ≤ 1 / 2} :=
      measurable_pi_apply (Draw.choice t) measurableSet_Iic
    fin_cases a
    · have e : {ω : Draw → ℝ | (exPick (ω (.choice t))).head? = some ((0 : Fin 2) : ℕ)} =
          {ω | ω (.choice t) ≤ 1 / 2} := by
        ext ω
        rw [Set.mem_ofPred_eq, Set.mem_ofPred_eq]
        by_cases h : ω (.choice t) ≤ 1 / 2
        · rw [exPick_low h]; simpa using h
        · rw [exPick_high h]; simpa using h
      exact (congrArg _ e).trans (hle.trans (by norm_num))
    · have e : {ω : Draw → ℝ | (exPick (ω (.choice t))).head? = some ((1 : Fin 2) : ℕ)} =
          {ω | ω (.choice t) ≤ 1 / 2}ᶜ := by
        ext ω
        rw [Set.mem_compl_iff, Set.mem_ofPred_eq, Set.mem_ofPred_eq]
        by_cases h : ω (.choice t) ≤ 1 / 2
        · rw [exPick_low h]; simpa using h
        · rw [exPick_high h]; simpa using h
      refine (congrArg _ e).trans ?_
      rw [probReal_compl_eq_one_sub hms, hle]
      norm_num
  stationary := fun t => by
    refine ⟨(exArm_measurable.comp (measurable_pi_apply _)).aemeasurable,
      (exArm_measurable.comp (measurable_pi_apply _)).aemeasurable, ?_⟩
    have h : ∀ t, exBanditMeasure.map (fun ω => exArm (ω (.rewards t))) = exUnitInterval.map exArm := by
      intro t
      conv_rhs => rw [← Measure.infinitePi_map_eval (fun _ : Draw => exUnitInterval) (.rewards t)]
      rw [Measure.map_map exArm_measurable (measurable_pi_apply _)]
      rfl
    exact (h t).trans (h 0).symm
  bounded := ⟨1, fun t ω a => by
    show |exArm (ω (.rewards t)) a| ≤ 1
    unfold exArm
    by_cases h : ω (.rewards t) ≤ if a = 0 then 1 / 3 else 2 / 3
    · rw [if_pos h, abs_one]
    · rw [if_neg h, abs_zero]; exact zero_le_one⟩

theorem exBandit_mean (a : Fin 2) : exBandit.mean a = if a = 0 then 1 / 3 else 2 / 3 := by
  have hx : (0 : ℝ) ≤ (if a = 0 then 1 / 3 else 2 / 3) ∧ (if a = 0 then 1 / 3 else 2 / 3 : ℝ) ≤ 1 := by
    split <;> norm_num
  have hms : MeasurableSet {ω : Draw → ℝ | ω (.rewards 0) ≤ if a = 0 then 1 / 3 else 2 / 3} :=
    measurable_pi_apply (Draw.rewards 0) measurableSet_Iic
  rw [← exBandit_le (.rewards 0) hx.1 hx.2, ← integral_indicator_one hms]
  refine integral_congr_ae (Eventually.of_forall fun ω => ?_)
  show exArm (ω (.rewards 0)) a = _
  simp only [exArm, Set.indicator, Set.mem_ofPred_eq, Pi.one_apply]

/-- The policy ends up near 2/3: with `epsilon = 1/10` the average reward converges to 9/10 · 2/3 + 1/10 · 1/2 = 13/20. -/
example (ctx : ℕ → SimContext ℝ) : ∀ᵐ ω ∂exBanditMeasure, ∃ s : ℕ → SimState (CfState ℕ ℝ 2) ℝ,
    (∀ T, simRun (cfPolicy (exBandit.rng ω) insArgsortReal ⟨2, 1, 5⟩ (.egreedy (1 / 10)))
      (CfState.init (exBandit.rng ω) 2) (simSteps (exBandit.rounds ctx ω T)) = .ok (s T)) ∧
    Tendsto (fun T : ℕ => (s T).total / (T : ℝ)) atTop (𝓝 (13 / 20)) := by
  have h := C167_egreedy_learns (n := 2) (L := 1) (b := 5) (cfg := ⟨2, 1, 5⟩) rfl exBandit insArgsortReal_isArgsort
    (insArgsortReal_measurable 2) (ε := 1 / 10) (by norm_num) (by norm_num) ctx (best := (1 : Fin 2))
    (fun a => by rw [exBandit_mean, exBandit_mean]; fin_cases a <;> norm_num)
  filter_upwards [h] with ω hω
  obtain ⟨s, h1, -, -, h2⟩ := hω
  refine ⟨s, h1, ?_⟩
  have e : (1 - 1 / 10 : ℝ) * exBandit.mean 1 + 1 / 10 * ((∑ a, exBandit.mean a) / (2 : ℕ)) = 13 / 20 := by
    simp only [Fin.sum_univ_two, exBandit_mean]
    norm_num
  rw [← e]
  exact h2

/-! ### `epsilon = 0` -/

/-- With `epsilon = 0` a first impression can last: if action 0 is tried first and wins, and action 1 is tried next and loses,
then action 0 is played ever after. -/
theorem exBandit_stuck {ω : Draw → ℝ} (hu : ∀ t, 0 < ω (.rand t)) (hc0 : ω (.choice 0) ≤ 1 / 2)
    (hc1 : ¬ ω (.choice 1) ≤ 1 / 2) (hr0 : ω (.rewards 0) ≤ 1 / 3) (hr1 : ¬ ω (.rewards 1) ≤ 2 / 3) (T : ℕ) (hT : 2 ≤ T) :
    exBandit.act (by norm_num) insArgsortReal 1 0 T ω = 0 := by
  set act := fun t => exBandit.act (by norm_num) insArgsortReal 1 0 t ω with hact
  have hrec : ∀ t, act t = frontAction (by norm_num) (playList insArgsortReal 1 0 (playCount act t)
      (playReward act (fun i => exBandit.r i ω) t) (ω (.rand t)) (exPick (ω (.choice t)))) := by
    intro t
    have := playAction_eq (by norm_num : 0 < 2) insArgsortReal 1 1 0 (fun i => exBandit.u i ω) (fun i => exBandit.c i ω)
      (fun i => exBandit.r i ω) t
    rw [Nat.div_one, Nat.one_mul] at this
    exact this
  have h0 : act 0 = 0 := by
    rw [hrec 0, playList, if_neg, exPick_low hc0]
    · rfl
    · rintro ⟨-, h⟩
      exact absurd (h 0) (by simp [playCount])
  have hcount1 : playCount act 1 1 = 0 := by simp [playCount, h0]
  have h1 : act 1 = 1 := by
    rw [hrec 1, playList, if_neg, exPick_high hc1]
    · rfl
    · rintro ⟨-, h⟩
      exact absurd (h 1) (by rw [hcount1]; exact lt_irrefl 0)
  have hr : ∀ t a, exBandit.r t ω a = exArm (ω (.rewards t)) a := fun _ _ => rfl
  have hnn : ∀ t a, 0 ≤ exBandit.r t ω a := by
    intro t a
    rw [hr, exArm]
    by_cases h : ω (.rewards t) ≤ if a = 0 then 1 / 3 else 2 / 3
    · rw [if_pos h]; exact zero_le_one
    · rw [if_neg h]
  -- from round 2 on: action 1 has one loss, action 0 has won at least once
  have hinv : ∀ k, playCount act (k + 2) 1 = 1 ∧ playReward act (fun i => exBandit.r i ω) (k + 2) 1 = 0 ∧
      0 < playCount act (k + 2) 0 ∧ 0 < playReward act (fun i => exBandit.r i ω) (k + 2) 0 := by
    intro k
    induction k with
    | zero =>
      simp only [playCount, playReward, Finset.sum_range_succ, Finset.sum_range_zero, h0, h1, hr]
      refine ⟨by simp, ?_, by simp, ?_⟩
      · simp [exArm, not_le.1 hr1]
      · have : exArm (ω (.rewards 0)) 0 = 1 := by rw [exArm, if_pos rfl, if_pos hr0]
        simp [this]
    | succ k ih =>
      obtain ⟨i1, i2, i3, i4⟩ := ih
      have hN : ∀ a, 0 < playCount act (k + 2) a := by
        intro a; fin_cases a
        · exact i3
        · show 0 < playCount act (k + 2) 1; rw [i1]; exact one_pos
      have hex := playAction_exploit (by norm_num : 0 < 2) (argsort := insArgsortReal) (L := 1) (b := 1) (ε := 0)
        (u := fun i => exBandit.u i ω) (c := fun i => exBandit.c i ω) (r := fun i => exBandit.r i ω)
        insArgsortReal_isArgsort one_pos (by norm_num) (t := k + 2) (hu _)
        (by rw [Nat.div_one, Nat.one_mul]; exact hN) 0
      rw [Nat.div_one, Nat.one_mul] at hex
      change playReward act (fun i => exBandit.r i ω) (k + 2) 0 / (playCount act (k + 2) 0 : ℝ) ≤
        playReward act (fun i => exBandit.r i ω) (k + 2) (act (k + 2)) / (playCount act (k + 2) (act (k + 2)) : ℝ) at hex
      have hpos : 0 < playReward act (fun i => exBandit.r i ω) (k + 2) 0 / (playCount act (k + 2) 0 : ℝ) :=
        div_pos i4 (by exact_mod_cast i3)
      have ha : act (k + 2) = 0 := by
        by_contra hne
        have h1' : act (k + 2) = 1 := by
          generalize act (k + 2) = x at hne
          fin_cases x
          · exact absurd rfl hne
          · rfl
        rw [h1', i2, zero_div] at hex
        linarith
      have e : k + 1 + 2 = (k + 2) + 1 := by ring
      have hs1 : playCount act (k + 2 + 1) 1 = playCount act (k + 2) 1 := by
        rw [playCount, playCount, Finset.sum_range_succ, ha, if_neg (by decide), add_zero]
      have hs2 : playReward act (fun i => exBandit.r i ω) (k + 2 + 1) 1 = playReward act (fun i => exBandit.r i ω) (k + 2) 1 := by
        rw [playReward, playReward, Finset.sum_range_succ, ha, if_neg (by decide), add_zero]
      have hs3 : playCount act (k + 2 + 1) 0 = playCount act (k + 2) 0 + 1 := by
        rw [playCount, playCount, Finset.sum_range_succ, ha, if_pos rfl]
      have hs4 : playReward act (fun i => exBandit.r i ω) (k + 2 + 1) 0 =
          playReward act (fun i => exBandit.r i ω) (k + 2) 0 + exBandit.r (k + 2) ω 0 := by
        rw [playReward, playReward, Finset.sum_range_succ, ha, if_pos rfl]
      rw [e, hs1, hs2, hs3, hs4]
      exact ⟨i1, i2, by omega, by linarith [hnn (k + 2) 0]⟩
  obtain ⟨k, rfl⟩ : ∃ k, T = k + 2 := ⟨T - 2, by omega⟩
  -- the count of action 1 does not grow
  have hc := (hinv (k + 1)).1
  have hc' := (hinv k).1
  have e : k + 1 + 2 = (k + 2) + 1 := by ring
  rw [e, playCount, Finset.sum_range_succ] at hc
  rw [playCount] at hc'
  rw [hc'] at hc
  show act (k + 2) = 0
  generalize act (k + 2) = x at hc ⊢
  fin_cases x
  · rfl
  · simp at hc

/-- **C167, why `epsilon` must be positive.** With `epsilon = 0` the policy plays the worse of two actions from the third round
on, with positive probability. -/
theorem C167_zero_epsilon (ctx : ℕ → SimContext ℝ) : 0 < exBanditMeasure {ω | ∃ s : ℕ → SimState (CfState ℕ ℝ 2) ℝ,
    (∀ T, simRun (cfPolicy (exBandit.rng ω) insArgsortReal ⟨2, 1, 1⟩ (.egreedy 0)) (CfState.init (exBandit.rng ω) 2)
      (simSteps (exBandit.rounds ctx ω T)) = .ok (s T)) ∧
    ∀ T, 2 ≤ T → (s (T + 1)).selected[T]? = some 0} ∧ exBandit.mean 0 < exBandit.mean 1 := by
  refine ⟨?_, by rw [exBandit_mean, exBandit_mean]; norm_num⟩
  classical
  let D : Finset Draw := {.choice 0, .choice 1, .rewards 0, .rewards 1}
  let A : Draw → Set ℝ := fun d => match d with
    | .choice t => if t = 0 then Set.Iic (1 / 2) else Set.Ioi (1 / 2)
    | .rewards t => if t = 0 then Set.Iic (1 / 3) else Set.Ioi (2 / 3)
    | .rand _ => Set.univ
  have hA : ∀ d ∈ D, MeasurableSet (A d) := by
    intro d _
    cases d with
    | rand t => exact MeasurableSet.univ
    | choice t => simp only [A]; split <;> measurability
    | rewards t => simp only [A]; split <;> measurability
  have hpos : ∀ d ∈ D, 0 < exUnitInterval (A d) := by
    have hIic : ∀ x : ℝ, 0 < x → x ≤ 1 → 0 < exUnitInterval (Set.Iic x) := by
      intro x hx hx1
      have := exUnitInterval_le hx.le hx1
      rw [pos_iff_ne_zero]
      intro h
      have h' : exUnitInterval {y | y ≤ x} = 0 := h
      rw [Measure.real, h'] at this
      simp at this
      linarith
    have hIoi : ∀ x : ℝ, 0 ≤ x → x < 1 → 0 < exUnitInterval (Set.Ioi x) := by
      intro x hx hx1
      rw [pos_iff_ne_zero]
      intro h
      have h1 := exUnitInterval_le hx hx1.le
      have h2 : exUnitInterval.real (Set.Iic x)ᶜ = 1 - exUnitInterval.real (Set.Iic x) := probReal_compl_eq_one_sub measurableSet_Iic
      have h3 : exUnitInterval.real (Set.Iic x) = x := h1
      rw [Set.compl_Iic, Measure.real, h, h3] at h2
      simp at h2
      linarith
    intro d hd
    simp only [D, Finset.mem_insert, Finset.mem_singleton] at hd
    rcases hd with rfl | rfl | rfl | rfl
    · exact hIic _ (by norm_num) (by norm_num)
    · exact hIoi _ (by norm_num) (by norm_num)
    · exact hIic _ (by norm_num) (by norm_num)
    · exact hIoi _ (by norm_num) (by norm_num)
  have hbox : 0 < exBanditMeasure (Set.pi D A) := by
    rw [Measure.infinitePi_pi _ hA]
    exact pos_iff_ne_zero.2 (Finset.prod_ne_zero_iff.2 fun d hd => (hpos d hd).ne')
  have hu : ∀ᵐ ω ∂exBanditMeasure, ∀ t, 0 < ω (.rand t) := by
    rw [ae_all_iff]
    intro t
    rw [ae_iff]
    have h : exBanditMeasure.real {ω | ω (.rand t) ≤ 0} = 0 := exBandit_le _ le_rfl zero_le_one
    simp only [not_lt]
    rw [Measure.real, ENNReal.toReal_eq_zero_iff] at h
    exact h.resolve_right (measure_ne_top _ _)
  refine lt_of_lt_of_le hbox ?_
  refine measure_mono_ae ?_
  filter_upwards [hu] with ω hω hmem
  have hc0 : ω (.choice 0) ≤ 1 / 2 := by simpa [A] using hmem (.choice 0) (by simp [D])
  have hc1 : ¬ ω (.choice 1) ≤ 1 / 2 := by
    have := hmem (.choice 1) (by simp [D])
    simp only [A, one_ne_zero, if_false, Set.mem_Ioi] at this
    exact not_le.2 this
  have hr0 : ω (.rewards 0) ≤ 1 / 3 := by simpa [A] using hmem (.rewards 0) (by simp [D])
  have hr1 : ¬ ω (.rewards 1) ≤ 2 / 3 := by
    have := hmem (.rewards 1) (by simp [D])
    simp only [A, one_ne_zero, if_false, Set.mem_Ioi] at this
    exact not_le.2 this
  have hrun := fun T => simRun_play (cfg := ⟨2, 1, 1⟩) (by norm_num) (by norm_num) (by norm_num) insArgsortReal_isArgsort
    (exBandit.rng ω) 0 (fun i => exBandit.u i ω) (fun i => exBandit.c i ω)
    (fun i => exBandit.r i ω) (fun t => exBandit.ranking_c t ω) (fun _ => rfl) (fun _ _ _ => rfl) rfl ctx T
  choose s hs1 _ hs3 _ using hrun
  refine ⟨s, hs1, fun T hT => ?_⟩
  have hst := exBandit_stuck hω hc0 hc1 hr0 hr1 T hT
  rw [hs3]
  simp only [List.getElem?_map, List.getElem?_range (Nat.lt_succ_self T), Option.map_some]
  have e : playAction (by norm_num : 0 < 2) insArgsortReal 1 1 0 (fun i => exBandit.u i ω) (fun i => exBandit.c i ω)
      (fun i => exBandit.r i ω) T = (0 : Fin 2) := hst
  rw [e]
  rfl

/-- the same experiment with the `Random` policy meets the hypotheses -/
example (ctx : ℕ → SimContext ℝ) := C167_random (n := 2) (L := 1) (b := 5) (cfg := ⟨2, 1, 5⟩) rfl exBandit insArgsortReal_isArgsort
  (insArgsortReal_measurable 2) ctx (best := (1 : Fin 2)) (fun a => by rw [exBandit_mean, exBandit_mean]; fin_cases a <;> norm_num)

end Obp
