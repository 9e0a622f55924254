import Verif.Lemmas.BanditLimit
import Verif.Lemmas.OrthogonalLaw
import Mathlib.Probability.Independence.Integration

set_option linter.unusedSectionVars false

/-! # `EpsilonGreedy` in a stationary environment: what holds almost surely -/

namespace Obp
open MeasureTheory ProbabilityTheory Filter Topology

/-- The selected list is measurable. -/
theorem measurableSet_playList {Ω : Type} {m : MeasurableSpace Ω} {n L : ℕ} {argsort : List ℝ → List ℕ}
    (hm : ∀ l, MeasurableSet {x : Fin n → ℝ | argsort (List.ofFn x) = l}) {ε : ℝ} {N : Ω → Fin n → ℕ} {S : Ω → Fin n → ℝ}
    {u : Ω → ℝ} {c : Ω → List ℕ} (hN : ∀ a, Measurable fun ω => N ω a) (hS : ∀ a, Measurable fun ω => S ω a)
    (hu : Measurable u) (hc : ∀ l, MeasurableSet {ω | c ω = l}) (l : List ℕ) :
    MeasurableSet {ω | playList argsort L ε (N ω) (S ω) (u ω) (c ω) = l} := by
  have hcond : MeasurableSet {ω | ε < u ω ∧ ∀ a, 0 < N ω a} := by
    have e : {ω | ε < u ω ∧ ∀ a, 0 < N ω a} = (u ⁻¹' Set.Ioi ε) ∩ ⋂ a, (fun ω => N ω a) ⁻¹' Set.Ioi 0 := by
      ext ω; simp
    rw [e]
    exact (hu measurableSet_Ioi).inter (MeasurableSet.iInter fun a => hN a trivial)
  have hx : Measurable fun ω => fun a => S ω a / (N ω a : ℝ) :=
    measurable_pi_lambda _ fun a => (hS a).div (measurable_from_top.comp (hN a))
  have htop : MeasurableSet {ω | topRanking argsort (List.ofFn fun a => S ω a / (N ω a : ℝ)) L = l} := by
    have e : {ω | topRanking argsort (List.ofFn fun a => S ω a / (N ω a : ℝ)) L = l} =
        ⋃ l' ∈ {l' : List ℕ | l'.reverse.take L = l},
          (fun ω => fun a => S ω a / (N ω a : ℝ)) ⁻¹' {x | argsort (List.ofFn x) = l'} := by
      ext ω; simp [topRanking]
    rw [e]
    exact MeasurableSet.biUnion (Set.to_countable _) fun l' _ => hx (hm l')
  have e : {ω | playList argsort L ε (N ω) (S ω) (u ω) (c ω) = l} =
      ({ω | ε < u ω ∧ ∀ a, 0 < N ω a} ∩ {ω | topRanking argsort (List.ofFn fun a => S ω a / (N ω a : ℝ)) L = l}) ∪
      ({ω | ε < u ω ∧ ∀ a, 0 < N ω a}ᶜ ∩ {ω | c ω = l}) := by
    ext ω
    by_cases h : ε < u ω ∧ ∀ a, 0 < N ω a
    · have e1 : playList argsort L ε (N ω) (S ω) (u ω) (c ω) =
          topRanking argsort (List.ofFn fun a => S ω a / (N ω a : ℝ)) L := if_pos h
      have e2 : ω ∈ {ω | ε < u ω ∧ ∀ a, 0 < N ω a} := h
      simp only [Set.mem_union, Set.mem_inter_iff, Set.mem_compl_iff, e2, not_true, true_and, false_and, or_false]
      rw [Set.mem_ofPred_eq, Set.mem_ofPred_eq, e1]
    · have e1 : playList argsort L ε (N ω) (S ω) (u ω) (c ω) = c ω := if_neg h
      have e2 : ω ∉ {ω | ε < u ω ∧ ∀ a, 0 < N ω a} := h
      simp only [Set.mem_union, Set.mem_inter_iff, Set.mem_compl_iff, e2, not_false_eq_true, true_and, false_and,
        false_or]
      rw [Set.mem_ofPred_eq, Set.mem_ofPred_eq, e1]
  rw [e]
  exact (hcond.inter htop).union (hcond.compl.inter (hc l))

theorem measurable_frontAction {Ω : Type} {m : MeasurableSpace Ω} {n : ℕ} (hn : 0 < n) {G : Ω → List ℕ}
    (hG : ∀ l, MeasurableSet {ω | G ω = l}) : Measurable fun ω => frontAction hn (G ω) := by
  refine measurable_to_countable' fun a => ?_
  have e : (fun ω => frontAction hn (G ω)) ⁻¹' {a} = ⋃ l ∈ {l : List ℕ | frontAction hn l = a}, {ω | G ω = l} := by
    ext ω; simp
  rw [e]
  exact MeasurableSet.biUnion (Set.to_countable _) fun l _ => hG l

namespace BanditWorld

variable {Ω : Type} [mΩ : MeasurableSpace Ω] {P : Measure Ω} {n L : ℕ} (W : BanditWorld P n L)

/-- what is known when the action of round `t` is selected -/
def pastDraws (t : ℕ) : Set Draw := {d | match d with | .rand s => s ≤ t | .choice s => s ≤ t | .rewards s => s < t}

/-- the information in some draws -/
@[reducible] def info (D : Set Draw) : MeasurableSpace Ω := ⨆ d ∈ D, Draw.sigma W.u W.c W.r d

theorem sigma_le (d : Draw) : Draw.sigma W.u W.c W.r d ≤ mΩ := by
  cases d with
  | rand t => exact (W.measurable_u t).comap_le
  | rewards t => exact (W.measurable_r t).comap_le
  | choice t =>
    rintro _ ⟨A, -, rfl⟩
    have e : W.c t ⁻¹' A = ⋃ l ∈ A, {ω | W.c t ω = l} := by ext ω; simp
    rw [e]
    exact MeasurableSet.biUnion (Set.to_countable _) fun l _ => W.measurable_c t l

theorem info_le (D : Set Draw) : W.info D ≤ mΩ := iSup₂_le fun d _ => W.sigma_le d

theorem sigma_le_info {D : Set Draw} {d : Draw} (h : d ∈ D) : Draw.sigma W.u W.c W.r d ≤ W.info D :=
  le_iSup₂_of_le d h le_rfl

theorem info_mono {D E : Set Draw} (h : D ⊆ E) : W.info D ≤ W.info E := biSup_mono h

theorem measurable_u_info {D : Set Draw} {t : ℕ} (h : Draw.rand t ∈ D) : Measurable[W.info D] (W.u t) :=
  measurable_iff_comap_le.2 (W.sigma_le_info h)

theorem measurable_r_info {D : Set Draw} {t : ℕ} (h : Draw.rewards t ∈ D) (a : Fin n) :
    Measurable[W.info D] fun ω => W.r t ω a := by
  have h1 : Measurable[W.info D] (W.r t) := measurable_iff_comap_le.2 (W.sigma_le_info h)
  exact (measurable_pi_apply a).comp h1

theorem measurable_c_info {D : Set Draw} {t : ℕ} (h : Draw.choice t ∈ D) (A : Set (List ℕ)) :
    MeasurableSet[W.info D] {ω | W.c t ω ∈ A} := W.sigma_le_info h _ ⟨A, trivial, rfl⟩

/-- the action of round `t` -/
noncomputable def act (hn : 0 < n) (argsort : List ℝ → List ℕ) (b : ℕ) (ε : ℝ) (t : ℕ) (ω : Ω) : Fin n :=
  playAction hn argsort L b ε (fun i => W.u i ω) (fun i => W.c i ω) (fun i => W.r i ω) t

section
variable (hn : 0 < n) {argsort : List ℝ → List ℕ}
  (hm : ∀ l, MeasurableSet {x : Fin n → ℝ | argsort (List.ofFn x) = l}) (b : ℕ) (ε : ℝ)

include hm in
/-- The action of a round is determined by the past. -/
theorem measurable_act (t : ℕ) : Measurable[W.info (pastDraws t)] (W.act hn argsort b ε t) := by
  induction t using Nat.strong_induction_on with
  | _ t ih =>
    have hle : b * (t / b) ≤ t := Nat.mul_div_le t b
    have hact : ∀ s < t, Measurable[W.info (pastDraws t)] (W.act hn argsort b ε s) := by
      intro s hs
      refine (ih s hs).mono (W.info_mono ?_) le_rfl
      intro d hd
      cases d <;> simp only [pastDraws, Set.mem_ofPred_eq] at hd ⊢ <;> omega
    have hset : ∀ s < t, ∀ a, MeasurableSet[W.info (pastDraws t)] {ω | W.act hn argsort b ε s ω = a} :=
      fun s hs a => hact s hs (measurableSet_singleton a)
    have e : W.act hn argsort b ε t = fun ω => frontAction hn (playList argsort L ε
        (playCount (fun s => W.act hn argsort b ε s ω) (b * (t / b)))
        (playReward (fun s => W.act hn argsort b ε s ω) (fun i => W.r i ω) (b * (t / b))) (W.u t ω) (W.c t ω)) := by
      funext ω
      exact playAction_eq hn argsort L b ε (fun i => W.u i ω) (fun i => W.c i ω) (fun i => W.r i ω) t
    rw [e]
    refine measurable_frontAction hn fun l => measurableSet_playList hm ?_ ?_ ?_ ?_ l
    · intro a
      refine Finset.measurable_fun_sum _ fun s hs => ?_
      have hs' : s < t := lt_of_lt_of_le (Finset.mem_range.1 hs) hle
      exact Measurable.ite (hset s hs' a) measurable_const measurable_const
    · intro a
      refine Finset.measurable_fun_sum _ fun s hs => ?_
      have hs' : s < t := lt_of_lt_of_le (Finset.mem_range.1 hs) hle
      exact Measurable.ite (hset s hs' a) (W.measurable_r_info (by simpa [pastDraws] using hs') a) measurable_const
    · exact W.measurable_u_info (by simp [pastDraws])
    · intro l
      exact W.measurable_c_info (by simp [pastDraws]) {l}

variable [IsProbabilityMeasure P]

/-- Draws are independent of other draws. -/
theorem integral_mul_of_disjoint {D E : Set Draw} (hd : Disjoint D E) {f g : Ω → ℝ} (hf : Measurable[W.info D] f)
    (hg : Measurable[W.info E] g) : ∫ ω, f ω * g ω ∂P = (∫ ω, f ω ∂P) * ∫ ω, g ω ∂P := by
  have hi : Indep (W.info D) (W.info E) P := indep_iSup_of_disjoint W.sigma_le W.independent hd
  have hfg : IndepFun f g P := by
    rw [IndepFun_iff_Indep]
    exact indep_of_indep_of_le_left (indep_of_indep_of_le_right hi hg.comap_le) hf.comap_le
  exact hfg.integral_fun_mul_eq_mul_integral (hf.mono (W.info_le D) le_rfl).aestronglyMeasurable
    (hg.mono (W.info_le E) le_rfl).aestronglyMeasurable

theorem integral_r (t : ℕ) (a : Fin n) : ∫ ω, W.r t ω a ∂P = W.mean a :=
  ((W.stationary t).comp (measurable_pi_apply a)).integral_eq

include hm in
/-- The rewards observed with an action average out. -/
theorem ae_rewards (a : Fin n) :
    ∀ᵐ ω ∂P, Tendsto (fun T : ℕ => (∑ t ∈ Finset.range T,
      if W.act hn argsort b ε t ω = a then W.r t ω a - W.mean a else 0) / (T : ℝ)) atTop (𝓝 0) := by
  obtain ⟨B, hB⟩ := W.bounded
  have hact : ∀ t, Measurable (W.act hn argsort b ε t) := fun t =>
    (W.measurable_act hn hm b ε t).mono (W.info_le _) le_rfl
  have hr : ∀ t, Measurable fun ω => W.r t ω a := fun t => (measurable_pi_apply a).comp (W.measurable_r t)
  have hint : ∀ t, Integrable (fun ω => W.r t ω a) P := fun t =>
    Integrable.of_bound (hr t).aestronglyMeasurable B (Eventually.of_forall fun ω => hB t ω a)
  refine ae_tendsto_average_zero (B := B + |W.mean a|) ?_ ?_ ?_
  · intro t
    exact Measurable.ite (hact t (measurableSet_singleton a)) ((hr t).sub_const _) measurable_const
  · intro t ω
    split
    · exact (abs_sub _ _).trans (by linarith [hB t ω a])
    · rw [abs_zero]
      linarith [(abs_nonneg _).trans (hB t ω a), abs_nonneg (W.mean a)]
  · intro s t hst
    have hpast : Measurable[W.info (pastDraws t)] fun ω =>
        (if W.act hn argsort b ε s ω = a then W.r s ω a - W.mean a else 0) *
          (if W.act hn argsort b ε t ω = a then (1 : ℝ) else 0) := by
      have h1 : Measurable[W.info (pastDraws t)] (W.act hn argsort b ε s) := by
        refine (W.measurable_act hn hm b ε s).mono (W.info_mono ?_) le_rfl
        intro d hd
        cases d <;> simp only [pastDraws, Set.mem_ofPred_eq] at hd ⊢ <;> omega
      have h2 := W.measurable_act hn hm b ε t
      refine Measurable.mul (Measurable.ite (h1 (measurableSet_singleton a)) ?_ measurable_const)
        (Measurable.ite (h2 (measurableSet_singleton a)) measurable_const measurable_const)
      exact (W.measurable_r_info (D := pastDraws t) (by simpa [pastDraws] using hst) a).sub_const _
    have hnow : Measurable[W.info {Draw.rewards t}] fun ω => W.r t ω a - W.mean a :=
      (W.measurable_r_info (D := {Draw.rewards t}) rfl a).sub_const _
    have hd : Disjoint (pastDraws t) {Draw.rewards t} := by
      rw [Set.disjoint_singleton_right]
      simp [pastDraws]
    have hz : ∫ ω, (W.r t ω a - W.mean a) ∂P = 0 := by
      rw [integral_sub (hint t) (integrable_const _), W.integral_r t a]
      simp
    have := W.integral_mul_of_disjoint hd hpast hnow
    rw [hz, mul_zero] at this
    refine Eq.trans (integral_congr_ae (Eventually.of_forall fun ω => ?_)) this
    show _ * (if W.act hn argsort b ε t ω = a then W.r t ω a - W.mean a else 0) =
      _ * (if W.act hn argsort b ε t ω = a then (1 : ℝ) else 0) * (W.r t ω a - W.mean a)
    by_cases h : W.act hn argsort b ε t ω = a
    · rw [if_pos h, if_pos h, mul_one]
    · rw [if_neg h, if_neg h, mul_zero, zero_mul]

/-- Random lists put each action in front with its frequency. -/
theorem ae_explore {ε : ℝ} (h0 : 0 ≤ ε) (h1 : ε ≤ 1) (a : Fin n) :
    ∀ᵐ ω ∂P, Tendsto (fun T : ℕ => exploreCount ε (fun i => W.u i ω) (fun i => W.c i ω) T a / (T : ℝ)) atTop
      (𝓝 (ε / n)) := by
  have hset : ∀ t, MeasurableSet[W.info {Draw.rand t, Draw.choice t}]
      {ω | W.u t ω ≤ ε ∧ (W.c t ω).head? = some a.val} := by
    intro t
    have hA : MeasurableSet[W.info {Draw.rand t, Draw.choice t}] {ω | W.u t ω ≤ ε} :=
      W.measurable_u_info (D := {Draw.rand t, Draw.choice t}) (by simp) measurableSet_Iic
    exact hA.inter (W.measurable_c_info (D := {Draw.rand t, Draw.choice t}) (by simp) {l | l.head? = some a.val})
  have hmeas : ∀ t, Measurable[W.info {Draw.rand t, Draw.choice t}] fun ω =>
      (if W.u t ω ≤ ε ∧ (W.c t ω).head? = some a.val then (1 : ℝ) else 0) - ε / n := by
    intro t
    exact (Measurable.ite (hset t) measurable_const measurable_const).sub_const _
  have hprob : ∀ t, ∫ ω, ((if W.u t ω ≤ ε ∧ (W.c t ω).head? = some a.val then (1 : ℝ) else 0) - ε / n) ∂P = 0 := by
    intro t
    have hd : Disjoint ({Draw.rand t} : Set Draw) {Draw.choice t} := by simp
    have hu : MeasurableSet[W.info {Draw.rand t}] {ω | W.u t ω ≤ ε} :=
      W.measurable_u_info (D := {Draw.rand t}) rfl measurableSet_Iic
    have hc : MeasurableSet[W.info {Draw.choice t}] {ω | (W.c t ω).head? = some a.val} :=
      W.measurable_c_info (D := {Draw.choice t}) (t := t) rfl {l | l.head? = some a.val}
    have hprod := W.integral_mul_of_disjoint hd
      (f := fun ω => if W.u t ω ≤ ε then (1 : ℝ) else 0)
      (g := fun ω => if (W.c t ω).head? = some a.val then (1 : ℝ) else 0)
      (Measurable.ite hu measurable_const measurable_const) (Measurable.ite hc measurable_const measurable_const)
    have hind : ∀ (p : Ω → Prop) [DecidablePred p], MeasurableSet {ω | p ω} →
        ∫ ω, (if p ω then (1 : ℝ) else 0) ∂P = P.real {ω | p ω} := by
      intro p _ hp
      rw [← integral_indicator_one hp]
      refine integral_congr_ae (Eventually.of_forall fun ω => ?_)
      by_cases h : p ω <;> simp [Set.indicator, h]
    rw [hind _ (W.info_le _ _ hu), hind _ (W.info_le _ _ hc), W.uniform_u t ε h0 h1] at hprod
    have hc' : P.real {ω | (W.c t ω).head? = some a.val} = 1 / n := W.uniform_c t a
    rw [hc'] at hprod
    rw [integral_sub]
    · have : ∀ ω, (if W.u t ω ≤ ε ∧ (W.c t ω).head? = some a.val then (1 : ℝ) else 0) =
          (if W.u t ω ≤ ε then (1 : ℝ) else 0) * (if (W.c t ω).head? = some a.val then (1 : ℝ) else 0) := by
        intro ω
        by_cases h : W.u t ω ≤ ε <;> simp [h]
      simp only [this]
      rw [hprod]
      simp
      ring
    · refine Integrable.of_bound (C := 1) (Measurable.ite (W.info_le _ _ (hset t)) measurable_const
        measurable_const).aestronglyMeasurable (Eventually.of_forall fun ω => ?_)
      split <;> simp
    · exact integrable_const _
  have hmain := ae_tendsto_average_zero (P := P)
    (D := fun t ω => (if W.u t ω ≤ ε ∧ (W.c t ω).head? = some a.val then (1 : ℝ) else 0) - ε / n)
    (fun t => (hmeas t).mono (W.info_le _) le_rfl) (B := 1 + ε / n) (by
      intro t ω
      have hp : 0 ≤ ε / n := by positivity
      split
      · rw [abs_le]; constructor <;> linarith
      · rw [abs_le]; constructor <;> linarith) (by
      intro s t hst
      have hd : Disjoint ({Draw.rand s, Draw.choice s} : Set Draw) {Draw.rand t, Draw.choice t} := by
        simp [hst.ne']
      rw [W.integral_mul_of_disjoint hd (hmeas s) (hmeas t), hprob s, zero_mul])
  filter_upwards [hmain] with ω hω
  have h2 := hω.add_const (ε / (n : ℝ))
  rw [zero_add] at h2
  refine h2.congr' ?_
  filter_upwards [eventually_gt_atTop 0] with T hT0
  have hT' : (T : ℝ) ≠ 0 := by exact_mod_cast hT0.ne'
  rw [Finset.sum_sub_distrib, exploreCount]
  simp only [Finset.sum_const, Finset.card_range, nsmul_eq_mul]
  rw [sub_div, mul_div_cancel_left₀ _ hT']
  ring

end

end BanditWorld

end Obp
