import Verif.Spec.ExploreWorld
import Verif.Lemmas.CtxPlay

set_option linter.unusedSectionVars false

/-! # `LinEpsilonGreedy` in `BanditPolicySimulator` -/

namespace Obp
open Matrix MeasureTheory ProbabilityTheory
open scoped ENNReal NNReal

variable {n d : ℕ} {R : Type}

/-- the predicted reward of an action, given its data -/
noncomputable def linScore (D : List ((Fin d → ℝ) × ℝ)) (x : Fin d → ℝ) : ℝ := x ⬝ᵥ ((gram D)⁻¹ *ᵥ moment D)

/-- the action with the largest prediction for context `x`, given observations `h` -/
noncomputable def greedyPick (hn : 0 < n) (argsort : List ℝ → List ℕ) (L : ℕ) (h : List (ℤ × (Fin d → ℝ) × ℝ))
    (x : Fin d → ℝ) : Fin n :=
  frontAction hn (topRanking argsort (List.ofFn fun a : Fin n => linScore (dataOf h a) x) L)

open Classical in
/-- the rule of `LinEpsilonGreedy` -/
noncomputable def explorePick (hn : 0 < n) (argsort : List ℝ → List ℕ) (L : ℕ) (ε : ℝ) (x : ℕ → Fin d → ℝ) (u : ℕ → ℝ)
    (c : ℕ → List ℕ) (t : ℕ) (h : List (ℤ × (Fin d → ℝ) × ℝ)) : Fin n :=
  if ε < u t then greedyPick hn argsort L h (x t) else frontAction hn (c t)

theorem greedyPick_best (hn : 0 < n) {argsort : List ℝ → List ℕ} (ha : IsArgsort argsort) {L : ℕ} (hL0 : 0 < L) (hL : L ≤ n)
    (h : List (ℤ × (Fin d → ℝ) × ℝ)) (x : Fin d → ℝ) (a : Fin n) :
    linScore (dataOf h a) x ≤ linScore (dataOf h (greedyPick hn argsort L h x)) x :=
  front_best hn ha hL0 hL (fun a => linScore (dataOf h a) x) a

/-- The simulator with `LinEpsilonGreedy`. -/
theorem simRun_explore {cfg : CfConfig} (hn : 0 < cfg.nActions) (hL0 : 0 < cfg.lenList) (hL : cfg.lenList ≤ cfg.nActions)
    {argsort : List ℝ → List ℕ} (ha : IsArgsort argsort) (ops : GaussRng ℕ) (ε : ℝ)
    (u : ℕ → ℝ) (c : ℕ → List ℕ) (hc : ∀ t, IsRanking cfg.nActions cfg.lenList (c t))
    (hu : ∀ i, ops.rand i = (u i, i + 1)) (hch : ∀ i n k, ops.choice i n k = (c (i - 1), i)) (h0 : ops.seeded = 0)
    (x : ℕ → Fin d → ℝ) (r : ℕ → Fin cfg.nActions → ℝ) (T : ℕ) :
    ∃ s, simRun (linPolicy ops argsort cfg (.egreedy ε)) (LinState.init ops.toRng cfg.nActions d)
        (simSteps (linRounds x r T)) = .ok s ∧
      LinInv cfg.batchSize (ctxHist (explorePick hn argsort cfg.lenList ε x u c) cfg.batchSize x r T) s.policy ∧
      s.selected = (List.range T).map
        (fun t => ((ctxAction (explorePick hn argsort cfg.lenList ε x u c) cfg.batchSize x r t).val : ℤ)) ∧
      s.total = ∑ t ∈ Finset.range T, r t (ctxAction (explorePick hn argsort cfg.lenList ε x u c) cfg.batchSize x r t) := by
  have hsel : ∀ t h (s : LinState ℕ cfg.nActions d), LinInv cfg.batchSize h s → s.rng = t →
      ∃ rest s', (LinClass.egreedy ε).select ops argsort cfg.lenList s [x t] =
          (.ok ((explorePick hn argsort cfg.lenList ε x u c t (completed cfg.batchSize h)).val :: rest), s') ∧
        LinInv cfg.batchSize h s' ∧ s'.rng = t + 1 := by
    intro t h s hi hr
    simp only [LinClass.select, linEgreedySelect, List.length_singleton, ne_eq, not_true, if_false, hu, hr]
    by_cases hε : ε < u t
    · rw [if_pos hε]
      have hscore : rowScores [x t] (List.ofFn s.theta) =
          List.ofFn fun a : Fin cfg.nActions => linScore (dataOf (completed cfg.batchSize h) a) (x t) := by
        simp only [rowScores, List.flatMap_cons, List.flatMap_nil, List.append_nil, List.map_ofFn]
        congr 1
        funext a
        simp only [Function.comp, LinState.theta, linScore]
        rw [eq_gram_inv (hi.inv a), hi.b a]
      obtain ⟨rest, hrest⟩ := frontAction_spec hn hL0 (topRanking_isTop ha
        (fun a : Fin cfg.nActions => linScore (dataOf (completed cfg.batchSize h) a) (x t)) hL).toIsRanking
      refine ⟨rest, { s with thetaHat := s.theta, rng := t + 1 }, ?_, ⟨hi.nTrial, hi.invTemp, hi.bTemp, hi.inv, hi.b⟩, rfl⟩
      rw [explorePick, if_pos hε]
      congr 2
      exact (congrArg (fun l => topRanking argsort l cfg.lenList) hscore).trans hrest
    · rw [if_neg hε]
      obtain ⟨rest, hrest⟩ := frontAction_spec hn hL0 (hc t)
      refine ⟨rest, { s with rng := t + 1 }, ?_, ⟨hi.nTrial, hi.invTemp, hi.bTemp, hi.inv, hi.b⟩, rfl⟩
      rw [explorePick, if_neg hε, ← hrest]
      show (Except.ok (ops.choice (t + 1) cfg.nActions cfg.lenList).1,
        ({ s with rng := (ops.choice (t + 1) cfg.nActions cfg.lenList).2 } : LinState ℕ cfg.nActions d)) = _
      rw [hch, Nat.add_sub_cancel]
  obtain ⟨s, h1, h2, -, h4, h5⟩ := simRun_ctx ops argsort (.egreedy ε) (explorePick hn argsort cfg.lenList ε x u c) x r
    (fun t => t) h0 hsel T
  exact ⟨s, h1, h2, h4, h5⟩

/-! ### What is random -/

namespace ExploreWorld

variable {Ω : Type} [mΩ : MeasurableSpace Ω] {P : Measure Ω} {L : ℕ} (W : ExploreWorld P n L)

/-- what is known when round `t` starts -/
def before (t : ℕ) : Set Draw := {d | match d with | .rand s => s < t | .choice s => s < t | .rewards s => s < t}

/-- what is known when the action of round `t` has been selected -/
def played (t : ℕ) : Set Draw := {d | match d with | .rand s => s ≤ t | .choice s => s ≤ t | .rewards s => s < t}

/-- the information in some draws -/
@[reducible] def info (D : Set Draw) : MeasurableSpace Ω := ⨆ d ∈ D, Draw.sigma W.u W.c W.r d

theorem sigma_le (d : Draw) : Draw.sigma W.u W.c W.r d ≤ mΩ := by
  cases d with
  | rand t => exact (W.measurable_u t).comap_le
  | rewards t => exact (W.measurable_r t).comap_le
  | choice t =>
    rintro _ ⟨A, -, rfl⟩
    have e : W.c t ⁻¹' A = ⋃ l ∈ A, {ω | W.c t ω = l} := by ext ω; simp
    rw [e]
    exact MeasurableSet.biUnion (Set.to_countable _) fun l _ => W.measurable_c t l

theorem info_le (D : Set Draw) : W.info D ≤ mΩ := iSup₂_le fun d _ => W.sigma_le d

theorem sigma_le_info {D : Set Draw} {d : Draw} (h : d ∈ D) : Draw.sigma W.u W.c W.r d ≤ W.info D :=
  le_iSup₂_of_le d h le_rfl

theorem info_mono {D E : Set Draw} (h : D ⊆ E) : W.info D ≤ W.info E := biSup_mono h

theorem measurable_u_info {D : Set Draw} {t : ℕ} (h : Draw.rand t ∈ D) : Measurable[W.info D] (W.u t) :=
  measurable_iff_comap_le.2 (W.sigma_le_info h)

theorem measurable_r_info {D : Set Draw} {t : ℕ} (h : Draw.rewards t ∈ D) (a : Fin n) :
    Measurable[W.info D] fun ω => W.r t ω a := by
  have h1 : Measurable[W.info D] (W.r t) := measurable_iff_comap_le.2 (W.sigma_le_info h)
  exact (measurable_pi_apply a).comp h1

theorem measurable_c_info {D : Set Draw} {t : ℕ} (h : Draw.choice t ∈ D) (A : Set (List ℕ)) :
    MeasurableSet[W.info D] {ω | W.c t ω ∈ A} := W.sigma_le_info h _ ⟨A, trivial, rfl⟩

theorem before_played (t : ℕ) : before t ⊆ played t := by
  intro d hd
  cases d <;> simp only [before, played, Set.mem_ofPred_eq] at hd ⊢ <;> omega

theorem played_before {s t : ℕ} (h : s < t) : played s ⊆ before t := by
  intro d hd
  cases d <;> simp only [before, played, Set.mem_ofPred_eq] at hd ⊢ <;> omega

theorem played_mono : Monotone played := by
  intro s t h d hd
  cases d <;> simp only [played, Set.mem_ofPred_eq] at hd ⊢ <;> omega

section
variable [IsProbabilityMeasure P]

/-- Draws are independent of other draws. -/
theorem integral_mul_of_disjoint {D E : Set Draw} (hd : Disjoint D E) {f g : Ω → ℝ} (hf : Measurable[W.info D] f)
    (hg : Measurable[W.info E] g) : ∫ ω, f ω * g ω ∂P = (∫ ω, f ω ∂P) * ∫ ω, g ω ∂P := by
  have hi : Indep (W.info D) (W.info E) P := indep_iSup_of_disjoint W.sigma_le W.independent hd
  have hfg : IndepFun f g P := by
    rw [IndepFun_iff_Indep]
    exact indep_of_indep_of_le_left (indep_of_indep_of_le_right hi hg.comap_le) hf.comap_le
  exact hfg.integral_fun_mul_eq_mul_integral (hf.mono (W.info_le D) le_rfl).aestronglyMeasurable
    (hg.mono (W.info_le E) le_rfl).aestronglyMeasurable

theorem integral_ite (p : Ω → Prop) [DecidablePred p] (hp : MeasurableSet {ω | p ω}) :
    ∫ ω, (if p ω then (1 : ℝ) else 0) ∂P = P.real {ω | p ω} := by
  rw [← integral_indicator_one hp]
  refine integral_congr_ae (Filter.Eventually.of_forall fun ω => ?_)
  by_cases h : p ω <;> simp [Set.indicator, h]

/-- a round explores with action `a` -/
def Explores (ε : ℝ) (t : ℕ) (a : Fin n) (ω : Ω) : Prop := W.u t ω ≤ ε ∧ (W.c t ω).head? = some a.val

theorem measurable_explores (ε : ℝ) (t : ℕ) (a : Fin n) :
    MeasurableSet[W.info {Draw.rand t, Draw.choice t}] {ω | W.Explores ε t a ω} := by
  have hA : MeasurableSet[W.info {Draw.rand t, Draw.choice t}] {ω | W.u t ω ≤ ε} :=
    W.measurable_u_info (D := {Draw.rand t, Draw.choice t}) (by simp) measurableSet_Iic
  exact hA.inter (W.measurable_c_info (D := {Draw.rand t, Draw.choice t}) (by simp) {l | l.head? = some a.val})

theorem prob_explores {ε : ℝ} (h0 : 0 ≤ ε) (h1 : ε ≤ 1) (t : ℕ) (a : Fin n) : P.real {ω | W.Explores ε t a ω} = ε / n := by
  classical
  have hd : Disjoint ({Draw.rand t} : Set Draw) {Draw.choice t} := by simp
  have hu : MeasurableSet[W.info {Draw.rand t}] {ω | W.u t ω ≤ ε} :=
    W.measurable_u_info (D := {Draw.rand t}) rfl measurableSet_Iic
  have hc : MeasurableSet[W.info {Draw.choice t}] {ω | (W.c t ω).head? = some a.val} :=
    W.measurable_c_info (D := {Draw.choice t}) (t := t) rfl {l | l.head? = some a.val}
  have hprod := W.integral_mul_of_disjoint hd
    (f := fun ω => if W.u t ω ≤ ε then (1 : ℝ) else 0)
    (g := fun ω => if (W.c t ω).head? = some a.val then (1 : ℝ) else 0)
    (Measurable.ite hu measurable_const measurable_const) (Measurable.ite hc measurable_const measurable_const)
  rw [integral_ite _ (W.info_le _ _ hu), integral_ite _ (W.info_le _ _ hc), W.uniform_u t ε h0 h1] at hprod
  have hc' : P.real {ω | (W.c t ω).head? = some a.val} = 1 / n := W.uniform_c t a
  rw [hc'] at hprod
  rw [← integral_ite (fun ω => W.Explores ε t a ω) (W.info_le _ _ (W.measurable_explores ε t a))]
  have : ∀ ω, (if W.Explores ε t a ω then (1 : ℝ) else 0) =
      (if W.u t ω ≤ ε then (1 : ℝ) else 0) * (if (W.c t ω).head? = some a.val then (1 : ℝ) else 0) := by
    intro ω
    by_cases h : W.u t ω ≤ ε <;> simp [Explores, h]
  simp only [this]
  rw [hprod]
  ring

end

section
variable (hn : 0 < n) (argsort : List ℝ → List ℕ) (b : ℕ) (ε : ℝ) (x : ℕ → Fin d → ℝ)

/-- the rule of the experiment -/
noncomputable abbrev pick (ω : Ω) : ℕ → List (ℤ × (Fin d → ℝ) × ℝ) → Fin n :=
  explorePick hn argsort L ε x (fun t => W.u t ω) (fun t => W.c t ω)

/-- the action of round `t` -/
noncomputable def act (t : ℕ) (ω : Ω) : Fin n :=
  ctxAction (W.pick hn argsort ε x ω) b x (fun s => W.r s ω) t

/-- the greedy action of round `t` -/
noncomputable def greedy (t : ℕ) (ω : Ω) : Fin n :=
  greedyPick hn argsort L (completed b (ctxHist (W.pick hn argsort ε x ω) b x (fun s => W.r s ω) t)) (x t)

/-- the squared bonus of an action in round `t` -/
noncomputable def bonus (a : Fin n) (t : ℕ) (ω : Ω) : ℝ := ctxQuad (W.pick hn argsort ε x ω) b x (fun s => W.r s ω) a t

theorem act_exploit {t : ℕ} {ω : Ω} (h : ε < W.u t ω) : W.act hn argsort b ε x t ω = W.greedy hn argsort b ε x t ω := if_pos h

theorem act_explore {t : ℕ} {a : Fin n} {ω : Ω} (h : W.Explores ε t a ω) : W.act hn argsort b ε x t ω = a := by
  refine (if_neg (not_lt.2 h.1)).trans ?_
  simp [frontAction, h.2]

theorem dataOf_act (a : Fin n) (t : ℕ) (ω : Ω) :
    dataOf (ctxHist (W.pick hn argsort ε x ω) b x (fun s => W.r s ω) t) a =
      pickData x (fun s => W.act hn argsort b ε x s ω = a) (fun s => W.r s ω a) t := dataOf_ctxHist _ _ _ _ _ _

variable {argsort} (hm : ∀ l, MeasurableSet {x : Fin n → ℝ | argsort (List.ofFn x) = l})

include hm in
theorem measurable_greedy_of {t : ℕ} (hact : ∀ s < t, Measurable[W.info (before t)] (W.act hn argsort b ε x s)) :
    Measurable[W.info (before t)] (W.greedy hn argsort b ε x t) := by
  have hle : b * (t / b) ≤ t := Nat.mul_div_le t b
  set k := b * (t / b) with hk
  have hset : ∀ a, ∀ s < k, MeasurableSet[W.info (before t)] {ω | W.act hn argsort b ε x s ω = a} := fun a s hs =>
    (hact s (hs.trans_le hle)) (measurableSet_singleton a)
  have hrew : ∀ a, ∀ s < k, Measurable[W.info (before t)] (fun ω => W.r s ω a) := fun a s hs =>
    W.measurable_r_info (by simpa [before] using hs.trans_le hle) a
  set score : Ω → Fin n → ℝ := fun ω a => linScore (pickData x
    (fun s => W.act hn argsort b ε x s ω = a) (fun s => W.r s ω a) k) (x t) with hscore
  have hsm : Measurable[W.info (before t)] score := by
    refine @measurable_pi_lambda _ _ _ (W.info (before t)) _ _ fun a => ?_
    exact measurable_pickLin (m := W.info (before t)) x (hset a) (hrew a) (x t)
  have e : W.greedy hn argsort b ε x t = fun ω => frontAction hn (topRanking argsort (List.ofFn (score ω)) L) := by
    funext ω
    unfold greedy greedyPick
    rw [completed_ctxHist, ← hk]
    simp only [dataOf_act, hscore]
  rw [e]
  refine measurable_frontAction (m := W.info (before t)) hn fun l => ?_
  have e : {ω | topRanking argsort (List.ofFn (score ω)) L = l} =
      ⋃ l' ∈ {l' : List ℕ | l'.reverse.take L = l}, score ⁻¹' {x | argsort (List.ofFn x) = l'} := by
    ext ω; simp [topRanking]
  rw [e]
  exact MeasurableSet.biUnion (Set.to_countable _) fun l' _ => hsm (hm l')

include hm in
/-- The action of a round depends on what has happened. -/
theorem measurable_act (t : ℕ) : Measurable[W.info (played t)] (W.act hn argsort b ε x t) := by
  induction t using Nat.strong_induction_on with
  | _ t ih =>
    have hg := (W.measurable_greedy_of hn b ε x hm (t := t) fun s hs =>
      (ih s hs).mono (W.info_mono (played_before hs)) le_rfl).mono (W.info_mono (before_played t)) le_rfl
    have hu : MeasurableSet[W.info (played t)] {ω | ε < W.u t ω} :=
      W.measurable_u_info (D := played t) (by simp [played]) measurableSet_Ioi
    have hf : Measurable[W.info (played t)] fun ω => frontAction hn (W.c t ω) :=
      measurable_frontAction (m := W.info (played t)) hn fun l => W.measurable_c_info (by simp [played]) {l}
    have e : W.act hn argsort b ε x t = fun ω =>
        if ε < W.u t ω then W.greedy hn argsort b ε x t ω else frontAction hn (W.c t ω) := by
      funext ω
      by_cases h : ε < W.u t ω
      · rw [if_pos h, W.act_exploit hn argsort b ε x h]
      · rw [if_neg h]
        exact if_neg h
    rw [e]
    exact Measurable.ite hu hg hf

include hm in
theorem measurable_greedy (t : ℕ) : Measurable[W.info (before t)] (W.greedy hn argsort b ε x t) :=
  W.measurable_greedy_of hn b ε x hm fun s hs =>
    (W.measurable_act hn b ε x hm s).mono (W.info_mono (played_before hs)) le_rfl

include hm in
theorem measurable_bonus (a : Fin n) (t : ℕ) : Measurable[W.info (before t)] (W.bonus hn argsort b ε x a t) := by
  have hle : b * (t / b) ≤ t := Nat.mul_div_le t b
  have e : W.bonus hn argsort b ε x a t = fun ω => quad (pickData x
      (fun s => W.act hn argsort b ε x s ω = a) (fun s => W.r s ω a) (b * (t / b))) (x t) := by
    funext ω
    unfold bonus ctxQuad
    rw [completed_ctxHist, dataOf_act]
  rw [e]
  refine measurable_pickQuad (m := W.info (before t)) x (y := fun s ω => W.r s ω a) (fun s hs => ?_) (x t)
  exact ((W.measurable_act hn b ε x hm s).mono (W.info_mono (played_before (hs.trans_le hle))) le_rfl)
    (measurableSet_singleton a)

theorem adaptive {σ : ℝ≥0} {θ : Fin d → ℝ} (a : Fin n) (hsub : ∀ t, HasSubgaussianMGF (fun ω => W.r t ω a - x t ⬝ᵥ θ) (σ ^ 2) P) :
    Adaptive P (fun t => W.info (played t)) (fun t ω => W.r t ω a - x t ⬝ᵥ θ) σ where
  le t := W.info_le _
  mono s t h := W.info_mono (played_mono h)
  noise t := (W.measurable_r_info (by simp [played]) a).sub_const _
  indep t := by
    have hd : Disjoint (played t) {Draw.rewards t} := by
      rw [Set.disjoint_singleton_right]
      simp [played]
    have hi : Indep (W.info (played t)) (W.info {Draw.rewards t}) P := indep_iSup_of_disjoint W.sigma_le W.independent hd
    refine indep_of_indep_of_le_right hi ?_
    have : Measurable[W.info {Draw.rewards t}] fun ω => W.r t ω a - x t ⬝ᵥ θ :=
      (W.measurable_r_info (D := {Draw.rewards t}) rfl a).sub_const _
    exact this.comap_le
  sub := hsub

end

end ExploreWorld

end Obp
