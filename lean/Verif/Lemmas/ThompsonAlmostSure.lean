import Verif.Lemmas.ThompsonPlay
import Verif.Lemmas.BanditAlmostSure

set_option linter.unusedSectionVars false

/-! # `BernoulliTS` in a stationary environment: what holds almost surely -/

namespace Obp
open MeasureTheory ProbabilityTheory Filter Topology

/-- how often an action has been played with reward one before round `T` -/
noncomputable def playWins {n : ℕ} (act : ℕ → Fin n) (r : ℕ → Fin n → ℝ) (T : ℕ) (a : Fin n) : ℕ := by
  classical exact ∑ t ∈ Finset.range T, if act t = a ∧ r t a = 1 then 1 else 0

theorem playReward_eq_wins {n : ℕ} (act : ℕ → Fin n) {r : ℕ → Fin n → ℝ} (hr : ∀ t a, r t a = 0 ∨ r t a = 1) (T : ℕ) :
    playReward act r T = fun a => (playWins act r T a : ℝ) := by
  funext a
  rw [playReward, playWins, Nat.cast_sum]
  refine Finset.sum_congr rfl fun t _ => ?_
  by_cases h : act t = a
  · rcases hr t a with h' | h' <;> simp [h, h']
  · simp [h]

theorem playWins_le {n : ℕ} (act : ℕ → Fin n) (r : ℕ → Fin n → ℝ) (T : ℕ) (a : Fin n) :
    playWins act r T a ≤ playCount act T a := by
  rw [playWins, playCount]
  refine Finset.sum_le_sum fun t _ => ?_
  by_cases h : act t = a
  · rw [if_pos h]; split <;> omega
  · rw [if_neg (fun hc => h hc.1), if_neg h]

namespace ThompsonWorld

variable {Ω : Type} [mΩ : MeasurableSpace Ω] {P : Measure Ω} {n : ℕ} (W : ThompsonWorld P n)

/-- what is known before the action of round `t` is drawn -/
def before (t : ℕ) : Set TsDraw := {d | match d with | .beta s _ => s < t | .rewards s => s < t}

/-- what is known when the action of round `t` has been drawn -/
def known (t : ℕ) : Set TsDraw := {d | match d with | .beta s _ => s ≤ t | .rewards s => s < t}

/-- the draws for the action of round `t` -/
def fresh (t : ℕ) : Set TsDraw := {d | match d with | .beta s _ => s = t | .rewards _ => False}

theorem before_disjoint (t : ℕ) : Disjoint (before t) (fresh t) := by
  rw [Set.disjoint_left]
  intro d h1 h2
  cases d <;> simp only [before, fresh, Set.mem_ofPred_eq] at h1 h2
  omega

theorem known_disjoint (t : ℕ) : Disjoint (known t) {TsDraw.rewards t} := by
  rw [Set.disjoint_singleton_right]
  simp [known]

theorem before_subset (t : ℕ) : before t ⊆ known t := by
  intro d h
  cases d <;> simp only [before, known, Set.mem_ofPred_eq] at h ⊢ <;> omega

theorem fresh_subset (t : ℕ) : fresh t ⊆ known t := by
  intro d h
  cases d <;> simp only [fresh, known, Set.mem_ofPred_eq] at h ⊢
  omega

theorem known_subset {s t : ℕ} (h : s < t) : known s ⊆ before t := by
  intro d hd
  cases d <;> simp only [before, known, Set.mem_ofPred_eq] at hd ⊢ <;> omega

theorem known_mono {s t : ℕ} (h : s ≤ t) : known s ⊆ known t := by
  intro d hd
  cases d <;> simp only [known, Set.mem_ofPred_eq] at hd ⊢ <;> omega

/-- the information in some draws -/
@[reducible] def info (D : Set TsDraw) : MeasurableSpace Ω := ⨆ d ∈ D, TsDraw.sigma W.θ W.r d

theorem sigma_le (d : TsDraw) : TsDraw.sigma W.θ W.r d ≤ mΩ := by
  cases d with
  | beta t a => exact (W.measurable_θ t a).comap_le
  | rewards t => exact (W.measurable_r t).comap_le

theorem info_le (D : Set TsDraw) : W.info D ≤ mΩ := iSup₂_le fun d _ => W.sigma_le d

theorem sigma_le_info {D : Set TsDraw} {d : TsDraw} (h : d ∈ D) : TsDraw.sigma W.θ W.r d ≤ W.info D :=
  le_iSup₂_of_le d h le_rfl

theorem info_mono {D E : Set TsDraw} (h : D ⊆ E) : W.info D ≤ W.info E := biSup_mono h

theorem info_indep {D E : Set TsDraw} (h : Disjoint D E) : Indep (W.info D) (W.info E) P :=
  indep_iSup_of_disjoint W.sigma_le W.independent h

theorem measurable_θ_info {D : Set TsDraw} {t x : ℕ} (h : TsDraw.beta t x ∈ D) (p : ℝ × ℝ) :
    Measurable[W.info D] fun ω => W.θ t x ω p := by
  have h1 : Measurable[W.info D] (W.θ t x) := measurable_iff_comap_le.2 (W.sigma_le_info h)
  exact (measurable_pi_apply p).comp h1

theorem measurable_r_info {D : Set TsDraw} {t : ℕ} (h : TsDraw.rewards t ∈ D) (a : Fin n) :
    Measurable[W.info D] fun ω => W.r t ω a := by
  have h1 : Measurable[W.info D] (W.r t) := measurable_iff_comap_le.2 (W.sigma_le_info h)
  exact (measurable_pi_apply a).comp h1

section
variable (hn : 0 < n) (argsort : List ℝ → List ℕ) (L b : ℕ) (α β : Fin n → ℝ)

/-- the action of round `t` -/
noncomputable def act (t : ℕ) (ω : Ω) : Fin n :=
  tsAction hn argsort L b α β (fun i x => W.θ i x.val ω) (fun i => W.r i ω) t

/-- the action that the draws of round `t` select, given counts of plays and wins -/
noncomputable def sel (t : ℕ) (v : (Fin n → ℕ) × (Fin n → ℕ)) (ω : Ω) : Fin n :=
  tsFront hn argsort L (fun x => W.θ t x.val ω) α β v.1 (fun a => (v.2 a : ℝ))

/-- the counts of plays and wins that the policy uses in round `t` -/
noncomputable def counts (t : ℕ) (ω : Ω) : (Fin n → ℕ) × (Fin n → ℕ) :=
  (playCount (fun i => W.act hn argsort L b α β i ω) (b * (t / b)),
    playWins (fun i => W.act hn argsort L b α β i ω) (fun i => W.r i ω) (b * (t / b)))

theorem act_eq_sel (t : ℕ) (ω : Ω) :
    W.act hn argsort L b α β t ω = W.sel hn argsort L α β t (W.counts hn argsort L b α β t ω) ω := by
  have h := tsAction_eq hn argsort L b α β (fun i x => W.θ i x.val ω) (fun i => W.r i ω) t
  rw [playReward_eq_wins _ (fun t a => W.binary t ω a)] at h
  exact h

/-- the values that the counts can take -/
noncomputable def countRange (n t : ℕ) : Finset ((Fin n → ℕ) × (Fin n → ℕ)) :=
  Fintype.piFinset (fun _ => Finset.range (t + 1)) ×ˢ Fintype.piFinset (fun _ => Finset.range (t + 1))

theorem counts_mem (t : ℕ) (ω : Ω) : W.counts hn argsort L b α β t ω ∈ countRange n t := by
  have hle : b * (t / b) ≤ t := Nat.mul_div_le t b
  rw [countRange, Finset.mem_product, Fintype.mem_piFinset, Fintype.mem_piFinset]
  refine ⟨fun a => ?_, fun a => ?_⟩
  · have := playCount_le (fun i => W.act hn argsort L b α β i ω) (b * (t / b)) a
    rw [Finset.mem_range]
    show playCount _ _ a < _
    omega
  · have h1 := playCount_le (fun i => W.act hn argsort L b α β i ω) (b * (t / b)) a
    have h2 := playWins_le (fun i => W.act hn argsort L b α β i ω) (fun i => W.r i ω) (b * (t / b)) a
    rw [Finset.mem_range]
    show playWins _ _ _ a < _
    omega

variable (hm : ∀ l, MeasurableSet {x : Fin n → ℝ | argsort (List.ofFn x) = l})

include hm in
/-- What the draws of a round select is determined by these draws. -/
theorem measurable_sel (t : ℕ) (v : (Fin n → ℕ) × (Fin n → ℕ)) :
    Measurable[W.info (fresh t)] (W.sel hn argsort L α β t v) := by
  have hx := @measurable_pi_lambda Ω (Fin n) (fun _ => ℝ) (W.info (fresh t)) _
    (fun ω a => W.θ t a.val ω ((v.2 a : ℝ) + α a, ((v.1 a : ℝ) - (v.2 a : ℝ)) + β a))
    (fun a => W.measurable_θ_info (D := fresh t) (by simp [fresh]) _)
  refine measurable_frontAction (m := W.info (fresh t)) hn fun l => ?_
  have e : {ω | topRanking argsort (List.ofFn fun a : Fin n =>
      W.θ t a.val ω ((v.2 a : ℝ) + α a, ((v.1 a : ℝ) - (v.2 a : ℝ)) + β a)) L = l} =
      ⋃ l' ∈ {l' : List ℕ | l'.reverse.take L = l},
        (fun ω => fun a : Fin n => W.θ t a.val ω ((v.2 a : ℝ) + α a, ((v.1 a : ℝ) - (v.2 a : ℝ)) + β a)) ⁻¹'
          {x | argsort (List.ofFn x) = l'} := by
    ext ω; simp [topRanking]
  show MeasurableSet[W.info (fresh t)] {ω | topRanking argsort (List.ofFn fun a : Fin n =>
      W.θ t a.val ω ((v.2 a : ℝ) + α a, ((v.1 a : ℝ) - (v.2 a : ℝ)) + β a)) L = l}
  rw [e]
  exact MeasurableSet.biUnion (Set.to_countable _) fun l' _ => hx (hm l')

/-- The counts used in a round are determined by the past, if past actions are. -/
theorem measurable_counts_aux (t : ℕ)
    (hact : ∀ s < t, Measurable[W.info (before t)] (W.act hn argsort L b α β s)) (v : (Fin n → ℕ) × (Fin n → ℕ)) :
    MeasurableSet[W.info (before t)] {ω | W.counts hn argsort L b α β t ω = v} := by
  classical
  have hle : b * (t / b) ≤ t := Nat.mul_div_le t b
  have h1 : ∀ a, Measurable[W.info (before t)] fun ω =>
      playCount (fun i => W.act hn argsort L b α β i ω) (b * (t / b)) a := by
    intro a
    refine Finset.measurable_fun_sum _ fun s hs => ?_
    have hs' : s < t := lt_of_lt_of_le (Finset.mem_range.1 hs) hle
    exact Measurable.ite (hact s hs' (measurableSet_singleton a)) measurable_const measurable_const
  have h2 : ∀ a, Measurable[W.info (before t)] fun ω =>
      playWins (fun i => W.act hn argsort L b α β i ω) (fun i => W.r i ω) (b * (t / b)) a := by
    intro a
    refine Finset.measurable_fun_sum _ fun s hs => ?_
    have hs' : s < t := lt_of_lt_of_le (Finset.mem_range.1 hs) hle
    have hA : MeasurableSet[W.info (before t)] {ω | W.act hn argsort L b α β s ω = a} :=
      hact s hs' (measurableSet_singleton a)
    have hB : MeasurableSet[W.info (before t)] {ω | W.r s ω a = 1} :=
      W.measurable_r_info (D := before t) (by simpa [before] using hs') a (measurableSet_singleton 1)
    exact Measurable.ite (hA.inter hB) measurable_const measurable_const
  have e : {ω | W.counts hn argsort L b α β t ω = v} =
      (⋂ a, {ω | playCount (fun i => W.act hn argsort L b α β i ω) (b * (t / b)) a = v.1 a}) ∩
      ⋂ a, {ω | playWins (fun i => W.act hn argsort L b α β i ω) (fun i => W.r i ω) (b * (t / b)) a = v.2 a} := by
    ext ω
    simp only [Set.mem_inter_iff, Set.mem_iInter, Set.mem_ofPred_eq, counts, Prod.ext_iff, funext_iff]
  rw [e]
  exact (MeasurableSet.iInter fun a => h1 a (measurableSet_singleton _)).inter
    (MeasurableSet.iInter fun a => h2 a (measurableSet_singleton _))

include hm in
/-- The action of a round is determined by what is known. -/
theorem measurable_act (t : ℕ) : Measurable[W.info (known t)] (W.act hn argsort L b α β t) := by
  induction t using Nat.strong_induction_on with
  | _ t ih =>
    have hact : ∀ s < t, Measurable[W.info (before t)] (W.act hn argsort L b α β s) := fun s hs =>
      (ih s hs).mono (W.info_mono (known_subset hs)) le_rfl
    have hc := W.measurable_counts_aux hn argsort L b α β t hact
    refine @measurable_to_countable' _ _ _ _ (W.info (known t)) _ fun a => ?_
    have e : W.act hn argsort L b α β t ⁻¹' {a} = ⋃ v ∈ (Set.univ : Set ((Fin n → ℕ) × (Fin n → ℕ))),
        {ω | W.counts hn argsort L b α β t ω = v} ∩ {ω | W.sel hn argsort L α β t v ω = a} := by
      ext ω
      simp [act_eq_sel]
    rw [e]
    have hA : ∀ v, MeasurableSet[W.info (known t)] {ω | W.counts hn argsort L b α β t ω = v} := fun v =>
      W.info_mono (before_subset t) _ (hc v)
    have hB : ∀ v, MeasurableSet[W.info (known t)] {ω | W.sel hn argsort L α β t v ω = a} := fun v =>
      W.info_mono (fresh_subset t) _ (W.measurable_sel hn argsort L α β hm t v (measurableSet_singleton a))
    exact MeasurableSet.biUnion (Set.to_countable _) fun v _ => (hA v).inter (hB v)

include hm in
theorem measurable_counts (t : ℕ) (v : (Fin n → ℕ) × (Fin n → ℕ)) :
    MeasurableSet[W.info (before t)] {ω | W.counts hn argsort L b α β t ω = v} :=
  W.measurable_counts_aux hn argsort L b α β t (fun s hs =>
    (W.measurable_act hn argsort L b α β hm s).mono (W.info_mono (known_subset hs)) le_rfl) v

/-- the probability with which the draws of round `t` select an action, given counts of plays and wins -/
noncomputable def selProb (t : ℕ) (v : (Fin n → ℕ) × (Fin n → ℕ)) (a : Fin n) : ℝ :=
  P.real {ω | W.sel hn argsort L α β t v ω = a}

variable [IsProbabilityMeasure P]

include hm in
/-- Actions are played about as often as they are likely to be drawn. -/
theorem ae_plays (a : Fin n) :
    ∀ᵐ ω ∂P, Tendsto (fun T : ℕ => (∑ t ∈ Finset.range T, ((if W.act hn argsort L b α β t ω = a then 1 else 0) -
      W.selProb hn argsort L α β t (W.counts hn argsort L b α β t ω) a)) / (T : ℝ)) atTop (𝓝 0) := by
  set f : ℕ → (Fin n → ℕ) × (Fin n → ℕ) → Ω → ℝ := fun t v ω =>
    (if W.sel hn argsort L α β t v ω = a then 1 else 0) - W.selProb hn argsort L α β t v a with hf
  have hset : ∀ t v, MeasurableSet[W.info (fresh t)] {ω | W.sel hn argsort L α β t v ω = a} := fun t v =>
    W.measurable_sel hn argsort L α β hm t v (measurableSet_singleton a)
  have hfm : ∀ t v, Measurable[W.info (fresh t)] (f t v) := fun t v =>
    (Measurable.ite (hset t v) measurable_const measurable_const).sub_const _
  have hp : ∀ t v, 0 ≤ W.selProb hn argsort L α β t v a ∧ W.selProb hn argsort L α β t v a ≤ 1 := fun t v =>
    ⟨measureReal_nonneg, measureReal_le_one⟩
  have hfb : ∀ t v ω, |f t v ω| ≤ 1 := by
    intro t v ω
    have := hp t v
    simp only [hf]
    split <;> (rw [abs_le]; constructor <;> linarith)
  have hfz : ∀ t v, ∫ ω, f t v ω ∂P = 0 := by
    intro t v
    have hs := W.info_le _ _ (hset t v)
    simp only [hf]
    rw [integral_sub]
    · rw [integral_const, probReal_univ, one_smul, selProb, ← integral_indicator_one hs, sub_eq_zero]
      refine integral_congr_ae (Eventually.of_forall fun ω => ?_)
      by_cases h : W.sel hn argsort L α β t v ω = a <;> simp [Set.indicator, h]
    · refine Integrable.of_bound (C := 1) (Measurable.ite hs measurable_const
        measurable_const).aestronglyMeasurable (Eventually.of_forall fun ω => ?_)
      split <;> simp
    · exact integrable_const _
  have hD : ∀ t ω, (if W.act hn argsort L b α β t ω = a then (1 : ℝ) else 0) -
      W.selProb hn argsort L α β t (W.counts hn argsort L b α β t ω) a = f t (W.counts hn argsort L b α β t ω) ω := by
    intro t ω
    simp only [hf, act_eq_sel]
  simp only [hD]
  have hmeas : ∀ t, Measurable[W.info (known t)] fun ω => f t (W.counts hn argsort L b α β t ω) ω := by
    intro t
    have e : (fun ω => f t (W.counts hn argsort L b α β t ω) ω) = fun ω => ∑ v ∈ countRange n t,
        (if W.counts hn argsort L b α β t ω = v then 1 else 0) * f t v ω := by
      funext ω
      rw [Finset.sum_eq_single (W.counts hn argsort L b α β t ω)]
      · simp
      · intro v _ hv; simp [Ne.symm hv]
      · intro h; exact absurd (W.counts_mem hn argsort L b α β t ω) h
    rw [e]
    refine Finset.measurable_fun_sum _ fun v _ => Measurable.mul (Measurable.ite ?_ measurable_const measurable_const) ?_
    · exact W.info_mono (before_subset t) _ (W.measurable_counts hn argsort L b α β hm t v)
    · exact (hfm t v).mono (W.info_mono (fresh_subset t)) le_rfl
  refine ae_tendsto_average_zero (B := 1) (fun t => (hmeas t).mono (W.info_le _) le_rfl) (fun t ω => hfb t _ ω) ?_
  intro s t hst
  exact integral_mul_select (W.info_le (before t)) (W.info_le (fresh t)) (W.info_indep (before_disjoint t))
    (W.counts_mem hn argsort L b α β t) (W.measurable_counts hn argsort L b α β hm t)
    ((hmeas s).mono (W.info_mono (known_subset hst)) le_rfl) (fun ω => hfb s _ ω) (hfm t) (fun v ω => hfb t v ω) (hfz t)

theorem mean_mem (a : Fin n) : 0 ≤ W.mean a ∧ W.mean a ≤ 1 := by
  have hr : Measurable fun ω => W.r 0 ω a := (measurable_pi_apply a).comp (W.measurable_r 0)
  have hint : Integrable (fun ω => W.r 0 ω a) P :=
    Integrable.of_bound hr.aestronglyMeasurable 1 (Eventually.of_forall fun ω => by
      rcases W.binary 0 ω a with h | h <;> simp [h])
  constructor
  · exact integral_nonneg fun ω => by rcases W.binary 0 ω a with h | h <;> simp [h]
  · calc W.mean a ≤ ∫ _, (1 : ℝ) ∂P := integral_mono hint (integrable_const _) fun ω => by
          rcases W.binary 0 ω a with h | h <;> simp [h]
      _ = 1 := by simp

include hm in
/-- The rewards of an action that is played again and again average out. -/
theorem ae_rewards (a : Fin n) :
    ∀ᵐ ω ∂P, Tendsto (fun T => playCount (fun i => W.act hn argsort L b α β i ω) T a) atTop atTop →
      Tendsto (fun T => (∑ t ∈ Finset.range T, if W.act hn argsort L b α β t ω = a then W.r t ω a - W.mean a else 0) /
        (playCount (fun i => W.act hn argsort L b α β i ω) T a : ℝ)) atTop (𝓝 0) := by
  have hr : ∀ t, Measurable fun ω => W.r t ω a := fun t => (measurable_pi_apply a).comp (W.measurable_r t)
  have hint : ∀ t, Integrable (fun ω => W.r t ω a) P := fun t =>
    Integrable.of_bound (hr t).aestronglyMeasurable 1 (Eventually.of_forall fun ω => by
      rcases W.binary t ω a with h | h <;> simp [h])
  have hmean := W.mean_mem a
  refine ae_average_per_play (ℱ := fun t => W.info (known t)) (x := fun t ω => W.r t ω a - W.mean a) (B := 1)
    (fun t => W.info_le _) ?_ ?_ (fun t => (hr t).sub_const _) ?_ ?_ a
  · intro s t hst
    exact (W.measurable_act hn argsort L b α β hm s).mono (W.info_mono (known_mono hst)) le_rfl
  · intro s t hst
    exact (W.measurable_r_info (D := known t) (by simpa [known] using hst) a).sub_const _
  · intro t ω
    rcases W.binary t ω a with h | h <;> (rw [h, abs_le]; constructor <;> linarith)
  · intro t g C hg _
    have hnow : Measurable[W.info {TsDraw.rewards t}] fun ω => W.r t ω a - W.mean a :=
      (W.measurable_r_info (D := {TsDraw.rewards t}) rfl a).sub_const _
    have hfg : IndepFun g (fun ω => W.r t ω a - W.mean a) P := by
      rw [IndepFun_iff_Indep]
      exact indep_of_indep_of_le_left (indep_of_indep_of_le_right (W.info_indep (known_disjoint t)) hnow.comap_le)
        hg.comap_le
    rw [hfg.integral_fun_mul_eq_mul_integral (hg.mono (W.info_le _) le_rfl).aestronglyMeasurable
      (hnow.mono (W.info_le _) le_rfl).aestronglyMeasurable]
    have hz : ∫ ω, (W.r t ω a - W.mean a) ∂P = 0 := by
      have hst : ∫ ω, W.r t ω a ∂P = W.mean a := ((W.stationary t).comp (measurable_pi_apply a)).integral_eq
      rw [integral_sub (hint t) (integrable_const _), hst]
      simp
    rw [hz, mul_zero]

variable {argsort L α β} (ha : IsArgsort argsort) (hL0 : 0 < L) (hL : L ≤ n)

theorem beta_prob (t : ℕ) (x : Fin n) {p q : ℝ} (hp : 0 < p) (hq : 0 < q) {S : Set ℝ} (hS : MeasurableSet S) :
    P {ω | W.θ t x.val ω (p, q) ∈ S} = betaMeasure p q S := by
  have hmeas : Measurable fun ω => W.θ t x.val ω (p, q) := (measurable_pi_apply (p, q)).comp (W.measurable_θ t x.val)
  rw [← W.beta_θ t x.val p q hp hq, Measure.map_apply hmeas hS]
  rfl

include ha hL0 hL in
/-- An action is selected at least as likely as it is drawn above a level and all others below. -/
theorem selProb_lower (t : ℕ) (v : (Fin n → ℕ) × (Fin n → ℕ)) (a : Fin n) (x : ℝ)
    (hA : ∀ j, 0 < (v.2 j : ℝ) + α j) (hB : ∀ j, 0 < ((v.1 j : ℝ) - (v.2 j : ℝ)) + β j) :
    (betaMeasure ((v.2 a : ℝ) + α a) (((v.1 a : ℝ) - (v.2 a : ℝ)) + β a)).real (Set.Ioi x) *
      ∏ j ∈ Finset.univ.erase a, (betaMeasure ((v.2 j : ℝ) + α j) (((v.1 j : ℝ) - (v.2 j : ℝ)) + β j)).real (Set.Iio x) ≤
      W.selProb hn argsort L α β t v a := by
  set S : Fin n → Set ℝ := fun j => if j = a then Set.Ioi x else Set.Iio x with hS
  have hSm : ∀ j, MeasurableSet (S j) := by
    intro j; simp only [hS]; split
    · exact measurableSet_Ioi
    · exact measurableSet_Iio
  set E : Fin n → Set Ω := fun j =>
    {ω | W.θ t j.val ω ((v.2 j : ℝ) + α j, ((v.1 j : ℝ) - (v.2 j : ℝ)) + β j) ∈ S j} with hE
  have hinj : Function.Injective fun j : Fin n => TsDraw.beta t j.val := by
    intro i j h
    simp only [TsDraw.beta.injEq, true_and] at h
    exact Fin.ext h
  have hind := W.independent.precomp hinj
  have hprod : P (⋂ j, E j) = ∏ j, P (E j) := by
    refine hind.meas_iInter fun j => ?_
    have h1 : Measurable[TsDraw.sigma W.θ W.r (.beta t j.val)] (W.θ t j.val) := comap_measurable _
    exact ((measurable_pi_apply _).comp h1) (hSm j)
  have hval : ∀ j, P.real (E j) = (betaMeasure ((v.2 j : ℝ) + α j) (((v.1 j : ℝ) - (v.2 j : ℝ)) + β j)).real (S j) := by
    intro j
    rw [Measure.real, Measure.real, ← W.beta_prob t j (hA j) (hB j) (hSm j)]
  have hleft : (betaMeasure ((v.2 a : ℝ) + α a) (((v.1 a : ℝ) - (v.2 a : ℝ)) + β a)).real (Set.Ioi x) *
      ∏ j ∈ Finset.univ.erase a, (betaMeasure ((v.2 j : ℝ) + α j) (((v.1 j : ℝ) - (v.2 j : ℝ)) + β j)).real (Set.Iio x) =
      P.real (⋂ j, E j) := by
    rw [show P.real (⋂ j, E j) = (P (⋂ j, E j)).toReal from rfl, hprod, ENNReal.toReal_prod, ← Finset.mul_prod_erase _ _ (Finset.mem_univ a)]
    congr 1
    · have := hval a
      simp only [hS, if_true] at this
      exact this.symm
    · refine Finset.prod_congr rfl fun j hj => ?_
      have := hval j
      simp only [hS, if_neg (Finset.ne_of_mem_erase hj)] at this
      exact this.symm
  rw [hleft, selProb]
  refine measureReal_mono fun ω hω => ?_
  rw [Set.mem_iInter] at hω
  by_contra hne
  have hmax := tsFront_max hn ha hL0 hL
    (fun j : Fin n => W.θ t j.val ω ((v.2 j : ℝ) + α j, ((v.1 j : ℝ) - (v.2 j : ℝ)) + β j)) a
  have hne' : W.sel hn argsort L α β t v ω ≠ a := hne
  have h1 := hω a
  have h2 := hω (W.sel hn argsort L α β t v ω)
  simp only [hE, hS, Set.mem_ofPred_eq, if_true, Set.mem_Ioi] at h1
  simp only [hE, hS, Set.mem_ofPred_eq, if_neg hne', Set.mem_Iio] at h2
  have h3 : W.θ t a.val ω ((v.2 a : ℝ) + α a, ((v.1 a : ℝ) - (v.2 a : ℝ)) + β a) ≤
    W.θ t (W.sel hn argsort L α β t v ω).val ω ((v.2 (W.sel hn argsort L α β t v ω) : ℝ) +
      α (W.sel hn argsort L α β t v ω), ((v.1 (W.sel hn argsort L α β t v ω) : ℝ) -
        (v.2 (W.sel hn argsort L α β t v ω) : ℝ)) + β (W.sel hn argsort L α β t v ω)) := hmax
  linarith

include ha hL0 hL in
/-- An action can only be selected if it is drawn high or another one is drawn low. -/
theorem selProb_upper (t : ℕ) (v : (Fin n → ℕ) × (Fin n → ℕ)) (a j : Fin n) (x : ℝ)
    (hA : ∀ j, 0 < (v.2 j : ℝ) + α j) (hB : ∀ j, 0 < ((v.1 j : ℝ) - (v.2 j : ℝ)) + β j) :
    W.selProb hn argsort L α β t v a ≤
      (betaMeasure ((v.2 a : ℝ) + α a) (((v.1 a : ℝ) - (v.2 a : ℝ)) + β a)).real (Set.Ici x) +
      (betaMeasure ((v.2 j : ℝ) + α j) (((v.1 j : ℝ) - (v.2 j : ℝ)) + β j)).real (Set.Iic x) := by
  have h1 : P.real {ω | W.θ t a.val ω ((v.2 a : ℝ) + α a, ((v.1 a : ℝ) - (v.2 a : ℝ)) + β a) ∈ Set.Ici x} =
      (betaMeasure ((v.2 a : ℝ) + α a) (((v.1 a : ℝ) - (v.2 a : ℝ)) + β a)).real (Set.Ici x) := by
    rw [Measure.real, Measure.real, ← W.beta_prob t a (hA a) (hB a) measurableSet_Ici]
  have h2 : P.real {ω | W.θ t j.val ω ((v.2 j : ℝ) + α j, ((v.1 j : ℝ) - (v.2 j : ℝ)) + β j) ∈ Set.Iic x} =
      (betaMeasure ((v.2 j : ℝ) + α j) (((v.1 j : ℝ) - (v.2 j : ℝ)) + β j)).real (Set.Iic x) := by
    rw [Measure.real, Measure.real, ← W.beta_prob t j (hA j) (hB j) measurableSet_Iic]
  rw [← h1, ← h2, selProb]
  refine (measureReal_mono fun ω hω => ?_).trans (measureReal_union_le _ _)
  have hmax := tsFront_max hn ha hL0 hL
    (fun j : Fin n => W.θ t j.val ω ((v.2 j : ℝ) + α j, ((v.1 j : ℝ) - (v.2 j : ℝ)) + β j)) j
  have hω' : frontAction hn (topRanking argsort (List.ofFn fun j : Fin n =>
      W.θ t j.val ω ((v.2 j : ℝ) + α j, ((v.1 j : ℝ) - (v.2 j : ℝ)) + β j)) L) = a := hω
  rw [hω'] at hmax
  rw [Set.mem_union]
  by_contra hno
  push Not at hno
  have h3 : ¬ x ≤ W.θ t a.val ω ((v.2 a : ℝ) + α a, ((v.1 a : ℝ) - (v.2 a : ℝ)) + β a) := hno.1
  have h4 : ¬ W.θ t j.val ω ((v.2 j : ℝ) + α j, ((v.1 j : ℝ) - (v.2 j : ℝ)) + β j) ≤ x := hno.2
  linarith [not_le.1 h3, not_le.1 h4]

end

end ThompsonWorld

end Obp
