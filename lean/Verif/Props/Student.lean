import Verif.Lemmas.Student
import Verif.Props.Tails

set_option linter.unusedSectionVars false

/-!
# Student's lower bound and SLOPE on growing logs

C192 and C193. `tq k p` stands for `scipy.stats.t(k).ppf(p)`. What is used of these quantiles is that they tend to the quantile `z`
of the standard normal distribution as the number `k` of degrees of freedom grows.
-/

namespace Obp
open MeasureTheory ProbabilityTheory Filter Topology Log LogStream

theorem student_value {n : ℕ} (hn : 2 ≤ n) (tq : ℝ → ℝ → ℝ) (x : Fin n → ℝ) {delta : ℝ} (h0 : 0 ≤ delta) (h1 : delta ≤ 1) :
    estimateStudentTLowerBound tq (List.ofFn x) delta = .ok (avg x - √(popVar x / (n - 1)) * tq (n - 1) (1 - delta)) := by
  have h2 : (2 : ℝ) ≤ n := by exact_mod_cast hn
  have hn1 : (n : ℝ) - 1 ≠ 0 := by
    intro h
    linarith
  have hsq : ¬ popVar x / ((n : ℝ) - 1) < 0 := not_lt.2 (div_nonneg (popVar_nonneg x) (by linarith))
  unfold estimateStudentTLowerBound
  rw [checkDelta_ok.2 ⟨h0, h1⟩, py_bind_ok, npVar_ofFn (by omega), py_bind_ok, List.length_ofFn, npDiv_ok hn1, py_bind_ok, npSqrt,
    if_neg hsq, py_bind_ok, npMean_ofFn (by omega), py_bind_ok]
  rfl

section sample
variable {Ω : Type} [MeasurableSpace Ω] {P : Measure Ω} [IsProbabilityMeasure P]

theorem student_results {S : Type} [MeasurableSpace S] {Z : ℕ → Ω → S} (hZ : Iid P Z) {F : S → ℝ} (hF : Measurable F)
    (h2 : MemLp (fun ω => F (Z 0 ω)) 2 P) {v : ℝ} (hm : ∫ ω, F (Z 0 ω) ∂P = v) (hpos : Var[fun ω => F (Z 0 ω); P] ≠ 0)
    {tq : ℝ → ℝ → ℝ} {delta z : ℝ} (h0 : 0 ≤ delta) (h1 : delta ≤ 1) (htq : Tendsto (fun n : ℕ => tq (n - 1) (1 - delta)) atTop (𝓝 z))
    (hz : (gaussianReal 0 1).real (Set.Iic z) = 1 - delta) {r : ℕ → Ω → Py ℝ}
    (hr : ∀ᵐ ω ∂P, ∀ n, 0 < n → r n ω = estimateStudentTLowerBound tq (List.ofFn fun i : Fin n => F (Z i ω)) delta) :
    Tendsto (fun n => P.real {ω | ∃ lb, r n ω = .ok lb ∧ lb ≤ v}) atTop (𝓝 (1 - delta)) := by
  have hl := student_limit hZ hF h2 hm hpos htq
  rw [hz] at hl
  refine hl.congr' ?_
  filter_upwards [eventually_ge_atTop 2] with n hn
  refine measureReal_congr ?_
  filter_upwards [hr] with ω hω
  refine propext (?_ : (_ ≤ _) ↔ ∃ lb, r n ω = .ok lb ∧ lb ≤ v)
  rw [hω n (by omega), student_value hn tq _ h0 h1]
  constructor
  · intro h
    exact ⟨_, rfl, by linarith⟩
  · rintro ⟨lb, h3, h4⟩
    cases h3
    linarith

/-- **C192.** For independent random numbers with the same distribution, which need not be normal or bounded, Student's lower bound of
`n` of them is at most their expected value with a probability that tends to `1 - delta`. -/
theorem C192_student {X : ℕ → Ω → ℝ} (hX : ∀ i, Measurable (X i)) (hind : iIndepFun X P) (hid : ∀ i, IdentDistrib (X i) (X 0) P P)
    (h2 : MemLp (X 0) 2 P) (hpos : Var[X 0; P] ≠ 0) {tq : ℝ → ℝ → ℝ} {delta z : ℝ} (h0 : 0 ≤ delta) (h1 : delta ≤ 1)
    (htq : Tendsto (fun n : ℕ => tq (n - 1) (1 - delta)) atTop (𝓝 z)) (hz : (gaussianReal 0 1).real (Set.Iic z) = 1 - delta) :
    Tendsto (fun n : ℕ => P.real {ω | ∃ lb, estimateStudentTLowerBound tq (List.ofFn fun i : Fin n => X i ω) delta = .ok lb ∧
      lb ≤ ∫ ω, X 0 ω ∂P}) atTop (𝓝 (1 - delta)) :=
  student_results (F := id) ⟨hX, hind, hid⟩ measurable_id h2 rfl hpos h0 h1 htq hz (ae_of_all _ fun _ _ _ => rfl)

/-- **C192.** There is no such guarantee for a given size of the sample: for every `n` and every `delta` below one there are `n`
independent random numbers in `[0, 1]` with the same distribution, of which the bound exceeds the expected value with a probability
above `delta`. -/
theorem C192_not_for_given_size (tq : ℝ → ℝ → ℝ) {n : ℕ} (hn : 2 ≤ n) {delta : ℝ} (h0 : 0 ≤ delta) (h1 : delta < 1) :
    ∃ (P : Measure (Fin n → Bool)) (_ : IsProbabilityMeasure P) (X : Fin n → (Fin n → Bool) → ℝ) (lb : (Fin n → Bool) → ℝ) (v : ℝ),
      (∀ i, Measurable (X i)) ∧ iIndepFun X P ∧ (∀ i j, IdentDistrib (X i) (X j) P P) ∧ (∀ i ω, X i ω ∈ Set.Icc 0 1) ∧
      (∀ i, ∫ ω, X i ω ∂P = v) ∧ (∀ ω, estimateStudentTLowerBound tq (List.ofFn fun i => X i ω) delta = .ok (lb ω)) ∧
      delta < P.real {ω | v < lb ω} := by
  have hn' : (0 : ℝ) < n := by
    have : 0 < n := by omega
    exact_mod_cast this
  obtain ⟨p, hp0, hp1, hpn⟩ : ∃ p : ℝ, 0 ≤ p ∧ p < 1 ∧ delta < p ^ n := by
    have hx0 : 0 < (1 - delta) / (2 * n) := by
      have : 0 < 1 - delta := by linarith
      positivity
    have hx1 : (1 - delta) / (2 * n) ≤ 1 := by
      rw [div_le_one (by positivity)]
      have : (2 : ℝ) ≤ n := by exact_mod_cast hn
      linarith
    refine ⟨1 + -((1 - delta) / (2 * n)), by linarith, by linarith, ?_⟩
    refine lt_of_lt_of_le ?_ (one_add_mul_le_pow (by linarith) n)
    have : (n : ℝ) * -((1 - delta) / (2 * n)) = -((1 - delta) / 2) := by
      field_simp
    rw [this]
    linarith
  let ν : Measure Bool := ENNReal.ofReal p • Measure.dirac true + ENNReal.ofReal (1 - p) • Measure.dirac false
  have hprob : IsProbabilityMeasure ν := ⟨by
    simp only [ν, Measure.add_apply, Measure.smul_apply, measure_univ, smul_eq_mul, mul_one]
    rw [← ENNReal.ofReal_add hp0 (by linarith)]
    simp⟩
  have hν : ν {true} = ENNReal.ofReal p := by
    simp [ν]
  have hX : ∀ i : Fin n, Measurable fun ω : Fin n → Bool => if ω i then (1 : ℝ) else 0 := fun i => measurable_of_finite _
  have hmap : ∀ i : Fin n, (Measure.pi fun _ : Fin n => ν).map (fun ω => ω i) = ν := fun i => by
    rw [Measure.pi_map_eval, Finset.prod_eq_one fun j _ => measure_univ, one_smul]
  have hid : ∀ i : Fin n, IdentDistrib (fun ω : Fin n → Bool => ω i) id (Measure.pi fun _ : Fin n => ν) ν := fun i =>
    ⟨(measurable_pi_apply i).aemeasurable, aemeasurable_id, by rw [hmap, Measure.map_id]⟩
  have hid' : ∀ i : Fin n, IdentDistrib (fun ω : Fin n → Bool => if ω i then (1 : ℝ) else 0) (fun b : Bool => if b then (1 : ℝ) else 0)
      (Measure.pi fun _ : Fin n => ν) ν := fun i => (hid i).comp (u := fun b : Bool => if b then (1 : ℝ) else 0) (measurable_of_finite _)
  refine ⟨Measure.pi fun _ => ν, inferInstance, fun i ω => if ω i then 1 else 0, _, p, hX, ?_, fun i j => (hid' i).trans (hid' j).symm,
    fun i ω => ?_, fun i => ?_, fun ω => student_value hn tq _ h0 h1.le, ?_⟩
  · exact iIndepFun_pi (X := fun _ (b : Bool) => if b then (1 : ℝ) else 0) fun i => (measurable_of_finite _).aemeasurable
  · dsimp only
    split <;> norm_num
  · rw [(hid' i).integral_eq, integral_fintype Integrable.of_finite]
    simp [measureReal_def, hν, ENNReal.toReal_ofReal hp0]
  · have hall : (Measure.pi fun _ : Fin n => ν).real {fun _ => true} = p ^ n := by
      rw [measureReal_def, Measure.pi_singleton]
      simp [hν, ENNReal.toReal_ofReal hp0]
    refine hpn.trans_le (hall.symm.le.trans (measureReal_mono ?_))
    rintro ω rfl
    have hc : avg (fun _ : Fin n => (1 : ℝ)) = 1 := avg_const (by omega) 1
    simp only [Set.mem_ofPred_eq, if_true, popVar, hc, sub_self]
    simpa [avg] using hp1

end sample

variable {Ω C : Type} [MeasurableSpace Ω] [MeasurableSpace C] {A L : ℕ} {P : Measure Ω} [IsProbabilityMeasure P]
variable {s : LogStream Ω C A} {piB m : C → Fin A → ℝ} {pos : C → Fin L} {piE q : C → Fin A → Fin L → ℝ}

theorem bind_rounds {e : Estimator ℝ} {n : ℕ} {g : Log ℝ n A L} (hg : g.Valid) {x : Fin n → ℝ} (hx : roundReward e g = some x)
    {β : Type} (f : List ℝ → Py β) :
    (do
      let r ← e.prepare g.args
      let y ← e.round r
      f y) = f (List.ofFn x) := by
  have h := rounds_eq hg e
  rw [hx] at h
  have hb : (do
      let r ← e.prepare g.args
      let y ← e.round r
      f y) = (do let r ← e.prepare g.args; e.round r) >>= f := by
    cases e.prepare g.args <;> rfl
  rw [hb, h]
  rfl

/-- **C192.** Student's lower bound of the per-round values of (unclipped) inverse propensity weighting is at most the value of the
evaluation policy with a probability that tends to `1 - delta` as the log grows. -/
theorem C192_ipw (hs : s.LoggedBy P piB m) (hE : Covers piB pos piE) {lam : Lam ℝ} (hl : NotClipped lam piB pos piE)
    (h2 : MemLp (s.ipwTerm piB pos piE 0) 2 P) (hpos : Var[s.ipwTerm piB pos piE 0; P] ≠ 0) {tq : ℝ → ℝ → ℝ} {delta z : ℝ}
    (h0 : 0 ≤ delta) (h1 : delta ≤ 1) (htq : Tendsto (fun n : ℕ => tq (n - 1) (1 - delta)) atTop (𝓝 z))
    (hz : (gaussianReal 0 1).real (Set.Iic z) = 1 - delta) :
    Tendsto (fun n => P.real {ω | ∃ lb, (do
        let r ← (⟨.ipw, lam, false⟩ : Estimator ℝ).prepare (s.log piB pos piE q n ω).args
        let x ← (⟨.ipw, lam, false⟩ : Estimator ℝ).round r
        estimateStudentTLowerBound tq x delta) = .ok lb ∧ lb ≤ s.value P pos piE m}) atTop (𝓝 (1 - delta)) := by
  have hF : Measurable fun x : C × Fin A × ℝ => x.2.2 * (piE x.1 x.2.1 (pos x.1) / piB x.1 x.2.1) :=
    (measurable_snd.comp measurable_snd).mul (hs.weightFn_meas hE)
  refine student_results hs.iid hF h2 (hs.ipwTerm_mean hE (h2.integrable one_le_two)) hpos h0 h1 htq hz ?_
  filter_upwards [hs.log_valid (q := q) hE] with ω hω n hn
  exact bind_rounds (hω n hn) (by simp only [roundReward, clip_weight hl]; rfl) _

/-- **C192.** The same for doubly robust estimates (unclipped), with any reward model. -/
theorem C192_dr (hs : s.LoggedBy P piB m) (hE : Covers piB pos piE) (hi : Integrable (s.ipwTerm piB pos piE 0) P)
    (hq : ∀ a, Measurable fun c => q c a (pos c))
    (hqi : ∀ a, Integrable (fun ω => piE (s.ctx 0 ω) a (pos (s.ctx 0 ω)) * q (s.ctx 0 ω) a (pos (s.ctx 0 ω))) P)
    {lam : Lam ℝ} (hl : NotClipped lam piB pos piE)
    (h2 : MemLp (s.drTerm piB pos piE q 0) 2 P) (hpos : Var[s.drTerm piB pos piE q 0; P] ≠ 0) {tq : ℝ → ℝ → ℝ} {delta z : ℝ}
    (h0 : 0 ≤ delta) (h1 : delta ≤ 1) (htq : Tendsto (fun n : ℕ => tq (n - 1) (1 - delta)) atTop (𝓝 z))
    (hz : (gaussianReal 0 1).real (Set.Iic z) = 1 - delta) :
    Tendsto (fun n => P.real {ω | ∃ lb, (do
        let r ← (⟨.dr, lam, false⟩ : Estimator ℝ).prepare (s.log piB pos piE q n ω).args
        let x ← (⟨.dr, lam, false⟩ : Estimator ℝ).round r
        estimateStudentTLowerBound tq x delta) = .ok lb ∧ lb ≤ s.value P pos piE m}) atTop (𝓝 (1 - delta)) := by
  have hqm : Measurable fun x : C × Fin A => q x.1 x.2 (pos x.1) := measurable_from_prod_countable_left hq
  have hF : Measurable fun x : C × Fin A × ℝ => (∑ a, piE x.1 a (pos x.1) * q x.1 a (pos x.1)) +
      piE x.1 x.2.1 (pos x.1) / piB x.1 x.2.1 * (x.2.2 - q x.1 x.2.1 (pos x.1)) := by
    refine Measurable.add ?_ ((hs.weightFn_meas hE).mul ((measurable_snd.comp measurable_snd).sub
      (hqm.comp (measurable_fst.prodMk (measurable_fst.comp measurable_snd)))))
    exact (Finset.measurable_fun_sum _ fun a _ => (hE.meas a).mul (hq a)).comp measurable_fst
  refine student_results hs.iid hF h2 (hs.drTerm_mean hE hi hq hqi) hpos h0 h1 htq hz ?_
  filter_upwards [hs.log_valid (q := q) hE] with ω hω n hn
  refine bind_rounds (hω n hn) ?_ _
  simp only [roundReward, clip_weight hl]
  refine congrArg some (funext fun i => ?_)
  rw [log_modelValue hE]
  rfl

/-! ### SLOPE -/

theorem measurableSet_forall_mem {ι : Type} (T : Finset ι) {p : ι → Ω → Prop} (h : ∀ i ∈ T, MeasurableSet {ω | p i ω}) :
    MeasurableSet {ω | ∀ i ∈ T, p i ω} := by
  have e : {ω | ∀ i ∈ T, p i ω} = ⋂ i ∈ T, {ω | p i ω} := by
    ext ω
    simp
  rw [e]
  exact Finset.measurableSet_biInter T h

theorem one_sub_le_of_ae {B : Set Ω} {p : Ω → Prop} (h : ∀ᵐ ω ∂P, ω ∉ B → p ω) : 1 - P.real B ≤ P.real {ω | p ω} := by
  have h1 : P.real Set.univ ≤ P.real (B ∪ {ω | p ω}) := by
    refine ENNReal.toReal_mono (measure_ne_top _ _) (measure_mono_ae ?_)
    filter_upwards [h] with ω hω _
    by_cases hB : ω ∈ B
    · exact Or.inl hB
    · exact Or.inr (hω hB)
  rw [probReal_univ] at h1
  linarith [measureReal_union_le (μ := P) B {ω | p ω}]

/-- **C193.** `tuning_method="slope"` on growing logs. Let every candidate's estimates have a bias of at most `bias` (the distance
between their mean and the value of the evaluation policy), where candidates of larger variance have a smaller bias, and let `z` be
the normal quantile of level `1 - delta`. Then what a new tuned estimator returns is within `√6 + 3` times the smallest
`bias + z * standard error` of all candidates (with any factor `kappa` above one on the standard error), with a probability of at
least `1 - 2 k delta` in the limit, for `k` candidates. Neither the biases nor the variances are known to the code. -/
theorem C193_slope (hs : s.LoggedBy P piB m) (hE : Covers piB pos piE)
    (hi : Integrable (fun ω => s.weight piB pos piE ω * s.rew 0 ω) P) {t : Tuner} (hk : t.kind.IsTunable)
    (hq : s.ModelOk pos piE q P t.kind) (hest : t.est = false) (hmeth : t.method = .slope) (hbest : t.best = none)
    (hd : 0 ≤ t.delta ∧ t.delta ≤ 1) (hne : t.lambdas ≠ []) (hal : ∀ l ∈ t.lambdas, AllowedLam t.kind l)
    {argsort : List ℝ → List ℕ} (hsort : IsArgsort argsort) {tq : ℝ → ℝ → ℝ} {z : ℝ} (hz0 : 0 < z)
    (htq : Tendsto (fun n : ℕ => tq (n - 1) (1 - t.delta)) atTop (𝓝 z)) (hz : (gaussianReal 0 1).real (Set.Iic z) = 1 - t.delta)
    (h2 : ∀ l ∈ t.lambdas, MemLp (s.tunedTerm piB pos piE q t.kind l 0) 2 P) {bias : Lam ℝ → ℝ}
    (hb : ∀ l ∈ t.lambdas, |∫ ω, s.tunedTerm piB pos piE q t.kind l 0 ω ∂P - s.value P pos piE m| ≤ bias l)
    (hmono : ∀ l ∈ t.lambdas, ∀ l' ∈ t.lambdas,
      Var[s.tunedTerm piB pos piE q t.kind l' 0; P] ≤ Var[s.tunedTerm piB pos piE q t.kind l 0; P] → bias l ≤ bias l')
    {kappa : ℝ} (hkap : 1 < kappa) {ε : ℝ} (hε : 0 < ε) :
    ∀ᶠ n in atTop, 1 - 2 * t.lambdas.length * t.delta - ε <
      P.real {ω | ∃ x, (t.estimatePolicyValue argsort tq (s.log piB pos piE q n ω).args).1 = .ok x ∧ ∀ l ∈ t.lambdas,
        |x - s.value P pos piE m| ≤
          (√6 + 3) * (bias l + kappa * z * √(Var[s.tunedTerm piB pos piE q t.kind l 0; P] / n))} := by
  classical
  set V := s.value P pos piE m
  -- the numbers that are averaged
  let F : Lam ℝ → C × Fin A × ℝ → ℝ := fun l => tunedFn piB pos piE q t.kind l
  let Z : ℕ → Ω → C × Fin A × ℝ := fun i ω => (s.ctx i ω, s.act i ω, s.rew i ω)
  let b : ℕ → ℝ := fun n => tq (n - 1) (1 - t.delta)
  have hZ : Iid P Z := hs.iid
  have hFm : ∀ l, Measurable (F l) := fun l => hs.tunedFn_meas hE hk hq l
  have hFt : ∀ l i ω, F l (Z i ω) = s.tunedTerm piB pos piE q t.kind l i ω := fun l i ω => (tunedTerm_fn t.kind l i ω).symm
  have hF2 : ∀ l ∈ t.lambdas, MemLp (fun ω => F l (Z 0 ω)) 2 P := fun l hl => by simpa only [hFt] using h2 l hl
  have hFv : ∀ l, Var[fun ω => F l (Z 0 ω); P] = Var[s.tunedTerm piB pos piE q t.kind l 0; P] := fun l =>
    congrArg (fun f => Var[f; P]) (funext fun ω => hFt l 0 ω)
  -- what happens on almost every log that is large enough
  let G : ℕ → Ω → Prop := fun n ω =>
    (∀ l ∈ t.lambdas.toFinset, ∀ l' ∈ t.lambdas.toFinset,
      Var[s.tunedTerm piB pos piE q t.kind l 0; P] < Var[s.tunedTerm piB pos piE q t.kind l' 0; P] →
        popVar (fun i : Fin n => F l (Z i ω)) < popVar (fun i : Fin n => F l' (Z i ω))) ∧
    ∀ l ∈ t.lambdas.toFinset, √(popVar (fun i : Fin n => F l (Z i ω)) / (n - 1)) * b n ≤
      kappa * z * √(Var[s.tunedTerm piB pos piE q t.kind l 0; P] / n)
  have hGm : ∀ n, MeasurableSet {ω | G n ω} := fun n => by
    have hp : ∀ l, Measurable fun ω => popVar fun i : Fin n => F l (Z i ω) := fun l => hZ.popVar_meas (hFm l) n
    refine MeasurableSet.inter ?_ ?_
    · refine measurableSet_forall_mem _ fun l _ => measurableSet_forall_mem _ fun l' _ => ?_
      by_cases h : Var[s.tunedTerm piB pos piE q t.kind l 0; P] < Var[s.tunedTerm piB pos piE q t.kind l' 0; P]
      · simpa only [h, true_imp_iff] using measurableSet_lt (hp l) (hp l')
      · simp [h]
    · exact measurableSet_forall_mem _ fun l _ => measurableSet_le ((((hp l).div_const _).sqrt).mul_const _) measurable_const
  have hall : ∀ᵐ ω ∂P, ∀ l ∈ t.lambdas.toFinset, Tendsto (fun n => popVar fun i : Fin n => F l (Z i ω)) atTop
      (𝓝 (Var[s.tunedTerm piB pos piE q t.kind l 0; P])) := by
    rw [Finset.eventually_all]
    intro l hl
    rw [← hFv]
    exact hZ.popVar_lln (hFm l) (hF2 l (List.mem_toFinset.1 hl))
  have hconst : ∀ᵐ ω ∂P, ∀ l ∈ t.lambdas.toFinset, Var[s.tunedTerm piB pos piE q t.kind l 0; P] = 0 →
      ∀ n : ℕ, popVar (fun i : Fin n => F l (Z i ω)) = 0 := by
    rw [Finset.eventually_all]
    intro l hl
    by_cases h0 : Var[s.tunedTerm piB pos piE q t.kind l 0; P] = 0
    · filter_upwards [hZ.constant_of_variance (hFm l) (hF2 l (List.mem_toFinset.1 hl)) (by rw [hFv, h0])] with ω hω _ n
      rcases Nat.eq_zero_or_pos n with rfl | hn
      · simp [popVar, avg]
      · simp [popVar, hω, avg_const hn]
    · exact ae_of_all _ fun ω h => absurd h h0
  have hG : ∀ᵐ ω ∂P, ∀ᶠ n in atTop, G n ω := by
    filter_upwards [hall, hconst] with ω h3 h4
    refine Filter.Eventually.and ?_ ?_
    · rw [eventually_all_finset]
      intro l hl
      rw [eventually_all_finset]
      intro l' hl'
      by_cases h : Var[s.tunedTerm piB pos piE q t.kind l 0; P] < Var[s.tunedTerm piB pos piE q t.kind l' 0; P]
      · filter_upwards [(h3 l hl).eventually_lt (h3 l' hl') h] with n hn _ using hn
      · exact Eventually.of_forall fun n h' => absurd h' h
    · rw [eventually_all_finset]
      intro l hl
      by_cases h0 : Var[s.tunedTerm piB pos piE q t.kind l 0; P] = 0
      · refine Eventually.of_forall fun n => ?_
        rw [h4 l hl h0, h0]
        simp
      · have hv : 0 < Var[s.tunedTerm piB pos piE q t.kind l 0; P] := lt_of_le_of_ne (variance_nonneg _ _) (Ne.symm h0)
        have h5 := scaled_width (h3 l hl) htq
        have h6 : √Var[s.tunedTerm piB pos piE q t.kind l 0; P] * z < kappa * z * √Var[s.tunedTerm piB pos piE q t.kind l 0; P] := by
          have := mul_pos hz0 (Real.sqrt_pos.2 hv)
          nlinarith
        filter_upwards [h5.eventually_lt_const h6, eventually_gt_atTop 0] with n h7 hn
        have hn' : (0 : ℝ) < n := by exact_mod_cast hn
        have hsq : 0 < √(n : ℝ) := Real.sqrt_pos.2 hn'
        refine le_of_mul_le_mul_left ?_ hsq
        rw [Real.sqrt_div hv.le]
        have e : √(n : ℝ) * (kappa * z * (√Var[s.tunedTerm piB pos piE q t.kind l 0; P] / √(n : ℝ))) =
            kappa * z * √Var[s.tunedTerm piB pos piE q t.kind l 0; P] := by
          field_simp
        rw [e]
        exact h7.le
  -- rare events
  have hk0 : (0 : ℝ) < t.lambdas.toFinset.card + 1 := by positivity
  set η := ε / (2 * (t.lambdas.toFinset.card + 1)) with hη
  have hη0 : 0 < η := by positivity
  have hN := (tendsto_not hGm hG).eventually_lt_const (half_pos hε)
  have hM : ∀ᶠ n : ℕ in atTop, ∀ l ∈ t.lambdas.toFinset, P.real {ω | √(popVar (fun i : Fin n => F l (Z i ω)) / (n - 1)) * b n <
      |avg (fun i : Fin n => F l (Z i ω)) - ∫ ω, F l (Z 0 ω) ∂P|} < 2 * t.delta + η := by
    rw [eventually_all_finset]
    intro l hl
    exact student_two_sided hZ (hFm l) (hF2 l (List.mem_toFinset.1 hl)) rfl htq hz hη0
  filter_upwards [hN, hM, htq.eventually_const_lt hz0, eventually_ge_atTop 2] with n h3 h4 h5 hn
  have hsub : ∀ᵐ ω ∂P, ω ∉ ({ω | ¬ G n ω} ∪ ⋃ l ∈ t.lambdas.toFinset, {ω | √(popVar (fun i : Fin n => F l (Z i ω)) / (n - 1)) * b n <
      |avg (fun i : Fin n => F l (Z i ω)) - ∫ ω, F l (Z 0 ω) ∂P|}) →
      ∃ x, (t.estimatePolicyValue argsort tq (s.log piB pos piE q n ω).args).1 = .ok x ∧ ∀ l ∈ t.lambdas,
        |x - V| ≤ (√6 + 3) * (bias l + kappa * z * √(Var[s.tunedTerm piB pos piE q t.kind l 0; P] / n)) := by
    filter_upwards [hs.goodPath hE hi hest hk hq] with ω hgp hω
    simp only [Set.mem_union, Set.mem_iUnion, Set.mem_ofPred_eq, not_or, not_not, not_exists, not_lt] at hω
    obtain ⟨⟨g1, g2⟩, g3⟩ := hω
    have hround : ∀ l ∈ t.lambdas, roundReward (t.base l) (s.log piB pos piE q n ω) = some fun i : Fin n => F l (Z i ω) := by
      intro l hl
      rw [hgp.round hk (hal l hl) n]
      refine congrArg some (funext fun i => ?_)
      rw [tunedTerm_round hE hest hk, hFt]
    obtain ⟨x, h6, h7⟩ := C149_tuned_value hsort hk (fun h => by rw [hest] at h; cases h) hne hmeth hbest hd
      (hgp.valid n (by omega)) hn h5 (s := fun l i => F l (Z i ω)) hround V bias
      (fun l hl => (abs_nonneg _).trans (hb l hl))
      (fun l hl l' hl' hle => by
        by_cases h : Var[s.tunedTerm piB pos piE q t.kind l' 0; P] ≤ Var[s.tunedTerm piB pos piE q t.kind l 0; P]
        · exact hmono l hl l' hl' h
        · exact absurd hle (not_le.2 (g1 l (List.mem_toFinset.2 hl) l' (List.mem_toFinset.2 hl') (not_le.1 h))))
      (fun l hl => by
        have h8 := g3 l (List.mem_toFinset.2 hl)
        have h9 := hb l hl
        simp only [← hFt] at h9
        calc |avg (fun i : Fin n => F l (Z i ω)) - V| = |(avg (fun i : Fin n => F l (Z i ω)) - ∫ ω, F l (Z 0 ω) ∂P) +
              (∫ ω, F l (Z 0 ω) ∂P - V)| := by ring_nf
          _ ≤ _ := (abs_add_le _ _).trans (by linarith))
    refine ⟨x, h6, fun l hl => (h7 l hl).trans ?_⟩
    have h8 := g2 l (List.mem_toFinset.2 hl)
    have : (0 : ℝ) ≤ √6 + 3 := by positivity
    exact mul_le_mul_of_nonneg_left (by linarith) this
  have hbad : P.real ({ω | ¬ G n ω} ∪ ⋃ l ∈ t.lambdas.toFinset, {ω | √(popVar (fun i : Fin n => F l (Z i ω)) / (n - 1)) * b n <
      |avg (fun i : Fin n => F l (Z i ω)) - ∫ ω, F l (Z 0 ω) ∂P|}) < 2 * t.lambdas.length * t.delta + ε := by
    refine lt_of_le_of_lt (measureReal_union_le _ _) ?_
    have h6 := (measureReal_biUnion_finset_le (μ := P) t.lambdas.toFinset fun l =>
      {ω | √(popVar (fun i : Fin n => F l (Z i ω)) / (n - 1)) * b n < |avg (fun i : Fin n => F l (Z i ω)) - ∫ ω, F l (Z 0 ω) ∂P|}).trans
      (Finset.sum_le_sum fun l hl => (h4 l hl).le)
    rw [Finset.sum_const, nsmul_eq_mul] at h6
    have h7 : (t.lambdas.toFinset.card : ℝ) ≤ t.lambdas.length := by exact_mod_cast t.lambdas.toFinset_card_le
    have h8 : (t.lambdas.toFinset.card : ℝ) * η ≤ ε / 2 := by
      rw [hη, ← mul_div_assoc, div_le_div_iff₀ (by positivity) two_pos]
      nlinarith
    have h9 := mul_le_mul_of_nonneg_right h7 hd.1
    linarith
  have hone := one_sub_le_of_ae hsub
  linarith

/-! ### The hypotheses are met -/

/-- Quantiles that tend to 1, the quantile of the standard normal distribution of level `1 - exDelta`. -/
noncomputable def exQuantile (k _ : ℝ) : ℝ := 1 + 1 / (k + 1)

/-- Probability that a standard normal number exceeds 1. -/
noncomputable def exDelta : ℝ := 1 - (gaussianReal 0 1).real (Set.Iic 1)

theorem exQuantile_tendsto (p : ℝ) : Tendsto (fun n : ℕ => exQuantile (n - 1) p) atTop (𝓝 1) := by
  have h : Tendsto (fun n : ℕ => 1 + 1 / (n : ℝ)) atTop (𝓝 (1 + 0)) := tendsto_const_nhds.add tendsto_one_div_atTop_nhds_zero_nat
  rw [add_zero] at h
  refine h.congr fun n => ?_
  simp [exQuantile]

theorem exDelta_unit : 0 ≤ exDelta ∧ exDelta ≤ 1 := by
  unfold exDelta
  have h1 := measureReal_le_one (μ := gaussianReal 0 1) (s := Set.Iic 1)
  have h2 := measureReal_nonneg (μ := gaussianReal 0 1) (s := Set.Iic 1)
  constructor <;> linarith

/-- Inverse propensity weighting in the example. -/
example : Tendsto (fun n => (Measure.infinitePi fun _ : ℕ => exRoundLaw).real {ω | ∃ lb, (do
      let r ← (⟨.ipw, .inf, false⟩ : Estimator ℝ).prepare
        (exStream.log (fun _ _ => 1 / 2) (fun _ => (0 : Fin 1)) exEval (fun _ _ _ => 0) n ω).args
      let x ← (⟨.ipw, .inf, false⟩ : Estimator ℝ).round r
      estimateStudentTLowerBound exQuantile x exDelta) = .ok lb ∧ lb ≤ 19 / 8}) atTop (𝓝 (1 - exDelta)) := by
  rw [← exStream_value]
  refine C192_ipw exStream_logged exEval_covers (fun l h => by cases h)
    (exStream_memLp fun o => exReward o * (exEval o.1 o.2.1 0 / (1 / 2))) ?_ exDelta_unit.1 exDelta_unit.2 (exQuantile_tendsto _)
    (by simp [exDelta])
  refine ne_of_eq_of_ne (exStream_variance fun o => exReward o * (exEval o.1 o.2.1 0 / (1 / 2))) ?_
  simp only [Fintype.sum_prod_type, Fintype.sum_bool, Fin.sum_univ_two]
  norm_num [exEval, exMean, exReward]

/-- Doubly robust with a wrong reward model. -/
example : Tendsto (fun n => (Measure.infinitePi fun _ : ℕ => exRoundLaw).real {ω | ∃ lb, (do
      let r ← (⟨.dr, .inf, false⟩ : Estimator ℝ).prepare
        (exStream.log (fun _ _ => 1 / 2) (fun _ => (0 : Fin 1)) exEval (fun _ _ _ => 7) n ω).args
      let x ← (⟨.dr, .inf, false⟩ : Estimator ℝ).round r
      estimateStudentTLowerBound exQuantile x exDelta) = .ok lb ∧ lb ≤ 19 / 8}) atTop (𝓝 (1 - exDelta)) := by
  rw [← exStream_value]
  refine C192_dr (q := fun _ _ _ => 7) exStream_logged exEval_covers
    ((exStream_memLp fun o => exReward o * (exEval o.1 o.2.1 0 / (1 / 2))).integrable one_le_two) (fun _ => measurable_const)
    (fun a => (exStream_memLp fun o => exEval o.1 a 0 * 7).integrable one_le_two) (fun l h => by cases h)
    (exStream_memLp fun o => (∑ a, exEval o.1 a 0 * 7) + exEval o.1 o.2.1 0 / (1 / 2) * (exReward o - 7)) ?_
    exDelta_unit.1 exDelta_unit.2 (exQuantile_tendsto _) (by simp [exDelta])
  refine ne_of_eq_of_ne
    (exStream_variance fun o => (∑ a, exEval o.1 a 0 * 7) + exEval o.1 o.2.1 0 / (1 / 2) * (exReward o - 7)) ?_
  simp only [Fintype.sum_prod_type, Fintype.sum_bool, Fin.sum_univ_two]
  norm_num [exEval, exMean, exReward]

/-- SLOPE with two candidates: no clipping, which has no bias and the larger variance, and clipping at 1. -/
example {argsort : List ℝ → List ℕ} (hsort : IsArgsort argsort) {ε : ℝ} (hε : 0 < ε) :
    ∀ᶠ n in atTop, 1 - 2 * (2 : ℕ) * exDelta - ε < (Measure.infinitePi fun _ : ℕ => exRoundLaw).real {ω | ∃ x,
      ((⟨.ipw, [.inf, .fin 1], .slope, true, exDelta, false, none⟩ : Tuner).estimatePolicyValue argsort exQuantile
        (exStream.log (fun _ _ => 1 / 2) (fun _ => (0 : Fin 1)) exEval (fun _ _ _ => 0) n ω).args).1 = .ok x ∧
      ∀ l ∈ [Lam.inf, Lam.fin 1], |x - 19 / 8| ≤ (√6 + 3) * (|∫ ω, exStream.tunedTerm (fun _ _ => 1 / 2) (fun _ => (0 : Fin 1)) exEval
          (fun _ _ _ => 0) .ipw l 0 ω ∂(Measure.infinitePi fun _ : ℕ => exRoundLaw) - 19 / 8| +
        2 * 1 * √(Var[exStream.tunedTerm (fun _ _ => 1 / 2) (fun _ => (0 : Fin 1)) exEval (fun _ _ _ => 0) .ipw l 0;
          (Measure.infinitePi fun _ : ℕ => exRoundLaw)] / n))} := by
  have hval : ∫ ω, exStream.tunedTerm (fun _ _ => 1 / 2) (fun _ => (0 : Fin 1)) exEval (fun _ _ _ => 0) .ipw .inf 0 ω
      ∂(Measure.infinitePi fun _ : ℕ => exRoundLaw) = 19 / 8 := by
    refine (exStream_integral fun o => exEval o.1 o.2.1 0 / (1 / 2) * exReward o).trans ?_
    simp only [Fintype.sum_prod_type, Fintype.sum_bool, Fin.sum_univ_two]
    norm_num [exEval, exMean, exReward]
  have hlt : Var[exStream.tunedTerm (fun _ _ => 1 / 2) (fun _ => (0 : Fin 1)) exEval (fun _ _ _ => 0) .ipw (.fin 1) 0;
      (Measure.infinitePi fun _ : ℕ => exRoundLaw)] < Var[exStream.tunedTerm (fun _ _ => 1 / 2) (fun _ => (0 : Fin 1)) exEval
        (fun _ _ _ => 0) .ipw .inf 0; (Measure.infinitePi fun _ : ℕ => exRoundLaw)] := by
    refine lt_of_eq_of_lt (exStream_variance fun o => min (exEval o.1 o.2.1 0 / (1 / 2)) 1 * exReward o)
      (lt_of_lt_of_eq ?_ (exStream_variance fun o => exEval o.1 o.2.1 0 / (1 / 2) * exReward o).symm)
    simp only [Fintype.sum_prod_type, Fintype.sum_bool, Fin.sum_univ_two]
    norm_num [exEval, exMean, exReward]
  have h := C193_slope (q := fun _ _ _ => 0) (t := ⟨.ipw, [.inf, .fin 1], .slope, true, exDelta, false, none⟩)
    (bias := fun l => |∫ ω, exStream.tunedTerm (fun _ _ => 1 / 2) (fun _ => (0 : Fin 1)) exEval
      (fun _ _ _ => 0) .ipw l 0 ω ∂(Measure.infinitePi fun _ : ℕ => exRoundLaw) - 19 / 8|) (kappa := 2) (z := 1)
    exStream_logged exEval_covers (exStream_integrable fun c a => exEval c a 0 / (1 / 2))
    (Or.inl rfl) (fun h => by cases h) rfl rfl rfl exDelta_unit (by simp) (fun l hl => by
      simp only [List.mem_cons, List.not_mem_nil, or_false] at hl
      rcases hl with rfl | rfl <;> simp [AllowedLam]) hsort one_pos (exQuantile_tendsto _) (by simp [exDelta])
    (fun l _ => exStream_memLp fun o => shrunkWeight ⟨.ipw, l, false⟩ (exEval o.1 o.2.1 0 / (1 / 2)) * exReward o)
    (fun l _ => by rw [exStream_value]) (fun l hl l' hl' hle => by
      simp only [List.mem_cons, List.not_mem_nil, or_false] at hl hl'
      rcases hl with rfl | rfl <;> rcases hl' with rfl | rfl
      · exact le_rfl
      · rw [hval]
        simp
      · exact absurd hle (not_le.2 hlt)
      · exact le_rfl) one_lt_two hε
  rw [exStream_value] at h
  exact h

end Obp
