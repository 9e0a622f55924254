import Verif.Lemmas.Bernstein
import Verif.Props.HighConfidence

set_option linter.unusedSectionVars false

/-!
# Coverage of the empirical Bernstein lower bound

C165: `estimate_bernstein_lower_bound` as a confidence bound, and the bound it gives for the value of a policy.
-/

namespace Obp
open MeasureTheory ProbabilityTheory Filter Topology Log LogStream

/-- `np.var` and the sample variance. -/
theorem npVar_pairVar {n : ℕ} (hn : 1 < n) (x : Fin n → ℝ) {v : ℝ} (h : npVar (List.ofFn x) = .ok v) : v / (n - 1) = pairVar x / n := by
  have hn1 : (1 : ℝ) < n := by exact_mod_cast hn
  have hn0 : (n : ℝ) ≠ 0 := by positivity
  have hn' : (n : ℝ) - 1 ≠ 0 := by linarith
  have hne : n ≠ 0 := by omega
  simp only [npVar, npMean, List.length_ofFn, hne, if_false, py_bind_ok, List.map_ofFn, List.sum_ofFn,
    Function.comp_def, Except.ok.injEq] at h
  have h2 : ∑ i, ∑ j, (x i - x j) ^ 2 = 2 * n * ∑ i, (x i - (∑ i, x i) / n) ^ 2 := by
    have e1 : ∀ i j, (x i - x j) ^ 2 = x i ^ 2 + (x j ^ 2 - 2 * (x i * x j)) := fun i j => by ring
    have e2 : ∀ i, (x i - (∑ i, x i) / n) ^ 2 = x i ^ 2 + (((∑ i, x i) / n) ^ 2 - 2 * ((∑ i, x i) / n) * x i) := fun i => by ring
    simp only [e1, e2, Finset.sum_add_distrib, Finset.sum_sub_distrib, Finset.sum_const, Finset.card_univ, Fintype.card_fin,
      nsmul_eq_mul, ← Finset.mul_sum, ← Finset.sum_mul]
    field_simp
    ring
  rw [← h, pairVar, h2]
  generalize ∑ i, (x i - (∑ i, x i) / n) ^ 2 = S
  field_simp

/-- **C165 (partial).** Let the sample be at least two independent random numbers between 0 and `x_max` with the same
distribution. With probability at least `1 - delta` the bound does not exceed the expected value. Missing: samples with negative
numbers, for which it is false (`not_C165_negative`). -/
theorem C165_bernstein_partial {Ω : Type} [MeasurableSpace Ω] {P : Measure Ω} [IsProbabilityMeasure P] {n : ℕ} (hn : 2 ≤ n)
    {X : Fin n → Ω → ℝ} (hm : ∀ i, Measurable (X i)) (hind : iIndepFun X P) (hid : ∀ i j, IdentDistrib (X i) (X j) P P) {xMax : ℝ}
    (hX : ∀ i ω, X i ω ∈ Set.Icc 0 xMax) {delta : ℝ} (h0 : 0 < delta) (h1 : delta ≤ 1) (i₀ : Fin n) :
    ∃ lb : Ω → ℝ, (∀ ω, estimateBernsteinLowerBound (List.ofFn fun i => X i ω) (some xMax) delta = .ok (lb ω)) ∧
      P.real {ω | ∫ ω', X i₀ ω' ∂P < lb ω} ≤ delta := by
  have hn1 : 1 < n := hn
  have hlog : 0 ≤ Real.log (2 / delta) := Real.log_nonneg (by rw [le_div_iff₀ h0]; linarith)
  refine ⟨fun ω => (∑ i, X i ω) / n - 7 * xMax * Real.log (2 / delta) / (3 * (n - 1)) -
      √(2 * Real.log (2 / delta) * (pairVar fun i => X i ω) / n), fun ω => ?_, ?_⟩
  · have hmax : XMaxIs (List.ofFn fun i => X i ω) (some xMax) xMax := by
      refine ⟨rfl, ?_⟩
      intro y hy
      obtain ⟨i, rfl⟩ := List.mem_ofFn.1 hy
      exact (hX i ω).2
    obtain ⟨v, hv, -, e⟩ := C32_bernstein_value (by rw [List.length_ofFn]; exact hn) hmax h0 h1
    rw [e]
    simp only [List.length_ofFn, List.sum_ofFn]
    rw [mul_div_assoc (2 * Real.log (2 / delta)), npVar_pairVar hn1 _ hv, mul_div_assoc (2 * Real.log (2 / delta))]
  · have := empirical_bernstein (v := ∫ ω, X i₀ ω ^ 2 ∂P - (∫ ω, X i₀ ω ∂P) ^ 2) hn1 hm hind hX
      (fun i => (hid i i₀).integral_eq) (fun i => by
        rw [sub_add_cancel]
        exact ((hid i i₀).comp (measurable_id.pow_const 2)).integral_eq) hlog
    refine this.trans (le_of_eq ?_)
    rw [Real.exp_neg, Real.exp_log (by positivity)]
    field_simp

/-- The hypotheses are met, with a sample that is not constant: a hundred fair coins. -/
example : ∃ (P : Measure (Fin 100 → Bool)) (_ : IsProbabilityMeasure P) (X : Fin 100 → (Fin 100 → Bool) → ℝ),
    (∀ i, Measurable (X i)) ∧ iIndepFun X P ∧ (∀ i j, IdentDistrib (X i) (X j) P P) ∧ (∀ i ω, X i ω ∈ Set.Icc 0 1) ∧
    ∀ i, X i (fun _ => true) ≠ X i (fun _ => false) := by
  refine ⟨Measure.pi fun _ => (PMF.uniformOfFintype Bool).toMeasure, inferInstance,
    fun i ω => if ω i then 1 else 0, fun i => ?_, ?_, fun i j => ?_, fun i ω => ?_, fun i => by simp⟩
  · exact (measurable_of_finite fun b : Bool => if b then (1 : ℝ) else 0).comp (measurable_pi_apply i)
  · exact iIndepFun_pi (X := fun _ (b : Bool) => if b then (1 : ℝ) else 0) fun _ => (measurable_of_finite _).aemeasurable
  · have hi : ∀ i : Fin 100, Measure.map (fun ω : Fin 100 → Bool => ω i)
        (Measure.pi fun _ => (PMF.uniformOfFintype Bool).toMeasure) = (PMF.uniformOfFintype Bool).toMeasure := fun i =>
      (measurePreserving_eval (fun _ : Fin 100 => (PMF.uniformOfFintype Bool).toMeasure) i).map_eq
    have : IdentDistrib (fun ω : Fin 100 → Bool => ω i) (fun ω : Fin 100 → Bool => ω j)
        (Measure.pi fun _ => (PMF.uniformOfFintype Bool).toMeasure) (Measure.pi fun _ => (PMF.uniformOfFintype Bool).toMeasure) :=
      ⟨(measurable_pi_apply i).aemeasurable, (measurable_pi_apply j).aemeasurable, (hi i).trans (hi j).symm⟩
    exact this.comp (measurable_of_finite fun b : Bool => if b then (1 : ℝ) else 0)
  · dsimp only
    split <;> norm_num

/-- The bound of two non-positive numbers with `x_max=0` and `delta=0.05`. -/
noncomputable def twoBound (x y : ℝ) : ℝ := (x + y) / 2 - √(2 * Real.log 40 * (((x - (x + y) / 2) ^ 2 + (y - (x + y) / 2) ^ 2) / 2))

theorem bernstein_two {x y : ℝ} (hx : x ≤ 0) (hy : y ≤ 0) : estimateBernsteinLowerBound [x, y] (some 0) (1 / 20) =
    .ok (twoBound x y) := by
  have hlog : 0 ≤ Real.log (40 : ℝ) := Real.log_nonneg (by norm_num)
  have hc : chooseXMax [x, y] (some 0) = .ok 0 := by
    simp [chooseXMax, npMax, raiseIf, not_lt.2 hx, not_lt.2 hy]
  have hd : checkDelta (1 / 20 : ℝ) = .ok () := checkDelta_ok.2 ⟨by norm_num, by norm_num⟩
  have ht : pyDiv (2 : ℝ) (1 / 20) = .ok 40 := by rw [pyDiv, if_neg (by norm_num)]; norm_num
  have hv : npVar [x, y] = .ok (((x - (x + y) / 2) ^ 2 + (y - (x + y) / 2) ^ 2) / 2) := by
    simp [npVar, npMean]
  unfold estimateBernsteinLowerBound
  rw [hc, py_bind_ok, hd, py_bind_ok, ht, py_bind_ok, npDiv_ok (by norm_num), py_bind_ok, hv, py_bind_ok, npDiv_ok (by norm_num),
    py_bind_ok, npSqrt, if_neg (not_lt.2 (by norm_num; positivity)), py_bind_ok]
  simp [npMean, twoBound]
  norm_num

/-- **C165 fails for negative numbers.** The docstring asks for independent bounded numbers only. A sample of two numbers that
are 0 or -1 with equal chances, `x_max=0` and `delta=0.05`: the call succeeds, and the bound exceeds the expected value with
probability at least one quarter. -/
theorem not_C165_negative : ∃ (P : Measure (Fin 2 → Bool)) (_ : IsProbabilityMeasure P) (X : Fin 2 → (Fin 2 → Bool) → ℝ)
    (lb : (Fin 2 → Bool) → ℝ),
    (∀ i, Measurable (X i)) ∧ iIndepFun X P ∧ (∀ i, ∫ ω, X i ω ∂P = -1 / 2) ∧ (∀ i ω, X i ω ∈ Set.Icc (-1) 0) ∧
    (∀ ω, estimateBernsteinLowerBound (List.ofFn fun i => X i ω) (some 0) (1 / 20) = .ok (lb ω)) ∧
    1 / 4 ≤ P.real {ω | -1 / 2 < lb ω} := by
  have hi : ∀ i : Fin 2, Measure.map (fun ω : Fin 2 → Bool => ω i)
      (Measure.pi fun _ => (PMF.uniformOfFintype Bool).toMeasure) = (PMF.uniformOfFintype Bool).toMeasure := fun i =>
    (measurePreserving_eval (fun _ : Fin 2 => (PMF.uniformOfFintype Bool).toMeasure) i).map_eq
  refine ⟨Measure.pi fun _ => (PMF.uniformOfFintype Bool).toMeasure, inferInstance, fun i ω => if ω i then 0 else -1,
    fun ω => twoBound (if ω 0 then 0 else -1) (if ω 1 then 0 else -1), fun i => ?_, ?_, fun i => ?_, fun i ω => ?_, fun ω => ?_, ?_⟩
  rotate_left 4
  · rw [show (List.ofFn fun i : Fin 2 => if ω i then (0 : ℝ) else -1) = [if ω 0 then 0 else -1, if ω 1 then 0 else -1] by
      simp [List.ofFn_succ]]
    exact bernstein_two (by split <;> norm_num) (by split <;> norm_num)
  · have hsub : {fun _ => true} ⊆ {ω : Fin 2 → Bool | -1 / 2 < twoBound (if ω 0 then 0 else -1) (if ω 1 then 0 else -1)} := by
      intro ω hω
      rw [Set.mem_singleton_iff] at hω
      subst hω
      simp [twoBound]
      norm_num
    refine le_trans (le_of_eq ?_) (measureReal_mono hsub)
    rw [measureReal_def, Measure.pi_singleton]
    simp
    norm_num
  · exact (measurable_of_finite fun b : Bool => if b then (0 : ℝ) else -1).comp (measurable_pi_apply i)
  · exact iIndepFun_pi (X := fun _ (b : Bool) => if b then (0 : ℝ) else -1) fun _ => (measurable_of_finite _).aemeasurable
  · have hm := integral_map (μ := Measure.pi fun _ : Fin 2 => (PMF.uniformOfFintype Bool).toMeasure) (φ := fun ω : Fin 2 → Bool => ω i)
      (measurable_pi_apply i).aemeasurable (f := fun b : Bool => if b then (0 : ℝ) else -1)
      (measurable_of_finite _).aestronglyMeasurable
    rw [← hm, hi i, PMF.integral_eq_sum]
    simp
    norm_num
  · dsimp only
    split <;> norm_num

/-- **C165.** High-confidence off-policy evaluation. Let rewards be in `[0, R]` and weights at most `W`. The empirical Bernstein
lower bound of the per-round values of (unclipped) inverse propensity weighting, with `x_max = W * R`, exceeds the value of the
evaluation policy with probability at most `delta`, for every number of rounds from two on. -/
theorem C165_policy_value {Ω C : Type} [MeasurableSpace Ω] [MeasurableSpace C] {A L : ℕ} {P : Measure Ω} [IsProbabilityMeasure P]
    {s : LogStream Ω C A} {piB m : C → Fin A → ℝ} {pos : C → Fin L} {piE q : C → Fin A → Fin L → ℝ}
    (hs : s.LoggedBy P piB m) (hE : Covers piB pos piE) {R W : ℝ} (hR : ∀ i ω, s.rew i ω ∈ Set.Icc 0 R)
    (hW : ∀ c a, piE c a (pos c) / piB c a ≤ W) {n : ℕ} (hn : 2 ≤ n) {delta : ℝ} (h0 : 0 < delta) (h1 : delta ≤ 1) :
    ∃ lb : Ω → ℝ,
      (∀ᵐ ω ∂P, (do
        let r ← (⟨.ipw, .inf, false⟩ : Estimator ℝ).prepare (s.log piB pos piE q n ω).args
        let x ← (⟨.ipw, .inf, false⟩ : Estimator ℝ).round r
        estimateBernsteinLowerBound x (some (W * R)) delta) = .ok (lb ω)) ∧
      P.real {ω | s.value P pos piE m < lb ω} ≤ delta := by
  have hw0 : ∀ c a, 0 ≤ piE c a (pos c) / piB c a := fun c a => div_nonneg ((hE.dist c _).nonneg a) ((hs.piB_dist c).nonneg a)
  have hfm : Measurable fun x : C × Fin A × ℝ => x.2.2 * (piE x.1 x.2.1 (pos x.1) / piB x.1 x.2.1) :=
    (measurable_snd.comp measurable_snd).mul (hs.weightFn_meas hE)
  let X : ℕ → Ω → ℝ := fun i ω => s.rew i ω * (piE (s.ctx i ω) (s.act i ω) (pos (s.ctx i ω)) / piB (s.ctx i ω) (s.act i ω))
  have hXm : ∀ i, Measurable (X i) := fun i =>
    hfm.comp ((hs.ctx_meas i).prodMk ((hs.act_meas i).prodMk (hs.rew_meas i)))
  have hXi : iIndepFun (fun i : Fin n => X i) P := (hs.indep.comp (fun _ => _) fun _ => hfm).precomp Fin.val_injective
  have hXb : ∀ i ω, X i ω ∈ Set.Icc 0 (W * R) := fun i ω =>
    ⟨mul_nonneg (hR i ω).1 (hw0 _ _), by
      rw [mul_comm W]
      exact mul_le_mul (hR i ω).2 (hW _ _) (hw0 _ _) ((hR i ω).1.trans (hR i ω).2)⟩
  have hX0 : Integrable (fun ω => s.weight piB pos piE ω * s.rew 0 ω) P := by
    refine (Integrable.of_bound (hXm 0).aestronglyMeasurable (W * R) (ae_of_all _ fun ω => ?_)).congr
      (ae_of_all _ fun ω => mul_comm _ _)
    rw [Real.norm_of_nonneg (hXb 0 ω).1]
    exact (hXb 0 ω).2
  have hid : ∀ i, IdentDistrib (X i) (X 0) P P := fun i => (hs.ident i).comp hfm
  have hmean : ∀ i, ∫ ω, X i ω ∂P = s.value P pos piE m := by
    intro i
    rw [← (hs.weighted_reward hE hX0).2]
    exact (hid i).integral_eq.trans (integral_congr_ae (ae_of_all _ fun ω => mul_comm _ _))
  obtain ⟨lb, hlb, hp⟩ := C165_bernstein_partial hn (fun i : Fin n => hXm i) hXi
    (fun i j => (hid i).trans (hid j).symm) (fun i ω => hXb i ω) h0 h1 ⟨0, by omega⟩
  refine ⟨lb, ?_, ?_⟩
  · filter_upwards [hs.log_valid (q := q) hE] with ω hv
    have := rounds_eq (hv n (by omega)) ⟨.ipw, .inf, false⟩
    simp only [roundReward, roundOutcome] at this
    rw [← hlb ω]
    have hb : ∀ {α β γ : Type} (x : Py α) (f : α → Py β) (g : β → Py γ),
        (do let r ← x; let y ← f r; g y) = (do let r ← x; f r) >>= g := by
      intro α β γ x f g
      cases x <;> rfl
    rw [hb, this, py_bind_ok]
    rfl
  · rwa [hmean] at hp

/-- The hypotheses are met: coin-flip logging with noisy rewards between 0 and 4, and a policy that follows the context with
probability 3/4. -/
example : ∃ lb : (ℕ → ExRound) → ℝ, (∀ᵐ ω ∂(Measure.infinitePi fun _ : ℕ => exRoundLaw), (do
      let r ← (⟨.ipw, .inf, false⟩ : Estimator ℝ).prepare
        (exStream.log (fun _ _ => 1 / 2) (fun _ => (0 : Fin 1)) exEval (fun _ _ _ => 0) 100 ω).args
      let x ← (⟨.ipw, .inf, false⟩ : Estimator ℝ).round r
      estimateBernsteinLowerBound x (some (3 / 2 * 4)) (1 / 20)) = .ok (lb ω)) ∧
    (Measure.infinitePi fun _ : ℕ => exRoundLaw).real {ω | 19 / 8 < lb ω} ≤ 1 / 20 := by
  rw [← exStream_value]
  refine C165_policy_value exStream_logged exEval_covers (fun i ω => ?_) (fun c a => ?_) (by norm_num) (by norm_num) (by norm_num)
  · change exReward (ω i) ∈ Set.Icc 0 4
    unfold exReward exMean
    generalize (ω i).2.1 = a
    fin_cases a <;> constructor <;> split <;> split <;> norm_num
  · unfold exEval
    split <;> norm_num

end Obp
