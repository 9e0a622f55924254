import Verif.Model.Helper
import Verif.Spec.Tuning
import Verif.Lemmas.Rounds
import Verif.Lemmas.Avg
import Verif.Lemmas.Checks
import Verif.Props.EstimatorLaws

/-! # C31, C32: MSE score and high-probability bounds -/

set_option linter.unusedSectionVars false

namespace Obp
open Log

variable {n A L : ℕ} {g : Log ℝ n A L}

/-! ### C32: bounds of `obp/ope/helper.py` -/

theorem popVar_nonneg (s : Fin n → ℝ) : 0 ≤ popVar s := avg_nonneg fun _ => sq_nonneg _

theorem npVar_ofFn (hn : 0 < n) (s : Fin n → ℝ) : npVar (List.ofFn s) = .ok (popVar s) := by
  unfold npVar
  rw [npMean_ofFn hn, py_bind_ok, map_ofFn', npMean_ofFn hn]
  rfl

theorem npVar_nonneg {x : List ℝ} (hx : x ≠ []) : ∃ v, npVar x = .ok v ∧ 0 ≤ v := by
  obtain ⟨f, hf⟩ : ∃ f : Fin x.length → ℝ, x = List.ofFn f := ⟨fun i => x[i], by simp⟩
  have hl : 0 < x.length := List.length_pos_iff.2 hx
  refine ⟨popVar f, ?_, popVar_nonneg f⟩
  conv_lhs => rw [hf]
  exact npVar_ofFn hl f

theorem checkDelta_ok {d : ℝ} : checkDelta d = .ok () ↔ 0 ≤ d ∧ d ≤ 1 := by
  simp [checkDelta, py_bind_eq_ok]

theorem log_two_div_nonneg {c d : ℝ} (hc : 1 ≤ c) (h0 : 0 < d) (h1 : d ≤ 1) : 0 ≤ Real.log (c / d) :=
  Real.log_nonneg (by rw [le_div_iff₀ h0]; linarith)

theorem log_div_anti {c d d' : ℝ} (hc : 0 < c) (h0 : 0 < d) (h : d ≤ d') :
    Real.log (c / d') ≤ Real.log (c / d) :=
  Real.log_le_log (div_pos hc (h0.trans_le h)) (by gcongr)

/-- The value that `x_max` stands for: the argument if given, else the sample maximum. -/
def XMaxIs (x : List ℝ) (xMax : Option ℝ) (m : ℝ) : Prop :=
  match xMax with
  | some v => m = v ∧ ∀ y ∈ x, y ≤ v
  | none => m ∈ x ∧ ∀ y ∈ x, y ≤ m

theorem chooseXMax_value {x : List ℝ} {xMax : Option ℝ} {m : ℝ} (hx : x ≠ []) (hm : XMaxIs x xMax m) :
    chooseXMax x xMax = .ok m := by
  obtain ⟨M, hM, -, hM2⟩ := npMax_of_ne hx
  unfold chooseXMax
  rw [hM, py_bind_ok]
  cases xMax with
  | none => simp [le_antisymm ((hM2 m).2 hm.2) ((hM2 M).1 le_rfl m hm.1)]
  | some v =>
    obtain ⟨rfl, h⟩ := hm
    simp [raiseIf, not_lt.2 ((hM2 m).2 h)]

/-- **C32.** The Hoeffding lower bound of a non-empty sample: its value. -/
theorem C32_hoeffding_value {x : List ℝ} {xMax : Option ℝ} {m d : ℝ} (hx : x ≠ [])
    (hm : XMaxIs x xMax m) (h0 : 0 < d) (h1 : d ≤ 1) :
    estimateHoeffdingLowerBound x xMax d =
      .ok (x.sum / x.length - m * √(Real.log (1 / d) / (2 * x.length))) := by
  have hc := chooseXMax_value hx hm
  have hl : (0 : ℝ) < x.length := by exact_mod_cast List.length_pos_iff.2 hx
  unfold estimateHoeffdingLowerBound
  rw [hc, py_bind_ok, checkDelta_ok.2 ⟨h0.le, h1⟩, py_bind_ok]
  have hlog := log_two_div_nonneg le_rfl h0 h1
  have ha : ¬ Real.log (1 / d) / (2 * (x.length : ℝ)) < 0 := not_lt.2 (by positivity)
  have h2 : (2 * (x.length : ℝ)) ≠ 0 := by positivity
  rw [pyDiv, if_neg h0.ne', py_bind_ok, npDiv_ok h2, py_bind_ok, npSqrt, if_neg ha, py_bind_ok]
  simp [npMean, hx]

/-- **C32.** The Hoeffding lower bound does not exceed the sample mean exactly when the maximum in use is not negative (or `delta`
is one): with negative numbers and `x_max` left out it lies above the mean. -/
theorem C32_hoeffding_le_mean {x : List ℝ} {xMax : Option ℝ} {m d : ℝ} (hx : x ≠ [])
    (hm : XMaxIs x xMax m) (h0 : 0 < d) (h1 : d ≤ 1) :
    ∃ lb, estimateHoeffdingLowerBound x xMax d = .ok lb ∧ (lb ≤ x.sum / x.length ↔ 0 ≤ m ∨ d = 1) := by
  refine ⟨_, C32_hoeffding_value hx hm h0 h1, ?_⟩
  have hl : (0 : ℝ) < x.length := by exact_mod_cast List.length_pos_iff.2 hx
  rw [sub_le_self_iff]
  rcases h1.lt_or_eq with h1 | rfl
  · have hlog : 0 < Real.log (1 / d) := Real.log_pos (by rw [lt_div_iff₀ h0]; linarith)
    have hs : 0 < √(Real.log (1 / d) / (2 * x.length)) := Real.sqrt_pos.2 (by positivity)
    rw [mul_nonneg_iff_of_pos_right hs, or_iff_left h1.ne]
  · simp

/-- **C32.** The Hoeffding lower bound is non-decreasing in `delta`. -/
theorem C32_hoeffding_mono {x : List ℝ} {xMax : Option ℝ} {m d d' : ℝ} (hx : x ≠ [])
    (hm : XMaxIs x xMax m) (hm0 : 0 ≤ m) (h0 : 0 < d) (hd : d ≤ d') (h1 : d' ≤ 1) :
    ∃ lb lb', estimateHoeffdingLowerBound x xMax d = .ok lb ∧
      estimateHoeffdingLowerBound x xMax d' = .ok lb' ∧ lb ≤ lb' := by
  refine ⟨_, _, C32_hoeffding_value hx hm h0 (hd.trans h1),
    C32_hoeffding_value hx hm (h0.trans_le hd) h1, ?_⟩
  have := log_div_anti one_pos h0 hd
  gcongr

/-- **C32.** With negative numbers and `x_max` left out the Hoeffding "lower bound" is above the sample mean. -/
theorem C32_hoeffding_negative {x : List ℝ} (hx : x ≠ []) (hneg : ∀ y ∈ x, y < 0) {d : ℝ} (h0 : 0 < d) (h1 : d < 1) :
    ∃ lb, estimateHoeffdingLowerBound x none d = .ok lb ∧ x.sum / x.length < lb := by
  have hm : XMaxIs x none (x.max hx) := ⟨List.max_mem hx, fun y hy => List.le_max_of_mem hy⟩
  obtain ⟨lb, e, h⟩ := C32_hoeffding_le_mean hx hm h0 h1.le
  refine ⟨lb, e, not_le.1 fun hle => ?_⟩
  rcases h.1 hle with h | h
  · exact absurd (hneg _ hm.1) (not_lt.2 h)
  · exact h1.ne h

example : ∀ y ∈ ([-1, -2] : List ℝ), y < 0 := by norm_num

/-- **C32.** The empirical Bernstein lower bound of a sample of size at least two: its value. -/
theorem C32_bernstein_value {x : List ℝ} {xMax : Option ℝ} {m d : ℝ} (hx : 2 ≤ x.length)
    (hm : XMaxIs x xMax m) (h0 : 0 < d) (h1 : d ≤ 1) :
    ∃ v, npVar x = .ok v ∧ 0 ≤ v ∧ estimateBernsteinLowerBound x xMax d =
      .ok (x.sum / x.length - 7 * m * Real.log (2 / d) / (3 * (x.length - 1)) -
        √(2 * Real.log (2 / d) * v / (x.length - 1))) := by
  have hne : x ≠ [] := by rintro rfl; simp at hx
  have hc := chooseXMax_value hne hm
  obtain ⟨v, hv, hv0⟩ := npVar_nonneg hne
  refine ⟨v, hv, hv0, ?_⟩
  have hl : (0 : ℝ) < (x.length : ℝ) - 1 := by
    have : (2 : ℝ) ≤ x.length := by exact_mod_cast hx
    linarith
  unfold estimateBernsteinLowerBound
  rw [hc, py_bind_ok, checkDelta_ok.2 ⟨h0.le, h1⟩, py_bind_ok]
  have hlog := log_two_div_nonneg one_le_two h0 h1
  have ha : ¬ 2 * Real.log (2 / d) * v / ((x.length : ℝ) - 1) < 0 := not_lt.2 (by positivity)
  have h3 : (3 * ((x.length : ℝ) - 1)) ≠ 0 := by positivity
  rw [pyDiv, if_neg h0.ne', py_bind_ok, npDiv_ok h3, py_bind_ok, hv, py_bind_ok, npDiv_ok hl.ne',
    py_bind_ok, npSqrt, if_neg ha, py_bind_ok]
  simp [npMean, hne]

/-- **C32.** The empirical Bernstein lower bound never exceeds the sample mean and is non-decreasing
in `delta`, if the maximum in use is not negative. -/
theorem C32_bernstein_bounds {x : List ℝ} {xMax : Option ℝ} {m d d' : ℝ} (hx : 2 ≤ x.length)
    (hm : XMaxIs x xMax m) (hm0 : 0 ≤ m) (h0 : 0 < d) (hd : d ≤ d') (h1 : d' ≤ 1) :
    ∃ lb lb', estimateBernsteinLowerBound x xMax d = .ok lb ∧
      estimateBernsteinLowerBound x xMax d' = .ok lb' ∧ lb ≤ lb' ∧ lb' ≤ x.sum / x.length := by
  obtain ⟨v, hv, hv0, e1⟩ := C32_bernstein_value hx hm h0 (hd.trans h1)
  obtain ⟨v', hv', -, e2⟩ := C32_bernstein_value hx hm (h0.trans_le hd) h1
  rw [hv] at hv'; cases hv'
  refine ⟨_, _, e1, e2, ?_, ?_⟩
  all_goals
    have hl : (0 : ℝ) < (x.length : ℝ) - 1 := by
      have : (2 : ℝ) ≤ x.length := by exact_mod_cast hx
      linarith
    have hlog := log_two_div_nonneg one_le_two (h0.trans_le hd) h1
  · have := log_div_anti two_pos h0 hd
    gcongr
  · have h4 : 0 ≤ 7 * m * Real.log (2 / d') / (3 * ((x.length : ℝ) - 1)) := by positivity
    have h5 := Real.sqrt_nonneg (2 * Real.log (2 / d') * v / ((x.length : ℝ) - 1))
    linarith

/-- Closed form of the high-probability bias bound on equally long arrays. -/
theorem biasUB_value {r iw iwHat q : Fin n → ℝ} (hn : 0 < n) {M d : ℝ}
    (hM : IsGreatest (Set.range iw) M) (h0 : 0 < d) (h1 : d ≤ 1) :
    estimateHighProbabilityUpperBoundBias (List.ofFn r) (List.ofFn iw) (List.ofFn iwHat)
      (some (List.ofFn q)) d =
      .ok (|avg fun i => (iw i - iwHat i) * (r i - q i)| +
        √(2 * avg (fun i => iw i ^ 2) * Real.log (2 / d) / n) +
        2 * M * Real.log (2 / d) / (3 * n)) := by
  have hn' : (n : ℝ) ≠ 0 := by exact_mod_cast hn.ne'
  have hn'' : (0 : ℝ) < n := by exact_mod_cast hn
  have hlog := log_two_div_nonneg one_le_two h0 h1
  have hne : List.ofFn iw ≠ [] := by
    intro h'; have := congrArg List.length h'; simp at this; omega
  obtain ⟨M', hM', -, hM2⟩ := npMax_of_ne hne
  have hMM : M' = M := by
    apply le_antisymm
    · rw [hM2]; intro y hy; obtain ⟨i, rfl⟩ := List.mem_ofFn.1 hy; exact hM.2 ⟨i, rfl⟩
    · obtain ⟨i, hi⟩ := hM.1
      exact (hM2 M').1 le_rfl M (by rw [← hi]; exact List.mem_ofFn.2 ⟨i, rfl⟩)
  subst hMM
  have hb : estimateBiasInOpe (List.ofFn r) (List.ofFn iw) (List.ofFn iwHat) (some (List.ofFn q)) =
      .ok |avg fun i => (iw i - iwHat i) * (r i - q i)| := by
    simp only [estimateBiasInOpe, Option.getD_some, bop_ofFn, py_bind_ok]
    rw [npMean_ofFn hn]; rfl
  have hm2 : npMean ((List.ofFn iw).map (· ^ 2)) = .ok (avg fun i => iw i ^ 2) := by
    rw [map_ofFn', npMean_ofFn hn]; rfl
  have hav : 0 ≤ avg fun i => iw i ^ 2 := avg_nonneg fun i => sq_nonneg _
  have ha : ¬ 2 * (avg fun i => iw i ^ 2) * Real.log (2 / d) / (n : ℝ) < 0 :=
    not_lt.2 (by positivity)
  have h3n : (3 * (n : ℝ)) ≠ 0 := by positivity
  unfold estimateHighProbabilityUpperBoundBias
  rw [checkDelta_ok.2 ⟨h0.le, h1⟩, py_bind_ok, hb, py_bind_ok]
  simp only [List.length_ofFn]
  rw [hm2, py_bind_ok, pyDiv, if_neg h0.ne', py_bind_ok, npDiv_ok hn', py_bind_ok, npSqrt,
    if_neg ha, py_bind_ok, hM', py_bind_ok, npDiv_ok h3n]
  rfl

theorem bias_none_eq {r iw iwHat : Fin n → ℝ} :
    estimateBiasInOpe (List.ofFn r) (List.ofFn iw) (List.ofFn iwHat) none =
      estimateBiasInOpe (List.ofFn r) (List.ofFn iw) (List.ofFn iwHat)
        (some (List.ofFn fun _ : Fin n => (0 : ℝ))) := by
  unfold estimateBiasInOpe
  rw [List.ofFn_const, List.length_ofFn]
  rfl

theorem exists_greatest (hn : 0 < n) (f : Fin n → ℝ) : ∃ M, IsGreatest (Set.range f) M := by
  have : Nonempty (Fin n) := ⟨⟨0, hn⟩⟩
  obtain ⟨i, hi⟩ := Finite.exists_max f
  exact ⟨f i, ⟨i, rfl⟩, by rintro _ ⟨j, rfl⟩; exact hi j⟩

/-- **C32.** With non-negative weights the bias upper bound is at least the bias estimate and
non-increasing in `delta`. -/
theorem C32_bias_upper_bound {r iw iwHat q : Fin n → ℝ} (hn : 0 < n) (hw : ∀ i, 0 ≤ iw i) {d d' : ℝ}
    (h0 : 0 < d) (hd : d ≤ d') (h1 : d' ≤ 1) :
    ∃ b u u', estimateBiasInOpe (List.ofFn r) (List.ofFn iw) (List.ofFn iwHat)
        (some (List.ofFn q)) = .ok b ∧
      estimateHighProbabilityUpperBoundBias (List.ofFn r) (List.ofFn iw) (List.ofFn iwHat)
        (some (List.ofFn q)) d = .ok u ∧
      estimateHighProbabilityUpperBoundBias (List.ofFn r) (List.ofFn iw) (List.ofFn iwHat)
        (some (List.ofFn q)) d' = .ok u' ∧ b ≤ u' ∧ u' ≤ u := by
  obtain ⟨M, hM⟩ := exists_greatest hn iw
  refine ⟨|avg fun i => (iw i - iwHat i) * (r i - q i)|, _, _, ?_,
    biasUB_value hn hM h0 (hd.trans h1), biasUB_value hn hM (h0.trans_le hd) h1, ?_, ?_⟩
  · simp only [estimateBiasInOpe, Option.getD_some, bop_ofFn, py_bind_ok]
    rw [npMean_ofFn hn]; rfl
  all_goals
    have hM0 : 0 ≤ M := by obtain ⟨i, rfl⟩ := hM.1; exact hw i
    have hlog := log_two_div_nonneg one_le_two (h0.trans_le hd) h1
    have hav : 0 ≤ avg fun i => iw i ^ 2 := avg_nonneg fun i => sq_nonneg _
  · have h4 : 0 ≤ 2 * M * Real.log (2 / d') / (3 * n) := by positivity
    have h5 := Real.sqrt_nonneg (2 * avg (fun i => iw i ^ 2) * Real.log (2 / d') / n)
    linarith
  · have := log_div_anti two_pos h0 hd
    gcongr

example := C32_hoeffding_mono (x := [1, 0, 3]) (xMax := none) (m := 3) (d := 1 / 20) (d' := 1 / 10)
  (by simp) ⟨by simp, by simp⟩ (by norm_num) (by norm_num) (by norm_num) (by norm_num)
example := C32_bernstein_bounds (x := [1, 0, 3]) (xMax := some 5) (m := 5) (d := 1 / 20)
  (d' := 1 / 10) (by simp) ⟨rfl, by norm_num⟩ (by norm_num) (by norm_num) (by norm_num) (by norm_num)

/-! ### C31: `_estimate_mse_score` -/

/-- The estimators with hyperparameter tuning. -/
def Kind.IsTunable (k : Kind) : Prop :=
  k = .ipw ∨ k = .dr ∨ k = .switchDr ∨ k = .drOs ∨ k = .sgIpw ∨ k = .sgDr

/-- The bias term used inside the score, in closed form. -/
noncomputable def biasTerm (e : Estimator ℝ) (g : Log ℝ n A L) (useUB : Bool) (d M : ℝ) : ℝ :=
  if useUB then
    biasEstimate e g +
      √(2 * avg (fun i => g.weight e.useEstimatedPscore i ^ 2) * Real.log (2 / d) / n) +
      2 * M * Real.log (2 / d) / (3 * n)
  else biasEstimate e g

theorem mseWeights_eq {e : Estimator ℝ} (hk : e.kind.IsTunable) {w s : Fin n → ℝ} {g : Log ℝ n A L}
    (hs : roundReward e g = some s) (hw : w = g.weight e.useEstimatedPscore) :
    mseWeights e (List.ofFn w) = .ok (List.ofFn fun i => shrunkWeight e (w i)) := by
  obtain ⟨k, lam, est⟩ := e
  subst hw
  rcases hk with rfl | rfl | rfl | rfl | rfl | rfl
  · simp only [mseWeights, map_ofFn']; cases lam <;> rfl
  · simp only [mseWeights, map_ofFn']; cases lam <;> rfl
  · simp only [mseWeights, map_ofFn']
    cases lam with
    | inf => simp [shrunkWeight, Lam.geB]
    | fin l => simp [shrunkWeight, Lam.geB]
  · simp only [mseWeights]
    cases lam with
    | inf => exact mapM_ofFn_ok fun i => rfl
    | fin l =>
      simp only [roundReward] at hs
      split at hs
      · simp at hs
      · next hc =>
        push Not at hc
        exact mapM_ofFn_ok fun i => npDiv_ok (hc i)
  all_goals
    simp only [mseWeights]
    cases lam with
    | inf => simp [roundReward] at hs
    | fin l =>
      simp only [roundReward] at hs
      split at hs
      · simp at hs
      · next hc =>
        push Not at hc
        exact mapM_ofFn_ok fun i => npDiv_ok (hc i)

/-- **C31.** Closed form of the MSE score of the six tunable estimators on a valid log whose
per-round values `s` are finite: sample variance over `n` plus the squared bias term. -/
theorem C31_mse_value (h : g.Valid) {e : Estimator ℝ} (hk : e.kind.IsTunable) {s : Fin n → ℝ}
    (hs : roundReward e g = some s) {r : RoundIn ℝ} (hr : e.prepare g.args = .ok r) {M : ℝ}
    (hM : IsGreatest (Set.range (g.weight e.useEstimatedPscore)) M) {d : ℝ} (h0 : 0 < d)
    (h1 : d ≤ 1) (useUB : Bool) :
    e.mseScore r useUB d = .ok (popVar s / n + biasTerm e g useUB d M ^ 2) := by
  have hn := h.nonempty
  have hn' : (n : ℝ) ≠ 0 := by exact_mod_cast hn.ne'
  have hround : e.round r = .ok (List.ofFn s) := by
    have := rounds_eq (e := e) h
    rw [hr, py_bind_ok, hs] at this
    exact this
  -- the columns of `r`
  have hcols : r.reward = List.ofFn g.reward ∧
      r.action = (List.ofFn fun i => ((g.action i : ℕ) : ℤ)) ∧
      r.position = (List.ofFn fun i => ((g.position i : ℕ) : ℤ)) ∧ r.dist = ⟨n, A, L, g.piE⟩ ∧
      r.pscore = (List.ofFn fun i => if e.useEstimatedPscore then g.estPscore i else g.pscore i) ∧
      (e.kind.usesModel = true → r.q = ⟨n, A, L, g.q⟩) := by
    obtain ⟨k, lam, est⟩ := e
    rcases hk with rfl | rfl | rfl | rfl | rfl | rfl <;>
      simp only [Estimator.prepare, ipwPrepare_eq h, drPrepare_eq h, Except.ok.injEq] at hr <;>
      subst hr <;> exact ⟨rfl, rfl, rfl, rfl, rfl, by first | (intro hh; rfl) | simp [Kind.usesModel]⟩
  obtain ⟨c1, c2, c3, c4, c5, c6⟩ := hcols
  have hd : fancy3 r.dist (arange r.reward.length) r.action r.position =
      .ok (List.ofFn fun i => g.piE i (g.action i) (g.position i)) := by
    rw [c1, c2, c3, c4, List.length_ofFn]
    exact fancy3_ofFn ⟨n, A, L, g.piE⟩ g.action g.position
  have hiw : bopM npDiv (List.ofFn fun i => g.piE i (g.action i) (g.position i)) r.pscore =
      .ok (List.ofFn (g.weight e.useEstimatedPscore)) := by
    rw [c5]
    exact bopM_ofFn_ok _ _ _ _ fun i => npDiv_ok (usedPscore_pos h _ i).ne'
  have hwt := mseWeights_eq hk hs rfl
  have hbias : ∀ q : Option (List ℝ), (q = none ∧ (∀ i, weighted e.kind g i = g.reward i)) ∨
      (q = some (List.ofFn fun i => g.q i (g.action i) (g.position i)) ∧
        ∀ i, weighted e.kind g i = g.residual i) →
      (if useUB then estimateHighProbabilityUpperBoundBias r.reward
          (List.ofFn (g.weight e.useEstimatedPscore))
          (List.ofFn fun i => shrunkWeight e (g.weight e.useEstimatedPscore i)) q d
        else estimateBiasInOpe r.reward (List.ofFn (g.weight e.useEstimatedPscore))
          (List.ofFn fun i => shrunkWeight e (g.weight e.useEstimatedPscore i)) q) =
      .ok (biasTerm e g useUB d M) := by
    intro q hq
    obtain ⟨qf, hqf, hqe⟩ : ∃ qf : Fin n → ℝ, (∀ i, weighted e.kind g i = g.reward i - qf i) ∧
        (estimateBiasInOpe r.reward (List.ofFn (g.weight e.useEstimatedPscore))
          (List.ofFn fun i => shrunkWeight e (g.weight e.useEstimatedPscore i)) q =
        estimateBiasInOpe r.reward (List.ofFn (g.weight e.useEstimatedPscore))
          (List.ofFn fun i => shrunkWeight e (g.weight e.useEstimatedPscore i))
          (some (List.ofFn qf))) := by
      rcases hq with ⟨rfl, hw⟩ | ⟨rfl, hw⟩
      · exact ⟨fun _ => 0, fun i => by rw [hw, sub_zero], by rw [c1]; exact bias_none_eq⟩
      · exact ⟨_, hw, rfl⟩
    have hbe : biasEstimate e g = |avg fun i => (g.weight e.useEstimatedPscore i -
        shrunkWeight e (g.weight e.useEstimatedPscore i)) * (g.reward i - qf i)| := by
      unfold biasEstimate; congr 2; funext i; rw [hqf]
    have hub : estimateHighProbabilityUpperBoundBias r.reward
          (List.ofFn (g.weight e.useEstimatedPscore))
          (List.ofFn fun i => shrunkWeight e (g.weight e.useEstimatedPscore i)) q d =
        estimateHighProbabilityUpperBoundBias r.reward
          (List.ofFn (g.weight e.useEstimatedPscore))
          (List.ofFn fun i => shrunkWeight e (g.weight e.useEstimatedPscore i))
          (some (List.ofFn qf)) d := by
      unfold estimateHighProbabilityUpperBoundBias; rw [hqe]
    cases useUB with
    | true =>
      simp only [if_true, biasTerm]
      rw [hub, c1, biasUB_value hn hM h0 h1, hbe]
    | false =>
      simp only [Bool.false_eq_true, if_false, biasTerm]
      rw [hqe, c1, hbe]
      simp only [estimateBiasInOpe, Option.getD_some, bop_ofFn, py_bind_ok]
      rw [npMean_ofFn hn]; rfl
  unfold Estimator.mseScore
  rw [hround, py_bind_ok, npVar_ofFn hn, py_bind_ok]
  rw [show (r.reward.length : ℝ) = n by rw [c1, List.length_ofFn], npDiv_ok hn', py_bind_ok, hd,
    py_bind_ok, hiw, py_bind_ok, hwt, py_bind_ok]
  cases hu : e.kind.usesModel with
  | false =>
    simp only [Bool.false_eq_true, if_false, py_pure, py_bind_ok]
    have hb := hbias none (Or.inl ⟨rfl, fun i => ?_⟩)
    · cases useUB <;> simp only [Bool.false_eq_true, if_false, if_true] at hb ⊢ <;> rw [hb] <;> rfl
    · obtain ⟨k, lam, est⟩ := e
      rcases hk with rfl | rfl | rfl | rfl | rfl | rfl <;> simp_all [Kind.usesModel, weighted]
  | true =>
    have hq : fancy3 r.q (arange r.reward.length) r.action r.position =
        .ok (List.ofFn fun i => g.q i (g.action i) (g.position i)) := by
      rw [c6 hu, c1, c2, c3, List.length_ofFn]
      exact fancy3_ofFn ⟨n, A, L, g.q⟩ g.action g.position
    simp only [if_true, hq, py_pure, py_bind_ok]
    have hb := hbias _ (Or.inr ⟨rfl, fun i => ?_⟩)
    · cases useUB <;> simp only [Bool.false_eq_true, if_false, if_true] at hb ⊢ <;> rw [hb] <;> rfl
    · obtain ⟨k, lam, est⟩ := e
      rcases hk with rfl | rfl | rfl | rfl | rfl | rfl <;> simp_all [Kind.usesModel, weighted]

/-- **C31.** The score is never negative, is at least the variance term, and with a non-negative
evaluation policy the score using the bias upper bound is at least the direct score. -/
theorem C31_mse_bounds (h : g.Valid) (hnn : g.NonnegPolicy) {e : Estimator ℝ}
    (hk : e.kind.IsTunable) {s : Fin n → ℝ} (hs : roundReward e g = some s) {r : RoundIn ℝ}
    (hr : e.prepare g.args = .ok r) {d : ℝ} (h0 : 0 < d) (h1 : d ≤ 1) :
    ∃ ub direct, e.mseScore r true d = .ok ub ∧ e.mseScore r false d = .ok direct ∧
      0 ≤ direct ∧ popVar s / n ≤ direct ∧ direct ≤ ub := by
  obtain ⟨M, hM⟩ := exists_greatest h.nonempty (g.weight e.useEstimatedPscore)
  refine ⟨_, _, C31_mse_value h hk hs hr hM h0 h1 true, C31_mse_value h hk hs hr hM h0 h1 false,
    ?_, ?_, ?_⟩
  · have := popVar_nonneg s; positivity
  · nlinarith [sq_nonneg (biasTerm e g false d M)]
  · have hM0 : 0 ≤ M := by
      obtain ⟨i, rfl⟩ := hM.1
      exact div_nonneg (hnn _ _ _) (usedPscore_pos h _ i).le
    have hlog := log_two_div_nonneg one_le_two h0 h1
    have hb : biasTerm e g false d M ≤ biasTerm e g true d M := by
      simp only [biasTerm, Bool.false_eq_true, if_false, if_true]
      have h4 : 0 ≤ 2 * M * Real.log (2 / d) / (3 * n) := by positivity
      have h5 := Real.sqrt_nonneg
        (2 * avg (fun i => g.weight e.useEstimatedPscore i ^ 2) * Real.log (2 / d) / n)
      linarith
    have hb0 : 0 ≤ biasTerm e g false d M := by
      simp only [biasTerm, Bool.false_eq_true, if_false]; exact abs_nonneg _
    gcongr

/-- The bias estimate vanishes without clipping, so the direct score is the variance over `n`. -/
theorem C31_unclipped (h : g.Valid) {r : RoundIn ℝ} {est : Bool}
    (hr : (Estimator.mk .ipw .inf est).prepare g.args = .ok r) {d : ℝ} (h0 : 0 < d) (h1 : d ≤ 1) :
    (Estimator.mk .ipw .inf est).mseScore r false d =
      .ok (popVar (fun i => g.reward i * g.weight est i) / n) := by
  obtain ⟨M, hM⟩ := exists_greatest h.nonempty (g.weight est)
  rw [C31_mse_value (e := ⟨.ipw, .inf, est⟩) h (Or.inl rfl) rfl hr hM h0 h1]
  simp [biasTerm, biasEstimate, shrunkWeight, Lam.clip, avg]

/-- A two-round real-valued log. -/
noncomputable def exReal : Log ℝ 2 2 1 where
  action := ![0, 1]
  reward := ![1, 3]
  pscore := ![1 / 2, 1 / 4]
  estPscore := ![1 / 3, 1 / 2]
  position := ![0, 0]
  piE := fun _ _ _ => 1 / 2
  q := fun i a _ => (i.val : ℝ) + a.val
  estIw := ![1, 2]

theorem exReal_valid : exReal.Valid := by
  refine ⟨by norm_num, fun i => ?_, fun i => ?_, fun i => ?_, fun i l => ?_⟩
  · fin_cases i <;> simp [exReal]
  · fin_cases i <;> simp [exReal]
  · fin_cases i <;> simp [exReal]
  · have : ∑ a, exReal.piE i a l = 1 := by simp [exReal]
    rw [this]; exact closeToOne_one

example := C31_mse_bounds exReal_valid (by intro i a l; simp [exReal])
  (e := ⟨.drOs, .fin 1, false⟩) (by simp [Kind.IsTunable])
  (s := fun i => exReal.modelValue i + 1 * exReal.weight false i / (exReal.weight false i ^ 2 + 1) *
    exReal.residual i)
  (by
    simp only [roundReward]
    rw [if_neg]
    rintro ⟨i, hi⟩
    nlinarith [sq_nonneg (exReal.weight false i)])
  (by simp only [Estimator.prepare]; exact drPrepare_eq exReal_valid false)
  (d := 1 / 10) (by norm_num) (by norm_num)

end Obp
