import Verif.Props.Regression
import Verif.Props.Unbiased
import Verif.Spec.Variance

/-!
# C182: doubly robust estimates with cross-fitted reward predictions
-/

set_option linter.unusedSectionVars false

namespace Obp
open Log

variable {K : Type} [Field K] [LinearOrder K] [IsStrictOrderedRing K]
variable {n A S L d e : ℕ} {M : Type}

/-! ### vocabulary -/

/-- What `RegressionModel` gets to see of the log of outcome `w`: fixed contexts and action features, the logged actions, rewards and true
propensities, and the evaluation policy. -/
def Process.regLog (P : Process K n A S) (context : Fin n → Fin d → K) (table : Fin A → Fin e → K) (pos : Fin n → Fin L)
    (piE : Fin n → Fin A → Fin L → K) (w : Fin n → Fin A × Fin S) : RegLog K n A L d e where
  context := context
  action i := (w i).1
  reward i := P.val i (w i).1 (w i).2
  pscore i := P.piB i (w i).1
  position := pos
  piE := piE
  table := table

/-- The usual way to a doubly robust estimate: `RegressionModel(...).fit_predict(..., n_folds=nFolds)` on the log of outcome `w` (`folds` are
the splits that `KFold` makes, `ms` the untrained base models), then `DoublyRobust().estimate_policy_value` on the same log with these
predictions. -/
def Process.drAfterFit (P : Process K n A S) (lrn : Learner M K) (method : FitMethod) (nFolds : PyScalar K) (folds : ∀ n, Folds n)
    (ms : Fin L → M) (context : Fin n → Fin d → K) (table : Fin A → Fin e → K) (pos : Fin n → Fin L) (piE : Fin n → Fin A → Fin L → K)
    (w : Fin n → Fin A × Fin S) : Py K := do
  let q ← ((P.regLog context table pos piE w).config method).fitPredict lrn (P.regLog context table pos piE w).args nFolds folds ms
  (Estimator.mk .dr .inf false).estimatePolicyValue (P.log w P.piB pos piE fun i => q.getD i fun _ _ => 0).args

/-! ### one round given the others -/

/-- Drawing one of the rounds anew does not change an expectation. -/
theorem expect_redraw {O : Type} [Fintype O] {p : Fin n → O → K} (hp : ∀ i, ∑ o, p i o = 1) (i : Fin n) (f : (Fin n → O) → K) :
    expect p f = expect p fun w => expect1 (p i) fun o => f (Function.update w i o) := by
  classical
  have hj : ∀ (w : Fin n → O) (o : O), jointProb p w * p i o = jointProb p (Function.update w i o) * p i (w i) := by
    intro w o
    unfold jointProb
    rw [← Finset.mul_prod_erase Finset.univ _ (Finset.mem_univ i),
      ← Finset.mul_prod_erase Finset.univ (fun j => p j (Function.update w i o j)) (Finset.mem_univ i)]
    have : ∏ j ∈ Finset.univ.erase i, p j (Function.update w i o j) = ∏ j ∈ Finset.univ.erase i, p j (w j) :=
      Finset.prod_congr rfl fun j hj => by rw [Function.update_of_ne (Finset.ne_of_mem_erase hj)]
    rw [this, Function.update_self]
    ring
  have h1 : ∑ x : (Fin n → O) × O, jointProb p x.1 * p i x.2 * f (Function.update x.1 i x.2) =
      ∑ x : (Fin n → O) × O, jointProb p x.1 * p i x.2 * f x.1 := by
    refine Fintype.sum_equiv ⟨fun x => (Function.update x.1 i x.2, x.1 i), fun x => (Function.update x.1 i x.2, x.1 i), fun x => ?_, fun x => ?_⟩
      _ _ fun x => ?_
    · simp
    · simp
    · show jointProb p x.1 * p i x.2 * _ = jointProb p (Function.update x.1 i x.2) * p i (x.1 i) * f (Function.update x.1 i x.2)
      rw [hj]
  rw [Fintype.sum_prod_type, Fintype.sum_prod_type] at h1
  dsimp only at h1
  unfold expect expect1
  simp only [Finset.mul_sum, ← mul_assoc]
  rw [h1]
  refine Finset.sum_congr rfl fun w _ => ?_
  rw [← Finset.sum_mul, ← Finset.mul_sum, hp, mul_one]

/-- The expected contribution of a round to the doubly robust estimate with fixed predictions. -/
theorem expect_drRound {P : Process K n A S} (hP : P.Valid) (i : Fin n) (pi q : Fin A → K) (hsupp : ∀ a, pi a ≠ 0 → P.piB i a ≠ 0) :
    expect1 (P.prob i) (fun o => (∑ a, q a * pi a) + pi o.1 / P.piB i o.1 * (P.val i o.1 o.2 - q o.1)) =
      ∑ a, pi a * P.meanReward i a := by
  have h1 : expect1 (P.prob i) (fun o => (∑ a, q a * pi a) + pi o.1 / P.piB i o.1 * (P.val i o.1 o.2 - q o.1)) =
      (∑ a, q a * pi a) + ∑ a, ∑ s, P.piB i a * P.law i a s * (pi a / P.piB i a * (P.val i a s - q a)) := by
    unfold expect1
    simp only [mul_add, Finset.sum_add_distrib]
    rw [← Finset.sum_mul, Process.sum_prob hP, one_mul, Fintype.sum_prod_type]
    rfl
  rw [h1, ← Finset.sum_add_distrib]
  refine Finset.sum_congr rfl fun a _ => ?_
  have h2 : ∀ s, P.piB i a * P.law i a s * (pi a / P.piB i a * (P.val i a s - q a)) =
      pi a * (P.law i a s * P.val i a s) - P.law i a s * (pi a * q a) := by
    intro s
    by_cases h0 : pi a = 0
    · simp [h0]
    · have := hsupp a h0
      field_simp
  simp only [h2, Finset.sum_sub_distrib, ← Finset.mul_sum, ← Finset.sum_mul, (hP.law_dist i a).sum_one, Process.meanReward]
  ring

/-- Predictions of a round that do not depend on what is logged in the round leave the doubly robust estimate unbiased. -/
theorem dr_out_of_sample {P : Process K n A S} (hP : P.Valid) (pos : Fin n → Fin L) (piE : Fin n → Fin A → Fin L → K)
    (hsupp : ∀ i a, piE i a (pos i) ≠ 0 → P.piB i a ≠ 0) (q : (Fin n → Fin A × Fin S) → Fin n → Fin A → Fin L → K)
    (hq : ∀ w w' i, jointProb P.prob w ≠ 0 → jointProb P.prob w' ≠ 0 → (∀ j, j ≠ i → w j = w' j) → q w i = q w' i) :
    expect P.prob (fun w => (∑ i, ((∑ a, q w i a (pos i) * piE i a (pos i)) + piE i (w i).1 (pos i) / P.piB i (w i).1 *
      (P.val i (w i).1 (w i).2 - q w i (w i).1 (pos i)))) / (n : K)) = P.policyValue fun i a => piE i a (pos i) := by
  classical
  rw [expect_div, expect_sum]
  unfold Process.policyValue
  congr 1
  refine Finset.sum_congr rfl fun i _ => ?_
  rw [expect_redraw (Process.sum_prob hP) i]
  have h : ∀ w, jointProb P.prob w ≠ 0 →
      (expect1 (P.prob i) fun o => (∑ a, q (Function.update w i o) i a (pos i) * piE i a (pos i)) +
        piE i (Function.update w i o i).1 (pos i) / P.piB i (Function.update w i o i).1 *
          (P.val i (Function.update w i o i).1 (Function.update w i o i).2 -
            q (Function.update w i o) i (Function.update w i o i).1 (pos i))) = ∑ a, piE i a (pos i) * P.meanReward i a := by
    intro w hw
    rw [← expect_drRound hP i (fun a => piE i a (pos i)) (fun a => q w i a (pos i)) (hsupp i)]
    refine expect1_congr fun o ho => ?_
    have hu : jointProb P.prob (Function.update w i o) ≠ 0 := by
      unfold jointProb
      refine Finset.prod_ne_zero_iff.2 fun j _ => ?_
      by_cases hj : j = i
      · subst hj
        rwa [Function.update_self]
      · rw [Function.update_of_ne hj]
        exact jointProb_ne_zero hw j
    rw [hq (Function.update w i o) w i hu hw fun j hj => Function.update_of_ne hj _ _, Function.update_self]
  rw [expect_congr h]
  unfold expect
  rw [← Finset.sum_mul, sum_jointProb (Process.sum_prob hP), one_mul]

/-! ### the property -/

/-- **C182.** Reward predictions made by `fit_predict` with two or more folds leave the doubly robust estimate on the same log exactly
unbiased, whatever the base model learns and whatever the fitting method, if it forgets earlier fits and training succeeds on the logs that
can occur. -/
theorem C182_cross_fitted_dr {P : Process K n A S} (hP : P.Valid) (hn : 0 < n) (pos : Fin n → Fin L) (piE : Fin n → Fin A → Fin L → K)
    (hE : ∀ i l, IsDist fun a => piE i a l) (hsupp : ∀ i a, piE i a (pos i) ≠ 0 → P.piB i a ≠ 0)
    (context : Fin n → Fin d → K) (table : Fin A → Fin e → K) {lrn : Learner M K} (hl : lrn.Forgets) (method : FitMethod) (ms : Fin L → M)
    {k : ℕ} (hk : 2 ≤ k) {folds : ∀ n, Folds n} (hf : IsKFold k (folds n))
    (hok : ∀ w, jointProb P.prob w ≠ 0 → ∃ q, ((P.regLog context table pos piE w).config method).fitPredict lrn
      (P.regLog context table pos piE w).args (.int k) folds ms = .ok q) :
    ∃ v, Estimates P.prob (P.drAfterFit lrn method (.int k) folds ms context table pos piE) v ∧
      expect P.prob v = P.policyValue fun i a => piE i a (pos i) := by
  classical
  have hb : ∀ w, jointProb P.prob w ≠ 0 → ∀ i, 0 < P.piB i (w i).1 := fun w hw i =>
    lt_of_le_of_ne ((hP.piB_dist i).nonneg _) (left_ne_zero_of_mul (jointProb_ne_zero hw i)).symm
  have hv : ∀ w, jointProb P.prob w ≠ 0 → (P.regLog context table pos piE w).Valid := fun w hw => ⟨hn, hb w hw⟩
  choose! q hq using hok
  refine ⟨_, fun w hw => ?_, dr_out_of_sample hP pos piE hsupp (fun w i => (q w).getD i fun _ _ => 0) fun w w' i hw hw' hag => ?_⟩
  · show ((P.regLog context table pos piE w).config method).fitPredict lrn (P.regLog context table pos piE w).args (.int k) folds ms >>=
      (fun q => (Estimator.mk .dr .inf false).estimatePolicyValue (P.log w P.piB pos piE fun i => q.getD i fun _ _ => 0).args) = _
    rw [hq w hw, py_bind_ok, value_dr (Process.log_valid hn w P.piB (hb w hw) pos piE _ hE)]
    simp only [avg, modelValue, Process.log, (hE _ _).sum_one, div_one, Log.residual, weight]
    rfl
  · have := C90_no_leakage_partial (hv w' hw') (hv w hw) (i := i) (method := method)
      ⟨rfl, rfl, fun j hj => by simp [Process.regLog, hag j hj]⟩ hk hf hl ms ms (hq w' hw') (hq w hw)
    simp only [List.getD_eq_getElem?_getD, this]

/-- **C182.** Training succeeds if base models accept all data and every fold leaves training data for every position. -/
theorem C182_training_succeeds {P : Process K n A S} (hP : P.Valid) (pos : Fin n → Fin L) (piE : Fin n → Fin A → Fin L → K)
    (hE : ∀ i l, IsDist fun a => piE i a l) (context : Fin n → Fin d → K) (table : Fin A → Fin e → K) {lrn : Learner M K}
    (htot : ∀ m X y w, ∃ m', lrn.fit m X y w = .ok m') (method : FitMethod) (ms : Fin L → M)
    {k : ℕ} (hk : 2 ≤ k) (hkn : k ≤ n) {folds : ∀ n, Folds n} (hpos : ∀ f ∈ folds n, ∀ p, ∃ i ∈ f.1, pos i = p)
    (w : Fin n → Fin A × Fin S) (hw : jointProb P.prob w ≠ 0) :
    ∃ q, ((P.regLog context table pos piE w).config method).fitPredict lrn (P.regLog context table pos piE w).args (.int k) folds ms = .ok q := by
  refine C90_succeeds (g := P.regLog context table pos piE w) ⟨by omega, fun i => ?_⟩ hk hkn (fun _ i p => ?_) hpos htot ms
  · exact lt_of_le_of_ne ((hP.piB_dist i).nonneg _) (left_ne_zero_of_mul (jointProb_ne_zero hw i)).symm
  · show |∑ a, piE i a p - 1| ≤ _
    rw [(hE i p).sum_one]
    norm_num

/-! ### predictions on the training data -/

/-- Two rounds without contexts, two actions logged with equal probability; action `a` pays `a`. -/
def exFitProcess : Process ℚ 2 2 1 where
  piB := fun _ _ => 1 / 2
  law := fun _ _ _ => 1
  val := fun _ a _ => a.val

theorem exFitProcess_valid : exFitProcess.Valid :=
  ⟨fun _ => ⟨fun _ => by norm_num [exFitProcess], by norm_num [exFitProcess, Fin.sum_univ_two]⟩,
    fun _ _ => ⟨fun _ => by norm_num [exFitProcess], by norm_num [exFitProcess]⟩⟩

/-- The evaluation policy that always takes action zero. -/
def exFitPiE : Fin 2 → Fin 2 → Fin 1 → ℚ := fun _ a _ => if a = 0 then 1 else 0

theorem exFitPiE_dist : ∀ i l, IsDist fun a => exFitPiE i a l :=
  fun i l => ⟨by revert i l; decide +kernel, by revert i l; decide +kernel⟩

/-- A base model that predicts the mean of the rewards it has been fitted on. -/
def meanLearner : Learner ℚ ℚ where
  fit := fun _ _ y _ => .ok (y.sum / y.length)
  predict := fun m _ => m

theorem meanLearner_forgets : meanLearner.Forgets := fun _ _ _ _ _ => rfl

/-- **C182, limit.** With `n_folds=1`, the default, the predictions are made by a model trained on the same rounds and the doubly robust
estimate is biased: here its expectation is 1/4 and the value of the evaluation policy is 0. -/
theorem C182_single_fold_biased (folds : ∀ n, Folds n) : ∃ v,
    Estimates exFitProcess.prob (exFitProcess.drAfterFit meanLearner .normal (.int 1) folds (fun _ => 0) (fun _ (_ : Fin 1) => 0)
      (fun a (b : Fin 2) => if a = b then 1 else 0) (fun _ => 0) exFitPiE) v ∧
    expect exFitProcess.prob v = 1 / 4 ∧ exFitProcess.policyValue (fun i a => exFitPiE i a 0) = 0 := by
  refine ⟨fun w => if (w 0).1 = 1 ∧ (w 1).1 = 1 then 1 else 0, fun w _ => ?_, by decide +kernel, by decide +kernel⟩
  have h : ∀ w, exFitProcess.drAfterFit meanLearner .normal (.int 1) exFolds (fun _ => 0) (fun _ (_ : Fin 1) => 0)
      (fun a (b : Fin 2) => if a = b then 1 else 0) (fun _ => 0) exFitPiE w =
        .ok (if (w 0).1 = 1 ∧ (w 1).1 = 1 then 1 else 0) := by decide +kernel
  rw [← h w]
  rfl

/-- The same base model with two folds. -/
example := C182_cross_fitted_dr exFitProcess_valid two_pos (fun _ => 0) exFitPiE exFitPiE_dist
  (fun _ _ _ => by norm_num [exFitProcess]) (fun _ (_ : Fin 1) => 0) (fun a (b : Fin 2) => if a = b then 1 else 0) meanLearner_forgets .normal
  (fun _ => 0) (k := 2) le_rfl exFolds_isKFold
  (C182_training_succeeds exFitProcess_valid _ _ exFitPiE_dist _ _ (fun _ _ y _ => ⟨_, rfl⟩) .normal _ le_rfl le_rfl (by decide))

end Obp
