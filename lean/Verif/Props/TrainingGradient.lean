import Verif.Props.NeuralPolicy
import Verif.Spec.Process
import Verif.Lemmas.Prob

set_option linter.unusedSectionVars false

/-!
# What the losses of `NNPolicyLearner` are good for

C196: over the randomness of the log, the gradient of the training loss is the gradient of the true policy value. C197: the value of
the loss, in contrast, and the variance penalty are not what their names say.
-/

namespace Obp
open Log

variable {A n S : ℕ}

/-- The mini-batch that the outcome `w` of the logging process gives, with predictions `q`. -/
def Process.batch (P : Process ℝ n A S) (q : Fin n → Fin A → ℝ) (w : Fin n → Fin A × Fin S) (i : Fin n) : NnRow A where
  action := (w i).1
  reward := P.val i (w i).1 (w i).2
  pscore := P.piB i (w i).1
  qHat := q i

/-- What the objective estimates, on average over the log: the true value of a round for "ipw" and "dr", less `lam` for "snipw", and
the predicted value for "dm". -/
noncomputable def Process.objectiveTarget (P : Process ℝ n A S) (obj : Objective) (lam : ℝ) (q : Fin n → Fin A → ℝ) (pi : Fin n → Fin A → ℝ)
    (i : Fin n) : ℝ :=
  match obj with
  | .dm => ∑ a, pi i a * q i a
  | .ipw | .dr => ∑ a, pi i a * P.meanReward i a
  | .snipw => (∑ a, pi i a * P.meanReward i a) - lam * ∑ a, pi i a
  | .ipwOs => ∑ a, P.piB i a * (lam * (pi i a / P.piB i a) / ((pi i a / P.piB i a) ^ 2 + lam)) * P.meanReward i a
  | .ipwSubgauss => ∑ a, P.piB i a * (pi i a / P.piB i a / (1 - lam + lam * (pi i a / P.piB i a))) * P.meanReward i a

theorem Process.expect_round {P : Process ℝ n A S} (hP : P.Valid) (i : Fin n) (f : Fin A → ℝ) (g c : Fin A → ℝ) :
    expect1 (P.prob i) (fun o => f o.1 * (P.val i o.1 o.2 - g o.1) + c o.1) =
      ∑ a, P.piB i a * (f a * (P.meanReward i a - g a) + c a) := by
  unfold expect1 Process.prob Process.meanReward
  rw [Fintype.sum_prod_type]
  refine Finset.sum_congr rfl fun a _ => ?_
  have h1 := (hP.law_dist i a).sum_one
  have : ∑ s, P.piB i a * P.law i a s * (f a * (P.val i a s - g a) + c a) =
      P.piB i a * (f a * (∑ s, P.law i a s * P.val i a s) + (c a - f a * g a) * ∑ s, P.law i a s) := by
    rw [mul_add, Finset.mul_sum, Finset.mul_sum, Finset.mul_sum, Finset.mul_sum, ← Finset.sum_add_distrib]
    refine Finset.sum_congr rfl fun s _ => by ring
  rw [this, h1]
  ring

theorem Process.expect_objective {P : Process ℝ n A S} (hP : P.Valid) (hB : ∀ i a, 0 < P.piB i a) (obj : Objective) (lam : ℝ)
    (q pi : Fin n → Fin A → ℝ) (i : Fin n) :
    expect1 (P.prob i) (fun o => objectiveValue obj lam
      { action := o.1, reward := P.val i o.1 o.2, pscore := P.piB i o.1, qHat := q i } (pi i)) = P.objectiveTarget obj lam q pi i := by
  have hs := (hP.piB_dist i).sum_one
  have hc : ∀ a, P.piB i a ≠ 0 := fun a => (hB i a).ne'
  cases obj with
  | dm =>
    have := P.expect_round hP i (fun _ => 0) (fun _ => 0) (fun _ => ∑ a, q i a * pi i a)
    simp only [objectiveValue, Process.objectiveTarget]
    simp only [zero_mul, zero_add] at this
    rw [this, ← Finset.sum_mul, hs, one_mul]
    exact Finset.sum_congr rfl fun a _ => mul_comm _ _
  | ipw =>
    have := P.expect_round hP i (fun a => pi i a / P.piB i a) (fun _ => 0) (fun _ => 0)
    simp only [sub_zero, add_zero] at this
    simp only [objectiveValue, Process.objectiveTarget]
    rw [this]
    refine Finset.sum_congr rfl fun a _ => ?_
    have := hc a
    field_simp
  | dr =>
    have := P.expect_round hP i (fun a => pi i a / P.piB i a) (q i) (fun _ => ∑ a, q i a * pi i a)
    simp only [objectiveValue, Process.objectiveTarget]
    rw [this]
    simp only [mul_add, Finset.sum_add_distrib]
    rw [← Finset.sum_mul, hs, one_mul, ← Finset.sum_add_distrib]
    refine Finset.sum_congr rfl fun a _ => ?_
    have := hc a
    field_simp
    ring
  | snipw =>
    have := P.expect_round hP i (fun a => pi i a / P.piB i a) (fun _ => lam) (fun _ => 0)
    simp only [add_zero] at this
    simp only [objectiveValue, Process.objectiveTarget]
    rw [this, Finset.mul_sum, ← Finset.sum_sub_distrib]
    refine Finset.sum_congr rfl fun a _ => ?_
    have := hc a
    field_simp
  | ipwOs =>
    have := P.expect_round hP i (fun a => lam * (pi i a / P.piB i a) / ((pi i a / P.piB i a) ^ 2 + lam)) (fun _ => 0) (fun _ => 0)
    simp only [sub_zero, add_zero] at this
    simp only [objectiveValue, Process.objectiveTarget]
    rw [this]
    exact Finset.sum_congr rfl fun a _ => by ring
  | ipwSubgauss =>
    have := P.expect_round hP i (fun a => pi i a / P.piB i a / (1 - lam + lam * (pi i a / P.piB i a))) (fun _ => 0) (fun _ => 0)
    simp only [sub_zero, add_zero] at this
    simp only [objectiveValue, Process.objectiveTarget]
    rw [this]
    exact Finset.sum_congr rfl fun a _ => by ring

/-- **C196.** For every objective, the expectation over the log of the gradient of the training loss is minus the gradient of what the
objective estimates on average. -/
theorem C196_expected_gradient {P : Process ℝ n A S} (hP : P.Valid) (hB : ∀ i a, 0 < P.piB i a) (hn : 2 ≤ n) (obj : Objective) {lam : ℝ}
    (hl : obj.Admissible lam) (q : Fin n → Fin A → ℝ) (pi : ℝ → Fin n → Fin A → ℝ) (t : ℝ) (hpos : ∀ i a, 0 < pi t i a)
    (hd : ∀ i a, DifferentiableAt ℝ (fun s => pi s i a) t) :
    ∃ (Loss : (Fin n → Fin A × Fin S) → ℝ → ℝ) (G : (Fin n → Fin A × Fin S) → ℝ),
      (∀ w s, batchLoss obj lam 0 0 (lossRows (P.batch q w) (pi t) (pi s)) = .ok (Loss w s)) ∧
      (∀ w, HasDerivAt (Loss w) (G w) t) ∧
      HasDerivAt (fun s => (∑ i, P.objectiveTarget obj lam q (pi s) i) / n) (-expect P.prob G) t := by
  choose D h1 h2 using fun (i : Fin n) (o : Fin A × Fin S) => C72_round obj hl
    { action := o.1, reward := P.val i o.1 o.2, pscore := P.piB i o.1, qHat := q i } (hB i o.1) (fun s => pi s i)
    (fun a => deriv (fun s => pi s i a) t) t (hpos i) fun a => (hd i a).hasDerivAt
  refine ⟨fun w s => -avg fun i => policyGradTerm obj lam (P.batch q w i) (pi t i) (pi s i), fun w => -avg fun i => D i (w i),
    fun w s => ?_, fun w => ?_, ?_⟩
  · rw [batchLoss_eq obj lam 0 0 (P.batch q w) (by omega) (fun i => (hB i (w i).1).ne')]
    obtain ⟨v, hv⟩ := torchVar_ok hn fun i => policyGradTerm obj lam (P.batch q w i) (pi t i) (pi s i)
    rw [hv, py_bind_ok]
    simp
  · exact ((HasDerivAt.fun_sum fun i _ => h2 i (w i)).div_const _).neg
  · have hsum : ∀ i, ∑ o, P.prob i o = 1 := fun i => by
      have := P.expect_round hP i (fun _ => 0) (fun _ => 0) (fun _ => 1)
      simpa [expect1, (hP.piB_dist i).sum_one] using this
    have hG : -expect P.prob (fun w => -avg fun i => D i (w i)) = (∑ i, ∑ o, P.prob i o * D i o) / n := by
      have e : expect P.prob (fun w => -avg fun i => D i (w i)) = -expect P.prob (fun w => avg fun i => D i (w i)) := by
        simp [expect]
      rw [e, neg_neg]
      exact expect_avg hsum D _
    rw [hG]
    refine HasDerivAt.div_const (HasDerivAt.fun_sum fun i _ => ?_) _
    have h := HasDerivAt.fun_sum fun (o : Fin A × Fin S) (_ : o ∈ Finset.univ) => (h1 i o).const_mul (P.prob i o)
    refine h.congr_of_eventuallyEq (Filter.Eventually.of_forall fun s => ?_)
    exact (P.expect_objective hP hB obj lam q (pi s) i).symm

/-- **C196.** "ipw", "dr" with any predictions, and "snipw" with any shift: the gradient of the training loss is an unbiased estimate of
minus the gradient of the true policy value. -/
theorem C196_unbiased {P : Process ℝ n A S} (hP : P.Valid) (hB : ∀ i a, 0 < P.piB i a) (hn : 2 ≤ n) {obj : Objective}
    (ho : obj = .ipw ∨ obj = .dr ∨ obj = .snipw) {lam : ℝ} (hl : obj = .snipw → 0 ≤ lam) (q : Fin n → Fin A → ℝ)
    (pi : ℝ → Fin n → Fin A → ℝ) (t : ℝ) (hpos : ∀ i a, 0 < pi t i a) (hsum : ∀ s i, ∑ a, pi s i a = 1)
    (hd : ∀ i a, DifferentiableAt ℝ (fun s => pi s i a) t) :
    ∃ (Loss : (Fin n → Fin A × Fin S) → ℝ → ℝ) (G : (Fin n → Fin A × Fin S) → ℝ),
      (∀ w s, batchLoss obj lam 0 0 (lossRows (P.batch q w) (pi t) (pi s)) = .ok (Loss w s)) ∧
      (∀ w, HasDerivAt (Loss w) (G w) t) ∧ HasDerivAt (fun s => P.policyValue (pi s)) (-expect P.prob G) t := by
  have ha : obj.Admissible lam := by
    rcases ho with rfl | rfl | rfl
    exacts [trivial, trivial, hl rfl]
  obtain ⟨Loss, G, h1, h2, h3⟩ := C196_expected_gradient hP hB hn obj ha q pi t hpos hd
  refine ⟨Loss, G, h1, h2, ?_⟩
  have hn0 : (n : ℝ) ≠ 0 := by
    have : (2 : ℝ) ≤ n := by exact_mod_cast hn
    intro h
    linarith
  rcases ho with rfl | rfl | rfl
  · exact h3
  · exact h3
  · refine (h3.add_const lam).congr_of_eventuallyEq (Filter.Eventually.of_forall fun s => ?_)
    simp only [Process.objectiveTarget, hsum, mul_one, Finset.sum_sub_distrib, Finset.sum_const, Finset.card_univ, Fintype.card_fin,
      nsmul_eq_mul, Process.policyValue]
    field_simp
    ring

/-- **C196.** "dm": the gradient is the same for all logs, and it is the true one if the predictions are right up to an amount that may
depend on the round but not on the action. -/
theorem C196_dm {P : Process ℝ n A S} (hB : ∀ i a, 0 < P.piB i a) (hn : 2 ≤ n) (lam : ℝ) {q : Fin n → Fin A → ℝ}
    {b : Fin n → ℝ} (hq : ∀ i a, q i a = P.meanReward i a + b i)
    (pi : ℝ → Fin n → Fin A → ℝ) (t : ℝ) (hpos : ∀ i a, 0 < pi t i a) (hsum : ∀ s i, ∑ a, pi s i a = 1)
    (hd : ∀ i a, DifferentiableAt ℝ (fun s => pi s i a) t) :
    ∃ (Loss : ℝ → ℝ) (G : ℝ), (∀ w s, batchLoss .dm lam 0 0 (lossRows (P.batch q w) (pi t) (pi s)) = .ok (Loss s)) ∧
      HasDerivAt Loss (-G) t ∧ HasDerivAt (fun s => P.policyValue (pi s)) G t := by
  have hd' : ∀ i a, HasDerivAt (fun s => pi s i a) (deriv (fun s => pi s i a) t) t := fun i a => (hd i a).hasDerivAt
  have h0 : ∀ i, ∑ a, deriv (fun s => pi s i a) t = 0 := fun i => by
    have h := HasDerivAt.fun_sum fun a (_ : a ∈ Finset.univ) => hd' i a
    have h' : HasDerivAt (fun s => ∑ a, pi s i a) 0 t :=
      (hasDerivAt_const t (1 : ℝ)).congr_of_eventuallyEq (Filter.Eventually.of_forall fun s => hsum s i)
    exact h.unique h'
  refine ⟨fun s => -avg fun i => ∑ a, q i a * pi t i a * Real.log (pi s i a),
    (∑ i, ∑ a, deriv (fun s => pi s i a) t * P.meanReward i a) / n, fun w s => ?_, ?_, ?_⟩
  · rw [batchLoss_eq .dm lam 0 0 (P.batch q w) (by omega) (fun i => (hB i (w i).1).ne')]
    obtain ⟨v, hv⟩ := torchVar_ok hn fun i => policyGradTerm .dm lam (P.batch q w i) (pi t i) (pi s i)
    rw [hv, py_bind_ok]
    simp [policyGradTerm, Process.batch]
  · refine (HasDerivAt.div_const (HasDerivAt.fun_sum fun i _ => ?_) _).neg
    have h := HasDerivAt.fun_sum fun a (_ : a ∈ Finset.univ) => ((hd' i a).log (hpos i a).ne').const_mul (q i a * pi t i a)
    have e : ∑ a, q i a * pi t i a * (deriv (fun s => pi s i a) t / pi t i a) = ∑ a, deriv (fun s => pi s i a) t * P.meanReward i a := by
      have : ∀ a, q i a * pi t i a * (deriv (fun s => pi s i a) t / pi t i a) =
          deriv (fun s => pi s i a) t * P.meanReward i a + b i * deriv (fun s => pi s i a) t := fun a => by
        rw [hq]
        have := (hpos i a).ne'
        field_simp
      simp only [this, Finset.sum_add_distrib]
      rw [← Finset.mul_sum, h0, mul_zero, add_zero]
    rwa [e] at h
  · exact HasDerivAt.div_const (HasDerivAt.fun_sum fun i _ => HasDerivAt.fun_sum fun a _ => (hd' i a).mul_const _) _

/-- Two rounds with two actions, logged with probability 1/4 and 3/4; rewards 0 or 2 with equal probability after action 1, and always 1
after action 0. -/
noncomputable def exTrain : Process ℝ 2 2 2 where
  piB _ := ![1 / 4, 3 / 4]
  law _ _ _ := 1 / 2
  val _ a s := if a = 0 then 1 else if s = 0 then 0 else 2

/-- A network with one weight: the logistic policy. -/
noncomputable def exNet (s : ℝ) (_ : Fin 2) : Fin 2 → ℝ := ![1 / (1 + Real.exp s), Real.exp s / (1 + Real.exp s)]

theorem exNet_pos (s : ℝ) (i a : Fin 2) : 0 < exNet s i a := by
  unfold exNet
  fin_cases a <;> simp <;> positivity

theorem exNet_sum (s : ℝ) (i : Fin 2) : ∑ a, exNet s i a = 1 := by
  have : 1 + Real.exp s ≠ 0 := by positivity
  simp [exNet]
  field_simp

theorem exNet_diff (t : ℝ) (i a : Fin 2) : DifferentiableAt ℝ (fun s => exNet s i a) t := by
  have : ∀ x, 1 + Real.exp x ≠ 0 := fun x => by positivity
  fin_cases a <;> simp [exNet] <;> fun_prop (disch := exact this _)

/-- Wrong predictions and the doubly robust objective, at every weight of the network. -/
example (t : ℝ) : ∃ (Loss : (Fin 2 → Fin 2 × Fin 2) → ℝ → ℝ) (G : (Fin 2 → Fin 2 × Fin 2) → ℝ),
    (∀ w s, batchLoss .dr 0 0 0 (lossRows (exTrain.batch (fun _ => ![7, -3]) w) (exNet t) (exNet s)) = .ok (Loss w s)) ∧
    (∀ w, HasDerivAt (Loss w) (G w) t) ∧ HasDerivAt (fun s => exTrain.policyValue (exNet s)) (-expect exTrain.prob G) t := by
  refine C196_unbiased ⟨fun i => ⟨fun a => ?_, ?_⟩, fun i a => ⟨fun s => ?_, ?_⟩⟩ (fun i a => ?_) le_rfl (.inr (.inl rfl)) (by simp) _ _ t
    (exNet_pos t) exNet_sum (exNet_diff t)
  · fin_cases a <;> norm_num [exTrain]
  · norm_num [exTrain, Fin.sum_univ_two]
  · norm_num [exTrain]
  · norm_num [exTrain]
  · fin_cases a <;> norm_num [exTrain]

/-- Predictions that are too high by 5 in the first and by -2 in the second round: "dm" has the true gradient. -/
example (t : ℝ) : ∃ (Loss : ℝ → ℝ) (G : ℝ),
    (∀ w s, batchLoss .dm 0 0 0 (lossRows (exTrain.batch (fun i a => exTrain.meanReward i a + ![5, -2] i) w) (exNet t) (exNet s)) =
      .ok (Loss s)) ∧ HasDerivAt Loss (-G) t ∧ HasDerivAt (fun s => exTrain.policyValue (exNet s)) G t :=
  C196_dm (fun i a => by fin_cases a <;> norm_num [exTrain]) le_rfl 0 (b := ![5, -2]) (fun _ _ => rfl) _ t (exNet_pos t) exNet_sum
    (exNet_diff t)

/-- Shrunk weights: the hypotheses of `C196_expected_gradient`. -/
example (t : ℝ) : ∃ (Loss : (Fin 2 → Fin 2 × Fin 2) → ℝ → ℝ) (G : (Fin 2 → Fin 2 × Fin 2) → ℝ),
    (∀ w s, batchLoss .ipwOs 3 0 0 (lossRows (exTrain.batch (fun _ _ => 0) w) (exNet t) (exNet s)) = .ok (Loss w s)) ∧
    (∀ w, HasDerivAt (Loss w) (G w) t) ∧
    HasDerivAt (fun s => (∑ i, exTrain.objectiveTarget .ipwOs 3 (fun _ _ => 0) (exNet s) i) / (2 : ℕ)) (-expect exTrain.prob G) t := by
  refine C196_expected_gradient ⟨fun i => ⟨fun a => ?_, ?_⟩, fun i a => ⟨fun s => ?_, ?_⟩⟩ (fun i a => ?_) le_rfl .ipwOs
    (lam := 3) (by norm_num [Objective.Admissible]) _ _ t (exNet_pos t) (exNet_diff t)
  · fin_cases a <;> norm_num [exTrain]
  · norm_num [exTrain, Fin.sum_univ_two]
  · norm_num [exTrain]
  · norm_num [exTrain]
  · fin_cases a <;> norm_num [exTrain]

/-! ### C197 -/

/-- **C197.** A batch whose logged actions all have the probability `s` under the policy: the estimate is proportional to `s`, the loss to
`-s log s`. Its sign and its monotonicity have nothing to do with the estimate. -/
theorem C197_common_probability (rows : Fin n → NnRow A) (hn : 2 ≤ n) (hp : ∀ i, 0 < (rows i).pscore) {s : ℝ} (pi : Fin n → Fin A → ℝ)
    (hpos : ∀ i a, 0 < pi i a) (hsum : ∀ i, ∑ a, pi i a = 1) (hs : ∀ i, pi i (rows i).action = s) (lam : ℝ) :
    (Estimator.mk .ipw .inf false).estimatePolicyValue (nnLog rows false pi).args =
      .ok (s * ((∑ i, (rows i).reward / (rows i).pscore) / n)) ∧
    batchLoss .ipw lam 0 0 (lossRows rows pi pi) = .ok (-(s * Real.log s) * ((∑ i, (rows i).reward / (rows i).pscore) / n)) := by
  constructor
  · refine (estimator_value (lam := lam) .ipw (by decide) trivial rows (by omega) hp pi hpos hsum).trans ?_
    refine congrArg Except.ok ?_
    simp only [objectiveValue, hs, avg]
    rw [← mul_div_assoc, Finset.mul_sum]
    exact congrArg (· / (n : ℝ)) (Finset.sum_congr rfl fun i _ => by ring)
  · rw [batchLoss_eq .ipw lam 0 0 rows (by omega) (fun i => (hp i).ne')]
    obtain ⟨v, hv⟩ := torchVar_ok hn fun i => policyGradTerm .ipw lam (rows i) (pi i) (pi i)
    rw [hv, py_bind_ok]
    simp only [zero_mul, add_zero, policyGradTerm, hs, avg]
    refine congrArg Except.ok ?_
    rw [neg_mul, ← mul_div_assoc, Finset.mul_sum]
    exact congrArg (fun x => -(x / (n : ℝ))) (Finset.sum_congr rfl fun i _ => by ring)

/-- **C197.** The loss is not a yardstick for policies: on every batch in which the logged action is the first of two and the rewards are
positive, raising its probability from 1/8 to 1/2 multiplies the estimate by four, but the loss, which is to be minimised, goes up. -/
theorem C197_loss_rises_with_estimate (rows : Fin n → NnRow 2) (hn : 2 ≤ n) (hp : ∀ i, 0 < (rows i).pscore)
    (ha : ∀ i, (rows i).action = 0) (hr : ∀ i, 0 < (rows i).reward) (lam : ℝ) :
    ∃ v1 v2 l1 l2 : ℝ,
      (Estimator.mk .ipw .inf false).estimatePolicyValue (nnLog rows false fun _ => ![1 / 8, 7 / 8]).args = .ok v1 ∧
      (Estimator.mk .ipw .inf false).estimatePolicyValue (nnLog rows false fun _ => ![1 / 2, 1 / 2]).args = .ok v2 ∧
      batchLoss .ipw lam 0 0 (lossRows rows (fun _ => ![1 / 8, 7 / 8]) fun _ => ![1 / 8, 7 / 8]) = .ok l1 ∧
      batchLoss .ipw lam 0 0 (lossRows rows (fun _ => ![1 / 2, 1 / 2]) fun _ => ![1 / 2, 1 / 2]) = .ok l2 ∧
      v2 = 4 * v1 ∧ 0 < v1 ∧ l1 < l2 := by
  obtain ⟨a1, a2⟩ := C197_common_probability rows hn hp (s := 1 / 8) (fun _ => ![1 / 8, 7 / 8])
    (fun i a => by fin_cases a <;> norm_num) (fun i => by norm_num) (fun i => by rw [ha]; rfl) lam
  obtain ⟨b1, b2⟩ := C197_common_probability rows hn hp (s := 1 / 2) (fun _ => ![1 / 2, 1 / 2])
    (fun i a => by fin_cases a <;> norm_num) (fun i => by norm_num) (fun i => by rw [ha]; rfl) lam
  have hn0 : (0 : ℝ) < n := by exact_mod_cast (by omega : 0 < n)
  have hc : 0 < (∑ i, (rows i).reward / (rows i).pscore) / n :=
    div_pos (Finset.sum_pos (fun i _ => div_pos (hr i) (hp i)) ⟨⟨0, by omega⟩, Finset.mem_univ _⟩) hn0
  refine ⟨_, _, _, _, a1, b1, a2, b2, by ring, by positivity, ?_⟩
  refine mul_lt_mul_of_pos_right ?_ hc
  have h8 : Real.log (1 / 8 : ℝ) = -(3 * Real.log 2) := by
    rw [Real.log_div one_ne_zero (by norm_num), Real.log_one, show (8 : ℝ) = 2 ^ 3 by norm_num, Real.log_pow]
    norm_num
  have h2 : Real.log (1 / 2 : ℝ) = -Real.log 2 := by
    rw [Real.log_div one_ne_zero two_ne_zero, Real.log_one, zero_sub]
  rw [h8, h2]
  have := Real.log_pos (one_lt_two : (1 : ℝ) < 2)
  linarith

/-- Two rounds that meet the hypotheses. -/
example : ∃ rows : Fin 2 → NnRow 2, (∀ i, 0 < (rows i).pscore) ∧ (∀ i, (rows i).action = 0) ∧ ∀ i, 0 < (rows i).reward :=
  ⟨fun i => ⟨0, i + 1, 1 / 2, fun _ => 0⟩, fun _ => by norm_num, fun _ => rfl, fun i => by dsimp only; positivity⟩

/-- **C197.** `var_reg_param` penalises the sample variance of the weighted rewards times the *logarithms* of the probabilities. Only if
the logged actions all have the same probability under the policy, it is proportional to the sample variance of the estimate's
terms. -/
theorem C197_variance_partial (rows : Fin n → NnRow A) (hn : 2 ≤ n) (hp : ∀ i, 0 < (rows i).pscore) {s : ℝ} (pi : Fin n → Fin A → ℝ)
    (hs : ∀ i, pi i (rows i).action = s) (lam rv : ℝ) :
    ∃ l : ℝ, batchLoss .ipw lam 0 0 (lossRows rows pi pi) = .ok l ∧
      batchLoss .ipw lam 0 rv (lossRows rows pi pi) = .ok (l + rv * (Real.log s ^ 2 *
        ((∑ i, (pi i (rows i).action / (rows i).pscore * (rows i).reward -
          (∑ k, pi k (rows k).action / (rows k).pscore * (rows k).reward) / n) ^ 2) / (n - 1)))) := by
  obtain ⟨l, hl⟩ : ∃ l, l = -avg fun i => policyGradTerm .ipw lam (rows i) (pi i) (pi i) := ⟨_, rfl⟩
  refine ⟨l, ?_, ?_⟩
  · rw [batchLoss_eq .ipw lam 0 0 rows (by omega) (fun i => (hp i).ne'), torchVar_eq hn, py_bind_ok, hl]
    simp
  · rw [batchLoss_eq .ipw lam 0 rv rows (by omega) (fun i => (hp i).ne'), torchVar_eq hn, py_bind_ok, hl]
    simp only [zero_mul, add_zero, policyGradTerm, hs]
    refine congrArg Except.ok (congrArg (_ + ·) (congrArg (rv * ·) ?_))
    rw [← mul_div_assoc, Finset.mul_sum]
    refine congrArg (· / ((n : ℝ) - 1)) (Finset.sum_congr rfl fun i _ => ?_)
    have : (avg fun k => s / (rows k).pscore * (rows k).reward * Real.log s) =
        (∑ k, s / (rows k).pscore * (rows k).reward) / n * Real.log s := by
      unfold avg
      rw [← Finset.sum_mul]
      ring
    rw [this]
    ring

/-- **C197.** All terms of the estimate are one, so that their variance is zero, and yet the variance penalty is positive. -/
theorem C197_penalty_without_variance {rv : ℝ} (hv : 0 < rv) :
    ∃ (rows : Fin 2 → NnRow 2) (pi : Fin 2 → Fin 2 → ℝ) (l : ℝ), (∀ i, IsDist (pi i)) ∧ (∀ i, 0 < (rows i).pscore) ∧
      (∀ i, pi i (rows i).action / (rows i).pscore * (rows i).reward = 1) ∧
      batchLoss .ipw 0 0 0 (lossRows rows pi pi) = .ok l ∧
      batchLoss .ipw 0 0 rv (lossRows rows pi pi) = .ok (l + rv * (Real.log 2 ^ 2 / 2)) ∧ 0 < rv * (Real.log 2 ^ 2 / 2) := by
  have h4 : Real.log (1 / 4 : ℝ) = -(2 * Real.log 2) := by
    rw [Real.log_div one_ne_zero (by norm_num), Real.log_one, show (4 : ℝ) = 2 ^ 2 by norm_num, Real.log_pow]
    norm_num
  have h2 : Real.log (1 / 2 : ℝ) = -Real.log 2 := by
    rw [Real.log_div one_ne_zero two_ne_zero, Real.log_one, zero_sub]
  have hlog := Real.log_pos (one_lt_two : (1 : ℝ) < 2)
  let rows : Fin 2 → NnRow 2 := fun i => ⟨0, 1, if i = 0 then 1 / 2 else 1 / 4, fun _ => 0⟩
  let pi : Fin 2 → Fin 2 → ℝ := fun i => if i = 0 then ![1 / 2, 1 / 2] else ![1 / 4, 3 / 4]
  have hp : ∀ i, 0 < (rows i).pscore := fun i => by fin_cases i <;> norm_num [rows]
  have hl : ∀ rv, batchLoss .ipw 0 0 rv (lossRows rows pi pi) = .ok (3 / 2 * Real.log 2 + rv * (Real.log 2 ^ 2 / 2)) := fun rv => by
    rw [batchLoss_eq .ipw 0 0 rv rows (by omega) (fun i => (hp i).ne'), torchVar_eq le_rfl, py_bind_ok]
    refine congrArg Except.ok ?_
    simp only [avg, Fin.sum_univ_two, policyGradTerm, rows, pi]
    norm_num [h4, h2]
    ring
  refine ⟨rows, pi, 3 / 2 * Real.log 2, fun i => ⟨fun a => ?_, ?_⟩, hp, fun i => ?_, ?_, hl rv, by positivity⟩
  · fin_cases i <;> fin_cases a <;> norm_num [pi]
  · fin_cases i <;> norm_num [pi, Fin.sum_univ_two]
  · fin_cases i <;> norm_num [rows, pi]
  · rw [hl 0]
    simp

/-- **C197.** `policy_reg_param` rewards staying away from the logged actions: whatever the rewards, the loss is below every bound for
policies that play all logged actions with a small probability `s`. -/
theorem C197_policy_penalty_unbounded (rows : Fin n → NnRow A) (hn : 2 ≤ n) (hp : ∀ i, 0 < (rows i).pscore) (lam : ℝ) {rp : ℝ}
    (hr : 0 < rp) (M : ℝ) : ∃ delta : ℝ, 0 < delta ∧ ∀ s, 0 < s → s < delta → ∀ pi : Fin n → Fin A → ℝ,
      (∀ i, pi i (rows i).action = s) → ∃ l, batchLoss .ipw lam rp 0 (lossRows rows pi pi) = .ok l ∧ l < M := by
  have hn0 : (0 : ℝ) < n := by exact_mod_cast (by omega : 0 < n)
  obtain ⟨c, hc⟩ : ∃ c, c = (∑ i, (rows i).reward / (rows i).pscore) / n := ⟨_, rfl⟩
  obtain ⟨d, hd⟩ : ∃ d, d = (∑ i, 1 / (rows i).pscore) / n := ⟨_, rfl⟩
  have hd0 : 0 < d := by
    rw [hd]
    exact div_pos (Finset.sum_pos (fun i _ => one_div_pos.2 (hp i)) ⟨⟨0, by omega⟩, Finset.mem_univ _⟩) hn0
  refine ⟨min 1 (Real.exp ((M - |c|) / rp) / d), lt_min one_pos (by positivity), fun s hs hlt pi hpi => ?_⟩
  obtain ⟨h1, h2⟩ := lt_min_iff.1 hlt
  have h3 : Real.log (s * d) < (M - |c|) / rp := by
    rw [Real.log_lt_iff_lt_exp (by positivity)]
    exact (lt_div_iff₀ hd0).1 h2
  have h4 : |s * Real.log s * c| ≤ |c| := by
    have hl0 : Real.log s ≤ 0 := Real.log_nonpos hs.le h1.le
    have hl1 : -(s * Real.log s) ≤ 1 := by
      have := Real.log_le_sub_one_of_pos (one_div_pos.2 hs)
      rw [Real.log_div one_ne_zero hs.ne', Real.log_one, zero_sub] at this
      have h := mul_le_mul_of_nonneg_left this hs.le
      have e : s * (1 / s - 1) = 1 - s := by field_simp
      rw [e] at h
      linarith
    have hl2 : s * Real.log s ≤ 0 := mul_nonpos_of_nonneg_of_nonpos hs.le hl0
    rw [abs_mul]
    refine mul_le_of_le_one_left (abs_nonneg _) ?_
    rw [abs_of_nonpos hl2]
    exact hl1
  refine ⟨-(s * Real.log s * c) + rp * Real.log (s * d), ?_, ?_⟩
  · rw [batchLoss_eq .ipw lam rp 0 rows (by omega) (fun i => (hp i).ne'), torchVar_eq hn, py_bind_ok]
    have e1 : (avg fun i => policyGradTerm .ipw lam (rows i) (pi i) (pi i)) = s * Real.log s * c := by
      simp only [policyGradTerm, hpi, avg]
      rw [hc, ← mul_div_assoc, Finset.mul_sum]
      exact congrArg (· / (n : ℝ)) (Finset.sum_congr rfl fun i _ => by ring)
    have e2 : (avg fun i => pi i (rows i).action / (rows i).pscore) = s * d := by
      simp only [hpi, avg]
      rw [hd, ← mul_div_assoc, Finset.mul_sum]
      exact congrArg (· / (n : ℝ)) (Finset.sum_congr rfl fun i _ => by ring)
    rw [e1, e2, zero_mul, add_zero]
    rfl
  · have h5 := (lt_div_iff₀ hr).1 h3
    have h6 := neg_abs_le (s * Real.log s * c)
    linarith

end Obp
