import Verif.Lemmas.Offline
import Verif.Props.EstimatorValues
import Mathlib.Analysis.SpecialFunctions.Log.Deriv
import Mathlib.Analysis.Calculus.Deriv.Inv
import Mathlib.Analysis.Calculus.Deriv.Add
import Mathlib.Analysis.Calculus.Deriv.Mul
import Mathlib.Analysis.Calculus.Deriv.Pow

/-!
# C72, C73, C102: training of `NNPolicyLearner`

Networks are arbitrary differentiable families of policies with positive probabilities; losses are arbitrary
sequences.
-/

set_option linter.unusedSectionVars false

namespace Obp

open Log

/-! ### C72 -/

section gradients
variable {A n : ℕ}

/-- **C72.** One round: differentiating the term of the loss, where the current probabilities are held fixed
and only the logarithm is differentiated, gives the derivative of the round's share in the estimate. -/
theorem C72_round (obj : Objective) {lam : ℝ} (hl : obj.Admissible lam) (r : NnRow A) (hp : 0 < r.pscore)
    (pi : ℝ → Fin A → ℝ) (pi' : Fin A → ℝ) (t : ℝ) (hpi : ∀ a, 0 < pi t a)
    (hd : ∀ a, HasDerivAt (fun s => pi s a) (pi' a) t) :
    ∃ D, HasDerivAt (fun s => objectiveValue obj lam r (pi s)) D t ∧
      HasDerivAt (fun s => policyGradTerm obj lam r (pi t) (pi s)) D t := by
  have hlog : ∀ a, HasDerivAt (fun s => Real.log (pi s a)) (pi' a / pi t a) t := fun a =>
    (hd a).log (hpi a).ne'
  have hw : HasDerivAt (fun s => pi s r.action / r.pscore) (pi' r.action / r.pscore) t := (hd _).div_const _
  have hwpos : 0 < pi t r.action / r.pscore := div_pos (hpi _) hp
  have hne := (hpi r.action).ne'
  have hpne := hp.ne'
  have hdm1 : HasDerivAt (fun s => ∑ a, r.qHat a * pi s a) (∑ a, r.qHat a * pi' a) t :=
    HasDerivAt.fun_sum fun a _ => (hd a).const_mul _
  have hdm2 : HasDerivAt (fun s => ∑ a, r.qHat a * pi t a * Real.log (pi s a)) (∑ a, r.qHat a * pi' a) t := by
    have : ∑ a, r.qHat a * pi' a = ∑ a, r.qHat a * pi t a * (pi' a / pi t a) :=
      Finset.sum_congr rfl fun a _ => by
        have := (hpi a).ne'
        field_simp
    rw [this]
    exact HasDerivAt.fun_sum fun a _ => (hlog a).const_mul _
  cases obj with
  | dm => exact ⟨_, hdm1, hdm2⟩
  | ipw =>
    refine ⟨pi' r.action / r.pscore * r.reward, hw.mul_const _, ?_⟩
    refine ((hlog r.action).const_mul (pi t r.action / r.pscore * r.reward)).congr_deriv ?_
    field_simp
  | dr =>
    refine ⟨pi' r.action / r.pscore * (r.reward - r.qHat r.action) + ∑ a, r.qHat a * pi' a,
      (hw.mul_const _).add hdm1, ?_⟩
    refine (((hlog r.action).const_mul (pi t r.action / r.pscore * (r.reward - r.qHat r.action))).add
      hdm2).congr_deriv ?_
    congr 1
    field_simp
  | snipw =>
    refine ⟨pi' r.action / r.pscore * (r.reward - lam), hw.mul_const _, ?_⟩
    refine ((hlog r.action).const_mul (pi t r.action / r.pscore * (r.reward - lam))).congr_deriv ?_
    field_simp
  | ipwOs =>
    have hden : (pi t r.action / r.pscore) ^ 2 + lam ≠ 0 := by
      have : 0 ≤ lam := hl
      positivity
    have h1 := ((hw.const_mul lam).fun_div ((hw.fun_pow 2).add_const lam) hden).mul_const r.reward
    refine ⟨_, h1, ((hlog r.action).const_mul ((lam - (pi t r.action / r.pscore) ^ 2) /
      ((pi t r.action / r.pscore) ^ 2 + lam) ^ 2 * (lam * (pi t r.action / r.pscore)) * r.reward)).congr_deriv ?_⟩
    have hpt : pi t r.action = pi t r.action / r.pscore * r.pscore := by field_simp
    generalize pi t r.action / r.pscore = w at *
    rw [hpt]
    have hw0 := hwpos.ne'
    field_simp
    push_cast
    ring
  | ipwSubgauss =>
    obtain ⟨h0, h1⟩ : 0 ≤ lam ∧ lam ≤ 1 := hl
    have hden : 1 - lam + lam * (pi t r.action / r.pscore) ≠ 0 := by
      rcases h0.eq_or_lt with h | h
      · rw [← h]; norm_num
      · have := mul_pos h hwpos
        have : 0 < 1 - lam + lam * (pi t r.action / r.pscore) := by linarith
        exact this.ne'
    have h2 := (hw.fun_div ((hw.const_mul lam).const_add (1 - lam)) hden).mul_const r.reward
    refine ⟨_, h2, ((hlog r.action).const_mul ((1 - lam) * (pi t r.action / r.pscore) /
      (1 - lam + lam * (pi t r.action / r.pscore)) ^ 2 * r.reward)).congr_deriv ?_⟩
    have hpt : pi t r.action = pi t r.action / r.pscore * r.pscore := by field_simp
    generalize pi t r.action / r.pscore = w at *
    rw [hpt]
    have hw0 := hwpos.ne'
    field_simp
    ring

/-- A mini-batch as a log for the estimators; `withQ` says whether the reward predictions are used. -/
def nnLog (rows : Fin n → NnRow A) (withQ : Bool) (pi : Fin n → Fin A → ℝ) : Log ℝ n A 1 where
  action i := (rows i).action
  reward i := (rows i).reward
  pscore i := (rows i).pscore
  estPscore i := (rows i).pscore
  position _ := 0
  piE i a _ := pi i a
  q i a _ := if withQ then (rows i).qHat a else 0
  estIw _ := 0

/-- The estimator that an objective is meant to maximise: optimistic shrinkage is DRos without reward
predictions. (There is no such estimator for "snipw", see `C72_snipw`.) -/
def Objective.estimator (lam : ℝ) : Objective → Estimator ℝ
  | .dm => ⟨.dm, .inf, false⟩
  | .ipw => ⟨.ipw, .inf, false⟩
  | .dr => ⟨.dr, .inf, false⟩
  | .snipw => ⟨.ipw, .inf, false⟩
  | .ipwOs => ⟨.drOs, .fin lam, false⟩
  | .ipwSubgauss => ⟨.sgIpw, .fin lam, false⟩

/-- Does the estimator of an objective use reward predictions? -/
def Objective.usesQ : Objective → Bool
  | .dm => true
  | .dr => true
  | _ => false

theorem nnLog_valid (rows : Fin n → NnRow A) (hn : 0 < n) (hp : ∀ i, 0 < (rows i).pscore) (b : Bool)
    (pi : Fin n → Fin A → ℝ) (hsum : ∀ i, ∑ a, pi i a = 1) : (nnLog rows b pi).Valid := by
  refine ⟨hn, hp, hp, fun _ => le_rfl, fun i l => ?_⟩
  change closeToOne (∑ a, pi i a) = true
  rw [hsum, closeToOne_one]

theorem estimator_value (obj : Objective) (hs : obj ≠ .snipw) {lam : ℝ} (hl : obj.Admissible lam)
    (rows : Fin n → NnRow A) (hn : 0 < n) (hp : ∀ i, 0 < (rows i).pscore) (pi : Fin n → Fin A → ℝ)
    (hpos : ∀ i a, 0 < pi i a) (hsum : ∀ i, ∑ a, pi i a = 1) :
    (obj.estimator lam).estimatePolicyValue (nnLog rows obj.usesQ pi).args =
      .ok (avg fun i => objectiveValue obj lam (rows i) (pi i)) := by
  have hv := fun b => nnLog_valid rows hn hp b pi hsum
  have hw : ∀ b i, (nnLog rows b pi).weight false i = pi i (rows i).action / (rows i).pscore := fun _ _ => rfl
  have hwpos : ∀ i, 0 < pi i (rows i).action / (rows i).pscore := fun i => div_pos (hpos _ _) (hp i)
  have hm : ∀ i, (nnLog rows true pi).modelValue i = ∑ a, (rows i).qHat a * pi i a := fun i => by
    unfold Log.modelValue
    change (∑ a, (rows i).qHat a * pi i a) / ∑ a, pi i a = _
    rw [hsum, div_one]
  cases obj with
  | dm =>
    refine (value_dm (hv true) _ _).trans ?_
    congr 2; funext i; exact hm i
  | ipw =>
    refine (value_ipw (hv false) _ _).trans ?_
    congr 2; funext i
    rw [hw]
    exact mul_comm _ _
  | dr =>
    refine (value_dr (hv true) _ _).trans ?_
    congr 2; funext i
    rw [hm, hw, add_comm]
    rfl
  | snipw => exact absurd rfl hs
  | ipwOs =>
    have h0 : 0 ≤ lam := hl
    refine (value_drOs (hv false) false lam fun i => ?_).trans ?_
    · rw [hw]
      have := hwpos i
      positivity
    · congr 2; funext i
      rw [hw]
      have : (nnLog rows false pi).modelValue i = 0 := by
        unfold Log.modelValue nnLog
        simp
      rw [this, zero_add]
      congr 1
      exact sub_zero _
  | ipwSubgauss =>
    obtain ⟨h0, h1⟩ : 0 ≤ lam ∧ lam ≤ 1 := hl
    refine (value_sgIpw (hv false) false lam fun i => ?_).trans ?_
    · rw [hw]
      rcases h0.eq_or_lt with h | h
      · rw [← h]; norm_num
      · have := mul_pos h (hwpos i)
        have : 0 < 1 - lam + lam * (pi i (rows i).action / (rows i).pscore) := by linarith
        exact this.ne'
    · congr 2

/-- Rows of a mini-batch as they enter the loss. -/
def lossRows (rows : Fin n → NnRow A) (detached pi : Fin n → Fin A → ℝ) :
    List (NnRow A × (Fin A → ℝ) × (Fin A → ℝ)) := List.ofFn fun i => (rows i, detached i, pi i)

theorem npMean_ofFn_avg (hn : 0 < n) (f : Fin n → ℝ) : npMean (List.ofFn f) = .ok (avg f) := by
  exact npMean_ofFn hn f

theorem policyConstraint_ok (rows : Fin n → NnRow A) (hn : 0 < n) (hp : ∀ i, (rows i).pscore ≠ 0)
    (pi : Fin n → Fin A → ℝ) :
    policyConstraint (List.ofFn fun i => (rows i, pi i)) =
      .ok (Real.log (avg fun i => pi i (rows i).action / (rows i).pscore)) := by
  unfold policyConstraint
  rw [mapM_ofFn_ok (f := fun s : NnRow A × (Fin A → ℝ) => npDiv (s.2 s.1.action) s.1.pscore)
    (y := fun i => pi i (rows i).action / (rows i).pscore) fun i => npDiv_ok (hp i), py_bind_ok,
    npMean_ofFn_avg hn, py_bind_ok]
  rfl

theorem batchLoss_eq (obj : Objective) (lam rp rv : ℝ) (rows : Fin n → NnRow A) (hn : 0 < n)
    (hp : ∀ i, (rows i).pscore ≠ 0) (detached pi : Fin n → Fin A → ℝ) :
    batchLoss obj lam rp rv (lossRows rows detached pi) = (do
      let v ← torchVar (List.ofFn fun i => policyGradTerm obj lam (rows i) (detached i) (pi i))
      pure (-(avg fun i => policyGradTerm obj lam (rows i) (detached i) (pi i)) +
        rp * Real.log (avg fun i => pi i (rows i).action / (rows i).pscore) + rv * v)) := by
  unfold batchLoss lossRows
  simp only [List.map_ofFn, Function.comp_def]
  rw [policyConstraint_ok rows hn hp, py_bind_ok, npMean_ofFn_avg hn, py_bind_ok]

theorem torchVar_ok (hn : 2 ≤ n) (f : Fin n → ℝ) : ∃ v, torchVar (List.ofFn f) = .ok v := by
  unfold torchVar
  rw [npMean_ofFn_avg (by omega), py_bind_ok]
  refine ⟨_, npDiv_ok ?_⟩
  rw [List.length_ofFn]
  have : (2 : ℝ) ≤ n := by exact_mod_cast hn
  intro h
  linarith

theorem torchVar_eq (hn : 2 ≤ n) (f : Fin n → ℝ) :
    torchVar (List.ofFn f) = .ok ((∑ i, (f i - avg f) ^ 2) / (n - 1)) := by
  unfold torchVar
  rw [npMean_ofFn_avg (by omega), py_bind_ok, List.map_ofFn, List.sum_ofFn, List.length_ofFn]
  refine npDiv_ok ?_
  have : (2 : ℝ) ≤ n := by exact_mod_cast hn
  intro h
  linarith

/-- **C72.** With regularisation the loss adds `policy_reg_param` times the logarithm of the mean importance weight and
`var_reg_param` times the unbiased sample variance of the terms whose mean is maximised. -/
theorem C72_regularised (obj : Objective) (lam rp rv : ℝ) (rows : Fin n → NnRow A) (hn : 2 ≤ n)
    (hp : ∀ i, 0 < (rows i).pscore) (detached pi : Fin n → Fin A → ℝ) :
    ∃ g : Fin n → ℝ, batchLoss obj lam 0 0 (lossRows rows detached pi) = .ok (-((∑ i, g i) / n)) ∧
      batchLoss obj lam rp rv (lossRows rows detached pi) = .ok (-((∑ i, g i) / n) +
        rp * Real.log ((∑ i, pi i (rows i).action / (rows i).pscore) / n) +
        rv * ((∑ i, (g i - (∑ k, g k) / n) ^ 2) / (n - 1))) := by
  refine ⟨fun i => policyGradTerm obj lam (rows i) (detached i) (pi i), ?_, ?_⟩
  · rw [batchLoss_eq obj lam 0 0 rows (by omega) (fun i => (hp i).ne'), torchVar_eq hn, py_bind_ok]
    simp only [zero_mul, add_zero]
    rfl
  · rw [batchLoss_eq obj lam rp rv rows (by omega) (fun i => (hp i).ne'), torchVar_eq hn, py_bind_ok]
    rfl

/-- **C72.** The training loss of a mini-batch (without regularisation) has minus the gradient of the
corresponding off-policy estimate of the current policy: for every differentiable family of policies with
positive probabilities, at every parameter. -/
theorem C72_loss_gradient (obj : Objective) (hs : obj ≠ .snipw) {lam : ℝ} (hl : obj.Admissible lam)
    (rows : Fin n → NnRow A) (hn : 2 ≤ n) (hp : ∀ i, 0 < (rows i).pscore) (pi : ℝ → Fin n → Fin A → ℝ)
    (hpos : ∀ s i a, 0 < pi s i a) (hsum : ∀ s i, ∑ a, pi s i a = 1) (t : ℝ)
    (hd : ∀ i a, DifferentiableAt ℝ (fun s => pi s i a) t) :
    ∃ (V Loss : ℝ → ℝ) (D : ℝ),
      (∀ s, (obj.estimator lam).estimatePolicyValue (nnLog rows obj.usesQ (pi s)).args = .ok (V s)) ∧
      (∀ s, batchLoss obj lam 0 0 (lossRows rows (pi t) (pi s)) = .ok (Loss s)) ∧
      HasDerivAt V D t ∧ HasDerivAt Loss (-D) t := by
  choose D h1 h2 using fun i => C72_round obj hl (rows i) (hp i) (fun s => pi s i)
    (fun a => deriv (fun s => pi s i a) t) t (hpos t i) fun a => (hd i a).hasDerivAt
  refine ⟨fun s => avg fun i => objectiveValue obj lam (rows i) (pi s i),
    fun s => -avg fun i => policyGradTerm obj lam (rows i) (pi t i) (pi s i), avg D,
    fun s => estimator_value obj hs hl rows (by omega) hp (pi s) (hpos s) (hsum s), fun s => ?_, ?_, ?_⟩
  · rw [batchLoss_eq obj lam 0 0 rows (by omega) (fun i => (hp i).ne')]
    obtain ⟨v, hv⟩ := torchVar_ok hn fun i => policyGradTerm obj lam (rows i) (pi t i) (pi s i)
    rw [hv, py_bind_ok]
    simp
  · exact (HasDerivAt.fun_sum fun i _ => h1 i).div_const _
  · exact ((HasDerivAt.fun_sum fun i _ => h2 i).div_const _).neg

/-- **C72.** For "snipw" the loss has minus the gradient of the IPW estimate of the rewards translated by
`lambda_` (the Lagrangian form of self-normalisation). -/
theorem C72_snipw {lam : ℝ} (hl : 0 ≤ lam) (rows : Fin n → NnRow A) (hn : 2 ≤ n)
    (hp : ∀ i, 0 < (rows i).pscore) (pi : ℝ → Fin n → Fin A → ℝ)
    (hpos : ∀ s i a, 0 < pi s i a) (hsum : ∀ s i, ∑ a, pi s i a = 1) (t : ℝ)
    (hd : ∀ i a, DifferentiableAt ℝ (fun s => pi s i a) t) :
    ∃ (V Loss : ℝ → ℝ) (D : ℝ),
      (∀ s, (Estimator.mk .ipw .inf false).estimatePolicyValue
        (nnLog (fun i => { rows i with reward := (rows i).reward - lam }) false (pi s)).args = .ok (V s)) ∧
      (∀ s, batchLoss .snipw lam 0 0 (lossRows rows (pi t) (pi s)) = .ok (Loss s)) ∧
      HasDerivAt V D t ∧ HasDerivAt Loss (-D) t := by
  choose D h1 h2 using fun i => C72_round .snipw hl (rows i) (hp i) (fun s => pi s i)
    (fun a => deriv (fun s => pi s i a) t) t (hpos t i) fun a => (hd i a).hasDerivAt
  refine ⟨fun s => avg fun i => objectiveValue .snipw lam (rows i) (pi s i),
    fun s => -avg fun i => policyGradTerm .snipw lam (rows i) (pi t i) (pi s i), avg D, fun s => ?_,
    fun s => ?_, ?_, ?_⟩
  · exact estimator_value (lam := lam) .ipw (by decide) trivial
      (fun i => { rows i with reward := (rows i).reward - lam }) (by omega) hp (pi s) (hpos s) (hsum s)
  · rw [batchLoss_eq .snipw lam 0 0 rows (by omega) (fun i => (hp i).ne')]
    obtain ⟨v, hv⟩ := torchVar_ok hn fun i => policyGradTerm .snipw lam (rows i) (pi t i) (pi s i)
    rw [hv, py_bind_ok]
    simp
  · exact (HasDerivAt.fun_sum fun i _ => h1 i).div_const _
  · exact ((HasDerivAt.fun_sum fun i _ => h2 i).div_const _).neg

/-- **C72.** The weights of "ipw-os" and "ipw-subgauss" are the importance weight times the derivative of the
shrunk weight. -/
theorem C72_weights {lam w : ℝ} (hw : 0 < w) (h0 : 0 ≤ lam) (h1 : lam ≤ 1) :
    HasDerivAt (fun w => lam * w / (w ^ 2 + lam)) ((lam - w ^ 2) / (w ^ 2 + lam) ^ 2 * (lam * w) / w) w ∧
    HasDerivAt (fun w => w / (1 - lam + lam * w)) ((1 - lam) * w / (1 - lam + lam * w) ^ 2 / w) w := by
  have hden : w ^ 2 + lam ≠ 0 := by positivity
  have hden' : 1 - lam + lam * w ≠ 0 := by
    rcases h0.eq_or_lt with h | h
    · rw [← h]; norm_num
    · have := mul_pos h hw
      have : 0 < 1 - lam + lam * w := by linarith
      exact this.ne'
  have hid := hasDerivAt_id' w
  constructor
  · refine ((hid.const_mul lam).fun_div ((hid.fun_pow 2).add_const lam) hden).congr_deriv ?_
    have := hw.ne'
    field_simp
    push_cast
    ring
  · refine (hid.fun_div ((hid.const_mul lam).const_add (1 - lam)) hden').congr_deriv ?_
    have := hw.ne'
    field_simp
    ring

/-- A policy over two actions that depends on a parameter: the logistic family. -/
example : (∀ s (a : Fin 2), 0 < (![1 / (1 + Real.exp s), Real.exp s / (1 + Real.exp s)] : Fin 2 → ℝ) a) ∧
    ∀ s, ∑ a, (![1 / (1 + Real.exp s), Real.exp s / (1 + Real.exp s)] : Fin 2 → ℝ) a = 1 := by
  refine ⟨fun s a => ?_, fun s => ?_⟩
  · fin_cases a <;> simp <;> positivity
  · have : 1 + Real.exp s ≠ 0 := by positivity
    simp
    field_simp

/-! ### C102 -/

/-- **C102.** The loss of a mini-batch is a number exactly when the batch has at least two rounds: `torch.var`
of one entry is NaN, even when `var_reg_param` is 0. -/
theorem C102_loss_finite_iff_partial (obj : Objective) (lam rp rv : ℝ) (rows : Fin n → NnRow A) (hn : 0 < n)
    (hp : ∀ i, (rows i).pscore ≠ 0) (detached pi : Fin n → Fin A → ℝ) :
    (∃ l, batchLoss obj lam rp rv (lossRows rows detached pi) = .ok l) ↔ 2 ≤ n := by
  rw [batchLoss_eq obj lam rp rv rows hn hp]
  constructor
  · rintro ⟨l, h⟩
    by_contra hlt
    have h1 : n = 1 := by omega
    subst h1
    obtain ⟨v, hv, -⟩ := py_bind_eq_ok.1 h
    unfold torchVar at hv
    rw [npMean_ofFn_avg hn, py_bind_ok, List.length_ofFn, Nat.cast_one, sub_self, npDiv_zero] at hv
    cases hv
  · intro h2
    obtain ⟨v, hv⟩ := torchVar_ok h2 fun i => policyGradTerm obj lam (rows i) (detached i) (pi i)
    exact ⟨_, by rw [hv, py_bind_ok]; rfl⟩

/-- **C102.** Every data set with one round more than a multiple of the batch size has such a mini-batch in every
epoch; with the default batch size "auto" these are the data sets of 1, 201, 401, ... rounds. -/
theorem C102_singleton_batch {n b : ℕ} (h : n % b = 1) : 1 ∈ batchSizes n b := by
  unfold batchSizes
  rw [h]
  simp

theorem C102_auto_batch (k : ℕ) (hk : 0 < k) : 1 ∈ batchSizes (200 * k + 1) (autoBatch (200 * k + 1)) := by
  have : autoBatch (200 * k + 1) = 200 := by unfold autoBatch; omega
  rw [this]
  exact C102_singleton_batch (by omega)

/-- **C102.** The mini-batches of an epoch cover the data. -/
theorem C102_batches_cover (n b : ℕ) : (batchSizes n b).sum = n := by
  unfold batchSizes
  rw [List.sum_append, List.sum_replicate, smul_eq_mul]
  have := Nat.div_add_mod n b
  split <;> simp <;> nlinarith

end gradients

/-! ### C73 -/

section early
variable {K : Type} [Field K] [LinearOrder K] [IsStrictOrderedRing K]

/-- Before the counter has reached its limit, after `j` steps of a run that improves at every step. -/
def improvingState (loss : ℕ → K) (j : ℕ) : TrainState K where
  steps := j
  notImproving := j - 1
  previous := if j = 0 then none else some (loss (j - 1))

theorem improving_lt {loss : ℕ → K} {tol : K} (ht : 0 ≤ tol) (h : ∀ k, loss (k + 1) < loss k - tol) {i j : ℕ}
    (hij : i < j) : loss j - loss i < tol := by
  have hlt : loss j < loss i := by
    induction j with
    | zero => omega
    | succ j ih =>
      rcases Nat.lt_succ_iff_lt_or_eq.1 hij with h1 | h1
      · have := ih h1; have := h j; linarith
      · subst h1; have := h i; linarith
  linarith

theorem trainEpoch_improving {loss : ℕ → K} {tol : K} (ht : 0 ≤ tol) (h : ∀ k, loss (k + 1) < loss k - tol)
    {N : ℕ} (hN : 0 < N) (b j : ℕ) (hj : j ≤ N) :
    trainEpoch loss tol N b (improvingState loss j) =
      if j + b ≤ N then improvingState loss (j + b)
      else { steps := N + 1, notImproving := N, previous := some (loss (N - 1)) } := by
  induction b generalizing j with
  | zero => rw [if_pos (by omega)]; rfl
  | succ b ih =>
    unfold trainEpoch
    have hc : nextCount tol (improvingState loss j).previous (improvingState loss j).notImproving
        (loss (improvingState loss j).steps) = j := by
      unfold improvingState nextCount
      rcases Nat.eq_zero_or_pos j with h0 | h0
      · subst h0; rfl
      · simp only [h0.ne', if_false]
        rw [if_pos (improving_lt ht h (by omega))]
        omega
    dsimp only
    rw [hc]
    by_cases hjN : N ≤ j
    · have : j = N := by omega
      subst this
      rw [if_pos le_rfl, if_neg (by omega)]
      simp [improvingState, hN.ne']
    · rw [if_neg hjN]
      have e : ({ steps := (improvingState loss j).steps + 1, notImproving := j
                  previous := some (loss (improvingState loss j).steps) } : TrainState K) =
          improvingState loss (j + 1) := by
        simp [improvingState]
      rw [e, ih (j + 1) (by omega)]
      rw [show j + 1 + b = j + (b + 1) by omega]

theorem trainLoop_broken {loss : ℕ → K} {tol : K} (ht : 0 ≤ tol) (h : ∀ k, loss (k + 1) < loss k - tol)
    {N B : ℕ} (hB : 0 < B) (e : ℕ) (s : TrainState K) (i : ℕ) (hprev : s.previous = some (loss i))
    (hi : i < s.steps) (hs : N ≤ s.notImproving) :
    (trainLoop loss tol N B e s).steps = s.steps + e := by
  induction e generalizing s with
  | zero => rfl
  | succ e ih =>
    obtain ⟨b, rfl⟩ : ∃ b, B = b + 1 := ⟨B - 1, by omega⟩
    have hstep : trainEpoch loss tol N (b + 1) s =
        { s with steps := s.steps + 1, notImproving := s.notImproving + 1 } := by
      unfold trainEpoch nextCount
      simp only [hprev]
      rw [if_pos (improving_lt ht h hi), if_pos (by omega)]
    unfold trainLoop
    rw [hstep, ih { s with steps := s.steps + 1, notImproving := s.notImproving + 1 } hprev
      (Nat.lt_succ_of_lt hi) (Nat.le_succ_of_le hs)]
    simp; omega

/-- **C73.** What happens to a run in which the loss goes down by more than `tol` at every optimiser step: once
`n_iter_no_change` steps have been counted, every remaining epoch consists of a single step, instead of
`batches` steps. Early stopping hits exactly the runs that it should leave alone. -/
theorem C73_improving_run {loss : ℕ → K} {tol : K} (ht : 0 ≤ tol) (h : ∀ k, loss (k + 1) < loss k - tol)
    {N B : ℕ} (hN : 0 < N) (hB : 0 < B) (E : ℕ) :
    stepsDone loss tol N B E = if N / B < E then N + (E - N / B) else E * B := by
  have key : ∀ e j, j ≤ N → (trainLoop loss tol N B e (improvingState loss j)).steps =
      if j + e * B ≤ N then j + e * B else N + (e - (N - j) / B) := by
    intro e
    induction e with
    | zero =>
      intro j hj
      simp only [zero_mul, add_zero, if_pos hj]
      rfl
    | succ e ih =>
      intro j hj
      unfold trainLoop
      rw [trainEpoch_improving ht h hN B j hj]
      by_cases hc : j + B ≤ N
      · rw [if_pos hc, ih _ hc]
        have e1 : j + B + e * B = j + (e + 1) * B := by ring
        rw [e1]
        have e2 : (N - j) / B = (N - (j + B)) / B + 1 := by
          rw [← Nat.add_div_right _ hB]
          congr 1
          omega
        rw [e2, Nat.add_sub_add_right]
      · rw [if_neg hc, trainLoop_broken ht h hB e
          { steps := N + 1, notImproving := N, previous := some (loss (N - 1)) } (N - 1) rfl
          (show N - 1 < N + 1 by omega) le_rfl]
        have hz : (N - j) / B = 0 := Nat.div_eq_of_lt (by omega)
        rw [if_neg (by nlinarith), hz]
        simp
        omega
  have := key E 0 (Nat.zero_le _)
  unfold stepsDone
  rw [show (trainInit : TrainState K) = improvingState loss 0 from rfl, this]
  simp only [zero_add, Nat.sub_zero]
  by_cases hc : N / B < E
  · rw [if_pos hc, if_neg fun hle => absurd ((Nat.le_div_iff_mul_le hB).2 hle) (not_le.2 hc)]
  · rw [if_neg hc, if_pos]
    have := not_lt.1 hc
    calc E * B ≤ N / B * B := Nat.mul_le_mul_right _ this
      _ ≤ N := Nat.div_mul_le_self _ _

/-- **C73.** So a run that improves at every step loses most of its optimiser steps: with the documented default
`n_iter_no_change=10`, fifty mini-batches per epoch and 200 epochs, 210 steps are done instead of 10000. -/
theorem C73_improving_run_stopped : ∃ (loss : ℕ → ℚ) (tol : ℚ), 0 ≤ tol ∧ (∀ k, loss (k + 1) < loss k - tol) ∧
    stepsDone loss tol 10 50 200 = 210 ∧ 210 < 200 * 50 := by
  have h : ∀ k : ℕ, (-((k + 1 : ℕ) : ℚ)) < -(k : ℚ) - 1 / 10000 := fun k => by push_cast; linarith
  refine ⟨fun k => -(k : ℚ), 1 / 10000, by norm_num, h, ?_, by norm_num⟩
  rw [C73_improving_run (by norm_num) h (by norm_num) (by norm_num)]
  norm_num

theorem trainEpoch_unbroken {loss : ℕ → K} {tol : K} {N : ℕ} (P : TrainState K → Prop)
    (hP : ∀ s, P s → nextCount tol s.previous s.notImproving (loss s.steps) < N ∧
      P { steps := s.steps + 1, notImproving := nextCount tol s.previous s.notImproving (loss s.steps)
          previous := some (loss s.steps) }) (b : ℕ) (s : TrainState K) (hs : P s) :
    (trainEpoch loss tol N b s).steps = s.steps + b ∧ P (trainEpoch loss tol N b s) := by
  induction b generalizing s with
  | zero => exact ⟨rfl, hs⟩
  | succ b ih =>
    unfold trainEpoch
    dsimp only
    rw [if_neg (not_le.2 (hP s hs).1)]
    obtain ⟨h1, h2⟩ := ih _ (hP s hs).2
    refine ⟨?_, h2⟩
    rw [h1]
    simp; omega

theorem trainLoop_unbroken {loss : ℕ → K} {tol : K} {N : ℕ} (P : TrainState K → Prop)
    (hP : ∀ s, P s → nextCount tol s.previous s.notImproving (loss s.steps) < N ∧
      P { steps := s.steps + 1, notImproving := nextCount tol s.previous s.notImproving (loss s.steps)
          previous := some (loss s.steps) }) (B e : ℕ) (s : TrainState K) (hs : P s) :
    (trainLoop loss tol N B e s).steps = s.steps + e * B := by
  induction e generalizing s with
  | zero => simp [trainLoop]
  | succ e ih =>
    unfold trainLoop
    obtain ⟨h1, h2⟩ := trainEpoch_unbroken P hP B s hs
    rw [ih _ h2, h1]
    ring

/-- **C73.** On the other hand a run in which the loss goes up by at least `tol` at every step is never stopped:
all `batches` steps of all epochs are done. -/
theorem C73_worsening_run {loss : ℕ → K} {tol : K} (h : ∀ k, loss k + tol ≤ loss (k + 1)) {N : ℕ} (hN : 0 < N)
    (B E : ℕ) : stepsDone loss tol N B E = E * B := by
  unfold stepsDone
  rw [trainLoop_unbroken (fun s => s.notImproving = 0 ∧ (s.previous = none ∨
    ∃ k, s.steps = k + 1 ∧ s.previous = some (loss k))) ?_ B E trainInit ⟨rfl, Or.inl rfl⟩]
  · simp [trainInit]
  · rintro s ⟨h0, hp⟩
    have hc : nextCount tol s.previous s.notImproving (loss s.steps) = 0 := by
      unfold nextCount
      rcases hp with hp | ⟨k, hk, hp⟩
      · rw [hp]; exact h0
      · rw [hp, hk]
        dsimp only
        rw [if_neg]
        have := h k
        rw [not_lt]
        linarith
    rw [hc]
    exact ⟨hN, rfl, Or.inr ⟨_, rfl, rfl⟩⟩

/-- **C73.** What remains of the property: no run is stopped within its first `n_iter_no_change` steps, whatever
the losses. Missing: for longer runs the counter counts improving steps. -/
theorem C73_not_stopped_partial (loss : ℕ → K) (tol : K) {N B E : ℕ} (h : E * B ≤ N) :
    stepsDone loss tol N B E = E * B := by
  have epoch : ∀ b (s : TrainState K), s.steps + b ≤ N → s.notImproving ≤ s.steps - 1 →
      (s.previous = none → s.notImproving = 0 ∧ s.steps = 0) → (s.steps = 0 → s.previous = none) →
      (trainEpoch loss tol N b s).steps = s.steps + b ∧
      (trainEpoch loss tol N b s).notImproving ≤ (trainEpoch loss tol N b s).steps - 1 ∧
      ((trainEpoch loss tol N b s).previous = none → (trainEpoch loss tol N b s).notImproving = 0 ∧
        (trainEpoch loss tol N b s).steps = 0) ∧
      ((trainEpoch loss tol N b s).steps = 0 → (trainEpoch loss tol N b s).previous = none) := by
    intro b
    induction b with
    | zero => intro s _ h1 h2 h3; exact ⟨rfl, h1, h2, h3⟩
    | succ b ih =>
      intro s hs h1 h2 h3
      have hc : nextCount tol s.previous s.notImproving (loss s.steps) ≤ s.steps := by
        unfold nextCount
        cases hp : s.previous with
        | none => rw [(h2 hp).1]; exact Nat.zero_le _
        | some v =>
          have : s.steps ≠ 0 := fun h0 => by rw [h3 h0] at hp; cases hp
          dsimp only
          split <;> omega
      unfold trainEpoch
      dsimp only
      rw [if_neg (by omega)]
      obtain ⟨i1, i2⟩ := ih { steps := s.steps + 1, notImproving := nextCount tol s.previous s.notImproving (loss s.steps)
                              previous := some (loss s.steps) } (by simp; omega) (by simpa using hc)
        (fun h => by cases h) (fun h => by simp at h)
      refine ⟨?_, i2⟩
      rw [i1]
      simp; omega
  have key : ∀ e (s : TrainState K), s.steps + e * B ≤ N → s.notImproving ≤ s.steps - 1 →
      (s.previous = none → s.notImproving = 0 ∧ s.steps = 0) → (s.steps = 0 → s.previous = none) →
      (trainLoop loss tol N B e s).steps = s.steps + e * B := by
    intro e
    induction e with
    | zero => intro s _ _ _ _; simp [trainLoop]
    | succ e ih =>
      intro s hs h1 h2 h3
      have hle : s.steps + B + e * B ≤ N := by
        have : s.steps + (e + 1) * B = s.steps + B + e * B := by ring
        omega
      obtain ⟨i1, i2, i3, i4⟩ := epoch B s (by omega) h1 h2 h3
      unfold trainLoop
      rw [ih _ (by rw [i1]; exact hle) i2 i3 i4, i1]
      ring
  unfold stepsDone
  rw [key E trainInit (by simpa [trainInit] using h) (by simp [trainInit]) (fun _ => ⟨rfl, rfl⟩) (fun _ => rfl)]
  simp [trainInit]

/-- **C73.** Early stopping never ends the training: every epoch does at least one optimiser step. -/
theorem C73_every_epoch_runs (loss : ℕ → K) (tol : K) (N : ℕ) {B : ℕ} (hB : 0 < B) (E : ℕ) :
    E ≤ stepsDone loss tol N B E := by
  have mono : ∀ b (s : TrainState K), s.steps ≤ (trainEpoch loss tol N b s).steps := by
    intro b
    induction b with
    | zero => intro s; exact le_rfl
    | succ b ih =>
      intro s
      unfold trainEpoch
      dsimp only
      split
      · simp
      · exact le_trans (Nat.le_succ _) (ih
          { steps := s.steps + 1, notImproving := nextCount tol s.previous s.notImproving (loss s.steps),
            previous := some (loss s.steps) })
  have one : ∀ s : TrainState K, s.steps + 1 ≤ (trainEpoch loss tol N B s).steps := by
    intro s
    obtain ⟨b, rfl⟩ : ∃ b, B = b + 1 := ⟨B - 1, by omega⟩
    unfold trainEpoch
    dsimp only
    split
    · exact le_rfl
    · exact mono b ⟨s.steps + 1, nextCount tol s.previous s.notImproving (loss s.steps), some (loss s.steps)⟩
  have key : ∀ e (s : TrainState K), s.steps + e ≤ (trainLoop loss tol N B e s).steps := by
    intro e
    induction e with
    | zero => intro s; exact le_rfl
    | succ e ih =>
      intro s
      unfold trainLoop
      have := ih (trainEpoch loss tol N B s)
      have := one s
      omega
  have := key E trainInit
  simpa [stepsDone, trainInit] using this

end early
end Obp
