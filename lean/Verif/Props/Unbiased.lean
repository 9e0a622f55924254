import Verif.Spec.Process
import Verif.Lemmas.Prob
import Verif.Props.EstimatorValues

/-!
# C13, C14: unbiasedness of IPW and double robustness of DR
-/

set_option linter.unusedSectionVars false

namespace Obp
open Log

variable {K : Type} [Field K] [LinearOrder K] [IsStrictOrderedRing K]
variable {n A S L : ℕ}

namespace Process

theorem sum_prob {P : Process K n A S} (hP : P.Valid) (i : Fin n) : ∑ o, P.prob i o = 1 := by
  rw [Fintype.sum_prod_type]
  simp only [prob, ← Finset.mul_sum, (hP.law_dist i _).sum_one, mul_one]
  exact (hP.piB_dist i).sum_one

theorem prob_nonneg {P : Process K n A S} (hP : P.Valid) (i : Fin n) (o) : 0 ≤ P.prob i o :=
  mul_nonneg ((hP.piB_dist i).nonneg _) ((hP.law_dist i _).nonneg _)

theorem log_valid {P : Process K n A S} (hn : 0 < n) (w : Fin n → Fin A × Fin S)
    (ps : Fin n → Fin A → K) (hps : ∀ i, 0 < ps i (w i).1)
    (pos : Fin n → Fin L) (piE q : Fin n → Fin A → Fin L → K)
    (hE : ∀ i l, IsDist fun a => piE i a l) : (P.log w ps pos piE q).Valid where
  nonempty := hn
  pscore_pos := hps
  estPscore_pos := fun _ => one_pos
  estIw_nonneg := fun _ => zero_le_one
  sum_one := fun i l => by
    have := (hE i l).sum_one
    simp only [log, this, closeToOne_one]

end Process

/-- **C13.** IPW is exactly unbiased: if the behaviour policy gives positive probability to every
action the evaluation policy can take (common support) and the recorded propensities are the true
ones, then `estimate_policy_value` succeeds on every log of positive probability and its
expectation is the value of the evaluation policy. -/
theorem C13_ipw_unbiased {P : Process K n A S} (hP : P.Valid) (hn : 0 < n)
    (pos : Fin n → Fin L) (piE q : Fin n → Fin A → Fin L → K)
    (hE : ∀ i l, IsDist fun a => piE i a l)
    (hsupp : ∀ i a, piE i a (pos i) ≠ 0 → P.piB i a ≠ 0) :
    ∃ v : (Fin n → Fin A × Fin S) → K,
      (∀ w, jointProb P.prob w ≠ 0 →
        (Estimator.mk .ipw .inf false).estimatePolicyValue (P.log w P.piB pos piE q).args =
          .ok (v w)) ∧
      expect P.prob v = P.policyValue fun i a => piE i a (pos i) := by
  refine ⟨fun w => (∑ i, P.val i (w i).1 (w i).2 *
    (piE i (w i).1 (pos i) / P.piB i (w i).1)) / (n : K), ?_, ?_⟩
  · intro w hw
    have hb : ∀ i, 0 < P.piB i (w i).1 := fun i =>
      lt_of_le_of_ne ((hP.piB_dist i).nonneg _)
        (left_ne_zero_of_mul (jointProb_ne_zero hw i)).symm
    rw [value_ipw (Process.log_valid hn w P.piB hb pos piE q hE)]
    rfl
  · rw [expect_avg (Process.sum_prob hP)
      (fun i o => P.val i o.1 o.2 * (piE i o.1 (pos i) / P.piB i o.1))]
    unfold Process.policyValue
    congr 1
    refine Finset.sum_congr rfl fun i _ => ?_
    unfold expect1
    rw [Fintype.sum_prod_type]
    refine Finset.sum_congr rfl fun a _ => ?_
    simp only [Process.prob, Process.meanReward, Finset.mul_sum]
    refine Finset.sum_congr rfl fun s _ => ?_
    by_cases h0 : piE i a (pos i) = 0
    · simp [h0]
    · have := hsupp i a h0
      field_simp

/-- **C14, first half.** With correct propensities and common support, DR (`lambda_ = inf`) is
unbiased for every reward model `q`. -/
theorem C14_dr_unbiased_of_pscore {P : Process K n A S} (hP : P.Valid) (hn : 0 < n)
    (pos : Fin n → Fin L) (piE q : Fin n → Fin A → Fin L → K)
    (hE : ∀ i l, IsDist fun a => piE i a l)
    (hsupp : ∀ i a, piE i a (pos i) ≠ 0 → P.piB i a ≠ 0) :
    ∃ v : (Fin n → Fin A × Fin S) → K,
      (∀ w, jointProb P.prob w ≠ 0 →
        (Estimator.mk .dr .inf false).estimatePolicyValue (P.log w P.piB pos piE q).args =
          .ok (v w)) ∧
      expect P.prob v = P.policyValue fun i a => piE i a (pos i) := by
  refine ⟨fun w => (∑ i, ((∑ a, q i a (pos i) * piE i a (pos i)) +
    (piE i (w i).1 (pos i) / P.piB i (w i).1) *
      (P.val i (w i).1 (w i).2 - q i (w i).1 (pos i)))) / (n : K), ?_, ?_⟩
  · intro w hw
    have hb : ∀ i, 0 < P.piB i (w i).1 := fun i =>
      lt_of_le_of_ne ((hP.piB_dist i).nonneg _)
        (left_ne_zero_of_mul (jointProb_ne_zero hw i)).symm
    rw [value_dr (Process.log_valid hn w P.piB hb pos piE q hE)]
    simp only [avg, modelValue, Process.log, (hE _ _).sum_one, div_one, residual, weight]
    rfl
  · rw [expect_avg (Process.sum_prob hP)
      (fun i o => (∑ a, q i a (pos i) * piE i a (pos i)) +
        (piE i o.1 (pos i) / P.piB i o.1) * (P.val i o.1 o.2 - q i o.1 (pos i)))]
    unfold Process.policyValue
    congr 1
    refine Finset.sum_congr rfl fun i _ => ?_
    have h1 : expect1 (P.prob i) (fun o => (∑ a, q i a (pos i) * piE i a (pos i)) +
        (piE i o.1 (pos i) / P.piB i o.1) * (P.val i o.1 o.2 - q i o.1 (pos i))) =
        (∑ a, q i a (pos i) * piE i a (pos i)) + ∑ a, ∑ s, P.piB i a * P.law i a s *
          ((piE i a (pos i) / P.piB i a) * (P.val i a s - q i a (pos i))) := by
      unfold expect1
      simp only [mul_add, Finset.sum_add_distrib]
      rw [← Finset.sum_mul, Process.sum_prob hP, one_mul, Fintype.sum_prod_type]
      rfl
    rw [h1, ← Finset.sum_add_distrib]
    refine Finset.sum_congr rfl fun a _ => ?_
    have h2 : ∀ s, P.piB i a * P.law i a s *
        ((piE i a (pos i) / P.piB i a) * (P.val i a s - q i a (pos i))) =
        piE i a (pos i) * (P.law i a s * P.val i a s) -
          P.law i a s * (piE i a (pos i) * q i a (pos i)) := by
      intro s
      by_cases h0 : piE i a (pos i) = 0
      · simp [h0]
      · have := hsupp i a h0
        field_simp
    simp only [h2, Finset.sum_sub_distrib, ← Finset.mul_sum, ← Finset.sum_mul,
      (hP.law_dist i a).sum_one, Process.meanReward]
    ring

/-- **C14, second half.** With a perfect reward model, DR (`lambda_ = inf`) is unbiased for any
positive recorded propensities, correct or not. -/
theorem C14_dr_unbiased_of_q {P : Process K n A S} (hP : P.Valid) (hn : 0 < n)
    (ps : Fin n → Fin A → K) (hps : ∀ i a, 0 < ps i a)
    (pos : Fin n → Fin L) (piE q : Fin n → Fin A → Fin L → K)
    (hE : ∀ i l, IsDist fun a => piE i a l)
    (hq : ∀ i a, q i a (pos i) = P.meanReward i a) :
    ∃ v : (Fin n → Fin A × Fin S) → K,
      (∀ w, (Estimator.mk .dr .inf false).estimatePolicyValue (P.log w ps pos piE q).args =
          .ok (v w)) ∧
      expect P.prob v = P.policyValue fun i a => piE i a (pos i) := by
  refine ⟨fun w => (∑ i, ((∑ a, q i a (pos i) * piE i a (pos i)) +
    (piE i (w i).1 (pos i) / ps i (w i).1) *
      (P.val i (w i).1 (w i).2 - q i (w i).1 (pos i)))) / (n : K), ?_, ?_⟩
  · intro w
    rw [value_dr (Process.log_valid hn w ps (fun i => hps i _) pos piE q hE)]
    simp only [avg, modelValue, Process.log, (hE _ _).sum_one, div_one, residual, weight]
    rfl
  · rw [expect_avg (Process.sum_prob hP)
      (fun i o => (∑ a, q i a (pos i) * piE i a (pos i)) +
        (piE i o.1 (pos i) / ps i o.1) * (P.val i o.1 o.2 - q i o.1 (pos i)))]
    unfold Process.policyValue
    congr 1
    refine Finset.sum_congr rfl fun i _ => ?_
    have h1 : expect1 (P.prob i) (fun o => (∑ a, q i a (pos i) * piE i a (pos i)) +
        (piE i o.1 (pos i) / ps i o.1) * (P.val i o.1 o.2 - q i o.1 (pos i))) =
        (∑ a, q i a (pos i) * piE i a (pos i)) + ∑ a, ∑ s, P.piB i a * P.law i a s *
          ((piE i a (pos i) / ps i a) * (P.val i a s - q i a (pos i))) := by
      unfold expect1
      simp only [mul_add, Finset.sum_add_distrib]
      rw [← Finset.sum_mul, Process.sum_prob hP, one_mul, Fintype.sum_prod_type]
      rfl
    have h2 : ∀ a, ∑ s, P.piB i a * P.law i a s *
          ((piE i a (pos i) / ps i a) * (P.val i a s - q i a (pos i))) = 0 := by
      intro a
      have : ∀ s, P.piB i a * P.law i a s *
          ((piE i a (pos i) / ps i a) * (P.val i a s - q i a (pos i))) =
          P.piB i a * (piE i a (pos i) / ps i a) * (P.law i a s * P.val i a s) -
          P.law i a s * (P.piB i a * (piE i a (pos i) / ps i a) * q i a (pos i)) := by
        intro s; ring
      simp only [this, Finset.sum_sub_distrib, ← Finset.mul_sum, ← Finset.sum_mul,
        (hP.law_dist i a).sum_one]
      rw [hq, Process.meanReward]
      ring
    rw [h1, Finset.sum_eq_zero (fun a _ => h2 a), add_zero]
    exact Finset.sum_congr rfl fun a _ => by rw [hq, mul_comm]

/-! Non-vacuity: a process with two rounds, two actions, two reward outcomes. -/

/-- The behaviour policy never plays action 1 in round 0, and neither does the evaluation policy. -/
def exProcess : Process ℚ 2 2 2 where
  piB := ![![1, 0], ![1 / 3, 2 / 3]]
  law := fun _ a => ![![1 / 2, 1 / 2], ![1 / 5, 4 / 5]] a
  val := fun i a s => i.val + 3 * a.val - s.val

theorem exProcess_valid : exProcess.Valid where
  piB_dist := fun i => ⟨by revert i; decide +kernel, by revert i; decide +kernel⟩
  law_dist := fun i a => ⟨by revert i a; decide +kernel, by revert i a; decide +kernel⟩

/-- An evaluation policy supported by `exProcess`. -/
def exPiE : Fin 2 → Fin 2 → Fin 1 → ℚ := fun i a _ => (![![1, 0], ![1 / 2, 1 / 2]] i a : ℚ)

theorem exPiE_dist : ∀ i l, IsDist fun a => exPiE i a l :=
  fun i l => ⟨by revert i l; decide +kernel, by revert i l; decide +kernel⟩

example :=
  C13_ipw_unbiased exProcess_valid (by decide) (fun _ => 0) exPiE (fun _ _ _ => 7) exPiE_dist
    (by decide +kernel)
example :=
  C14_dr_unbiased_of_pscore exProcess_valid (by decide) (fun _ => 0) exPiE (fun _ _ _ => 7)
    exPiE_dist (by decide +kernel)
example :=
  C14_dr_unbiased_of_q exProcess_valid (by decide) (fun i a => i.val + a.val + 1)
    (by decide +kernel) (fun _ => 0) exPiE (fun i a _ => exProcess.meanReward i a) exPiE_dist
    (by intro i a; rfl)
/-- the value estimated in these examples is not trivial -/
example : exProcess.policyValue (fun i a => exPiE i a 0) = 27 / 40 := by decide +kernel

end Obp
