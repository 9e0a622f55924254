import Verif.Lemmas.Variance
import Verif.Props.Unbiased
import Verif.Props.Embed
import Verif.Props.Multi

set_option linter.unusedSectionVars false

/-!
# Variance

C164: the estimators reduce variance in the way they are advertised to.
-/

namespace Obp
open Log

variable {K : Type} [Field K] [LinearOrder K] [IsStrictOrderedRing K]
variable {n A S L : ℕ}

/-! ### Clipping -/

/-- **C164.** Clipping controls the variance: with rewards of size at most `R` the variance of the IPW estimate with
`lambda_ = l` is at most `(l R)² / n`, whatever the policies are. -/
theorem C164_clipped {P : Process K n A S} (hP : P.Valid) (hn : 0 < n) (pos : Fin n → Fin L) (piE q : Fin n → Fin A → Fin L → K)
    (hE : ∀ i l, IsDist fun a => piE i a l) {R l : K} (hR : ∀ i a s, |P.val i a s| ≤ R) (hl : 0 ≤ l) :
    ∃ v, Estimates P.prob (fun w => (Estimator.mk .ipw (.fin l) false).estimatePolicyValue (P.log w P.piB pos piE q).args) v ∧
      variance P.prob v ≤ (l * R) ^ 2 / n := by
  refine ⟨fun w => (∑ i, P.val i (w i).1 (w i).2 * min (piE i (w i).1 (pos i) / P.piB i (w i).1) l) / (n : K), fun w hw => ?_, ?_⟩
  · have hb : ∀ i, 0 < P.piB i (w i).1 := fun i =>
      lt_of_le_of_ne ((hP.piB_dist i).nonneg _) (left_ne_zero_of_mul (jointProb_ne_zero hw i)).symm
    dsimp only
    rw [value_ipw (Process.log_valid hn w P.piB hb pos piE q hE)]
    rfl
  · have hn' : (0 : K) < n := by exact_mod_cast hn
    rw [variance_avg (Process.sum_prob hP) (fun i o => P.val i o.1 o.2 * min (piE i o.1 (pos i) / P.piB i o.1) l)]
    have h : ∀ i, variance1 (P.prob i) (fun o => P.val i o.1 o.2 * min (piE i o.1 (pos i) / P.piB i o.1) l) ≤ (l * R) ^ 2 := fun i => by
      refine (variance1_le (Process.sum_prob hP i) _).trans ?_
      rw [← expect1_const (Process.sum_prob hP i) ((l * R) ^ 2)]
      refine expect1_mono (Process.prob_nonneg hP i) fun o _ => ?_
      have h0 : 0 ≤ min (piE i o.1 (pos i) / P.piB i o.1) l :=
        le_min (div_nonneg ((hE i _).nonneg _) ((hP.piB_dist i).nonneg _)) hl
      have hR0 := (abs_nonneg _).trans (hR i o.1 o.2)
      refine sq_le_sq' ?_ ?_
      · rw [neg_le, ← neg_mul, mul_comm l]
        exact mul_le_mul ((neg_le_abs _).trans (hR i o.1 o.2)) (min_le_right _ _) h0 hR0
      · rw [mul_comm l]
        exact mul_le_mul ((le_abs_self _).trans (hR i o.1 o.2)) (min_le_right _ _) h0 hR0
    calc _ ≤ (∑ _i : Fin n, (l * R) ^ 2) / (n : K) ^ 2 := by
          gcongr with i _
          exact h i
      _ = (l * R) ^ 2 / n := by
          rw [Finset.sum_const, Finset.card_univ, Fintype.card_fin, nsmul_eq_mul]
          field_simp

/-! ### Reward models -/

/-- The term that the doubly robust estimator ascribes to one round. -/
def drTerm (P : Process K n A S) (pos : Fin n → Fin L) (piE q : Fin n → Fin A → Fin L → K) (i : Fin n) (o : Fin A × Fin S) : K :=
  (∑ a, q i a (pos i) * piE i a (pos i)) + (piE i o.1 (pos i) / P.piB i o.1) * (P.val i o.1 o.2 - q i o.1 (pos i))

theorem dr_estimates {P : Process K n A S} (hP : P.Valid) (hn : 0 < n) (pos : Fin n → Fin L) (piE q : Fin n → Fin A → Fin L → K)
    (hE : ∀ i l, IsDist fun a => piE i a l) :
    Estimates P.prob (fun w => (Estimator.mk .dr .inf false).estimatePolicyValue (P.log w P.piB pos piE q).args)
      fun w => (∑ i, drTerm P pos piE q i (w i)) / (n : K) := by
  intro w hw
  have hb : ∀ i, 0 < P.piB i (w i).1 := fun i =>
    lt_of_le_of_ne ((hP.piB_dist i).nonneg _) (left_ne_zero_of_mul (jointProb_ne_zero hw i)).symm
  dsimp only
  rw [value_dr (Process.log_valid hn w P.piB hb pos piE q hE)]
  simp only [avg, modelValue, Process.log, (hE _ _).sum_one, div_one, Log.residual, Log.weight]
  rfl

/-- The variance of one term: the noise of the rewards, and the part that the reward model has not explained. -/
theorem drTerm_variance {P : Process K n A S} (hP : P.Valid) (pos : Fin n → Fin L) (piE q : Fin n → Fin A → Fin L → K)
    (i : Fin n) :
    variance1 (P.prob i) (drTerm P pos piE q i) =
      (∑ a, P.piB i a * ((piE i a (pos i) / P.piB i a) ^ 2 * ∑ s, P.law i a s * (P.val i a s - P.meanReward i a) ^ 2)) +
      ∑ a, P.piB i a * (piE i a (pos i) / P.piB i a * (P.meanReward i a - q i a (pos i)) -
        ∑ b, P.piB i b * (piE i b (pos i) / P.piB i b * (P.meanReward i b - q i b (pos i)))) ^ 2 := by
  have hmean : ∀ a, ∑ s, P.law i a s * (P.val i a s - P.meanReward i a) = 0 := fun a => by
    simp only [mul_sub, Finset.sum_sub_distrib, ← Finset.sum_mul, (hP.law_dist i a).sum_one]
    simp [Process.meanReward]
  have hexp : expect1 (P.prob i) (drTerm P pos piE q i) = (∑ a, q i a (pos i) * piE i a (pos i)) +
      ∑ b, P.piB i b * (piE i b (pos i) / P.piB i b * (P.meanReward i b - q i b (pos i))) := by
    unfold drTerm
    rw [expect1_add, expect1_const (Process.sum_prob hP i)]
    refine congrArg _ ?_
    unfold expect1
    rw [Fintype.sum_prod_type]
    refine Finset.sum_congr rfl fun a _ => ?_
    have : ∀ s, P.prob i (a, s) * (piE i a (pos i) / P.piB i a * (P.val i a s - q i a (pos i))) =
        P.piB i a * (piE i a (pos i) / P.piB i a) * (P.law i a s * (P.val i a s - P.meanReward i a)) +
        P.law i a s * (P.piB i a * (piE i a (pos i) / P.piB i a * (P.meanReward i a - q i a (pos i)))) := fun s => by
      simp only [Process.prob]; ring
    simp only [this]
    rw [Finset.sum_add_distrib, ← Finset.mul_sum, hmean, ← Finset.sum_mul, (hP.law_dist i a).sum_one]
    ring
  unfold variance1
  rw [hexp]
  unfold expect1
  rw [Fintype.sum_prod_type]
  refine Eq.trans (Finset.sum_congr rfl fun a _ => ?_) Finset.sum_add_distrib
  generalize ∑ b, P.piB i b * (piE i b (pos i) / P.piB i b * (P.meanReward i b - q i b (pos i))) = μ
  have h2 : ∀ s, P.prob i (a, s) * (drTerm P pos piE q i (a, s) - ((∑ a, q i a (pos i) * piE i a (pos i)) + μ)) ^ 2 =
      P.piB i a * (P.law i a s * (piE i a (pos i) / P.piB i a * (P.val i a s - P.meanReward i a) +
        (piE i a (pos i) / P.piB i a * (P.meanReward i a - q i a (pos i)) - μ)) ^ 2) := fun s => by
    simp only [Process.prob, drTerm]; ring
  simp only [h2]
  rw [← Finset.mul_sum, sum_noise (hP.law_dist i a).sum_one, mul_add]
  · congr 2
    rw [Finset.mul_sum]
    exact Finset.sum_congr rfl fun s _ => by ring
  · have : ∀ s, P.law i a s * (piE i a (pos i) / P.piB i a * (P.val i a s - P.meanReward i a)) =
        piE i a (pos i) / P.piB i a * (P.law i a s * (P.val i a s - P.meanReward i a)) := fun s => by ring
    simp only [this]
    rw [← Finset.mul_sum, hmean, mul_zero]

theorem drTerm_variance_le {P : Process K n A S} (hP : P.Valid) (pos : Fin n → Fin L) (piE q q' : Fin n → Fin A → Fin L → K)
    (hq : ∀ i a, q i a (pos i) = P.meanReward i a) (i : Fin n) :
    variance1 (P.prob i) (drTerm P pos piE q i) ≤ variance1 (P.prob i) (drTerm P pos piE q' i) := by
  rw [drTerm_variance hP, drTerm_variance hP]
  simp only [hq, sub_self, mul_zero, Finset.sum_const_zero, zero_pow two_ne_zero, add_zero]
  exact le_add_of_nonneg_right (Finset.sum_nonneg fun a _ => mul_nonneg ((hP.piB_dist i).nonneg a) (sq_nonneg _))

/-- **C164.** The better the reward model, the better: among all reward models the expected reward itself gives the doubly
robust estimate of least variance. -/
theorem C164_dr_best {P : Process K n A S} (hP : P.Valid) (hn : 0 < n) (pos : Fin n → Fin L) (piE q q' : Fin n → Fin A → Fin L → K)
    (hE : ∀ i l, IsDist fun a => piE i a l) (hq : ∀ i a, q i a (pos i) = P.meanReward i a) :
    ∃ v v', Estimates P.prob (fun w => (Estimator.mk .dr .inf false).estimatePolicyValue (P.log w P.piB pos piE q).args) v ∧
      Estimates P.prob (fun w => (Estimator.mk .dr .inf false).estimatePolicyValue (P.log w P.piB pos piE q').args) v' ∧
      variance P.prob v ≤ variance P.prob v' := by
  refine ⟨_, _, dr_estimates hP hn pos piE q hE, dr_estimates hP hn pos piE q' hE, ?_⟩
  rw [variance_avg (Process.sum_prob hP), variance_avg (Process.sum_prob hP)]
  have := fun i => drTerm_variance_le hP pos piE q q' hq i
  gcongr with i _
  exact this i

/-- **C164.** With the right reward model the doubly robust estimate varies no more than the IPW estimate, and if the rewards of
every action are fixed it does not vary at all. -/
theorem C164_dr_ipw {P : Process K n A S} (hP : P.Valid) (hn : 0 < n) (pos : Fin n → Fin L) (piE q : Fin n → Fin A → Fin L → K)
    (hE : ∀ i l, IsDist fun a => piE i a l) (hq : ∀ i a, q i a (pos i) = P.meanReward i a) :
    ∃ v v', Estimates P.prob (fun w => (Estimator.mk .dr .inf false).estimatePolicyValue (P.log w P.piB pos piE q).args) v ∧
      Estimates P.prob (fun w => (Estimator.mk .ipw .inf false).estimatePolicyValue (P.log w P.piB pos piE q).args) v' ∧
      variance P.prob v ≤ variance P.prob v' ∧ ((∀ i a s, P.val i a s = P.meanReward i a) → variance P.prob v = 0) := by
  refine ⟨_, fun w => (∑ i, drTerm P pos piE (fun _ _ _ => 0) i (w i)) / (n : K), dr_estimates hP hn pos piE q hE, fun w hw => ?_, ?_, fun hd => ?_⟩
  · have hb : ∀ i, 0 < P.piB i (w i).1 := fun i =>
      lt_of_le_of_ne ((hP.piB_dist i).nonneg _) (left_ne_zero_of_mul (jointProb_ne_zero hw i)).symm
    dsimp only
    rw [value_ipw (Process.log_valid hn w P.piB hb pos piE q hE)]
    simp only [avg, drTerm, zero_mul, Finset.sum_const_zero, zero_add, sub_zero, Lam.clip]
    exact congrArg (fun x => Except.ok (x / (n : K))) (Finset.sum_congr rfl fun i _ => mul_comm _ _)
  · rw [variance_avg (Process.sum_prob hP), variance_avg (Process.sum_prob hP)]
    have := fun i => drTerm_variance_le hP pos piE q (fun _ _ _ => 0) hq i
    gcongr with i _
    exact this i
  · rw [variance_avg (Process.sum_prob hP)]
    simp [drTerm_variance hP, hq, hd]

example := C164_clipped exProcess_valid (by decide) (fun _ => 0) exPiE (fun _ _ _ => 7) exPiE_dist (R := 4) (l := 2)
  (by decide +kernel) (by norm_num)
example := C164_dr_best exProcess_valid (by decide) (fun _ => 0) exPiE (fun i a _ => exProcess.meanReward i a) (fun _ _ _ => 7) exPiE_dist
  (fun _ _ => rfl)
example := C164_dr_ipw exProcess_valid (by decide) (fun _ => 0) exPiE (fun i a _ => exProcess.meanReward i a) exPiE_dist (fun _ _ => rfl)
/-- The inequality is strict in this example. -/
example : (∑ i, variance1 (exProcess.prob i) (drTerm exProcess (fun _ => (0 : Fin 1)) exPiE (fun i a _ => exProcess.meanReward i a) i)) <
    ∑ i, variance1 (exProcess.prob i) (drTerm exProcess (fun _ => (0 : Fin 1)) exPiE (fun _ _ _ => 0) i) := by
  decide +kernel

/-! ### Several loggers -/

/-- Weighting by the average policy has the smaller second moment. -/
theorem balanced_second_moment {p : Fin n → K} (hp : ∀ i, 0 ≤ p i) {e : K} (he : ∀ i, e ≠ 0 → p i ≠ 0) (b g : K) :
    ∑ i, p i * (b + e / ((∑ j, p j) / n) * g) ^ 2 ≤ ∑ i, p i * (b + e / p i * g) ^ 2 := by
  by_cases h0 : e = 0
  · simp [h0]
  rcases Nat.eq_zero_or_pos n with rfl | hn
  · simp
  have hn' : (0 : K) < n := by exact_mod_cast hn
  have hpos : ∀ i, 0 < p i := fun i => lt_of_le_of_ne (hp i) (he i h0).symm
  have hsum : 0 < ∑ i, p i := Finset.sum_pos (fun i _ => hpos i) ⟨⟨0, hn⟩, Finset.mem_univ _⟩
  have hcs : (n : K) ^ 2 ≤ (∑ i, p i) * ∑ i, 1 / p i := by
    have := Finset.sum_sq_le_sum_mul_sum_of_sq_le_mul Finset.univ (r := fun _ : Fin n => (1 : K)) (f := p) (g := fun i => 1 / p i)
      (fun i _ => hp i) (fun i _ => by have := hpos i; positivity) (fun i _ => le_of_eq (by have := (hpos i).ne'; field_simp))
    simpa using this
  have h1 : ∑ i, p i * (b + e / ((∑ j, p j) / n) * g) ^ 2 =
      (∑ i, p i) * b ^ 2 + 2 * b * g * e * n + (e * g) ^ 2 * ((n : K) ^ 2 / ∑ i, p i) := by
    rw [← Finset.sum_mul]
    field_simp
    ring
  have h2 : ∑ i, p i * (b + e / p i * g) ^ 2 = (∑ i, p i) * b ^ 2 + 2 * b * g * e * n + (e * g) ^ 2 * ∑ i, 1 / p i := by
    have : ∀ i, p i * (b + e / p i * g) ^ 2 = p i * b ^ 2 + 2 * b * g * e + (e * g) ^ 2 * (1 / p i) := fun i => by
      have := (hpos i).ne'
      field_simp
      ring
    simp only [this, Finset.sum_add_distrib, ← Finset.sum_mul, ← Finset.mul_sum]
    simp
    ring
  rw [h1, h2]
  have h3 : (n : K) ^ 2 / ∑ i, p i ≤ ∑ i, 1 / p i := by rwa [div_le_iff₀' hsum]
  have := mul_le_mul_of_nonneg_left h3 (sq_nonneg (e * g))
  linarith

section loggers
variable {X M : ℕ}

theorem MultiProcess.sum_expect (P : MultiProcess K n A S X M) (F : Fin n → Fin X → Fin A → Fin S → K) :
    ∑ i, expect1 (P.prob i) (fun o => F i o.1 o.2.1 o.2.2) =
      ∑ x, ∑ a, ∑ s, P.ctx x * P.law x a s * ∑ i, P.piB (P.logger i) x a * F i x a s := by
  unfold expect1
  rw [Finset.sum_comm, Fintype.sum_prod_type]
  refine Finset.sum_congr rfl fun x _ => ?_
  rw [Fintype.sum_prod_type]
  refine Finset.sum_congr rfl fun a _ => Finset.sum_congr rfl fun s _ => ?_
  rw [Finset.mul_sum]
  refine Finset.sum_congr rfl fun i _ => ?_
  simp only [MultiProcess.prob]
  ring

/-- The term of round `i` with the propensities `p`. -/
def loggerTerm (P : MultiProcess K n A S X M) (p : Fin n → Fin X → Fin A → K) (piE q : Fin X → Fin A → K) (i : Fin n)
    (o : Fin X × Fin A × Fin S) : K :=
  (∑ a, q o.1 a * piE o.1 a) + piE o.1 o.2.1 / p i o.1 o.2.1 * (P.val o.1 o.2.1 o.2.2 - q o.1 o.2.1)

theorem loggerTerm_variance {P : MultiProcess K n A S X M} (hP : P.Valid) (hn : 0 < n) (piE q : Fin X → Fin A → K)
    (hsupp : ∀ i x a, piE x a ≠ 0 → P.piB (P.logger i) x a ≠ 0) :
    ∑ i, variance1 (P.prob i) (loggerTerm P (fun _ => P.mixture) piE q i) ≤
      ∑ i, variance1 (P.prob i) (loggerTerm P (fun i => P.piB (P.logger i)) piE q i) := by
  have hn' : (0 : K) < n := by exact_mod_cast hn
  simp only [variance1_eq (MultiProcess.sum_prob hP _), Finset.sum_sub_distrib]
  have hmom : ∑ i, expect1 (P.prob i) (fun o => loggerTerm P (fun _ => P.mixture) piE q i o ^ 2) ≤
      ∑ i, expect1 (P.prob i) (fun o => loggerTerm P (fun i => P.piB (P.logger i)) piE q i o ^ 2) := by
    rw [P.sum_expect fun i x a s => loggerTerm P (fun _ => P.mixture) piE q i (x, a, s) ^ 2,
      P.sum_expect fun i x a s => loggerTerm P (fun i => P.piB (P.logger i)) piE q i (x, a, s) ^ 2]
    refine Finset.sum_le_sum fun x _ => Finset.sum_le_sum fun a _ => Finset.sum_le_sum fun s _ =>
      mul_le_mul_of_nonneg_left ?_ (mul_nonneg (hP.ctx_dist.nonneg x) ((hP.law_dist x a).nonneg s))
    exact balanced_second_moment (fun i => (hP.piB_dist _ x).nonneg a) (fun i => hsupp i x a) _ _
  -- the means
  have hmean : ∀ (p : Fin n → Fin X → Fin A → K),
      (∀ x a, ∑ i, P.piB (P.logger i) x a * (piE x a / p i x a) = n * piE x a) →
      ∑ i, expect1 (P.prob i) (loggerTerm P p piE q i) = n * ∑ x, ∑ a, ∑ s, P.ctx x * P.law x a s *
        (P.mixture x a * (∑ a, q x a * piE x a) + piE x a * (P.val x a s - q x a)) := by
    intro p hp
    rw [P.sum_expect fun i x a s => loggerTerm P p piE q i (x, a, s), Finset.mul_sum]
    refine Finset.sum_congr rfl fun x _ => ?_
    rw [Finset.mul_sum]
    refine Finset.sum_congr rfl fun a _ => ?_
    rw [Finset.mul_sum]
    refine Finset.sum_congr rfl fun s _ => ?_
    have : ∀ i, P.piB (P.logger i) x a * loggerTerm P p piE q i (x, a, s) = P.piB (P.logger i) x a * (∑ a, q x a * piE x a) +
        P.piB (P.logger i) x a * (piE x a / p i x a) * (P.val x a s - q x a) := fun i => by
      simp only [loggerTerm]; ring
    simp only [this]
    rw [Finset.sum_add_distrib, ← Finset.sum_mul, ← Finset.sum_mul, hp, MultiProcess.mixture]
    field_simp
  have hB := hmean (fun _ => P.mixture) fun x a => by
    rw [← Finset.sum_mul]
    by_cases h0 : piE x a = 0
    · simp [h0]
    · have h1 : ∑ i, P.piB (P.logger i) x a ≠ 0 := by
        have := (MultiProcess.mixture_pos hP ⟨0, hn⟩ (hsupp ⟨0, hn⟩ x a h0)).ne'
        intro h
        exact this (by rw [MultiProcess.mixture, h, zero_div])
      rw [MultiProcess.mixture]
      field_simp
  have hterm : ∀ i x a, P.piB (P.logger i) x a * (piE x a / P.piB (P.logger i) x a) = piE x a := fun i x a => by
    by_cases h0 : piE x a = 0
    · simp [h0]
    · have := hsupp i x a h0
      field_simp
  have hN := hmean (fun i => P.piB (P.logger i)) fun x a => by simp [hterm]
  -- every logger has the same mean under its own weights
  have hsame : ∀ i j, expect1 (P.prob i) (loggerTerm P (fun i => P.piB (P.logger i)) piE q i) =
      expect1 (P.prob j) (loggerTerm P (fun i => P.piB (P.logger i)) piE q j) := by
    have h : ∀ i, expect1 (P.prob i) (loggerTerm P (fun i => P.piB (P.logger i)) piE q i) =
        ∑ x, P.ctx x * ((∑ a, q x a * piE x a) + ∑ a, piE x a * ∑ s, P.law x a s * (P.val x a s - q x a)) := by
      intro i
      unfold expect1
      rw [Fintype.sum_prod_type]
      refine Finset.sum_congr rfl fun x _ => ?_
      rw [Fintype.sum_prod_type]
      have h1 : ∀ a, ∑ s, P.prob i (x, a, s) * loggerTerm P (fun i => P.piB (P.logger i)) piE q i (x, a, s) =
          P.ctx x * (P.piB (P.logger i) x a * (∑ a, q x a * piE x a) + piE x a * ∑ s, P.law x a s * (P.val x a s - q x a)) := by
        intro a
        have h2 : ∀ s, P.prob i (x, a, s) * loggerTerm P (fun i => P.piB (P.logger i)) piE q i (x, a, s) =
            P.law x a s * (P.ctx x * (P.piB (P.logger i) x a * (∑ a, q x a * piE x a))) +
            P.ctx x * (P.piB (P.logger i) x a * (piE x a / P.piB (P.logger i) x a)) * (P.law x a s * (P.val x a s - q x a)) := fun s => by
          simp only [MultiProcess.prob, loggerTerm]; ring
        simp only [h2, hterm]
        rw [Finset.sum_add_distrib, ← Finset.sum_mul, (hP.law_dist x a).sum_one, ← Finset.mul_sum]
        ring
      simp only [h1]
      rw [← Finset.mul_sum, Finset.sum_add_distrib, ← Finset.sum_mul, (hP.piB_dist _ x).sum_one, one_mul]
    intro i j
    rw [h i, h j]
  have hsq : ∑ i, expect1 (P.prob i) (loggerTerm P (fun i => P.piB (P.logger i)) piE q i) ^ 2 ≤
      ∑ i, expect1 (P.prob i) (loggerTerm P (fun _ => P.mixture) piE q i) ^ 2 := by
    have h1 := sq_sum_le_card_mul_sum_sq (s := (Finset.univ : Finset (Fin n)))
      (f := fun i => expect1 (P.prob i) (loggerTerm P (fun _ => P.mixture) piE q i))
    rw [hB, ← hN, Finset.card_univ, Fintype.card_fin] at h1
    have i0 : Fin n := ⟨0, hn⟩
    simp only [hsame _ i0, Finset.sum_const, Finset.card_univ, Fintype.card_fin, nsmul_eq_mul] at h1 ⊢
    have h2 : (n : K) * (n * expect1 (P.prob i0) (loggerTerm P (fun i => P.piB (P.logger i)) piE q i0) ^ 2) ≤
        n * ∑ i, expect1 (P.prob i) (loggerTerm P (fun _ => P.mixture) piE q i) ^ 2 := by
      refine le_trans (le_of_eq ?_) h1
      ring
    exact le_of_mul_le_mul_left h2 hn'
  linarith

/-- **C164.** Balanced weighting never has the larger variance: if every logger can take what the evaluation policy takes, the
variance of the balanced IPW estimate is at most that of the naive one. -/
theorem C164_balanced_ipw {P : MultiProcess K n A S X M} (hP : P.Valid) (hn : 0 < n) (piE q : Fin X → Fin A → K)
    (hE : ∀ x, IsDist (piE x)) (hsupp : ∀ i x a, piE x a ≠ 0 → P.piB (P.logger i) x a ≠ 0) :
    ∃ v v', Estimates P.prob (fun w => (MultiEstimator.mk .balancedIpw .inf false).estimatePolicyValue (P.log w piE q).margs) v ∧
      Estimates P.prob (fun w => (MultiEstimator.mk .naiveIpw .inf false).estimatePolicyValue (P.log w piE q).margs) v' ∧
      variance P.prob v ≤ variance P.prob v' := by
  refine ⟨fun w => (∑ i, loggerTerm P (fun _ => P.mixture) piE (fun _ _ => 0) i (w i)) / n,
    fun w => (∑ i, loggerTerm P (fun i => P.piB (P.logger i)) piE (fun _ _ => 0) i (w i)) / n, fun w hw => ?_, fun w hw => ?_, ?_⟩
  · dsimp only
    rw [value_balancedIpw (MultiProcess.log_mvalid hP hn hw piE q hE)]
    simp only [avg, loggerTerm, zero_mul, Finset.sum_const_zero, zero_add, sub_zero, Lam.clip]
    exact congrArg (fun x => Except.ok (x / (n : K))) (Finset.sum_congr rfl fun i _ => mul_comm _ _)
  · dsimp only
    rw [value_naiveIpw (MultiProcess.log_mvalid hP hn hw piE q hE).base]
    simp only [avg, loggerTerm, zero_mul, Finset.sum_const_zero, zero_add, sub_zero, Lam.clip]
    exact congrArg (fun x => Except.ok (x / (n : K))) (Finset.sum_congr rfl fun i _ => mul_comm _ _)
  · rw [variance_avg (MultiProcess.sum_prob hP), variance_avg (MultiProcess.sum_prob hP)]
    exact div_le_div_of_nonneg_right (loggerTerm_variance hP hn piE _ hsupp) (sq_nonneg _)

/-- **C164.** The same for the doubly robust estimates, for every reward model. -/
theorem C164_balanced_dr {P : MultiProcess K n A S X M} (hP : P.Valid) (hn : 0 < n) (piE q : Fin X → Fin A → K)
    (hE : ∀ x, IsDist (piE x)) (hsupp : ∀ i x a, piE x a ≠ 0 → P.piB (P.logger i) x a ≠ 0) :
    ∃ v v', Estimates P.prob (fun w => (MultiEstimator.mk .balancedDr .inf false).estimatePolicyValue (P.log w piE q).margs) v ∧
      Estimates P.prob (fun w => (MultiEstimator.mk .naiveDr .inf false).estimatePolicyValue (P.log w piE q).margs) v' ∧
      variance P.prob v ≤ variance P.prob v' := by
  refine ⟨fun w => (∑ i, loggerTerm P (fun _ => P.mixture) piE q i (w i)) / n,
    fun w => (∑ i, loggerTerm P (fun i => P.piB (P.logger i)) piE q i (w i)) / n, fun w hw => ?_, fun w hw => ?_, ?_⟩
  · dsimp only
    rw [value_balancedDr (MultiProcess.log_mvalid hP hn hw piE q hE)]
    simp only [avg, modelValue, MultiProcess.log, (hE _).sum_one, div_one, Log.residual, MLog.weightAvg]
    rfl
  · dsimp only
    rw [value_naiveDr (MultiProcess.log_mvalid hP hn hw piE q hE).base]
    simp only [avg, modelValue, MultiProcess.log, (hE _).sum_one, div_one, Log.residual, Log.weight]
    rfl
  · rw [variance_avg (MultiProcess.sum_prob hP), variance_avg (MultiProcess.sum_prob hP)]
    exact div_le_div_of_nonneg_right (loggerTerm_variance hP hn piE _ hsupp) (sq_nonneg _)

/-- Two loggers that prefer different actions. -/
def exPreferring : MultiProcess ℚ 2 2 1 1 2 where
  ctx := fun _ => 1
  logger := id
  piB := fun m _ a => if a = m then 3 / 4 else 1 / 4
  law := fun _ _ _ => 1
  val := fun _ a _ => a.val + 1

theorem exPreferring_valid : exPreferring.Valid where
  ctx_dist := ⟨by decide +kernel, by decide +kernel⟩
  piB_dist := fun m x => ⟨by revert m x; decide +kernel, by revert m x; decide +kernel⟩
  law_dist := fun x a => ⟨by revert x a; decide +kernel, by revert x a; decide +kernel⟩

example := C164_balanced_ipw exPreferring_valid (by decide) exUniform (fun _ _ => 0) exUniform_dist (by decide +kernel)
example := C164_balanced_dr exPreferring_valid (by decide) exUniform (fun _ a => a.val) exUniform_dist (by decide +kernel)
/-- The inequality is strict in this example. -/
example : (∑ i, variance1 (exPreferring.prob i) (loggerTerm exPreferring (fun _ => exPreferring.mixture) exUniform (fun _ _ => 0) i)) = 3 / 8 ∧
    (∑ i, variance1 (exPreferring.prob i) (loggerTerm exPreferring (fun i => exPreferring.piB (exPreferring.logger i)) exUniform (fun _ _ => 0) i)) = 13 / 6 := by
  decide +kernel

end loggers

/-! ### Embeddings -/

section embeddings
variable {C D : ℕ}

/-- Probability-weighted Cauchy-Schwarz. -/
theorem marginal_second_moment {b e p : Fin A → K} (hb : ∀ a, 0 ≤ b a) (hp : ∀ a, 0 ≤ p a) (hs : ∀ a, e a ≠ 0 → b a ≠ 0) :
    (∑ a, b a * p a) * ((∑ a, e a * p a) / ∑ a, b a * p a) ^ 2 ≤ ∑ a, b a * p a * (e a / b a) ^ 2 := by
  have hcs : (∑ a, e a * p a) ^ 2 ≤ (∑ a, b a * p a) * ∑ a, b a * p a * (e a / b a) ^ 2 := by
    refine Finset.sum_sq_le_sum_mul_sum_of_sq_le_mul _ (fun a _ => mul_nonneg (hb a) (hp a))
      (fun a _ => mul_nonneg (mul_nonneg (hb a) (hp a)) (sq_nonneg _)) fun a _ => le_of_eq ?_
    by_cases h0 : e a = 0
    · simp [h0]
    · have := hs a h0
      field_simp
  have h0 : 0 ≤ ∑ a, b a * p a := Finset.sum_nonneg fun a _ => mul_nonneg (hb a) (hp a)
  rcases h0.eq_or_lt with h | h
  · rw [← h, zero_mul]
    exact Finset.sum_nonneg fun a _ => mul_nonneg (mul_nonneg (hb a) (hp a)) (sq_nonneg _)
  · rw [div_pow]
    have : (∑ a, b a * p a) * ((∑ a, e a * p a) ^ 2 / (∑ a, b a * p a) ^ 2) = (∑ a, e a * p a) ^ 2 / ∑ a, b a * p a := by
      field_simp
    rw [this, div_le_iff₀' h]
    exact hcs

theorem EmbProcess.expect_eq {P : EmbProcess K n A C D S} (i : Fin n) (F : Fin A → (Fin D → Fin C) → Fin S → K) :
    expect1 (P.prob i) (fun o => F o.1 o.2.1 o.2.2) =
      ∑ e, ∑ s, P.law i e s * ∑ a, P.piB i a * P.embProb a e * F a e s := by
  unfold expect1
  rw [Fintype.sum_prod_type, Finset.sum_comm, Fintype.sum_prod_type]
  refine Finset.sum_congr rfl fun e _ => Finset.sum_congr rfl fun s _ => ?_
  rw [Finset.mul_sum]
  refine Finset.sum_congr rfl fun a _ => ?_
  simp only [EmbProcess.prob]
  ring

/-- **C164.** Marginalising never hurts: if rewards depend on the action only through its embedding and the logging policy can
take what the evaluation policy takes, the variance of the MIPS estimate is at most that of the IPW estimate on the same
rounds. (Dimensions of the embedding independent under both policies, as in C47.) -/
theorem C164_mips {P : EmbProcess K n A C D S} (hP : P.Valid) (hn : 0 < n)
    (pos : Fin n → Fin L) (piB piE : Fin n → Fin A → Fin L → K)
    (hB : ∀ i l, IsDist fun a => piB i a l) (hE : ∀ i l, IsDist fun a => piE i a l)
    (hBP : ∀ i a, piB i a (pos i) = P.piB i a)
    (hindB : ∀ i, P.Independent (P.piB i)) (hindE : ∀ i, P.Independent fun a => piE i a (pos i))
    (hsupp : ∀ i a, piE i a (pos i) ≠ 0 → P.piB i a ≠ 0) (nActions : ℕ) (learner) :
    ∃ v v', Estimates P.prob (fun w => EmbKind.mipw.plainValue nActions learner (P.log w piB piE pos).args) v ∧
      Estimates P.prob (fun w => (Estimator.mk .ipw .inf false).estimatePolicyValue (P.plainLog w piE pos).args) v' ∧
      variance P.prob v ≤ variance P.prob v' := by
  refine ⟨_, fun w => (∑ i, P.val i (w i).2.1 (w i).2.2 * (piE i (w i).1 (pos i) / P.piB i (w i).1)) / n,
    fun w hw => EmbProcess.mips_value hP hn pos piB piE hB hE hBP hindB hindE nActions learner w hw, fun w hw => ?_, ?_⟩
  · have hb : ∀ i, 0 < P.piB i (w i).1 := fun i => lt_of_le_of_ne ((hP.piB_dist i).nonneg _)
      (left_ne_zero_of_mul (left_ne_zero_of_mul (jointProb_ne_zero hw i))).symm
    have hv : (P.plainLog w piE pos).Valid := ⟨hn, hb, fun _ => one_pos, fun _ => zero_le_one, fun i l => by
      simp only [EmbProcess.plainLog, (hE i l).sum_one, closeToOne_one]⟩
    dsimp only
    rw [value_ipw hv]
    rfl
  · rw [variance_avg (EmbProcess.sum_prob hP) (fun i o => P.val i o.2.1 o.2.2 *
        (P.embMarginal (fun a => piE i a (pos i)) o.2.1 / P.embMarginal (P.piB i) o.2.1)),
      variance_avg (EmbProcess.sum_prob hP) (fun i o => P.val i o.2.1 o.2.2 * (piE i o.1 (pos i) / P.piB i o.1))]
    refine div_le_div_of_nonneg_right (Finset.sum_le_sum fun i _ => ?_) (sq_nonneg _)
    rw [variance1_eq (EmbProcess.sum_prob hP i), variance1_eq (EmbProcess.sum_prob hP i),
      P.expect_eq i fun a e s => P.val i e s * (piE i a (pos i) / P.piB i a),
      P.expect_eq i fun _ e s => P.val i e s * (P.embMarginal (fun a => piE i a (pos i)) e / P.embMarginal (P.piB i) e),
      P.expect_eq i fun a e s => (P.val i e s * (piE i a (pos i) / P.piB i a)) ^ 2,
      P.expect_eq i fun _ e s => (P.val i e s * (P.embMarginal (fun a => piE i a (pos i)) e / P.embMarginal (P.piB i) e)) ^ 2]
    have hm : ∀ e s, ∑ a, P.piB i a * P.embProb a e * (P.val i e s * (P.embMarginal (fun a => piE i a (pos i)) e / P.embMarginal (P.piB i) e)) =
        ∑ a, P.piB i a * P.embProb a e * (P.val i e s * (piE i a (pos i) / P.piB i a)) := by
      intro e s
      have h1 : ∑ a, P.piB i a * P.embProb a e * (P.val i e s * (piE i a (pos i) / P.piB i a)) =
          P.val i e s * P.embMarginal (fun a => piE i a (pos i)) e := by
        rw [EmbProcess.embMarginal, Finset.mul_sum]
        refine Finset.sum_congr rfl fun a _ => ?_
        by_cases h0 : piE i a (pos i) = 0
        · simp [h0]
        · have := hsupp i a h0
          field_simp
      rw [h1, ← Finset.sum_mul, ← EmbProcess.embMarginal]
      by_cases h0 : P.embMarginal (P.piB i) e = 0
      · have h2 : P.embMarginal (fun a => piE i a (pos i)) e = 0 := by
          refine Finset.sum_eq_zero fun a _ => ?_
          by_cases h3 : piE i a (pos i) = 0
          · simp [h3]
          · have h4 := (Finset.sum_eq_zero_iff_of_nonneg fun a _ =>
              mul_nonneg ((hP.piB_dist i).nonneg a) (EmbProcess.embProb_nonneg hP a e)).1 h0 a (Finset.mem_univ a)
            rcases mul_eq_zero.1 h4 with h5 | h5
            · exact absurd h5 (hsupp i a h3)
            · simp [h5]
        simp [h0, h2]
      · field_simp
    simp only [hm]
    refine sub_le_sub_right (Finset.sum_le_sum fun e _ => Finset.sum_le_sum fun s _ =>
      mul_le_mul_of_nonneg_left ?_ ((hP.law_dist i e).nonneg s)) _
    rw [← Finset.sum_mul]
    have h := marginal_second_moment (b := P.piB i) (e := fun a => piE i a (pos i)) (p := fun a => P.embProb a e)
      (hP.piB_dist i).nonneg (fun a => EmbProcess.embProb_nonneg hP a e) (hsupp i)
    have h1 := mul_le_mul_of_nonneg_left h (sq_nonneg (P.val i e s))
    refine le_trans (le_of_eq ?_) (h1.trans (le_of_eq ?_))
    · simp only [EmbProcess.embMarginal]; ring
    · rw [Finset.mul_sum]
      exact Finset.sum_congr rfl fun a _ => by ring

/-- Three actions, two of which share their embedding. -/
def exShared : EmbProcess ℚ 1 3 2 1 1 where
  piB := fun _ => ![1 / 2, 1 / 4, 1 / 4]
  pEA := fun a c _ => if (a = 2 ↔ c = 1) then 1 else 0
  law := fun _ _ _ => 1
  val := fun _ e _ => (e 0).val + 1

theorem exShared_valid : exShared.Valid where
  piB_dist := fun i => ⟨by revert i; decide +kernel, by revert i; decide +kernel⟩
  pEA_dist := fun a d => ⟨by revert a d; decide +kernel, by revert a d; decide +kernel⟩
  law_dist := fun i e => ⟨fun _ => by norm_num [exShared], by norm_num [exShared]⟩

def exSharedB : Fin 1 → Fin 3 → Fin 1 → ℚ := fun _ a _ => ![1 / 2, 1 / 4, 1 / 4] a
def exSharedE : Fin 1 → Fin 3 → Fin 1 → ℚ := fun _ a _ => ![1 / 4, 1 / 2, 1 / 4] a

example (learner) := C164_mips exShared_valid (by decide) (fun _ => 0) exSharedB exSharedE
  (fun i l => ⟨by revert i l; decide +kernel, by revert i l; decide +kernel⟩)
  (fun i l => ⟨by revert i l; decide +kernel, by revert i l; decide +kernel⟩) (fun _ _ => rfl)
  (fun _ e => by simp [EmbProcess.embMarginal, EmbProcess.embProb])
  (fun _ e => by simp [EmbProcess.embMarginal, EmbProcess.embProb]) (by decide +kernel) 3 learner

end embeddings

end Obp
