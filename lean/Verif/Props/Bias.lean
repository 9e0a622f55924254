import Verif.Spec.Bias
import Verif.Spec.Variance
import Verif.Props.Unbiased

/-!
# C169: the bias of clipped, switched and shrunk estimates
-/

set_option linter.unusedSectionVars false

namespace Obp
open Log

variable {K : Type} [Field K] [LinearOrder K] [IsStrictOrderedRing K]
variable {n A S L : ℕ}

/-- Weight that an estimator with `lambda_ = l` gives to a logged reward of importance weight `w`. -/
def usedWeight (k : Kind) (l w : K) : K :=
  match k with
  | .ipw | .dr => min w l
  | .switchDr => if w ≤ l then w else 0
  | .drOs => l * w / (w ^ 2 + l)
  | .sgIpw | .sgDr => w / (1 - l + l * w)
  | _ => 0

/-- The behaviour probability times the weight used is the evaluation probability less the part
that is lost. -/
theorem used_add_lost {k : Kind} (hk : k.HasBias) {l e b : K} (hl : 0 < l)
    (hl1 : k = .sgIpw ∨ k = .sgDr → l < 1) (he : 0 ≤ e) (hb : 0 ≤ b) :
    b * usedWeight k l (e / b) = e - lostProb k l e b := by
  have hsg : l < 1 → b * (e / b / (1 - l + l * (e / b))) =
      e - e * (l * (e - b) / ((1 - l) * b + l * e)) := by
    intro h1
    rcases hb.eq_or_lt with rfl | hb
    · rcases he.eq_or_lt with rfl | he
      · simp
      · have := hl.ne'
        have := he.ne'
        simp only [zero_mul, mul_zero, zero_add, sub_zero]
        rw [div_self (mul_ne_zero ‹_› ‹_›), mul_one, sub_self]
    · have hw : 0 ≤ e / b := div_nonneg he hb.le
      have hD : 0 < 1 - l + l * (e / b) := by
        have := mul_nonneg hl.le hw
        linarith
      have hD2 : 0 < (1 - l) * b + l * e := by
        have h1 := mul_pos (sub_pos.2 h1) hb
        have h2 := mul_nonneg hl.le he
        linarith
      have heq : 1 - l + l * (e / b) = ((1 - l) * b + l * e) / b := by
        field_simp
      rw [heq]
      field_simp
      ring
  have hclip : b * min (e / b) l = e - max 0 (e - l * b) := by
    rcases hb.eq_or_lt with rfl | hb
    · simp [he]
    · rcases le_total (e / b) l with h | h
      · have h' : e ≤ l * b := by rwa [div_le_iff₀ hb] at h
        rw [min_eq_left h, max_eq_left (by linarith), mul_div_cancel₀ _ hb.ne', sub_zero]
      · have h' : l * b ≤ e := by rwa [le_div_iff₀ hb] at h
        rw [min_eq_right h, max_eq_right (by linarith)]
        ring
  simp only [Kind.HasBias, List.mem_cons, List.not_mem_nil, or_false] at hk
  rcases hk with rfl | rfl | rfl | rfl | rfl | rfl | rfl
  · exact hclip
  · exact hclip
  · show b * (if e / b ≤ l then e / b else 0) = e - if l * b < e then e else 0
    rcases hb.eq_or_lt with rfl | hb
    · rcases he.eq_or_lt with rfl | he
      · simp
      · simp [he]
    · by_cases h : e / b ≤ l
      · have h' : e ≤ l * b := by rwa [div_le_iff₀ hb] at h
        rw [if_pos h, if_neg h'.not_gt, mul_div_cancel₀ _ hb.ne', sub_zero]
      · have h' : l * b < e := by rw [not_le, lt_div_iff₀ hb] at h; exact h
        rw [if_neg h, if_pos h', mul_zero, sub_self]
  · show b * (l * (e / b) / ((e / b) ^ 2 + l)) = e - e * (e ^ 2 / (e ^ 2 + l * b ^ 2))
    rcases hb.eq_or_lt with rfl | hb
    · rcases he.eq_or_lt with rfl | he
      · simp
      · have := he.ne'
        simp [this]
    · have hD : 0 < e ^ 2 + l * b ^ 2 := by positivity
      have heq : (e / b) ^ 2 + l = (e ^ 2 + l * b ^ 2) / b ^ 2 := by field_simp
      rw [heq]
      field_simp
      ring
  · exact hsg (hl1 (.inl rfl))
  · exact hsg (hl1 (.inr rfl))
  · show b * 0 = e - e
    simp

/-- The contribution of a logged round to the estimate. -/
def weighTerm (k : Kind) (l : K) (pi q : Fin A → K) (b : K) (a : Fin A) (r : K) : K :=
  ∑ x, k.fallback (q x) * pi x + usedWeight k l (pi a / b) * (r - k.fallback (q a))

/-- The estimate is the mean of the contributions. -/
theorem value_weighTerm {k : Kind} (hk : k.HasBias) {l : K} (hl : 0 < l)
    (hl1 : k = .sgIpw ∨ k = .sgDr → l < 1)
    {P : Process K n A S} (hn : 0 < n) (w : Fin n → Fin A × Fin S)
    (hb : ∀ i, 0 < P.piB i (w i).1) (pos : Fin n → Fin L) (piE q : Fin n → Fin A → Fin L → K)
    (hE : ∀ i l, IsDist fun a => piE i a l) :
    (Estimator.mk k (.fin l) false).estimatePolicyValue (P.log w P.piB pos piE q).args =
      .ok ((∑ i, weighTerm k l (fun a => piE i a (pos i)) (fun a => q i a (pos i))
        (P.piB i (w i).1) (w i).1 (P.val i (w i).1 (w i).2)) / (n : K)) := by
  have hv := Process.log_valid (P := P) hn w P.piB hb pos piE q hE
  have hw : ∀ i, 0 ≤ (P.log w P.piB pos piE q).weight false i := fun i =>
    div_nonneg ((hE i (pos i)).nonneg _) (hb i).le
  have hm : ∀ i, (P.log w P.piB pos piE q).modelValue i = ∑ a, q i a (pos i) * piE i a (pos i) := by
    intro i
    simp only [modelValue, Process.log, (hE _ _).sum_one, div_one]
  simp only [Kind.HasBias, List.mem_cons, List.not_mem_nil, or_false] at hk
  rcases hk with rfl | rfl | rfl | rfl | rfl | rfl | rfl
  · rw [value_ipw hv]
    simp only [weighTerm, Kind.fallback, zero_mul, Finset.sum_const_zero, zero_add, sub_zero, avg]
    congr 2
    exact Finset.sum_congr rfl fun i _ => mul_comm _ _
  · rw [value_dr hv]
    simp only [weighTerm, Kind.fallback, avg, hm]
    rfl
  · rw [value_switchDr hv]
    simp only [weighTerm, Kind.fallback, avg, hm]
    congr 2
    refine Finset.sum_congr rfl fun i _ => ?_
    congr 1
    show (if decide (_ ≤ l) = true then (1 : K) else 0) * _ * _ = (if _ ≤ l then _ else 0) * _
    by_cases h : (P.log w P.piB pos piE q).weight false i ≤ l
    · rw [if_pos (by simpa using h), one_mul]
      exact (congrArg (· * _) (if_pos h)).symm
    · rw [if_neg (by simpa using h), zero_mul, zero_mul]
      exact ((congrArg (· * _) (if_neg h)).trans (zero_mul _)).symm
  · rw [value_drOs hv _ _ (fun i => by have := hw i; positivity)]
    simp only [weighTerm, Kind.fallback, avg, hm]
    rfl
  · rw [value_sgIpw hv _ _ (fun i => by
      have := mul_nonneg hl.le (hw i); have := hl1 (.inl rfl); linarith)]
    simp only [weighTerm, Kind.fallback, zero_mul, Finset.sum_const_zero, zero_add, sub_zero, avg]
    rfl
  · rw [value_sgDr hv _ _ (fun i => by
      have := mul_nonneg hl.le (hw i); have := hl1 (.inr rfl); linarith)]
    simp only [weighTerm, Kind.fallback, avg, hm]
    rfl
  · rw [value_dm hv]
    simp only [weighTerm, Kind.fallback, avg, hm, usedWeight, zero_mul, add_zero]

/-- The expected contribution of a round. -/
theorem expect_weighTerm {k : Kind} (hk : k.HasBias) {l : K} (hl : 0 < l)
    (hl1 : k = .sgIpw ∨ k = .sgDr → l < 1) {P : Process K n A S} (hP : P.Valid) (i : Fin n)
    {pi : Fin A → K} (hpi : IsDist pi) (q : Fin A → K) :
    expect1 (P.prob i) (fun o => weighTerm k l pi q (P.piB i o.1) o.1 (P.val i o.1 o.2)) =
      ∑ a, pi a * P.meanReward i a +
        ∑ a, lostProb k l (pi a) (P.piB i a) * (k.fallback (q a) - P.meanReward i a) := by
  have h1 : expect1 (P.prob i) (fun o => weighTerm k l pi q (P.piB i o.1) o.1 (P.val i o.1 o.2)) =
      (∑ a, k.fallback (q a) * pi a) + ∑ a, ∑ s, P.piB i a * P.law i a s *
        (usedWeight k l (pi a / P.piB i a) * (P.val i a s - k.fallback (q a))) := by
    unfold expect1 weighTerm
    simp only [mul_add, Finset.sum_add_distrib]
    rw [← Finset.sum_mul, Process.sum_prob hP, one_mul, Fintype.sum_prod_type]
    rfl
  rw [h1, ← Finset.sum_add_distrib, ← Finset.sum_add_distrib]
  refine Finset.sum_congr rfl fun a _ => ?_
  have h2 : ∀ s, P.piB i a * P.law i a s *
      (usedWeight k l (pi a / P.piB i a) * (P.val i a s - k.fallback (q a))) =
      (pi a - lostProb k l (pi a) (P.piB i a)) * (P.law i a s * P.val i a s) -
        P.law i a s * ((pi a - lostProb k l (pi a) (P.piB i a)) * k.fallback (q a)) := by
    intro s
    rw [← used_add_lost hk hl hl1 (hpi.nonneg a) ((hP.piB_dist i).nonneg a)]
    ring
  simp only [h2, Finset.sum_sub_distrib, ← Finset.mul_sum, ← Finset.sum_mul,
    (hP.law_dist i a).sum_one]
  rw [show ∑ s, P.law i a s * P.val i a s = P.meanReward i a from rfl]
  ring

/-- **C169.** The expectation of IPW, SGIPW, DR, Switch-DR, DRos, SGDR (with a positive finite
`lambda_`, below one for the sub-Gaussian versions) and DM is the value of the evaluation policy
plus the mean over rounds of the evaluation probability that is not evaluated from logged rewards,
times the error made in its place: prediction minus expected reward, or minus the expected reward
for estimators without reward model. Common support is not assumed. -/
theorem C169_bias {k : Kind} (hk : k.HasBias) {l : K} (hl : 0 < l)
    (hl1 : k = .sgIpw ∨ k = .sgDr → l < 1) {P : Process K n A S} (hP : P.Valid) (hn : 0 < n)
    (pos : Fin n → Fin L) (piE q : Fin n → Fin A → Fin L → K)
    (hE : ∀ i l, IsDist fun a => piE i a l) :
    ∃ v, Estimates P.prob (fun w => (Estimator.mk k (.fin l) false).estimatePolicyValue
        (P.log w P.piB pos piE q).args) v ∧
      expect P.prob v = P.policyValue (fun i a => piE i a (pos i)) +
        Process.meanSum fun i a => lostProb k l (piE i a (pos i)) (P.piB i a) *
          (k.fallback (q i a (pos i)) - P.meanReward i a) := by
  refine ⟨fun w => (∑ i, weighTerm k l (fun a => piE i a (pos i)) (fun a => q i a (pos i))
        (P.piB i (w i).1) (w i).1 (P.val i (w i).1 (w i).2)) / (n : K), ?_, ?_⟩
  · intro w hw
    exact value_weighTerm hk hl hl1 hn w (fun i => lt_of_le_of_ne ((hP.piB_dist i).nonneg _)
      (left_ne_zero_of_mul (jointProb_ne_zero hw i)).symm) pos piE q hE
  · rw [expect_avg (Process.sum_prob hP) (fun i o => weighTerm k l (fun a => piE i a (pos i))
      (fun a => q i a (pos i)) (P.piB i o.1) o.1 (P.val i o.1 o.2))]
    unfold Process.policyValue Process.meanSum
    rw [← add_div, ← Finset.sum_add_distrib]
    congr 1
    exact Finset.sum_congr rfl fun i _ => expect_weighTerm hk hl hl1 hP i (hE i (pos i)) _

/-- All numbers that an estimator may report have the same expectation. -/
theorem expect_eq_of_estimates {P : Process K n A S} {f : (Fin n → Fin A × Fin S) → Py K}
    {u v : (Fin n → Fin A × Fin S) → K} (hu : Estimates P.prob f u) (hv : Estimates P.prob f v) :
    expect P.prob u = expect P.prob v :=
  expect_congr fun w hw => by
    have := (hu w hw).symm.trans (hv w hw)
    simpa using this

theorem meanSum_le {f g : Fin n → Fin A → K} (h : ∀ i a, f i a ≤ g i a) :
    Process.meanSum f ≤ Process.meanSum g :=
  div_le_div_of_nonneg_right
    (Finset.sum_le_sum fun i _ => Finset.sum_le_sum fun a _ => h i a) (Nat.cast_nonneg n)

/-- The lost probability is between zero and the evaluation probability, except for the
sub-Gaussian estimators, where rewards may also be given too much weight. -/
theorem lostProb_mem {k : Kind} (h1 : k ≠ .sgIpw) (h2 : k ≠ .sgDr) {l e b : K} (hl : 0 < l)
    (he : 0 ≤ e) (hb : 0 ≤ b) : 0 ≤ lostProb k l e b ∧ lostProb k l e b ≤ e := by
  have hlb := mul_nonneg hl.le hb
  have hc : 0 ≤ max 0 (e - l * b) ∧ max 0 (e - l * b) ≤ e :=
    ⟨le_max_left _ _, max_le he (by linarith)⟩
  cases k with
  | ipw => exact hc
  | dr => exact hc
  | switchDr =>
    show 0 ≤ (if l * b < e then e else 0) ∧ (if l * b < e then e else 0) ≤ e
    split <;> simp [he]
  | drOs =>
    show 0 ≤ e * (e ^ 2 / (e ^ 2 + l * b ^ 2)) ∧ e * (e ^ 2 / (e ^ 2 + l * b ^ 2)) ≤ e
    have hlb2 : 0 ≤ l * b ^ 2 := by positivity
    have hf : 0 ≤ e ^ 2 / (e ^ 2 + l * b ^ 2) := by positivity
    exact ⟨mul_nonneg he hf, mul_le_of_le_one_right he
      (div_le_one_of_le₀ (by linarith) (by positivity))⟩
  | dm => exact ⟨he, le_rfl⟩
  | sgIpw => exact absurd rfl h1
  | sgDr => exact absurd rfl h2
  | _ => exact ⟨le_rfl, he⟩

/-- **C169, size.** If the predictions of an action are wrong by at most `eps` in every round, then
the expected DR, Switch-DR, DRos or DM estimate is wrong by at most `eps` times the mean of the lost
evaluation probability, which is at most one. -/
theorem C169_bias_size {k : Kind} (hk : k ∈ [Kind.dr, .switchDr, .drOs, .dm]) {l eps : K} (hl : 0 < l)
    {P : Process K n A S} (hP : P.Valid) (hn : 0 < n)
    (pos : Fin n → Fin L) (piE q : Fin n → Fin A → Fin L → K)
    (hE : ∀ i l, IsDist fun a => piE i a l)
    (heps : ∀ i a, |q i a (pos i) - P.meanReward i a| ≤ eps)
    {v} (hv : Estimates P.prob (fun w => (Estimator.mk k (.fin l) false).estimatePolicyValue
        (P.log w P.piB pos piE q).args) v) :
    |expect P.prob v - P.policyValue fun i a => piE i a (pos i)| ≤
        eps * Process.meanSum (fun i a => lostProb k l (piE i a (pos i)) (P.piB i a)) ∧
      Process.meanSum (fun i a => lostProb k l (piE i a (pos i)) (P.piB i a)) ≤ 1 := by
  have hkb : k.HasBias ∧ k ≠ .sgIpw ∧ k ≠ .sgDr ∧ ∀ x : K, k.fallback x = x := by
    simp only [List.mem_cons, List.not_mem_nil, or_false] at hk
    rcases hk with rfl | rfl | rfl | rfl <;>
      exact ⟨by simp [Kind.HasBias], by decide, by decide, fun _ => rfl⟩
  obtain ⟨hkb, hs1, hs2, hfb⟩ := hkb
  obtain ⟨u, hu, hval⟩ := C169_bias hkb hl (fun h => (h.elim hs1 hs2).elim) hP hn pos piE q hE
  have hmem := fun i a => lostProb_mem hs1 hs2 hl ((hE i (pos i)).nonneg a) ((hP.piB_dist i).nonneg a)
  constructor
  · rw [expect_eq_of_estimates hv hu, hval, add_sub_cancel_left]
    unfold Process.meanSum
    rw [abs_div, abs_of_nonneg (Nat.cast_nonneg n : (0 : K) ≤ n), ← mul_div_assoc, Finset.mul_sum]
    refine div_le_div_of_nonneg_right ?_ (Nat.cast_nonneg n)
    refine (Finset.abs_sum_le_sum_abs _ _).trans (Finset.sum_le_sum fun i _ => ?_)
    rw [Finset.mul_sum]
    refine (Finset.abs_sum_le_sum_abs _ _).trans (Finset.sum_le_sum fun a _ => ?_)
    rw [abs_mul, hfb, abs_of_nonneg (hmem i a).1, mul_comm]
    exact mul_le_mul_of_nonneg_right (heps i a) (hmem i a).1
  · refine (meanSum_le fun i a => (hmem i a).2).trans ?_
    unfold Process.meanSum
    have hs : ∑ i, ∑ a, piE i a (pos i) = (n : K) := by
      rw [Finset.sum_congr rfl fun i _ => (hE i (pos i)).sum_one]
      simp
    rw [hs, div_self (by exact_mod_cast hn.ne')]

/-- The probability a sub-Gaussian weight loses, or counts too much, is at most the difference between the two probabilities. -/
theorem lostProb_sg {l e b : K} (hl : 0 < l) (hl1 : l < 1) (he : 0 ≤ e) (hb : 0 ≤ b) : |lostProb .sgDr l e b| ≤ |e - b| := by
  show |e * (l * (e - b) / ((1 - l) * b + l * e))| ≤ |e - b|
  have h1 : 0 ≤ (1 - l) * b := mul_nonneg (sub_nonneg.2 hl1.le) hb
  have h2 : 0 ≤ l * e := mul_nonneg hl.le he
  rw [show e * (l * (e - b) / ((1 - l) * b + l * e)) = l * e / ((1 - l) * b + l * e) * (e - b) by ring, abs_mul,
    abs_of_nonneg (div_nonneg h2 (add_nonneg h1 h2))]
  exact mul_le_of_le_one_left (abs_nonneg _) (div_le_one_of_le₀ (by linarith) (add_nonneg h1 h2))

/-- **C169, size.** If the predictions of an action are wrong by at most `eps` in every round, then the expected SGDR estimate is wrong by at
most `eps` times the mean distance between evaluation and behaviour policy (sum of absolute differences), which is at most two. -/
theorem C169_subgaussian_size {l eps : K} (hl : 0 < l) (hl1 : l < 1) {P : Process K n A S} (hP : P.Valid) (hn : 0 < n)
    (pos : Fin n → Fin L) (piE q : Fin n → Fin A → Fin L → K)
    (hE : ∀ i l, IsDist fun a => piE i a l)
    (heps : ∀ i a, |q i a (pos i) - P.meanReward i a| ≤ eps)
    {v} (hv : Estimates P.prob (fun w => (Estimator.mk .sgDr (.fin l) false).estimatePolicyValue
        (P.log w P.piB pos piE q).args) v) :
    |expect P.prob v - P.policyValue fun i a => piE i a (pos i)| ≤
        eps * Process.meanSum (fun i a => |piE i a (pos i) - P.piB i a|) ∧
      Process.meanSum (fun i a => |piE i a (pos i) - P.piB i a|) ≤ 2 := by
  obtain ⟨u, hu, hval⟩ := C169_bias (k := .sgDr) (by simp [Kind.HasBias]) hl (fun _ => hl1) hP hn pos piE q hE
  constructor
  · rw [expect_eq_of_estimates hv hu, hval, add_sub_cancel_left]
    unfold Process.meanSum
    rw [abs_div, abs_of_nonneg (Nat.cast_nonneg n : (0 : K) ≤ n), ← mul_div_assoc, Finset.mul_sum]
    refine div_le_div_of_nonneg_right ?_ (Nat.cast_nonneg n)
    refine (Finset.abs_sum_le_sum_abs _ _).trans (Finset.sum_le_sum fun i _ => ?_)
    rw [Finset.mul_sum]
    refine (Finset.abs_sum_le_sum_abs _ _).trans (Finset.sum_le_sum fun a _ => ?_)
    rw [abs_mul, mul_comm]
    exact mul_le_mul (heps i a) (lostProb_sg hl hl1 ((hE i (pos i)).nonneg a) ((hP.piB_dist i).nonneg a)) (abs_nonneg _)
      ((abs_nonneg _).trans (heps i a))
  · have h : ∀ i, ∑ a, |piE i a (pos i) - P.piB i a| ≤ 2 := fun i => by
      calc ∑ a, |piE i a (pos i) - P.piB i a| ≤ ∑ a, (piE i a (pos i) + P.piB i a) :=
            Finset.sum_le_sum fun a _ => abs_le.2 (by
              have := (hE i (pos i)).nonneg a
              have := (hP.piB_dist i).nonneg a
              constructor <;> linarith)
        _ = 2 := by
            rw [Finset.sum_add_distrib, (hE i (pos i)).sum_one, (hP.piB_dist i).sum_one]
            norm_num
    unfold Process.meanSum
    have hn' : (0 : K) < n := by exact_mod_cast hn
    rw [div_le_iff₀ hn']
    refine (Finset.sum_le_sum fun i _ => h i).trans ?_
    simp [mul_comm]

/-- **C169, exact predictions.** With exact predictions DR, Switch-DR, DRos, SGDR and DM are
unbiased, whatever `lambda_` and whatever the support of the behaviour policy. -/
theorem C169_exact_predictions {k : Kind} (hk : k ∈ [Kind.dr, .switchDr, .drOs, .sgDr, .dm]) {l : K}
    (hl : 0 < l) (hl1 : k = .sgDr → l < 1) {P : Process K n A S} (hP : P.Valid) (hn : 0 < n)
    (pos : Fin n → Fin L) (piE q : Fin n → Fin A → Fin L → K)
    (hE : ∀ i l, IsDist fun a => piE i a l) (hq : ∀ i a, q i a (pos i) = P.meanReward i a)
    {v} (hv : Estimates P.prob (fun w => (Estimator.mk k (.fin l) false).estimatePolicyValue
        (P.log w P.piB pos piE q).args) v) :
    expect P.prob v = P.policyValue fun i a => piE i a (pos i) := by
  have hkb : k.HasBias ∧ k ≠ .sgIpw ∧ ∀ x : K, k.fallback x = x := by
    simp only [List.mem_cons, List.not_mem_nil, or_false] at hk
    rcases hk with rfl | rfl | rfl | rfl | rfl <;>
      exact ⟨by simp [Kind.HasBias], by decide, fun _ => rfl⟩
  obtain ⟨hkb, hs1, hfb⟩ := hkb
  obtain ⟨u, hu, hval⟩ := C169_bias hkb hl (fun h => hl1 (h.resolve_left hs1)) hP hn pos piE q hE
  rw [expect_eq_of_estimates hv hu, hval]
  simp [Process.meanSum, hfb, hq]

/-- **C169, large `lambda_`.** Clipping or switching at a `lambda_` that no importance weight
exceeds leaves IPW, DR and Switch-DR unbiased. -/
theorem C169_large_lambda {k : Kind} (hk : k ∈ [Kind.ipw, .dr, .switchDr]) {l : K}
    (hl : 0 < l) {P : Process K n A S} (hP : P.Valid) (hn : 0 < n)
    (pos : Fin n → Fin L) (piE q : Fin n → Fin A → Fin L → K)
    (hE : ∀ i l, IsDist fun a => piE i a l)
    (hw : ∀ i a, piE i a (pos i) ≤ l * P.piB i a)
    {v} (hv : Estimates P.prob (fun w => (Estimator.mk k (.fin l) false).estimatePolicyValue
        (P.log w P.piB pos piE q).args) v) :
    expect P.prob v = P.policyValue fun i a => piE i a (pos i) := by
  have hkb : k.HasBias ∧ k ≠ .sgIpw ∧ k ≠ .sgDr ∧
      ∀ i a, lostProb k l (piE i a (pos i)) (P.piB i a) = 0 := by
    have hc : ∀ i a, max 0 (piE i a (pos i) - l * P.piB i a) = 0 := fun i a =>
      max_eq_left (sub_nonpos.2 (hw i a))
    simp only [List.mem_cons, List.not_mem_nil, or_false] at hk
    rcases hk with rfl | rfl | rfl
    · exact ⟨by simp [Kind.HasBias], by decide, by decide, hc⟩
    · exact ⟨by simp [Kind.HasBias], by decide, by decide, hc⟩
    · exact ⟨by simp [Kind.HasBias], by decide, by decide, fun i a => if_neg (hw i a).not_gt⟩
  obtain ⟨hkb, hs1, hs2, h0⟩ := hkb
  obtain ⟨u, hu, hval⟩ := C169_bias hkb hl (fun h => (h.elim hs1 hs2).elim) hP hn pos piE q hE
  rw [expect_eq_of_estimates hv hu, hval]
  simp [Process.meanSum, h0]

/-- **C169, clipped IPW never overestimates.** If expected rewards are between zero and `R`, the
expected clipped IPW estimate is at most the value of the evaluation policy, below it by at most
`R` times the mean of the evaluation probability in excess of `lambda_` times the behaviour
probability, and does not decrease if `lambda_` is raised. -/
theorem C169_clipped_ipw {l R : K} (hl : 0 < l) {P : Process K n A S} (hP : P.Valid) (hn : 0 < n)
    (pos : Fin n → Fin L) (piE q : Fin n → Fin A → Fin L → K)
    (hE : ∀ i l, IsDist fun a => piE i a l)
    (hR : ∀ i a, 0 ≤ P.meanReward i a ∧ P.meanReward i a ≤ R)
    {v} (hv : Estimates P.prob (fun w => (Estimator.mk .ipw (.fin l) false).estimatePolicyValue
        (P.log w P.piB pos piE q).args) v) :
    expect P.prob v ≤ P.policyValue (fun i a => piE i a (pos i)) ∧
      P.policyValue (fun i a => piE i a (pos i)) -
        R * Process.meanSum (fun i a => max 0 (piE i a (pos i) - l * P.piB i a)) ≤ expect P.prob v ∧
      ∀ {l' : K}, l ≤ l' → ∀ {v'}, Estimates P.prob (fun w =>
          (Estimator.mk .ipw (.fin l') false).estimatePolicyValue (P.log w P.piB pos piE q).args) v' →
        expect P.prob v ≤ expect P.prob v' := by
  have key : ∀ {l : K}, 0 < l → ∀ {v}, Estimates P.prob (fun w =>
      (Estimator.mk .ipw (.fin l) false).estimatePolicyValue (P.log w P.piB pos piE q).args) v →
      expect P.prob v = P.policyValue (fun i a => piE i a (pos i)) +
        Process.meanSum fun i a => max 0 (piE i a (pos i) - l * P.piB i a) *
          (0 - P.meanReward i a) := by
    intro l hl v hv
    obtain ⟨u, hu, hval⟩ := C169_bias (k := .ipw) (by simp [Kind.HasBias]) hl (by simp) hP hn pos piE q hE
    rw [expect_eq_of_estimates hv hu, hval]
    rfl
  rw [key hl hv]
  refine ⟨?_, ?_, ?_⟩
  · have h0 : Process.meanSum (fun i a => max 0 (piE i a (pos i) - l * P.piB i a) *
        (0 - P.meanReward i a)) ≤ Process.meanSum (fun (_ : Fin n) (_ : Fin A) => (0 : K)) :=
      meanSum_le fun i a => mul_nonpos_of_nonneg_of_nonpos (le_max_left _ _) (by
        have := (hR i a).1; linarith)
    have h1 : Process.meanSum (fun (_ : Fin n) (_ : Fin A) => (0 : K)) = 0 := by simp [Process.meanSum]
    linarith
  · have h0 : Process.meanSum (fun i a => max 0 (piE i a (pos i) - l * P.piB i a) * (0 - R)) ≤
        Process.meanSum (fun i a => max 0 (piE i a (pos i) - l * P.piB i a) *
        (0 - P.meanReward i a)) :=
      meanSum_le fun i a => mul_le_mul_of_nonneg_left (by
        have := (hR i a).2; linarith) (le_max_left _ _)
    have h1 : Process.meanSum (fun i a => max 0 (piE i a (pos i) - l * P.piB i a) * (0 - R)) =
        - (R * Process.meanSum (fun i a => max 0 (piE i a (pos i) - l * P.piB i a))) := by
      unfold Process.meanSum
      simp only [← Finset.sum_mul]
      ring
    linarith
  · intro l' hll v' hv'
    rw [key (hl.trans_le hll) hv']
    refine add_le_add le_rfl (meanSum_le fun i a => ?_)
    refine mul_le_mul_of_nonpos_right (max_le_max le_rfl ?_) (by have := (hR i a).1; linarith)
    have := mul_le_mul_of_nonneg_right hll ((hP.piB_dist i).nonneg a)
    linarith

/-! Non-vacuity: clipping at 1 in a process where an importance weight is 3/2, and where the
evaluation policy takes an action that is never logged. -/

/-- Rewards of `exProcess` shifted to be non-negative. -/
def exBiasProcess : Process ℚ 2 2 2 :=
  { exProcess with val := fun i a s => 1 + i.val + 3 * a.val - s.val }

theorem exBiasProcess_valid : exBiasProcess.Valid := ⟨exProcess_valid.piB_dist, exProcess_valid.law_dist⟩

/-- In round 0 the evaluation policy takes action 1, which is never logged, half of the time. -/
def exBiasPiE : Fin 2 → Fin 2 → Fin 1 → ℚ := fun i a _ => (![![1 / 2, 1 / 2], ![1 / 2, 1 / 2]] i a : ℚ)

theorem exBiasPiE_dist : ∀ i l, IsDist fun a => exBiasPiE i a l :=
  fun i l => ⟨by revert i l; decide +kernel, by revert i l; decide +kernel⟩

example : Process.meanSum (n := 2) (A := 2) (fun i a =>
    lostProb .ipw 1 (exBiasPiE i a 0) (exBiasProcess.piB i a)) = 1 / 3 := by decide +kernel

example := C169_bias (k := .drOs) (by simp [Kind.HasBias]) one_pos (by simp) exBiasProcess_valid
  (by decide) (fun _ => 0) exBiasPiE (fun _ _ _ => 7) exBiasPiE_dist

example :
    ∃ v, Estimates exBiasProcess.prob (fun w => (Estimator.mk .ipw (.fin 1) false).estimatePolicyValue
        (exBiasProcess.log w exBiasProcess.piB (fun _ => 0) exBiasPiE (fun _ _ _ => 7)).args) v ∧
      expect exBiasProcess.prob v < exBiasProcess.policyValue (fun i a => exBiasPiE i a 0) ∧
      exBiasProcess.policyValue (fun i a => exBiasPiE i a 0) - 5 * (1 / 3) ≤
        expect exBiasProcess.prob v := by
  obtain ⟨v, hv, hval⟩ := C169_bias (k := .ipw) (by simp [Kind.HasBias]) one_pos (by simp)
    exBiasProcess_valid (by decide) (fun _ => (0 : Fin 1)) exBiasPiE (fun _ _ _ => 7) exBiasPiE_dist
  refine ⟨v, hv, ?_, ?_⟩
  · rw [hval]
    decide +kernel
  · have h := (C169_clipped_ipw (R := 5) one_pos exBiasProcess_valid (by decide) (fun _ => (0 : Fin 1))
      exBiasPiE (fun _ _ _ => 7) exBiasPiE_dist (by decide +kernel) hv).2.1
    have h3 : Process.meanSum (n := 2) (A := 2) (fun i a =>
      max 0 (exBiasPiE i a 0 - 1 * exBiasProcess.piB i a)) = 1 / 3 := by decide +kernel
    rwa [h3] at h

example (k) (hk : k ∈ [Kind.dr, .switchDr, .drOs, .dm]) (v) (hv) :=
  C169_bias_size (eps := 9) hk (l := 2) (by norm_num) exBiasProcess_valid (by decide)
    (fun _ => (0 : Fin 1)) exBiasPiE (fun _ _ _ => 7) exBiasPiE_dist (by decide +kernel) (v := v) hv

example (v) (hv) :=
  C169_subgaussian_size (eps := 9) (l := 9 / 10) (by norm_num) (by norm_num) exBiasProcess_valid (by decide)
    (fun _ => (0 : Fin 1)) exBiasPiE (fun _ _ _ => 7) exBiasPiE_dist (by decide +kernel) (v := v) hv

/-- The factor can exceed one: with opposite errors of size one, probabilities 9/10 and 1/10 and `lambda_ = 9/10` the bias is larger than one. -/
example : (1 : ℚ) < lostProb .sgDr (9 / 10) (9 / 10) (1 / 10) * 1 + lostProb .sgDr (9 / 10) (1 / 10) (9 / 10) * (-1) := by
  norm_num [lostProb]

example (v) (hv) :=
  C169_large_lambda (k := .switchDr) (by simp) (l := 3 / 2) (by norm_num) exProcess_valid (by decide)
    (fun _ => (0 : Fin 1)) exPiE (fun _ _ _ => 7) exPiE_dist (by decide +kernel) (v := v) hv

example (v) (hv) :=
  C169_exact_predictions (k := .sgDr) (by simp) (l := 1 / 2) (by norm_num) (by norm_num)
    exBiasProcess_valid (by decide) (fun _ => (0 : Fin 1)) exBiasPiE
    (fun i a _ => exBiasProcess.meanReward i a) exBiasPiE_dist (fun _ _ => rfl) (v := v) hv

end Obp
