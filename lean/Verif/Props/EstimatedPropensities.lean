import Verif.Spec.EstimatedPropensities
import Verif.Props.Bias
import Verif.Props.Consistency

set_option linter.unusedSectionVars false

/-!
# Estimated propensities

C178: with `use_estimated_pscore=True`, the error of the doubly robust estimate is the product of the error of the propensity
model and the error of the reward model.
-/

namespace Obp
open MeasureTheory ProbabilityTheory Filter Topology

section exact
variable {K : Type} [Field K] [LinearOrder K] [IsStrictOrderedRing K] {n A S L : ℕ}

theorem Process.logEst_valid {P : Process K n A S} (hP : P.Valid) (hn : 0 < n) {phat : Fin n → Fin A → K}
    (hph : ∀ i a, P.piB i a ≠ 0 → 0 < phat i a) {w : Fin n → Fin A × Fin S} (hw : jointProb P.prob w ≠ 0) (pos : Fin n → Fin L)
    (piE q : Fin n → Fin A → Fin L → K) (hE : ∀ i l, IsDist fun a => piE i a l) : (P.logEst phat w pos piE q).Valid := by
  have hb : ∀ i, P.piB i (w i).1 ≠ 0 := fun i => left_ne_zero_of_mul (jointProb_ne_zero hw i)
  have h := Process.log_valid (P := P) hn w P.piB (fun i => lt_of_le_of_ne ((hP.piB_dist i).nonneg _) (hb i).symm) pos piE q hE
  exact ⟨h.nonempty, h.pscore_pos, fun i => hph i _ (hb i), h.estIw_nonneg, h.sum_one⟩

/-- The expected contribution of a round. -/
theorem expect_estimated {P : Process K n A S} (hP : P.Valid) {phat : Fin n → Fin A → K} (i : Fin n) (e f : Fin A → K) :
    expect1 (P.prob i) (fun o => (∑ a, f a * e a) + e o.1 / phat i o.1 * (P.val i o.1 o.2 - f o.1)) =
      ∑ a, e a * P.meanReward i a + ∑ a, e a * (1 - P.piB i a / phat i a) * (f a - P.meanReward i a) := by
  have h1 : expect1 (P.prob i) (fun o => (∑ a, f a * e a) + e o.1 / phat i o.1 * (P.val i o.1 o.2 - f o.1)) =
      (∑ a, f a * e a) + ∑ a, ∑ s, P.piB i a * P.law i a s * (e a / phat i a * (P.val i a s - f a)) := by
    unfold expect1
    simp only [mul_add, Finset.sum_add_distrib]
    rw [← Finset.sum_mul, Process.sum_prob hP, one_mul, Fintype.sum_prod_type]
    rfl
  rw [h1, ← Finset.sum_add_distrib, ← Finset.sum_add_distrib]
  refine Finset.sum_congr rfl fun a _ => ?_
  have h2 : ∀ s, P.piB i a * P.law i a s * (e a / phat i a * (P.val i a s - f a)) =
      e a * (P.piB i a / phat i a) * (P.law i a s * P.val i a s) - P.law i a s * (e a * (P.piB i a / phat i a) * f a) := by
    intro s
    ring
  simp only [h2, Finset.sum_sub_distrib, ← Finset.mul_sum, ← Finset.sum_mul, (hP.law_dist i a).sum_one]
  rw [show ∑ s, P.law i a s * P.val i a s = P.meanReward i a from rfl]
  ring

/-- **C178.** Doubly robust with estimated propensities: the expectation is the value of the evaluation policy plus the mean of
the relative error of the propensity times the error of the reward prediction, over the actions of the evaluation policy. Any
propensity model that is positive where logging is; common support is not assumed. -/
theorem C178_dr_bias {P : Process K n A S} (hP : P.Valid) (hn : 0 < n) {phat : Fin n → Fin A → K}
    (hph : ∀ i a, P.piB i a ≠ 0 → 0 < phat i a) (pos : Fin n → Fin L) (piE q : Fin n → Fin A → Fin L → K)
    (hE : ∀ i l, IsDist fun a => piE i a l) :
    ∃ v, Estimates P.prob (fun w => (Estimator.mk .dr .inf true).estimatePolicyValue (P.logEst phat w pos piE q).args) v ∧
      expect P.prob v = P.policyValue (fun i a => piE i a (pos i)) + Process.meanSum fun i a =>
        piE i a (pos i) * (1 - P.piB i a / phat i a) * (q i a (pos i) - P.meanReward i a) := by
  refine ⟨fun w => (∑ i, ((∑ a, q i a (pos i) * piE i a (pos i)) +
    piE i (w i).1 (pos i) / phat i (w i).1 * (P.val i (w i).1 (w i).2 - q i (w i).1 (pos i)))) / (n : K), ?_, ?_⟩
  · intro w hw
    simp only
    rw [value_dr (Process.logEst_valid hP hn hph hw pos piE q hE)]
    simp only [Log.avg, Log.modelValue, Process.logEst, Process.log, (hE _ _).sum_one, div_one, Log.residual, Log.weight]
    rfl
  · rw [expect_avg (Process.sum_prob hP) (fun i o => (∑ a, q i a (pos i) * piE i a (pos i)) +
      piE i o.1 (pos i) / phat i o.1 * (P.val i o.1 o.2 - q i o.1 (pos i)))]
    unfold Process.policyValue Process.meanSum
    rw [← add_div, ← Finset.sum_add_distrib]
    congr 1
    exact Finset.sum_congr rfl fun i _ => expect_estimated hP i (fun a => piE i a (pos i)) fun a => q i a (pos i)

/-- **C178.** Inverse propensity weighting has no reward model: the error of the propensity meets the whole expected reward. -/
theorem C178_ipw_bias {P : Process K n A S} (hP : P.Valid) (hn : 0 < n) {phat : Fin n → Fin A → K}
    (hph : ∀ i a, P.piB i a ≠ 0 → 0 < phat i a) (pos : Fin n → Fin L) (piE q : Fin n → Fin A → Fin L → K)
    (hE : ∀ i l, IsDist fun a => piE i a l) :
    ∃ v, Estimates P.prob (fun w => (Estimator.mk .ipw .inf true).estimatePolicyValue (P.logEst phat w pos piE q).args) v ∧
      expect P.prob v = P.policyValue (fun i a => piE i a (pos i)) - Process.meanSum fun i a =>
        piE i a (pos i) * (1 - P.piB i a / phat i a) * P.meanReward i a := by
  refine ⟨fun w => (∑ i, ((∑ a, 0 * piE i a (pos i)) +
    piE i (w i).1 (pos i) / phat i (w i).1 * (P.val i (w i).1 (w i).2 - 0))) / (n : K), ?_, ?_⟩
  · intro w hw
    simp only
    rw [value_ipw (Process.logEst_valid hP hn hph hw pos piE q hE)]
    simp only [Log.avg, zero_mul, Finset.sum_const_zero, zero_add, sub_zero]
    refine congrArg (fun x => Except.ok (x / (n : K))) (Finset.sum_congr rfl fun i _ => mul_comm _ _)
  · rw [expect_avg (Process.sum_prob hP) (fun i o => (∑ a, 0 * piE i a (pos i)) +
      piE i o.1 (pos i) / phat i o.1 * (P.val i o.1 o.2 - 0))]
    unfold Process.policyValue Process.meanSum
    rw [← sub_div, ← Finset.sum_sub_distrib]
    congr 1
    refine Finset.sum_congr rfl fun i _ => (expect_estimated hP i (fun a => piE i a (pos i)) fun _ => 0).trans ?_
    rw [← Finset.sum_add_distrib, ← Finset.sum_sub_distrib]
    exact Finset.sum_congr rfl fun a _ => by ring

/-- **C178.** If the propensities are off by at most a fraction `ep` and the reward predictions by at most `eq`, the expected
doubly robust estimate is off by at most `ep * eq`. -/
theorem C178_dr_bias_size {P : Process K n A S} (hP : P.Valid) (hn : 0 < n) {phat : Fin n → Fin A → K}
    (hph : ∀ i a, P.piB i a ≠ 0 → 0 < phat i a) (pos : Fin n → Fin L) (piE q : Fin n → Fin A → Fin L → K)
    (hE : ∀ i l, IsDist fun a => piE i a l) {ep eq : K} (hp : ∀ i a, |1 - P.piB i a / phat i a| ≤ ep)
    (hq : ∀ i a, |q i a (pos i) - P.meanReward i a| ≤ eq) {v}
    (hv : Estimates P.prob (fun w => (Estimator.mk .dr .inf true).estimatePolicyValue (P.logEst phat w pos piE q).args) v) :
    |expect P.prob v - P.policyValue fun i a => piE i a (pos i)| ≤ ep * eq := by
  obtain ⟨u, hu, h⟩ := C178_dr_bias hP hn hph pos piE q hE
  rw [expect_eq_of_estimates hv hu, h, add_sub_cancel_left]
  have hn' : (0 : K) < n := by exact_mod_cast hn
  unfold Process.meanSum
  rw [abs_div, abs_of_pos hn', div_le_iff₀ hn']
  calc |∑ i, ∑ a, piE i a (pos i) * (1 - P.piB i a / phat i a) * (q i a (pos i) - P.meanReward i a)|
      ≤ ∑ i : Fin n, ∑ a, piE i a (pos i) * (ep * eq) := by
        refine (Finset.abs_sum_le_sum_abs _ _).trans (Finset.sum_le_sum fun i _ =>
          (Finset.abs_sum_le_sum_abs _ _).trans (Finset.sum_le_sum fun a _ => ?_))
        have he := (hE i (pos i)).nonneg a
        rw [abs_mul, abs_mul, abs_of_nonneg he, mul_assoc]
        exact mul_le_mul_of_nonneg_left (mul_le_mul (hp i a) (hq i a) (abs_nonneg _) ((abs_nonneg _).trans (hp i a))) he
    _ = ep * eq * n := by
        simp only [← Finset.sum_mul, (hE _ _).sum_one, Finset.sum_const, Finset.card_univ, Fintype.card_fin, nsmul_eq_mul]
        ring

end exact

section limit
open LogStream
variable {Ω C : Type} [MeasurableSpace Ω] [MeasurableSpace C] {A L : ℕ} {P : Measure Ω} [IsProbabilityMeasure P]
variable {s : LogStream Ω C A} {piB m phat : C → Fin A → ℝ} {pos : C → Fin L} {piE q : C → Fin A → Fin L → ℝ}

/-- **C178.** On growing logs the doubly robust estimates with estimated propensities tend to the value of the evaluation policy
plus the mean of the same product of errors. Any contexts, any rewards with a mean, any propensity and reward models. -/
theorem C178_dr_limit (hs : s.LoggedBy P piB m) (hE : Covers piB pos piE)
    (hi : Integrable (fun ω => s.weight piB pos piE ω * s.rew 0 ω) P)
    (hpm : ∀ a, Measurable fun c => phat c a) (hph : ∀ c a, piB c a ≠ 0 → 0 < phat c a)
    (hi' : Integrable (fun ω => piE (s.ctx 0 ω) (s.act 0 ω) (pos (s.ctx 0 ω)) / phat (s.ctx 0 ω) (s.act 0 ω) * s.rew 0 ω) P)
    (hq : ∀ a, Measurable fun c => q c a (pos c))
    (hqi : ∀ a, Integrable (fun ω => piE (s.ctx 0 ω) a (pos (s.ctx 0 ω)) * q (s.ctx 0 ω) a (pos (s.ctx 0 ω))) P)
    (hqi' : Integrable (fun ω => piE (s.ctx 0 ω) (s.act 0 ω) (pos (s.ctx 0 ω)) / phat (s.ctx 0 ω) (s.act 0 ω) *
      q (s.ctx 0 ω) (s.act 0 ω) (pos (s.ctx 0 ω))) P) :
    ∀ᵐ ω ∂P, EstimatesTendTo ⟨.dr, .inf, true⟩ (fun n => s.logEst phat piB pos piE q n ω)
      (s.value P pos piE m + s.value P pos piE fun c a =>
        (1 - piB c a / phat c a) * (q c a (pos c) - m c a)) := by
  have hwm : ∀ a, Measurable fun c => piE c a (pos c) / phat c a := fun a => (hE.meas a).div (hpm a)
  have hwm' : Measurable fun x : C × Fin A => piE x.1 x.2 (pos x.1) / phat x.1 x.2 := measurable_from_prod_countable_left hwm
  have hqm : Measurable fun x : C × Fin A => q x.1 x.2 (pos x.1) := measurable_from_prod_countable_left hq
  have hpair : Measurable fun x : C × Fin A × ℝ => (x.1, x.2.1) := measurable_fst.prodMk (measurable_fst.comp measurable_snd)
  -- means
  have hvm := (hs.weighted_reward hE hi).1
  obtain ⟨r1, r2⟩ := hs.integral_reward (h := fun c a => piE c a (pos c) / phat c a) hwm hi'
  have r3 := (hs.integrable_iff (h := fun c a => piE c a (pos c) / phat c a * m c a) fun a => (hwm a).mul (hs.m_meas a)).1 r1
  have r4 := hs.integral_eq (h := fun c a => piE c a (pos c) / phat c a * m c a) (fun a => (hwm a).mul (hs.m_meas a)) r3
  have q3 := (hs.integrable_iff (h := fun c a => piE c a (pos c) / phat c a * q c a (pos c)) fun a => (hwm a).mul (hq a)).1 hqi'
  have q4 := hs.integral_eq (h := fun c a => piE c a (pos c) / phat c a * q c a (pos c)) (fun a => (hwm a).mul (hq a)) q3
  have hlim : ∫ ω, ((∑ a, piE (s.ctx 0 ω) a (pos (s.ctx 0 ω)) * q (s.ctx 0 ω) a (pos (s.ctx 0 ω))) +
      piE (s.ctx 0 ω) (s.act 0 ω) (pos (s.ctx 0 ω)) / phat (s.ctx 0 ω) (s.act 0 ω) *
        (s.rew 0 ω - q (s.ctx 0 ω) (s.act 0 ω) (pos (s.ctx 0 ω)))) ∂P =
      s.value P pos piE m + s.value P pos piE fun c a => (1 - piB c a / phat c a) * (q c a (pos c) - m c a) := by
    have s1 : Integrable (fun ω => ∑ a, piE (s.ctx 0 ω) a (pos (s.ctx 0 ω)) * q (s.ctx 0 ω) a (pos (s.ctx 0 ω))) P :=
      integrable_finsetSum _ fun a _ => hqi a
    have s2 : Integrable (fun ω => piE (s.ctx 0 ω) (s.act 0 ω) (pos (s.ctx 0 ω)) / phat (s.ctx 0 ω) (s.act 0 ω) *
        (s.rew 0 ω - q (s.ctx 0 ω) (s.act 0 ω) (pos (s.ctx 0 ω)))) P := by
      simp only [mul_sub]
      exact hi'.sub hqi'
    rw [integral_add s1 s2]
    simp only [mul_sub]
    rw [integral_sub hi' hqi', r2, r4, q4]
    have t1 : Integrable (fun ω => ∑ a, piB (s.ctx 0 ω) a *
        (piE (s.ctx 0 ω) a (pos (s.ctx 0 ω)) / phat (s.ctx 0 ω) a * m (s.ctx 0 ω) a)) P := integrable_finsetSum _ fun a _ => r3 a
    have t2 : Integrable (fun ω => ∑ a, piB (s.ctx 0 ω) a *
        (piE (s.ctx 0 ω) a (pos (s.ctx 0 ω)) / phat (s.ctx 0 ω) a * q (s.ctx 0 ω) a (pos (s.ctx 0 ω)))) P :=
      integrable_finsetSum _ fun a _ => q3 a
    have t3 : Integrable (fun ω => ∑ a, piE (s.ctx 0 ω) a (pos (s.ctx 0 ω)) * m (s.ctx 0 ω) a) P :=
      integrable_finsetSum _ fun a _ => hvm a
    unfold value
    have e1 : (fun ω => ∑ a, piE (s.ctx 0 ω) a (pos (s.ctx 0 ω)) *
        ((1 - piB (s.ctx 0 ω) a / phat (s.ctx 0 ω) a) * (q (s.ctx 0 ω) a (pos (s.ctx 0 ω)) - m (s.ctx 0 ω) a))) =
        fun ω => ((∑ a, piE (s.ctx 0 ω) a (pos (s.ctx 0 ω)) * q (s.ctx 0 ω) a (pos (s.ctx 0 ω))) -
          ∑ a, piE (s.ctx 0 ω) a (pos (s.ctx 0 ω)) * m (s.ctx 0 ω) a) +
          ((∑ a, piB (s.ctx 0 ω) a * (piE (s.ctx 0 ω) a (pos (s.ctx 0 ω)) / phat (s.ctx 0 ω) a * m (s.ctx 0 ω) a)) -
          ∑ a, piB (s.ctx 0 ω) a * (piE (s.ctx 0 ω) a (pos (s.ctx 0 ω)) / phat (s.ctx 0 ω) a *
            q (s.ctx 0 ω) a (pos (s.ctx 0 ω)))) := by
      funext ω
      rw [← Finset.sum_sub_distrib, ← Finset.sum_sub_distrib, ← Finset.sum_add_distrib]
      exact Finset.sum_congr rfl fun a _ => by ring
    have e2 := integral_add (μ := P) (s1.sub t3) (t1.sub t2)
    have e3 := integral_sub s1 t3
    have e4 := integral_sub t1 t2
    simp only [Pi.sub_apply] at e2 e3 e4
    simp only [← mul_sub]
    rw [e1, e2, e3, e4]
    ring
  have hint : Integrable (fun ω => (∑ a, piE (s.ctx 0 ω) a (pos (s.ctx 0 ω)) * q (s.ctx 0 ω) a (pos (s.ctx 0 ω))) +
      piE (s.ctx 0 ω) (s.act 0 ω) (pos (s.ctx 0 ω)) / phat (s.ctx 0 ω) (s.act 0 ω) *
        (s.rew 0 ω - q (s.ctx 0 ω) (s.act 0 ω) (pos (s.ctx 0 ω)))) P := by
    refine (integrable_finsetSum _ fun a _ => hqi a).add ?_
    simp only [mul_sub]
    exact hi'.sub hqi'
  have hmeas : Measurable fun x : C × Fin A × ℝ => (∑ a, piE x.1 a (pos x.1) * q x.1 a (pos x.1)) +
      piE x.1 x.2.1 (pos x.1) / phat x.1 x.2.1 * (x.2.2 - q x.1 x.2.1 (pos x.1)) :=
    ((Finset.measurable_fun_sum _ fun a _ => (hE.meas a).mul (hq a)).comp measurable_fst).add
      ((hwm'.comp hpair).mul ((measurable_snd.comp measurable_snd).sub (hqm.comp hpair)))
  filter_upwards [hs.lln (f := fun c a r => (∑ a, piE c a (pos c) * q c a (pos c)) +
    piE c a (pos c) / phat c a * (r - q c a (pos c))) hmeas hint, hs.log_valid (q := q) hE, hs.pscore_pos] with ω hω hv hp
  rw [hlim] at hω
  refine tendsto_of_rounds (f := fun n i => (s.logEst phat piB pos piE q n ω).modelValue i +
    (s.logEst phat piB pos piE q n ω).weight true i * (s.logEst phat piB pos piE q n ω).residual i) (fun n hn => ?_)
    (Eventually.of_forall fun n => ?_) ?_
  · have h := hv n hn
    exact ⟨h.nonempty, h.pscore_pos, fun i => hph _ _ (hp i).ne', h.estIw_nonneg, h.sum_one⟩
  · simp [roundReward, Lam.clip]
  · refine hω.congr fun n => congrArg Log.avg (funext fun i => ?_)
    have h1 : (s.logEst phat piB pos piE q n ω).modelValue i =
        ∑ a, piE (s.ctx i ω) a (pos (s.ctx i ω)) * q (s.ctx i ω) a (pos (s.ctx i ω)) := log_modelValue (s := s) (q := q) hE n ω i
    rw [h1]
    rfl

/-- **C178.** Inverse propensity weighting tends to the value less the error of the propensities times the expected reward: with a
wrong propensity model nothing repairs it. -/
theorem C178_ipw_limit (hs : s.LoggedBy P piB m) (hE : Covers piB pos piE)
    (hi : Integrable (fun ω => s.weight piB pos piE ω * s.rew 0 ω) P)
    (hpm : ∀ a, Measurable fun c => phat c a) (hph : ∀ c a, piB c a ≠ 0 → 0 < phat c a)
    (hi' : Integrable (fun ω => piE (s.ctx 0 ω) (s.act 0 ω) (pos (s.ctx 0 ω)) / phat (s.ctx 0 ω) (s.act 0 ω) * s.rew 0 ω) P) :
    ∀ᵐ ω ∂P, EstimatesTendTo ⟨.ipw, .inf, true⟩ (fun n => s.logEst phat piB pos piE q n ω)
      (s.value P pos piE m - s.value P pos piE fun c a => (1 - piB c a / phat c a) * m c a) := by
  have hwm : ∀ a, Measurable fun c => piE c a (pos c) / phat c a := fun a => (hE.meas a).div (hpm a)
  have hwm' : Measurable fun x : C × Fin A => piE x.1 x.2 (pos x.1) / phat x.1 x.2 := measurable_from_prod_countable_left hwm
  have hpair : Measurable fun x : C × Fin A × ℝ => (x.1, x.2.1) := measurable_fst.prodMk (measurable_fst.comp measurable_snd)
  have hvm := (hs.weighted_reward hE hi).1
  obtain ⟨r1, r2⟩ := hs.integral_reward (h := fun c a => piE c a (pos c) / phat c a) hwm hi'
  have r3 := (hs.integrable_iff (h := fun c a => piE c a (pos c) / phat c a * m c a) fun a => (hwm a).mul (hs.m_meas a)).1 r1
  have r4 := hs.integral_eq (h := fun c a => piE c a (pos c) / phat c a * m c a) (fun a => (hwm a).mul (hs.m_meas a)) r3
  have t1 : Integrable (fun ω => ∑ a, piB (s.ctx 0 ω) a *
      (piE (s.ctx 0 ω) a (pos (s.ctx 0 ω)) / phat (s.ctx 0 ω) a * m (s.ctx 0 ω) a)) P := integrable_finsetSum _ fun a _ => r3 a
  have t3 : Integrable (fun ω => ∑ a, piE (s.ctx 0 ω) a (pos (s.ctx 0 ω)) * m (s.ctx 0 ω) a) P :=
    integrable_finsetSum _ fun a _ => hvm a
  have hlim : ∫ ω, piE (s.ctx 0 ω) (s.act 0 ω) (pos (s.ctx 0 ω)) / phat (s.ctx 0 ω) (s.act 0 ω) * s.rew 0 ω ∂P =
      s.value P pos piE m - s.value P pos piE fun c a => (1 - piB c a / phat c a) * m c a := by
    unfold value
    have e1 : (fun ω => ∑ a, piE (s.ctx 0 ω) a (pos (s.ctx 0 ω)) *
        ((1 - piB (s.ctx 0 ω) a / phat (s.ctx 0 ω) a) * m (s.ctx 0 ω) a)) =
        fun ω => (∑ a, piE (s.ctx 0 ω) a (pos (s.ctx 0 ω)) * m (s.ctx 0 ω) a) -
          ∑ a, piB (s.ctx 0 ω) a * (piE (s.ctx 0 ω) a (pos (s.ctx 0 ω)) / phat (s.ctx 0 ω) a * m (s.ctx 0 ω) a) := by
      funext ω
      rw [← Finset.sum_sub_distrib]
      exact Finset.sum_congr rfl fun a _ => by ring
    rw [e1, integral_sub t3 t1, r2, r4]
    ring
  have hmeas : Measurable fun x : C × Fin A × ℝ => piE x.1 x.2.1 (pos x.1) / phat x.1 x.2.1 * x.2.2 :=
    (hwm'.comp hpair).mul (measurable_snd.comp measurable_snd)
  filter_upwards [hs.lln (f := fun c a r => piE c a (pos c) / phat c a * r) hmeas hi', hs.log_valid (q := q) hE,
    hs.pscore_pos] with ω hω hv hp
  rw [hlim] at hω
  refine tendsto_of_rounds (f := fun n i => (s.logEst phat piB pos piE q n ω).weight true i * s.rew i ω) (fun n hn => ?_)
    (Eventually.of_forall fun n => ?_) hω
  · have h := hv n hn
    exact ⟨h.nonempty, h.pscore_pos, fun i => hph _ _ (hp i).ne', h.estIw_nonneg, h.sum_one⟩
  · refine congrArg some (funext fun i => ?_)
    simp only [Lam.clip]
    exact mul_comm _ _

/-- **C178.** So the doubly robust estimates are consistent if the propensity model is right, or the reward model is right. -/
theorem C178_dr_consistent (hs : s.LoggedBy P piB m) (hE : Covers piB pos piE)
    (hi : Integrable (fun ω => s.weight piB pos piE ω * s.rew 0 ω) P)
    (hpm : ∀ a, Measurable fun c => phat c a) (hph : ∀ c a, piB c a ≠ 0 → 0 < phat c a)
    (hi' : Integrable (fun ω => piE (s.ctx 0 ω) (s.act 0 ω) (pos (s.ctx 0 ω)) / phat (s.ctx 0 ω) (s.act 0 ω) * s.rew 0 ω) P)
    (hq : ∀ a, Measurable fun c => q c a (pos c))
    (hqi : ∀ a, Integrable (fun ω => piE (s.ctx 0 ω) a (pos (s.ctx 0 ω)) * q (s.ctx 0 ω) a (pos (s.ctx 0 ω))) P)
    (hqi' : Integrable (fun ω => piE (s.ctx 0 ω) (s.act 0 ω) (pos (s.ctx 0 ω)) / phat (s.ctx 0 ω) (s.act 0 ω) *
      q (s.ctx 0 ω) (s.act 0 ω) (pos (s.ctx 0 ω))) P)
    (h : (∀ c a, piB c a ≠ 0 → phat c a = piB c a) ∨ ∀ c a, q c a (pos c) = m c a) :
    ∀ᵐ ω ∂P, EstimatesTendTo ⟨.dr, .inf, true⟩ (fun n => s.logEst phat piB pos piE q n ω) (s.value P pos piE m) := by
  have hz : (s.value P pos piE fun c a => (1 - piB c a / phat c a) * (q c a (pos c) - m c a)) = 0 := by
    unfold value
    rw [← integral_zero Ω ℝ (μ := P)]
    refine integral_congr_ae (ae_of_all _ fun ω => Finset.sum_eq_zero fun a _ => ?_)
    by_cases hb : piB (s.ctx 0 ω) a = 0
    · rw [hE.support _ _ hb, zero_mul]
    · change _ * ((1 - piB (s.ctx 0 ω) a / phat (s.ctx 0 ω) a) * (q (s.ctx 0 ω) a (pos (s.ctx 0 ω)) - m (s.ctx 0 ω) a)) = 0
      rcases h with h | h
      · rw [h _ _ hb, div_self hb, sub_self, zero_mul, mul_zero]
      · rw [h, sub_self, mul_zero, mul_zero]
  have := C178_dr_limit hs hE hi hpm hph hi' hq hqi hqi'
  rwa [hz, add_zero] at this

end limit

/-! ### The hypotheses are met -/

/-- Propensities 1/2 everywhere, whatever the logging policy. -/
example := C178_dr_bias (phat := fun _ _ => 1 / 2) exBiasProcess_valid (by decide) (fun _ _ _ => by norm_num) (fun _ => (0 : Fin 1))
  exBiasPiE (fun _ _ _ => 7) exBiasPiE_dist

/-- In that case the estimate is biased. -/
example : ∃ v, Estimates exBiasProcess.prob (fun w => (Estimator.mk .dr .inf true).estimatePolicyValue
      (exBiasProcess.logEst (fun _ _ => 1 / 2) w (fun _ => (0 : Fin 1)) exBiasPiE (fun _ _ _ => 7)).args) v ∧
    expect exBiasProcess.prob v ≠ exBiasProcess.policyValue fun i a => exBiasPiE i a 0 := by
  obtain ⟨v, h1, h2⟩ := C178_dr_bias (phat := fun _ _ => 1 / 2) exBiasProcess_valid (by decide) (fun _ _ _ => by norm_num)
    (fun _ => (0 : Fin 1)) exBiasPiE (fun _ _ _ => 7) exBiasPiE_dist
  refine ⟨v, h1, ?_⟩
  rw [h2]
  decide +kernel

example (v) (hv) := C178_dr_bias_size (ep := 1) (eq := 9) (phat := fun _ _ => 1 / 2) exBiasProcess_valid (by decide)
  (fun _ _ _ => by norm_num) (fun _ => (0 : Fin 1)) exBiasPiE (fun _ _ _ => 7) exBiasPiE_dist (by decide +kernel)
  (by decide +kernel) (v := v) hv

example := C178_ipw_limit (q := fun _ _ _ => 0) (phat := fun _ a => if a = 0 then 1 / 4 else 3 / 4) exStream_logged exEval_covers
    (exStream_integrable fun c a => exEval c a 0 / (1 / 2)) (fun _ => measurable_const)
    (fun _ a _ => by split_ifs <;> norm_num) (exStream_integrable fun c a => exEval c a 0 / (if a = 0 then 1 / 4 else 3 / 4))

/-- The coin stream with wrong propensities and the right reward model: consistent. -/
example : ∀ᵐ ω ∂Measure.infinitePi fun _ : ℕ => exRoundLaw, EstimatesTendTo ⟨.dr, .inf, true⟩
    (fun n => exStream.logEst (fun _ a => if a = 0 then 1 / 4 else 3 / 4) (fun _ _ => 1 / 2) (fun _ => (0 : Fin 1)) exEval
      (fun c a _ => exMean c a) n ω) (19 / 8) := by
  rw [← exStream_value]
  have hm : ∀ h : Bool → Fin 2 → ℝ, Integrable (fun ω => h (exStream.ctx 0 ω) (exStream.act 0 ω))
      (Measure.infinitePi fun _ : ℕ => exRoundLaw) := fun h => by
    refine (exStream_logged.integrable_iff (h := h) fun a => measurable_of_countable _).2 fun a => ?_
    refine Integrable.of_bound ((measurable_of_countable fun c => 1 / 2 * h c a).comp
      (exStream_logged.ctx_meas 0)).aestronglyMeasurable (max |1 / 2 * h true a| |1 / 2 * h false a|) (ae_of_all _ fun ω => ?_)
    rw [Real.norm_eq_abs]
    cases exStream.ctx 0 ω
    · exact le_max_right _ _
    · exact le_max_left _ _
  have hq : ∀ a, Integrable (fun ω => exEval (exStream.ctx 0 ω) a 0 * exMean (exStream.ctx 0 ω) a)
      (Measure.infinitePi fun _ : ℕ => exRoundLaw) := fun a => by
    refine Integrable.of_bound ((measurable_of_countable fun c => exEval c a 0 * exMean c a).comp
      (exStream_logged.ctx_meas 0)).aestronglyMeasurable (max |exEval true a 0 * exMean true a| |exEval false a 0 * exMean false a|)
      (ae_of_all _ fun ω => ?_)
    rw [Real.norm_eq_abs]
    cases exStream.ctx 0 ω
    · exact le_max_right _ _
    · exact le_max_left _ _
  exact C178_dr_consistent (phat := fun _ a => if a = 0 then 1 / 4 else 3 / 4) exStream_logged exEval_covers
    (exStream_integrable fun c a => exEval c a 0 / (1 / 2)) (fun _ => measurable_const)
    (fun _ a _ => by split_ifs <;> norm_num)
    (exStream_integrable fun c a => exEval c a 0 / (if a = 0 then 1 / 4 else 3 / 4))
    (fun a => measurable_of_countable _) hq (hm fun c a => exEval c a 0 / (if a = 0 then 1 / 4 else 3 / 4) * exMean c a)
    (.inr fun _ _ => rfl)

end Obp
