import Verif.Lemmas.Multi
import Verif.Lemmas.Prob
import Verif.Props.EstimatorValues
import Verif.Props.Bootstrap
import Mathlib.Algebra.BigOperators.Field

/-! # C50-C53: estimators for logs of several behaviour policies -/

set_option linter.unusedSectionVars false

namespace Obp
open Log

variable {K : Type} [Field K] [LinearOrder K] [IsStrictOrderedRing K]
variable {n A L : ℕ}

/-! ### Values -/

theorem value_naiveIpw {g : MLog K n A L} (h : g.toLog.Valid) (lam : Lam K) (est : Bool) :
    (MultiEstimator.mk .naiveIpw lam est).estimatePolicyValue g.margs =
      .ok (avg fun i => g.reward i * lam.clip (g.weight est i)) := by
  have e : ipwPrepare est g.margs.single = ipwPrepare est g.args := rfl
  simp only [MultiEstimator.estimatePolicyValue, MultiEstimator.rounds, e, ipwPrepare_eq h, py_bind_ok,
    ipwRound_eq h, npMean_avg h]

theorem value_naiveDr {g : MLog K n A L} (h : g.toLog.Valid) (lam : Lam K) (est : Bool) :
    (MultiEstimator.mk .naiveDr lam est).estimatePolicyValue g.margs =
      .ok (avg fun i => g.modelValue i + lam.clip (g.weight est i) * g.residual i) := by
  have e : drPrepare est g.margs.single = drPrepare est g.args := rfl
  simp only [MultiEstimator.estimatePolicyValue, MultiEstimator.rounds, e, drPrepare_eq h, py_bind_ok,
    drRound_eq h, npMean_avg h]

theorem value_balancedIpw {g : MLog K n A L} (h : g.MValid) (lam : Lam K) (est : Bool) :
    (MultiEstimator.mk .balancedIpw lam est).estimatePolicyValue g.margs =
      .ok (avg fun i => g.reward i * lam.clip (g.weightAvg est i)) := by
  have h' := MLog.avgLog_valid h
  have e : ipwPrepare est g.margs.balanced = ipwPrepare est g.avgLog.args := rfl
  simp only [MultiEstimator.estimatePolicyValue, MultiEstimator.rounds, e, ipwPrepare_eq h', py_bind_ok,
    ipwRound_eq h', npMean_avg h', MLog.avgLog_weight]
  rfl

theorem value_balancedDr {g : MLog K n A L} (h : g.MValid) (lam : Lam K) (est : Bool) :
    (MultiEstimator.mk .balancedDr lam est).estimatePolicyValue g.margs =
      .ok (avg fun i => g.modelValue i + lam.clip (g.weightAvg est i) * g.residual i) := by
  have h' := MLog.avgLog_valid h
  have e : drPrepare est g.margs.balanced = drPrepare est g.avgLog.args := rfl
  simp only [MultiEstimator.estimatePolicyValue, MultiEstimator.rounds, e, drPrepare_eq h', py_bind_ok,
    drRound_eq h', npMean_avg h', MLog.avgLog_weight]
  rfl

/-! ### C50 -/

namespace MultiProcess
variable {S X M : ℕ}

theorem sum_prob {P : MultiProcess K n A S X M} (hP : P.Valid) (i : Fin n) : ∑ o, P.prob i o = 1 := by
  rw [Fintype.sum_prod_type]
  simp only [Fintype.sum_prod_type, prob, ← Finset.mul_sum, (hP.law_dist _ _).sum_one, mul_one,
    (hP.piB_dist _ _).sum_one]
  exact hP.ctx_dist.sum_one

theorem mixture_pos {P : MultiProcess K n A S X M} (hP : P.Valid) (i : Fin n) {x : Fin X} {a : Fin A}
    (h : P.piB (P.logger i) x a ≠ 0) : 0 < P.mixture x a := by
  have hn : (0 : K) < n := by exact_mod_cast i.pos
  refine div_pos ?_ hn
  exact Finset.sum_pos' (fun j _ => (hP.piB_dist _ _).nonneg _)
    ⟨i, Finset.mem_univ i, lt_of_le_of_ne ((hP.piB_dist _ _).nonneg _) h.symm⟩

theorem log_mvalid {P : MultiProcess K n A S X M} (hP : P.Valid) (hn : 0 < n)
    {w : Fin n → Fin X × Fin A × Fin S} (hw : jointProb P.prob w ≠ 0) (piE q : Fin X → Fin A → K)
    (hE : ∀ x, IsDist (piE x)) : (P.log w piE q).MValid := by
  have hb : ∀ i, P.piB (P.logger i) (w i).1 (w i).2.1 ≠ 0 := fun i =>
    right_ne_zero_of_mul (left_ne_zero_of_mul (jointProb_ne_zero hw i))
  refine ⟨⟨hn, fun i => lt_of_le_of_ne ((hP.piB_dist _ _).nonneg _) (hb i).symm, fun _ => one_pos,
    fun _ => zero_le_one, fun i l => ?_⟩, fun i => mixture_pos hP i (hb i), fun _ => one_pos⟩
  have := (hE (w i).1).sum_one
  simp only [log, this, closeToOne_one]

/-- Averaging over the loggers turns the propensities of the rounds into the mixture. -/
theorem sum_rounds (P : MultiProcess K n A S X M) (hn : 0 < n) (f : Fin X → Fin A → Fin S → K) :
    (∑ i, expect1 (P.prob i) fun o => f o.1 o.2.1 o.2.2) / (n : K) =
      ∑ x, P.ctx x * ∑ a, P.mixture x a * ∑ s, P.law x a s * f x a s := by
  have hn' : (n : K) ≠ 0 := by exact_mod_cast hn.ne'
  have h1 : ∀ i, (expect1 (P.prob i) fun o => f o.1 o.2.1 o.2.2) =
      ∑ x, ∑ a, P.piB (P.logger i) x a * (P.ctx x * ∑ s, P.law x a s * f x a s) := by
    intro i
    unfold expect1
    rw [Fintype.sum_prod_type]
    refine Finset.sum_congr rfl fun x _ => ?_
    rw [Fintype.sum_prod_type]
    refine Finset.sum_congr rfl fun a _ => ?_
    rw [Finset.mul_sum, Finset.mul_sum]
    refine Finset.sum_congr rfl fun s _ => ?_
    simp only [prob]; ring
  simp only [h1]
  rw [Finset.sum_comm, Finset.sum_div]
  refine Finset.sum_congr rfl fun x _ => ?_
  rw [Finset.sum_comm, Finset.sum_div, Finset.mul_sum]
  refine Finset.sum_congr rfl fun a _ => ?_
  rw [← Finset.sum_mul, mixture]
  field_simp

end MultiProcess

section C50
variable {S X M : ℕ}

/-- **C50.** Balanced IPW is unbiased: if in every context the *average* of the loggers gives positive
probability to every action that the evaluation policy can take, then the expectation of the
estimate is the value of the evaluation policy. No single logger needs full support. -/
theorem C50_balanced_ipw_unbiased {P : MultiProcess K n A S X M} (hP : P.Valid) (hn : 0 < n)
    (piE q : Fin X → Fin A → K) (hE : ∀ x, IsDist (piE x))
    (hsupp : ∀ x a, piE x a ≠ 0 → P.mixture x a ≠ 0) :
    ∃ v : (Fin n → Fin X × Fin A × Fin S) → K,
      (∀ w, jointProb P.prob w ≠ 0 →
        (MultiEstimator.mk .balancedIpw .inf false).estimatePolicyValue (P.log w piE q).margs = .ok (v w)) ∧
      expect P.prob v = P.policyValue piE := by
  refine ⟨fun w => (∑ i, P.val (w i).1 (w i).2.1 (w i).2.2 *
    (piE (w i).1 (w i).2.1 / P.mixture (w i).1 (w i).2.1)) / (n : K), fun w hw => ?_, ?_⟩
  · rw [value_balancedIpw (MultiProcess.log_mvalid hP hn hw piE q hE)]
    rfl
  · rw [expect_avg (MultiProcess.sum_prob hP)
      (fun _ o => P.val o.1 o.2.1 o.2.2 * (piE o.1 o.2.1 / P.mixture o.1 o.2.1)),
      MultiProcess.sum_rounds P hn fun x a s => P.val x a s * (piE x a / P.mixture x a)]
    unfold MultiProcess.policyValue MultiProcess.meanReward
    refine Finset.sum_congr rfl fun x _ => ?_
    congr 1
    refine Finset.sum_congr rfl fun a _ => ?_
    rw [Finset.mul_sum, Finset.mul_sum]
    refine Finset.sum_congr rfl fun s _ => ?_
    by_cases h0 : piE x a = 0
    · simp [h0]
    · have := hsupp x a h0
      field_simp

/-- **C50.** Balanced DR is unbiased under the same condition, for every reward model. -/
theorem C50_balanced_dr_unbiased {P : MultiProcess K n A S X M} (hP : P.Valid) (hn : 0 < n)
    (piE q : Fin X → Fin A → K) (hE : ∀ x, IsDist (piE x))
    (hsupp : ∀ x a, piE x a ≠ 0 → P.mixture x a ≠ 0) :
    ∃ v : (Fin n → Fin X × Fin A × Fin S) → K,
      (∀ w, jointProb P.prob w ≠ 0 →
        (MultiEstimator.mk .balancedDr .inf false).estimatePolicyValue (P.log w piE q).margs = .ok (v w)) ∧
      expect P.prob v = P.policyValue piE := by
  have hmix : ∀ x, ∑ a, P.mixture x a = 1 := by
    intro x
    have hn' : (n : K) ≠ 0 := by exact_mod_cast hn.ne'
    unfold MultiProcess.mixture
    rw [← Finset.sum_div, Finset.sum_comm]
    simp only [(hP.piB_dist _ _).sum_one, Finset.sum_const, Finset.card_univ, Fintype.card_fin, nsmul_eq_mul]
    field_simp
  refine ⟨fun w => (∑ i, ((∑ a, q (w i).1 a * piE (w i).1 a) +
    (piE (w i).1 (w i).2.1 / P.mixture (w i).1 (w i).2.1) *
      (P.val (w i).1 (w i).2.1 (w i).2.2 - q (w i).1 (w i).2.1))) / (n : K), fun w hw => ?_, ?_⟩
  · rw [value_balancedDr (MultiProcess.log_mvalid hP hn hw piE q hE)]
    simp only [avg, modelValue, MultiProcess.log, (hE _).sum_one, div_one, residual, MLog.weightAvg]
    rfl
  · rw [expect_avg (MultiProcess.sum_prob hP)
      (fun _ o => (∑ a, q o.1 a * piE o.1 a) +
        (piE o.1 o.2.1 / P.mixture o.1 o.2.1) * (P.val o.1 o.2.1 o.2.2 - q o.1 o.2.1)),
      MultiProcess.sum_rounds P hn fun x a s => (∑ a, q x a * piE x a) +
        (piE x a / P.mixture x a) * (P.val x a s - q x a)]
    unfold MultiProcess.policyValue MultiProcess.meanReward
    refine Finset.sum_congr rfl fun x _ => ?_
    congr 1
    have h1 : ∀ a, P.mixture x a * ∑ s, P.law x a s * ((∑ a, q x a * piE x a) +
        (piE x a / P.mixture x a) * (P.val x a s - q x a)) =
        P.mixture x a * (∑ a, q x a * piE x a) +
          (piE x a * ∑ s, P.law x a s * P.val x a s - q x a * piE x a) := by
      intro a
      have e : ∑ s, P.law x a s * ((∑ a, q x a * piE x a) +
          (piE x a / P.mixture x a) * (P.val x a s - q x a)) =
          (∑ a, q x a * piE x a) + (piE x a / P.mixture x a) *
            ((∑ s, P.law x a s * P.val x a s) - q x a) := by
        have e1 : ∀ s, P.law x a s * ((∑ a, q x a * piE x a) +
            (piE x a / P.mixture x a) * (P.val x a s - q x a)) =
            P.law x a s * ((∑ a, q x a * piE x a) - (piE x a / P.mixture x a) * q x a) +
              (piE x a / P.mixture x a) * (P.law x a s * P.val x a s) := fun s => by ring
        simp only [e1]
        rw [Finset.sum_add_distrib, ← Finset.sum_mul, (hP.law_dist x a).sum_one, ← Finset.mul_sum]
        ring
      rw [e]
      by_cases h0 : piE x a = 0
      · simp [h0]
      · have := hsupp x a h0
        field_simp
    simp only [h1]
    rw [Finset.sum_add_distrib, ← Finset.sum_mul, hmix, one_mul, Finset.sum_sub_distrib]
    ring

/-- two deterministic loggers, two actions, one context; reward 1 for every action -/
def exTwoLoggers : MultiProcess ℚ 2 2 1 1 2 where
  ctx := fun _ => 1
  logger := id
  piB := fun m _ a => if a = m then 1 else 0
  law := fun _ _ _ => 1
  val := fun _ _ _ => 1

theorem exTwoLoggers_valid : exTwoLoggers.Valid where
  ctx_dist := ⟨by decide +kernel, by decide +kernel⟩
  piB_dist := fun m x => ⟨by revert m x; decide +kernel, by revert m x; decide +kernel⟩
  law_dist := fun x a => ⟨by revert x a; decide +kernel, by revert x a; decide +kernel⟩

def exUniform : Fin 1 → Fin 2 → ℚ := fun _ _ => 1 / 2

theorem exUniform_dist (x) : IsDist (exUniform x) :=
  ⟨by revert x; decide +kernel, by revert x; decide +kernel⟩

/-- Contrast: with deterministic loggers that play different actions the naive estimator (each round
weighted by its own logger's propensity) has expectation one half while the value is one; the
hypotheses of `C50_balanced_ipw_unbiased` hold. -/
theorem C50_naive_biased :
    (∀ w, jointProb exTwoLoggers.prob w ≠ 0 →
      (MultiEstimator.mk .naiveIpw .inf false).estimatePolicyValue
        (exTwoLoggers.log w exUniform fun _ _ => 0).margs = .ok (1 / 2)) ∧
    exTwoLoggers.policyValue exUniform = 1 ∧ (∀ x a, exUniform x a ≠ 0 → exTwoLoggers.mixture x a ≠ 0) := by
  refine ⟨fun w hw => ?_, by decide +kernel, by decide +kernel⟩
  have h := MultiProcess.log_mvalid exTwoLoggers_valid (by decide) hw exUniform (fun _ _ => 0) exUniform_dist
  rw [value_naiveIpw h.base]
  have hb : ∀ i, exTwoLoggers.piB (exTwoLoggers.logger i) (w i).1 (w i).2.1 = 1 := by
    intro i
    have := right_ne_zero_of_mul (left_ne_zero_of_mul (jointProb_ne_zero hw i))
    simp only [exTwoLoggers] at this ⊢
    split at this
    · rename_i h; rw [if_pos h]
    · exact absurd rfl this
  have hr : ∀ i, (exTwoLoggers.log w exUniform fun _ _ => 0).reward i = 1 := fun _ => rfl
  have hw' : ∀ i, (exTwoLoggers.log w exUniform fun _ _ => 0).weight false i = 1 / 2 := by
    intro i
    show exUniform (w i).1 (w i).2.1 / _ = _
    rw [if_neg (by simp)]
    show exUniform (w i).1 (w i).2.1 / exTwoLoggers.piB (exTwoLoggers.logger i) (w i).1 (w i).2.1 = _
    rw [hb]; simp [exUniform]
  simp only [Lam.clip, hr, hw', avg]
  norm_num

example := C50_balanced_ipw_unbiased exTwoLoggers_valid (by decide) exUniform (fun _ _ => 0)
  exUniform_dist C50_naive_biased.2.2
example := C50_balanced_dr_unbiased exTwoLoggers_valid (by decide) exUniform (fun _ a => ![3, 5] a)
  exUniform_dist C50_naive_biased.2.2

end C50

/-! ### C51 -/

/-- **C51.** Weighted IPW: with labels `0..m-1` and no stratum of zero variance the estimate is the
average of the (clipped) IPW terms, each multiplied by a stratum weight; the weights are positive,
average to one over the pooled log, and are inversely proportional to the variances of the terms
within the strata. -/
theorem C51_weighted_ipw {g : MLog K n A L} (h : g.toLog.Valid) (lam : Lam K) (est : Bool)
    (hc : g.Contiguous)
    (hv : ∀ i, g.stratumVar (fun i => g.reward i * lam.clip (g.weight est i)) (g.stratum i) ≠ 0) :
    ∃ omega : ℕ → K, g.VarianceWeights (fun i => g.reward i * lam.clip (g.weight est i)) omega ∧
      (MultiEstimator.mk .weightedIpw lam est).estimatePolicyValue g.margs =
        .ok (avg fun i => g.reward i * lam.clip (g.weight est i) * omega (g.stratum i)) := by
  have hv' : ∀ k ∈ g.labels, g.stratumVar (g.ipwTerm lam est) k ≠ 0 := by
    intro k hk
    obtain ⟨i, -, rfl⟩ := Finset.mem_image.1 hk
    exact hv i
  refine ⟨g.omega (g.ipwTerm lam est), MLog.omega_weights h.nonempty hv', ?_⟩
  simp only [MultiEstimator.estimatePolicyValue, MultiEstimator.rounds]
  rw [MLog.weightedIpwPrepare_eq h, py_bind_ok]
  dsimp only
  rw [MLog.weightedIpwRound_eq h est lam hc hv', py_bind_ok, npMean_avg h]
  rfl

/-- **C51.** Weighted DR: likewise; the weights multiply the corrections and are determined by the
variances of the DR terms. -/
theorem C51_weighted_dr {g : MLog K n A L} (h : g.toLog.Valid) (lam : Lam K) (est : Bool)
    (hc : g.Contiguous)
    (hv : ∀ i, g.stratumVar (fun i => g.modelValue i + lam.clip (g.weight est i) * g.residual i)
      (g.stratum i) ≠ 0) :
    ∃ omega : ℕ → K,
      g.VarianceWeights (fun i => g.modelValue i + lam.clip (g.weight est i) * g.residual i) omega ∧
      (MultiEstimator.mk .weightedDr lam est).estimatePolicyValue g.margs =
        .ok (avg fun i => g.modelValue i + lam.clip (g.weight est i) * g.residual i * omega (g.stratum i)) := by
  have hv' : ∀ k ∈ g.labels, g.stratumVar (g.drTerm lam est) k ≠ 0 := by
    intro k hk
    obtain ⟨i, -, rfl⟩ := Finset.mem_image.1 hk
    exact hv i
  refine ⟨g.omega (g.drTerm lam est), MLog.omega_weights h.nonempty hv', ?_⟩
  simp only [MultiEstimator.estimatePolicyValue, MultiEstimator.rounds]
  rw [MLog.weightedDrPrepare_eq h, py_bind_ok]
  dsimp only
  rw [MLog.weightedDrRound_eq h est lam hc hv', py_bind_ok, npMean_avg h]

/-- The weights are determined by their properties. -/
theorem C51_weights_unique {g : MLog K n A L} (hn : 0 < n) {f : Fin n → K} {u v : ℕ → K}
    (hf : ∀ i, g.stratumVar f (g.stratum i) ≠ 0) (hu : g.VarianceWeights f u) (hv : g.VarianceWeights f v)
    (i : Fin n) : u (g.stratum i) = v (g.stratum i) := by
  have hn' : (n : K) ≠ 0 := by exact_mod_cast hn.ne'
  have key : ∀ {w : ℕ → K}, g.VarianceWeights f w →
      (w (g.stratum i) * g.stratumVar f (g.stratum i)) * (∑ j, 1 / g.stratumVar f (g.stratum j)) = n := by
    intro w hw
    have h1 := hw.avg_one
    rw [div_eq_iff hn', one_mul] at h1
    rw [← h1, Finset.mul_sum]
    refine Finset.sum_congr rfl fun j _ => ?_
    rw [hw.inverse i j]
    have := hf j
    field_simp
  have h1 := key hu
  have h2 := key hv
  have hs : (∑ j, 1 / g.stratumVar f (g.stratum j)) ≠ 0 := by
    intro h0; rw [h0, mul_zero] at h1; exact hn' h1.symm
  exact mul_right_cancel₀ (hf i) (mul_right_cancel₀ hs (h1.trans h2.symm))

/-- **C51.** If all rounds carry the label 0 and the variance of the terms is not zero, weighted IPW is
ordinary IPW and weighted DR is ordinary DR. -/
theorem C51_single_stratum {g : MLog K n A L} (h : g.toLog.Valid) (lam : Lam K) (est : Bool)
    (hs : ∀ i, g.stratum i = 0) :
    (g.stratumVar (fun i => g.reward i * lam.clip (g.weight est i)) 0 ≠ 0 →
      (MultiEstimator.mk .weightedIpw lam est).estimatePolicyValue g.margs =
        (Estimator.mk .ipw lam est).estimatePolicyValue g.args) ∧
    (g.stratumVar (fun i => g.modelValue i + lam.clip (g.weight est i) * g.residual i) 0 ≠ 0 →
      (MultiEstimator.mk .weightedDr lam est).estimatePolicyValue g.margs =
        (Estimator.mk .dr lam est).estimatePolicyValue g.args) := by
  have hn' : (n : K) ≠ 0 := by exact_mod_cast h.nonempty.ne'
  have hc : g.Contiguous := by
    intro i
    rw [hs i]
    exact Finset.card_pos.2 ⟨_, Finset.mem_image.2 ⟨i, by simp, rfl⟩⟩
  have one : ∀ {f : Fin n → K} {w : ℕ → K}, g.VarianceWeights f w → w 0 = 1 := by
    intro f w hw
    have := hw.avg_one
    simp only [hs, Finset.sum_const, Finset.card_univ, Fintype.card_fin, nsmul_eq_mul] at this
    field_simp at this
    exact this
  constructor
  · intro hv
    obtain ⟨w, hw, e⟩ := C51_weighted_ipw h lam est hc (fun i => by rw [hs i]; exact hv)
    rw [e, value_ipw h]
    simp only [hs, one hw, mul_one]
  · intro hv
    obtain ⟨w, hw, e⟩ := C51_weighted_dr h lam est hc (fun i => by rw [hs i]; exact hv)
    rw [e, value_dr h]
    simp only [hs, one hw, mul_one]

/-! ### C52 -/

/-- **C52.** For the naive and weighted classes, for all arguments, the interval bootstraps exactly the
per-round values whose mean is the estimate, or both calls fail in the same way. -/
theorem C52_interval_same_rounds_partial [FloorRing K] (e : MultiEstimator K)
    (hk : e.kind ≠ .balancedIpw ∧ e.kind ≠ .balancedDr) (a : MultiArgs K) :
    (∃ samples : List K, e.estimatePolicyValue a = npMean samples ∧
      ∀ c draws, e.estimateInterval a c draws = bootstrapCI samples c draws) ∨
    ∃ err, e.estimatePolicyValue a = .error err ∧ ∀ c draws, e.estimateInterval a c draws = .error err := by
  have hi : e.intervalRounds a = e.rounds a := by
    unfold MultiEstimator.intervalRounds
    split
    · exact absurd ‹_› hk.1
    · exact absurd ‹_› hk.2
    · rfl
  unfold MultiEstimator.estimatePolicyValue MultiEstimator.estimateInterval
  rw [hi]
  cases e.rounds a with
  | ok s => exact Or.inl ⟨s, rfl, fun _ _ => rfl⟩
  | error err => exact Or.inr ⟨err, rfl, fun _ _ => rfl⟩

/-- **C52.** Hence for those classes `estimate_interval` succeeds (with valid `alpha` and number of
bootstrap samples, for all resampling draws) whenever `estimate_policy_value` does; the bounds are
ordered, and lie in every range that contains the per-round values. -/
theorem C52_interval_works_partial [FloorRing K] (e : MultiEstimator K)
    (hk : e.kind ≠ .balancedIpw ∧ e.kind ≠ .balancedDr) (a : MultiArgs K) {v : K}
    (hv : e.estimatePolicyValue a = .ok v) :
    ∃ samples : List K, samples ≠ [] ∧ v = samples.sum / samples.length ∧
      ∀ (alpha : K) (nBoot : ℕ) (draws : List (List ℕ)), 0 ≤ alpha → alpha ≤ 1 → 1 ≤ nBoot →
        ValidDraws samples.length nBoot draws →
        ∃ o, e.estimateInterval a (ciCall alpha nBoot) draws = .ok o ∧ o.lower ≤ o.upper ∧
          ∀ lo hi, (∀ x ∈ samples, lo ≤ x ∧ x ≤ hi) →
            lo ≤ o.lower ∧ o.upper ≤ hi ∧ lo ≤ o.mean ∧ o.mean ≤ hi := by
  rcases C52_interval_same_rounds_partial e hk a with ⟨s, h1, h2⟩ | ⟨err, h1, -⟩
  · rw [h1] at hv
    have hne : s ≠ [] := by rintro rfl; simp [npMean] at hv
    refine ⟨s, hne, ?_, fun alpha nBoot draws h0 h1' hb hd => ?_⟩
    · unfold npMean at hv
      rw [if_neg (by simpa using hne)] at hv
      exact (Except.ok.inj hv).symm
    · obtain ⟨o, ho, hlu, hr⟩ := C03_ci_ordered_in_range hne h0 h1' hb hd
      exact ⟨o, by rw [h2]; exact ho, hlu, hr⟩
  · rw [h1] at hv; cases hv

/-- **C52, negative part.** The balanced classes: whenever `estimate_policy_value` works,
`estimate_interval` raises TypeError, for all arguments. -/
theorem C52_balanced_interval_type_error [FloorRing K] (e : MultiEstimator K)
    (hk : e.kind = .balancedIpw ∨ e.kind = .balancedDr) (a : MultiArgs K) {v : K}
    (hv : e.estimatePolicyValue a = .ok v) (c : CiArgs K) (draws : List (List ℕ)) :
    e.estimateInterval a c draws = .error .typeError := by
  unfold MultiEstimator.estimatePolicyValue MultiEstimator.rounds at hv
  unfold MultiEstimator.estimateInterval MultiEstimator.intervalRounds
  rcases hk with hk | hk <;>
  · rw [hk] at hv ⊢
    simp only [py_bind_eq_ok] at hv
    obtain ⟨_, ⟨r, hr, -⟩, -⟩ := hv
    simp only [hr, py_bind_ok]
    rfl

/-! ### C53 -/

/-- **C53, negative part.** The validation accepts every array of non-negative integer labels, but
unless the labels are exactly `0..m-1` both weighted estimators raise IndexError. -/
theorem C53_other_labels_index_error {g : MLog K n A L} (h : g.toLog.Valid) (lam : Lam K) (est : Bool)
    (hc : ¬ g.Contiguous) :
    (MultiEstimator.mk .weightedIpw lam est).estimatePolicyValue g.margs = .error .indexError ∧
    (MultiEstimator.mk .weightedDr lam est).estimatePolicyValue g.margs = .error .indexError ∧
    checkStratum (⟨n, A, L, g.piE⟩ : Arr3 K) g.margs.stratumIdx = .ok () := by
  refine ⟨?_, ?_, MLog.checkStratum_eq g h.nonempty _ rfl⟩
  · simp only [MultiEstimator.estimatePolicyValue, MultiEstimator.rounds]
    rw [MLog.weightedIpwPrepare_eq h, py_bind_ok]
    dsimp only
    rw [MLog.weightedIpwRound_index h est lam hc]
    rfl
  · simp only [MultiEstimator.estimatePolicyValue, MultiEstimator.rounds]
    rw [MLog.weightedDrPrepare_eq h, py_bind_ok]
    dsimp only
    rw [MLog.weightedDrRound_index h est lam hc]
    rfl

/-- **C53.** With labels `0..m-1` the only failure is a stratum of zero variance, which gives nan. -/
theorem C53_accepts_contiguous_partial {g : MLog K n A L} (h : g.toLog.Valid) (lam : Lam K) (est : Bool)
    (hc : g.Contiguous) :
    ((∃ v, (MultiEstimator.mk .weightedIpw lam est).estimatePolicyValue g.margs = .ok v) ↔
      ∀ i, g.stratumVar (fun i => g.reward i * lam.clip (g.weight est i)) (g.stratum i) ≠ 0) ∧
    ((∃ v, (MultiEstimator.mk .weightedDr lam est).estimatePolicyValue g.margs = .ok v) ↔
      ∀ i, g.stratumVar (fun i => g.modelValue i + lam.clip (g.weight est i) * g.residual i)
        (g.stratum i) ≠ 0) := by
  have hm : ∀ i, g.stratum i ∈ g.labels := fun i => Finset.mem_image.2 ⟨i, by simp, rfl⟩
  constructor
  · constructor
    · rintro ⟨v, hv⟩ i h0
      simp only [MultiEstimator.estimatePolicyValue, MultiEstimator.rounds] at hv
      rw [MLog.weightedIpwPrepare_eq h, py_bind_ok] at hv
      dsimp only at hv
      rw [MLog.weightedIpwRound_nonFinite h est lam hc (hm i) h0] at hv
      cases hv
    · intro hv
      obtain ⟨w, -, e⟩ := C51_weighted_ipw h lam est hc hv
      exact ⟨_, e⟩
  · constructor
    · rintro ⟨v, hv⟩ i h0
      simp only [MultiEstimator.estimatePolicyValue, MultiEstimator.rounds] at hv
      rw [MLog.weightedDrPrepare_eq h, py_bind_ok] at hv
      dsimp only at hv
      rw [MLog.weightedDrRound_nonFinite h est lam hc (hm i) h0] at hv
      cases hv
    · intro hv
      obtain ⟨w, -, e⟩ := C51_weighted_dr h lam est hc hv
      exact ⟨_, e⟩

/-! ### Examples -/

/-- four rounds, two strata -/
def exStrata : MLog ℚ 4 2 1 where
  action := ![0, 1, 0, 1]
  reward := ![1, 3, 2, 7]
  pscore := fun _ => 1 / 2
  estPscore := fun _ => 1 / 4
  position := fun _ => 0
  piE := fun _ a _ => ![1 / 4, 3 / 4] a
  q := fun _ a _ => ![1, 2] a
  estIw := fun _ => 1
  stratum := ![0, 0, 1, 1]
  pscoreAvg := fun _ => 1 / 2
  estPscoreAvg := fun _ => 1 / 2

theorem exStrata_valid : exStrata.toLog.Valid where
  nonempty := by decide
  pscore_pos := by decide +kernel
  estPscore_pos := by decide +kernel
  estIw_nonneg := by decide +kernel
  sum_one := by decide +kernel

example := C51_weighted_ipw exStrata_valid .inf false (by unfold MLog.Contiguous; decide +kernel)
  (by decide +kernel)
example := C51_weighted_dr exStrata_valid .inf false (by unfold MLog.Contiguous; decide +kernel)
  (by decide +kernel)
example := (C51_single_stratum (g := { exStrata with stratum := fun _ => 0 })
  ⟨by decide, by decide +kernel, by decide +kernel, by decide +kernel, by decide +kernel⟩ .inf false
  (fun _ => rfl)).1 (by decide +kernel)
example := C53_other_labels_index_error (g := { exStrata with stratum := ![1, 1, 2, 2] })
  ⟨by decide, by decide +kernel, by decide +kernel, by decide +kernel, by decide +kernel⟩ .inf false
  (by unfold MLog.Contiguous; decide +kernel)
example := (C53_accepts_contiguous_partial exStrata_valid .inf false
  (by unfold MLog.Contiguous; decide +kernel)).1.2 (by decide +kernel)
example (c draws) := C52_balanced_interval_type_error (MultiEstimator.mk .balancedIpw .inf false) (Or.inl rfl)
  exStrata.margs (value_balancedIpw ⟨exStrata_valid, by decide +kernel, by decide +kernel⟩ _ _) c draws
example := C52_interval_works_partial (MultiEstimator.mk .naiveIpw .inf false) (by decide) exStrata.margs
  (value_naiveIpw exStrata_valid _ _)

end Obp
