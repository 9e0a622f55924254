import Verif.Spec.MultiPrecision
import Verif.Props.Multi

set_option linter.unusedSectionVars false

/-!
# Weighted estimates as averages of the loggers' estimates

C185: the weighted estimators return the documented average of one estimate per logger, weighted by precision. The doubly robust
one does not: it weights the corrections only.
-/

namespace Obp
open Log

variable {K : Type} [Field K] [LinearOrder K] [IsStrictOrderedRing K] {n A L : ℕ}

namespace MLog

/-- Sums over the rounds, stratum by stratum. -/
theorem sum_by_strata (g : MLog K n A L) (f : Fin n → K) : ∑ i, f i = ∑ k ∈ g.labels, g.size k * g.stratumMean f k := by
  rw [← Finset.sum_fiberwise_of_maps_to (s := Finset.univ) (t := g.labels) (g := g.stratum) fun i _ =>
    Finset.mem_image_of_mem _ (Finset.mem_univ i)]
  refine Finset.sum_congr rfl fun k hk => ?_
  have : (g.size k : K) ≠ 0 := by exact_mod_cast (size_pos hk).ne'
  unfold stratumMean
  field_simp

/-- The mean over the log is the average of the means in the strata, weighted by size. -/
theorem avg_strata (g : MLog K n A L) (f : Fin n → K) : avg f = ∑ k ∈ g.labels, (g.size k : K) / n * g.stratumMean f k := by
  unfold avg
  rw [g.sum_by_strata, Finset.sum_div]
  exact Finset.sum_congr rfl fun k _ => by ring

/-- The weights are determined by the sizes and variances. -/
theorem VarianceWeights.eq {g : MLog K n A L} {f : Fin n → K} {omega : ℕ → K} (hn : 0 < n) (h : g.VarianceWeights f omega)
    (hv : ∀ i, g.stratumVar f (g.stratum i) ≠ 0) {k : ℕ} (hk : k ∈ g.labels) :
    (g.size k : K) / n * omega k = g.precisionShare f k := by
  have hn' : (n : K) ≠ 0 := by exact_mod_cast hn.ne'
  have hv' : ∀ j ∈ g.labels, 0 < g.stratumVar f j := fun j hj => by
    obtain ⟨i, -, rfl⟩ := Finset.mem_image.1 hj
    exact lt_of_le_of_ne (g.stratumVar_nonneg f _) (hv i).symm
  have hinv : ∀ j ∈ g.labels, omega j = omega k * g.stratumVar f k / g.stratumVar f j := fun j hj => by
    rw [eq_div_iff (hv' j hj).ne']
    obtain ⟨i, -, rfl⟩ := Finset.mem_image.1 hk
    obtain ⟨i', -, rfl⟩ := Finset.mem_image.1 hj
    exact h.inverse i' i
  have hmean : ∀ j ∈ g.labels, g.stratumMean (fun i => omega (g.stratum i)) j = omega j := fun j hj => by
    have : (g.size j : K) ≠ 0 := by exact_mod_cast (size_pos hj).ne'
    unfold stratumMean
    rw [Finset.sum_congr rfl (g := fun _ => omega j) fun i hi => by dsimp only; rw [(Finset.mem_filter.1 hi).2], Finset.sum_const, nsmul_eq_mul]
    exact mul_div_cancel_left₀ _ this
  have h1 : ∑ j ∈ g.labels, (g.size j : K) / n * omega j = 1 := by
    rw [← h.avg_one]
    refine ((g.avg_strata fun i => omega (g.stratum i)).trans (Finset.sum_congr rfl fun j hj => by rw [hmean j hj])).symm
  have hS : 0 < ∑ j ∈ g.labels, (g.size j : K) / g.stratumVar f j :=
    Finset.sum_pos (fun j hj => div_pos (by exact_mod_cast size_pos hj) (hv' j hj)) ⟨k, hk⟩
  have h2 : omega k * g.stratumVar f k * (∑ j ∈ g.labels, (g.size j : K) / g.stratumVar f j) = n := by
    have : ∑ j ∈ g.labels, (g.size j : K) / n * omega j =
        omega k * g.stratumVar f k * (∑ j ∈ g.labels, (g.size j : K) / g.stratumVar f j) / n := by
      rw [Finset.mul_sum, Finset.sum_div]
      exact Finset.sum_congr rfl fun j hj => by rw [hinv j hj]; ring
    rw [this, div_eq_one_iff_eq hn'] at h1
    exact h1
  unfold precisionShare
  rw [eq_div_iff hS.ne', div_mul_eq_mul_div, div_mul_eq_mul_div, div_eq_div_iff hn' (hv' k hk).ne', ← h2]
  ring

/-- Averages with weights per stratum. -/
theorem VarianceWeights.avg_mul {g : MLog K n A L} {f : Fin n → K} {omega : ℕ → K} (hn : 0 < n) (h : g.VarianceWeights f omega)
    (hv : ∀ i, g.stratumVar f (g.stratum i) ≠ 0) (u : Fin n → K) :
    (avg fun i => u i * omega (g.stratum i)) = ∑ k ∈ g.labels, g.precisionShare f k * g.stratumMean u k := by
  rw [g.avg_strata]
  refine Finset.sum_congr rfl fun k hk => ?_
  rw [← h.eq hn hv hk]
  have : g.stratumMean (fun i => u i * omega (g.stratum i)) k = omega k * g.stratumMean u k := by
    unfold stratumMean
    rw [Finset.sum_congr rfl (g := fun i => u i * omega k) fun i hi => by dsimp only; rw [(Finset.mem_filter.1 hi).2], ← Finset.sum_mul]
    ring
  rw [this]
  ring

/-- The shares of precision are positive and sum to one. -/
theorem precisionShare_dist {g : MLog K n A L} {f : Fin n → K} (hn : 0 < n) (hv : ∀ i, g.stratumVar f (g.stratum i) ≠ 0) :
    (∀ k ∈ g.labels, 0 < g.precisionShare f k) ∧ ∑ k ∈ g.labels, g.precisionShare f k = 1 := by
  have hp : ∀ j ∈ g.labels, 0 < (g.size j : K) / g.stratumVar f j := fun j hj => by
    have h1 : (0 : K) < g.size j := by exact_mod_cast size_pos hj
    obtain ⟨i, -, rfl⟩ := Finset.mem_image.1 hj
    exact div_pos h1 (lt_of_le_of_ne (g.stratumVar_nonneg f _) (hv i).symm)
  have hS : 0 < ∑ j ∈ g.labels, (g.size j : K) / g.stratumVar f j :=
    Finset.sum_pos hp ⟨g.stratum ⟨0, hn⟩, Finset.mem_image_of_mem _ (Finset.mem_univ _)⟩
  refine ⟨fun k hk => div_pos (hp k hk) hS, ?_⟩
  unfold precisionShare
  rw [← Finset.sum_div, div_self hS.ne']

end MLog

/-! ### C185 -/

/-- **C185.** Weighted inverse propensity weighting returns the means of the weighted rewards of the loggers, averaged with
positive weights that sum to one and are proportional to the number of rounds over their variance. -/
theorem C185_weighted_ipw {g : MLog K n A L} (h : g.toLog.Valid) (lam : Lam K) (est : Bool) (hc : g.Contiguous)
    (hv : ∀ i, g.stratumVar (fun i => g.reward i * lam.clip (g.weight est i)) (g.stratum i) ≠ 0) :
    (MultiEstimator.mk .weightedIpw lam est).estimatePolicyValue g.margs =
        .ok (g.precisionMean fun i => g.reward i * lam.clip (g.weight est i)) ∧
      (∀ k ∈ g.labels, 0 < g.precisionShare (fun i => g.reward i * lam.clip (g.weight est i)) k) ∧
      ∑ k ∈ g.labels, g.precisionShare (fun i => g.reward i * lam.clip (g.weight est i)) k = 1 := by
  obtain ⟨w, hw, e⟩ := C51_weighted_ipw h lam est hc hv
  exact ⟨e.trans (congrArg _ (hw.avg_mul h.nonempty hv _)), MLog.precisionShare_dist h.nonempty hv⟩

/-- **C185.** So the weighted IPW estimate lies between the smallest and the largest of the loggers' own estimates. -/
theorem C185_weighted_ipw_between {g : MLog K n A L} (h : g.toLog.Valid) (lam : Lam K) (est : Bool) (hc : g.Contiguous)
    (hv : ∀ i, g.stratumVar (fun i => g.reward i * lam.clip (g.weight est i)) (g.stratum i) ≠ 0) {lo hi : K}
    (hb : ∀ i, g.stratumMean (fun i => g.reward i * lam.clip (g.weight est i)) (g.stratum i) ∈ Set.Icc lo hi) :
    ∃ x ∈ Set.Icc lo hi, (MultiEstimator.mk .weightedIpw lam est).estimatePolicyValue g.margs = .ok x := by
  obtain ⟨e, hpos, hsum⟩ := C185_weighted_ipw h lam est hc hv
  have hb' : ∀ k ∈ g.labels,
      g.stratumMean (fun i => g.reward i * lam.clip (g.weight est i)) k ∈ Set.Icc lo hi := fun k hk => by
    obtain ⟨i, -, rfl⟩ := Finset.mem_image.1 hk
    exact hb i
  refine ⟨_, ⟨?_, ?_⟩, e⟩
  · rw [MLog.precisionMean, ← one_mul lo, ← hsum, Finset.sum_mul]
    exact Finset.sum_le_sum fun k hk => mul_le_mul_of_nonneg_left (hb' k hk).1 (hpos k hk).le
  · rw [MLog.precisionMean, ← one_mul hi, ← hsum, Finset.sum_mul]
    exact Finset.sum_le_sum fun k hk => mul_le_mul_of_nonneg_left (hb' k hk).2 (hpos k hk).le

/-- **C185** (what is missing: the weights do not apply to the reward model). The weighted doubly robust estimate is the mean of
the reward model over the whole log plus the mean corrections of the loggers, averaged with the shares of precision. -/
theorem C185_weighted_dr_partial {g : MLog K n A L} (h : g.toLog.Valid) (lam : Lam K) (est : Bool) (hc : g.Contiguous)
    (hv : ∀ i, g.stratumVar (fun i => g.modelValue i + lam.clip (g.weight est i) * g.residual i) (g.stratum i) ≠ 0) :
    (MultiEstimator.mk .weightedDr lam est).estimatePolicyValue g.margs =
      .ok (avg g.modelValue + ∑ k ∈ g.labels,
        g.precisionShare (fun i => g.modelValue i + lam.clip (g.weight est i) * g.residual i) k *
          g.stratumMean (fun i => lam.clip (g.weight est i) * g.residual i) k) := by
  obtain ⟨w, hw, e⟩ := C51_weighted_dr h lam est hc hv
  rw [e, ← hw.avg_mul h.nonempty hv]
  simp only [avg, ← add_div, ← Finset.sum_add_distrib]

/-- **C185** (what is missing: loggers whose mean predictions differ). The weighted doubly robust estimate is the documented
average of the loggers' doubly robust estimates if the reward model has the same mean in the rounds of every logger. -/
theorem C185_weighted_dr_same_model_partial {g : MLog K n A L} (h : g.toLog.Valid) (lam : Lam K) (est : Bool) (hc : g.Contiguous)
    (hv : ∀ i, g.stratumVar (fun i => g.modelValue i + lam.clip (g.weight est i) * g.residual i) (g.stratum i) ≠ 0) {b : K}
    (hb : ∀ i, g.stratumMean g.modelValue (g.stratum i) = b) :
    (MultiEstimator.mk .weightedDr lam est).estimatePolicyValue g.margs =
      .ok (g.precisionMean fun i => g.modelValue i + lam.clip (g.weight est i) * g.residual i) := by
  rw [C185_weighted_dr_partial h lam est hc hv, g.avg_strata, MLog.precisionMean]
  have hb' : ∀ k ∈ g.labels, g.stratumMean g.modelValue k = b := fun k hk => by
    obtain ⟨i, -, rfl⟩ := Finset.mem_image.1 hk
    exact hb i
  have hn' : (n : K) ≠ 0 := by exact_mod_cast h.nonempty.ne'
  have e1 : ∑ k ∈ g.labels, (g.size k : K) / n * g.stratumMean g.modelValue k = b := by
    have h1 := g.sum_by_strata fun _ => 1
    have h2 : ∀ k ∈ g.labels, (g.size k : K) * g.stratumMean (fun _ => 1) k = g.size k := fun k hk => by
      have : (g.size k : K) ≠ 0 := by exact_mod_cast (MLog.size_pos hk).ne'
      have h3 : g.stratumMean (fun _ => (1 : K)) k = g.size k / g.size k := by
        unfold MLog.stratumMean MLog.size
        simp
      rw [h3, div_self this, mul_one]
    rw [Finset.sum_congr rfl h2] at h1
    simp only [Finset.sum_const, Finset.card_univ, Fintype.card_fin, nsmul_eq_mul, mul_one] at h1
    rw [Finset.sum_congr rfl fun k hk => by rw [hb' k hk], ← Finset.sum_mul, ← Finset.sum_div, ← h1, div_self hn', one_mul]
  rw [e1]
  congr 1
  have e2 := (MLog.precisionShare_dist h.nonempty hv).2
  conv_lhs => rw [← one_mul b, ← e2, Finset.sum_mul, ← Finset.sum_add_distrib]
  refine Finset.sum_congr rfl fun k hk => ?_
  rw [← mul_add, ← hb' k hk]
  congr 1
  unfold MLog.stratumMean
  rw [← add_div, ← Finset.sum_add_distrib]

/-- Four rounds of two loggers. Predictions are higher in the rounds of the second logger, whose corrections vary less. -/
def exPrecision : MLog ℚ 4 2 1 where
  action := ![0, 1, 0, 1]
  reward := ![0, 6, 3, 4]
  pscore := fun _ => 1 / 2
  estPscore := fun _ => 1 / 2
  position := fun _ => 0
  piE := fun _ _ _ => 1 / 2
  q := ![fun _ _ => 1, fun _ _ => 1, fun _ _ => 3, fun _ _ => 3]
  estIw := fun _ => 1
  stratum := ![0, 0, 1, 1]
  pscoreAvg := fun _ => 1 / 2
  estPscoreAvg := fun _ => 1 / 2

theorem exPrecision_valid : exPrecision.toLog.Valid where
  nonempty := by decide
  pscore_pos := by decide +kernel
  estPscore_pos := by decide +kernel
  estIw_nonneg := by decide +kernel
  sum_one := by decide +kernel

/-- **C185 fails** for weighted doubly robust estimation: the doubly robust estimates of the two loggers are 3 and 7/2, and their
average by precision is 129/37 (3.486…). The estimate is 94/37 (2.540…), below the estimates of both loggers. -/
theorem not_C185_weighted_dr :
    (MultiEstimator.mk .weightedDr .inf false).estimatePolicyValue exPrecision.margs = .ok (94 / 37) ∧
      exPrecision.stratumMean (fun i => exPrecision.modelValue i + exPrecision.weight false i * exPrecision.residual i) 0 = 3 ∧
      exPrecision.stratumMean (fun i => exPrecision.modelValue i + exPrecision.weight false i * exPrecision.residual i) 1 = 7 / 2 ∧
      exPrecision.precisionMean (fun i => exPrecision.modelValue i + exPrecision.weight false i * exPrecision.residual i) =
        129 / 37 := by
  refine ⟨(C185_weighted_dr_partial exPrecision_valid .inf false (by unfold MLog.Contiguous; decide +kernel)
    (by decide +kernel)).trans (congrArg _ ?_), ?_⟩
  · decide +kernel
  · decide +kernel

example := C185_weighted_ipw exPrecision_valid .inf false (by unfold MLog.Contiguous; decide +kernel) (by decide +kernel)
example := C185_weighted_ipw_between exPrecision_valid (lo := 0) (hi := 10) .inf false (by unfold MLog.Contiguous; decide +kernel)
  (by decide +kernel) (by simp only [Set.mem_Icc]; decide +kernel)
example := C185_weighted_dr_partial exPrecision_valid .inf false (by unfold MLog.Contiguous; decide +kernel) (by decide +kernel)
example := C185_weighted_dr_same_model_partial exStrata_valid (b := 7 / 4) .inf false (by unfold MLog.Contiguous; decide +kernel)
  (by decide +kernel) (by decide +kernel)

end Obp
