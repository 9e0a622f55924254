import Verif.Lemmas.Tails
import Verif.Props.NormalMulti

set_option linter.unusedSectionVars false

/-!
# Large errors with several loggers

C189: errors of the distance `t` or more have exponentially small probability, for every number of rounds of each logger.
-/

namespace Obp
open MeasureTheory ProbabilityTheory Filter Topology Log

section pooled
open MultiStream

variable {Ω S : Type} [MeasurableSpace Ω] [MeasurableSpace S] {P : Measure Ω} [IsProbabilityMeasure P] {M : ℕ} {Z : Fin M → ℕ → Ω → S}

/-- Hoeffding's inequality for independent strata, one side. -/
theorem pooled_tail (hZ : ∀ k, Iid P (Z k)) (hind : iIndepFun (fun k ω (i : ℕ) => Z k i ω) P) {F : Fin M → S → ℝ}
    (hF : ∀ k, Measurable (F k)) {a b : Fin M → ℝ} (hb : ∀ k, ∀ᵐ ω ∂P, F k (Z k 0 ω) ∈ Set.Icc (a k) (b k)) {N : Fin M → ℕ}
    (hn : 0 < ∑ k, N k) {v t : ℝ} (hm : ∑ k, (N k : ℝ) / (∑ j, N j : ℕ) * ∫ ω, F k (Z k 0 ω) ∂P = v) (ht : 0 ≤ t) :
    P.real {ω | v + t ≤ avg (column N fun k i => F k (Z k i ω))} ≤
      Real.exp (-(2 * (∑ k, N k : ℕ) ^ 2 * t ^ 2 / ∑ k, N k * (b k - a k) ^ 2)) := by
  have hn' : (0 : ℝ) < (∑ k, N k : ℕ) := by exact_mod_cast hn
  set μ : Fin M → ℝ := fun k => ∫ ω, F k (Z k 0 ω) ∂P with hμ
  have hsub : ∀ k i, HasSubgaussianMGF (fun ω => F k (Z k i ω) - μ k) ((‖b k - a k‖₊ / 2) ^ 2) P := fun k i => by
    obtain ⟨w1, w2, w3⟩ := (hZ k).fn (hF k)
    have h1 : ∀ᵐ x ∂(P.map fun ω => F k (Z k 0 ω)), x ∈ Set.Icc (a k) (b k) :=
      (ae_map_iff (w1 0).aemeasurable measurableSet_Icc).2 (hb k)
    rw [← (w3 i).map_eq] at h1
    have := hasSubgaussianMGF_of_mem_Icc (w1 i).aemeasurable ((ae_map_iff (w1 i).aemeasurable measurableSet_Icc).1 h1)
    rwa [show ∫ ω, F k (Z k i ω) ∂P = μ k from (w3 i).integral_eq] at this
  have hblock : ∀ k, HasSubgaussianMGF (fun ω => ∑ i ∈ Finset.range (N k), (F k (Z k i ω) - μ k))
      (∑ _i ∈ Finset.range (N k), (‖b k - a k‖₊ / 2) ^ 2) P := fun k =>
    HasSubgaussianMGF.sum_of_iIndepFun (((hZ k).fn (hF k)).2.1.comp (fun _ x => x - μ k) fun _ => measurable_id.sub_const _)
      fun i _ => hsub k i
  have hind' : iIndepFun (fun k ω => ∑ i ∈ Finset.range (N k), (F k (Z k i ω) - μ k)) P :=
    hind.comp (fun k z => ∑ i ∈ Finset.range (N k), (F k (z i) - μ k)) fun k =>
      Finset.measurable_fun_sum _ fun i _ => ((hF k).comp (measurable_pi_apply i)).sub_const _
  have key := HasSubgaussianMGF.measure_sum_ge_le_of_iIndepFun hind' (s := Finset.univ) (fun k _ => hblock k)
    (ε := (∑ k, N k : ℕ) * t) (by positivity)
  refine (measureReal_mono fun ω hω => ?_).trans (key.trans_eq ?_)
  · simp only [Set.mem_ofPred_eq] at hω ⊢
    rw [avg, sum_column, le_div_iff₀ hn', ← hm] at hω
    have e : (∑ k, (N k : ℝ) / (∑ j, N j : ℕ) * μ k) * (∑ j, N j : ℕ) = ∑ k, N k * μ k := by
      rw [Finset.sum_mul]
      exact Finset.sum_congr rfl fun k _ => by field_simp
    rw [add_mul, e] at hω
    simp only [Finset.sum_sub_distrib, Finset.sum_const, Finset.card_range, nsmul_eq_mul]
    simp only [← Fin.sum_univ_eq_sum_range]
    linarith
  · congr 1
    have e : ((∑ k, ∑ _i ∈ Finset.range (N k), (‖b k - a k‖₊ / 2) ^ 2 : NNReal) : ℝ) = (∑ k, N k * (b k - a k) ^ 2) / 4 := by
      simp only [Finset.sum_const, Finset.card_range, nsmul_eq_mul]
      push_cast
      rw [Finset.sum_div]
      refine Finset.sum_congr rfl fun k _ => ?_
      rw [Real.norm_eq_abs, div_pow, sq_abs]
      ring
    rw [e]
    generalize (∑ k, (N k : ℝ) * (b k - a k) ^ 2) = B
    rcases eq_or_ne B 0 with h0 | h0
    · simp [h0]
    · field_simp
      ring

/-- Both sides, for results that are averages over the pooled log. -/
theorem misses_pooled (hZ : ∀ k, Iid P (Z k)) (hind : iIndepFun (fun k ω (i : ℕ) => Z k i ω) P) {F : Fin M → S → ℝ}
    (hF : ∀ k, Measurable (F k)) {a b : Fin M → ℝ} (hb : ∀ k, ∀ᵐ ω ∂P, F k (Z k 0 ω) ∈ Set.Icc (a k) (b k)) {N : Fin M → ℕ}
    (hn : 0 < ∑ k, N k) {v t : ℝ} (hm : ∑ k, (N k : ℝ) / (∑ j, N j : ℕ) * ∫ ω, F k (Z k 0 ω) ∂P = v) (ht : 0 ≤ t) {r : Ω → Py ℝ}
    (hr : ∀ᵐ ω ∂P, r ω = .ok (avg (column N fun k i => F k (Z k i ω)))) :
    P.real {ω | Misses (r ω) v t} ≤ 2 * Real.exp (-(2 * (∑ k, N k : ℕ) ^ 2 * t ^ 2 / ∑ k, N k * (b k - a k) ^ 2)) := by
  have k1 := pooled_tail hZ hind hF hb hn hm ht
  have k2 := pooled_tail hZ hind (F := fun k => -F k) (fun k => (hF k).neg) (a := fun k => -b k) (b := fun k => -a k) (v := -v)
    (fun k => by
      filter_upwards [hb k] with ω hω
      exact ⟨neg_le_neg hω.2, neg_le_neg hω.1⟩) hn (by
    simp only [Pi.neg_apply, integral_neg, mul_neg, Finset.sum_neg_distrib, hm]) ht
  simp only [neg_sub_neg] at k2
  refine (measureReal_le_of_ae (t := {ω | v + t ≤ avg (column N fun k i => F k (Z k i ω))} ∪
      {ω | -v + t ≤ avg (column N fun k i => (-F k) (Z k i ω))}) ?_).trans
    ((measureReal_union_le _ _).trans ((add_le_add k1 k2).trans_eq (two_mul _).symm))
  filter_upwards [hr] with ω hω hmiss
  have h2 : t ≤ |avg (column N fun k i => F k (Z k i ω)) - v| := not_lt.1 fun h => hmiss ⟨_, hω, h⟩
  have h3 : avg (column N fun k i => (-F k) (Z k i ω)) = -avg (column N fun k i => F k (Z k i ω)) := by
    simp only [avg, column, Pi.neg_apply, Finset.sum_neg_distrib, neg_div]
  rcases le_abs.1 h2 with h | h
  · exact .inl (by simp only [Set.mem_ofPred_eq]; linarith)
  · exact .inr (by simp only [Set.mem_ofPred_eq, h3]; linarith)

end pooled

section multi
open LogStream MultiStream

variable {Ω C : Type} [MeasurableSpace Ω] [MeasurableSpace C] {A L M : ℕ} {P : Measure Ω} [IsProbabilityMeasure P] {D : Measure C}
variable {s : Fin M → LogStream Ω C A} {piB : Fin M → C → Fin A → ℝ} {m : C → Fin A → ℝ} {pos : C → Fin L}
variable {piE q : C → Fin A → Fin L → ℝ} {rho : Fin M → ℝ} {N : Fin M → ℕ}

theorem shares_mean {μ : Fin M → ℝ} {v : ℝ} (hn : 0 < ∑ k, N k) (h : ∀ k, μ k = v) :
    ∑ k, (N k : ℝ) / (∑ j, N j : ℕ) * μ k = v := by
  simp only [h, ← Finset.sum_mul, sum_share hn, one_mul]

/-- **C189.** Several independent loggers, naive inverse propensity weighting: the weighted rewards of logger `k` are in
`[a k, b k]`, and it contributes `N k` rounds. -/
theorem C189_naive_ipw (hs : MultiStream.LoggedBy s P D piB m) (hind : MultiStream.Independent s P) (hrho : ∀ k, 0 < rho k)
    (hE : ∀ k, Covers (piB k) pos piE) {lam : Lam ℝ} (hl : ∀ k, NotClipped lam (piB k) pos piE) {a b : Fin M → ℝ}
    (hb : ∀ k, ∀ᵐ ω ∂P, (s k).ipwTerm (piB k) pos piE 0 ω ∈ Set.Icc (a k) (b k)) (hn : 0 < ∑ k, N k) {t : ℝ} (ht : 0 ≤ t) :
    P.real {ω | Misses ((MultiEstimator.mk .naiveIpw lam false).estimatePolicyValue (pooled s rho piB pos piE q N ω).margs)
      (value D pos piE m) t} ≤ 2 * Real.exp (-(2 * (∑ k, N k : ℕ) ^ 2 * t ^ 2 / ∑ k, N k * (b k - a k) ^ 2)) := by
  obtain ⟨k0⟩ : Nonempty (Fin M) := by
    by_contra h
    rw [not_nonempty_iff] at h
    simp at hn
  have hF : ∀ k, Measurable fun x : C × Fin A × ℝ => x.2.2 * (piE x.1 x.2.1 (pos x.1) / piB k x.1 x.2.1) := fun k =>
    (measurable_snd.comp measurable_snd).mul ((hs.logger k).weightFn_meas (hE k))
  refine misses_pooled (fun k => (hs.logger k).iid) hind hF hb hn (shares_mean hn fun k => ?_) ht ?_
  · rw [← hs.value_eq k (hE k).meas (hs.logger k).m_meas]
    exact (hs.logger k).ipwTerm_mean (hE k)
      (Integrable.of_mem_Icc _ _ ((hF k).comp ((hs.logger k).iid.meas 0)).aemeasurable (hb k))
  · filter_upwards [hs.pooled_valid (pos := pos) (q := q) hrho (hE k0).dist] with ω hva
    rw [value_naiveIpw (hva _ hn).base]
    congr 2
    funext j
    rw [pooled_clip hl]
    rfl

/-- **C189.** Naive doubly robust estimates, for every reward model. -/
theorem C189_naive_dr (hs : MultiStream.LoggedBy s P D piB m) (hind : MultiStream.Independent s P) (hrho : ∀ k, 0 < rho k)
    (hE : ∀ k, Covers (piB k) pos piE) (hi : ∀ k, Integrable ((s k).ipwTerm (piB k) pos piE 0) P)
    (hq : ∀ a, Measurable fun c => q c a (pos c)) (hqi : ∀ a, Integrable (fun c => piE c a (pos c) * q c a (pos c)) D)
    {lam : Lam ℝ} (hl : ∀ k, NotClipped lam (piB k) pos piE) {a b : Fin M → ℝ}
    (hb : ∀ k, ∀ᵐ ω ∂P, (s k).drTerm (piB k) pos piE q 0 ω ∈ Set.Icc (a k) (b k)) (hn : 0 < ∑ k, N k) {t : ℝ} (ht : 0 ≤ t) :
    P.real {ω | Misses ((MultiEstimator.mk .naiveDr lam false).estimatePolicyValue (pooled s rho piB pos piE q N ω).margs)
      (value D pos piE m) t} ≤ 2 * Real.exp (-(2 * (∑ k, N k : ℕ) ^ 2 * t ^ 2 / ∑ k, N k * (b k - a k) ^ 2)) := by
  obtain ⟨k0⟩ : Nonempty (Fin M) := by
    by_contra h
    rw [not_nonempty_iff] at h
    simp at hn
  refine misses_pooled (fun k => (hs.logger k).iid) hind
    (F := fun k x => (∑ a, piE x.1 a (pos x.1) * q x.1 a (pos x.1)) +
      piE x.1 x.2.1 (pos x.1) / piB k x.1 x.2.1 * (x.2.2 - q x.1 x.2.1 (pos x.1)))
    (fun k => (model_meas (hE k).meas hq).add (((hs.logger k).weightFn_meas (hE k)).mul (residual_meas hq))) hb hn
    (shares_mean hn fun k => ?_) ht ?_
  · rw [← hs.value_eq k (hE k).meas (hs.logger k).m_meas]
    exact (hs.logger k).drTerm_mean (hE k) (hi k) hq (hs.model_int hqi k)
  · filter_upwards [hs.pooled_valid (pos := pos) (q := q) hrho (hE k0).dist] with ω hva
    rw [value_naiveDr (hva _ hn).base]
    congr 2
    funext j
    rw [pooled_clip hl, pooled_modelValue (hE k0).dist]
    rfl

/-- Logs that repeat the same mixture of loggers. -/
theorem grows_multiples (hN : ∀ k, 0 < N k) (hn : 0 < ∑ k, N k) (hrho : ∀ k, rho k = (N k : ℝ) / (∑ j, N j : ℕ)) :
    Grows (fun t k => t * N k) rho := by
  have hn' : ((∑ j, N j : ℕ) : ℝ) ≠ 0 := by exact_mod_cast hn.ne'
  refine ⟨?_, fun k => ?_, fun k => ?_⟩
  · simp only [← Finset.mul_sum]
    exact tendsto_id.atTop_mul_const' hn
  · refine tendsto_const_nhds.congr' ?_
    filter_upwards [eventually_gt_atTop 0] with t ht
    have ht' : (t : ℝ) ≠ 0 := by exact_mod_cast ht.ne'
    rw [← Finset.mul_sum, hrho, Nat.cast_mul, Nat.cast_mul, mul_div_mul_left _ _ ht']
  · rw [hrho]
    have := hN k
    positivity

/-- **C189.** Balanced inverse propensity weighting, when the average policy weights the loggers by their shares of the rounds. -/
theorem C189_balanced_ipw (hs : MultiStream.LoggedBy s P D piB m) (hind : MultiStream.Independent s P) (hN : ∀ k, 0 < N k)
    (hn : 0 < ∑ k, N k) (hrho : ∀ k, rho k = (N k : ℝ) / (∑ j, N j : ℕ)) (hE : Covers (average rho piB) pos piE) {lam : Lam ℝ}
    (hl : NotClipped lam (average rho piB) pos piE) {a b : Fin M → ℝ}
    (hb : ∀ k, ∀ᵐ ω ∂P, (s k).ipwTerm (average rho piB) pos piE 0 ω ∈ Set.Icc (a k) (b k)) {t : ℝ} (ht : 0 ≤ t) :
    P.real {ω | Misses ((MultiEstimator.mk .balancedIpw lam false).estimatePolicyValue (pooled s rho piB pos piE q N ω).margs)
      (value D pos piE m) t} ≤ 2 * Real.exp (-(2 * (∑ k, N k : ℕ) ^ 2 * t ^ 2 / ∑ k, N k * (b k - a k) ^ 2)) := by
  have hg := grows_multiples hN hn hrho
  have hFm : ∀ _ : Fin M, Measurable fun x : C × Fin A × ℝ => x.2.2 * (piE x.1 x.2.1 (pos x.1) / average rho piB x.1 x.2.1) :=
    fun _ => (measurable_snd.comp measurable_snd).mul (hs.weightAvg_meas hE)
  have hest : ∀ᵐ ω ∂P, ∀ N' : Fin M → ℕ, 0 < ∑ k, N' k → (MultiEstimator.mk .balancedIpw lam false).estimatePolicyValue
      (pooled s rho piB pos piE q N' ω).margs = .ok (avg (column N' fun k i => (s k).ipwTerm (average rho piB) pos piE i ω)) := by
    filter_upwards [hs.pooled_valid (pos := pos) (q := q) hg.pos hE.dist] with ω hva N' hn
    rw [value_balancedIpw (hva _ hn)]
    congr 2
    funext j
    rw [pooled_clip_avg hl]
    rfl
  have hi0 : ∀ k, Integrable ((s k).ipwTerm (average rho piB) pos piE 0) P := fun k =>
    Integrable.of_mem_Icc _ _ ((hFm k).comp ((hs.logger k).iid.meas 0)).aemeasurable (hb k)
  have hi : ∀ k, Integrable (fun ω => (s k).weight (average rho piB) pos piE ω * (s k).rew 0 ω) P := fun k =>
    (hi0 k).congr (ae_of_all _ fun ω => by simp [LogStream.ipwTerm, LogStream.weight, mul_comm])
  have hm := mean_of_consistent (fun k => (hs.logger k).iid) hg hFm hi0 (hest.mono fun ω hω t => hω _)
    (C162_balanced_ipw (q := q) hs hg hE hi hl)
  simp only [hrho] at hm
  exact misses_pooled (fun k => (hs.logger k).iid) hind hFm hb hn hm ht (hest.mono fun ω hω => hω N hn)

/-- **C189.** Balanced doubly robust estimates, for every reward model. -/
theorem C189_balanced_dr (hs : MultiStream.LoggedBy s P D piB m) (hind : MultiStream.Independent s P) (hN : ∀ k, 0 < N k)
    (hn : 0 < ∑ k, N k) (hrho : ∀ k, rho k = (N k : ℝ) / (∑ j, N j : ℕ)) (hE : Covers (average rho piB) pos piE)
    (hi : ∀ k, Integrable ((s k).ipwTerm (average rho piB) pos piE 0) P)
    (hq : ∀ a, Measurable fun c => q c a (pos c)) (hqi : ∀ a, Integrable (fun c => piE c a (pos c) * q c a (pos c)) D) {lam : Lam ℝ}
    (hl : NotClipped lam (average rho piB) pos piE) {a b : Fin M → ℝ}
    (hb : ∀ k, ∀ᵐ ω ∂P, (s k).drTerm (average rho piB) pos piE q 0 ω ∈ Set.Icc (a k) (b k)) {t : ℝ} (ht : 0 ≤ t) :
    P.real {ω | Misses ((MultiEstimator.mk .balancedDr lam false).estimatePolicyValue (pooled s rho piB pos piE q N ω).margs)
      (value D pos piE m) t} ≤ 2 * Real.exp (-(2 * (∑ k, N k : ℕ) ^ 2 * t ^ 2 / ∑ k, N k * (b k - a k) ^ 2)) := by
  have hg := grows_multiples hN hn hrho
  have hFm : ∀ _ : Fin M, Measurable fun x : C × Fin A × ℝ => (∑ a, piE x.1 a (pos x.1) * q x.1 a (pos x.1)) +
      piE x.1 x.2.1 (pos x.1) / average rho piB x.1 x.2.1 * (x.2.2 - q x.1 x.2.1 (pos x.1)) :=
    fun _ => (model_meas hE.meas hq).add ((hs.weightAvg_meas hE).mul (residual_meas hq))
  have hest : ∀ᵐ ω ∂P, ∀ N' : Fin M → ℕ, 0 < ∑ k, N' k → (MultiEstimator.mk .balancedDr lam false).estimatePolicyValue
      (pooled s rho piB pos piE q N' ω).margs = .ok (avg (column N' fun k i => (s k).drTerm (average rho piB) pos piE q i ω)) := by
    filter_upwards [hs.pooled_valid (pos := pos) (q := q) hg.pos hE.dist] with ω hva N' hn
    rw [value_balancedDr (hva _ hn)]
    congr 2
    funext j
    rw [pooled_clip_avg hl, pooled_modelValue hE.dist]
    rfl
  have hi' : ∀ k, Integrable (fun ω => (s k).weight (average rho piB) pos piE ω * (s k).rew 0 ω) P := fun k =>
    (hi k).congr (ae_of_all _ fun ω => by simp [LogStream.ipwTerm, LogStream.weight, mul_comm])
  have hd0 : ∀ k, Integrable ((s k).drTerm (average rho piB) pos piE q 0) P := fun k =>
    Integrable.of_mem_Icc _ _ ((hFm k).comp ((hs.logger k).iid.meas 0)).aemeasurable (hb k)
  have hm := mean_of_consistent (fun k => (hs.logger k).iid) hg hFm hd0 (hest.mono fun ω hω t => hω _)
    (C162_balanced_dr hs hg hE hi' hq hqi hl)
  simp only [hrho] at hm
  exact misses_pooled (fun k => (hs.logger k).iid) hind hFm hb hn hm ht (hest.mono fun ω hω => hω N hn)

end multi

/-! ### Two loggers: the first contributes `t` rounds, the second `2 t` -/

section cases
open LogStream MultiStream

/-- The weighted rewards of the first logger are in `[0, 4]`, those of the second in `[0, 8]`. -/
example {t : ℕ} (ht : 0 < t) {x : ℝ} (hx : 0 ≤ x) : exDieMeasure.real {ω | Misses (exEstimates .naiveIpw t ω) (9 / 4) x} ≤
    2 * Real.exp (-(2 * (∑ k : Fin 2, (k + 1 : ℕ) * t : ℕ) ^ 2 * x ^ 2 /
      ∑ k : Fin 2, ((k + 1 : ℕ) * t : ℕ) * ((![4, 8] : Fin 2 → ℝ) k - 0) ^ 2)) := by
  rw [← exHalf_value]
  refine C189_naive_ipw (q := exFar) (exLoggers_logged exDice) (exLoggers_independent exDice) exLoggers_grow.pos exHalf_covers
    (fun k l h => by cases h) (a := fun _ => 0) (fun k => ae_of_all _ fun ω => ?_) (by simp [Fin.sum_univ_two, ht]) hx
  change exIpw (exDiePolicy (exDice k)) k (ω (2 * 0 + k)) ∈ _
  generalize ω (2 * 0 + k) = o
  obtain ⟨c, b, r⟩ := o
  simp only [exIpw, exDice_policy]
  generalize exDice k c b = a
  fin_cases k <;> cases c <;> cases r <;> fin_cases a <;> norm_num [exHalf, exMean]

/-- Weights of the average policy are at most 3/2: weighted rewards are in `[0, 6]`. -/
example {t : ℕ} (ht : 0 < t) {x : ℝ} (hx : 0 ≤ x) : exDieMeasure.real {ω | Misses (exEstimates .balancedIpw t ω) (9 / 4) x} ≤
    2 * Real.exp (-(2 * (∑ k : Fin 2, (k + 1 : ℕ) * t : ℕ) ^ 2 * x ^ 2 /
      ∑ k : Fin 2, ((k + 1 : ℕ) * t : ℕ) * ((6 : ℝ) - 0) ^ 2)) := by
  have ht' : (t : ℝ) ≠ 0 := by exact_mod_cast ht.ne'
  rw [← exHalf_value]
  refine C189_balanced_ipw (q := exFar) (lam := .inf) (exLoggers_logged exDice) (exLoggers_independent exDice)
    (N := fun k : Fin 2 => (k + 1 : ℕ) * t) (fun k => by positivity) (by simp [Fin.sum_univ_two, ht]) (fun k => ?_)
    ⟨fun c l => ⟨fun a => by norm_num [exHalf], by norm_num [exHalf]⟩, fun _ => measurable_of_finite _, fun c a h => ?_⟩
    (fun l h => by cases h) (a := fun _ => 0) (b := fun _ => 6) (fun k => ae_of_all _ fun ω => ?_) hx
  · rw [Fin.sum_univ_two]
    fin_cases k <;> push_cast <;> norm_num <;> field_simp <;> norm_num
  · exfalso
    rw [exAverage] at h
    revert h
    fin_cases a <;> norm_num
  · change exIpw (average ![1 / 3, 2 / 3] fun k => exDiePolicy (exDice k)) k (ω (2 * 0 + k)) ∈ _
    generalize ω (2 * 0 + k) = o
    obtain ⟨c, b, r⟩ := o
    simp only [exIpw, exAverage]
    generalize exDice k c b = a
    cases c <;> cases r <;> fin_cases a <;> norm_num [exHalf, exMean]

/-- Doubly robust estimates with a reward model that is far off: the terms are in `[-30, 30]`. -/
example {t : ℕ} (ht : 0 < t) {x : ℝ} (hx : 0 ≤ x) : exDieMeasure.real {ω | Misses (exEstimates .naiveDr t ω) (9 / 4) x} ≤
      2 * Real.exp (-(2 * (∑ k : Fin 2, (k + 1 : ℕ) * t : ℕ) ^ 2 * x ^ 2 /
        ∑ k : Fin 2, ((k + 1 : ℕ) * t : ℕ) * ((30 : ℝ) - -30) ^ 2)) ∧
    exDieMeasure.real {ω | Misses (exEstimates .balancedDr t ω) (9 / 4) x} ≤
      2 * Real.exp (-(2 * (∑ k : Fin 2, (k + 1 : ℕ) * t : ℕ) ^ 2 * x ^ 2 /
        ∑ k : Fin 2, ((k + 1 : ℕ) * t : ℕ) * ((30 : ℝ) - -30) ^ 2)) := by
  have ht' : (t : ℝ) ≠ 0 := by exact_mod_cast ht.ne'
  have hfin : IsProbabilityMeasure exCtxLaw := by
    unfold exCtxLaw
    exact Measure.isProbabilityMeasure_map (measurable_of_finite _).aemeasurable
  have hi : ∀ (b : Bool → Fin 2 → ℝ) (k : Fin 2), Integrable ((exLogger (exDice k) k).ipwTerm b (fun _ => (0 : Fin 1)) exHalf 0)
      exDieMeasure := fun b k => exDie_integrable (2 * 0 + k) (exIpw b k)
  have hq : ∀ a : Fin 2, Measurable fun c : Bool => exFar c a 0 := fun _ => measurable_of_finite _
  have hqi : ∀ a, Integrable (fun c : Bool => exHalf c a 0 * exFar c a 0) exCtxLaw := fun a => Integrable.of_finite
  rw [← exHalf_value]
  refine ⟨C189_naive_dr (q := exFar) (exLoggers_logged exDice) (exLoggers_independent exDice) exLoggers_grow.pos exHalf_covers (fun k => hi _ k) hq
      hqi (fun k l h => by cases h) (a := fun _ => -30) (b := fun _ => 30) (fun k => ae_of_all _ fun ω => ?_)
      (by simp [Fin.sum_univ_two, ht]) hx,
    C189_balanced_dr (q := exFar) (lam := .inf) (exLoggers_logged exDice) (exLoggers_independent exDice)
    (N := fun k : Fin 2 => (k + 1 : ℕ) * t) (fun k => by positivity) (by simp [Fin.sum_univ_two, ht]) (fun k => ?_)
    ⟨fun c l => ⟨fun a => by norm_num [exHalf], by norm_num [exHalf]⟩, fun _ => measurable_of_finite _, fun c a h => ?_⟩ (hi _) hq hqi
    (fun l h => by cases h) (a := fun _ => -30) (b := fun _ => 30) (fun k => ae_of_all _ fun ω => ?_) hx⟩
  · simp only [LogStream.drTerm, exDice_policy, exLogger]
    generalize ω (2 * 0 + k) = o
    obtain ⟨c, b, r⟩ := o
    generalize exDice k c b = a
    fin_cases k <;> cases c <;> cases r <;> fin_cases a <;> norm_num [exHalf, exMean, exFar]
  · rw [Fin.sum_univ_two]
    fin_cases k <;> push_cast <;> norm_num <;> field_simp <;> norm_num
  · exfalso
    rw [exAverage] at h
    revert h
    fin_cases a <;> norm_num
  · simp only [LogStream.drTerm, exAverage, exLogger]
    generalize ω (2 * 0 + k) = o
    obtain ⟨c, b, r⟩ := o
    generalize exDice k c b = a
    cases c <;> cases r <;> fin_cases a <;> norm_num [exHalf, exMean, exFar]

end cases

end Obp
