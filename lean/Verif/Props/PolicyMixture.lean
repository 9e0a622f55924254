import Verif.Props.EstimatorLaws
import Verif.Spec.PolicyMixture

/-!
# C198: estimates of randomised mixtures of policies

An evaluation policy that first picks one of several candidate policies at random (candidate `k` with probability `c k`) and then
acts like it. The estimators see its `action_dist` only; the theorems compare the estimate of the mixture with those of the
candidates on the same log.
-/

set_option linter.unusedSectionVars false

namespace Obp
open Log
variable {K : Type} [Field K] [LinearOrder K] [IsStrictOrderedRing K] {n A L m : ℕ}
variable {g : Log K n A L} {c : Fin m → K} {pi : Fin m → Fin n → Fin A → Fin L → K}

/-- A mixture of policies is a policy. -/
theorem isPolicyArray_mix (hc : IsDist c) (hpi : ∀ k, IsPolicyArray (pi k)) : IsPolicyArray (mixPolicy c pi) := by
  intro i l
  refine ⟨fun a => Finset.sum_nonneg fun k _ => mul_nonneg (hc.1 k) ((hpi k i l).1 a), ?_⟩
  change ∑ a, ∑ k, c k * pi k i a l = 1
  rw [Finset.sum_comm]
  simp only [← Finset.mul_sum]
  rw [Finset.sum_congr rfl fun k _ => by rw [show ∑ a, pi k i a l = 1 from (hpi k i l).2, mul_one]]
  exact hc.2

theorem valid_withPolicy (h : g.Valid) {p : Fin n → Fin A → Fin L → K} (hp : IsPolicyArray p) : (g.withPolicy p).Valid :=
  ⟨h.1, h.2, h.3, h.4, fun i l => by
    have : ∑ a, p i a l = 1 := (hp i l).2
    change closeToOne (∑ a, p i a l) = true
    rw [this]; exact closeToOne_one⟩

theorem nonneg_withPolicy {p : Fin n → Fin A → Fin L → K} (hp : IsPolicyArray p) : (g.withPolicy p).NonnegPolicy :=
  fun i a l => (hp i l).1 a

theorem weight_mix (est : Bool) (i : Fin n) :
    (g.withPolicy (mixPolicy c pi)).weight est i = ∑ k, c k * (g.withPolicy (pi k)).weight est i := by
  simp only [weight, Log.withPolicy, mixPolicy, Finset.sum_div, mul_div_assoc]

theorem modelValue_mix (hc : IsDist c) (hpi : ∀ k, IsPolicyArray (pi k)) (i : Fin n) :
    (g.withPolicy (mixPolicy c pi)).modelValue i = ∑ k, c k * (g.withPolicy (pi k)).modelValue i := by
  have h1 : ∀ p : Fin n → Fin A → Fin L → K, IsPolicyArray p →
      (g.withPolicy p).modelValue i = ∑ a, g.q i a (g.position i) * p i a (g.position i) := by
    intro p hp
    have : ∑ a, p i a (g.position i) = 1 := (hp i (g.position i)).2
    change (∑ a, g.q i a (g.position i) * p i a (g.position i)) / ∑ a, p i a (g.position i) = _
    rw [this, div_one]
  simp only [h1 _ (isPolicyArray_mix hc hpi), fun k => h1 _ (hpi k), mixPolicy, Finset.mul_sum]
  rw [Finset.sum_comm]
  exact Finset.sum_congr rfl fun k _ => Finset.sum_congr rfl fun a _ => by ring

theorem avg_mix (f : Fin m → Fin n → K) : avg (fun i => ∑ k, c k * f k i) = ∑ k, c k * avg (f k) := by
  simp only [avg, Finset.sum_div, Finset.mul_sum]
  rw [Finset.sum_comm]
  exact Finset.sum_congr rfl fun k _ => Finset.sum_congr rfl fun i _ => by ring

/-- **C198 (IPW).** The unclipped IPW estimate of a mixture is the mixture of the estimates. -/
theorem C198_ipw (h : g.Valid) (hc : IsDist c) (hpi : ∀ k, IsPolicyArray (pi k)) (est : Bool) :
    ∃ v : Fin m → K,
      (∀ k, (Estimator.mk .ipw .inf est).estimatePolicyValue (g.withPolicy (pi k)).args = .ok (v k)) ∧
      (Estimator.mk .ipw .inf est).estimatePolicyValue (g.withPolicy (mixPolicy c pi)).args = .ok (∑ k, c k * v k) := by
  refine ⟨_, fun k => value_ipw (valid_withPolicy h (hpi k)) .inf est, ?_⟩
  rw [value_ipw (valid_withPolicy h (isPolicyArray_mix hc hpi)), ← avg_mix]
  congr 1
  refine avg_congr fun i => ?_
  change g.reward i * (g.withPolicy (mixPolicy c pi)).weight est i
    = ∑ k, c k * (g.reward i * (g.withPolicy (pi k)).weight est i)
  rw [weight_mix, Finset.mul_sum]
  exact Finset.sum_congr rfl fun k _ => by ring

/-- **C198 (DM).** The DM estimate of a mixture is the mixture of the estimates. -/
theorem C198_dm (h : g.Valid) (hc : IsDist c) (hpi : ∀ k, IsPolicyArray (pi k)) (lam : Lam K) (est : Bool) :
    ∃ v : Fin m → K,
      (∀ k, (Estimator.mk .dm lam est).estimatePolicyValue (g.withPolicy (pi k)).args = .ok (v k)) ∧
      (Estimator.mk .dm lam est).estimatePolicyValue (g.withPolicy (mixPolicy c pi)).args = .ok (∑ k, c k * v k) := by
  refine ⟨_, fun k => value_dm (valid_withPolicy h (hpi k)) lam est, ?_⟩
  rw [value_dm (valid_withPolicy h (isPolicyArray_mix hc hpi)), ← avg_mix]
  congr 1
  exact avg_congr fun i => modelValue_mix hc hpi i

/-- **C198 (DR).** With the same reward predictions, the unclipped DR estimate of a mixture is the mixture of the estimates. -/
theorem C198_dr (h : g.Valid) (hc : IsDist c) (hpi : ∀ k, IsPolicyArray (pi k)) (est : Bool) :
    ∃ v : Fin m → K,
      (∀ k, (Estimator.mk .dr .inf est).estimatePolicyValue (g.withPolicy (pi k)).args = .ok (v k)) ∧
      (Estimator.mk .dr .inf est).estimatePolicyValue (g.withPolicy (mixPolicy c pi)).args = .ok (∑ k, c k * v k) := by
  refine ⟨_, fun k => value_dr (valid_withPolicy h (hpi k)) .inf est, ?_⟩
  rw [value_dr (valid_withPolicy h (isPolicyArray_mix hc hpi)), ← avg_mix]
  congr 1
  refine avg_congr fun i => ?_
  change (g.withPolicy (mixPolicy c pi)).modelValue i + (g.withPolicy (mixPolicy c pi)).weight est i * g.residual i
    = ∑ k, c k * ((g.withPolicy (pi k)).modelValue i + (g.withPolicy (pi k)).weight est i * g.residual i)
  rw [weight_mix, modelValue_mix hc hpi, Finset.sum_mul, ← Finset.sum_add_distrib]
  exact Finset.sum_congr rfl fun k _ => by ring

/-- A weighted mean is at most the largest and at least the smallest value. -/
theorem mean_between (hc : IsDist c) (v : Fin m → K) :
    (∃ k, ∑ j, c j * v j ≤ v k) ∧ ∃ k, v k ≤ ∑ j, c j * v j := by
  have hs : ∀ x : K, ∑ j, c j * x = x := fun x => by rw [← Finset.sum_mul, hc.2, one_mul]
  have hne : (Finset.univ : Finset (Fin m)).Nonempty := by
    by_contra h0
    have := hc.2
    rw [Finset.not_nonempty_iff_eq_empty.1 h0] at this
    simp at this
  obtain ⟨k, -, hk⟩ := Finset.exists_max_image Finset.univ v hne
  obtain ⟨k', -, hk'⟩ := Finset.exists_min_image Finset.univ v hne
  refine ⟨⟨k, ?_⟩, k', ?_⟩
  · calc _ ≤ ∑ j, c j * v k := Finset.sum_le_sum fun j _ => mul_le_mul_of_nonneg_left (hk j (Finset.mem_univ j)) (hc.1 j)
      _ = v k := hs _
  · calc v k' = ∑ j, c j * v k' := (hs _).symm
      _ ≤ _ := Finset.sum_le_sum fun j _ => mul_le_mul_of_nonneg_left (hk' j (Finset.mem_univ j)) (hc.1 j)

/-- **C198.** Randomising among candidates never pays according to unclipped IPW, DM or DR: the estimate of the mixture is at most
the largest and at least the smallest of the candidates' estimates. -/
theorem C198_no_gain (h : g.Valid) (hc : IsDist c) (hpi : ∀ k, IsPolicyArray (pi k)) (est : Bool) (kind : Kind)
    (hkind : kind = .ipw ∨ kind = .dm ∨ kind = .dr) :
    ∃ (v : Fin m → K) (x : K),
      (∀ k, (Estimator.mk kind .inf est).estimatePolicyValue (g.withPolicy (pi k)).args = .ok (v k)) ∧
      (Estimator.mk kind .inf est).estimatePolicyValue (g.withPolicy (mixPolicy c pi)).args = .ok x ∧
      (∃ k, x ≤ v k) ∧ ∃ k, v k ≤ x := by
  rcases hkind with rfl | rfl | rfl
  · obtain ⟨v, h1, h2⟩ := C198_ipw h hc hpi est
    exact ⟨v, _, h1, h2, mean_between hc v⟩
  · obtain ⟨v, h1, h2⟩ := C198_dm h hc hpi .inf est
    exact ⟨v, _, h1, h2, mean_between hc v⟩
  · obtain ⟨v, h1, h2⟩ := C198_dr h hc hpi est
    exact ⟨v, _, h1, h2, mean_between hc v⟩

/-- **C198 (clipped IPW).** With non-negative rewards and any clipping threshold the estimate of a mixture is at least the mixture of
the estimates. -/
theorem C198_ipw_clipped (h : g.Valid) (hc : IsDist c) (hpi : ∀ k, IsPolicyArray (pi k)) (hr : ∀ i, 0 ≤ g.reward i)
    (lam : Lam K) (est : Bool) :
    ∃ (v : Fin m → K) (x : K),
      (∀ k, (Estimator.mk .ipw lam est).estimatePolicyValue (g.withPolicy (pi k)).args = .ok (v k)) ∧
      (Estimator.mk .ipw lam est).estimatePolicyValue (g.withPolicy (mixPolicy c pi)).args = .ok x ∧
      ∑ k, c k * v k ≤ x := by
  refine ⟨_, _, fun k => value_ipw (valid_withPolicy h (hpi k)) lam est,
    value_ipw (valid_withPolicy h (isPolicyArray_mix hc hpi)) lam est, ?_⟩
  rw [← avg_mix]
  refine avg_mono fun i => ?_
  change ∑ k, c k * (g.reward i * lam.clip ((g.withPolicy (pi k)).weight est i))
    ≤ g.reward i * lam.clip ((g.withPolicy (mixPolicy c pi)).weight est i)
  rw [weight_mix, Finset.sum_congr rfl fun k _ => mul_left_comm (c k) (g.reward i) _, ← Finset.mul_sum]
  refine mul_le_mul_of_nonneg_left ?_ (hr i)
  cases lam with
  | inf => exact le_rfl
  | fin l =>
    refine le_min (Finset.sum_le_sum fun k _ => mul_le_mul_of_nonneg_left (min_le_left _ _) (hc.1 k)) ?_
    calc _ ≤ ∑ k, c k * l := Finset.sum_le_sum fun k _ => mul_le_mul_of_nonneg_left (min_le_right _ _) (hc.1 k)
      _ = l := by rw [← Finset.sum_mul, hc.2, one_mul]

/-- **C198 (SNIPW).** The SNIPW estimate of a mixture is a weighted mean of the candidates' estimates — with weights proportional to
`c k` times the candidate's mean importance weight — and hence between the smallest and the largest of them. -/
theorem C198_snipw (h : g.Valid) (hc : IsDist c) (hpi : ∀ k, IsPolicyArray (pi k)) (lam : Lam K) (est : Bool)
    (hw : ∀ k, avg ((g.withPolicy (pi k)).weight est) ≠ 0) :
    ∃ v th : Fin m → K,
      (∀ k, (Estimator.mk .snipw lam est).estimatePolicyValue (g.withPolicy (pi k)).args = .ok (v k)) ∧
      IsDist th ∧
      (∀ k, th k = c k * avg ((g.withPolicy (pi k)).weight est) / ∑ j, c j * avg ((g.withPolicy (pi j)).weight est)) ∧
      (Estimator.mk .snipw lam est).estimatePolicyValue (g.withPolicy (mixPolicy c pi)).args = .ok (∑ k, th k * v k) ∧
      (∃ k, ∑ j, th j * v j ≤ v k) ∧ ∃ k, v k ≤ ∑ j, th j * v j := by
  set W : Fin m → K := fun k => avg ((g.withPolicy (pi k)).weight est) with hW
  have hWp : ∀ k, 0 < W k := fun k => lt_of_le_of_ne
    (avg_nonneg fun i => weight_nonneg (valid_withPolicy h (hpi k)) (nonneg_withPolicy (hpi k)) est i) (hw k).symm
  have hmix : avg ((g.withPolicy (mixPolicy c pi)).weight est) = ∑ k, c k * W k := by
    rw [hW, ← avg_mix]; exact avg_congr fun i => weight_mix est i
  have hpos : 0 < ∑ k, c k * W k := by
    obtain ⟨k, hk⟩ : ∃ k, 0 < c k := by
      by_contra h0
      push Not at h0
      have h1 : ∑ k, c k ≤ 0 := Finset.sum_nonpos fun k _ => h0 k
      rw [hc.2] at h1
      exact absurd h1 (not_le.2 one_pos)
    exact Finset.sum_pos' (fun j _ => mul_nonneg (hc.1 j) (hWp j).le) ⟨k, Finset.mem_univ k, mul_pos hk (hWp k)⟩
  have hth : IsDist fun k => c k * W k / ∑ j, c j * W j :=
    ⟨fun k => div_nonneg (mul_nonneg (hc.1 k) (hWp k).le) hpos.le, by rw [← Finset.sum_div, div_self hpos.ne']⟩
  refine ⟨_, fun k => c k * W k / ∑ j, c j * W j, fun k => value_snipw (valid_withPolicy h (hpi k)) lam est (hw k), hth,
    fun k => rfl, ?_, mean_between hth _⟩
  rw [value_snipw (valid_withPolicy h (isPolicyArray_mix hc hpi)) lam est (by rw [hmix]; exact hpos.ne')]
  congr 1
  rw [hmix, avg_div]
  have h1 : avg (fun i => (g.withPolicy (mixPolicy c pi)).reward i * (g.withPolicy (mixPolicy c pi)).weight est i)
      = ∑ k, c k * avg fun i => g.reward i * (g.withPolicy (pi k)).weight est i := by
    rw [← avg_mix]
    refine avg_congr fun i => ?_
    change g.reward i * _ = _
    rw [weight_mix, Finset.mul_sum]
    exact Finset.sum_congr rfl fun k _ => by ring
  rw [h1, Finset.sum_div]
  refine Finset.sum_congr rfl fun k _ => ?_
  rw [avg_div]
  change _ = c k * W k / _ * ((avg fun i => g.reward i * (g.withPolicy (pi k)).weight est i) / W k)
  have := (hWp k).ne'
  field_simp

/-- **C198 (RM).** A mixture that gives positive probability to every candidate matches a round exactly when all candidates do. -/
theorem C198_rm_matched (hc : IsDist c) (hpos : ∀ k, 0 < c k) (hpi : ∀ k, IsPolicyArray (pi k)) (i : Fin n) :
    (g.withPolicy (mixPolicy c pi)).matched i ↔ ∀ k, (g.withPolicy (pi k)).matched i := by
  have hle : ∀ k, pi k i (g.action i) (g.position i) ≤ 1 := fun k => by
    rw [← (hpi k i (g.position i)).2]
    exact Finset.single_le_sum (f := fun a => pi k i a (g.position i)) (fun a _ => (hpi k i (g.position i)).1 a) (Finset.mem_univ _)
  change ∑ k, c k * pi k i (g.action i) (g.position i) = 1 ↔ ∀ k, pi k i (g.action i) (g.position i) = 1
  constructor
  · intro h0 k
    by_contra hk
    have hlt : pi k i (g.action i) (g.position i) < 1 := lt_of_le_of_ne (hle k) hk
    have : ∑ k, c k * pi k i (g.action i) (g.position i) < ∑ k, c k := by
      refine Finset.sum_lt_sum (fun j _ => mul_le_of_le_one_right (hc.1 j) (hle j)) ⟨k, Finset.mem_univ k, ?_⟩
      exact mul_lt_of_lt_one_right (hpos k) hlt
    rw [h0, hc.2] at this
    exact lt_irrefl _ this
  · intro h0
    simp only [h0, mul_one]
    exact hc.2

/-- **C198 (RM).** Two candidates that never agree with the log in the same round: the RM estimate of their mixture is 0 whatever the
rewards. -/
theorem C198_rm_zero (h : g.Valid) (hc : IsDist c) (hpos : ∀ k, 0 < c k) (hpi : ∀ k, IsPolicyArray (pi k)) (lam : Lam K) (est : Bool)
    (hd : ∀ i, ∃ k, ¬ (g.withPolicy (pi k)).matched i) :
    (Estimator.mk .rm lam est).estimatePolicyValue (g.withPolicy (mixPolicy c pi)).args = .ok 0 := by
  refine value_rm_nomatch (valid_withPolicy h (isPolicyArray_mix hc hpi)) lam est ?_
  rintro ⟨i, hi⟩
  obtain ⟨k, hk⟩ := hd i
  exact hk ((C198_rm_matched hc hpos hpi i).1 hi k)

/-- two rounds with rewards 1 and 3, each action logged with probability 1/2 -/
def exMix : Log ℚ 2 2 1 where
  action := ![0, 1]
  reward := ![1, 3]
  pscore := ![1 / 2, 1 / 2]
  estPscore := ![1 / 2, 1 / 4]
  position := ![0, 0]
  piE := fun _ _ _ => 1 / 2
  q := fun _ a _ => (![1, 2] : Fin 2 → ℚ) a
  estIw := ![1, 1]

theorem exMix_valid : exMix.Valid where
  nonempty := by decide
  pscore_pos := by decide +kernel
  estPscore_pos := by decide +kernel
  estIw_nonneg := by decide +kernel
  sum_one := by decide +kernel

/-- candidate 0 always takes action 0, candidate 1 always action 1 -/
def exMixPi : Fin 2 → Fin 2 → Fin 2 → Fin 1 → ℚ := fun k _ a _ => if k = a then 1 else 0

theorem exMixPi_policy (k : Fin 2) : IsPolicyArray (exMixPi k) := by
  intro i l
  exact ⟨by revert k i l; decide +kernel, by revert k i l; decide +kernel⟩

theorem exMix_half : IsDist (fun _ : Fin 2 => (1 / 2 : ℚ)) := ⟨by decide +kernel, by decide +kernel⟩

/-- **C198 (clipped IPW).** Clipping rewards randomisation: with weights clipped at 1 the candidates are estimated at 1/2 and 3/2, and
the mixture that picks either with probability 1/2 at 2, more than both. -/
theorem C198_clipped_gain :
    (Estimator.mk .ipw (.fin 1) false).estimatePolicyValue (exMix.withPolicy (exMixPi 0)).args = .ok (1 / 2) ∧
      (Estimator.mk .ipw (.fin 1) false).estimatePolicyValue (exMix.withPolicy (exMixPi 1)).args = .ok (3 / 2) ∧
      (Estimator.mk .ipw (.fin 1) false).estimatePolicyValue
        (exMix.withPolicy (mixPolicy (fun _ => 1 / 2) exMixPi)).args = .ok 2 := by
  rw [value_ipw (valid_withPolicy exMix_valid (exMixPi_policy 0)), value_ipw (valid_withPolicy exMix_valid (exMixPi_policy 1)),
    value_ipw (valid_withPolicy exMix_valid (isPolicyArray_mix exMix_half exMixPi_policy))]
  decide +kernel

/-- the hypotheses of the theorems are met, with different estimates for the two candidates -/
example : exMix.Valid ∧ IsDist (fun _ : Fin 2 => (1 / 2 : ℚ)) ∧ (∀ k, IsPolicyArray (exMixPi k)) ∧
    (∀ i, 0 ≤ exMix.reward i) ∧ (∀ k, avg ((exMix.withPolicy (exMixPi k)).weight true) ≠ 0) ∧
    (∀ i, ∃ k, ¬ (exMix.withPolicy (exMixPi k)).matched i) ∧
    avg ((exMix.withPolicy (exMixPi 0)).weight true) ≠ avg ((exMix.withPolicy (exMixPi 1)).weight true) ∧
    (Estimator.mk .ipw .inf false).estimatePolicyValue (exMix.withPolicy (exMixPi 0)).args = .ok 1 ∧
    (Estimator.mk .ipw .inf false).estimatePolicyValue (exMix.withPolicy (exMixPi 1)).args = .ok 3 := by
  refine ⟨exMix_valid, exMix_half, exMixPi_policy, by decide +kernel, by decide +kernel, by decide +kernel, by decide +kernel, ?_, ?_⟩
  · rw [value_ipw (valid_withPolicy exMix_valid (exMixPi_policy 0))]; decide +kernel
  · rw [value_ipw (valid_withPolicy exMix_valid (exMixPi_policy 1))]; decide +kernel

end Obp
