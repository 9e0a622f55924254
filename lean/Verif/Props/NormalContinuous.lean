import Verif.Lemmas.IidClt
import Verif.Props.ConsistencyContinuous

set_option linter.unusedSectionVars false

/-!
# Errors and intervals of the kernelised estimators

C183: the errors of the kernelised estimates are asymptotically normal, and how often the intervals contain the smoothed value.
-/

namespace Obp
open MeasureTheory ProbabilityTheory Filter Topology Log ContStream

variable {Ω C : Type} [MeasurableSpace Ω] [MeasurableSpace C] {P : Measure Ω} [IsProbabilityMeasure P]
variable {s : ContStream Ω C} {p m : C → ℝ → ℝ} {k : Kernel} {h : ℝ} {e q : C → ℝ}

namespace ContStream

theorem LoggedBy.iid (hs : s.LoggedBy P p m) : Iid P fun i ω => (s.ctx i ω, s.act i ω, s.rew i ω) :=
  ⟨fun i => (hs.ctx_meas i).prodMk ((hs.act_meas i).prodMk (hs.rew_meas i)), hs.indep, hs.ident⟩

/-- The weight of a round. -/
noncomputable def weightFn (k : Kernel) (h : ℝ) (p : C → ℝ → ℝ) (e : C → ℝ) (x : C × ℝ × ℝ) : ℝ :=
  k.fn ((e x.1 - x.2.1) / h) / (h * p x.1 x.2.1)

theorem weightFn_eq (x : C × ℝ × ℝ) : weightFn k h p e x = kernelWeight k h p e x.1 x.2.1 / h := by
  unfold weightFn kernelWeight
  rw [div_div, mul_comm]

theorem weightFn_meas (hs : s.LoggedBy P p m) (he : Measurable e) : Measurable (weightFn k h p e) := by
  rw [funext (weightFn_eq (k := k) (h := h) (p := p) (e := e))]
  exact ((hs.kernelWeight_meas he).comp (measurable_fst.prodMk (measurable_fst.comp measurable_snd))).div_const h

noncomputable def ipwFn (k : Kernel) (h : ℝ) (p : C → ℝ → ℝ) (e : C → ℝ) (x : C × ℝ × ℝ) : ℝ := weightFn k h p e x * x.2.2

noncomputable def drFn (k : Kernel) (h : ℝ) (p : C → ℝ → ℝ) (e q : C → ℝ) (x : C × ℝ × ℝ) : ℝ :=
  q x.1 + weightFn k h p e x * (x.2.2 - q x.1)

theorem ipwFn_meas (hs : s.LoggedBy P p m) (he : Measurable e) : Measurable (ipwFn k h p e) :=
  (weightFn_meas hs he).mul (measurable_snd.comp measurable_snd)

theorem drFn_meas (hs : s.LoggedBy P p m) (he : Measurable e) (hq : Measurable q) : Measurable (drFn k h p e q) :=
  (hq.comp measurable_fst).add ((weightFn_meas hs he).mul ((measurable_snd.comp measurable_snd).sub (hq.comp measurable_fst)))

/-- Weighted rewards without the bandwidth in the denominator. -/
theorem unscaled (hh : 0 < h) (hi : Integrable (s.ipwTerm k h p e 0) P) :
    Integrable (fun ω => k.fn ((e (s.ctx 0 ω) - s.act 0 ω) / h) / p (s.ctx 0 ω) (s.act 0 ω) * s.rew 0 ω) P := by
  refine (hi.const_mul h).congr (ae_of_all _ fun ω => ?_)
  have := hh.ne'
  simp only [ipwTerm]
  rw [mul_comm h (p _ _), ← div_div]
  field_simp

theorem round_ipw (i : ℕ) (ω : Ω) {n : ℕ} (hi : i < n) :
    (s.log p e q n ω).roundReward .ipw k h ⟨i, hi⟩ = s.ipwTerm k h p e i ω := by
  simp only [ContLog.roundReward, ContLog.weight, log, ipwTerm]
  rw [mul_comm h (p _ _), ← div_div]
  ring

theorem round_dr (i : ℕ) (ω : Ω) {n : ℕ} (hi : i < n) :
    (s.log p e q n ω).roundReward .dr k h ⟨i, hi⟩ = s.drTerm k h p e q i ω := by
  simp only [ContLog.roundReward, ContLog.weight, log, drTerm]
  rw [mul_comm h (p _ _), ← div_div]
  ring

theorem LoggedBy.ipw_mean (hs : s.LoggedBy P p m) (hh : 0 < h) : ∀ᵐ ω ∂P, ∀ n, 0 < n →
    ContKind.ipw.estimatePolicyValue k (.fin h) (s.log p e q n ω).args = .ok (meanTo (fun i => s.ipwTerm k h p e i ω) n) := by
  filter_upwards [hs.log_valid e q] with ω hv n hn
  rw [contValue_eq (hv n hn) .ipw k hh.ne' (fun h => by cases h), meanTo_avg]
  exact congrArg Except.ok (congrArg avg (funext fun i => round_ipw i ω i.2))

theorem LoggedBy.dr_mean (hs : s.LoggedBy P p m) (hh : 0 < h) : ∀ᵐ ω ∂P, ∀ n, 0 < n →
    ContKind.dr.estimatePolicyValue k (.fin h) (s.log p e q n ω).args = .ok (meanTo (fun i => s.drTerm k h p e q i ω) n) := by
  filter_upwards [hs.log_valid e q] with ω hv n hn
  rw [contValue_eq (hv n hn) .dr k hh.ne' (fun h => by cases h), meanTo_avg]
  exact congrArg Except.ok (congrArg avg (funext fun i => round_dr i ω i.2))

theorem LoggedBy.ipw_interval (hs : s.LoggedBy P p m) (hh : 0 < h) : ∀ᵐ ω ∂P, ∀ n, 0 < n → ∀ c draws,
    ContKind.ipw.estimateInterval k (.fin h) (s.log p e q n ω).args c draws =
      bootstrapCI (List.ofFn fun i : Fin n => s.ipwTerm k h p e i ω) c draws := by
  filter_upwards [hs.log_valid e q] with ω hv n hn c draws
  unfold ContKind.estimateInterval
  rw [contLog_accepted (hv n hn), py_bind_ok, contRound_eq (hv n hn) .ipw k hh.ne' (fun h => by cases h), py_bind_ok]
  exact congrArg (fun xs => bootstrapCI (List.ofFn xs) c draws) (funext fun i => round_ipw i ω i.2)

theorem LoggedBy.dr_interval (hs : s.LoggedBy P p m) (hh : 0 < h) : ∀ᵐ ω ∂P, ∀ n, 0 < n → ∀ c draws,
    ContKind.dr.estimateInterval k (.fin h) (s.log p e q n ω).args c draws =
      bootstrapCI (List.ofFn fun i : Fin n => s.drTerm k h p e q i ω) c draws := by
  filter_upwards [hs.log_valid e q] with ω hv n hn c draws
  unfold ContKind.estimateInterval
  rw [contLog_accepted (hv n hn), py_bind_ok, contRound_eq (hv n hn) .dr k hh.ne' (fun h => by cases h), py_bind_ok]
  exact congrArg (fun xs => bootstrapCI (List.ofFn xs) c draws) (funext fun i => round_dr i ω i.2)

end ContStream

/-- **C183.** `KernelizedInverseProbabilityWeighting`: the errors as estimates of the smoothed value are normal with the variance
of the kernel-weighted reward of a round. -/
theorem C183_kernel_ipw (hs : s.LoggedBy P p m) (hh : 0 < h) (he : Measurable e) (h2 : MemLp (s.ipwTerm k h p e 0) 2 P)
    (hv : Var[s.ipwTerm k h p e 0; P] ≠ 0) :
    NormalErrors P (fun n ω => ContKind.ipw.estimatePolicyValue k (.fin h) (s.log p e q n ω).args) (s.smoothedValue P k h p e m)
      (Var[s.ipwTerm k h p e 0; P]) := by
  have hest := hs.ipw_mean (k := k) (e := e) (q := q) hh
  have hm := hs.iid.mean_of_results (F := ipwFn k h p e) (ipwFn_meas hs he) (h2.integrable one_le_two) hest
    (C161_ipw hs hh he (unscaled hh (h2.integrable one_le_two)))
  exact normalErrors_mean (F := ipwFn k h p e) hs.iid (ipwFn_meas hs he) h2 hm hv hest

/-- **C183.** `KernelizedDoublyRobust`, whatever the reward model predicts. -/
theorem C183_kernel_dr (hs : s.LoggedBy P p m) (hh : 0 < h) (hE : Covers k h p e) (hi : Integrable (s.ipwTerm k h p e 0) P)
    (hq : Measurable q) (hqi : Integrable (fun ω => q (s.ctx 0 ω)) P) (h2 : MemLp (s.drTerm k h p e q 0) 2 P)
    (hv : Var[s.drTerm k h p e q 0; P] ≠ 0) :
    NormalErrors P (fun n ω => ContKind.dr.estimatePolicyValue k (.fin h) (s.log p e q n ω).args) (s.smoothedValue P k h p e m)
      (Var[s.drTerm k h p e q 0; P]) := by
  have hest := hs.dr_mean (k := k) (e := e) (q := q) hh
  have hm := hs.iid.mean_of_results (F := drFn k h p e q) (drFn_meas hs hE.meas hq) (h2.integrable one_le_two) hest
    (C161_dr hs hh hE (unscaled hh hi) hq hqi)
  exact normalErrors_mean (F := drFn k h p e q) hs.iid (drFn_meas hs hE.meas hq) h2 hm hv hest

/-- **C183.** `KernelizedSelfNormalizedInverseProbabilityWeighting`: the variance is that of the weighted distance of the reward
from the smoothed value. -/
theorem C183_kernel_snipw (hs : s.LoggedBy P p m) (hh : 0 < h) (hE : Covers k h p e) (h2 : MemLp (s.ipwTerm k h p e 0) 2 P)
    (hw2 : MemLp (fun ω => k.fn ((e (s.ctx 0 ω) - s.act 0 ω) / h) / (h * p (s.ctx 0 ω) (s.act 0 ω))) 2 P)
    (hv : Var[s.snipwTerm k h p e (s.smoothedValue P k h p e m) 0; P] ≠ 0) :
    NormalErrors P (fun n ω => ContKind.snipw.estimatePolicyValue k (.fin h) (s.log p e q n ω).args) (s.smoothedValue P k h p e m)
      (Var[s.snipwTerm k h p e (s.smoothedValue P k h p e m) 0; P]) := by
  have hwm := weightFn_meas (k := k) (h := h) hs hE.meas
  have hi := h2.integrable one_le_two
  have hm := hs.iid.mean_of_results (F := ipwFn k h p e) (ipwFn_meas hs hE.meas) hi (hs.ipw_mean (k := k) (e := e) (q := q) hh)
    (C161_ipw hs hh hE.meas (unscaled hh hi))
  have hw : ∀ᵐ ω ∂P, Tendsto (fun n => meanTo (fun i => weightFn k h p e (s.ctx i ω, s.act i ω, s.rew i ω)) n) atTop (𝓝 1) := by
    filter_upwards [hs.lln_weight (q := q) hh hE] with ω hω
    have := hω.div_const h
    rw [div_self hh.ne'] at this
    refine this.congr fun n => ?_
    simp only [meanTo_avg, weightFn_eq, avg, ← Finset.sum_div]
    exact div_right_comm _ _ _
  have hw1 := hs.iid.mean_eq hwm (hw2.integrable one_le_two) hw
  refine normalErrors_ratios hs.iid (J := Unit) (FA := fun _ => 0)
    (FU := fun _ x => ipwFn k h p e x - s.smoothedValue P k h p e m * weightFn k h p e x) (FW := fun _ => weightFn k h p e) measurable_const
    (fun _ => (ipwFn_meas hs hE.meas).sub (hwm.const_mul _)) (fun _ => hwm) (memLp_const 0) (fun _ => h2.sub (hw2.const_mul _))
    (by simp) (fun _ => ?_) (hw.mono fun ω hω _ => hω) ?_ (lt_of_le_of_ne (variance_nonneg _ _) hv.symm) ?_
  · have e1 : Integrable (fun ω => ipwFn k h p e (s.ctx 0 ω, s.act 0 ω, s.rew 0 ω)) P := hi
    have e2 : Integrable (fun ω => weightFn k h p e (s.ctx 0 ω, s.act 0 ω, s.rew 0 ω)) P := hw2.integrable one_le_two
    rw [integral_sub e1 (e2.const_mul _), integral_const_mul, hm, hw1]
    ring
  · congr 1
    funext ω
    simp only [Finset.univ_unique, Finset.sum_const, Finset.card_singleton, one_smul, zero_add, snipwTerm, ipwFn, weightFn]
    ring
  · filter_upwards [hs.log_valid e q] with ω hval n hn hne
    have hne := hne ()
    have ew : avg ((s.log p e q n ω).weight k.fn h) = h * meanTo (fun i => weightFn k h p e (s.ctx i ω, s.act i ω, s.rew i ω)) n := by
      simp only [meanTo_avg, weightFn_eq, avg, ← Finset.sum_div]
      have := hh.ne'
      field_simp
      rfl
    have er : avg (fun i => (s.log p e q n ω).reward i * (s.log p e q n ω).weight k.fn h i) =
        h * meanTo (fun i => ipwFn k h p e (s.ctx i ω, s.act i ω, s.rew i ω)) n := by
      simp only [meanTo_avg, ipwFn, weightFn_eq, avg]
      rw [← mul_div_assoc, Finset.mul_sum]
      refine congrArg (· / _) (Finset.sum_congr rfl fun i _ => ?_)
      have := hh.ne'
      field_simp
      simp only [log, ContLog.weight, kernelWeight]
      ring
    rw [contValue_eq (hval n hn) .snipw k hh.ne' fun _ => by rw [ew]; exact mul_ne_zero hh.ne' hne]
    refine congrArg Except.ok ?_
    have h0 : meanTo (fun _ => (0 : ℝ)) n = 0 := by simp [meanTo]
    have hx : avg ((s.log p e q n ω).roundReward .snipw k h) =
        avg (fun i => (s.log p e q n ω).reward i * (s.log p e q n ω).weight k.fn h i) / avg ((s.log p e q n ω).weight k.fn h) := by
      simp only [ContLog.roundReward, avg, ← Finset.sum_div]
      rw [div_right_comm]
    rw [hx, er, ew, h0, zero_add]
    simp only [Finset.univ_unique, Finset.sum_const, Finset.card_singleton, one_smul]
    rw [meanTo_sub_mul]
    have := hh.ne'
    field_simp
    ring

section coverage
variable {Ω' : Type} [MeasurableSpace Ω'] {P' : Measure Ω'} [IsProbabilityMeasure P'] {f : Ω' → Ω}

/-- **C183.** The intervals of `KernelizedInverseProbabilityWeighting`. -/
theorem C183_kernel_ipw_coverage (hs : s.LoggedBy P p m) (hh : 0 < h) (he : Measurable e) (h2 : MemLp (s.ipwTerm k h p e 0) 2 P)
    (hv : Var[s.ipwTerm k h p e 0; P] ≠ 0) (hf : MeasurePreserving f P' P) {B : ℕ} (hB : 1 ≤ B)
    (R : Resampling P' (fun i ω => s.ipwTerm k h p e i (f ω)) B) {alpha : ℝ} (h0 : 0 ≤ alpha) (h1 : alpha ≤ 1) :
    NearlyCovers (fun n => P'.real {ω | ReturnsAround (ContKind.ipw.estimateInterval k (.fin h) (s.log p e q n (f ω)).args
      (ciCall alpha B) (R.draws n ω)) (s.smoothedValue P k h p e m)}) alpha B := by
  have hm := hs.iid.mean_of_results (F := ipwFn k h p e) (ipwFn_meas hs he) (h2.integrable one_le_two)
    (hs.ipw_mean (k := k) (e := e) (q := q) hh) (C161_ipw hs hh he (unscaled hh (h2.integrable one_le_two)))
  exact nearlyCovers_rounds (F := ipwFn k h p e) hs.iid (ipwFn_meas hs he) h2 hm hv hf hB R h0 h1 (hs.ipw_interval hh)

/-- **C183.** The intervals of `KernelizedDoublyRobust`. -/
theorem C183_kernel_dr_coverage (hs : s.LoggedBy P p m) (hh : 0 < h) (hE : Covers k h p e) (hi : Integrable (s.ipwTerm k h p e 0) P)
    (hq : Measurable q) (hqi : Integrable (fun ω => q (s.ctx 0 ω)) P) (h2 : MemLp (s.drTerm k h p e q 0) 2 P)
    (hv : Var[s.drTerm k h p e q 0; P] ≠ 0) (hf : MeasurePreserving f P' P) {B : ℕ} (hB : 1 ≤ B)
    (R : Resampling P' (fun i ω => s.drTerm k h p e q i (f ω)) B) {alpha : ℝ} (h0 : 0 ≤ alpha) (h1 : alpha ≤ 1) :
    NearlyCovers (fun n => P'.real {ω | ReturnsAround (ContKind.dr.estimateInterval k (.fin h) (s.log p e q n (f ω)).args
      (ciCall alpha B) (R.draws n ω)) (s.smoothedValue P k h p e m)}) alpha B := by
  have hm := hs.iid.mean_of_results (F := drFn k h p e q) (drFn_meas hs hE.meas hq) (h2.integrable one_le_two)
    (hs.dr_mean (k := k) (e := e) (q := q) hh) (C161_dr hs hh hE (unscaled hh hi) hq hqi)
  exact nearlyCovers_rounds (F := drFn k h p e q) hs.iid (drFn_meas hs hE.meas hq) h2 hm hv hf hB R h0 h1 (hs.dr_interval hh)

end coverage

/-! ### A case: uniform contexts and actions, rewards `c + a`, Epanechnikov kernel with bandwidth 1/4 -/

noncomputable def exContE (c : ℝ) : ℝ := 1 / 4 + max 0 (min c 1) / 2

/-- What equals `x` on a rectangle and differs from `x` on another one varies. -/
theorem exCont_variance {f : ℝ × ℝ → ℝ} (hf : Measurable f) {B : ℝ}
    (hB : ∀ x ∈ Set.Icc (0 : ℝ) 1 ×ˢ Set.Icc (0 : ℝ) 1, |f x| ≤ B) {x c1 c2 a1 a2 d1 d2 b1 b2 : ℝ}
    (h1 : 0 ≤ c1 ∧ c1 < c2 ∧ c2 ≤ 1) (h2 : 0 ≤ a1 ∧ a1 < a2 ∧ a2 ≤ 1) (h3 : 0 ≤ d1 ∧ d1 < d2 ∧ d2 ≤ 1) (h4 : 0 ≤ b1 ∧ b1 < b2 ∧ b2 ≤ 1)
    (e1 : ∀ c ∈ Set.Icc c1 c2, ∀ a ∈ Set.Icc a1 a2, f (c, a) = x) (e2 : ∀ c ∈ Set.Icc d1 d2, ∀ a ∈ Set.Icc b1 b2, f (c, a) ≠ x) :
    Var[fun ω : ℕ → ℝ × ℝ => f (ω 0); exContMeasure] ≠ 0 := by
  intro h0
  have hm : Measurable fun ω : ℕ → ℝ × ℝ => f (ω 0) := hf.comp (measurable_pi_apply 0)
  have hsq := exUnit_integrable (f := fun y => (f y - ∫ ω, f (ω 0) ∂exContMeasure) ^ 2) ((hf.sub_const _).pow_const 2)
    (B := (B + |∫ ω, f (ω 0) ∂exContMeasure|) ^ 2) fun y hy => by
      rw [abs_pow]
      exact pow_le_pow_left₀ (abs_nonneg _) ((abs_sub _ _).trans (by linarith [hB y hy])) 2
  rw [variance_eq_integral hm.aemeasurable, integral_eq_zero_iff_of_nonneg (fun _ => sq_nonneg _) hsq] at h0
  have hae : ∀ᵐ y ∂(exUnit.prod exUnit), f y = ∫ ω, f (ω 0) ∂exContMeasure := by
    rw [← exContStream_round]
    refine (ae_map_iff (measurable_pi_apply 0).aemeasurable (measurableSet_eq_fun hf measurable_const)).2 ?_
    filter_upwards [h0] with ω hω
    exact sub_eq_zero.1 (pow_eq_zero_iff two_ne_zero |>.1 hω)
  have hpos : ∀ {u v w z : ℝ}, 0 ≤ u ∧ u < v ∧ v ≤ 1 → 0 ≤ w ∧ w < z ∧ z ≤ 1 →
      ∃ c ∈ Set.Icc u v, ∃ a ∈ Set.Icc w z, f (c, a) = ∫ ω, f (ω 0) ∂exContMeasure := by
    intro u v w z hu hw
    by_contra hno
    push Not at hno
    have hz : (exUnit.prod exUnit) (Set.Icc u v ×ˢ Set.Icc w z) = 0 := by
      refine measure_mono_null ?_ (ae_iff.1 hae)
      rintro ⟨c, a⟩ ⟨hc, ha⟩
      exact hno c hc a ha
    have hone : ∀ {u v : ℝ}, 0 ≤ u ∧ u < v ∧ v ≤ 1 → exUnit (Set.Icc u v) = ENNReal.ofReal (v - u) := by
      intro u v h
      rw [exUnit, Measure.restrict_apply measurableSet_Icc, Set.inter_eq_left.2 (Set.Icc_subset_Icc h.1 h.2.2), Real.volume_Icc]
    rw [Measure.prod_prod, hone hu, hone hw, mul_eq_zero, ENNReal.ofReal_eq_zero, ENNReal.ofReal_eq_zero] at hz
    rcases hz with hz | hz
    · linarith [hu.2.1]
    · linarith [hw.2.1]
  obtain ⟨c, hc, a, ha, h⟩ := hpos h1 h2
  obtain ⟨d, hd, b, hb, h'⟩ := hpos h3 h4
  exact e2 d hd b hb (h'.trans (h.symm.trans (e1 c hc a ha)))

theorem exCont_weight_zero {c a : ℝ} (hc : c ∈ Set.Icc (0 : ℝ) (1 / 4)) (ha : a ∈ Set.Icc (3 / 4 : ℝ) 1) :
    weightFn .epanechnikov (1 / 4) exDensity exContE (c, a, c + a) = 0 := by
  obtain ⟨c1, c2⟩ := hc
  obtain ⟨a1, a2⟩ := ha
  unfold weightFn
  rw [C38_support (by decide), zero_div]
  have h1 : max 0 (min c 1) = c := by rw [min_eq_left (by linarith), max_eq_right c1]
  rw [le_abs]
  right
  simp only [exContE, h1]
  linarith

theorem exCont_weight_pos {c a : ℝ} (hc : c ∈ Set.Icc (0 : ℝ) 1) (ha : a ∈ Set.Icc (0 : ℝ) 1) (h : |1 / 4 + c / 2 - a| ≤ 3 / 16) :
    0 < weightFn .epanechnikov (1 / 4) exDensity exContE (c, a, c + a) := by
  have h1 : max 0 (min c 1) = c := by rw [min_eq_left hc.2, max_eq_right hc.1]
  unfold weightFn
  simp only [exContE, h1, exDensity, Set.indicator_of_mem ha, Pi.one_apply, mul_one]
  refine div_pos ?_ (by norm_num)
  show 0 < epanechnikovKernel _
  rw [abs_le] at h
  have h2 : -(3 / 4) ≤ (1 / 4 + c / 2 - a) / (1 / 4) := by linarith [h.1]
  have h3 : (1 / 4 + c / 2 - a) / (1 / 4) ≤ 3 / 4 := by linarith [h.2]
  unfold epanechnikovKernel clip1
  rw [max_eq_left (by linarith), min_eq_left (by linarith)]
  nlinarith

theorem exCont_weight_le {c a : ℝ} (ha : a ∈ Set.Icc (0 : ℝ) 1) (r : ℝ) :
    |weightFn .epanechnikov (1 / 4) exDensity exContE (c, a, r)| ≤ 3 := by
  unfold weightFn
  simp only [exDensity, Set.indicator_of_mem ha, Pi.one_apply, mul_one]
  rw [abs_div, abs_of_pos (by norm_num : (0 : ℝ) < 1 / 4), div_le_iff₀ (by norm_num)]
  exact (epanechnikov_le _).trans (by norm_num)

theorem exCont_memLp {f : ℝ × ℝ → ℝ} (hf : Measurable f) {B : ℝ} (hB : ∀ x ∈ Set.Icc (0 : ℝ) 1 ×ˢ Set.Icc (0 : ℝ) 1, |f x| ≤ B) :
    MemLp (fun ω : ℕ → ℝ × ℝ => f (ω 0)) 2 exContMeasure :=
  (memLp_two_iff_integrable_sq (hf.comp (measurable_pi_apply 0)).aestronglyMeasurable).2
    (exUnit_integrable (hf.pow_const 2) (B := B ^ 2) fun y hy => by
      rw [abs_pow]
      exact pow_le_pow_left₀ (abs_nonneg _) (hB y hy) 2)

theorem exCont_weight_meas : Measurable fun x : ℝ × ℝ => weightFn .epanechnikov (1 / 4) exDensity exContE (x.1, x.2, x.1 + x.2) :=
  (weightFn_meas exContStream_logged exContStream_covers.meas).comp (by fun_prop)

/-- The weighted distance of the reward from `v`. -/
noncomputable def exContDiff (v : ℝ) (x : ℝ × ℝ) : ℝ :=
  weightFn .epanechnikov (1 / 4) exDensity exContE (x.1, x.2, x.1 + x.2) * (x.1 + x.2 - v)

theorem exContDiff_meas (v : ℝ) : Measurable (exContDiff v) :=
  exCont_weight_meas.mul ((measurable_fst.add measurable_snd).sub_const v)

theorem exCont_bound (v : ℝ) : ∀ x ∈ Set.Icc (0 : ℝ) 1 ×ˢ Set.Icc (0 : ℝ) 1, |exContDiff v x| ≤ 3 * (2 + |v|) := by
  rintro ⟨c, a⟩ ⟨⟨h1, h2⟩, h3, h4⟩
  rw [exContDiff, abs_mul]
  refine mul_le_mul (exCont_weight_le ⟨h3, h4⟩ _) ((abs_sub _ _).trans ?_) (abs_nonneg _) (by norm_num)
  have : |c + a| ≤ 2 := abs_le.2 ⟨by linarith, by linarith⟩
  linarith

theorem exCont_sn_variance (v : ℝ) : Var[fun ω : ℕ → ℝ × ℝ => exContDiff v (ω 0); exContMeasure] ≠ 0 := by
  have hz : ∀ c ∈ Set.Icc (0 : ℝ) (1 / 4), ∀ a ∈ Set.Icc (3 / 4 : ℝ) 1, exContDiff v (c, a) = 0 := fun c hc a ha => by
    rw [exContDiff, exCont_weight_zero hc ha, zero_mul]
  rcases le_total v 1 with hv | hv
  · refine exCont_variance (f := exContDiff v) (exContDiff_meas v) (exCont_bound v) (x := 0) (c1 := 0) (c2 := 1 / 4) (a1 := 3 / 4) (a2 := 1) (d1 := 7 / 8) (d2 := 1)
      (b1 := 5 / 8) (b2 := 3 / 4) (by norm_num) (by norm_num) (by norm_num) (by norm_num) hz fun c hc a ha => ?_
    obtain ⟨c1, c2⟩ := hc
    obtain ⟨a1, a2⟩ := ha
    refine mul_ne_zero (exCont_weight_pos ⟨by linarith, c2⟩ ⟨by linarith, by linarith⟩ ?_).ne' (by linarith : 0 < c + a - v).ne'
    rw [abs_le]
    constructor <;> linarith
  · refine exCont_variance (f := exContDiff v) (exContDiff_meas v) (exCont_bound v) (x := 0) (c1 := 0) (c2 := 1 / 4) (a1 := 3 / 4) (a2 := 1) (d1 := 0) (d2 := 1 / 8)
      (b1 := 1 / 4) (b2 := 7 / 16) (by norm_num) (by norm_num) (by norm_num) (by norm_num) hz fun c hc a ha => ?_
    obtain ⟨c1, c2⟩ := hc
    obtain ⟨a1, a2⟩ := ha
    refine mul_ne_zero (exCont_weight_pos ⟨c1, by linarith⟩ ⟨by linarith, by linarith⟩ ?_).ne' (by linarith : c + a - v < 0).ne
    rw [abs_le]
    constructor <;> linarith

theorem exCont_ipw_memLp : MemLp (exContStream.ipwTerm .epanechnikov (1 / 4) exDensity exContE 0) 2 exContMeasure := by
  have h := exCont_memLp (exContDiff_meas 0) (exCont_bound 0)
  simp only [exContDiff, sub_zero] at h
  exact h

theorem exCont_ipw_variance : Var[exContStream.ipwTerm .epanechnikov (1 / 4) exDensity exContE 0; exContMeasure] ≠ 0 := by
  have h := exCont_sn_variance 0
  simp only [exContDiff, sub_zero] at h
  exact h

/-- Estimates and intervals by kernel-weighting. -/
example : NormalErrors exContMeasure (fun n ω => ContKind.ipw.estimatePolicyValue .epanechnikov (.fin (1 / 4))
      (exContStream.log exDensity exContE (fun _ => 7) n ω).args)
      (exContStream.smoothedValue exContMeasure .epanechnikov (1 / 4) exDensity exContE fun c a => c + a)
      (Var[exContStream.ipwTerm .epanechnikov (1 / 4) exDensity exContE 0; exContMeasure]) ∧
    NearlyCovers (fun n => (exContMeasure.prod (tablesLaw 100)).real {ω | ReturnsAround (ContKind.ipw.estimateInterval .epanechnikov (.fin (1 / 4))
      (exContStream.log exDensity exContE (fun _ => 7) n ω.1).args (ciCall (1 / 20) 100)
      ((Resampling.beside (P := exContMeasure) (exContStream.ipwTerm .epanechnikov (1 / 4) exDensity exContE) 100).draws n ω))
      (exContStream.smoothedValue exContMeasure .epanechnikov (1 / 4) exDensity exContE fun c a => c + a)}) (1 / 20) 100 :=
  ⟨C183_kernel_ipw exContStream_logged (by norm_num) exContStream_covers.meas exCont_ipw_memLp exCont_ipw_variance,
    C183_kernel_ipw_coverage exContStream_logged (by norm_num) exContStream_covers.meas exCont_ipw_memLp exCont_ipw_variance
      measurePreserving_fst (by norm_num)
      (Resampling.beside (P := exContMeasure) (exContStream.ipwTerm .epanechnikov (1 / 4) exDensity exContE) 100) (by norm_num) (by norm_num)⟩

/-- The self-normalised estimates. -/
example : NormalErrors exContMeasure (fun n ω => ContKind.snipw.estimatePolicyValue .epanechnikov (.fin (1 / 4))
      (exContStream.log exDensity exContE (fun _ => 7) n ω).args)
      (exContStream.smoothedValue exContMeasure .epanechnikov (1 / 4) exDensity exContE fun c a => c + a)
      (Var[exContStream.snipwTerm .epanechnikov (1 / 4) exDensity exContE
        (exContStream.smoothedValue exContMeasure .epanechnikov (1 / 4) exDensity exContE fun c a => c + a) 0; exContMeasure]) :=
  C183_kernel_snipw exContStream_logged (by norm_num) exContStream_covers exCont_ipw_memLp
    (exCont_memLp exCont_weight_meas (B := 3) fun x hx => exCont_weight_le hx.2 _) (exCont_sn_variance _)

/-- The doubly robust estimates with a wrong reward model. -/
example : NormalErrors exContMeasure (fun n ω => ContKind.dr.estimatePolicyValue .epanechnikov (.fin (1 / 4))
      (exContStream.log exDensity exContE (fun _ => 7) n ω).args)
      (exContStream.smoothedValue exContMeasure .epanechnikov (1 / 4) exDensity exContE fun c a => c + a)
      (Var[exContStream.drTerm .epanechnikov (1 / 4) exDensity exContE (fun _ => 7) 0; exContMeasure]) := by
  have h2 := exCont_memLp (exContDiff_meas 7) (exCont_bound 7)
  have e : exContStream.drTerm .epanechnikov (1 / 4) exDensity exContE (fun _ => 7) 0 = fun ω => 7 + exContDiff 7 (ω 0) := rfl
  have hd : MemLp (exContStream.drTerm .epanechnikov (1 / 4) exDensity exContE (fun _ => 7) 0) 2 exContMeasure := by
    rw [e]
    exact MemLp.add (f := fun _ : ℕ → ℝ × ℝ => (7 : ℝ)) (g := fun ω => exContDiff 7 (ω 0)) (memLp_const (7 : ℝ)) h2
  have hv : Var[exContStream.drTerm .epanechnikov (1 / 4) exDensity exContE (fun _ => 7) 0; exContMeasure] ≠ 0 := by
    rw [e, variance_const_add h2.aestronglyMeasurable 7]
    exact exCont_sn_variance 7
  exact C183_kernel_dr (q := fun _ => 7) exContStream_logged (by norm_num) exContStream_covers (exCont_ipw_memLp.integrable one_le_two)
    measurable_const (integrable_const 7) hd hv

end Obp
