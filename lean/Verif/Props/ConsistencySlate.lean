import Verif.Lemmas.SlateStream
import Mathlib.Probability.Distributions.Uniform
import Mathlib.Probability.Independence.InfinitePi
import Mathlib.Probability.ProbabilityMassFunction.Integrals

set_option linter.unusedSectionVars false

/-!
# Consistency of the slate estimators

C160: with more and more logged slates, the slate estimates tend to the value of the evaluation policy.
-/

namespace Obp
open MeasureTheory ProbabilityTheory Filter Topology Log

namespace SlateStream
variable {Ω C : Type} [MeasurableSpace Ω] [MeasurableSpace C] {L A : ℕ} {P : Measure Ω} [IsProbabilityMeasure P]
variable {s : SlateStream Ω C L A} {piB piE : C → (Fin L → Fin A) → ℝ} {m : C → (Fin L → Fin A) → Fin L → ℝ}

/-- What the evaluation policy must satisfy for an estimator of kind `k`: it is a policy, the rewards of a slot depend only on
the part of the slate that the estimator looks at, and the logging policy can show whatever of it the evaluation policy
shows. -/
structure Covers (k : SlateKind) (piB piE : C → (Fin L → Fin A) → ℝ) (m : C → (Fin L → Fin A) → Fin L → ℝ) : Prop where
  dist : ∀ c, IsDist (piE c)
  meas : ∀ a, Measurable fun c => piE c a
  local_reward : ∀ c l a b, k.Agree l a b → m c a l = m c b l
  support : ∀ c a l, piE c a ≠ 0 → k.propensity (piB c) a l ≠ 0

/-- The importance weight of slot `l` of the slate `a`. -/
noncomputable def slotWeight (k : SlateKind) (piB piE : C → (Fin L → Fin A) → ℝ) (l : Fin L) (c : C) (a : Fin L → Fin A) : ℝ :=
  k.propensity (piE c) a l / k.propensity (piB c) a l

theorem slotWeight_meas (hs : s.LoggedBy P piB m) {k : SlateKind} (hE : ∀ a, Measurable fun c => piE c a) (l : Fin L)
    (a : Fin L → Fin A) : Measurable fun c => slotWeight k piB piE l c a :=
  (propensity_meas hE k a l).div (propensity_meas hs.piB_meas k a l)

end SlateStream

open SlateStream
variable {Ω C : Type} [MeasurableSpace Ω] [MeasurableSpace C] {L A : ℕ} {P : Measure Ω} [IsProbabilityMeasure P]
variable {s : SlateStream Ω C L A} {piB piE : C → (Fin L → Fin A) → ℝ} {m : C → (Fin L → Fin A) → Fin L → ℝ}

namespace SlateStream

/-- Integrability of a sum over slates from that of the terms weighted by the logging policy. -/
theorem integrable_sum_piE {k : SlateKind} (hE : Covers k piB piE m) (l : Fin L)
    (hi : ∀ a, Integrable (fun ω => piB (s.ctx 0 ω) a * (slotWeight k piB piE l (s.ctx 0 ω) a * m (s.ctx 0 ω) a l)) P) :
    Integrable (fun ω => ∑ a, piE (s.ctx 0 ω) a * m (s.ctx 0 ω) a l) P := by
  refine (integrable_finsetSum Finset.univ fun a _ => hi a).congr (ae_of_all _ fun ω => ?_)
  exact propensity_reweight k l (fun a => m (s.ctx 0 ω) a l) (hE.local_reward _ l) fun a ha => hE.support _ a l ha

theorem value_eq (hi : ∀ l, Integrable (fun ω => ∑ a, piE (s.ctx 0 ω) a * m (s.ctx 0 ω) a l) P) :
    s.value P piE m = ∑ l, ∫ ω, ∑ a, piE (s.ctx 0 ω) a * m (s.ctx 0 ω) a l ∂P := by
  rw [← integral_finsetSum _ fun l _ => hi l]
  unfold value
  congr 1
  funext ω
  simp only [Finset.mul_sum]
  exact Finset.sum_comm

/-- Weighted rewards of every slot tend to the part of the value earned there, and these parts add up to the value. -/
theorem slots_tendsto (hs : s.LoggedBy P piB m) {k : SlateKind} (hE : Covers k piB piE m)
    (hi : ∀ l, Integrable (fun ω => slotWeight k piB piE l (s.ctx 0 ω) (s.slate 0 ω) * s.rew 0 ω l) P) :
    ∃ v : Fin L → ℝ, (∀ᵐ ω ∂P, ∀ l, Tendsto (fun n : ℕ => avg fun i : Fin n =>
      slotWeight k piB piE l (s.ctx i ω) (s.slate i ω) * s.rew i ω l) atTop (𝓝 (v l))) ∧ ∑ l, v l = s.value P piE m := by
  have hw := fun l => hs.lln_reward l (slotWeight_meas (k := k) hs hE.meas l) (hi l)
  have e : ∀ l ω, ∑ a, piB (s.ctx 0 ω) a * (slotWeight k piB piE l (s.ctx 0 ω) a * m (s.ctx 0 ω) a l) =
      ∑ a, piE (s.ctx 0 ω) a * m (s.ctx 0 ω) a l := fun l ω =>
    propensity_reweight k l (fun a => m (s.ctx 0 ω) a l) (hE.local_reward _ l) fun a ha => hE.support _ a l ha
  refine ⟨fun l => ∫ ω, ∑ a, piE (s.ctx 0 ω) a * m (s.ctx 0 ω) a l ∂P, ae_all_iff.2 fun l => ?_,
    (value_eq fun l => integrable_sum_piE hE l (hw l).1).symm⟩
  have := (hw l).2
  simpa only [e] using this

/-- The weights of every slot are one on average. -/
theorem weights_tendsto (hs : s.LoggedBy P piB m) {k : SlateKind} (hE : Covers k piB piE m) :
    ∀ᵐ ω ∂P, ∀ l : Fin L, Tendsto (fun n : ℕ => avg fun i : Fin n => slotWeight k piB piE l (s.ctx i ω) (s.slate i ω)) atTop
      (𝓝 1) := by
  refine ae_all_iff.2 fun l => ?_
  have hi : ∀ a, Integrable (fun ω => piB (s.ctx 0 ω) a * slotWeight k piB piE l (s.ctx 0 ω) a) P := by
    intro a
    refine Integrable.of_bound (((hs.piB_meas a).mul (slotWeight_meas hs hE.meas l a)).comp (hs.ctx_meas 0)).aestronglyMeasurable 1
      (ae_of_all _ fun ω => ?_)
    have h1 := (hs.piB_dist (s.ctx 0 ω)).nonneg a
    have h2 := propensity_nonneg (hE.dist (s.ctx 0 ω)) k a l
    have h3 := propensity_nonneg (hs.piB_dist (s.ctx 0 ω)) k a l
    have h4 := le_propensity (hs.piB_dist (s.ctx 0 ω)) k a l
    have h5 := propensity_le_one (hE.dist (s.ctx 0 ω)) k a l
    unfold slotWeight
    rw [Real.norm_of_nonneg (mul_nonneg h1 (div_nonneg h2 h3)), mul_div_left_comm]
    exact mul_le_one₀ h5 (div_nonneg h1 h3) (div_le_one_of_le₀ h4 h3)
  have := hs.lln_fn l (slotWeight_meas (k := k) hs hE.meas l) hi
  have e : ∀ ω, ∑ a, piB (s.ctx 0 ω) a * slotWeight k piB piE l (s.ctx 0 ω) a = 1 := fun ω => by
    have := propensity_reweight k l (piB := piB (s.ctx 0 ω)) (piE := piE (s.ctx 0 ω)) (fun _ => 1) (fun _ _ _ => rfl)
      fun a ha => hE.support _ a l ha
    simp only [mul_one, (hE.dist _).sum_one] at this
    exact this
  simpa only [e, integral_const, probReal_univ, one_smul] using this

end SlateStream

/-- **C160.** The slate estimators SIPS, IIPS and RIPS: with probability one, the estimates on growing logs tend to the value of
the evaluation policy. -/
theorem C160_ips (hs : s.LoggedBy P piB m) (hL : 0 < L) {k : SlateKind} (hk : k = .sips ∨ k = .iips ∨ k = .rips)
    (hE : Covers k piB piE m)
    (hi : ∀ l, Integrable (fun ω => slotWeight k piB piE l (s.ctx 0 ω) (s.slate 0 ω) * s.rew 0 ω l) P) :
    ∀ᵐ ω ∂P, ResultsTendTo (fun n => k.estimatePolicyValue L
      (s.log (fun c => k.propensity (piB c)) (fun c => k.propensity (piE c)) n ω).args) (s.value P piE m) := by
  obtain ⟨v, hv, hsum⟩ := slots_tendsto hs hE hi
  filter_upwards [hs.piB_ne hL, hv] with ω hω ht
  refine ⟨fun n => ∑ l, avg fun i : Fin n => slotWeight k piB piE l (s.ctx i ω) (s.slate i ω) * s.rew i ω l, ?_, ?_⟩
  · filter_upwards [eventually_gt_atTop 0] with n hn
    have hacc := log_accepts (piB := piB) hs.piB_dist hE.dist hL hn hω k
    rw [log_eq (piB := piB)] at hacc ⊢
    rw [SlateProcess.value_of_log hk hL hacc]
    simp only [avg, ← Finset.sum_div]
    rw [Finset.sum_comm]
    refine congrArg Except.ok (congrArg (· / _) (Finset.sum_congr rfl fun l _ => Finset.sum_congr rfl fun i _ => ?_))
    exact mul_comm _ _
  · rw [← hsum]
    exact tendsto_finsetSum _ fun l _ => ht l

theorem SlateStream.log_slot_sum (s : SlateStream Ω C L A) (pb pe : C → (Fin L → Fin A) → Fin L → ℝ) (n : ℕ) (ω : Ω) (f : Fin n → Fin L → ℝ)
    (l : Fin L) : (∑ j : Fin (n * L), if (s.log pb pe n ω).pos j = l then f j.divNat j.modNat else 0) = ∑ i, f i l := by
  have := sum_grid (n := n) (L := L) fun i l' => if (l' : ℕ) = l then f i l' else 0
  refine (Eq.trans ?_ this).trans ?_
  · rfl
  · refine Finset.sum_congr rfl fun i _ => ?_
    rw [Finset.sum_eq_single l]
    · simp
    · intro b _ hb
      exact if_neg fun h => hb (Fin.ext h)
    · simp

/-- **C160.** The self-normalised slate estimators SNIIPS and SNRIPS. -/
theorem C160_sn (hs : s.LoggedBy P piB m) (hL : 0 < L) {k : SlateKind} (hk : k = .snIips ∨ k = .snRips)
    (hE : Covers k piB piE m)
    (hi : ∀ l, Integrable (fun ω => slotWeight k piB piE l (s.ctx 0 ω) (s.slate 0 ω) * s.rew 0 ω l) P) :
    ∀ᵐ ω ∂P, ResultsTendTo (fun n => k.estimatePolicyValue L
      (s.log (fun c => k.propensity (piB c)) (fun c => k.propensity (piE c)) n ω).args) (s.value P piE m) := by
  obtain ⟨v, hv, hsum⟩ := slots_tendsto hs hE hi
  filter_upwards [hs.piB_ne hL, hv, weights_tendsto hs hE] with ω hω ht hw
  refine ⟨fun n => ∑ l, (avg fun i : Fin n => slotWeight k piB piE l (s.ctx i ω) (s.slate i ω) * s.rew i ω l) /
    avg fun i : Fin n => slotWeight k piB piE l (s.ctx i ω) (s.slate i ω), ?_, ?_⟩
  · have hne : ∀ᶠ n in atTop, ∀ l : Fin L, (avg fun i : Fin n => slotWeight k piB piE l (s.ctx i ω) (s.slate i ω)) ≠ 0 :=
      eventually_all.2 fun l => (hw l).eventually_ne one_ne_zero
    filter_upwards [eventually_gt_atTop 0, hne] with n hn hne
    have hacc := log_accepts (piB := piB) hs.piB_dist hE.dist hL hn hω k
    have h1 := fun l : Fin L => s.log_slot_sum (fun c => k.propensity (piB c)) (fun c => k.propensity (piE c)) n ω
      (fun i l => slotWeight k piB piE l (s.ctx i ω) (s.slate i ω)) l
    have h2 := fun l : Fin L => s.log_slot_sum (fun c => k.propensity (piB c)) (fun c => k.propensity (piE c)) n ω
      (fun i l => s.rew i ω l * slotWeight k piB piE l (s.ctx i ω) (s.slate i ω)) l
    have hn0 : (n : ℝ) ≠ 0 := by exact_mod_cast hn.ne'
    rw [C45_sn_value hk hacc log_complete, ← Fin.sum_univ_eq_sum_range (fun p => SlateLog.positionValue _ p)]
    · refine congrArg Except.ok (Finset.sum_congr rfl fun l _ => ?_)
      have e : (s.log (fun c => k.propensity (piB c)) (fun c => k.propensity (piE c)) n ω).positionValue l =
          (∑ i : Fin n, s.rew i ω l * slotWeight k piB piE l (s.ctx i ω) (s.slate i ω)) /
            ∑ i : Fin n, slotWeight k piB piE l (s.ctx i ω) (s.slate i ω) := by
        rw [← h1 l, ← h2 l]
        rfl
      rw [e]
      simp only [avg, mul_comm (s.rew _ _ _)]
      field_simp
    · intro p hp h0
      have := h1 ⟨p, hp⟩
      apply hne ⟨p, hp⟩
      unfold avg
      rw [← this, div_eq_zero_iff]
      exact .inl h0
  · rw [← hsum]
    refine tendsto_finsetSum _ fun l _ => ?_
    have := (ht l).div (hw l) one_ne_zero
    rwa [div_one] at this

/-- **C160.** The self-normalised standard estimator SNSIPS. -/
theorem C160_snsips (hs : s.LoggedBy P piB m) (hL : 0 < L) (hE : Covers .snSips piB piE m)
    (hi : ∀ l, Integrable (fun ω => slotWeight .snSips piB piE l (s.ctx 0 ω) (s.slate 0 ω) * s.rew 0 ω l) P) :
    ∀ᵐ ω ∂P, ResultsTendTo (fun n => SlateKind.snSips.estimatePolicyValue L
      (s.log (fun c => SlateKind.snSips.propensity (piB c)) (fun c => SlateKind.snSips.propensity (piE c)) n ω).args)
      (s.value P piE m) := by
  obtain ⟨v, hv, hsum⟩ := slots_tendsto hs hE hi
  filter_upwards [hs.piB_ne hL, hv, weights_tendsto hs hE] with ω hω ht hw
  have hL0 : (L : ℝ) ≠ 0 := by exact_mod_cast hL.ne'
  have hw' : Tendsto (fun n => (∑ l, avg fun i : Fin n => slotWeight .snSips piB piE l (s.ctx i ω) (s.slate i ω)) / (L : ℝ)) atTop
      (𝓝 1) := by
    have := (tendsto_finsetSum Finset.univ fun l _ => hw l).div_const (L : ℝ)
    simpa [hL0] using this
  refine ⟨fun n => (∑ l, avg fun i : Fin n => slotWeight .snSips piB piE l (s.ctx i ω) (s.slate i ω) * s.rew i ω l) /
    ((∑ l, avg fun i : Fin n => slotWeight .snSips piB piE l (s.ctx i ω) (s.slate i ω)) / L), ?_, ?_⟩
  · filter_upwards [eventually_gt_atTop 0, hw'.eventually_ne one_ne_zero] with n hn hne
    have hacc := log_accepts (piB := piB) hs.piB_dist hE.dist hL hn hω .snSips
    have hn0 : (n : ℝ) ≠ 0 := by exact_mod_cast hn.ne'
    have h1 : ∑ j, (s.log (fun c => SlateKind.snSips.propensity (piB c)) (fun c => SlateKind.snSips.propensity (piE c)) n ω).weight j =
        ∑ i : Fin n, ∑ l, slotWeight .snSips piB piE l (s.ctx i ω) (s.slate i ω) :=
      sum_grid fun (i : Fin n) l => slotWeight .snSips piB piE l (s.ctx i ω) (s.slate i ω)
    have h2 : ∑ j, (s.log (fun c => SlateKind.snSips.propensity (piB c)) (fun c => SlateKind.snSips.propensity (piE c)) n ω).reward j *
        (s.log (fun c => SlateKind.snSips.propensity (piB c)) (fun c => SlateKind.snSips.propensity (piE c)) n ω).weight j =
        ∑ i : Fin n, ∑ l, s.rew i ω l * slotWeight .snSips piB piE l (s.ctx i ω) (s.slate i ω) :=
      sum_grid fun (i : Fin n) l => s.rew i ω l * slotWeight .snSips piB piE l (s.ctx i ω) (s.slate i ω)
    have h3 : (s.log (fun c => SlateKind.snSips.propensity (piB c)) (fun c => SlateKind.snSips.propensity (piE c)) n ω).numSlates = n := by
      rw [log_eq (piB := piB)]
      exact SlateProcess.log_numSlates hL _ _ _
    have hne' : ∑ i : Fin n, ∑ l, slotWeight .snSips piB piE l (s.ctx i ω) (s.slate i ω) ≠ 0 := by
      intro h0
      apply hne
      simp only [avg, ← Finset.sum_div]
      rw [Finset.sum_comm, h0]
      simp
    rw [C45_snsips_value L hacc (by rw [h1]; exact hne'), h1, h2, h3]
    refine congrArg Except.ok ?_
    simp only [avg, ← Finset.sum_div]
    rw [Finset.sum_comm (s := (Finset.univ : Finset (Fin L))) (f := fun l i => _ * _),
      Finset.sum_comm (s := (Finset.univ : Finset (Fin L)))]
    simp only [mul_comm (s.rew _ _ _)]
    push_cast
    field_simp
  · rw [← hsum]
    have := (tendsto_finsetSum Finset.univ fun l _ => ht l).div hw' one_ne_zero
    rwa [div_one] at this

/-! ### The cascade doubly robust estimator -/

namespace SlateStream

theorem cascadePscore_eq {n : ℕ} (pi : Fin n → (Fin L → Fin A) → ℝ) (i : Fin n) (a : Fin L → Fin A) (l : Fin L) :
    cascadePscore pi i a l = SlateKind.rips.propensity (pi i) a l := by
  classical
  unfold cascadePscore SlateKind.propensity
  refine Finset.sum_congr rfl fun b _ => ?_
  by_cases h : ∀ m ≤ l, b m = a m
  · rw [if_pos h, if_pos (show SlateKind.rips.Agree l b a from h)]
  · rw [if_neg h, if_neg (show ¬ SlateKind.rips.Agree l b a from h)]

/-- The ratio of the probabilities of the actions above slot `l`. -/
noncomputable def prefixWeight (piB piE : C → (Fin L → Fin A) → ℝ) (l : Fin L) (c : C) (a : Fin L → Fin A) : ℝ :=
  prefixPscore (fun _ : Fin 1 => piE c) 0 a l / prefixPscore (fun _ : Fin 1 => piB c) 0 a l

theorem prefix_meas {pi : C → (Fin L → Fin A) → ℝ} (h : ∀ a, Measurable fun c => pi c a) (a : Fin L → Fin A) (l : Fin L) :
    Measurable fun c => prefixPscore (fun _ : Fin 1 => pi c) 0 a l := by
  unfold prefixPscore
  refine Finset.measurable_sum _ fun b _ => ?_
  split
  · exact h b
  · exact measurable_const

/-- Probability weighted by a ratio of class probabilities is at most one. -/
theorem ratio_bound {p e x : ℝ} (hp : 0 ≤ p) (hx : p ≤ x) (he : 0 ≤ e) (he' : e ≤ 1) : |p * (e / x)| ≤ 1 := by
  have h0 := hp.trans hx
  rw [abs_of_nonneg (mul_nonneg hp (div_nonneg he h0)), mul_div_left_comm]
  exact mul_le_one₀ he' (div_nonneg hp h0) (div_le_one_of_le₀ hx h0)

end SlateStream

/-- **C160.** The cascade doubly robust estimator, for every bounded reward model: if the rewards of a slot depend only on the
actions down to it and the reward model looks only at the slot and the actions above it, the estimates tend to the value of the
evaluation policy with probability one. `dist` is the conditional distribution of the evaluation policy given the actions
above the slot. -/
theorem C160_cascade_dr (hs : s.LoggedBy P piB m) (hL : 0 < L) (hE : Covers .rips piB piE m)
    (hi : ∀ l, Integrable (fun ω => slotWeight .rips piB piE l (s.ctx 0 ω) (s.slate 0 ω) * s.rew 0 ω l) P)
    {q dist : C → (Fin L → Fin A) → Fin L → Fin A → ℝ}
    (hq : ∀ c l a b, (∀ m < l, a m = b m) → q c a l = q c b l) (hqm : ∀ a l b, Measurable fun c => q c a l b)
    {Q : ℝ} (hQ : ∀ c a l b, |q c a l b| ≤ Q)
    (hd : ∀ c a l, IsDist (dist c a l)) (hdp : ∀ c l a b, (∀ m < l, a m = b m) → dist c a l = dist c b l)
    (hdm : ∀ a l b, Measurable fun c => dist c a l b)
    (hcond : ∀ c a l b, prefixPscore (fun _ : Fin 1 => piE c) 0 a l * dist c a l b =
      cascadePscore (fun _ : Fin 1 => piE c) 0 (Function.update a l b) l) :
    ∀ᵐ ω ∂P, ResultsTendTo (fun n => cascadeDrValue L A
      (s.cascadeLog (fun c => SlateKind.rips.propensity (piB c)) (fun c => SlateKind.rips.propensity (piE c)) q dist n ω).args)
      (s.value P piE m) := by
  obtain ⟨v, hv, hsum⟩ := slots_tendsto hs hE hi
  -- the correction of slot `l`
  let cor : Fin L → C → (Fin L → Fin A) → ℝ := fun l c a =>
    prefixWeight piB piE l c a * ∑ b, dist c a l b * q c a l b - slotWeight .rips piB piE l c a * q c a l (a l)
  have hcm : ∀ l a, Measurable fun c => cor l c a := fun l a =>
    (((prefix_meas hE.meas a l).div (prefix_meas hs.piB_meas a l)).mul
      (Finset.measurable_sum _ fun b _ => (hdm a l b).mul (hqm a l b))).sub ((slotWeight_meas hs hE.meas l a).mul (hqm a l (a l)))
  have hQ0 : ∀ (c : C) (a : Fin L → Fin A) (l : Fin L), |∑ b, dist c a l b * q c a l b| ≤ Q := fun c a l => by
    calc |∑ b, dist c a l b * q c a l b| ≤ ∑ b, |dist c a l b * q c a l b| := Finset.abs_sum_le_sum_abs _ _
      _ ≤ ∑ b, dist c a l b * Q := Finset.sum_le_sum fun b _ => by
          rw [abs_mul, abs_of_nonneg ((hd c a l).nonneg b)]
          exact mul_le_mul_of_nonneg_left (hQ c a l b) ((hd c a l).nonneg b)
      _ = Q := by rw [← Finset.sum_mul, (hd c a l).sum_one, one_mul]
  have hpre : ∀ (pi : (Fin L → Fin A) → ℝ), IsDist pi → ∀ (a : Fin L → Fin A) (l : Fin L),
      pi a ≤ prefixPscore (fun _ : Fin 1 => pi) 0 a l ∧ 0 ≤ prefixPscore (fun _ : Fin 1 => pi) 0 a l ∧
        prefixPscore (fun _ : Fin 1 => pi) 0 a l ≤ 1 := fun pi h a l => by
    refine ⟨?_, class_nonneg (n := 1) (pi := fun _ => pi) (fun _ => h) 0 _, class_le_one (n := 1) (pi := fun _ => pi) (fun _ => h) 0 _⟩
    have := Finset.single_le_sum (f := fun b => if ∀ m < l, b m = a m then pi b else 0) (s := Finset.univ)
      (fun b _ => by
        split
        · exact h.nonneg b
        · exact le_refl _) (Finset.mem_univ a)
    simp only [implies_true, if_true] at this
    exact this
  have hci : ∀ l a, Integrable (fun ω => piB (s.ctx 0 ω) a * cor l (s.ctx 0 ω) a) P := by
    intro l a
    refine Integrable.of_bound (((hs.piB_meas a).mul (hcm l a)).comp (hs.ctx_meas 0)).aestronglyMeasurable (Q + Q)
      (ae_of_all _ fun ω => ?_)
    obtain ⟨p1, p2, p3⟩ := hpre _ (hs.piB_dist (s.ctx 0 ω)) a l
    obtain ⟨e1, e2, e3⟩ := hpre _ (hE.dist (s.ctx 0 ω)) a l
    have h1 := ratio_bound ((hs.piB_dist (s.ctx 0 ω)).nonneg a) p1 e2 e3
    have h2 := ratio_bound ((hs.piB_dist (s.ctx 0 ω)).nonneg a) (le_propensity (hs.piB_dist (s.ctx 0 ω)) .rips a l)
      (propensity_nonneg (hE.dist (s.ctx 0 ω)) .rips a l) (propensity_le_one (hE.dist (s.ctx 0 ω)) .rips a l)
    have e : piB (s.ctx 0 ω) a * cor l (s.ctx 0 ω) a =
        piB (s.ctx 0 ω) a * prefixWeight piB piE l (s.ctx 0 ω) a * (∑ b, dist (s.ctx 0 ω) a l b * q (s.ctx 0 ω) a l b) -
        piB (s.ctx 0 ω) a * slotWeight .rips piB piE l (s.ctx 0 ω) a * q (s.ctx 0 ω) a l (a l) := by
      simp only [cor]; ring
    rw [e, Real.norm_eq_abs]
    refine (abs_sub _ _).trans (add_le_add ?_ ?_)
    · rw [abs_mul]
      calc _ ≤ 1 * Q := mul_le_mul h1 (hQ0 _ _ _) (abs_nonneg _) zero_le_one
        _ = Q := one_mul _
    · rw [abs_mul]
      calc _ ≤ 1 * Q := mul_le_mul h2 (hQ _ _ _ _) (abs_nonneg _) zero_le_one
        _ = Q := one_mul _
  have hzero : ∀ l c, ∑ a, piB c a * cor l c a = 0 := by
    intro l c
    have hqa : ∀ a b : Fin L → Fin A, (∀ m ≤ l, a m = b m) → q c a l (a l) = q c b l (b l) := by
      intro a b h
      rw [hq c l a b fun m hm => h m hm.le, h l le_rfl]
    have h1 := propensity_reweight .rips l (piB := piB c) (piE := piE c) (fun a => q c a l (a l)) hqa fun a ha => hE.support c a l ha
    have h2 := reweight (fun b a : Fin L → Fin A => ∀ m < l, b m = a m) (agree_lt_equiv l) (piB c) (piE c)
      (fun a => ∑ b, dist c a l b * q c a l b)
      (fun a b h => by
        show ∑ x, dist c a l x * q c a l x = ∑ x, dist c b l x * q c b l x
        rw [hdp c l a b h, hq c l a b h])
      (fun a ha => by
        have h3 : 0 < SlateKind.rips.propensity (piB c) a l :=
          lt_of_le_of_ne (propensity_nonneg (hs.piB_dist c) _ a l) (hE.support c a l ha).symm
        rw [← cascadePscore_eq (n := 1) (fun _ => piB c) 0] at h3
        exact (h3.trans_le (class_mono (n := 1) (pi := fun _ => piB c) (fun _ => hs.piB_dist c) 0
          fun b (hb : ∀ m ≤ l, b m = a m) m (hm : m < l) => hb m hm.le)).ne')
    have h3 := cascade_tower (n := 1) (fun _ => piE c) (fun _ => hE.dist c) (fun _ => q c) (fun _ => dist c)
      (fun _ => hq c) (fun _ => hcond c) 0 l
    have : ∑ a, piB c a * cor l c a =
        ∑ a, piB c a * (prefixWeight piB piE l c a * ∑ b, dist c a l b * q c a l b) -
        ∑ a, piB c a * (slotWeight .rips piB piE l c a * q c a l (a l)) := by
      rw [← Finset.sum_sub_distrib]
      exact Finset.sum_congr rfl fun a _ => mul_sub _ _ _
    rw [this, sub_eq_zero]
    exact (h2.trans h3).trans h1.symm
  have hcor : ∀ᵐ ω ∂P, ∀ l, Tendsto (fun n : ℕ => avg fun i : Fin n => cor l (s.ctx i ω) (s.slate i ω)) atTop (𝓝 0) := by
    refine ae_all_iff.2 fun l => ?_
    have := hs.lln_fn l (hcm l) (hci l)
    simpa only [hzero, integral_zero] using this
  filter_upwards [hs.piB_ne hL, hv, hcor] with ω hω ht hc
  refine ⟨fun n => ∑ l, ((avg fun i : Fin n => slotWeight .rips piB piE l (s.ctx i ω) (s.slate i ω) * s.rew i ω l) +
    avg fun i : Fin n => cor l (s.ctx i ω) (s.slate i ω)), ?_, ?_⟩
  · filter_upwards [eventually_gt_atTop 0] with n hn
    have hacc := log_accepts (piB := piB) hs.piB_dist hE.dist hL hn hω .rips
    have hval : (s.cascadeLog (fun c => SlateKind.rips.propensity (piB c)) (fun c => SlateKind.rips.propensity (piE c)) q dist n ω).Valid :=
      ⟨hacc, fun j => by
        have := (hd (s.ctx j.divNat ω) (s.slate j.divNat ω) j.modNat).sum_one
        simp only [cascadeLog, this, sub_self, abs_zero]
        positivity⟩
    have hns : (s.cascadeLog (fun c => SlateKind.rips.propensity (piB c)) (fun c => SlateKind.rips.propensity (piE c)) q dist n ω).numSlates = n :=
      SlateProcess.log_numSlates (P := s.process piB n ω) hL (fun i => (s.slate i ω, 0)) (fun i => SlateKind.rips.propensity (piB (s.ctx i ω)))
        (fun i => SlateKind.rips.propensity (piE (s.ctx i ω)))
    rw [cascadeValue_eq hL hval (by rw [hns]), hns]
    refine congrArg Except.ok ?_
    simp only [avg, ← add_div, ← Finset.sum_div, ← Finset.sum_add_distrib]
    rw [Finset.sum_comm, ← sum_grid fun (i : Fin n) l => slotWeight .rips piB piE l (s.ctx i ω) (s.slate i ω) * s.rew i ω l +
      cor l (s.ctx i ω) (s.slate i ω)]
    refine congrArg (· / _) (Finset.sum_congr rfl fun j _ => ?_)
    have hpV : (s.process piB n ω).Valid := ⟨fun i => hs.piB_dist _, fun i a => ⟨fun _ => zero_le_one, by simp [process]⟩⟩
    have hprev := cascade_prevWeight hpV (fun i : Fin n => piE (s.ctx i ω)) (fun i => hE.dist _) (fun i => (s.slate i ω, 0)) j
    have hlog : (s.process piB n ω).log (fun i => (s.slate i ω, 0)) (cascadePscore (s.process piB n ω).piB)
        (cascadePscore fun i : Fin n => piE (s.ctx i ω)) =
        s.log (fun c => SlateKind.rips.propensity (piB c)) (fun c => SlateKind.rips.propensity (piE c)) n ω := by
      rw [log_eq (piB := piB)]
      congr 1
      · funext i a l
        exact cascadePscore_eq _ _ _ _
      · funext i a l
        exact cascadePscore_eq (fun i : Fin n => piE (s.ctx i ω)) _ _ _
    rw [hlog] at hprev
    unfold CascadeLog.rowVal
    rw [show (s.cascadeLog (fun c => SlateKind.rips.propensity (piB c)) (fun c => SlateKind.rips.propensity (piE c)) q dist n ω).toSlateLog =
      s.log (fun c => SlateKind.rips.propensity (piB c)) (fun c => SlateKind.rips.propensity (piE c)) n ω from rfl, hprev]
    simp only [cor]
    show slotWeight .rips piB piE j.modNat (s.ctx j.divNat ω) (s.slate j.divNat ω) * (s.rew j.divNat ω j.modNat -
        q (s.ctx j.divNat ω) (s.slate j.divNat ω) j.modNat (s.slate j.divNat ω j.modNat)) +
      prefixWeight piB piE j.modNat (s.ctx j.divNat ω) (s.slate j.divNat ω) *
        ∑ b, dist (s.ctx j.divNat ω) (s.slate j.divNat ω) j.modNat b * q (s.ctx j.divNat ω) (s.slate j.divNat ω) j.modNat b = _
    ring
  · rw [← hsum]
    refine tendsto_finsetSum _ fun l _ => ?_
    have := (ht l).add (hc l)
    rwa [add_zero] at this

/-! ### The hypotheses are met -/

section example_stream
variable {L A : ℕ} [NeZero A]

/-- One round of the example: a fair coin for the context, a slate chosen uniformly, a fair coin for the noise. -/
abbrev ExSlateRound (L A : ℕ) := Bool × (Fin L → Fin A) × Bool

/-- Uniform distribution of one round. -/
noncomputable def exSlateLaw (L A : ℕ) [NeZero A] : Measure (ExSlateRound L A) := (PMF.uniformOfFintype (ExSlateRound L A)).toMeasure

instance : IsProbabilityMeasure (exSlateLaw L A) := by unfold exSlateLaw; infer_instance

/-- All rounds. -/
noncomputable abbrev exSlateMeasure (L A : ℕ) [NeZero A] : Measure (ℕ → ExSlateRound L A) := Measure.infinitePi fun _ => exSlateLaw L A

/-- Rewards of mean `m`, higher or lower by one. -/
noncomputable def exSlateStream (m : Bool → (Fin L → Fin A) → Fin L → ℝ) : SlateStream (ℕ → ExSlateRound L A) Bool L A where
  ctx i ω := (ω i).1
  slate i ω := (ω i).2.1
  rew i ω l := m (ω i).1 (ω i).2.1 l + if (ω i).2.2 then 1 else -1

theorem exSlate_integral (g : ExSlateRound L A → ℝ) :
    ∫ ω, g (ω 0) ∂exSlateMeasure L A = (∑ o, g o) / Fintype.card (ExSlateRound L A) := by
  have h1 : ∫ o, g o ∂exSlateLaw L A = (∑ o, g o) / Fintype.card (ExSlateRound L A) := by
    unfold exSlateLaw
    rw [PMF.integral_eq_sum, Finset.sum_div]
    refine Finset.sum_congr rfl fun o _ => ?_
    rw [PMF.uniformOfFintype_apply]
    simp
    ring
  rw [← h1]
  conv_rhs => rw [← Measure.infinitePi_map_eval (fun _ : ℕ => exSlateLaw L A) 0]
  rw [integral_map (measurable_pi_apply 0).aemeasurable (measurable_of_finite g).aestronglyMeasurable]

theorem exSlate_meas {β : Type} [MeasurableSpace β] (f : ExSlateRound L A → β) (i : ℕ) :
    Measurable fun ω : ℕ → ExSlateRound L A => f (ω i) := (measurable_of_finite f).comp (measurable_pi_apply i)

theorem exSlate_integrable (f : ExSlateRound L A → ℝ) :
    Integrable (fun ω : ℕ → ExSlateRound L A => f (ω 0)) (exSlateMeasure L A) := by
  obtain ⟨M, hM⟩ := (Set.finite_range fun o => ‖f o‖).bddAbove
  exact Integrable.of_bound (exSlate_meas f 0).aestronglyMeasurable M (ae_of_all _ fun ω => hM ⟨ω 0, rfl⟩)

theorem exSlateStream_logged (m : Bool → (Fin L → Fin A) → Fin L → ℝ) :
    (exSlateStream m).LoggedBy (exSlateMeasure L A) (fun _ _ => 1 / Fintype.card (Fin L → Fin A)) m := by
  classical
  let round : ExSlateRound L A → Bool × (Fin L → Fin A) × (Fin L → ℝ) := fun o =>
    (o.1, o.2.1, fun l => m o.1 o.2.1 l + if o.2.2 then 1 else -1)
  have hS : (0 : ℝ) < Fintype.card (Fin L → Fin A) := by exact_mod_cast Fintype.card_pos
  refine ⟨fun i => exSlate_meas (fun o => o.1) i, fun i => exSlate_meas (fun o => o.2.1) i, fun i => exSlate_meas (fun o => (round o).2.2) i,
    iIndepFun_infinitePi (X := fun _ => round) fun _ => measurable_of_finite _, fun i => ?_,
    fun c => ⟨fun _ => by positivity, ?_⟩, fun a => measurable_const, fun a l => measurable_of_finite _,
    fun a B hB => ?_, fun l => exSlate_integrable fun o => (round o).2.2 l, fun l => ?_⟩
  · refine ⟨(exSlate_meas round i).aemeasurable, (exSlate_meas round 0).aemeasurable, ?_⟩
    have : ∀ j : ℕ, (exSlateMeasure L A).map (fun ω => round (ω j)) = (exSlateLaw L A).map round := by
      intro j
      conv_rhs => rw [← Measure.infinitePi_map_eval (fun _ : ℕ => exSlateLaw L A) j]
      exact (Measure.map_map (measurable_of_finite round) (measurable_pi_apply j)).symm
    exact (this i).trans (this 0).symm
  · rw [Finset.sum_const, Finset.card_univ, nsmul_eq_mul, mul_one_div_cancel hS.ne']
  · have h1 : MeasurableSet {ω : ℕ → ExSlateRound L A | (exSlateStream m).ctx 0 ω ∈ B} := exSlate_meas (fun o => o.1) 0 hB
    have hset : MeasurableSet {ω : ℕ → ExSlateRound L A | (exSlateStream m).ctx 0 ω ∈ B ∧ (exSlateStream m).slate 0 ω = a} :=
      h1.inter (exSlate_meas (fun o => o.2.1) 0 (measurableSet_singleton a))
    have g1 : (fun ω : ℕ → ExSlateRound L A => {ω : ℕ → ExSlateRound L A | (exSlateStream m).ctx 0 ω ∈ B ∧ (exSlateStream m).slate 0 ω = a}.indicator
        (1 : (ℕ → ExSlateRound L A) → ℝ) ω) = fun ω => if (ω 0).1 ∈ B ∧ (ω 0).2.1 = a then (1 : ℝ) else 0 := by
      funext ω
      simp only [Set.indicator, Set.mem_ofPred_eq, exSlateStream, Pi.one_apply]
      congr
    have g2 : (fun ω : ℕ → ExSlateRound L A => {ω : ℕ → ExSlateRound L A | (exSlateStream m).ctx 0 ω ∈ B}.indicator
        (fun _ => (1 / Fintype.card (Fin L → Fin A) : ℝ)) ω) =
        fun ω => if (ω 0).1 ∈ B then (1 / Fintype.card (Fin L → Fin A) : ℝ) else 0 := by
      funext ω
      simp [Set.indicator, exSlateStream]
    rw [← integral_indicator_one hset, ← integral_indicator h1, g1, g2,
      exSlate_integral fun o => if o.1 ∈ B ∧ o.2.1 = a then (1 : ℝ) else 0,
      exSlate_integral fun o => if o.1 ∈ B then (1 / Fintype.card (Fin L → Fin A) : ℝ) else 0]
    congr 1
    simp only [Fintype.sum_prod_type]
    refine Finset.sum_congr rfl fun c _ => ?_
    by_cases hc : c ∈ B
    · simp only [hc, true_and, if_true, Finset.sum_const, Finset.card_univ, Fintype.card_bool, nsmul_eq_mul, mul_ite, mul_one,
        mul_zero, Finset.sum_ite_eq', Finset.mem_univ]
      field_simp
    · simp [hc]
  · symm
    refine ae_eq_condExp_of_forall_setIntegral_eq ((exSlate_meas (fun o => (o.1, o.2.1)) 0).comap_le)
      (exSlate_integrable fun o => (round o).2.2 l)
      (fun t _ _ => (exSlate_integrable fun o => m o.1 o.2.1 l).integrableOn) ?_ ?_
    · rintro t ⟨T, hT, rfl⟩ -
      have hpre : MeasurableSet ((fun ω : ℕ → ExSlateRound L A => ((ω 0).1, (ω 0).2.1)) ⁻¹' T) :=
        exSlate_meas (fun o => (o.1, o.2.1)) 0 hT
      rw [← integral_indicator hpre, ← integral_indicator hpre]
      have g1 : ∀ f : ExSlateRound L A → ℝ, (fun ω : ℕ → ExSlateRound L A => Set.indicator
          ((fun ω : ℕ → ExSlateRound L A => ((ω 0).1, (ω 0).2.1)) ⁻¹' T) (fun ω => f (ω 0)) ω) =
          fun ω => if ((ω 0).1, (ω 0).2.1) ∈ T then f (ω 0) else 0 := by
        intro f
        funext ω
        simp [Set.indicator]
      have e1 := exSlate_integral fun o : ExSlateRound L A => if (o.1, o.2.1) ∈ T then m o.1 o.2.1 l else 0
      have e2 := exSlate_integral fun o : ExSlateRound L A => if (o.1, o.2.1) ∈ T then (round o).2.2 l else 0
      have e3 : ∑ o : ExSlateRound L A, (if (o.1, o.2.1) ∈ T then m o.1 o.2.1 l else 0) =
          ∑ o : ExSlateRound L A, (if (o.1, o.2.1) ∈ T then (round o).2.2 l else 0) := by
        simp only [Fintype.sum_prod_type]
        refine Finset.sum_congr rfl fun c _ => Finset.sum_congr rfl fun a _ => ?_
        simp only [Fintype.sum_bool, round]
        split
        · simp
          ring
        · rfl
      rw [← e3] at e2
      exact ((congrArg (∫ ω, · ω ∂_) (g1 fun o => m o.1 o.2.1 l)).trans e1).trans
        ((congrArg (∫ ω, · ω ∂_) (g1 fun o => (round o).2.2 l)).trans e2).symm
    · exact (((measurable_of_finite fun x : Bool × (Fin L → Fin A) => m x.1 x.2 l).comp
        (comap_measurable _)).stronglyMeasurable).aestronglyMeasurable

end example_stream

/-- Mean rewards of two slots with two actions: the second slot earns more if the first one matches the context. -/
noncomputable def exSlateMean (c : Bool) (a : Fin 2 → Fin 2) (l : Fin 2) : ℝ :=
  if l = 0 then (a 0 : ℕ) else if (a 0 = 1) = c then 2 + (a 1 : ℕ) else 1

/-- Follow the context in the first slot; the second slot is drawn uniformly. -/
noncomputable def exSlatePolicy (c : Bool) (a : Fin 2 → Fin 2) : ℝ := if (a 0 = 1) = c then 1 / 2 else 0

theorem sum_slates (f : (Fin 2 → Fin 2) → ℝ) : ∑ a, f a = f ![0, 0] + f ![0, 1] + f ![1, 0] + f ![1, 1] := by
  rw [← Equiv.sum_comp (finTwoArrowEquiv (Fin 2)).symm, Fintype.sum_prod_type]
  simp [finTwoArrowEquiv, Fin.sum_univ_two]
  ring

theorem exSlatePolicy_dist (c : Bool) : IsDist (exSlatePolicy c) :=
  ⟨fun a => by unfold exSlatePolicy; split <;> norm_num, by
    rw [sum_slates]
    cases c <;> norm_num [exSlatePolicy]⟩

theorem exSlate_covers {k : SlateKind} (hk : ∀ c l a b, k.Agree l a b → exSlateMean c a l = exSlateMean c b l) :
    Covers k (fun _ _ => 1 / Fintype.card (Fin 2 → Fin 2)) exSlatePolicy exSlateMean :=
  ⟨exSlatePolicy_dist, fun a => measurable_of_finite _, hk, fun c a l _ =>
    (propensity_pos ((exSlateStream_logged exSlateMean).piB_dist c) k (by simp) l).ne'⟩

theorem exSlate_rips (c : Bool) (l : Fin 2) (a b : Fin 2 → Fin 2) (h : ∀ m ≤ l, a m = b m) :
    exSlateMean c a l = exSlateMean c b l := by
  unfold exSlateMean
  rw [h 0 (Fin.zero_le l)]
  split
  · rfl
  · rw [h 1 (by omega)]

theorem exSlate_weighted (k : SlateKind) (l : Fin 2) :
    Integrable (fun ω => slotWeight k (fun _ _ => 1 / Fintype.card (Fin 2 → Fin 2)) exSlatePolicy l ((exSlateStream exSlateMean).ctx 0 ω)
      ((exSlateStream exSlateMean).slate 0 ω) * (exSlateStream exSlateMean).rew 0 ω l) (exSlateMeasure 2 2) :=
  exSlate_integrable fun o : ExSlateRound 2 2 => slotWeight k (fun _ _ => 1 / Fintype.card (Fin 2 → Fin 2)) exSlatePolicy l o.1 o.2.1 *
    (exSlateMean o.1 o.2.1 l + if o.2.2 then 1 else -1)

/-- The value of that policy: 1/2 in the first slot, 5/2 in the second. -/
theorem exSlate_value : (exSlateStream exSlateMean).value (exSlateMeasure 2 2) exSlatePolicy exSlateMean = 3 := by
  refine (exSlate_integral fun o : ExSlateRound 2 2 => ∑ a, exSlatePolicy o.1 a * ∑ l, exSlateMean o.1 a l).trans ?_
  simp only [Fintype.sum_prod_type, Fintype.sum_bool, sum_slates, Fin.sum_univ_two, Finset.sum_const, Fintype.card_prod, Fintype.card_bool]
  norm_num [exSlatePolicy, exSlateMean]

example : ∀ᵐ ω ∂exSlateMeasure 2 2, ResultsTendTo (fun n => SlateKind.sips.estimatePolicyValue 2
    ((exSlateStream exSlateMean).log (fun _ => SlateKind.sips.propensity fun _ => 1 / Fintype.card (Fin 2 → Fin 2))
      (fun c => SlateKind.sips.propensity (exSlatePolicy c)) n ω).args) 3 := by
  rw [← exSlate_value]
  exact C160_ips (exSlateStream_logged _) two_pos (.inl rfl) (exSlate_covers fun c l a b (h : a = b) => by rw [h]) (exSlate_weighted _)

example : ∀ᵐ ω ∂exSlateMeasure 2 2, ResultsTendTo (fun n => SlateKind.rips.estimatePolicyValue 2
    ((exSlateStream exSlateMean).log (fun _ => SlateKind.rips.propensity fun _ => 1 / Fintype.card (Fin 2 → Fin 2))
      (fun c => SlateKind.rips.propensity (exSlatePolicy c)) n ω).args) 3 := by
  rw [← exSlate_value]
  exact C160_ips (exSlateStream_logged _) two_pos (.inr (.inr rfl)) (exSlate_covers exSlate_rips) (exSlate_weighted _)

example : ∀ᵐ ω ∂exSlateMeasure 2 2, ResultsTendTo (fun n => SlateKind.snRips.estimatePolicyValue 2
    ((exSlateStream exSlateMean).log (fun _ => SlateKind.snRips.propensity fun _ => 1 / Fintype.card (Fin 2 → Fin 2))
      (fun c => SlateKind.snRips.propensity (exSlatePolicy c)) n ω).args) 3 := by
  rw [← exSlate_value]
  exact C160_sn (exSlateStream_logged _) two_pos (.inr rfl) (exSlate_covers exSlate_rips) (exSlate_weighted _)

example : ∀ᵐ ω ∂exSlateMeasure 2 2, ResultsTendTo (fun n => SlateKind.snSips.estimatePolicyValue 2
    ((exSlateStream exSlateMean).log (fun _ => SlateKind.snSips.propensity fun _ => 1 / Fintype.card (Fin 2 → Fin 2))
      (fun c => SlateKind.snSips.propensity (exSlatePolicy c)) n ω).args) 3 := by
  rw [← exSlate_value]
  exact C160_snsips (exSlateStream_logged _) two_pos (exSlate_covers fun c l a b (h : a = b) => by rw [h]) (exSlate_weighted _)

/-- With a wrong reward model the cascade doubly robust estimates still tend to the value. -/
example : ∀ᵐ ω ∂exSlateMeasure 2 2, ResultsTendTo (fun n => cascadeDrValue 2 2
    ((exSlateStream exSlateMean).cascadeLog (fun _ => SlateKind.rips.propensity fun _ => 1 / Fintype.card (Fin 2 → Fin 2))
      (fun c => SlateKind.rips.propensity (exSlatePolicy c)) (fun _ a l b => if l = 0 then 5 else (a 0 : ℕ) - 7 * (b : ℕ))
      (fun c _ l b => if l = 0 then (if (b = 1) = c then 1 else 0) else 1 / 2) n ω).args) 3 := by
  rw [← exSlate_value]
  refine C160_cascade_dr (Q := 100) (exSlateStream_logged _) two_pos (exSlate_covers exSlate_rips) (exSlate_weighted _)
    (fun c l a b h => ?_) (fun a l b => measurable_of_finite _) (fun c a l b => ?_) (fun c a l => ⟨fun b => ?_, ?_⟩)
    (fun c l a b h => ?_) (fun a l b => measurable_of_finite _) (fun c a l b => ?_)
  · funext x
    split
    · rfl
    · rw [h 0 (by omega)]
  · split
    · norm_num
    · have h1 : ((a 0 : ℕ) : ℝ) ≤ 1 := by exact_mod_cast (by omega : (a 0 : ℕ) ≤ 1)
      have h2 : ((b : ℕ) : ℝ) ≤ 1 := by exact_mod_cast (by omega : (b : ℕ) ≤ 1)
      have h3 : (0 : ℝ) ≤ (a 0 : ℕ) := Nat.cast_nonneg _
      have h4 : (0 : ℝ) ≤ (b : ℕ) := Nat.cast_nonneg _
      rw [abs_le]
      constructor <;> linarith
  · split
    · split <;> norm_num
    · norm_num
  · rw [Fin.sum_univ_two]
    by_cases hl : l = 0 <;> cases c <;> simp [hl]
    all_goals norm_num
  · rfl
  · unfold prefixPscore cascadePscore
    simp only [sum_slates]
    fin_cases l <;> fin_cases b <;> cases c <;> (obtain ⟨x, y, rfl⟩ : ∃ x y, a = ![x, y] := ⟨a 0, a 1, by ext i; fin_cases i <;> rfl⟩) <;>
      fin_cases x <;> fin_cases y <;> simp [exSlatePolicy, Fin.forall_fin_two, Function.update] <;> norm_num

end Obp
