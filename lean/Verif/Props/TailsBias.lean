import Verif.Lemmas.Tails
import Verif.Spec.StreamBias
import Verif.Props.Bias
import Verif.Props.NormalMulti

set_option linter.unusedSectionVars false

/-!
# Large errors of estimates with clipped, switched or shrunk weights

C190: weights that are cut off bound the errors whatever the importance weights, at the price of a bias that is bounded as well.
-/

namespace Obp
open MeasureTheory ProbabilityTheory Filter Topology Log

section terms
variable {K : Type} [Field K] [LinearOrder K] [IsStrictOrderedRing K] {n A L : ℕ}

/-- The estimate is the mean of the contributions of the rounds. -/
theorem value_weighTerm_log {k : Kind} (hk : k.HasBias) {l : K} (hl : 0 < l) (hl1 : k = .sgIpw ∨ k = .sgDr → l < 1) {g : Log K n A L}
    (hv : g.Valid) (hE : ∀ i l, IsDist fun a => g.piE i a l) :
    (Estimator.mk k (.fin l) false).estimatePolicyValue g.args =
      .ok (avg fun i => weighTerm k l (fun a => g.piE i a (g.position i)) (fun a => g.q i a (g.position i)) (g.pscore i) (g.action i)
        (g.reward i)) := by
  have hw : ∀ i, 0 ≤ g.weight false i := fun i => div_nonneg ((hE i _).nonneg _) (hv.pscore_pos i).le
  have hm : ∀ i, g.modelValue i = ∑ a, g.q i a (g.position i) * g.piE i a (g.position i) := fun i => by
    simp only [modelValue, (hE _ _).sum_one, div_one]
  simp only [Kind.HasBias, List.mem_cons, List.not_mem_nil, or_false] at hk
  rcases hk with rfl | rfl | rfl | rfl | rfl | rfl | rfl
  · rw [value_ipw hv]
    simp only [weighTerm, Kind.fallback, zero_mul, Finset.sum_const_zero, zero_add, sub_zero, avg]
    congr 2
    exact Finset.sum_congr rfl fun i _ => mul_comm _ _
  · rw [value_dr hv]
    simp only [weighTerm, Kind.fallback, avg, hm]
    rfl
  · rw [value_switchDr hv]
    simp only [weighTerm, Kind.fallback, avg, hm]
    congr 2
    refine Finset.sum_congr rfl fun i _ => ?_
    congr 1
    show (if decide (_ ≤ l) = true then (1 : K) else 0) * _ * _ = (if _ ≤ l then _ else 0) * _
    by_cases h : g.weight false i ≤ l
    · rw [if_pos (by simpa using h), one_mul]
      exact (congrArg (· * _) (if_pos h)).symm
    · rw [if_neg (by simpa using h), zero_mul, zero_mul]
      exact ((congrArg (· * _) (if_neg h)).trans (zero_mul _)).symm
  · rw [value_drOs hv _ _ (fun i => by have := hw i; positivity)]
    simp only [weighTerm, Kind.fallback, avg, hm]
    rfl
  · rw [value_sgIpw hv _ _ (fun i => by
      have := mul_nonneg hl.le (hw i); have := hl1 (.inl rfl); linarith)]
    simp only [weighTerm, Kind.fallback, zero_mul, Finset.sum_const_zero, zero_add, sub_zero, avg]
    rfl
  · rw [value_sgDr hv _ _ (fun i => by
      have := mul_nonneg hl.le (hw i); have := hl1 (.inr rfl); linarith)]
    simp only [weighTerm, Kind.fallback, avg, hm]
    rfl
  · rw [value_dm hv]
    simp only [weighTerm, Kind.fallback, avg, hm, usedWeight, zero_mul, add_zero]

end terms

theorem usedWeight_mem {k : Kind} {l w : ℝ} (hl : 0 < l) (hl1 : k = .sgIpw ∨ k = .sgDr → l < 1) (hw : 0 ≤ w) :
    usedWeight k l w ∈ Set.Icc 0 (k.maxWeight l) := by
  have hsg : l < 1 → w / (1 - l + l * w) ∈ Set.Icc 0 (1 / l) := fun h => by
    have h1 : 0 < 1 - l + l * w := by nlinarith
    refine ⟨div_nonneg hw h1.le, ?_⟩
    rw [div_le_div_iff₀ h1 hl]
    nlinarith
  cases k <;> simp only [usedWeight, Kind.maxWeight, Set.mem_Icc, le_refl, and_self]
  case ipw => exact ⟨le_min hw hl.le, min_le_right _ _⟩
  case dr => exact ⟨le_min hw hl.le, min_le_right _ _⟩
  case switchDr => split <;> constructor <;> first | assumption | exact le_rfl | exact hl.le
  case drOs =>
    have h1 : 0 < w ^ 2 + l := by positivity
    refine ⟨by positivity, ?_⟩
    rw [div_le_div_iff₀ h1 two_pos]
    have h2 := Real.sq_sqrt hl.le
    have h3 := Real.sqrt_nonneg l
    nlinarith [mul_nonneg h3 (sq_nonneg (w - Real.sqrt l))]
  case sgIpw => exact hsg (hl1 (.inl rfl))
  case sgDr => exact hsg (hl1 (.inr rfl))

/-- The range of the contributions of rounds. -/
theorem weighTerm_mem {A : ℕ} {k : Kind} {l R b r : ℝ} (hl : 0 < l) (hl1 : k = .sgIpw ∨ k = .sgDr → l < 1)
    {pi q : Fin A → ℝ} (hpi : IsDist pi) (hq : ∀ a, q a ∈ Set.Icc 0 R) (hb : 0 ≤ b) (a : Fin A) (hr : r ∈ Set.Icc 0 R) :
    weighTerm k l pi q b a r ∈ Set.Icc (if k = .ipw ∨ k = .sgIpw then 0 else -(k.maxWeight l * R))
      ((if k = .ipw ∨ k = .sgIpw then 0 else -(k.maxWeight l * R)) + k.spread l * R) := by
  obtain ⟨u0, u1⟩ := usedWeight_mem (k := k) hl hl1 (div_nonneg (hpi.nonneg a) hb)
  have hR : 0 ≤ R := hr.1.trans hr.2
  by_cases hk : k = .ipw ∨ k = .sgIpw
  · have h0 : ∀ x : ℝ, k.fallback x = 0 := fun x => by rcases hk with rfl | rfl <;> rfl
    have hsp : k.spread l = k.maxWeight l := by rcases hk with rfl | rfl <;> rfl
    simp only [weighTerm, h0, zero_mul, Finset.sum_const_zero, zero_add, sub_zero, if_pos hk, hsp]
    exact ⟨mul_nonneg u0 hr.1, mul_le_mul u1 hr.2 hr.1 (u0.trans u1)⟩
  · have h0 : ∀ x : ℝ, k.fallback x = x := fun x => by
      cases k <;> first | rfl | exact absurd (.inl rfl) hk | exact absurd (.inr rfl) hk
    have hsp : k.spread l = 1 + 2 * k.maxWeight l := by
      cases k <;> first | rfl | exact absurd (.inl rfl) hk | exact absurd (.inr rfl) hk
    simp only [weighTerm, h0, if_neg hk, hsp]
    have s0 : 0 ≤ ∑ x, q x * pi x := Finset.sum_nonneg fun x _ => mul_nonneg (hq x).1 (hpi.nonneg x)
    have s1 : ∑ x, q x * pi x ≤ R := by
      calc ∑ x, q x * pi x ≤ ∑ x, R * pi x := Finset.sum_le_sum fun x _ => mul_le_mul_of_nonneg_right (hq x).2 (hpi.nonneg x)
        _ = R := by rw [← Finset.mul_sum, hpi.sum_one, mul_one]
    have d0 : -R ≤ r - q a := by linarith [hr.1, (hq a).2]
    have d1 : r - q a ≤ R := by linarith [hr.2, (hq a).1]
    have hm := u0.trans u1
    constructor
    · nlinarith [mul_nonneg u0 (by linarith : 0 ≤ r - q a + R), mul_nonneg (sub_nonneg.2 u1) hR]
    · nlinarith [mul_nonneg u0 (by linarith : 0 ≤ R - (r - q a)), mul_nonneg (sub_nonneg.2 u1) hR]

section stream
open LogStream

variable {Ω C : Type} [MeasurableSpace Ω] [MeasurableSpace C] {A L : ℕ} {P : Measure Ω} [IsProbabilityMeasure P]
variable {s : LogStream Ω C A} {piB m : C → Fin A → ℝ} {pos : C → Fin L} {piE q : C → Fin A → Fin L → ℝ}

theorem usedWeight_meas {k : Kind} {l : ℝ} : Measurable fun w : ℝ => usedWeight k l w := by
  cases k <;> simp only [usedWeight] <;> first | exact measurable_const | fun_prop | skip
  exact Measurable.ite measurableSet_Iic measurable_id measurable_const

theorem fallback_meas {k : Kind} {f : C → ℝ} (hf : Measurable f) : Measurable fun c => k.fallback (f c) := by
  cases k <;> simp only [Kind.fallback] <;> first | exact measurable_const | exact hf

theorem lostProb_meas {k : Kind} {l : ℝ} {e b : C → ℝ} (he : Measurable e) (hb : Measurable b) :
    Measurable fun c => lostProb k l (e c) (b c) := by
  cases k <;> simp only [lostProb] <;> first | exact measurable_const | exact he | fun_prop | skip
  exact Measurable.ite (measurableSet_lt (hb.const_mul l) he) he measurable_const

theorem LogStream.IsPolicy.le_one (hE : IsPolicy pos piE) (c : C) (a : Fin A) : piE c a (pos c) ≤ 1 := by
  rw [← (hE.dist c (pos c)).sum_one]
  exact Finset.single_le_sum (f := fun b => piE c b (pos c)) (fun b _ => (hE.dist c _).nonneg b) (Finset.mem_univ a)

theorem LogStream.LoggedBy.piB_le_one (hs : s.LoggedBy P piB m) (c : C) (a : Fin A) : piB c a ≤ 1 := by
  rw [← (hs.piB_dist c).sum_one]
  exact Finset.single_le_sum (fun b _ => (hs.piB_dist c).nonneg b) (Finset.mem_univ a)

theorem LogStream.LoggedBy.log_valid_policy (hs : s.LoggedBy P piB m) (hE : IsPolicy pos piE) :
    ∀ᵐ ω ∂P, ∀ n, 0 < n → (s.log piB pos piE q n ω).Valid := by
  filter_upwards [hs.pscore_pos] with ω hω n hn
  refine ⟨hn, fun i => hω i, fun i => hω i, fun i => div_nonneg ((hE.dist _ _).nonneg _) (hω i).le, fun i l => ?_⟩
  simp only [log, (hE.dist _ _).sum_one]
  exact closeToOne_one

/-- Bounded functions of the context. -/
theorem LogStream.LoggedBy.ctx_int (hs : s.LoggedBy P piB m) {f : C → ℝ} (hf : Measurable f) {M : ℝ} (hM : ∀ c, |f c| ≤ M) :
    Integrable (fun ω => f (s.ctx 0 ω)) P :=
  Integrable.of_bound (hf.comp (hs.ctx_meas 0)).aestronglyMeasurable M (ae_of_all _ fun _ => hM _)

theorem abs_le_of_mem {R x : ℝ} (h : x ∈ Set.Icc 0 R) : |x| ≤ R := by rw [abs_of_nonneg h.1]; exact h.2

theorem fallback_mem {k : Kind} {R x : ℝ} (h : x ∈ Set.Icc 0 R) : k.fallback x ∈ Set.Icc 0 R := by
  have h0 : (0 : ℝ) ∈ Set.Icc 0 R := ⟨le_rfl, h.1.trans h.2⟩
  cases k <;> first | exact h | exact h0

/-- The mean contribution of a round. -/
theorem LogStream.LoggedBy.weighTerm_mean (hs : s.LoggedBy P piB m) (hE : IsPolicy pos piE) {k : Kind} (hk : k.HasBias) {l R : ℝ} (hl : 0 < l)
    (hl1 : k = .sgIpw ∨ k = .sgDr → l < 1) (hq : ∀ a, Measurable fun c => q c a (pos c)) (hR : ∀ᵐ ω ∂P, s.rew 0 ω ∈ Set.Icc 0 R)
    (hqR : ∀ c a, q c a (pos c) ∈ Set.Icc 0 R) (hmR : ∀ c a, m c a ∈ Set.Icc 0 R) :
    ∫ ω, weighTerm k l (fun a => piE (s.ctx 0 ω) a (pos (s.ctx 0 ω))) (fun a => q (s.ctx 0 ω) a (pos (s.ctx 0 ω)))
      (piB (s.ctx 0 ω) (s.act 0 ω)) (s.act 0 ω) (s.rew 0 ω) ∂P = s.value P pos piE m + s.bias P piB m pos piE q k l := by
  let h : C → Fin A → ℝ := fun c a => usedWeight k l (piE c a (pos c) / piB c a)
  have hh : ∀ c a, h c a ∈ Set.Icc 0 (k.maxWeight l) := fun c a =>
    usedWeight_mem hl hl1 (div_nonneg ((hE.dist c _).nonneg a) ((hs.piB_dist c).nonneg a))
  have hm : ∀ a, Measurable fun c => h c a := fun a => usedWeight_meas.comp ((hE.meas a).div (hs.piB_meas a))
  have hfm : ∀ a, Measurable fun c => k.fallback (q c a (pos c)) := fun a => fallback_meas (hq a)
  have hfb : ∀ c a, k.fallback (q c a (pos c)) ∈ Set.Icc 0 R := fun c a => fallback_mem (hqR c a)
  have prod_le : ∀ {x y X Y : ℝ}, |x| ≤ X → |y| ≤ Y → |x * y| ≤ X * Y := fun {x y X Y} h1 h2 => by
    rw [abs_mul]
    exact mul_le_mul h1 h2 (abs_nonneg _) ((abs_nonneg _).trans h1)
  have hE1 : ∀ c a, |piE c a (pos c)| ≤ 1 := fun c a => abs_le_of_mem ⟨(hE.dist c _).nonneg a, hE.le_one c a⟩
  have hB1 : ∀ c a, |piB c a| ≤ 1 := fun c a => abs_le_of_mem ⟨(hs.piB_dist c).nonneg a, hs.piB_le_one c a⟩
  -- integrability
  have i1 : ∀ a, Integrable (fun ω => k.fallback (q (s.ctx 0 ω) a (pos (s.ctx 0 ω))) * piE (s.ctx 0 ω) a (pos (s.ctx 0 ω))) P := fun a =>
    hs.ctx_int ((hfm a).mul (hE.meas a)) fun c => prod_le (abs_le_of_mem (hfb c a)) (hE1 c a)
  have i2 : ∀ a, Integrable (fun ω => piB (s.ctx 0 ω) a * (h (s.ctx 0 ω) a * k.fallback (q (s.ctx 0 ω) a (pos (s.ctx 0 ω))))) P := fun a =>
    hs.ctx_int ((hs.piB_meas a).mul ((hm a).mul (hfm a))) fun c =>
      prod_le (hB1 c a) (prod_le (abs_le_of_mem (hh c a)) (abs_le_of_mem (hfb c a)))
  have i3 : ∀ a, Integrable (fun ω => piB (s.ctx 0 ω) a * (h (s.ctx 0 ω) a * m (s.ctx 0 ω) a)) P := fun a =>
    hs.ctx_int ((hs.piB_meas a).mul ((hm a).mul (hs.m_meas a))) fun c =>
      prod_le (hB1 c a) (prod_le (abs_le_of_mem (hh c a)) (abs_le_of_mem (hmR c a)))
  have i4 : Integrable (fun ω => h (s.ctx 0 ω) (s.act 0 ω) * s.rew 0 ω) P := by
    have hm2 : Measurable fun x : C × Fin A => h x.1 x.2 := measurable_from_prod_countable_left hm
    refine Integrable.of_bound ((hm2.comp ((hs.ctx_meas 0).prodMk (hs.act_meas 0))).mul (hs.rew_meas 0)).aestronglyMeasurable
      (k.maxWeight l * R) ?_
    filter_upwards [hR] with ω hω
    exact prod_le (abs_le_of_mem (hh _ _)) (abs_le_of_mem hω)
  have i5 := (hs.integrable_iff (h := fun c a => h c a * k.fallback (q c a (pos c))) fun a => (hm a).mul (hfm a)).2 i2
  have i6 : Integrable (fun ω => ∑ a, piE (s.ctx 0 ω) a (pos (s.ctx 0 ω)) * m (s.ctx 0 ω) a) P := integrable_finsetSum _ fun a _ =>
    hs.ctx_int ((hE.meas a).mul (hs.m_meas a)) fun c => prod_le (hE1 c a) (abs_le_of_mem (hmR c a))
  have lost_eq : ∀ c a, piB c a * h c a = piE c a (pos c) - lostProb k l (piE c a (pos c)) (piB c a) := fun c a =>
    used_add_lost hk hl hl1 ((hE.dist c _).nonneg a) ((hs.piB_dist c).nonneg a)
  -- the mean
  have e1 : ∀ ω, weighTerm k l (fun a => piE (s.ctx 0 ω) a (pos (s.ctx 0 ω))) (fun a => q (s.ctx 0 ω) a (pos (s.ctx 0 ω)))
      (piB (s.ctx 0 ω) (s.act 0 ω)) (s.act 0 ω) (s.rew 0 ω) =
      (∑ a, k.fallback (q (s.ctx 0 ω) a (pos (s.ctx 0 ω))) * piE (s.ctx 0 ω) a (pos (s.ctx 0 ω))) +
      (h (s.ctx 0 ω) (s.act 0 ω) * s.rew 0 ω - h (s.ctx 0 ω) (s.act 0 ω) * k.fallback (q (s.ctx 0 ω) (s.act 0 ω) (pos (s.ctx 0 ω)))) :=
    fun ω => by
      simp only [weighTerm, h]
      ring
  simp only [e1]
  have hb : Integrable (fun ω => h (s.ctx 0 ω) (s.act 0 ω) * s.rew 0 ω -
      h (s.ctx 0 ω) (s.act 0 ω) * k.fallback (q (s.ctx 0 ω) (s.act 0 ω) (pos (s.ctx 0 ω)))) P := i4.sub i5
  rw [integral_add (integrable_finsetSum _ fun a _ => i1 a) hb, integral_sub i4 i5, (hs.integral_reward hm i4).2,
    hs.integral_eq (h := fun c a => h c a * m c a) (fun a => (hm a).mul (hs.m_meas a)) i3,
    hs.integral_eq (h := fun c a => h c a * k.fallback (q c a (pos c))) (fun a => (hm a).mul (hfm a)) i2]
  have s2 := integrable_finsetSum Finset.univ fun a (_ : a ∈ Finset.univ) => i2 a
  have s3 := integrable_finsetSum Finset.univ fun a (_ : a ∈ Finset.univ) => i3 a
  have s1 := integrable_finsetSum Finset.univ fun a (_ : a ∈ Finset.univ) => i1 a
  have hbias : s.bias P piB m pos piE q k l = ∫ ω, ((∑ a, k.fallback (q (s.ctx 0 ω) a (pos (s.ctx 0 ω))) * piE (s.ctx 0 ω) a (pos (s.ctx 0 ω))) +
      ((∑ a, piB (s.ctx 0 ω) a * (h (s.ctx 0 ω) a * m (s.ctx 0 ω) a)) -
        ∑ a, piB (s.ctx 0 ω) a * (h (s.ctx 0 ω) a * k.fallback (q (s.ctx 0 ω) a (pos (s.ctx 0 ω))))) -
      ∑ a, piE (s.ctx 0 ω) a (pos (s.ctx 0 ω)) * m (s.ctx 0 ω) a) ∂P := by
    unfold LogStream.bias
    refine integral_congr_ae (ae_of_all _ fun ω => ?_)
    dsimp only
    rw [← Finset.sum_sub_distrib, ← Finset.sum_add_distrib, ← Finset.sum_sub_distrib]
    refine Finset.sum_congr rfl fun a _ => ?_
    rw [← mul_assoc, ← mul_assoc, lost_eq]
    ring
  have d1 : Integrable (fun ω => (∑ a, piB (s.ctx 0 ω) a * (h (s.ctx 0 ω) a * m (s.ctx 0 ω) a)) -
        ∑ a, piB (s.ctx 0 ω) a * (h (s.ctx 0 ω) a * k.fallback (q (s.ctx 0 ω) a (pos (s.ctx 0 ω))))) P := s3.sub s2
  have d2 : Integrable (fun ω => (∑ a, k.fallback (q (s.ctx 0 ω) a (pos (s.ctx 0 ω))) * piE (s.ctx 0 ω) a (pos (s.ctx 0 ω))) +
      ((∑ a, piB (s.ctx 0 ω) a * (h (s.ctx 0 ω) a * m (s.ctx 0 ω) a)) -
        ∑ a, piB (s.ctx 0 ω) a * (h (s.ctx 0 ω) a * k.fallback (q (s.ctx 0 ω) a (pos (s.ctx 0 ω)))))) P := s1.add d1
  rw [hbias, integral_sub d2 i6, integral_add s1 d1, integral_sub s3 s2, LogStream.value]
  ring

theorem LogStream.LoggedBy.weighTerm_meas (hs : s.LoggedBy P piB m) (hE : IsPolicy pos piE) {k : Kind} {l : ℝ}
    (hq : ∀ a, Measurable fun c => q c a (pos c)) : Measurable fun x : C × Fin A × ℝ =>
      weighTerm k l (fun a => piE x.1 a (pos x.1)) (fun a => q x.1 a (pos x.1)) (piB x.1 x.2.1) x.2.1 x.2.2 := by
  have h1 : Measurable fun x : C × Fin A => usedWeight k l (piE x.1 x.2 (pos x.1) / piB x.1 x.2) :=
    measurable_from_prod_countable_left fun a => usedWeight_meas.comp ((hE.meas a).div (hs.piB_meas a))
  have h2 : Measurable fun x : C × Fin A => k.fallback (q x.1 x.2 (pos x.1)) :=
    measurable_from_prod_countable_left fun a => fallback_meas (hq a)
  have hp : Measurable fun x : C × Fin A × ℝ => (x.1, x.2.1) := measurable_fst.prodMk (measurable_fst.comp measurable_snd)
  refine Measurable.add ?_ ((h1.comp hp).mul ((measurable_snd.comp measurable_snd).sub (h2.comp hp)))
  exact (Finset.measurable_fun_sum _ fun a _ => (fallback_meas (hq a)).mul (hE.meas a)).comp measurable_fst

/-- **C190.** Rewards and predictions in `[0, R]`. Whatever the importance weights, and even if some actions are never logged: the
estimate is close to the policy value plus the bias. -/
theorem C190_around_bias (hs : s.LoggedBy P piB m) (hE : IsPolicy pos piE) {k : Kind} (hk : k.HasBias) {l R : ℝ} (hl : 0 < l)
    (hl1 : k = .sgIpw ∨ k = .sgDr → l < 1) (hq : ∀ a, Measurable fun c => q c a (pos c)) (hR : ∀ᵐ ω ∂P, s.rew 0 ω ∈ Set.Icc 0 R)
    (hqR : ∀ c a, q c a (pos c) ∈ Set.Icc 0 R) (hmR : ∀ c a, m c a ∈ Set.Icc 0 R) {n : ℕ} (hn : 0 < n) {t : ℝ} (ht : 0 ≤ t) :
    P.real {ω | Misses ((⟨k, .fin l, false⟩ : Estimator ℝ).estimatePolicyValue (s.log piB pos piE q n ω).args)
      (s.value P pos piE m + s.bias P piB m pos piE q k l) t} ≤ 2 * Real.exp (-(2 * n * t ^ 2 / (k.spread l * R) ^ 2)) := by
  have hb : ∀ᵐ ω ∂P, weighTerm k l (fun a => piE (s.ctx 0 ω) a (pos (s.ctx 0 ω))) (fun a => q (s.ctx 0 ω) a (pos (s.ctx 0 ω)))
      (piB (s.ctx 0 ω) (s.act 0 ω)) (s.act 0 ω) (s.rew 0 ω) ∈ Set.Icc (if k = .ipw ∨ k = .sgIpw then 0 else -(k.maxWeight l * R))
      ((if k = .ipw ∨ k = .sgIpw then 0 else -(k.maxWeight l * R)) + k.spread l * R) := by
    filter_upwards [hR] with ω hω
    exact weighTerm_mem hl hl1 (hE.dist _ _) (fun a => hqR _ a) ((hs.piB_dist _).nonneg _) _ hω
  have := misses_mean (F := fun x : C × Fin A × ℝ =>
      weighTerm k l (fun a => piE x.1 a (pos x.1)) (fun a => q x.1 a (pos x.1)) (piB x.1 x.2.1) x.2.1 x.2.2)
    hs.iid (hs.weighTerm_meas hE hq) hb (hs.weighTerm_mean hE hk hl hl1 hq hR hqR hmR) hn ht
    (r := fun ω => (⟨k, .fin l, false⟩ : Estimator ℝ).estimatePolicyValue (s.log piB pos piE q n ω).args) ?_
  · rwa [add_sub_cancel_left] at this
  · filter_upwards [hs.log_valid_policy (q := q) hE] with ω hω
    rw [value_weighTerm_log hk hl hl1 (hω n hn) fun i l => hE.dist _ l]
    exact congrArg Except.ok (avg_meanTo (fun i => weighTerm k l (fun a => piE (s.ctx i ω) a (pos (s.ctx i ω)))
      (fun a => q (s.ctx i ω) a (pos (s.ctx i ω))) (piB (s.ctx i ω) (s.act i ω)) (s.act i ω) (s.rew i ω)) n)

theorem lostProb_abs_le {k : Kind} (hk : k.HasBias) {l e b : ℝ} (hl : 0 < l) (hl1 : k = .sgIpw ∨ k = .sgDr → l < 1)
    (he : e ∈ Set.Icc 0 1) (hb : b ∈ Set.Icc 0 1) : |lostProb k l e b| ≤ 1 := by
  have hu := usedWeight_mem (k := k) hl hl1 (div_nonneg he.1 hb.1)
  have h1 := used_add_lost hk hl hl1 he.1 hb.1
  have h2 : lostProb k l e b = e - b * usedWeight k l (e / b) := by linarith
  have h3 : 0 ≤ b * usedWeight k l (e / b) := mul_nonneg hb.1 hu.1
  have h4 : b * usedWeight k l (e / b) ≤ 1 := by
    rcases hb.1.eq_or_lt with h0 | h0
    · rw [← h0, zero_mul]
      exact zero_le_one
    have hw : 0 ≤ e / b := div_nonneg he.1 h0.le
    have hle : usedWeight k l (e / b) ≤ max 1 (e / b) := by
      have hsg : l < 1 → e / b / (1 - l + l * (e / b)) ≤ max 1 (e / b) := fun h => by
        have h5 : 0 < 1 - l + l * (e / b) := by nlinarith
        rw [div_le_iff₀ h5]
        rcases le_total (e / b) 1 with h6 | h6
        · rw [max_eq_left h6]
          nlinarith
        · rw [max_eq_right h6]
          nlinarith [mul_nonneg hl.le (mul_nonneg hw (sub_nonneg.2 h6))]
      cases k <;> simp only [usedWeight]
      case ipw => exact (min_le_left _ _).trans (le_max_right _ _)
      case dr => exact (min_le_left _ _).trans (le_max_right _ _)
      case switchDr =>
        split
        · exact le_max_right _ _
        · exact zero_le_one.trans (le_max_left _ _)
      case drOs =>
        refine le_trans ?_ (le_max_right _ _)
        have h5 : 0 < (e / b) ^ 2 + l := by positivity
        rw [div_le_iff₀ h5]
        nlinarith [pow_nonneg hw 3]
      case sgIpw => exact hsg (hl1 (.inl rfl))
      case sgDr => exact hsg (hl1 (.inr rfl))
      all_goals exact zero_le_one.trans (le_max_left _ _)
    calc b * usedWeight k l (e / b) ≤ b * max 1 (e / b) := mul_le_mul_of_nonneg_left hle h0.le
      _ = max b e := by rw [mul_max_of_nonneg _ _ h0.le, mul_one, mul_div_cancel₀ _ h0.ne']
      _ ≤ 1 := max_le hb.2 he.2
  rw [h2, abs_le]
  exact ⟨by linarith [he.1], by linarith [he.2]⟩

theorem LogStream.LoggedBy.lost_int (hs : s.LoggedBy P piB m) (hE : IsPolicy pos piE) {k : Kind} (hk : k.HasBias) {l : ℝ} (hl : 0 < l)
    (hl1 : k = .sgIpw ∨ k = .sgDr → l < 1) (a : Fin A) :
    Integrable (fun ω => lostProb k l (piE (s.ctx 0 ω) a (pos (s.ctx 0 ω))) (piB (s.ctx 0 ω) a)) P :=
  hs.ctx_int (lostProb_meas (hE.meas a) (hs.piB_meas a)) fun c => lostProb_abs_le hk hl hl1
    ⟨(hE.dist c _).nonneg a, hE.le_one c a⟩ ⟨(hs.piB_dist c).nonneg a, hs.piB_le_one c a⟩

/-- **C190.** The bias is at most the largest reward, times the mean evaluation probability that is not evaluated from the log. -/
theorem C190_bias_le (hs : s.LoggedBy P piB m) (hE : IsPolicy pos piE) {k : Kind} (hk : k.HasBias) {l R : ℝ} (hl : 0 < l)
    (hl1 : k = .sgIpw ∨ k = .sgDr → l < 1) (hqR : ∀ c a, q c a (pos c) ∈ Set.Icc 0 R) (hmR : ∀ c a, m c a ∈ Set.Icc 0 R) :
    |s.bias P piB m pos piE q k l| ≤ R * s.lost P piB pos piE k l := by
  unfold LogStream.bias LogStream.lost
  rw [← integral_const_mul]
  refine (abs_integral_le_integral_abs).trans (integral_mono_of_nonneg (ae_of_all _ fun _ => abs_nonneg _)
    ((integrable_finsetSum _ fun a _ => (hs.lost_int hE hk hl hl1 a).abs).const_mul R) (ae_of_all _ fun ω => ?_))
  dsimp only
  refine (Finset.abs_sum_le_sum_abs _ _).trans ?_
  rw [Finset.mul_sum]
  refine Finset.sum_le_sum fun a _ => ?_
  rw [abs_mul, mul_comm]
  refine mul_le_mul_of_nonneg_right ?_ (abs_nonneg _)
  have h1 := fallback_mem (k := k) (hqR (s.ctx 0 ω) a)
  have h2 := hmR (s.ctx 0 ω) a
  rw [abs_le]
  exact ⟨by linarith [h1.1, h2.2], by linarith [h1.2, h2.1]⟩

/-- **C190.** Errors beyond the bound of the bias are exponentially unlikely, whatever the importance weights. -/
theorem C190_error (hs : s.LoggedBy P piB m) (hE : IsPolicy pos piE) {k : Kind} (hk : k.HasBias) {l R : ℝ} (hl : 0 < l)
    (hl1 : k = .sgIpw ∨ k = .sgDr → l < 1) (hq : ∀ a, Measurable fun c => q c a (pos c)) (hR : ∀ᵐ ω ∂P, s.rew 0 ω ∈ Set.Icc 0 R)
    (hqR : ∀ c a, q c a (pos c) ∈ Set.Icc 0 R) (hmR : ∀ c a, m c a ∈ Set.Icc 0 R) {n : ℕ} (hn : 0 < n) {t : ℝ} (ht : 0 ≤ t) :
    P.real {ω | Misses ((⟨k, .fin l, false⟩ : Estimator ℝ).estimatePolicyValue (s.log piB pos piE q n ω).args)
      (s.value P pos piE m) (R * s.lost P piB pos piE k l + t)} ≤ 2 * Real.exp (-(2 * n * t ^ 2 / (k.spread l * R) ^ 2)) := by
  refine (measureReal_mono fun ω hω => ?_).trans (C190_around_bias hs hE hk hl hl1 hq hR hqR hmR hn ht)
  simp only [Set.mem_ofPred_eq] at hω ⊢
  rintro ⟨x, hx, h⟩
  refine hω ⟨x, hx, ?_⟩
  have hb := C190_bias_le (q := q) hs hE hk hl hl1 hqR hmR
  calc |x - s.value P pos piE m| = |(x - (s.value P pos piE m + s.bias P piB m pos piE q k l)) + s.bias P piB m pos piE q k l| := by
        congr 1; ring
    _ ≤ _ := abs_add_le _ _
    _ < _ := by linarith

theorem lostProb_fades {k : Kind} {lam : ℕ → ℝ} (hf : k.Fading lam) {e b : ℝ} (hb : 0 ≤ b)
    (h0 : b = 0 → e = 0) : Tendsto (fun n => |lostProb k (lam n) e b|) atTop (𝓝 0) := by
  rw [← abs_zero]
  refine Tendsto.abs ?_
  rcases hb.eq_or_lt with h | hb
  · have he0 := h0 h.symm
    have : ∀ n, lostProb k (lam n) e b = 0 := fun n => by
      cases k <;> simp [lostProb, he0, ← h]
    simp only [this]
    exact tendsto_const_nhds
  have big : Tendsto lam atTop atTop → ∀ᶠ n in atTop, e ≤ lam n * b := fun h => by
    have := (h.atTop_mul_const hb).eventually_ge_atTop e
    exact this
  have hsg : Tendsto lam atTop (𝓝 0) → Tendsto (fun n => e * (lam n * (e - b) / ((1 - lam n) * b + lam n * e))) atTop (𝓝 0) := fun h => by
    have h1 : Tendsto (fun n => e * (lam n * (e - b) / ((1 - lam n) * b + lam n * e))) atTop
        (𝓝 (e * (0 * (e - b) / ((1 - 0) * b + 0 * e)))) := by
      refine Tendsto.const_mul _ ((h.mul_const _).div ((((tendsto_const_nhds.sub h).mul_const _)).add (h.mul_const _)) ?_)
      simpa using hb.ne'
    simpa using h1
  cases k <;> simp only [Kind.Fading] at hf <;> simp only [lostProb]
  case ipw =>
    refine tendsto_const_nhds.congr' ?_
    filter_upwards [big hf] with n hn
    exact (max_eq_left (by linarith)).symm
  case dr =>
    refine tendsto_const_nhds.congr' ?_
    filter_upwards [big hf] with n hn
    exact (max_eq_left (by linarith)).symm
  case switchDr =>
    refine tendsto_const_nhds.congr' ?_
    filter_upwards [big hf] with n hn
    exact (if_neg hn.not_gt).symm
  case drOs =>
    have h1 : Tendsto (fun n => e ^ 2 + lam n * b ^ 2) atTop atTop :=
      tendsto_atTop_add_const_left _ _ (hf.atTop_mul_const (by positivity))
    simpa using (tendsto_const_nhds.div_atTop h1).const_mul e
  case sgIpw => exact hsg hf
  case sgDr => exact hsg hf

theorem Kind.Fading.hasBias {k : Kind} {lam : ℕ → ℝ} (hf : k.Fading lam) : k.HasBias := by
  cases k <;> simp [Kind.Fading, Kind.HasBias] at hf ⊢

theorem Kind.Fading.lt_one {k : Kind} {lam : ℕ → ℝ} (hf : k.Fading lam) : ∀ᶠ n in atTop, k = .sgIpw ∨ k = .sgDr → lam n < 1 := by
  by_cases hk : k = .sgIpw ∨ k = .sgDr
  · have h1 : Tendsto lam atTop (𝓝 0) := by rcases hk with rfl | rfl <;> exact hf
    filter_upwards [h1.eventually_lt_const zero_lt_one] with n hn _
    exact hn
  · exact Eventually.of_forall fun n h => absurd h hk

/-- **C190.** With common support, nothing is lost in the end. -/
theorem C190_lost_fades (hs : s.LoggedBy P piB m) (hE : Covers piB pos piE) {k : Kind} {lam : ℕ → ℝ} (hf : k.Fading lam)
    (hpos : ∀ n, 0 < lam n) : Tendsto (fun n => s.lost P piB pos piE k (lam n)) atTop (𝓝 0) := by
  have hE' : IsPolicy pos piE := ⟨hE.dist, hE.meas⟩
  have h0 : (0 : ℝ) = ∫ _, ∑ _a : Fin A, (0 : ℝ) ∂P := by simp
  rw [h0]
  refine tendsto_integral_filter_of_dominated_convergence (fun _ => (A : ℝ)) (Eventually.of_forall fun n => ?_) ?_ (integrable_const _)
    (ae_of_all _ fun ω => tendsto_finsetSum _ fun a _ => ?_)
  · exact ((Finset.measurable_fun_sum _ fun a _ => (lostProb_meas (hE.meas a) (hs.piB_meas a)).norm).comp
      (hs.ctx_meas 0)).aestronglyMeasurable
  · filter_upwards [hf.lt_one] with n hn
    refine ae_of_all _ fun ω => ?_
    rw [Real.norm_of_nonneg (Finset.sum_nonneg fun _ _ => abs_nonneg _)]
    refine (Finset.sum_le_sum fun a _ => lostProb_abs_le hf.hasBias (hpos n) hn
      ⟨(hE.dist _ _).nonneg a, hE'.le_one _ a⟩ ⟨(hs.piB_dist _).nonneg a, hs.piB_le_one _ a⟩).trans ?_
    simp
  · exact lostProb_fades hf ((hs.piB_dist _).nonneg a) (hE.support _ a)

/-- **C190.** If `lambda_` moves slowly enough to where weights are not changed (`spread² / n → 0`; for clipping `lambda_² / n → 0`), the
estimates are consistent although the importance weights may be unbounded. -/
theorem C190_growing (hs : s.LoggedBy P piB m) (hE : Covers piB pos piE) {k : Kind} {lam : ℕ → ℝ} (hf : k.Fading lam)
    (hpos : ∀ n, 0 < lam n) (hslow : Tendsto (fun n : ℕ => k.spread (lam n) ^ 2 / n) atTop (𝓝 0)) {R : ℝ}
    (hq : ∀ a, Measurable fun c => q c a (pos c)) (hR : ∀ᵐ ω ∂P, s.rew 0 ω ∈ Set.Icc 0 R)
    (hqR : ∀ c a, q c a (pos c) ∈ Set.Icc 0 R) (hmR : ∀ c a, m c a ∈ Set.Icc 0 R) {t : ℝ} (ht : 0 < t) :
    Tendsto (fun n => P.real {ω | Misses ((⟨k, .fin (lam n), false⟩ : Estimator ℝ).estimatePolicyValue
      (s.log piB pos piE q n ω).args) (s.value P pos piE m) t}) atTop (𝓝 0) := by
  have hE' : IsPolicy pos piE := ⟨hE.dist, hE.meas⟩
  set R' := max R 1 with hR'
  have up : ∀ {x : ℝ}, x ∈ Set.Icc 0 R → x ∈ Set.Icc 0 R' := fun h => ⟨h.1, h.2.trans (le_max_left _ _)⟩
  have hR0 : 0 < R' := zero_lt_one.trans_le (le_max_right _ _)
  have hsp : ∀ n, 0 < k.spread (lam n) := fun n => by
    have := hpos n
    have := Real.sqrt_pos.2 this
    cases k <;> simp only [Kind.Fading] at hf <;> simp only [Kind.spread, Kind.maxWeight] <;> positivity
  have hexp : Tendsto (fun n : ℕ => 2 * Real.exp (-(2 * n * (t / 2) ^ 2 / (k.spread (lam n) * R') ^ 2))) atTop (𝓝 0) := by
    have h1 : Tendsto (fun n : ℕ => (k.spread (lam n) ^ 2 / n)⁻¹) atTop atTop := by
      have hw : Tendsto (fun n : ℕ => k.spread (lam n) ^ 2 / n) atTop (𝓝[>] 0) := by
        refine tendsto_nhdsWithin_iff.2 ⟨hslow, ?_⟩
        filter_upwards [eventually_gt_atTop 0] with n hn
        have h2 : (0 : ℝ) < n := by exact_mod_cast hn
        have h3 := hsp n
        exact div_pos (pow_pos h3 2) h2
      exact hw.inv_tendsto_nhdsGT_zero
    have h2 : Tendsto (fun n : ℕ => t ^ 2 / (2 * R' ^ 2) * (k.spread (lam n) ^ 2 / n)⁻¹) atTop atTop :=
      h1.const_mul_atTop (by positivity)
    have h3 := (Real.tendsto_exp_neg_atTop_nhds_zero.comp h2).const_mul 2
    rw [mul_zero] at h3
    refine h3.congr fun n => ?_
    simp only [Function.comp]
    congr 3
    have := (hsp n).ne'
    rw [inv_div]
    field_simp
  refine tendsto_of_tendsto_of_tendsto_of_le_of_le' tendsto_const_nhds hexp (Eventually.of_forall fun _ => measureReal_nonneg) ?_
  have hl := (C190_lost_fades hs hE hf hpos).const_mul R'
  rw [mul_zero] at hl
  filter_upwards [hl.eventually_le_const (half_pos ht), hf.lt_one, eventually_gt_atTop 0] with n h1 h2 hn
  refine (measureReal_mono fun ω hω => ?_).trans (C190_error hs hE' hf.hasBias (hpos n) h2 hq (hR.mono fun _ => up)
    (fun c a => up (hqR c a)) (fun c a => up (hmR c a)) hn (half_pos ht).le)
  simp only [Set.mem_ofPred_eq] at hω ⊢
  rintro ⟨x, hx, h⟩
  exact hω ⟨x, hx, by linarith⟩

end stream

/-! ## Cases

A logger that always takes the second action, so that nothing is logged about the first; rewards are in `[0, 4]`. -/

section cases
open LogStream

/-- The logger. -/
noncomputable def exOnly : LogStream (ℕ → ExDie) Bool 2 := exLogger (fun _ _ => 1) 0

theorem exOnly_logged : exOnly.LoggedBy exDieMeasure (exDiePolicy fun _ _ => 1) exMean := exLogger_logged (fun _ _ => 1) 0

theorem exEval_policy : IsPolicy (fun _ : Bool => (0 : Fin 1)) exEval := ⟨exEval_covers.dist, exEval_covers.meas⟩

theorem exOnly_not_covered : ¬ LogStream.Covers (exDiePolicy fun _ _ => 1) (fun _ : Bool => (0 : Fin 1)) exEval := fun h => by
  have := h.support true 0 (by simp [exDiePolicy])
  norm_num [exEval] at this

theorem exMean_mem (c : Bool) (a : Fin 2) : exMean c a ∈ Set.Icc 0 4 := by
  cases c <;> fin_cases a <;> norm_num [exMean]

theorem exOnly_rew (ω : ℕ → ExDie) : exOnly.rew 0 ω ∈ Set.Icc 0 4 := by
  simp only [exOnly, exLogger]
  generalize ω (2 * 0 + 0) = o
  obtain ⟨c, b, r⟩ := o
  cases c <;> cases r <;> norm_num [exMean]

theorem exOnly_value : exOnly.value exDieMeasure (fun _ => (0 : Fin 1)) exEval exMean = 19 / 8 := by
  refine (exDie_integral (2 * 0 + 0) fun o => ∑ a, exEval o.1 a 0 * exMean o.1 a).trans ?_
  simp only [Fintype.sum_prod_type, Fintype.sum_bool, Fin.sum_univ_two, Finset.sum_const, Finset.card_univ]
  norm_num [exEval, exMean]

theorem exOnly_lost : exOnly.lost exDieMeasure (exDiePolicy fun _ _ => 1) (fun _ => (0 : Fin 1)) exEval .ipw 1 = 1 / 2 := by
  refine (exDie_integral (2 * 0 + 0) fun o =>
    ∑ a, |lostProb .ipw 1 (exEval o.1 a 0) (exDiePolicy (fun _ _ => 1) o.1 a)|).trans ?_
  simp only [Fintype.sum_prod_type, Fintype.sum_bool, Fin.sum_univ_two, Finset.sum_const, Finset.card_univ]
  norm_num [exEval, exDiePolicy, lostProb]

/-- Inverse propensity weighting without common support, weights clipped at one: half of the evaluation probability is lost, and the
estimate is hardly off by more than half of the largest reward. -/
example {n : ℕ} (hn : 0 < n) {t : ℝ} (ht : 0 ≤ t) : exDieMeasure.real {ω | Misses
      ((⟨.ipw, .fin 1, false⟩ : Estimator ℝ).estimatePolicyValue
        (exOnly.log (exDiePolicy fun _ _ => 1) (fun _ => (0 : Fin 1)) exEval (fun _ _ _ => 0) n ω).args) (19 / 8) (4 * (1 / 2) + t)} ≤
    2 * Real.exp (-(2 * n * t ^ 2 / (1 * 4) ^ 2)) := by
  rw [← exOnly_value, ← exOnly_lost]
  exact C190_error exOnly_logged exEval_policy (by simp [Kind.HasBias]) one_pos (by simp) (fun _ => measurable_const)
    (ae_of_all _ exOnly_rew) (fun _ _ => by norm_num) exMean_mem hn ht

/-- Doubly robust estimates with exact predictions have no bias there. -/
example {n : ℕ} (hn : 0 < n) {t : ℝ} (ht : 0 ≤ t) : exDieMeasure.real {ω | Misses
      ((⟨.dr, .fin 1, false⟩ : Estimator ℝ).estimatePolicyValue
        (exOnly.log (exDiePolicy fun _ _ => 1) (fun _ => (0 : Fin 1)) exEval (fun c a _ => exMean c a) n ω).args) (19 / 8) t} ≤
    2 * Real.exp (-(2 * n * t ^ 2 / ((1 + 2 * 1) * 4) ^ 2)) := by
  have h0 : exOnly.bias exDieMeasure (exDiePolicy fun _ _ => 1) exMean (fun _ => (0 : Fin 1)) exEval (fun c a _ => exMean c a) .dr 1 = 0 := by
    simp [LogStream.bias, Kind.fallback]
  have := C190_around_bias (q := fun c a _ => exMean c a) (k := .dr) (l := 1) (R := 4) exOnly_logged exEval_policy (by simp [Kind.HasBias])
    one_pos (by simp) (fun _ => measurable_of_finite _) (ae_of_all _ exOnly_rew) exMean_mem exMean_mem hn ht
  rwa [exOnly_value, h0, add_zero] at this

/-- Clipping at the fourth root of the number of rounds. -/
example {t : ℝ} (ht : 0 < t) : Tendsto (fun n : ℕ => (Measure.infinitePi fun _ : ℕ => exRoundLaw).real {ω | Misses
      ((⟨.ipw, .fin √√(n + 1), false⟩ : Estimator ℝ).estimatePolicyValue
        (exStream.log (fun _ _ => 1 / 2) (fun _ => (0 : Fin 1)) exEval (fun _ _ _ => 0) n ω).args) (19 / 8) t}) atTop (𝓝 0) := by
  have h1 : Tendsto (fun n : ℕ => (n : ℝ) + 1) atTop atTop := tendsto_atTop_add_const_right _ _ tendsto_natCast_atTop_atTop
  have h2 : Tendsto (fun n : ℕ => √((n : ℝ) + 1)) atTop atTop := Real.tendsto_sqrt_atTop.comp h1
  rw [← exStream_value]
  refine C190_growing (R := 4) exStream_logged exEval_covers (k := .ipw) (lam := fun n : ℕ => √√((n : ℝ) + 1))
    (Real.tendsto_sqrt_atTop.comp h2) (fun n => by positivity) ?_ (fun _ => measurable_const) (ae_of_all _ fun ω => ?_)
    (fun _ _ => by norm_num) exMean_mem ht
  · have h3 : Tendsto (fun n : ℕ => ((n : ℝ) + 1) / n) atTop (𝓝 1) := by
      have : Tendsto (fun n : ℕ => 1 + 1 / (n : ℝ)) atTop (𝓝 (1 + 0)) := tendsto_const_nhds.add tendsto_one_div_atTop_nhds_zero_nat
      rw [add_zero] at this
      refine this.congr' ?_
      filter_upwards [eventually_gt_atTop 0] with n hn
      have : (n : ℝ) ≠ 0 := by exact_mod_cast hn.ne'
      field_simp
    refine (h3.div_atTop h2).congr fun n => ?_
    simp only [Kind.spread, Kind.maxWeight]
    have hp : (0 : ℝ) ≤ (n : ℝ) + 1 := by positivity
    rw [Real.sq_sqrt (Real.sqrt_nonneg _), div_right_comm, Real.div_sqrt]
  · change exReward (ω 0) ∈ Set.Icc 0 4
    unfold exReward exMean
    generalize (ω 0).2.1 = a
    fin_cases a <;> constructor <;> split <;> split <;> norm_num

end cases

end Obp
