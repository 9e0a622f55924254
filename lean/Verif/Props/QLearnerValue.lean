import Verif.Props.Offline
import Verif.Spec.LearnStream
import Verif.Spec.StreamBias
import Verif.Lemmas.LogStream
import Verif.Props.Consistency

set_option linter.unusedSectionVars false

/-!
# How good policies from predicted rewards are

C191: what inaccurate predictions cost the policies of `QLearner.predict` and `QLearner.predict_proba`.
-/

namespace Obp
open MeasureTheory ProbabilityTheory LogStream

section rows
variable {A : ℕ}

/-- A policy that is good for the predictions `q` is good for the expected rewards `r`. -/
theorem loss_le {d v q r : Fin A → ℝ} {kappa : ℝ}
    (h : ∑ a, d a * q a ≤ ∑ a, v a * q a + kappa) :
    ∑ a, d a * r a ≤ ∑ a, v a * r a + ∑ a, |d a - v a| * |q a - r a| + kappa := by
  have h1 : ∑ a, d a * r a - ∑ a, v a * r a - (∑ a, d a * q a - ∑ a, v a * q a) ≤ ∑ a, |d a - v a| * |q a - r a| := by
    rw [← Finset.sum_sub_distrib, ← Finset.sum_sub_distrib, ← Finset.sum_sub_distrib]
    refine Finset.sum_le_sum fun a _ => ?_
    rw [← abs_mul]
    refine le_trans (le_of_eq ?_) (neg_abs_le _ |> neg_le.1)
    ring
  linarith

theorem dist_le_one {d : Fin A → ℝ} (hd : IsDist d) (a : Fin A) : d a ≤ 1 := by
  rw [← hd.sum_one]
  exact Finset.single_le_sum (fun b _ => hd.nonneg b) (Finset.mem_univ a)

theorem loss_le_total {d v q r : Fin A → ℝ} (hd : IsDist d) (hv : IsDist v) {kappa : ℝ}
    (h : ∑ a, d a * q a ≤ ∑ a, v a * q a + kappa) :
    ∑ a, d a * r a ≤ ∑ a, v a * r a + ∑ a, |q a - r a| + kappa := by
  have h1 : ∑ a, |d a - v a| * |q a - r a| ≤ ∑ a, |q a - r a| := Finset.sum_le_sum fun a _ => by
    refine mul_le_of_le_one_left (abs_nonneg _) (abs_le.2 ⟨?_, ?_⟩)
    · linarith [hd.nonneg a, dist_le_one hv a]
    · linarith [hv.nonneg a, dist_le_one hd a]
  linarith [loss_le (r := r) h]

theorem loss_le_max {d v q r : Fin A → ℝ} (hd : IsDist d) (hv : IsDist v) {kappa e : ℝ} (he : ∀ a, |q a - r a| ≤ e)
    (h : ∑ a, d a * q a ≤ ∑ a, v a * q a + kappa) : ∑ a, d a * r a ≤ ∑ a, v a * r a + 2 * e + kappa := by
  have h1 : ∑ a, |d a - v a| * |q a - r a| ≤ 2 * e := by
    calc ∑ a, |d a - v a| * |q a - r a| ≤ ∑ a, (d a + v a) * e := Finset.sum_le_sum fun a _ => by
          refine mul_le_mul ?_ (he a) (abs_nonneg _) (add_nonneg (hd.nonneg a) (hv.nonneg a))
          exact abs_le.2 ⟨by linarith [hd.nonneg a, hv.nonneg a], by linarith [hd.nonneg a, hv.nonneg a]⟩
      _ = 2 * e := by
          rw [← Finset.sum_mul, Finset.sum_add_distrib, hd.sum_one, hv.sum_one]
          ring
  linarith [loss_le (r := r) h]

theorem pointMass_dist (b : Fin A) : IsDist fun a => (pointMass b a : ℝ) := by
  refine ⟨fun a => ?_, by simp [pointMass]⟩
  unfold pointMass
  split <;> norm_num

theorem firstBest_opt {d q : Fin A → ℝ} (hd : IsDist d) {b : Fin A} (hb : IsFirstBest q b) :
    ∑ a, d a * q a ≤ ∑ a, pointMass b a * q a + 0 := by
  have e : ∑ a, pointMass b a * q a = q b := by simp [pointMass]
  rw [e, add_zero, ← one_mul (q b), ← hd.sum_one, Finset.sum_mul]
  exact Finset.sum_le_sum fun a _ => mul_le_mul_of_nonneg_left (hb.best a) (hd.nonneg a)

/-- Boltzmann probabilities lose at most temperature times the logarithm of the number of actions. -/
theorem boltzmann_opt {d v q : Fin A → ℝ} (hd : IsDist d) {tau : ℝ} (ht : 0 < tau) (hv : IsDist v) (hpos : ∀ a, 0 < v a)
    (hodds : ∀ a b, v a / v b = Real.exp ((q a - q b) / tau)) :
    ∑ a, d a * q a ≤ ∑ a, v a * q a + tau * Real.log A := by
  have hA : 0 < A := by
    rcases Nat.eq_zero_or_pos A with rfl | h
    · simpa using hd.sum_one
    · exact h
  have hA' : (0 : ℝ) < A := by exact_mod_cast hA
  -- every action alone
  have key : ∀ b, q b ≤ ∑ a, v a * q a + tau * Real.log A := by
    intro b
    have hlog : ∀ a, q a = q b + tau * (Real.log (v a) - Real.log (v b)) := fun a => by
      rw [← Real.log_div (hpos a).ne' (hpos b).ne', hodds, Real.log_exp]
      field_simp
      ring
    have hb0 : Real.log (v b) ≤ 0 := Real.log_nonpos (hpos b).le (dist_le_one hv b)
    have hent : -Real.log A ≤ ∑ a, v a * Real.log (v a) := by
      have h1 : ∀ a, v a * Real.log (1 / (A * v a)) ≤ 1 / A - v a := fun a => by
        have h2 := Real.log_le_sub_one_of_pos (show 0 < 1 / (A * v a) by have := hpos a; positivity)
        have h3 := mul_le_mul_of_nonneg_left h2 (hpos a).le
        refine h3.trans_eq ?_
        have := (hpos a).ne'
        field_simp
      have h4 := Finset.sum_le_sum fun a (_ : a ∈ Finset.univ) => h1 a
      rw [Finset.sum_sub_distrib, hv.sum_one, Finset.sum_const, Finset.card_univ, Fintype.card_fin, nsmul_eq_mul,
        mul_one_div_cancel hA'.ne', sub_self] at h4
      have h5 : ∑ a, v a * Real.log (1 / (A * v a)) = -Real.log A - ∑ a, v a * Real.log (v a) := by
        have : ∀ a, v a * Real.log (1 / (A * v a)) = v a * -Real.log A - v a * Real.log (v a) := fun a => by
          rw [one_div, Real.log_inv, Real.log_mul hA'.ne' (hpos a).ne']
          ring
        simp_rw [this]
        rw [Finset.sum_sub_distrib, ← Finset.sum_mul, hv.sum_one, one_mul]
      linarith
    have hsum : ∑ a, v a * q a = q b + tau * (∑ a, v a * Real.log (v a) - Real.log (v b)) := by
      calc ∑ a, v a * q a = ∑ a, (v a * (q b - tau * Real.log (v b)) + tau * (v a * Real.log (v a))) :=
            Finset.sum_congr rfl fun a _ => by rw [hlog a]; ring
        _ = _ := by
            rw [Finset.sum_add_distrib, ← Finset.sum_mul, hv.sum_one, ← Finset.mul_sum]
            ring
    rw [hsum]
    nlinarith
  calc ∑ a, d a * q a ≤ ∑ a, d a * (∑ a, v a * q a + tau * Real.log A) :=
        Finset.sum_le_sum fun a _ => mul_le_mul_of_nonneg_left (key a) (hd.nonneg a)
    _ = _ := by rw [← Finset.sum_mul, hd.sum_one, one_mul]

end rows

section
variable {M : Type} {n A L d : ℕ}

/-- **C191.** If the predicted rewards of round `i` and position `p` are within `e i p` of the expected rewards `r i · p`, then the
choice of `predict` there is at most `2 * e i p` worse than any choice of action, even a random one; and if one action is better
than all others by more than `2 * e i p`, it is the one that is chosen. -/
theorem C191_predict [NeZero A] (lrn : Learner M ℝ) (method : FitMethod) (ms : Fin L → M) (c : Fin n → Fin d → ℝ)
    {tau : ℝ} (ht : 0 ≤ tau) {r : Fin n → Fin A → Fin L → ℝ} {e : Fin n → Fin L → ℝ}
    (he : ∀ i a p, |qValue lrn c i (ms p) a - r i a p| ≤ e i p) :
    ∃ out : Fin n → Fin A → Fin L → ℝ,
      qLearnerPredict lrn (qConfig ℝ A L method) ms (.arr ⟨n, d, c⟩) (.flt tau) = .ok (List.ofFn out) ∧
      (∀ i p v, IsDist v → ∑ a, v a * r i a p - 2 * e i p ≤ ∑ a, out i a p * r i a p) ∧
      ∀ i p b, (∀ a ≠ b, r i a p + 2 * e i p < r i b p) → out i b p = 1 := by
  obtain ⟨best, hb, h⟩ := C70_q (A := A) lrn method ms c ht
  refine ⟨_, h, fun i p v hv => ?_, fun i p b hgap => ?_⟩
  · have := loss_le_max (r := fun a => r i a p) hv (pointMass_dist (best i p)) (fun a => he i a p) (firstBest_opt hv (hb i p))
    linarith
  · have hbb : b = best i p := by
      by_contra hne
      have h1 := hgap _ (Ne.symm hne)
      have h2 := (hb i p).best b
      have h3 := abs_le.1 (he i b p)
      have h4 := abs_le.1 (he i (best i p) p)
      linarith
    simp only [pointMass, if_pos hbb]

/-- **C191.** The random choice of `predict_proba` is at most `2 * e i p` plus temperature times the logarithm of the number of
actions worse than any choice. -/
theorem C191_predict_proba [NeZero A] (lrn : Learner M ℝ) (method : FitMethod) (ms : Fin L → M) (c : Fin n → Fin d → ℝ)
    {tau : ℝ} (ht : 0 < tau) {r : Fin n → Fin A → Fin L → ℝ} {e : Fin n → Fin L → ℝ}
    (he : ∀ i a p, |qValue lrn c i (ms p) a - r i a p| ≤ e i p) :
    ∃ out : Fin n → Fin A → Fin L → ℝ,
      qLearnerPredictProba lrn (qConfig ℝ A L method) ms (.arr ⟨n, d, c⟩) (.flt tau) = .ok (List.ofFn out) ∧
      ∀ i p v, IsDist v → ∑ a, v a * r i a p - 2 * e i p - tau * Real.log A ≤ ∑ a, out i a p * r i a p := by
  obtain ⟨out, h, hb⟩ := C101_q (A := A) lrn method ms c ht
  refine ⟨out, h, fun i p v hv => ?_⟩
  have ho : IsDist fun a => out i a p := ⟨fun a => ((hb i).pos a p).le, (hb i).sum_one p⟩
  have := loss_le_max (r := fun a => r i a p) hv ho (fun a => he i a p)
    (boltzmann_opt hv ht ho (fun a => (hb i).pos a p) fun a b => (hb i).odds a b p)
  linarith

end

section stream
variable {Ω C M : Type} [MeasurableSpace Ω] [MeasurableSpace C] {A d : ℕ} {P : Measure Ω} [IsProbabilityMeasure P]
variable {s : LogStream Ω C A} {piB m : C → Fin A → ℝ} {feat : C → Fin d → ℝ}

/-- If the logging policy takes every action with probability at least `1 / W`, policies are compared on all contexts at the price
of `W` times the root mean square error on logged rounds. -/
theorem value_loss (hs : s.LoggedBy P piB m) {W : ℝ} (hW : ∀ c a, 1 ≤ W * piB c a) {q : C → Fin A → ℝ}
    (hq : ∀ a, Measurable fun c => q c a)
    (h2 : MemLp (fun ω => q (s.ctx 0 ω) (s.act 0 ω) - m (s.ctx 0 ω) (s.act 0 ω)) 2 P) {piE pol : C → Fin A → Fin 1 → ℝ}
    (hE : IsPolicy (fun _ => 0) piE) (hpol : IsPolicy (fun _ => 0) pol) {kappa : ℝ}
    (hopt : ∀ c, ∑ a, piE c a 0 * q c a ≤ ∑ a, pol c a 0 * q c a + kappa) :
    s.value P (fun _ => 0) piE m ≤ s.value P (fun _ => 0) pol m +
      W * √(∫ ω, (q (s.ctx 0 ω) (s.act 0 ω) - m (s.ctx 0 ω) (s.act 0 ω)) ^ 2 ∂P) + kappa := by
  have hpos : ∀ c a, 0 < piB c a := fun c a => by
    rcases (hs.piB_dist c).nonneg a |>.lt_or_eq with h | h
    · exact h
    · have := hW c a
      rw [← h] at this
      norm_num at this
  have hW0 : ∀ c : C, ∀ a : Fin A, 0 < W := fun c a => by
    by_contra hn
    have := hW c a
    nlinarith [hpos c a]
  have hem : ∀ a, Measurable fun c => |q c a - m c a| := fun a =>
    continuous_abs.measurable.comp ((hq a).sub (hs.m_meas a))
  -- functions of the context are integrable if those of logged rounds are
  have lift : ∀ {h : C → Fin A → ℝ}, (∀ a, Measurable fun c => h c a) →
      Integrable (fun ω => h (s.ctx 0 ω) (s.act 0 ω)) P → ∀ a, Integrable (fun ω => h (s.ctx 0 ω) a) P := by
    intro h hm hi a
    have h1 := ((hs.integrable_iff hm).1 hi a).norm.const_mul W
    refine h1.mono' ((hm a).comp (hs.ctx_meas 0)).aestronglyMeasurable (ae_of_all _ fun ω => ?_)
    rw [norm_mul, Real.norm_of_nonneg (hpos _ a).le, ← mul_assoc]
    exact le_mul_of_one_le_left (norm_nonneg _) (hW _ a)
  have him : ∀ a, Integrable (fun ω => m (s.ctx 0 ω) a) P := by
    refine lift hs.m_meas ?_
    have := (hs.integral_reward (h := fun _ _ => 1) (fun a => measurable_const) (by simpa using hs.rew_int)).1
    simpa using this
  have hie1 : Integrable (fun ω => |q (s.ctx 0 ω) (s.act 0 ω) - m (s.ctx 0 ω) (s.act 0 ω)|) P :=
    (h2.integrable (by norm_num)).abs
  have hie : ∀ a, Integrable (fun ω => |q (s.ctx 0 ω) a - m (s.ctx 0 ω) a|) P := lift (h := fun c a => |q c a - m c a|) hem hie1
  have hval : ∀ {p : C → Fin A → Fin 1 → ℝ}, IsPolicy (fun _ => (0 : Fin 1)) p →
      Integrable (fun ω => ∑ a, p (s.ctx 0 ω) a 0 * m (s.ctx 0 ω) a) P := fun hp =>
    integrable_finsetSum _ fun a _ => (him a).bdd_mul (c := 1) ((hp.meas a).comp (hs.ctx_meas 0)).aestronglyMeasurable
      (ae_of_all _ fun ω => by
        rw [Real.norm_of_nonneg ((hp.dist _ 0).nonneg a)]
        exact dist_le_one (hp.dist _ 0) a)
  have hsumi : Integrable (fun ω => ∑ a, |q (s.ctx 0 ω) a - m (s.ctx 0 ω) a|) P := integrable_finsetSum _ fun a _ => hie a
  -- pointwise
  have h1 : s.value P (fun _ => 0) piE m ≤ s.value P (fun _ => 0) pol m +
      ∫ ω, ∑ a, |q (s.ctx 0 ω) a - m (s.ctx 0 ω) a| ∂P + kappa := by
    have hk : ∫ _ : Ω, kappa ∂P = kappa := by simp
    have hadd : Integrable (fun ω => ∑ a, pol (s.ctx 0 ω) a 0 * m (s.ctx 0 ω) a +
        ∑ a, |q (s.ctx 0 ω) a - m (s.ctx 0 ω) a|) P := (hval hpol).add hsumi
    unfold LogStream.value
    rw [← hk, ← integral_add (hval hpol) hsumi, ← integral_add hadd (integrable_const kappa)]
    refine integral_mono (hval hE) (hadd.add (integrable_const kappa)) fun ω => ?_
    have := loss_le_total (r := m (s.ctx 0 ω)) (hE.dist (s.ctx 0 ω) 0) (hpol.dist (s.ctx 0 ω) 0) (hopt (s.ctx 0 ω))
    simpa using this
  -- to logged rounds
  have hib : ∀ a, Integrable (fun ω => piB (s.ctx 0 ω) a * |q (s.ctx 0 ω) a - m (s.ctx 0 ω) a|) P :=
    (hs.integrable_iff (h := fun c a => |q c a - m c a|) hem).1 hie1
  have h3 : ∫ ω, ∑ a, |q (s.ctx 0 ω) a - m (s.ctx 0 ω) a| ∂P ≤
      W * ∫ ω, |q (s.ctx 0 ω) (s.act 0 ω) - m (s.ctx 0 ω) (s.act 0 ω)| ∂P := by
    rw [hs.integral_eq (h := fun c a => |q c a - m c a|) hem hib, ← integral_const_mul]
    refine integral_mono hsumi ((integrable_finsetSum _ fun a _ => hib a).const_mul W) fun ω => ?_
    dsimp only
    rw [Finset.mul_sum]
    refine Finset.sum_le_sum fun a _ => ?_
    rw [← mul_assoc]
    exact le_mul_of_one_le_left (abs_nonneg _) (hW _ a)
  -- root mean square
  have h4 : ∫ ω, |q (s.ctx 0 ω) (s.act 0 ω) - m (s.ctx 0 ω) (s.act 0 ω)| ∂P ≤
      √(∫ ω, (q (s.ctx 0 ω) (s.act 0 ω) - m (s.ctx 0 ω) (s.act 0 ω)) ^ 2 ∂P) := by
    refine Real.le_sqrt_of_sq_le ?_
    have hv := variance_nonneg (fun ω => |q (s.ctx 0 ω) (s.act 0 ω) - m (s.ctx 0 ω) (s.act 0 ω)|) P
    rw [variance_eq_sub (by simpa using h2.norm)] at hv
    simp only [Pi.pow_apply, sq_abs] at hv
    linarith
  obtain ⟨ω0⟩ : Nonempty Ω := P.nonempty_of_neZero
  have hW' := hW0 (s.ctx 0 ω0) (s.act 0 ω0)
  have h5 := mul_le_mul_of_nonneg_left h4 hW'.le
  linarith

/-- The reward that the fitted model `lrn` in state `w` predicts for action `a` at context `c`. -/
noncomputable def predictedReward (lrn : Learner M ℝ) (w : M) (feat : C → Fin d → ℝ) (c : C) (a : Fin A) : ℝ :=
  lrn.predict w (List.ofFn (feat c) ++ List.ofFn fun b : Fin A => if a = b then 1 else 0)

theorem firstBest_meas {q : C → Fin A → ℝ} (hq : ∀ a, Measurable fun c => q c a) {best : C → Fin A}
    (hb : ∀ c, IsFirstBest (q c) (best c)) : Measurable best := by
  refine measurable_to_countable' fun b => ?_
  have : best ⁻¹' {b} = {c | (∀ a, q c a ≤ q c b) ∧ ∀ a < b, q c a < q c b} := by
    ext c
    simp only [Set.mem_preimage, Set.mem_singleton_iff, Set.mem_ofPred_eq]
    constructor
    · rintro rfl
      exact ⟨(hb c).best, (hb c).first⟩
    · rintro ⟨h1, h2⟩
      rcases lt_trichotomy (best c) b with h | h | h
      · exact absurd ((hb c).best b) (not_le.2 (h2 _ h))
      · exact h
      · exact absurd (h1 (best c)) (not_le.2 ((hb c).first _ h))
  rw [this]
  have e : {c | (∀ a, q c a ≤ q c b) ∧ ∀ a < b, q c a < q c b} =
      (⋂ a, {c | q c a ≤ q c b}) ∩ ⋂ a, ⋂ _ : a < b, {c | q c a < q c b} := by
    ext c
    simp
  rw [e]
  exact (MeasurableSet.iInter fun a => measurableSet_le (hq a) (hq b)).inter
    (MeasurableSet.iInter fun a => MeasurableSet.iInter fun _ => measurableSet_lt (hq a) (hq b))

/-- **C191.** Let the logging policy take every action with probability at least `1 / W`. Then the true value of the policy that
`predict` follows on all contexts is below that of any policy by at most `W` times the root mean square error of the predictions
on logged rounds. -/
theorem C191_value [NeZero A] (hs : s.LoggedBy P piB m) {W : ℝ} (hW : ∀ c a, 1 ≤ W * piB c a) (lrn : Learner M ℝ)
    (method : FitMethod) (ms : Fin 1 → M) (hq : ∀ a, Measurable fun c => predictedReward (A := A) lrn (ms 0) feat c a)
    (h2 : MemLp (fun ω => predictedReward lrn (ms 0) feat (s.ctx 0 ω) (s.act 0 ω) - m (s.ctx 0 ω) (s.act 0 ω)) 2 P)
    {tau : ℝ} (ht : 0 ≤ tau) :
    ∃ pol : C → Fin A → Fin 1 → ℝ,
      (∀ c, qLearnerPredict lrn (qConfig ℝ A 1 method) ms (.arr ⟨1, d, fun _ => feat c⟩) (.flt tau) = .ok [pol c]) ∧
      IsPolicy (fun _ => 0) pol ∧
      ∀ piE : C → Fin A → Fin 1 → ℝ, IsPolicy (fun _ => 0) piE → s.value P (fun _ => 0) piE m ≤ s.value P (fun _ => 0) pol m +
        W * √(∫ ω, (predictedReward lrn (ms 0) feat (s.ctx 0 ω) (s.act 0 ω) - m (s.ctx 0 ω) (s.act 0 ω)) ^ 2 ∂P) := by
  choose best hb h using fun c : C => C70_q (A := A) lrn method ms (fun _ : Fin 1 => feat c) ht
  have hb' : ∀ c, IsFirstBest (predictedReward lrn (ms 0) feat c) (best c 0 0) := fun c => hb c 0 0
  have hpol : IsPolicy (fun _ => (0 : Fin 1)) fun c a (_ : Fin 1) => (pointMass (best c 0 0) a : ℝ) :=
    ⟨fun c _ => pointMass_dist _, fun a => (measurable_of_finite fun b : Fin A => (pointMass b a : ℝ)).comp (firstBest_meas hq hb')⟩
  refine ⟨fun c a _ => pointMass (best c 0 0) a, fun c => ?_, hpol, fun piE hE => ?_⟩
  · rw [h c, List.ofFn_succ, List.ofFn_zero]
    congr 2
    funext a p
    obtain rfl : p = 0 := Subsingleton.elim _ _
    rfl
  · have := value_loss hs hW hq h2 hE hpol fun c => firstBest_opt (hE.dist c 0) (hb' c)
    linarith

/-- **C191.** For the random policy of `predict_proba` the temperature times the logarithm of the number of actions is added. -/
theorem C191_value_proba [NeZero A] (hs : s.LoggedBy P piB m) {W : ℝ} (hW : ∀ c a, 1 ≤ W * piB c a) (lrn : Learner M ℝ)
    (method : FitMethod) (ms : Fin 1 → M) (hq : ∀ a, Measurable fun c => predictedReward (A := A) lrn (ms 0) feat c a)
    (h2 : MemLp (fun ω => predictedReward lrn (ms 0) feat (s.ctx 0 ω) (s.act 0 ω) - m (s.ctx 0 ω) (s.act 0 ω)) 2 P)
    {tau : ℝ} (ht : 0 < tau) :
    ∃ pol : C → Fin A → Fin 1 → ℝ,
      (∀ c, qLearnerPredictProba lrn (qConfig ℝ A 1 method) ms (.arr ⟨1, d, fun _ => feat c⟩) (.flt tau) = .ok [pol c]) ∧
      IsPolicy (fun _ => 0) pol ∧
      ∀ piE : C → Fin A → Fin 1 → ℝ, IsPolicy (fun _ => 0) piE → s.value P (fun _ => 0) piE m ≤ s.value P (fun _ => 0) pol m +
        W * √(∫ ω, (predictedReward lrn (ms 0) feat (s.ctx 0 ω) (s.act 0 ω) - m (s.ctx 0 ω) (s.act 0 ω)) ^ 2 ∂P) +
          tau * Real.log A := by
  choose out h hb using fun c : C => C101_q (A := A) lrn method ms (fun _ : Fin 1 => feat c) ht
  have hd : ∀ c l, IsDist fun a => out c 0 a l := fun c l => ⟨fun a => ((hb c 0).pos a l).le, (hb c 0).sum_one l⟩
  have hv : ∀ c a, out c 0 a 0 = (∑ b : Fin A, Real.exp ((predictedReward lrn (ms 0) feat c b - predictedReward lrn (ms 0) feat c a) / tau))⁻¹ := by
    intro c a
    have h1 : ∑ b : Fin A, Real.exp ((predictedReward lrn (ms 0) feat c b - predictedReward lrn (ms 0) feat c a) / tau) =
        (∑ b, out c 0 b 0) / out c 0 a 0 := by
      rw [Finset.sum_div]
      exact Finset.sum_congr rfl fun b _ => ((hb c 0).odds b a 0).symm
    rw [h1, (hb c 0).sum_one, one_div, inv_inv]
  have hpol : IsPolicy (fun _ => (0 : Fin 1)) fun c a l => out c 0 a l := by
    refine ⟨hd, fun a => ?_⟩
    simp_rw [hv]
    exact (Finset.measurable_sum _ fun b _ => Real.measurable_exp.comp (((hq b).sub (hq a)).div_const tau)).inv
  refine ⟨fun c => out c 0, fun c => ?_, hpol, fun piE hE => ?_⟩
  · rw [h c, List.ofFn_succ, List.ofFn_zero]
  · exact value_loss hs hW hq h2 hE hpol fun c => boltzmann_opt (hE.dist c 0) ht (hd c 0) (fun a => (hb c 0).pos a 0)
      fun a b => (hb c 0).odds a b 0

end stream

/-- Predicts the number `w` for action 0 and 2 for action 1, whatever the context. -/
def exTwoRewards : Learner ℝ ℝ where
  fit w _ _ _ := .ok w
  predict w x := w * x.getD 1 0 + 2 * x.getD 2 0

/-- Predictions 3 and 2 for expected rewards 2.5 and 2.25: the first action is chosen, and is the better one. -/
example := C191_predict (A := 2) (L := 1) exTwoRewards .normal (fun _ => 3) (fun (_ : Fin 2) (_ : Fin 1) => 7) (tau := 1) (by norm_num)
  (r := fun _ a _ => ![5 / 2, 9 / 4] a) (e := fun _ _ => 1 / 2) (by
    intro i a p
    fin_cases a <;> norm_num [qValue, exTwoRewards, abs_le])
example := C191_predict_proba (A := 2) (L := 1) exTwoRewards .normal (fun _ => 3) (fun (_ : Fin 2) (_ : Fin 1) => 7) (tau := 1)
  (by norm_num) (r := fun _ a _ => ![5 / 2, 9 / 4] a) (e := fun _ _ => 1 / 2) (by
    intro i a p
    fin_cases a <;> norm_num [qValue, exTwoRewards, abs_le])

theorem exStream_bounded (h : Bool → Fin 2 → ℝ) :
    MemLp (fun ω => h (exStream.ctx 0 ω) (exStream.act 0 ω)) 2 (Measure.infinitePi fun _ : ℕ => exRoundLaw) := by
  have hm : Measurable fun ω : ℕ → ExRound => h (exStream.ctx 0 ω) (exStream.act 0 ω) :=
    (measurable_of_finite fun o : ExRound => h o.1 o.2.1).comp (measurable_pi_apply 0)
  obtain ⟨B, hB⟩ := (Set.finite_range fun o : ExRound => ‖h o.1 o.2.1‖).bddAbove
  exact MemLp.of_bound hm.aestronglyMeasurable B (ae_of_all _ fun ω => hB ⟨ω 0, rfl⟩)

/-- A log with uniformly random actions of two, so `W = 2`. -/
example := C191_value (feat := fun (_ : Bool) (_ : Fin 1) => (7 : ℝ)) exStream_logged (W := 2) (by norm_num) exTwoRewards .normal
  (fun _ => 3) (fun a => measurable_of_finite _)
  (exStream_bounded fun c a => predictedReward exTwoRewards 3 (fun (_ : Bool) (_ : Fin 1) => (7 : ℝ)) c a - exMean c a)
  (tau := 1) (by norm_num)
example := C191_value_proba (feat := fun (_ : Bool) (_ : Fin 1) => (7 : ℝ)) exStream_logged (W := 2) (by norm_num) exTwoRewards
  .normal (fun _ => 3) (fun a => measurable_of_finite _)
  (exStream_bounded fun c a => predictedReward exTwoRewards 3 (fun (_ : Bool) (_ : Fin 1) => (7 : ℝ)) c a - exMean c a)
  (tau := 1) (by norm_num)

end Obp
