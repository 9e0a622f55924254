import Verif.Lemmas.IidClt
import Verif.Props.TunedConsistency

set_option linter.unusedSectionVars false

/-!
# Averages of independent numbers compared with their empirical standard error
-/

namespace Obp
open MeasureTheory ProbabilityTheory Filter Topology Log

variable {Ω : Type} [MeasurableSpace Ω] {P : Measure Ω} [IsProbabilityMeasure P]
variable {S : Type} [MeasurableSpace S] {Z : ℕ → Ω → S}

theorem avg_measurable {n : ℕ} {f : Fin n → Ω → ℝ} (h : ∀ i, Measurable (f i)) : Measurable fun ω => avg fun i => f i ω := by
  unfold avg
  exact (Finset.measurable_fun_sum Finset.univ fun i _ => h i).div_const (n : ℝ)

theorem Iid.popVar_meas (hZ : Iid P Z) {F : S → ℝ} (hF : Measurable F) (n : ℕ) :
    Measurable fun ω => popVar fun i : Fin n => F (Z i ω) := by
  have hFm : ∀ i, Measurable fun ω => F (Z i ω) := fun i => hF.comp (hZ.meas i)
  have ha : Measurable fun ω => avg fun i : Fin n => F (Z i ω) := avg_measurable fun i : Fin n => hFm i
  exact avg_measurable fun i : Fin n => ((hFm i).sub ha).pow_const 2

/-- The empirical variance of the first `n` values tends to the variance. -/
theorem Iid.popVar_lln (hZ : Iid P Z) {F : S → ℝ} (hF : Measurable F) (h2 : MemLp (fun ω => F (Z 0 ω)) 2 P) :
    ∀ᵐ ω ∂P, Tendsto (fun n => popVar fun i : Fin n => F (Z i ω)) atTop (𝓝 Var[fun ω => F (Z 0 ω); P]) := by
  filter_upwards [hZ.lln hF (h2.integrable one_le_two), hZ.lln (F := fun x => F x ^ 2) (hF.pow_const 2) h2.integrable_sq] with ω g1 g2
  rw [variance_eq_sub h2]
  refine (g2.sub (g1.pow 2)).congr' ?_
  filter_upwards [eventually_gt_atTop 0] with n hn
  rw [popVar_eq hn, avg_meanTo (fun i => F (Z i ω) ^ 2) n, avg_meanTo (fun i => F (Z i ω)) n]

theorem gaussian_scale {s : ℝ} (hs : 0 < s) (z : ℝ) :
    (gaussianReal 0 (s ^ 2).toNNReal).real (Set.Iic (s * z)) = (gaussianReal 0 1).real (Set.Iic z) := by
  have h := gaussianReal_map_const_mul (μ := 0) (v := 1) s
  rw [mul_zero, mul_one] at h
  rw [show NNReal.mk (s ^ 2) (sq_nonneg s) = (s ^ 2).toNNReal from (Real.toNNReal_of_nonneg (sq_nonneg s)).symm] at h
  rw [← h, measureReal_def, measureReal_def, Measure.map_apply (measurable_const_mul s) measurableSet_Iic]
  congr 2
  ext x
  simp only [Set.mem_preimage, Set.mem_Iic]
  exact mul_le_mul_iff_right₀ hs

theorem scaled_width {x : ℕ → ℝ} {var z : ℝ} {b : ℕ → ℝ} (hx : Tendsto x atTop (𝓝 var)) (hb : Tendsto b atTop (𝓝 z)) :
    Tendsto (fun n : ℕ => √n * (√(x n / (n - 1)) * b n)) atTop (𝓝 (√var * z)) := by
  have hr : Tendsto (fun n : ℕ => (n : ℝ) / (n - 1)) atTop (𝓝 1) := by
    have h3 : Tendsto (fun n : ℕ => 1 + 1 / ((n : ℝ) - 1)) atTop (𝓝 (1 + 0)) :=
      tendsto_const_nhds.add (tendsto_const_nhds.div_atTop (tendsto_atTop_add_const_right _ (-1) tendsto_natCast_atTop_atTop))
    rw [add_zero] at h3
    refine h3.congr' ?_
    filter_upwards [eventually_gt_atTop 1] with n hn
    have : (1 : ℝ) < n := by exact_mod_cast hn
    have : (n : ℝ) - 1 ≠ 0 := by linarith
    field_simp
    ring
  have h4 := ((hx.mul hr).sqrt).mul hb
  rw [mul_one] at h4
  refine h4.congr fun n => ?_
  rw [← mul_assoc, ← Real.sqrt_mul (Nat.cast_nonneg n)]
  congr 2
  ring

/-- Without variance, all values equal the mean. -/
theorem Iid.constant_of_variance (hZ : Iid P Z) {F : S → ℝ} (hF : Measurable F) (h2 : MemLp (fun ω => F (Z 0 ω)) 2 P)
    (h0 : Var[fun ω => F (Z 0 ω); P] = 0) : ∀ᵐ ω ∂P, ∀ i, F (Z i ω) = ∫ ω, F (Z 0 ω) ∂P := by
  rw [ae_all_iff]
  intro i
  exact ((hZ.fn hF).2.2 i).symm.ae_snd (p := fun x => x = ∫ ω, F (Z 0 ω) ∂P) (measurableSet_singleton _)
    (ae_eq_integral_of_variance_eq_zero h2 h0)

/-- How often an average exceeds its mean by at most `b n` standard errors. -/
theorem student_limit (hZ : Iid P Z) {F : S → ℝ} (hF : Measurable F) (h2 : MemLp (fun ω => F (Z 0 ω)) 2 P) {v : ℝ}
    (hm : ∫ ω, F (Z 0 ω) ∂P = v) (hpos : Var[fun ω => F (Z 0 ω); P] ≠ 0) {b : ℕ → ℝ} {z : ℝ} (hb : Tendsto b atTop (𝓝 z)) :
    Tendsto (fun n : ℕ => P.real {ω | avg (fun i : Fin n => F (Z i ω)) - v ≤
      √(popVar (fun i : Fin n => F (Z i ω)) / (n - 1)) * b n}) atTop (𝓝 ((gaussianReal 0 1).real (Set.Iic z))) := by
  have hvar : 0 < Var[fun ω => F (Z 0 ω); P] := lt_of_le_of_ne (variance_nonneg _ _) hpos.symm
  set σ := √Var[fun ω => F (Z 0 ω); P] with hσ
  have hσ0 : 0 < σ := Real.sqrt_pos.2 hvar
  have hσ2 : σ ^ 2 = Var[fun ω => F (Z 0 ω); P] := Real.sq_sqrt hvar.le
  obtain ⟨d1, d2, d3⟩ := hZ.fn (hF.sub_const v)
  have hc := clt_mean (X := fun i ω => F (Z i ω) - v) (h2.sub (memLp_const v)) d2 d3 (by
    rw [integral_sub (h2.integrable one_le_two) (integrable_const v), hm]
    simp)
  have hv : Var[fun ω => F (Z 0 ω) - v; P] = σ ^ 2 := by
    rw [hσ2]
    exact variance_sub_const h2.aestronglyMeasurable v
  rw [hv] at hc
  have hpm := hZ.popVar_meas hF
  let D : ℕ → Ω → ℝ := fun n ω => σ * z - √n * (√(popVar (fun i : Fin n => F (Z i ω)) / (n - 1)) * b n)
  have hDm : ∀ n, Measurable (D n) := fun n =>
    (((((hpm n).div_const _).sqrt).mul_const _).const_mul _).const_sub _
  have hD : TendstoInMeasure P D atTop 0 := by
    refine tendstoInMeasure_of_tendsto_ae (fun n => (hDm n).aestronglyMeasurable) ?_
    filter_upwards [hZ.popVar_lln hF h2] with ω hω
    have h4 := (scaled_width hω hb).const_sub (σ * z)
    rw [← hσ, sub_self] at h4
    exact h4
  have hsum := hc.add_of_tendstoInMeasure_const (c := 0) hD fun n => (hDm n).aemeasurable
  simp only [id, add_zero] at hsum
  have hlim := tendsto_Iic (X := fun n => rootMean (fun i ω => F (Z i ω) - v) n + D n) (by positivity) hsum (σ * z)
  rw [gaussian_scale hσ0] at hlim
  refine hlim.congr' ?_
  filter_upwards [eventually_gt_atTop 0] with n hn
  congr 1
  ext ω
  have hn' : (0 : ℝ) < n := by exact_mod_cast hn
  have hsq : 0 < √(n : ℝ) := Real.sqrt_pos.2 hn'
  have e1 : meanTo (fun i => F (Z i ω) - v) n = avg (fun i : Fin n => F (Z i ω)) - v := by
    rw [avg_meanTo (fun i => F (Z i ω)) n]
    simp only [meanTo, Finset.sum_sub_distrib, Finset.sum_const, Finset.card_range, nsmul_eq_mul]
    field_simp
  simp only [Set.mem_ofPred_eq, Pi.add_apply, rootMean, D, e1]
  refine ⟨fun h => le_of_mul_le_mul_left (by linarith) hsq, fun h => ?_⟩
  have := mul_le_mul_of_nonneg_left h hsq.le
  linarith

theorem tendsto_not {G : ℕ → Ω → Prop} (hm : ∀ n, MeasurableSet {ω | G n ω}) (h : ∀ᵐ ω ∂P, ∀ᶠ n in atTop, G n ω) :
    Tendsto (fun n => P.real {ω | ¬ G n ω}) atTop (𝓝 0) := by
  classical
  have hi := tendstoInMeasure_of_tendsto_ae (μ := P) (f := fun n ω => if G n ω then (0 : ℝ) else 1) (g := fun _ => 0)
    (fun n => (Measurable.ite (hm n) measurable_const measurable_const).aestronglyMeasurable) (by
      filter_upwards [h] with ω hω
      refine tendsto_const_nhds.congr' ?_
      filter_upwards [hω] with n hn
      rw [if_pos hn])
  rw [tendstoInMeasure_iff_measureReal_norm] at hi
  refine (hi 1 one_pos).congr fun n => ?_
  congr 1
  ext ω
  by_cases hG : G n ω <;> simp [hG]

/-- How often an average is off its mean by more than `b n` standard errors. -/
theorem student_two_sided (hZ : Iid P Z) {F : S → ℝ} (hF : Measurable F) (h2 : MemLp (fun ω => F (Z 0 ω)) 2 P) {v : ℝ}
    (hm : ∫ ω, F (Z 0 ω) ∂P = v) {b : ℕ → ℝ} {z d : ℝ} (hb : Tendsto b atTop (𝓝 z)) (hz : (gaussianReal 0 1).real (Set.Iic z) = 1 - d)
    {ε : ℝ} (hε : 0 < ε) :
    ∀ᶠ n : ℕ in atTop, P.real {ω | √(popVar (fun i : Fin n => F (Z i ω)) / (n - 1)) * b n <
      |avg (fun i : Fin n => F (Z i ω)) - v|} < 2 * d + ε := by
  have hd : 0 ≤ d := by
    have := measureReal_le_one (μ := gaussianReal 0 1) (s := Set.Iic z)
    linarith
  have hFm : ∀ i, Measurable fun ω => F (Z i ω) := fun i => hF.comp (hZ.meas i)
  have ha : ∀ n : ℕ, Measurable fun ω => avg fun i : Fin n => F (Z i ω) := fun n =>
    avg_measurable fun i : Fin n => hFm i
  have hw : ∀ n : ℕ, Measurable fun ω => √(popVar (fun i : Fin n => F (Z i ω)) / (n - 1)) * b n := fun n =>
    (((hZ.popVar_meas hF n).div_const _).sqrt).mul_const _
  by_cases hpos : Var[fun ω => F (Z 0 ω); P] = 0
  · have hall := hZ.constant_of_variance hF h2 hpos
    rw [hm] at hall
    filter_upwards [eventually_gt_atTop 0] with n hn
    have : P.real {ω | √(popVar (fun i : Fin n => F (Z i ω)) / (n - 1)) * b n < |avg (fun i : Fin n => F (Z i ω)) - v|} = 0 := by
      rw [measureReal_eq_zero_iff, measure_eq_zero_iff_ae_notMem]
      filter_upwards [hall] with ω hω
      simp only [hω, avg_const hn, sub_self, abs_zero, popVar]
      simp
    rw [this]
    positivity
  · have l1 := student_limit hZ hF h2 hm hpos hb
    have l2 := student_limit hZ (F := fun x => -F x) (v := -v) hF.neg h2.neg (by rw [integral_neg, hm])
      (by
        rw [show (fun ω => -F (Z 0 ω)) = -fun ω => F (Z 0 ω) from rfl, variance_neg]
        exact hpos) hb
    rw [hz] at l1 l2
    filter_upwards [l1.eventually (lt_mem_nhds (show 1 - d - ε / 2 < 1 - d by linarith)),
      l2.eventually (lt_mem_nhds (show 1 - d - ε / 2 < 1 - d by linarith))] with n h3 h4
    have e1 : ∀ ω, avg (fun i : Fin n => -F (Z i ω)) = -avg (fun i : Fin n => F (Z i ω)) := fun ω => by
      simp [avg, neg_div]
    have e2 : ∀ ω, popVar (fun i : Fin n => -F (Z i ω)) = popVar (fun i : Fin n => F (Z i ω)) := fun ω => by
      simp only [popVar, e1]
      exact avg_congr fun i => by ring
    simp only [e1, e2] at h4
    have m1 : MeasurableSet {ω | avg (fun i : Fin n => F (Z i ω)) - v ≤ √(popVar (fun i : Fin n => F (Z i ω)) / (n - 1)) * b n} :=
      measurableSet_le ((ha n).sub_const v) (hw n)
    have m2 : MeasurableSet {ω | -avg (fun i : Fin n => F (Z i ω)) - -v ≤ √(popVar (fun i : Fin n => F (Z i ω)) / (n - 1)) * b n} :=
      measurableSet_le ((ha n).neg.sub_const (-v)) (hw n)
    have c1 := probReal_compl_eq_one_sub (μ := P) m1
    have c2 := probReal_compl_eq_one_sub (μ := P) m2
    refine lt_of_le_of_lt (measureReal_mono (s₂ := {ω | avg (fun i : Fin n => F (Z i ω)) - v ≤
      √(popVar (fun i : Fin n => F (Z i ω)) / (n - 1)) * b n}ᶜ ∪ {ω | -avg (fun i : Fin n => F (Z i ω)) - -v ≤
      √(popVar (fun i : Fin n => F (Z i ω)) / (n - 1)) * b n}ᶜ) ?_) ?_
    · intro ω hω
      simp only [Set.mem_ofPred_eq, Set.mem_union, Set.mem_compl_iff, not_le] at hω ⊢
      rcases lt_abs.1 hω with h | h
      · exact Or.inl h
      · exact Or.inr (by linarith)
    · refine lt_of_le_of_lt (measureReal_union_le _ _) ?_
      rw [c1, c2]
      linarith

end Obp
