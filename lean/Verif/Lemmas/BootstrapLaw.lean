import Verif.Spec.Resampling
import Verif.Lemmas.RankLaw
import Verif.Lemmas.EmpiricalChar
import Mathlib.Probability.CentralLimitTheorem
import Mathlib.MeasureTheory.Measure.LevyConvergence
import Mathlib.Probability.StrongLaw
import Mathlib.Analysis.InnerProductSpace.PiL2

set_option linter.unusedSectionVars false

/-!
# The joint law of the average of the samples and of the bootstrap averages
-/

namespace Obp
open MeasureTheory ProbabilityTheory Filter Topology Finset

theorem sum_tables {n B : ℕ} (h : Fin B → Fin n → ℂ) :
    ∑ f : Fin B → Fin n → Fin n, (∏ j, ∏ i, h j (f j i)) / (((n : ℂ) ^ n) ^ B) = ∏ j, ((∑ k, h j k) / n) ^ n := by
  have h1 : ∀ j, (∑ k, h j k) ^ n = ∑ g : Fin n → Fin n, ∏ i, h j (g i) := by
    intro j
    have := Finset.prod_univ_sum (fun _ : Fin n => (Finset.univ : Finset (Fin n))) fun _ k => h j k
    simpa [Fintype.piFinset_univ] using this
  have h2 : ∏ j, (∑ k, h j k) ^ n = ∑ f : Fin B → Fin n → Fin n, ∏ j, ∏ i, h j (f j i) := by
    simp only [h1]
    have := Finset.prod_univ_sum (fun _ : Fin B => (Finset.univ : Finset (Fin n → Fin n))) fun j g => ∏ i, h j (g i)
    simpa [Fintype.piFinset_univ] using this
  rw [← Finset.sum_div, ← h2]
  simp only [div_pow, Finset.prod_div_distrib, Finset.prod_const, Finset.card_univ, Fintype.card_fin]

namespace Resampling
variable {Ω : Type} [mΩ : MeasurableSpace Ω] {P : Measure Ω} [IsProbabilityMeasure P] {X : ℕ → Ω → ℝ} {B : ℕ}

/-- The table of indices drawn for `n` samples. -/
def table (R : Resampling P X B) (n : ℕ) (ω : Ω) : Fin B → Fin n → Fin n := fun j i => R.idx n j i ω

theorem table_meas (R : Resampling P X B) (n : ℕ) (f : Fin B → Fin n → Fin n) : MeasurableSet {ω | R.table n ω = f} := by
  have : {ω | R.table n ω = f} = ⋂ j, ⋂ i, R.idx n j i ⁻¹' {f j i} := by
    ext ω
    simp [table, funext_iff]
  rw [this]
  exact MeasurableSet.iInter fun j => MeasurableSet.iInter fun i => R.idx_meas n j i (measurableSet_singleton _)

theorem restrict_map (R : Resampling P X B) (hX : ∀ i, Measurable (X i)) {n : ℕ} (hn : 0 < n) (f : Fin B → Fin n → Fin n) :
    (P.restrict {ω | R.table n ω = f}).map (fun ω i => X i ω) =
      ENNReal.ofReal (1 / ((n : ℝ) ^ n) ^ B) • P.map (fun ω i => X i ω) := by
  have hm : Measurable fun ω i => X i ω := measurable_pi_lambda _ hX
  ext S hS
  rw [Measure.map_apply hm hS, Measure.restrict_apply (hm hS), Measure.smul_apply, Measure.map_apply hm hS, smul_eq_mul]
  have h := R.equally_likely n f S hS
  have h1 : ((fun ω i => X i ω) ⁻¹' S) ∩ {ω | R.table n ω = f} = {ω | (fun i => X i ω) ∈ S ∧ ∀ j i, R.idx n j i ω = f j i} := by
    ext ω
    simp [table, funext_iff]
  rw [h1]
  have hpos : (0 : ℝ) < ((n : ℝ) ^ n) ^ B := by
    have : (0 : ℝ) < n := by exact_mod_cast hn
    positivity
  rw [← ofReal_measureReal (μ := P), h, div_eq_mul_one_div, mul_comm, ENNReal.ofReal_mul (by positivity)]
  congr 1
  exact ofReal_measureReal

theorem integral_table (R : Resampling P X B) (hX : ∀ i, Measurable (X i)) {n : ℕ} (hn : 0 < n)
    {G : (Fin B → Fin n → Fin n) → (ℕ → ℝ) → ℂ} (hG : ∀ f, Measurable (G f)) (hb : ∀ f x, ‖G f x‖ ≤ 1) :
    ∫ ω, G (R.table n ω) (fun i => X i ω) ∂P =
      ∫ ω, ∑ f, G f (fun i => X i ω) / (((n : ℂ) ^ n) ^ B) ∂P := by
  classical
  have hm : Measurable fun ω i => X i ω := measurable_pi_lambda _ hX
  have hint : ∀ f, Integrable (fun ω => G f fun i => X i ω) P := fun f =>
    Integrable.of_bound ((hG f).comp hm).aestronglyMeasurable 1 (ae_of_all _ fun ω => hb f _)
  have h1 : ∀ ω, G (R.table n ω) (fun i => X i ω) = ∑ f, {ω | R.table n ω = f}.indicator (fun ω => G f fun i => X i ω) ω := by
    intro ω
    simp only [Set.indicator, Set.mem_ofPred_eq]
    rw [Finset.sum_ite_eq]
    simp
  simp only [h1]
  rw [integral_finsetSum _ fun f _ => (hint f).indicator (R.table_meas n f), integral_finsetSum _ fun f _ => (hint f).div_const _]
  refine Finset.sum_congr rfl fun f _ => ?_
  rw [integral_indicator (R.table_meas n f), integral_div]
  have h2 := congrArg (fun ν => ∫ x, G f x ∂ν) (R.restrict_map hX hn f)
  simp only [integral_smul_measure] at h2
  rw [integral_map hm.aemeasurable (hG f).aestronglyMeasurable, integral_map hm.aemeasurable (hG f).aestronglyMeasurable] at h2
  rw [h2, ENNReal.toReal_ofReal (by positivity), Complex.real_smul]
  push_cast
  ring

/-- Average of a bootstrap sample. -/
noncomputable def bootMean (R : Resampling P X B) (n : ℕ) (j : Fin B) (ω : Ω) : ℝ := (∑ i, X (R.idx n j i ω) ω) / n

/-- The true mean and the bootstrap averages, around the average of the samples and scaled. -/
noncomputable def spread (R : Resampling P X B) (m : ℝ) (n : ℕ) (ω : Ω) : Option (Fin B) → ℝ
  | none => √n * (m - meanTo (fun i => X i ω) n)
  | some j => √n * (R.bootMean n j ω - meanTo (fun i => X i ω) n)

theorem spread_meas (R : Resampling P X B) (hX : ∀ i, Measurable (X i)) (m : ℝ) (n : ℕ) : Measurable (R.spread m n) := by
  have hmean : Measurable fun ω => meanTo (fun i => X i ω) n := by
    unfold meanTo
    exact (Finset.measurable_fun_sum _ fun i _ => hX i).div_const _
  refine measurable_pi_lambda _ fun o => ?_
  cases o with
  | none => exact (measurable_const.sub hmean).const_mul _
  | some j =>
    refine Measurable.const_mul (Measurable.sub ?_ hmean) _
    refine Measurable.div_const (Finset.measurable_fun_sum _ fun i _ => ?_) _
    have : Measurable fun p : Ω × Fin n => X p.2 p.1 := measurable_from_prod_countable_left fun k => hX k
    exact this.comp (measurable_id.prodMk (R.idx_meas n j i))

/-- Integrating out the draws. -/
theorem charFun_spread (R : Resampling P X B) (hX : ∀ i, Measurable (X i)) (m : ℝ) {n : ℕ} (hn : 0 < n)
    (t : EuclideanSpace ℝ (Option (Fin B))) :
    charFun (P.map fun ω => WithLp.toLp 2 (R.spread m n ω)) t =
      ∫ ω, Complex.exp (((t none * (√n * (m - meanTo (fun i => X i ω) n)) : ℝ) : ℂ) * Complex.I) *
        ∏ j : Fin B, empChar (fun i => X i ω) n ((√n)⁻¹ * t (some j)) ^ n ∂P := by
  have hn0 : (n : ℝ) ≠ 0 := by exact_mod_cast hn.ne'
  have hs : √(n : ℝ) ≠ 0 := (Real.sqrt_pos.2 (by exact_mod_cast hn)).ne'
  rw [charFun_apply, integral_map]
  rotate_left
  · exact ((WithLp.measurable_toLp 2 _).comp (R.spread_meas hX m n)).aemeasurable
  · refine Continuous.aestronglyMeasurable ?_
    fun_prop
  let G : (Fin B → Fin n → Fin n) → (ℕ → ℝ) → ℂ := fun f x =>
    Complex.exp (((t none * (√n * (m - meanTo x n)) : ℝ) : ℂ) * Complex.I) *
      ∏ j, ∏ i, Complex.exp ((((√n)⁻¹ * t (some j) * (x (f j i) - meanTo x n) : ℝ) : ℂ) * Complex.I)
  have hmean : Measurable fun x : ℕ → ℝ => meanTo x n := by
    unfold meanTo
    fun_prop
  have hG : ∀ f, Measurable (G f) := by
    intro f
    simp only [G]
    fun_prop
  have hb : ∀ f x, ‖G f x‖ ≤ 1 := by
    intro f x
    simp only [G, norm_mul, norm_prod, Complex.norm_exp_ofReal_mul_I]
    simp
  have h1 : ∀ ω, Complex.exp ((inner ℝ (WithLp.toLp 2 (R.spread m n ω)) t : ℂ) * Complex.I) =
      G (R.table n ω) fun i => X i ω := by
    intro ω
    simp only [G, ← Complex.exp_sum, ← Complex.exp_add]
    congr 1
    simp only [← Finset.sum_mul, ← add_mul, ← Complex.ofReal_sum, ← Complex.ofReal_add]
    congr 2
    rw [PiLp.inner_apply, Fintype.sum_option]
    simp only [RCLike.inner_apply, conj_trivial, spread]
    congr 1
    refine Finset.sum_congr rfl fun j _ => ?_
    rw [← Finset.mul_sum, Finset.sum_sub_distrib, Finset.sum_const, Finset.card_univ, Fintype.card_fin, nsmul_eq_mul]
    have hx : ∑ i, X (R.table n ω j i) ω = n * R.bootMean n j ω := by
      rw [bootMean]
      field_simp
      rfl
    rw [hx]
    have hq : (√(n : ℝ))⁻¹ * n = √n := by
      rw [inv_mul_eq_div, div_eq_iff hs, Real.mul_self_sqrt (Nat.cast_nonneg n)]
    rw [show (√(n : ℝ))⁻¹ * t (some j) * (n * R.bootMean n j ω - n * meanTo (fun i => X i ω) n) =
      ((√(n : ℝ))⁻¹ * n) * (t (some j) * (R.bootMean n j ω - meanTo (fun i => X i ω) n)) by ring, hq]
    ring
  simp only [h1]
  rw [R.integral_table hX hn hG hb]
  refine integral_congr_ae (ae_of_all _ fun ω => ?_)
  simp only [G, mul_div_assoc]
  rw [← Finset.mul_sum]
  congr 1
  have := sum_tables (n := n) fun (j : Fin B) (k : Fin n) =>
    Complex.exp ((((√n)⁻¹ * t (some j) * (X k ω - meanTo (fun i => X i ω) n) : ℝ) : ℂ) * Complex.I)
  refine this.trans (Finset.prod_congr rfl fun j _ => ?_)
  rw [empChar, Finset.sum_range]

/-- The average of independent samples and the averages of bootstrap samples: around their centres and scaled by the root of
their number, they tend to independent normal variables of equal variance. -/
theorem tendsto_spread (R : Resampling P X B) (hX : ∀ i, Measurable (X i)) (h2 : MemLp (X 0) 2 P) (hindep : iIndepFun X P)
    (hident : ∀ i, IdentDistrib (X i) (X 0) P P) (t : EuclideanSpace ℝ (Option (Fin B))) :
    Tendsto (fun n => charFun (P.map fun ω => WithLp.toLp 2 (R.spread (∫ ω, X 0 ω ∂P) n ω)) t) atTop
      (𝓝 (∏ o, Complex.exp ((-(t o ^ 2 * Var[X 0; P]) / 2 : ℝ) : ℂ))) := by
  set m := ∫ ω, X 0 ω ∂P with hm
  set c : ℂ := ∏ j : Fin B, Complex.exp ((-(t (some j) ^ 2 * Var[X 0; P]) / 2 : ℝ) : ℂ) with hc
  have hint : Integrable (X 0) P := h2.integrable one_le_two
  have hmm : ∀ n, Measurable fun ω => meanTo (fun i => X i ω) n := fun n => by
    unfold meanTo
    exact (Finset.measurable_fun_sum _ fun i _ => hX i).div_const _
  -- the first factor
  let A : ℕ → Ω → ℂ := fun n ω => Complex.exp (((t none * (√n * (m - meanTo (fun i => X i ω) n)) : ℝ) : ℂ) * Complex.I)
  have hA : Tendsto (fun n => ∫ ω, A n ω ∂P) atTop (𝓝 (Complex.exp ((-(t none ^ 2 * Var[X 0; P]) / 2 : ℝ) : ℂ))) := by
    have hclt := (tendstoInDistribution_inv_sqrt_mul_sum_sub (Y := id) (P' := gaussianReal 0 Var[X 0; P].toNNReal)
      ⟨aemeasurable_id, Measure.map_id⟩ h2 hindep hident).tendsto
    have h3 := ProbabilityMeasure.tendsto_iff_tendsto_charFun.1 hclt (-t none)
    simp only [ProbabilityMeasure.coe_mk, Measure.map_id, charFun_gaussianReal] at h3
    rw [show Complex.exp ((-(t none ^ 2 * Var[X 0; P]) / 2 : ℝ) : ℂ) =
      Complex.exp (((-t none : ℝ) : ℂ) * ((0 : ℝ) : ℂ) * Complex.I - ((Var[X 0; P].toNNReal : ℝ) : ℂ) * ((-t none : ℝ) : ℂ) ^ 2 / 2) by
        rw [Real.coe_toNNReal _ (variance_nonneg _ _)]
        push_cast
        congr 1
        ring]
    refine h3.congr' ?_
    filter_upwards [eventually_gt_atTop 0] with n hn
    have hn0 : (n : ℝ) ≠ 0 := by exact_mod_cast hn.ne'
    have hs : √(n : ℝ) ≠ 0 := (Real.sqrt_pos.2 (by exact_mod_cast hn)).ne'
    rw [charFun_apply_real, integral_map]
    rotate_left
    · exact (((Finset.measurable_fun_sum _ fun i _ => hX i).sub_const _).const_mul _).aemeasurable
    · refine Continuous.aestronglyMeasurable ?_
      fun_prop
    refine integral_congr_ae (ae_of_all _ fun ω => ?_)
    simp only [A]
    rw [← Complex.ofReal_mul]
    congr 3
    rw [meanTo, show m = (∫ ω, X 0 ω ∂P) from rfl]
    field_simp
    rw [Real.sq_sqrt (Nat.cast_nonneg n)]
    ring
  -- the second factor
  have hBo : ∀ᵐ ω ∂P, Tendsto (fun n => ∏ j : Fin B, empChar (fun i => X i ω) n ((√n)⁻¹ * t (some j)) ^ n) atTop (𝓝 c) := by
    have l1 := strong_law_ae_real X hint (fun i j h => hindep.indepFun h) hident
    have l2 := strong_law_ae_real (fun i ω => X i ω ^ 2) h2.integrable_sq
      (fun i j h => (hindep.indepFun h).comp (measurable_id.pow_const 2) (measurable_id.pow_const 2))
      fun i => (hident i).comp (measurable_id.pow_const 2)
    filter_upwards [l1, l2] with ω w1 w2
    refine tendsto_finsetProd _ fun j _ => ?_
    have := empChar_pow_tendsto (x := fun i => X i ω) w1 w2 (t (some j))
    rw [variance_eq_sub h2]
    exact this
  have hBm : ∀ n, Measurable fun ω => ∏ j : Fin B, empChar (fun i => X i ω) n ((√n)⁻¹ * t (some j)) ^ n := by
    intro n
    refine Finset.measurable_fun_prod _ fun j _ => Measurable.pow_const ?_ n
    unfold empChar
    refine Measurable.div_const (Finset.measurable_fun_sum _ fun k _ => ?_) _
    have := (hX k).sub (hmm n)
    fun_prop
  have hBn : ∀ n ω, ‖∏ j : Fin B, empChar (fun i => X i ω) n ((√n)⁻¹ * t (some j)) ^ n‖ ≤ 1 := by
    intro n ω
    rw [norm_prod]
    refine Finset.prod_le_one (fun _ _ => norm_nonneg _) fun j _ => ?_
    rw [norm_pow]
    exact pow_le_one₀ (norm_nonneg _) (norm_empChar_le _ _ _)
  have hAm : ∀ n, Measurable (A n) := by
    intro n
    have := hmm n
    simp only [A]
    fun_prop
  have hAn : ∀ n ω, ‖A n ω‖ = 1 := fun n ω => Complex.norm_exp_ofReal_mul_I _
  have hdiff : Tendsto (fun n => ∫ ω, A n ω * (∏ j : Fin B, empChar (fun i => X i ω) n ((√n)⁻¹ * t (some j)) ^ n - c) ∂P) atTop
      (𝓝 (∫ _, (0 : ℂ) ∂P)) := by
    refine tendsto_integral_of_dominated_convergence (fun _ => 1 + ‖c‖)
      (fun n => ((hAm n).mul ((hBm n).sub_const c)).aestronglyMeasurable) (integrable_const _)
      (fun n => ae_of_all _ fun ω => ?_) ?_
    · rw [norm_mul, hAn, one_mul]
      exact (norm_sub_le _ _).trans (by gcongr; exact hBn n ω)
    · filter_upwards [hBo] with ω hω
      rw [tendsto_zero_iff_norm_tendsto_zero]
      simp only [norm_mul, hAn, one_mul]
      rw [← tendsto_zero_iff_norm_tendsto_zero]
      have := hω.sub_const c
      rwa [sub_self] at this
  have hsum := hdiff.add (hA.mul_const c)
  simp only [integral_zero, zero_add] at hsum
  rw [Fintype.prod_option]
  refine hsum.congr' ?_
  filter_upwards [eventually_gt_atTop 0] with n hn
  rw [R.charFun_spread hX m hn, ← integral_mul_const, ← integral_add]
  · exact integral_congr_ae (ae_of_all _ fun ω => by simp only [A]; ring)
  · refine Integrable.of_bound ((hAm n).mul ((hBm n).sub_const c)).aestronglyMeasurable (1 + ‖c‖) (ae_of_all _ fun ω => ?_)
    rw [norm_mul, hAn, one_mul]
    exact (norm_sub_le _ _).trans (by gcongr; exact hBn n ω)
  · exact (Integrable.of_bound (hAm n).aestronglyMeasurable 1 (ae_of_all _ fun ω => (hAn n ω).le)).mul_const c

/-- The chance that more than `k` bootstrap averages are at most the true mean and more than `k` at least. -/
theorem tendsto_midRank (R : Resampling P X B) (hX : ∀ i, Measurable (X i)) (h2 : MemLp (X 0) 2 P) (hindep : iIndepFun X P)
    (hident : ∀ i, IdentDistrib (X i) (X 0) P P) (hv : Var[X 0; P] ≠ 0) (k : ℕ) :
    Tendsto (fun n => P.real {ω | R.spread (∫ ω, X 0 ω ∂P) n ω ∈ midRank k none}) atTop
      (𝓝 (((B - 1 - 2 * k : ℕ) : ℝ) / (B + 1))) := by
  have hv' : Var[X 0; P].toNNReal ≠ 0 := by
    rw [ne_eq, Real.toNNReal_eq_zero, not_le]
    exact lt_of_le_of_ne (variance_nonneg _ _) hv.symm
  set μ := gaussianReal 0 Var[X 0; P].toNNReal with hμ
  have : NullSingletonClass μ := nullSingletonClass_gaussianReal hv'
  let E := EuclideanSpace ℝ (Option (Fin B))
  have hmW : ∀ n, Measurable fun ω => (WithLp.toLp 2 (R.spread (∫ ω, X 0 ω ∂P) n ω) : E) := fun n =>
    (WithLp.measurable_toLp 2 _).comp (R.spread_meas hX _ n)
  have hmT : Measurable fun w : Option (Fin B) → ℝ => (WithLp.toLp 2 w : E) := WithLp.measurable_toLp 2 _
  let ν : ℕ → ProbabilityMeasure E := fun n => ⟨P.map fun ω => WithLp.toLp 2 (R.spread (∫ ω, X 0 ω ∂P) n ω),
    Measure.isProbabilityMeasure_map (hmW n).aemeasurable⟩
  let ν0 : ProbabilityMeasure E := ⟨(Measure.pi fun _ : Option (Fin B) => μ).map (WithLp.toLp 2),
    Measure.isProbabilityMeasure_map hmT.aemeasurable⟩
  have hconv : Tendsto ν atTop (𝓝 ν0) := by
    refine ProbabilityMeasure.tendsto_of_tendsto_charFun fun t => ?_
    have h3 := R.tendsto_spread hX h2 hindep hident t
    have h4 : charFun (ν0 : Measure E) t = ∏ o, Complex.exp ((-(t o ^ 2 * Var[X 0; P]) / 2 : ℝ) : ℂ) := by
      refine (charFun_pi (μ := fun _ : Option (Fin B) => μ) t).trans (Finset.prod_congr rfl fun o _ => ?_)
      rw [hμ, charFun_gaussianReal, Real.coe_toNNReal _ (variance_nonneg _ _)]
      push_cast
      congr 1
      ring
    rw [h4]
    exact h3
  have hcont : Continuous fun w : E => (WithLp.ofLp w : Option (Fin B) → ℝ) := PiLp.continuous_ofLp 2 _
  let S : Set E := (fun w : E => (WithLp.ofLp w : Option (Fin B) → ℝ)) ⁻¹' midRank k none
  have hSm : MeasurableSet S := (isClosed_midRank k none).measurableSet.preimage hcont.measurable
  have hfr : (ν0 : Measure E) (frontier S) = 0 := by
    have hsub : frontier S ⊆ (fun w : E => (WithLp.ofLp w : Option (Fin B) → ℝ)) ⁻¹' frontier (midRank k none) :=
      hcont.frontier_preimage_subset _
    refine measure_mono_null hsub ?_
    have : (ν0 : Measure E) = (Measure.pi fun _ : Option (Fin B) => μ).map (WithLp.toLp 2) := rfl
    rw [this, Measure.map_apply hmT (isClosed_frontier.measurableSet.preimage hcont.measurable)]
    exact midRank_frontier_null μ k none
  have h5 := ProbabilityMeasure.tendsto_measure_of_null_frontier_of_tendsto' hconv hfr
  have h6 : (ν0 : Measure E) S ≠ ⊤ := measure_ne_top _ _
  have h7 := (ENNReal.tendsto_toReal h6).comp h5
  have h8 : ((ν0 : Measure E) S).toReal = ((B - 1 - 2 * k : ℕ) : ℝ) / (B + 1) := by
    have : (ν0 : Measure E) = (Measure.pi fun _ : Option (Fin B) => μ).map (WithLp.toLp 2) := rfl
    rw [this, Measure.map_apply hmT hSm]
    refine (pi_midRank μ k (none : Option (Fin B))).trans ?_
    rw [Fintype.card_option, Fintype.card_fin]
    push_cast
    congr 2
  rw [h8] at h7
  refine h7.congr fun n => ?_
  change ((P.map fun ω => (WithLp.toLp 2 (R.spread (∫ ω, X 0 ω ∂P) n ω) : E)) S).toReal = _
  rw [Measure.map_apply (hmW n) hSm]
  rfl

end Resampling
end Obp
