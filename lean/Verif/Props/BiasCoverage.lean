import Verif.Lemmas.Bernstein
import Verif.Props.Mse
import Mathlib.Probability.Distributions.Bernoulli

set_option linter.unusedSectionVars false

/-!
# Coverage of the high-probability bound of the bias

C166: `estimate_high_probability_upper_bound_bias` as a confidence bound.
-/

namespace Obp
open MeasureTheory ProbabilityTheory Log

/-- The data that the bound is computed from: rewards, weights, modified weights and predicted rewards of `n` independent rounds
with the same distribution, the modified weights not above the weights, and prediction errors of at most one. -/
structure BiasSample {Ω : Type} [MeasurableSpace Ω] (P : Measure Ω) {n : ℕ} (R W V Q : Fin n → Ω → ℝ) (wMax : ℝ) : Prop where
  meas : ∀ i, Measurable fun ω => (R i ω, W i ω, V i ω, Q i ω)
  indep : iIndepFun (fun i ω => (R i ω, W i ω, V i ω, Q i ω)) P
  ident : ∀ i j, IdentDistrib (fun ω => (R i ω, W i ω, V i ω, Q i ω)) (fun ω => (R j ω, W j ω, V j ω, Q j ω)) P P
  weight : ∀ i ω, 0 ≤ V i ω ∧ V i ω ≤ W i ω ∧ W i ω ≤ wMax
  err : ∀ i ω, |R i ω - Q i ω| ≤ 1

/-- **C166 (partial).** The bound is at least the size of the bias except with probability `delta`, among logs whose weights are
representative: their mean square is not below the expected square, and the largest possible weight has been seen. Missing: logs
whose weights are not representative, for which it is false (`not_C166_unseen_weights`). -/
theorem C166_bias_bound_partial {Ω : Type} [MeasurableSpace Ω] {P : Measure Ω} [IsProbabilityMeasure P] {n : ℕ} (hn : 0 < n)
    {R W V Q : Fin n → Ω → ℝ} {wMax : ℝ} (hs : BiasSample P R W V Q wMax) {delta : ℝ} (h0 : 0 < delta) (h1 : delta ≤ 1) (i₀ : Fin n) :
    ∃ ub : Ω → ℝ,
      (∀ ω, estimateHighProbabilityUpperBoundBias (List.ofFn fun i => R i ω) (List.ofFn fun i => W i ω) (List.ofFn fun i => V i ω)
        (some (List.ofFn fun i => Q i ω)) delta = .ok (ub ω)) ∧
      P.real {ω | ub ω < |∫ ω', (W i₀ ω' - V i₀ ω') * (R i₀ ω' - Q i₀ ω') ∂P| ∧
        ∫ ω', W i₀ ω' ^ 2 ∂P ≤ (∑ i, W i ω ^ 2) / n ∧ ∃ i, W i ω = wMax} ≤ delta := by
  have hn' : (0 : ℝ) < n := by exact_mod_cast hn
  have hlog : 0 ≤ Real.log (2 / delta) := Real.log_nonneg (by rw [le_div_iff₀ h0]; linarith)
  set L := Real.log (2 / delta) with hL
  choose M hM using fun ω => exists_greatest hn fun i => W i ω
  refine ⟨_, fun ω => biasUB_value hn (hM ω) h0 h1, ?_⟩
  set b := ∫ ω', (W i₀ ω' - V i₀ ω') * (R i₀ ω' - Q i₀ ω') ∂P with hb
  set m2 := ∫ ω', W i₀ ω' ^ 2 ∂P with hm2
  have hf : Measurable fun z : ℝ × ℝ × ℝ × ℝ => (z.2.1 - z.2.2.1) * (z.1 - z.2.2.2) :=
    ((measurable_fst.comp measurable_snd).sub (measurable_fst.comp (measurable_snd.comp measurable_snd))).mul
      (measurable_fst.sub (measurable_snd.comp (measurable_snd.comp measurable_snd)))
  have hg : Measurable fun z : ℝ × ℝ × ℝ × ℝ => z.2.1 ^ 2 := (measurable_fst.comp measurable_snd).pow_const 2
  let T : Fin n → Ω → ℝ := fun i ω => (W i ω - V i ω) * (R i ω - Q i ω)
  have hTm : ∀ i, Measurable (T i) := fun i => hf.comp (hs.meas i)
  have hTi : iIndepFun T P := hs.indep.comp (fun _ => _) fun _ => hf
  have hTid : ∀ i, IdentDistrib (T i) (T i₀) P P := fun i => (hs.ident i i₀).comp hf
  have hTW : ∀ i ω, |T i ω| ≤ W i ω := fun i ω => by
    have h2 := hs.weight i ω
    rw [abs_mul, abs_of_nonneg (by linarith [h2.2.1] : (0 : ℝ) ≤ W i ω - V i ω)]
    nlinarith [hs.err i ω, abs_nonneg (R i ω - Q i ω)]
  have hTb : ∀ i ω, |T i ω| ≤ wMax := fun i ω => (hTW i ω).trans (hs.weight i ω).2.2
  have hbound : ∀ {Z : Ω → ℝ}, Measurable Z → ∀ B : ℝ, (∀ ω, |Z ω| ≤ B) → Integrable Z P := fun hZ B h =>
    Integrable.of_bound hZ.aestronglyMeasurable B (ae_of_all _ h)
  have hTint : ∀ i, Integrable (T i) P := fun i => hbound (hTm i) wMax (hTb i)
  have hT2int : ∀ i, Integrable (fun ω => T i ω ^ 2) P := fun i => hbound ((hTm i).pow_const 2) (wMax ^ 2) fun ω => by
    rw [abs_pow]; exact pow_le_pow_left₀ (abs_nonneg _) (hTb i ω) 2
  have hW2int : Integrable (fun ω => W i₀ ω ^ 2) P := hbound (hg.comp (hs.meas i₀)) (wMax ^ 2) fun ω => by
    have h2 := hs.weight i₀ ω
    rw [abs_pow, abs_of_nonneg (h2.1.trans h2.2.1)]
    exact pow_le_pow_left₀ (h2.1.trans h2.2.1) h2.2.2 2
  have hTmean : ∀ i, ∫ ω, T i ω ∂P = b := fun i => (hTid i).integral_eq
  have hbM : |b| ≤ wMax := by
    rw [← hTmean i₀]
    have := norm_integral_le_of_norm_le_const (μ := P) (f := T i₀) (ae_of_all _ (hTb i₀))
    simpa using this
  have hY0 : ∀ i, ∫ ω, (T i ω - b) ∂P = 0 := fun i => by
    rw [integral_sub (hTint i) (integrable_const _), hTmean i]
    simp
  set v := ∫ ω, T i₀ ω ^ 2 ∂P - b ^ 2 with hv
  have hY2 : ∀ i, ∫ ω, (T i ω - b) ^ 2 ∂P = v := fun i => by
    have e : (fun ω => (T i ω - b) ^ 2) = fun ω => T i ω ^ 2 + (-(2 * b) * T i ω + b ^ 2) := by funext ω; ring
    have e1 := integral_add (μ := P) (f := fun ω => T i ω ^ 2) (g := fun ω => -(2 * b) * T i ω + b ^ 2)
      (hT2int i) (((hTint i).const_mul _).add (integrable_const _))
    have e2 := integral_add (μ := P) (f := fun ω => -(2 * b) * T i ω) (g := fun _ => b ^ 2) ((hTint i).const_mul _) (integrable_const _)
    have e3 : ∫ ω, T i ω ^ 2 ∂P = ∫ ω, T i₀ ω ^ 2 ∂P := ((hTid i).comp (measurable_id.pow_const 2)).integral_eq
    rw [e, e1, e2, integral_const_mul, hTmean i, e3]
    simp only [integral_const, probReal_univ, smul_eq_mul, one_mul]
    rw [hv]
    ring
  have hvm : v ≤ m2 := by
    have : ∫ ω, T i₀ ω ^ 2 ∂P ≤ m2 := integral_mono (hT2int i₀) hW2int fun ω => by
      rw [← sq_abs]
      exact pow_le_pow_left₀ (abs_nonneg _) (hTW i₀ ω) 2
    nlinarith [sq_nonneg b]
  have hv0 : 0 ≤ v := hY2 i₀ ▸ integral_nonneg fun ω => sq_nonneg _
  have hYb : ∀ i ω, |T i ω - b| ≤ 2 * wMax := fun i ω => (abs_sub _ _).trans (by linarith [hTb i ω])
  have hYi : iIndepFun (fun i ω => T i ω - b) P := hTi.comp (fun _ x => x - b) fun _ => measurable_id.sub_const _
  have hNi : iIndepFun (fun i ω => -(T i ω - b)) P := hTi.comp (fun _ x => -(x - b)) fun _ => (measurable_id.sub_const _).neg
  have hA := bernstein hn (fun i => (hTm i).sub_const b) hYi hYb hY0 hY2 hlog
  have hB := bernstein hn (Y := fun i ω => -(T i ω - b)) (fun i => ((hTm i).sub_const b).neg) hNi (M := 2 * wMax) (v := v)
    (fun i ω => by rw [abs_neg]; exact hYb i ω) (fun i => by rw [integral_neg, hY0, neg_zero])
    (fun i => by simp only [neg_sq]; exact hY2 i) hlog
  have hexp : Real.exp (-L) + Real.exp (-L) = delta := by
    rw [hL, Real.exp_neg, Real.exp_log (by positivity)]
    field_simp
    ring
  refine (measureReal_mono fun ω hω => ?_).trans ((measureReal_union_le _ _).trans ((add_le_add hA hB).trans_eq hexp))
  by_contra hc
  rw [Set.mem_union, not_or] at hc
  obtain ⟨hc1, hc2⟩ := hc
  obtain ⟨hu, hsq, i, hi⟩ := hω
  simp only [Set.mem_ofPred_eq, not_lt] at hu hc1 hc2
  have hMw : wMax ≤ M ω := hi ▸ (hM ω).2 ⟨i, rfl⟩
  have hmean : (∑ i, (T i ω - b)) / n = avg (fun i => T i ω) - b := by
    rw [Finset.sum_sub_distrib, avg]
    simp only [Finset.sum_const, Finset.card_univ, Fintype.card_fin, nsmul_eq_mul]
    field_simp
  rw [Finset.sum_neg_distrib, neg_div, hmean] at hc2
  rw [hmean] at hc1
  have h3 : √(2 * v * L / n) ≤ √(2 * avg (fun i => W i ω ^ 2) * L / n) := by
    refine Real.sqrt_le_sqrt ?_
    have : v ≤ avg fun i => W i ω ^ 2 := hvm.trans hsq
    gcongr
  have h4 : 2 * wMax * L / (3 * n) ≤ 2 * M ω * L / (3 * n) := by gcongr
  have h5 : |b| - |avg fun i => T i ω| ≤ |b - avg fun i => T i ω| := abs_sub_abs_le_abs_sub _ _
  have h6 : |b - avg fun i => T i ω| ≤ √(2 * v * L / n) + 2 * wMax * L / (3 * n) := abs_le.2 ⟨by linarith, by linarith⟩
  change |avg fun i => T i ω| + _ + _ < |b| at hu
  linarith

/-- A policy that takes an action of probability `e`: the weight is `1 / e` if the action was taken. -/
noncomputable def rareWeight (e : ℝ) (b : Bool) : ℝ := if b then 1 / e else 0

/-- Independent rounds in which the action is taken with probability `e`. -/
noncomputable def rareLaw (n : ℕ) (e : unitInterval) : Measure (Fin n → Bool) := Measure.pi fun _ => (bernoulliMeasure true false e)

instance (n : ℕ) (e : unitInterval) : IsProbabilityMeasure (rareLaw n e) := by unfold rareLaw; infer_instance

/-- Such rounds, with rewards 1 and weights clipped at 1, are a sample as described. -/
theorem rare_sample (n : ℕ) {e : unitInterval} (he0 : (0 : ℝ) < e) :
    BiasSample (rareLaw n e) (fun (_ : Fin n) _ => 1) (fun i ω => rareWeight e (ω i)) (fun i ω => min 1 (rareWeight e (ω i)))
      (fun _ _ => 0) (1 / e) where
  meas i := (measurable_of_finite fun b : Bool => ((1 : ℝ), rareWeight e b, min 1 (rareWeight e b), (0 : ℝ))).comp (measurable_pi_apply i)
  indep := iIndepFun_pi (X := fun _ (b : Bool) => ((1 : ℝ), rareWeight e b, min 1 (rareWeight e b), (0 : ℝ)))
    fun _ => (measurable_of_finite _).aemeasurable
  ident i j := by
    have hi : ∀ i : Fin n, Measure.map (fun ω : Fin n → Bool => ω i) (rareLaw n e) = (bernoulliMeasure true false e) := fun i =>
      (measurePreserving_eval (fun _ : Fin n => (bernoulliMeasure true false e)) i).map_eq
    have : IdentDistrib (fun ω : Fin n → Bool => ω i) (fun ω : Fin n → Bool => ω j) (rareLaw n e) (rareLaw n e) :=
      ⟨(measurable_pi_apply i).aemeasurable, (measurable_pi_apply j).aemeasurable, (hi i).trans (hi j).symm⟩
    exact this.comp (measurable_of_finite fun b : Bool => ((1 : ℝ), rareWeight e b, min 1 (rareWeight e b), (0 : ℝ)))
  weight i ω := by
    have h2 : 0 ≤ rareWeight e (ω i) := by unfold rareWeight; split <;> positivity
    refine ⟨le_min zero_le_one h2, min_le_right _ _, ?_⟩
    unfold rareWeight
    split
    · exact le_rfl
    · positivity
  err i ω := by norm_num

/-- The hypotheses are met, by logs of fifty rounds whose weights are 4 with probability one quarter. -/
example := C166_bias_bound_partial (delta := 1 / 20) (by norm_num) (rare_sample 50 (e := ⟨1 / 4, by norm_num, by norm_num⟩) (by norm_num))
  (by norm_num) (by norm_num) 0

/-- **C166 fails for weights that have not been seen.** The variance and the largest weight are taken from the log itself, so a log
without large weights gets a small bound. For every number of rounds, every `delta` and every `η`: a log of independent rounds
whose bias (of clipping at 1) is at least one half, while the bound is zero with probability at least `1 - η`. -/
theorem not_C166_unseen_weights {n : ℕ} (hn : 0 < n) {delta : ℝ} (h0 : 0 < delta) (h1 : delta ≤ 1) {η : ℝ} (hη : 0 < η) :
    ∃ (P : Measure (Fin n → Bool)) (_ : IsProbabilityMeasure P) (R W V Q : Fin n → (Fin n → Bool) → ℝ) (wMax : ℝ)
      (ub : (Fin n → Bool) → ℝ), BiasSample P R W V Q wMax ∧
      (∀ i, 1 / 2 ≤ ∫ ω, (W i ω - V i ω) * (R i ω - Q i ω) ∂P) ∧
      (∀ ω, estimateHighProbabilityUpperBoundBias (List.ofFn fun i => R i ω) (List.ofFn fun i => W i ω) (List.ofFn fun i => V i ω)
        (some (List.ofFn fun i => Q i ω)) delta = .ok (ub ω)) ∧
      1 - η ≤ P.real {ω | ub ω = 0} := by
  have hn' : (0 : ℝ) < n := by exact_mod_cast hn
  have hn1 : (1 : ℝ) ≤ n := by exact_mod_cast hn
  -- the probability of the action
  have he' : 0 < min (η / n) (1 / 2) := lt_min (by positivity) (by norm_num)
  obtain ⟨e, heq⟩ : ∃ e : unitInterval, (e : ℝ) = min (η / n) (1 / 2) :=
    ⟨⟨_, he'.le, (min_le_right _ _).trans (by norm_num)⟩, rfl⟩
  have he0 : (0 : ℝ) < e := heq ▸ he'
  have he2 : (e : ℝ) ≤ 1 / 2 := heq ▸ min_le_right _ _
  have heη : (e : ℝ) ≤ η / n := heq ▸ min_le_left _ _
  choose M hM using fun ω : Fin n → Bool => exists_greatest hn fun i => rareWeight e (ω i)
  refine ⟨rareLaw n e, inferInstance, fun _ _ => 1, fun i ω => rareWeight e (ω i), fun i ω => min 1 (rareWeight e (ω i)),
    fun _ _ => 0, 1 / e, _, rare_sample n he0, fun i => ?_, fun ω => biasUB_value hn (hM ω) h0 h1, ?_⟩
  · have hi : Measure.map (fun ω : Fin n → Bool => ω i) (rareLaw n e) = (bernoulliMeasure true false e) :=
      (measurePreserving_eval (fun _ : Fin n => (bernoulliMeasure true false e)) i).map_eq
    have hm := integral_map (μ := rareLaw n e) (φ := fun ω : Fin n → Bool => ω i)
      (measurable_pi_apply i).aemeasurable (f := fun b : Bool => (rareWeight e b - min 1 (rareWeight e b)) * (1 - 0))
      (measurable_of_finite _).aestronglyMeasurable
    rw [← hm, hi, integral_bernoulliMeasure]
    have h1e : (1 : ℝ) ≤ 1 / e := by rw [le_div_iff₀ he0]; linarith
    simp only [rareWeight, if_true, min_eq_left h1e]
    simp
    rw [mul_sub, mul_inv_cancel₀ he0.ne']
    linarith
  · have hsub : {fun _ => false} ⊆ {ω : Fin n → Bool |
        (|avg fun i => (rareWeight e (ω i) - min 1 (rareWeight e (ω i))) * ((1 : ℝ) - 0)| +
        √(2 * avg (fun i => rareWeight e (ω i) ^ 2) * Real.log (2 / delta) / n) +
        2 * M ω * Real.log (2 / delta) / (3 * n)) = 0} := by
      intro ω hω
      rw [Set.mem_singleton_iff] at hω
      have hM0 : M ω = 0 := by
        obtain ⟨i, hi⟩ := (hM ω).1
        rw [← hi, hω]
        simp [rareWeight]
      rw [hω] at hM0
      simp [hM0, hω, rareWeight, avg]
    refine le_trans ?_ (measureReal_mono hsub)
    rw [measureReal_def, rareLaw, Measure.pi_singleton]
    simp
    have h2 := one_add_mul_le_pow (a := -(e : ℝ)) (by linarith) n
    have h3 : n * (e : ℝ) ≤ η := by
      have := mul_le_mul_of_nonneg_left heη hn'.le
      rwa [mul_div_cancel₀ _ hn'.ne'] at this
    rw [← sub_eq_add_neg] at h2
    linarith

end Obp
