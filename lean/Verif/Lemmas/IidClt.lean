import Verif.Spec.RoundTermsOthers
import Verif.Lemmas.RatioClt
import Verif.Props.BootstrapCoverage

set_option linter.unusedSectionVars false

/-!
# Estimates that are functions of averages over independent rounds
-/

namespace Obp
open MeasureTheory ProbabilityTheory Filter Topology

variable {Ω : Type} [MeasurableSpace Ω] {P : Measure Ω} [IsProbabilityMeasure P]

/-- `√n (Ā + ∑ Ū / W̄)` for averages of centred `A`, `U` and `W` with mean one. -/
theorem clt_ratios {J : Type} [Fintype J] {A : ℕ → Ω → ℝ} {U W : J → ℕ → Ω → ℝ} (hW : ∀ j i, Measurable (W j i))
    (hD2 : MemLp (A 0 + ∑ j, U j 0) 2 P) (hDi : iIndepFun (fun i => A i + ∑ j, U j i) P)
    (hDd : ∀ i, IdentDistrib (A i + ∑ j, U j i) (A 0 + ∑ j, U j 0) P P) (hDm : ∫ ω, (A 0 + ∑ j, U j 0) ω ∂P = 0)
    (hU2 : ∀ j, MemLp (U j 0) 2 P) (hUi : ∀ j, iIndepFun (U j) P) (hUd : ∀ j i, IdentDistrib (U j i) (U j 0) P P)
    (hUm : ∀ j, ∫ ω, U j 0 ω ∂P = 0)
    (hw : ∀ᵐ ω ∂P, ∀ j, Tendsto (fun n => meanTo (fun i => W j i ω) n) atTop (𝓝 1)) :
    TendstoInDistribution (fun (n : ℕ) ω => √n * (meanTo (fun i => A i ω) n +
      ∑ j, meanTo (fun i => U j i ω) n / meanTo (fun i => W j i ω) n))
      atTop id (fun _ => P) (gaussianReal 0 Var[A 0 + ∑ j, U j 0; P].toNNReal) := by
  have hc1 := clt_mean (X := fun i => A i + ∑ j, U j i) hD2 hDi hDd hDm
  have hc2 := fun j => clt_mean (hU2 j) (hUi j) (hUd j) (hUm j)
  have hWm : ∀ j n, Measurable fun ω => meanTo (fun i => W j i ω) n := fun j n => by
    unfold meanTo
    exact (Finset.measurable_fun_sum _ fun i _ => hW j i).div_const _
  let δ : J → ℕ → Ω → ℝ := fun j n ω => (meanTo (fun i => W j i ω) n)⁻¹ - 1
  have hδm : ∀ j n, Measurable (δ j n) := fun j n => (hWm j n).inv.sub_const 1
  have hδ : ∀ j, TendstoInMeasure P (δ j) atTop 0 := fun j => by
    refine tendstoInMeasure_of_tendsto_ae (fun n => (hδm j n).aestronglyMeasurable) ?_
    filter_upwards [hw] with ω hω
    have := ((hω j).inv₀ one_ne_zero).sub_const 1
    simpa using this
  have hprod := fun j => inMeasure_mul (hc2 j) (hδ j) fun n => (hδm j n).aemeasurable
  -- add the corrections one after the other
  have key : ∀ T : Finset J, TendstoInDistribution (fun n => rootMean (fun i => A i + ∑ j, U j i) n +
      ∑ j ∈ T, fun ω => rootMean (U j) n ω * δ j n ω) atTop id (fun _ => P)
      (gaussianReal 0 Var[A 0 + ∑ j, U j 0; P].toNNReal) := by
    classical
    intro T
    induction T using Finset.induction_on with
    | empty => simpa using hc1
    | insert j T hj ih =>
      have := ih.add_of_tendstoInMeasure_const (c := 0) (hprod j)
        fun n => ((hc2 j).forall_aemeasurable n).mul (hδm j n).aemeasurable
      simp only [id, add_zero] at this
      change TendstoInDistribution _ atTop id (fun _ => P) _ at this
      convert this using 1
      funext n
      rw [Finset.sum_insert hj, add_assoc]
      congr 1
      exact add_comm _ _
  convert key Finset.univ using 1
  funext n ω
  simp only [Pi.add_apply, Finset.sum_apply, rootMean, δ, meanTo, Finset.sum_add_distrib, mul_add, add_div]
  rw [Finset.sum_comm (s := Finset.range n), add_assoc]
  congr 1
  rw [Finset.sum_div, Finset.mul_sum, Finset.mul_sum, ← Finset.sum_add_distrib]
  refine Finset.sum_congr rfl fun j _ => ?_
  ring

section rounds
variable {S : Type} [MeasurableSpace S] {Z : ℕ → Ω → S}

/-- Independent, equally distributed rounds. -/
structure Iid (P : Measure Ω) (Z : ℕ → Ω → S) : Prop where
  meas : ∀ i, Measurable (Z i)
  indep : iIndepFun Z P
  ident : ∀ i, IdentDistrib (Z i) (Z 0) P P

theorem Iid.fn (h : Iid P Z) {F : S → ℝ} (hF : Measurable F) :
    (∀ i, Measurable fun ω => F (Z i ω)) ∧ iIndepFun (fun i ω => F (Z i ω)) P ∧
      ∀ i, IdentDistrib (fun ω => F (Z i ω)) (fun ω => F (Z 0 ω)) P P :=
  ⟨fun i => hF.comp (h.meas i), h.indep.comp (fun _ => F) fun _ => hF, fun i => (h.ident i).comp hF⟩

theorem Iid.lln (h : Iid P Z) {F : S → ℝ} (hF : Measurable F) (hi : Integrable (fun ω => F (Z 0 ω)) P) :
    ∀ᵐ ω ∂P, Tendsto (fun n => meanTo (fun i => F (Z i ω)) n) atTop (𝓝 (∫ ω, F (Z 0 ω) ∂P)) := by
  obtain ⟨-, w2, w3⟩ := h.fn hF
  exact strong_law_ae_real (fun i ω => F (Z i ω)) hi (fun i j hij => w2.indepFun hij) w3

/-- The limit of the averages is the mean. -/
theorem Iid.mean_eq (h : Iid P Z) {F : S → ℝ} (hF : Measurable F) (hi : Integrable (fun ω => F (Z 0 ω)) P) {v : ℝ}
    (hv : ∀ᵐ ω ∂P, Tendsto (fun n => meanTo (fun i => F (Z i ω)) n) atTop (𝓝 v)) : ∫ ω, F (Z 0 ω) ∂P = v := by
  obtain ⟨ω, h1, h2⟩ := ((h.lln hF hi).and hv).exists
  exact tendsto_nhds_unique h1 h2

/-- Errors of the form `Ā + ∑ Ū / W̄`, with functions `FA`, `FU`, `FW` of the rounds. -/
theorem normalErrors_ratios (hZ : Iid P Z) {J : Type} [Fintype J] {r : ℕ → Ω → Py ℝ} {v var : ℝ} {FA : S → ℝ} {FU FW : J → S → ℝ}
    (hA : Measurable FA) (hU : ∀ j, Measurable (FU j)) (hW : ∀ j, Measurable (FW j))
    (hA2 : MemLp (fun ω => FA (Z 0 ω)) 2 P) (hU2 : ∀ j, MemLp (fun ω => FU j (Z 0 ω)) 2 P)
    (hAm : ∫ ω, FA (Z 0 ω) ∂P = 0) (hUm : ∀ j, ∫ ω, FU j (Z 0 ω) ∂P = 0)
    (hw : ∀ᵐ ω ∂P, ∀ j, Tendsto (fun n => meanTo (fun i => FW j (Z i ω)) n) atTop (𝓝 1))
    (hvar : Var[fun ω => FA (Z 0 ω) + ∑ j, FU j (Z 0 ω); P] = var) (hpos : 0 < var)
    (hest : ∀ᵐ ω ∂P, ∀ n, 0 < n → (∀ j, meanTo (fun i => FW j (Z i ω)) n ≠ 0) →
      r n ω = .ok (v + (meanTo (fun i => FA (Z i ω)) n +
        ∑ j, meanTo (fun i => FU j (Z i ω)) n / meanTo (fun i => FW j (Z i ω)) n))) :
    NormalErrors P r v var := by
  refine ⟨hpos, fun t => ?_⟩
  have hsum : Measurable fun x => FA x + ∑ j, FU j x := hA.add (Finset.measurable_fun_sum _ fun j _ => hU j)
  have e : ∀ i, (fun ω => FA (Z i ω)) + ∑ j, (fun ω => FU j (Z i ω)) = fun ω => FA (Z i ω) + ∑ j, FU j (Z i ω) := fun i => by
    funext ω
    simp
  obtain ⟨d1, d2, d3⟩ := hZ.fn hsum
  have hc := clt_ratios (P := P) (A := fun i ω => FA (Z i ω)) (U := fun j i ω => FU j (Z i ω)) (W := fun j i ω => FW j (Z i ω))
    (fun j => (hZ.fn (hW j)).1) (by rw [e]; exact hA2.add (memLp_finsetSum _ fun j _ => hU2 j)) (by simpa only [e] using d2)
    (by simpa only [e] using d3) (by
      rw [e, integral_add (hA2.integrable one_le_two) (integrable_finsetSum _ fun j _ => (hU2 j).integrable one_le_two), hAm,
        integral_finsetSum _ fun j _ => (hU2 j).integrable one_le_two]
      simp [hUm]) hU2 (fun j => (hZ.fn (hU j)).2.1) (fun j => (hZ.fn (hU j)).2.2) hUm hw
  rw [e, hvar] at hc
  have hmm : ∀ j n, Measurable fun ω => meanTo (fun i => FW j (Z i ω)) n := fun j n => by
    unfold meanTo
    exact (Finset.measurable_fun_sum _ fun i _ => (hZ.fn (hW j)).1 i).div_const _
  have hN1 : ∀ j, Tendsto (fun n => P.real {ω | meanTo (fun i => FW j (Z i ω)) n = 0}) atTop (𝓝 0) := fun j => by
    have h1 := tendstoInMeasure_of_tendsto_ae (fun n => (hmm j n).aestronglyMeasurable) (ae_all_iff.1 hw j)
    rw [tendstoInMeasure_iff_measureReal_norm] at h1
    refine squeeze_zero (fun n => measureReal_nonneg) (fun n => measureReal_mono fun ω hω => ?_) (h1 1 one_pos)
    simp only [Set.mem_ofPred_eq] at hω ⊢
    rw [hω]
    norm_num
  have hN : Tendsto (fun n => P.real {ω | ∃ j, meanTo (fun i => FW j (Z i ω)) n = 0}) atTop (𝓝 0) := by
    have h1 := tendsto_finsetSum (Finset.univ : Finset J) fun j _ => hN1 j
    simp only [Finset.sum_const_zero] at h1
    refine squeeze_zero (fun n => measureReal_nonneg) (fun n => ?_) h1
    have h2 : {ω | ∃ j, meanTo (fun i => FW j (Z i ω)) n = 0} = ⋃ j ∈ (Finset.univ : Finset J), {ω | meanTo (fun i => FW j (Z i ω)) n = 0} := by
      ext ω
      simp
    rw [h2]
    exact measureReal_biUnion_finset_le _ _
  refine tendsto_of_diff (tendsto_Iic hpos hc t) hN ?_
  filter_upwards [eventually_gt_atTop 0] with n hn
  filter_upwards [hest] with ω hω hb
  refine Iff.trans (b := ∃ x, r n ω = .ok x ∧ √n * (x - v) ≤ t) Iff.rfl ?_
  rw [hω n hn fun j h0 => hb ⟨j, h0⟩]
  refine ⟨?_, fun h => ⟨_, rfl, ?_⟩⟩
  · rintro ⟨x, hx, hle⟩
    cases hx
    rwa [add_sub_cancel_left] at hle
  · rw [add_sub_cancel_left]
    exact h

/-- Consistent estimates that are averages. -/
theorem normalErrors_mean (hZ : Iid P Z) {r : ℕ → Ω → Py ℝ} {v : ℝ} {F : S → ℝ} (hF : Measurable F)
    (h2 : MemLp (fun ω => F (Z 0 ω)) 2 P) (hm : ∫ ω, F (Z 0 ω) ∂P = v) (hpos : Var[fun ω => F (Z 0 ω); P] ≠ 0)
    (hest : ∀ᵐ ω ∂P, ∀ n, 0 < n → r n ω = .ok (meanTo (fun i => F (Z i ω)) n)) :
    NormalErrors P r v (Var[fun ω => F (Z 0 ω); P]) := by
  refine normalErrors_ratios hZ (J := Empty) (FA := fun x => F x - v) (FU := fun j => j.elim) (FW := fun j => j.elim)
    (hF.sub_const v) (fun j => j.elim) (fun j => j.elim) (h2.sub (memLp_const v)) (fun j => j.elim) ?_ (fun j => j.elim)
    (ae_of_all _ fun ω j => j.elim) ?_ (lt_of_le_of_ne (variance_nonneg _ _) hpos.symm) ?_
  · rw [integral_sub (h2.integrable one_le_two) (integrable_const v), hm]
    simp
  · simp only [Finset.univ_eq_empty, Finset.sum_empty, add_zero]
    exact variance_sub_const h2.aestronglyMeasurable v
  · filter_upwards [hest] with ω hω n hn _
    rw [hω n hn]
    have hn' : (n : ℝ) ≠ 0 := by exact_mod_cast hn.ne'
    simp only [meanTo, Finset.sum_sub_distrib, Finset.sum_const, Finset.card_range, nsmul_eq_mul, Except.ok.injEq,
      Finset.univ_eq_empty, Finset.sum_empty, add_zero]
    field_simp
    ring

/-- The mean of what a consistent estimator averages. -/
theorem Iid.mean_of_results (hZ : Iid P Z) {r : ℕ → Ω → Py ℝ} {v : ℝ} {F : S → ℝ} (hF : Measurable F)
    (hi : Integrable (fun ω => F (Z 0 ω)) P)
    (hest : ∀ᵐ ω ∂P, ∀ n, 0 < n → r n ω = .ok (meanTo (fun i => F (Z i ω)) n))
    (hc : ∀ᵐ ω ∂P, ResultsTendTo (fun n => r n ω) v) : ∫ ω, F (Z 0 ω) ∂P = v := by
  refine hZ.mean_eq hF hi ?_
  filter_upwards [hest, hc] with ω h1 ⟨x, h2, h3⟩
  refine h3.congr' ?_
  filter_upwards [h2, eventually_gt_atTop 0] with n hn h0
  rw [h1 n h0] at hn
  exact (Except.ok.inj hn).symm

variable {Ω' : Type} [MeasurableSpace Ω'] {P' : Measure Ω'} [IsProbabilityMeasure P'] {f : Ω' → Ω}

/-- Rounds on a space with further randomness. -/
theorem Iid.comp (hZ : Iid P Z) (hf : MeasurePreserving f P' P) : Iid P' fun i ω => Z i (f ω) := by
  have e : ∀ (U : Set Ω), MeasurableSet U → P' (f ⁻¹' U) = P U := fun U hU => hf.measure_preimage hU.nullMeasurableSet
  refine ⟨fun i => (hZ.meas i).comp hf.measurable, ?_, fun i => ⟨((hZ.meas i).comp hf.measurable).aemeasurable,
    ((hZ.meas 0).comp hf.measurable).aemeasurable, ?_⟩⟩
  · have h := hZ.indep
    rw [iIndepFun_iff_measure_inter_preimage_eq_mul] at h ⊢
    intro T sets hsets
    have h1 := h T hsets
    have e1 : (⋂ i ∈ T, (fun ω => Z i (f ω)) ⁻¹' sets i) = f ⁻¹' (⋂ i ∈ T, Z i ⁻¹' sets i) := by
      ext ω
      simp
    rw [e1, e _ (Finset.measurableSet_biInter _ fun i hi => hZ.meas i (hsets i hi)), h1]
    refine Finset.prod_congr rfl fun i hi => ?_
    rw [← e _ (hZ.meas i (hsets i hi))]
    rfl
  · have e2 : ∀ j, P'.map (fun ω => Z j (f ω)) = P.map (Z j) := by
      intro j
      conv_rhs => rw [← hf.map_eq]
      rw [Measure.map_map (hZ.meas j) hf.measurable]
      rfl
    exact (e2 i).trans ((hZ.ident i).map_eq.trans (e2 0).symm)

/-- Intervals bootstrapped from functions of the rounds. -/
theorem nearlyCovers_rounds (hZ : Iid P Z) {F : S → ℝ} (hF : Measurable F) (h2 : MemLp (fun ω => F (Z 0 ω)) 2 P) {v : ℝ}
    (hm : ∫ ω, F (Z 0 ω) ∂P = v) (hpos : Var[fun ω => F (Z 0 ω); P] ≠ 0) (hf : MeasurePreserving f P' P) {B : ℕ} (hB : 1 ≤ B)
    (R : Resampling P' (fun i ω => F (Z i (f ω))) B) {alpha : ℝ} (h0 : 0 ≤ alpha) (h1 : alpha ≤ 1)
    {iv : ℕ → Ω → CiArgs ℝ → List (List ℕ) → Py (CiOut ℝ)}
    (hiv : ∀ᵐ ω ∂P, ∀ n, 0 < n → ∀ c draws, iv n ω c draws = bootstrapCI (List.ofFn fun i : Fin n => F (Z i ω)) c draws) :
    NearlyCovers (fun n => P'.real {ω | ReturnsAround (iv n (f ω) (ciCall alpha B) (R.draws n ω)) v}) alpha B := by
  obtain ⟨i1, i2, i3⟩ := (hZ.comp hf).fn hF
  have e2 : MemLp (fun ω => F (Z 0 (f ω))) 2 P' := h2.comp_measurePreserving hf
  have e3 : Var[fun ω => F (Z 0 (f ω)); P'] = Var[fun ω => F (Z 0 ω); P] :=
    (IdentDistrib.variance_eq ⟨(i1 0).aemeasurable, (hF.comp (hZ.meas 0)).aemeasurable, by
      conv_rhs => rw [← hf.map_eq]
      exact (Measure.map_map (hF.comp (hZ.meas 0)) hf.measurable).symm⟩)
  have e4 : ∫ ω, F (Z 0 (f ω)) ∂P' = v := by
    rw [← hm, ← hf.map_eq]
    exact (integral_map (f := fun ω => F (Z 0 ω)) hf.measurable.aemeasurable (hF.comp (hZ.meas 0)).aestronglyMeasurable).symm
  have h := C175_coverage_partial R i1 e2 i2 i3 (by rw [e3]; exact hpos) hB h0 h1
  rw [e4] at h
  intro ε hε
  filter_upwards [h ε hε, eventually_gt_atTop 0] with n hn hn0
  have : P'.real {ω | ReturnsAround (iv n (f ω) (ciCall alpha B) (R.draws n ω)) v} = P'.real {ω | R.Contains alpha v n ω} := by
    refine measureReal_congr ?_
    filter_upwards [hf.quasiMeasurePreserving.ae hiv] with ω hω
    refine propext ?_
    change ReturnsAround (iv n (f ω) (ciCall alpha B) (R.draws n ω)) v ↔ R.Contains alpha v n ω
    unfold ReturnsAround Resampling.Contains
    rw [hω n hn0]
  rw [this]
  exact hn

end rounds

theorem meanTo_avg (x : ℕ → ℝ) (n : ℕ) : meanTo x n = Log.avg fun i : Fin n => x i := by
  rw [meanTo, Log.avg, Fin.sum_univ_eq_sum_range]

theorem meanTo_sub_mul (x w : ℕ → ℝ) (v : ℝ) (n : ℕ) : meanTo (fun i => x i - v * w i) n = meanTo x n - v * meanTo w n := by
  simp only [meanTo, Finset.sum_sub_distrib, ← Finset.mul_sum]
  ring

end Obp
