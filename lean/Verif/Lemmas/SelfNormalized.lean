import Verif.Lemmas.LinUcbRegret
import Mathlib.Probability.Distributions.Gaussian.Real
import Mathlib.Probability.Moments.SubGaussian
import Mathlib.Probability.Independence.Basic

set_option linter.unusedSectionVars false

/-! # How far noise can move a ridge regression on data that were selected while they were observed -/

namespace Obp
open Matrix MeasureTheory ProbabilityTheory
open scoped ENNReal NNReal

variable {d : ℕ}

/-! ### A Gaussian mixture -/

/-- The mixture of `exp (l s - l^2 / 2)` over a Gaussian `l`. -/
theorem gaussian_mixture (s u : ℝ) (w : ℝ≥0) :
    ∫⁻ l, ENNReal.ofReal (Real.exp (l * s - l ^ 2 / 2)) ∂(gaussianReal u w) =
      ENNReal.ofReal (Real.exp ((2 * s * u + s ^ 2 * w - u ^ 2) / (2 * (1 + w))) / √(1 + w)) := by
  by_cases hw : w = 0
  · subst hw
    rw [gaussianReal_zero_var, lintegral_dirac]
    congr 1
    simp
    ring
  · have hw' : (0 : ℝ) < w := by positivity
    have hv : w / (1 + w) ≠ 0 := by positivity
    rw [gaussianReal_of_var_ne_zero _ hw, lintegral_withDensity_eq_lintegral_mul _ (measurable_gaussianPDF u w)
      (by fun_prop)]
    have e : ∀ l : ℝ, (gaussianPDF u w * fun l => ENNReal.ofReal (Real.exp (l * s - l ^ 2 / 2))) l =
        ENNReal.ofReal (Real.exp ((2 * s * u + s ^ 2 * w - u ^ 2) / (2 * (1 + w))) / √(1 + w)) *
          gaussianPDF ((u + s * w) / (1 + w)) (w / (1 + w)) l := by
      intro l
      rw [Pi.mul_apply, gaussianPDF, gaussianPDF, ← ENNReal.ofReal_mul (gaussianPDFReal_nonneg _ _ _),
        ← ENNReal.ofReal_mul (by positivity)]
      congr 1
      rw [gaussianPDFReal, gaussianPDFReal]
      have h1 : √(2 * Real.pi * w) = √(1 + w) * √(2 * Real.pi * (w / (1 + w) : ℝ≥0)) := by
        rw [← Real.sqrt_mul (by positivity)]
        congr 1
        push_cast
        field_simp
      have h2 : Real.exp (-(l - u) ^ 2 / (2 * w)) * Real.exp (l * s - l ^ 2 / 2) =
          Real.exp ((2 * s * u + s ^ 2 * w - u ^ 2) / (2 * (1 + w))) *
            Real.exp (-(l - (u + s * w) / (1 + w)) ^ 2 / (2 * (w / (1 + w) : ℝ≥0))) := by
        rw [← Real.exp_add, ← Real.exp_add]
        congr 1
        push_cast
        field_simp
        ring
      rw [h1, mul_assoc, h2, mul_inv]
      ring
    simp_rw [e]
    rw [lintegral_const_mul _ (measurable_gaussianPDF _ _), lintegral_gaussianPDF_eq_one _ hv, mul_one]

/-- The step of the supermartingale. -/
theorem mixture_step {Ω : Type} [MeasurableSpace Ω] {P : Measure Ω} [IsProbabilityMeasure P] {η : Ω → ℝ} (hη : Measurable η)
    {σ : ℝ≥0} (hσ : 0 < σ) (hsub : HasSubgaussianMGF η (σ ^ 2) P) (u : ℝ) (w : ℝ≥0) :
    ∫⁻ ω, ENNReal.ofReal (Real.exp ((2 * η ω * u + η ω ^ 2 * w - u ^ 2) / (1 + w) / (2 * σ ^ 2)) / √(1 + w)) ∂P ≤ 1 := by
  have hσ' : (0 : ℝ) < σ := hσ
  have e : ∀ ω, ENNReal.ofReal (Real.exp ((2 * η ω * u + η ω ^ 2 * w - u ^ 2) / (1 + w) / (2 * σ ^ 2)) / √(1 + w)) =
      ∫⁻ l, ENNReal.ofReal (Real.exp (l * (η ω / σ) - l ^ 2 / 2)) ∂(gaussianReal (u / σ) w) := by
    intro ω
    rw [gaussian_mixture]
    congr 3
    field_simp
  simp_rw [e]
  rw [lintegral_lintegral_swap (by fun_prop)]
  refine (lintegral_mono (g := fun _ => 1) fun l => ?_).trans (by simp)
  have hint := hsub.integrable_exp_mul (l / σ)
  have hle := hsub.mgf_le (l / σ)
  have e2 : ∀ ω, ENNReal.ofReal (Real.exp (l * (η ω / σ) - l ^ 2 / 2)) =
      ENNReal.ofReal (Real.exp (l / σ * η ω)) * ENNReal.ofReal (Real.exp (-(l ^ 2 / 2))) := by
    intro ω
    rw [← ENNReal.ofReal_mul (Real.exp_nonneg _), ← Real.exp_add]
    congr 2
    ring
  simp_rw [e2]
  rw [lintegral_mul_const _ (by fun_prop), ← ofReal_integral_eq_lintegral_ofReal hint
    (Filter.Eventually.of_forall fun _ => Real.exp_nonneg _), ← ENNReal.ofReal_mul (integral_nonneg fun _ => Real.exp_nonneg _),
    ← ENNReal.ofReal_one]
  refine ENNReal.ofReal_le_ofReal ?_
  have h3 : ∫ ω, Real.exp (l / σ * η ω) ∂P ≤ Real.exp (l ^ 2 / 2) := by
    refine hle.trans (le_of_eq ?_)
    congr 1
    push_cast
    field_simp
  calc _ ≤ Real.exp (l ^ 2 / 2) * Real.exp (-(l ^ 2 / 2)) := mul_le_mul_of_nonneg_right h3 (Real.exp_nonneg _)
    _ = 1 := by rw [← Real.exp_add, add_neg_cancel, Real.exp_zero]

/-! ### Data selected while they are observed -/

/-- Adding an observation. -/
theorem quad_moment_append (D : List ((Fin d → ℝ) × ℝ)) (x : Fin d → ℝ) (y : ℝ) :
    quad (D ++ [(x, y)]) (moment (D ++ [(x, y)])) = quad D (moment D) +
      (2 * y * (x ⬝ᵥ ((gram D)⁻¹ *ᵥ moment D)) + y ^ 2 * quad D x - (x ⬝ᵥ ((gram D)⁻¹ *ᵥ moment D)) ^ 2) / (1 + quad D x) := by
  obtain ⟨B, -, hB, hq⟩ := woodbury_ok (gram_inv_mul D) x y
  have hw : 0 < 1 + quad D x := by linarith [quad_nonneg D x]
  have hB' : (gram (D ++ [(x, y)]))⁻¹ = B := (eq_gram_inv hB).symm
  have h1 : quad (D ++ [(x, y)]) (moment (D ++ [(x, y)])) =
      moment (D ++ [(x, y)]) ⬝ᵥ (B *ᵥ moment (D ++ [(x, y)])) := by rw [← hB']; rfl
  rw [h1, hq, moment_append]
  set u := x ⬝ᵥ ((gram D)⁻¹ *ᵥ moment D) with hu
  have hu' : moment D ⬝ᵥ ((gram D)⁻¹ *ᵥ x) = u := gram_inv_symm_dot D _ _
  have hw' : x ⬝ᵥ ((gram D)⁻¹ *ᵥ x) = quad D x := rfl
  have hm' : moment D ⬝ᵥ ((gram D)⁻¹ *ᵥ moment D) = quad D (moment D) := rfl
  simp only [mulVec_add, mulVec_smul, dotProduct_add, add_dotProduct, dotProduct_smul, smul_dotProduct, smul_eq_mul,
    hu', hw', hm', ← hu]
  field_simp
  ring

open Classical in
/-- the observations `(x s, y s)` of the rounds `s < t` with `A s` -/
noncomputable def pickData (x : ℕ → Fin d → ℝ) (A : ℕ → Prop) (y : ℕ → ℝ) : ℕ → List ((Fin d → ℝ) × ℝ)
  | 0 => []
  | t + 1 => if A t then pickData x A y t ++ [(x t, y t)] else pickData x A y t

theorem pickData_pos {x : ℕ → Fin d → ℝ} {A : ℕ → Prop} {y : ℕ → ℝ} {t : ℕ} (h : A t) :
    pickData x A y (t + 1) = pickData x A y t ++ [(x t, y t)] := if_pos h

theorem pickData_neg {x : ℕ → Fin d → ℝ} {A : ℕ → Prop} {y : ℕ → ℝ} {t : ℕ} (h : ¬ A t) :
    pickData x A y (t + 1) = pickData x A y t := if_neg h

theorem pickData_gram (x : ℕ → Fin d → ℝ) {A A' : ℕ → Prop} (y y' : ℕ → ℝ) {t : ℕ} (h : ∀ s < t, (A s ↔ A' s)) :
    gram (pickData x A y t) = gram (pickData x A' y' t) := by
  induction t with
  | zero => rfl
  | succ t ih =>
    have ih := ih fun s hs => h s (hs.trans t.lt_succ_self)
    by_cases ht : A t
    · rw [pickData_pos ht, pickData_pos ((h t t.lt_succ_self).1 ht), gram_append, gram_append, ih]
    · rw [pickData_neg ht, pickData_neg (mt (h t t.lt_succ_self).2 ht), ih]

theorem pickData_congr (x : ℕ → Fin d → ℝ) {A A' : ℕ → Prop} {y y' : ℕ → ℝ} {t : ℕ} (h : ∀ s < t, (A s ↔ A' s))
    (hy : ∀ s < t, A s → y s = y' s) : pickData x A y t = pickData x A' y' t := by
  induction t with
  | zero => rfl
  | succ t ih =>
    have ih := ih (fun s hs => h s (hs.trans t.lt_succ_self)) fun s hs => hy s (hs.trans t.lt_succ_self)
    by_cases ht : A t
    · rw [pickData_pos ht, pickData_pos ((h t t.lt_succ_self).1 ht), ih, hy t t.lt_succ_self ht]
    · rw [pickData_neg ht, pickData_neg (mt (h t t.lt_succ_self).2 ht), ih]

theorem quad_congr {D D' : List ((Fin d → ℝ) × ℝ)} (h : gram D = gram D') (v : Fin d → ℝ) : quad D v = quad D' v := by
  unfold quad
  rw [h]

section
variable {Ω : Type} {m : MeasurableSpace Ω} (x : ℕ → Fin d → ℝ) {A : ℕ → Ω → Prop} {y : ℕ → Ω → ℝ} {t : ℕ}

theorem measurable_pickGram (hA : ∀ s < t, MeasurableSet {ω | A s ω}) (f : Matrix (Fin d) (Fin d) ℝ → ℝ) :
    Measurable fun ω => f (gram (pickData x (fun s => A s ω) (fun s => y s ω) t)) := by
  classical
  have hp : Measurable fun ω => fun s : Fin t => decide (A s ω) := by
    refine measurable_pi_lambda _ fun s => measurable_to_bool ?_
    have e : (fun ω => decide (A s ω)) ⁻¹' {true} = {ω | A s ω} := by ext ω; simp
    rw [e]
    exact hA s s.isLt
  have hΦ : Measurable fun p : Fin t → Bool =>
      f (gram (pickData x (fun s => ∃ h : s < t, p ⟨s, h⟩ = true) (fun _ => 0) t)) := measurable_of_countable _
  have e : (fun ω => f (gram (pickData x (fun s => A s ω) (fun s => y s ω) t))) = (fun p : Fin t → Bool =>
      f (gram (pickData x (fun s => ∃ h : s < t, p ⟨s, h⟩ = true) (fun _ => 0) t))) ∘
      fun ω => fun s : Fin t => decide (A s ω) := by
    funext ω
    rw [Function.comp_apply]
    congr 1
    refine pickData_gram x _ _ fun s hs => ?_
    simp [hs]
  rw [e]
  exact hΦ.comp hp

theorem measurable_pickMoment (hA : ∀ s < t, MeasurableSet {ω | A s ω}) (hy : ∀ s < t, Measurable (y s)) (i : Fin d) :
    Measurable fun ω => moment (pickData x (fun s => A s ω) (fun s => y s ω) t) i := by
  classical
  induction t with
  | zero => exact measurable_const
  | succ t ih =>
    have ih := ih (fun s hs => hA s (hs.trans t.lt_succ_self)) fun s hs => hy s (hs.trans t.lt_succ_self)
    have e : (fun ω => moment (pickData x (fun s => A s ω) (fun s => y s ω) (t + 1)) i) = fun ω =>
        if A t ω then moment (pickData x (fun s => A s ω) (fun s => y s ω) t) i + y t ω * x t i
        else moment (pickData x (fun s => A s ω) (fun s => y s ω) t) i := by
      funext ω
      by_cases ht : A t ω
      · rw [pickData_pos ht, moment_append, if_pos ht]; rfl
      · rw [pickData_neg ht, if_neg ht]
    rw [e]
    exact Measurable.ite (hA t t.lt_succ_self) (ih.add ((hy t t.lt_succ_self).mul_const _)) ih

theorem measurable_pickLin (hA : ∀ s < t, MeasurableSet {ω | A s ω}) (hy : ∀ s < t, Measurable (y s)) (z : Fin d → ℝ) :
    Measurable fun ω => z ⬝ᵥ ((gram (pickData x (fun s => A s ω) (fun s => y s ω) t))⁻¹ *ᵥ
      moment (pickData x (fun s => A s ω) (fun s => y s ω) t)) := by
  simp only [dotProduct, mulVec]
  refine Finset.measurable_fun_sum _ fun i _ => (Finset.measurable_fun_sum _ fun j _ => ?_).const_mul _
  exact (measurable_pickGram x hA (fun G => G⁻¹ i j)).mul (measurable_pickMoment x hA hy j)

theorem measurable_pickQuad (hA : ∀ s < t, MeasurableSet {ω | A s ω}) (z : Fin d → ℝ) :
    Measurable fun ω => quad (pickData x (fun s => A s ω) (fun s => y s ω) t) z :=
  measurable_pickGram x hA (fun G => z ⬝ᵥ (G⁻¹ *ᵥ z))

theorem measurable_pickNoise (hA : ∀ s < t, MeasurableSet {ω | A s ω}) (hy : ∀ s < t, Measurable (y s)) :
    Measurable fun ω => quad (pickData x (fun s => A s ω) (fun s => y s ω) t)
      (moment (pickData x (fun s => A s ω) (fun s => y s ω) t)) := by
  simp only [quad, dotProduct, mulVec]
  refine Finset.measurable_fun_sum _ fun i _ => (measurable_pickMoment x hA hy i).mul
    (Finset.measurable_fun_sum _ fun j _ => ?_)
  exact (measurable_pickGram x hA (fun G => G⁻¹ i j)).mul (measurable_pickMoment x hA hy j)

end

/-- the supermartingale -/
noncomputable def ellMart (σ : ℝ) (D : List ((Fin d → ℝ) × ℝ)) : ℝ :=
  Real.exp (quad D (moment D) / (2 * σ ^ 2)) / √(gram D).det

theorem ellMart_nonneg (σ : ℝ) (D : List ((Fin d → ℝ) × ℝ)) : 0 ≤ ellMart σ D := by unfold ellMart; positivity

theorem ellMart_append (σ : ℝ) (D : List ((Fin d → ℝ) × ℝ)) (x : Fin d → ℝ) (y : ℝ) :
    ellMart σ (D ++ [(x, y)]) = ellMart σ D *
      (Real.exp ((2 * y * (x ⬝ᵥ ((gram D)⁻¹ *ᵥ moment D)) + y ^ 2 * quad D x -
        (x ⬝ᵥ ((gram D)⁻¹ *ᵥ moment D)) ^ 2) / (1 + quad D x) / (2 * σ ^ 2)) / √(1 + quad D x)) := by
  unfold ellMart
  rw [quad_moment_append, add_div, Real.exp_add, gram_det_append, Real.sqrt_mul (gram_det_pos D).le]
  exact (div_mul_div_comm _ _ _ _).symm

/-- What is needed of data selected while they are observed: what is known before round `t`, and noise that is independent
of it. -/
structure Adaptive {Ω : Type} [mΩ : MeasurableSpace Ω] (P : Measure Ω) (F : ℕ → MeasurableSpace Ω) (η : ℕ → Ω → ℝ)
    (σ : ℝ≥0) : Prop where
  le : ∀ t, F t ≤ mΩ
  mono : Monotone F
  noise : ∀ t, Measurable[F (t + 1)] (η t)
  indep : ∀ t, Indep (F t) (MeasurableSpace.comap (η t) inferInstance) P
  sub : ∀ t, HasSubgaussianMGF (η t) (σ ^ 2) P

namespace Adaptive

variable {Ω : Type} [mΩ : MeasurableSpace Ω] {P : Measure Ω} [IsProbabilityMeasure P] {F : ℕ → MeasurableSpace Ω}
  {η : ℕ → Ω → ℝ} {σ : ℝ≥0} (h : Adaptive P F η σ) (hσ : 0 < σ) (x : ℕ → Fin d → ℝ) {A : ℕ → Ω → Prop}
  (hA : ∀ t, MeasurableSet[F t] {ω | A t ω})

include h in
theorem meas_noise (t : ℕ) : Measurable (η t) := (h.noise t).mono (h.le _) le_rfl

include h hA in
theorem meas_mart (t : ℕ) :
    Measurable[F t] fun ω => ellMart σ (pickData x (fun s => A s ω) (fun s => η s ω) t) := by
  have hA' : ∀ s < t, MeasurableSet[F t] {ω | A s ω} := fun s hs => h.mono hs.le _ (hA s)
  have hy' : ∀ s < t, Measurable[F t] (η s) := fun s hs => (h.noise s).mono (h.mono hs) le_rfl
  refine Measurable.div ?_ ?_
  · exact ((measurable_pickNoise (m := F t) x hA' hy').div_const _).exp
  · exact measurable_pickGram (m := F t) x hA' (fun G => √G.det)

include h hσ hA in
theorem lintegral_mart (t : ℕ) :
    ∫⁻ ω, ENNReal.ofReal (ellMart σ (pickData x (fun s => A s ω) (fun s => η s ω) t)) ∂P ≤ 1 := by
  classical
  induction t with
  | zero =>
    refine (lintegral_mono (g := fun _ => 1) fun ω => ?_).trans (by simp)
    simp [pickData, ellMart, moment, gram, quad]
  | succ t ih =>
    refine le_trans ?_ ih
    set D := fun ω => pickData x (fun s => A s ω) (fun s => η s ω) t with hD
    set S := {ω | A t ω} with hS
    have hSF : MeasurableSet[F t] S := hA t
    have hA' : ∀ s < t, MeasurableSet[F t] {ω | A s ω} := fun s hs => h.mono hs.le _ (hA s)
    have hy' : ∀ s < t, Measurable[F t] (η s) := fun s hs => (h.noise s).mono (h.mono hs) le_rfl
    set M : Ω → ℝ≥0∞ := fun ω => ENNReal.ofReal (ellMart σ (D ω)) with hM
    have hMF : Measurable[F t] M := ENNReal.measurable_ofReal.comp (h.meas_mart x hA t)
    set U : Ω → ℝ := fun ω => x t ⬝ᵥ ((gram (D ω))⁻¹ *ᵥ moment (D ω)) with hU
    have hUF : Measurable[F t] U := measurable_pickLin (m := F t) x hA' hy' (x t)
    set W : Ω → ℝ≥0 := fun ω => (quad (D ω) (x t)).toNNReal with hW
    have hWF : Measurable[F t] W := measurable_real_toNNReal.comp (measurable_pickQuad (m := F t) x hA' (x t))
    set Y : Ω → ℝ≥0∞ × ℝ × ℝ≥0 := fun ω => (S.indicator M ω, U ω, W ω) with hY
    have hYF : Measurable[F t] Y := (hMF.indicator hSF).prodMk (hUF.prodMk hWF)
    set g : (ℝ≥0∞ × ℝ × ℝ≥0) × ℝ → ℝ≥0∞ := fun p => p.1.1 * ENNReal.ofReal
      (Real.exp ((2 * p.2 * p.1.2.1 + p.2 ^ 2 * p.1.2.2 - p.1.2.1 ^ 2) / (1 + p.1.2.2) / (2 * σ ^ 2)) / √(1 + p.1.2.2)) with hg
    have hgm : Measurable g := by
      rw [hg]
      fun_prop
    have hstep : ∀ ω, ENNReal.ofReal (ellMart σ (pickData x (fun s => A s ω) (fun s => η s ω) (t + 1))) =
        Sᶜ.indicator M ω + g (Y ω, η t ω) := by
      intro ω
      by_cases ht : A t ω
      · have h1 : ω ∈ S := ht
        rw [pickData_pos ht, ellMart_append, ENNReal.ofReal_mul (ellMart_nonneg _ _), hg, hY,
          Set.indicator_of_notMem (by simpa using h1), zero_add]
        simp only
        rw [Set.indicator_of_mem h1, hW]
        simp only [Real.coe_toNNReal _ (quad_nonneg _ _)]
        rfl
      · have h1 : ω ∉ S := ht
        rw [pickData_neg ht, Set.indicator_of_mem (by simpa using h1), hg, hY]
        simp only
        rw [Set.indicator_of_notMem h1, zero_mul, add_zero]
    simp_rw [hstep]
    have hYm : Measurable Y := hYF.mono (h.le t) le_rfl
    have hMm : Measurable M := hMF.mono (h.le t) le_rfl
    have hSm : MeasurableSet S := h.le t _ hSF
    rw [lintegral_add_left (hMm.indicator hSm.compl)]
    have hind : IndepFun Y (η t) P := by
      rw [IndepFun_iff_Indep]
      exact indep_of_indep_of_le_left (h.indep t) hYF.comap_le
    have hjoint := (indepFun_iff_map_prod_eq_prod_map_map hYm.aemeasurable (h.meas_noise t).aemeasurable).1 hind
    have h2 : ∫⁻ ω, g (Y ω, η t ω) ∂P ≤ ∫⁻ ω, S.indicator M ω ∂P := by
      have : IsProbabilityMeasure (P.map (η t)) := Measure.isProbabilityMeasure_map (h.meas_noise t).aemeasurable
      have : IsProbabilityMeasure (P.map Y) := Measure.isProbabilityMeasure_map hYm.aemeasurable
      have e : ∫⁻ ω, g (Y ω, η t ω) ∂P = ∫⁻ p, g p ∂(P.map fun ω => (Y ω, η t ω)) :=
        (lintegral_map hgm (hYm.prodMk (h.meas_noise t))).symm
      rw [e, hjoint, lintegral_prod _ hgm.aemeasurable, lintegral_map (by fun_prop) hYm]
      refine lintegral_mono fun ω => ?_
      rw [lintegral_map (by fun_prop) (h.meas_noise t)]
      simp only [hg]
      rw [lintegral_const_mul _ (by have := h.meas_noise t; fun_prop)]
      refine (mul_le_mul_right (mixture_step (h.meas_noise t) hσ (h.sub t) _ _) _).trans ?_
      simp [hY]
    calc _ ≤ ∫⁻ ω, Sᶜ.indicator M ω ∂P + ∫⁻ ω, S.indicator M ω ∂P := add_le_add_right h2 _
      _ = ∫⁻ ω, M ω ∂P := by
        rw [lintegral_indicator hSm.compl, lintegral_indicator hSm, add_comm, lintegral_add_compl _ hSm]

include h hσ hA in
/-- The maximal inequality: the supermartingale stays small through all rounds. -/
theorem mart_max {c : ℝ} (hc : 0 < c) (t : ℕ) :
    P {ω | ∃ s ≤ t, c ≤ ellMart σ (pickData x (fun s => A s ω) (fun s => η s ω) s)} ≤ ENNReal.ofReal c⁻¹ := by
  classical
  set M : ℕ → Ω → ℝ := fun s ω => ellMart σ (pickData x (fun s => A s ω) (fun s => η s ω) s) with hM
  -- stop observing when the bound is reached
  set A' : ℕ → Ω → Prop := fun s ω => A s ω ∧ ∀ k ≤ s, M k ω < c with hA'
  have hA'F : ∀ s, MeasurableSet[F s] {ω | A' s ω} := by
    intro s
    have e : {ω | A' s ω} = {ω | A s ω} ∩ ⋂ k ∈ Set.Iic s, M k ⁻¹' Set.Iio c := by ext ω; simp [hA']
    rw [e]
    refine MeasurableSet.inter (hA s) (MeasurableSet.biInter (Set.to_countable _) fun k hk => ?_)
    exact ((h.meas_mart x hA k).mono (h.mono hk) le_rfl) measurableSet_Iio
  have hint := h.lintegral_mart hσ x hA'F t
  have hmeas : Measurable fun ω => ENNReal.ofReal (ellMart σ (pickData x (fun s => A' s ω) (fun s => η s ω) t)) :=
    ENNReal.measurable_ofReal.comp ((h.meas_mart x hA'F t).mono (h.le t) le_rfl)
  have hmarkov := mul_meas_ge_le_lintegral hmeas (μ := P) (ENNReal.ofReal c)
  have hsub : {ω | ∃ s ≤ t, c ≤ M s ω} ⊆
      {ω | ENNReal.ofReal c ≤ ENNReal.ofReal (ellMart σ (pickData x (fun s => A' s ω) (fun s => η s ω) t))} := by
    intro ω hω
    have hex : ∃ s, c ≤ M s ω := hω.imp fun s hs => hs.2
    set k := Nat.find hex with hk
    have hkt : k ≤ t := by
      obtain ⟨s, hs, hcs⟩ := hω
      exact (Nat.find_min' hex hcs).trans hs
    have hbefore : ∀ j < k, M j ω < c := fun j hj => not_le.1 (Nat.find_min hex hj)
    have hstop : ∀ j, k ≤ j → pickData x (fun s => A' s ω) (fun s => η s ω) j = pickData x (fun s => A s ω) (fun s => η s ω) k := by
      intro j hj
      induction j, hj using Nat.le_induction with
      | base =>
        refine pickData_congr x (fun s hs => ?_) fun _ _ _ => rfl
        exact ⟨fun h' => h'.1, fun h' => ⟨h', fun i hi => hbefore i (hi.trans_lt hs)⟩⟩
      | succ j hj ih =>
        rw [pickData_neg, ih]
        exact fun h' => absurd (h'.2 k hj) (not_lt.2 (Nat.find_spec hex))
    rw [Set.mem_ofPred_eq, hstop t hkt]
    exact ENNReal.ofReal_le_ofReal (Nat.find_spec hex)
  have hc' : ENNReal.ofReal c ≠ 0 := by simpa using hc
  rw [ENNReal.ofReal_inv_of_pos hc, ENNReal.le_inv_iff_mul_le, mul_comm]
  exact (mul_le_mul_right (measure_mono hsub) _).trans (hmarkov.trans hint)

include h hσ hA in
/-- The self-normalised bound. -/
theorem noise_bound {δ : ℝ} (hδ : 0 < δ) (t : ℕ) :
    P {ω | ∃ s ≤ t, (σ : ℝ) ^ 2 * (Real.log (gram (pickData x (fun s => A s ω) (fun s => η s ω) s)).det + 2 * Real.log (1 / δ)) <
      quad (pickData x (fun s => A s ω) (fun s => η s ω) s) (moment (pickData x (fun s => A s ω) (fun s => η s ω) s))} ≤
      ENNReal.ofReal δ := by
  have hσ' : (0 : ℝ) < σ := hσ
  have h1 := h.mart_max hσ x hA (c := δ⁻¹) (inv_pos.2 hδ) t
  rw [inv_inv] at h1
  refine (measure_mono ?_).trans h1
  rintro ω ⟨s, hs, hlt⟩
  refine ⟨s, hs, ?_⟩
  set D := pickData x (fun s => A s ω) (fun s => η s ω) s
  have hdet := gram_det_pos D
  have h2 : 1 / 2 * Real.log (gram D).det + Real.log (1 / δ) ≤ quad D (moment D) / (2 * σ ^ 2) := by
    rw [le_div_iff₀ (by positivity)]
    linarith
  unfold ellMart
  rw [le_div_iff₀ (Real.sqrt_pos.2 hdet)]
  calc δ⁻¹ * √(gram D).det = Real.exp (1 / 2 * Real.log (gram D).det + Real.log (1 / δ)) := by
        rw [Real.exp_add, Real.exp_log (by positivity), Real.sqrt_eq_rpow, Real.rpow_def_of_pos hdet, one_div, mul_comm,
          mul_comm (Real.log _), one_div]
    _ ≤ _ := Real.exp_le_exp.2 h2

end Adaptive

end Obp
