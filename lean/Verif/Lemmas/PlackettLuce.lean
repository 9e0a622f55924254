import Mathlib.Probability.Distributions.Exponential
import Mathlib.Probability.Independence.Basic
import Mathlib.MeasureTheory.Integral.Pi
import Mathlib.Analysis.SpecialFunctions.ImproperIntegrals
import Mathlib.Logic.Equiv.Fintype
import Verif.Spec.Gumbel

set_option linter.unusedSectionVars false

/-! # Exponential races -/

namespace Obp
open MeasureTheory ProbabilityTheory

/-- Entries above `t`, the first `L` of them increasing and below all later ones. -/
def race (n L : ℕ) (t : ℝ) : Set (Fin n → ℝ) :=
  {x | (∀ i, t < x i) ∧ ∀ i j : Fin n, i < j → i.val < L → x i < x j}

theorem race_measurable (n L : ℕ) (t : ℝ) : MeasurableSet (race n L t) := by
  have : race n L t = (⋂ i, {x : Fin n → ℝ | t < x i}) ∩
      ⋂ i, ⋂ j, ⋂ (_ : i < j), ⋂ (_ : i.val < L), {x : Fin n → ℝ | x i < x j} := by
    ext x
    simp only [race, Set.mem_inter_iff, Set.mem_iInter]
    rfl
  rw [this]
  refine (MeasurableSet.iInter fun i => measurableSet_lt measurable_const (measurable_pi_apply i)).inter ?_
  exact MeasurableSet.iInter fun i => MeasurableSet.iInter fun j => MeasurableSet.iInter fun _ => MeasurableSet.iInter fun _ =>
    measurableSet_lt (measurable_pi_apply i) (measurable_pi_apply j)

theorem race_succ (n L : ℕ) (t : ℝ) (x : Fin (n + 1) → ℝ) :
    x ∈ race (n + 1) (L + 1) t ↔ t < x 0 ∧ Fin.tail x ∈ race n L (x 0) := by
  constructor
  · rintro ⟨h1, h2⟩
    exact ⟨h1 0, fun i => h2 0 i.succ (Fin.succ_pos i) (by simp),
      fun i j hij hi => h2 i.succ j.succ (by simpa using hij) (by simpa using hi)⟩
  · rintro ⟨h0, h1, h2⟩
    refine ⟨fun i => ?_, fun i j hij hi => ?_⟩
    · refine Fin.cases h0 (fun i => h0.trans (h1 i)) i
    · induction i using Fin.cases with
      | zero =>
        induction j using Fin.cases with
        | zero => exact absurd hij (lt_irrefl _)
        | succ j => exact h1 j
      | succ i =>
        induction j using Fin.cases with
        | zero => exact absurd hij (by simp)
        | succ j => exact h2 i j (by simpa using hij) (by simpa using hi)

theorem lintegral_expMeasure {r : ℝ} (f : ℝ → ENNReal) (hf : Measurable f) :
    ∫⁻ u, f u ∂(expMeasure r) = ∫⁻ u, exponentialPDF r u * f u := by
  change ∫⁻ u, f u ∂(volume.withDensity fun x => ENNReal.ofReal (gammaPDFReal 1 r x)) = _
  rw [lintegral_withDensity_eq_lintegral_mul _ (measurable_gammaPDFReal 1 r).ennreal_ofReal hf]
  rfl

theorem exp_tail_integral {r W : ℝ} (hr : 0 < r) (hW : 0 ≤ W) {t : ℝ} (ht : 0 ≤ t) {K : ℝ} (hK : 0 ≤ K) :
    ∫⁻ u, (Set.Ioi t).indicator (fun u => ENNReal.ofReal (Real.exp (-(u * W)) * K)) u ∂(expMeasure r) =
      ENNReal.ofReal (Real.exp (-(t * (r + W))) * (r / (r + W) * K)) := by
  have hm : Measurable fun u : ℝ => ENNReal.ofReal (Real.exp (-(u * W)) * K) := by fun_prop
  rw [lintegral_expMeasure _ (hm.indicator measurableSet_Ioi)]
  have e : (fun u => exponentialPDF r u * (Set.Ioi t).indicator (fun u => ENNReal.ofReal (Real.exp (-(u * W)) * K)) u) =
      (Set.Ioi t).indicator fun u => ENNReal.ofReal (K * r * Real.exp (-(r + W) * u)) := by
    funext u
    by_cases hu : u ∈ Set.Ioi t
    · rw [Set.indicator_of_mem hu, Set.indicator_of_mem hu, exponentialPDF_of_nonneg (ht.trans (le_of_lt hu)),
        ← ENNReal.ofReal_mul (by positivity)]
      congr 1
      rw [show -(r + W) * u = -(r * u) + -(u * W) by ring, Real.exp_add]
      ring
    · rw [Set.indicator_of_notMem hu, Set.indicator_of_notMem hu, mul_zero]
  rw [e, lintegral_indicator measurableSet_Ioi, ← ofReal_integral_eq_lintegral_ofReal]
  · congr 1
    rw [integral_const_mul, integral_exp_mul_Ioi (by linarith)]
    have : r + W ≠ 0 := by positivity
    rw [show -(t * (r + W)) = -(r + W) * t by ring]
    field_simp
  · exact (integrableOn_exp_mul_Ioi (by linarith) t).const_mul _
  · exact ae_of_all _ fun u => by positivity

theorem expMeasure_Ioi {r : ℝ} (hr : 0 < r) {t : ℝ} (ht : 0 ≤ t) :
    expMeasure r (Set.Ioi t) = ENNReal.ofReal (Real.exp (-(t * r))) := by
  have := exp_tail_integral hr (W := 0) le_rfl ht (K := 1) zero_le_one
  simp only [mul_zero, neg_zero, Real.exp_zero, mul_one, ENNReal.ofReal_one, add_zero, div_self hr.ne'] at this
  rw [lintegral_indicator measurableSet_Ioi] at this
  simpa using this

/-- Probability of a race between exponential variables with rates `w`. -/
theorem race_measure (n L : ℕ) (w : Fin n → ℝ) (hw : ∀ i, 0 < w i) {t : ℝ} (ht : 0 ≤ t) :
    (Measure.pi fun i => expMeasure (w i)) (race n L t) = ENNReal.ofReal (Real.exp (-(t * ∑ i, w i)) *
      ∏ i : Fin n, if i.val < L then w i / ∑ j, (if i ≤ j then w j else 0) else 1) := by
  have hprob : ∀ i, IsProbabilityMeasure (expMeasure (w i)) := fun i => isProbabilityMeasure_expMeasure (hw i)
  induction L generalizing n t with
  | zero =>
    have : race n 0 t = Set.univ.pi fun _ => Set.Ioi t := by
      ext x
      simp [race, Set.mem_pi]
    rw [this, Measure.pi_pi]
    simp only [expMeasure_Ioi (hw _) ht, not_lt_zero, if_false, Finset.prod_const_one, mul_one]
    rw [← ENNReal.ofReal_prod_of_nonneg fun i _ => (Real.exp_pos _).le, ← Real.exp_sum, Finset.mul_sum,
      Finset.sum_neg_distrib]
  | succ L ih =>
    cases n with
    | zero =>
      have : race 0 (L + 1) t = Set.univ := by
        ext x
        simp [race]
      rw [this]
      simp
    | succ n =>
      have hmp := measurePreserving_piFinSuccAbove (fun i => expMeasure (w i)) 0
      let S : Set (ℝ × (Fin n → ℝ)) := {y | t < y.1 ∧ y.2 ∈ race n L y.1}
      have hS : MeasurableSet S := by
        have : S = {y : ℝ × (Fin n → ℝ) | t < y.1} ∩ ((⋂ i, {y : ℝ × (Fin n → ℝ) | y.1 < y.2 i}) ∩
            ⋂ i, ⋂ j, ⋂ (_ : i < j), ⋂ (_ : i.val < L), {y : ℝ × (Fin n → ℝ) | y.2 i < y.2 j}) := by
          ext y
          simp only [S, race, Set.mem_inter_iff, Set.mem_iInter]
          rfl
        rw [this]
        refine (measurableSet_lt measurable_const measurable_fst).inter
          ((MeasurableSet.iInter fun i => measurableSet_lt measurable_fst
            ((measurable_pi_apply i).comp measurable_snd)).inter ?_)
        exact MeasurableSet.iInter fun i => MeasurableSet.iInter fun j => MeasurableSet.iInter fun _ =>
          MeasurableSet.iInter fun _ => measurableSet_lt ((measurable_pi_apply i).comp measurable_snd)
            ((measurable_pi_apply j).comp measurable_snd)
      have hpre : race (n + 1) (L + 1) t = MeasurableEquiv.piFinSuccAbove (fun _ => ℝ) 0 ⁻¹' S := by
        ext x
        rw [race_succ]
        rfl
      rw [hpre, hmp.measure_preimage hS.nullMeasurableSet, Measure.prod_apply hS]
      have hslice : ∀ u : ℝ, (Measure.pi fun j : Fin n => expMeasure (w ((0 : Fin (n + 1)).succAbove j))) (Prod.mk u ⁻¹' S) =
          (Set.Ioi t).indicator (fun u => ENNReal.ofReal (Real.exp (-(u * ∑ i : Fin n, w i.succ)) *
            ∏ i : Fin n, if i.val < L then w i.succ / ∑ j : Fin n, (if i ≤ j then w j.succ else 0) else 1)) u := by
        intro u
        by_cases hu : u ∈ Set.Ioi t
        · rw [Set.indicator_of_mem hu]
          have : Prod.mk u ⁻¹' S = race n L u := by
            ext y
            exact ⟨fun h => h.2, fun h => ⟨hu, h⟩⟩
          rw [this]
          exact ih n (fun i => w i.succ) (fun i => hw _) (ht.trans (le_of_lt hu)) fun i => hprob _
        · rw [Set.indicator_of_notMem hu]
          have : Prod.mk u ⁻¹' S = ∅ := by
            ext y
            exact ⟨fun h => hu h.1, fun h => h.elim⟩
          rw [this, measure_empty]
      rw [lintegral_congr hslice, exp_tail_integral (hw 0) (Finset.sum_nonneg fun i _ => (hw _).le) ht ?_]
      · rw [Fin.sum_univ_succ, Fin.prod_univ_succ]
        congr 2
        congr 1
        · simp [Fin.sum_univ_succ]
        · refine Finset.prod_congr rfl fun i _ => ?_
          simp [Fin.sum_univ_succ]
      · refine Finset.prod_nonneg fun i _ => ?_
        split
        · exact div_nonneg (hw _).le (Finset.sum_nonneg fun j _ => by split; exacts [(hw _).le, le_rfl])
        · exact zero_le_one

instance expMeasure_nullSingleton (r : ℝ) : NullSingletonClass (expMeasure r) := by
  unfold expMeasure gammaMeasure
  infer_instance

theorem expMeasure_Ici {r : ℝ} (hr : 0 < r) (t : ℝ) :
    expMeasure r (Set.Ici t) = ENNReal.ofReal (Real.exp (-(max t 0 * r))) := by
  have := isProbabilityMeasure_expMeasure hr
  rcases le_total 0 t with ht | ht
  · rw [max_eq_left ht, ← expMeasure_Ioi hr ht]
    exact (measure_congr Ioi_ae_eq_Ici).symm
  · have h1 : expMeasure r (Set.Ici t) = 1 := by
      refine le_antisymm prob_le_one ?_
      have := expMeasure_Ioi hr le_rfl
      simp only [zero_mul, neg_zero, Real.exp_zero, ENNReal.ofReal_one] at this
      rw [← this]
      exact measure_mono fun x hx => ht.trans (le_of_lt hx)
    rw [h1, max_eq_right ht]
    simp

section gumbel
variable {Ω : Type} [MeasurableSpace Ω] {P : Measure Ω} [IsProbabilityMeasure P] {A L : ℕ}

theorem gumbel_exp_law {G : Ω → ℝ} (hG : Measurable G) (h : ∀ x, P.real {ω | G ω ≤ x} = Real.exp (-Real.exp (-x))) (s : ℝ) :
    P.map (fun ω => Real.exp (-(s + G ω))) = expMeasure (Real.exp s) := by
  have hm : Measurable fun ω => Real.exp (-(s + G ω)) := by fun_prop
  have := Measure.isProbabilityMeasure_map (μ := P) hm.aemeasurable
  refine Measure.ext_of_Ici _ _ fun t => ?_
  rw [Measure.map_apply hm measurableSet_Ici, expMeasure_Ici (Real.exp_pos s)]
  rcases lt_or_ge 0 t with ht | ht
  · have : (fun ω => Real.exp (-(s + G ω))) ⁻¹' Set.Ici t = {ω | G ω ≤ -Real.log t - s} := by
      ext ω
      simp only [Set.mem_preimage, Set.mem_Ici, Set.mem_ofPred_eq]
      rw [← Real.log_le_iff_le_exp ht]
      constructor <;> intro h <;> linarith
    rw [this, ← ofReal_measureReal, h, max_eq_left ht.le]
    congr 3
    rw [neg_sub, sub_neg_eq_add, Real.exp_add, Real.exp_log ht, mul_comm]
  · have : (fun ω => Real.exp (-(s + G ω))) ⁻¹' Set.Ici t = Set.univ := by
      ext ω
      simp only [Set.mem_preimage, Set.mem_Ici, Set.mem_univ, iff_true]
      exact ht.trans (Real.exp_pos _).le
    rw [this, measure_univ, max_eq_right ht]
    simp

variable {G : Fin A → Ω → ℝ} (hm : ∀ a, Measurable (G a)) (hind : iIndepFun G P)
  (hcdf : ∀ a x, P.real {ω | G a ω ≤ x} = Real.exp (-Real.exp (-x)))
include hm hind hcdf

/-- The strict version of "`r` are the first places of the ranking by `v + G`". -/
def strictTop (v : Fin A → ℝ) (r : Fin L → Fin A) : Set (Fin A → ℝ) :=
  {g | (∀ p p', p < p' → v (r p') + g (r p') < v (r p) + g (r p)) ∧
    ∀ a, (∀ p, r p ≠ a) → ∀ p, v a + g a < v (r p) + g (r p)}

omit hm hind hcdf in
theorem strictTop_measurable (v : Fin A → ℝ) (r : Fin L → Fin A) : MeasurableSet (strictTop v r) := by
  have : strictTop v r = (⋂ p, ⋂ p', ⋂ (_ : p < p'), {g : Fin A → ℝ | v (r p') + g (r p') < v (r p) + g (r p)}) ∩
      ⋂ a, ⋂ (_ : ∀ p, r p ≠ a), ⋂ p, {g : Fin A → ℝ | v a + g a < v (r p) + g (r p)} := by
    ext g
    simp only [strictTop, Set.mem_inter_iff, Set.mem_iInter]
    rfl
  rw [this]
  have hl : ∀ a b : Fin A, MeasurableSet {g : Fin A → ℝ | v a + g a < v b + g b} := fun a b =>
    measurableSet_lt ((measurable_pi_apply a).const_add _) ((measurable_pi_apply b).const_add _)
  exact (MeasurableSet.iInter fun p => MeasurableSet.iInter fun p' => MeasurableSet.iInter fun _ => hl _ _).inter
    (MeasurableSet.iInter fun a => MeasurableSet.iInter fun _ => MeasurableSet.iInter fun p => hl _ _)

omit hm hind hcdf in
theorem exists_perm_extending (hL : L ≤ A) {r : Fin L → Fin A} (hr : Function.Injective r) :
    ∃ σ : Equiv.Perm (Fin A), ∀ p, σ (Fin.castLE hL p) = r p := by
  classical
  let e : {x // x ∈ Set.range (Fin.castLE hL)} ≃ {x // x ∈ Set.range r} :=
    (Equiv.ofInjective _ (Fin.castLE_injective hL)).symm.trans (Equiv.ofInjective r hr)
  refine ⟨e.extendSubtype, fun p => ?_⟩
  rw [Equiv.extendSubtype_apply_of_mem e _ ⟨p, rfl⟩]
  simp only [e, Equiv.trans_apply]
  have : (Equiv.ofInjective _ (Fin.castLE_injective hL)).symm ⟨Fin.castLE hL p, ⟨p, rfl⟩⟩ = p :=
    Equiv.ofInjective_symm_apply _ p
  rw [this]
  rfl

theorem strictTop_prob (v : Fin A → ℝ) {r : Fin L → Fin A} (hr : Function.Injective r) :
    P {ω | (fun a => G a ω) ∈ strictTop v r} = ENNReal.ofReal (plackettLuce v r) := by
  have hL : L ≤ A := by simpa using Fintype.card_le_of_injective r hr
  obtain ⟨σ, hσ⟩ := exists_perm_extending hL hr
  let X : Fin A → Ω → ℝ := fun i ω => Real.exp (-(v (σ i) + G (σ i) ω))
  have hXm : ∀ i, Measurable (X i) := fun i => by
    have := hm (σ i)
    fun_prop
  have hXi : iIndepFun X P :=
    (hind.precomp σ.injective).comp (fun i x => Real.exp (-(v (σ i) + x))) fun i => by fun_prop
  have hlaw : P.map (fun ω i => X i ω) = Measure.pi fun i => expMeasure (Real.exp (v (σ i))) := by
    rw [(iIndepFun_iff_map_fun_eq_pi_map fun i => (hXm i).aemeasurable).1 hXi]
    congr 1
    funext i
    exact gumbel_exp_law (hm _) (hcdf _) _
  have hlt : ∀ a b ω, Real.exp (-(v a + G a ω)) < Real.exp (-(v b + G b ω)) ↔ v b + G b ω < v a + G a ω := by
    intro a b ω
    rw [Real.exp_lt_exp, neg_lt_neg_iff]
  have hset : {ω | (fun a => G a ω) ∈ strictTop v r} = (fun ω i => X i ω) ⁻¹' race A L 0 := by
    ext ω
    constructor
    · rintro ⟨h1, h2⟩
      refine ⟨fun i => Real.exp_pos _, fun i j hij hi => ?_⟩
      have ei : σ i = r ⟨i, hi⟩ := by rw [← hσ]; rfl
      change Real.exp _ < Real.exp _
      rw [hlt, ei]
      by_cases hj : j.val < L
      · have ej : σ j = r ⟨j, hj⟩ := by rw [← hσ]; rfl
        rw [ej]
        exact h1 _ _ hij
      · refine h2 _ (fun p hp => hj ?_) _
        rw [← hσ] at hp
        rw [← σ.injective hp]
        exact p.isLt
    · rintro ⟨-, h⟩
      refine ⟨fun p p' hp => ?_, fun a ha p => ?_⟩
      · rw [← hlt, ← hσ, ← hσ]
        exact h _ _ hp p.isLt
      · rw [← hlt, ← hσ]
        obtain ⟨j, rfl⟩ := σ.surjective a
        have hj : L ≤ j.val := by
          by_contra hj
          exact ha ⟨j, not_le.1 hj⟩ (by rw [← hσ]; rfl)
        exact h (Fin.castLE hL p) j (Fin.lt_def.2 (lt_of_lt_of_le p.isLt hj)) p.isLt
  rw [hset, ← Measure.map_apply (measurable_pi_lambda _ hXm) (race_measurable _ _ _), hlaw,
    race_measure A L _ (fun i => Real.exp_pos _) le_rfl, zero_mul, neg_zero, Real.exp_zero, one_mul]
  congr 1
  unfold plackettLuce
  rw [Finset.prod_ite, Finset.prod_const_one, mul_one]
  symm
  refine Finset.prod_bij (fun p _ => Fin.castLE hL p) (fun p _ => by simp) (fun p _ p' _ h => Fin.castLE_injective hL h)
    (fun i hi => ⟨⟨i, (Finset.mem_filter.1 hi).2⟩, Finset.mem_univ _, rfl⟩) fun p _ => ?_
  rw [hσ]
  congr 1
  rw [← Equiv.sum_comp σ]
  refine Finset.sum_congr rfl fun j _ => if_congr ?_ rfl rfl
  constructor
  · intro h
    by_contra hlt
    rw [not_le] at hlt
    have hj : j.val < L := lt_trans hlt p.isLt
    exact h ⟨j, hj⟩ hlt (by rw [← hσ]; rfl)
  · intro h p' hp' he
    rw [← hσ] at he
    rw [← σ.injective he] at h
    exact absurd h (not_le.2 hp')

theorem gumbel_no_ties (v : Fin A → ℝ) {a b : Fin A} (hab : a ≠ b) : ∀ᵐ ω ∂P, v a + G a ω ≠ v b + G b ω := by
  let X : Fin A → Ω → ℝ := fun i ω => Real.exp (-(v i + G i ω))
  have hXm : ∀ i, Measurable (X i) := fun i => by
    have := hm i
    fun_prop
  have hXi : iIndepFun X P := hind.comp (fun i x => Real.exp (-(v i + x))) fun i => by fun_prop
  have hl : ∀ i, P.map (X i) = expMeasure (Real.exp (v i)) := fun i => gumbel_exp_law (hm _) (hcdf _) _
  have : ∀ i, IsProbabilityMeasure (expMeasure (Real.exp (v i))) := fun i => isProbabilityMeasure_expMeasure (Real.exp_pos _)
  have hp := (indepFun_iff_map_prod_eq_prod_map_map (hXm a).aemeasurable (hXm b).aemeasurable).1 (hXi.indepFun hab)
  rw [hl, hl] at hp
  have hd : MeasurableSet {x : ℝ × ℝ | x.1 = x.2} := measurableSet_eq_fun measurable_fst measurable_snd
  have hz : (P.map fun ω => (X a ω, X b ω)) {x : ℝ × ℝ | x.1 = x.2} = 0 := by
    rw [hp, Measure.measure_prod_null hd]
    refine ae_of_all _ fun x => ?_
    have : Prod.mk x ⁻¹' {x : ℝ × ℝ | x.1 = x.2} = {x} := by
      ext y
      simp [eq_comm]
    change expMeasure (Real.exp (v b)) (Prod.mk x ⁻¹' {x : ℝ × ℝ | x.1 = x.2}) = 0
    rw [this]
    simp
  rw [Measure.map_apply ((hXm a).prodMk (hXm b)) hd] at hz
  rw [ae_iff]
  refine measure_mono_null (fun ω hω => ?_) hz
  simp only [Set.mem_ofPred_eq, ne_eq, not_not] at hω
  change Real.exp (-(v a + G a ω)) = Real.exp (-(v b + G b ω))
  rw [hω]

omit hm hind hcdf in
/-- Strict first places determine every ranking by utility. -/
theorem ranking_unique {u : Fin A → ℝ} {r r' : Fin L → Fin A} (hr : Function.Injective r) (hr' : Function.Injective r')
    (h1 : ∀ p p', p < p' → u (r p') < u (r p)) (h2 : ∀ a, (∀ p, r p ≠ a) → ∀ p, u a < u (r p))
    (h1' : ∀ p p', p < p' → u (r' p') ≤ u (r' p)) (h2' : ∀ a, (∀ p, r' p ≠ a) → ∀ p, u a ≤ u (r' p)) : r' = r := by
  funext p
  induction p using WellFoundedLT.induction with
  | ind p ih =>
    by_contra hne
    have hlt : u (r' p) < u (r p) := by
      by_cases hex : ∃ q, r q = r' p
      · obtain ⟨q, hq⟩ := hex
        rw [← hq]
        refine h1 p q ?_
        rcases lt_trichotomy p q with h | h | h
        · exact h
        · subst h
          exact absurd hq.symm hne
        · have := ih q h
          rw [hq] at this
          exact absurd (hr' this) (ne_of_lt h)
      · push Not at hex
        exact h2 _ hex p
    have hle : u (r p) ≤ u (r' p) := by
      by_cases hex : ∃ q, r' q = r p
      · obtain ⟨q, hq⟩ := hex
        rw [← hq]
        refine h1' p q ?_
        rcases lt_trichotomy p q with h | h | h
        · exact h
        · subst h
          exact absurd hq hne
        · have := ih q h
          rw [hq] at this
          exact absurd (hr this) (ne_of_gt h)
      · push Not at hex
        exact h2' _ hex p
    exact absurd hlt (not_lt.2 hle)

theorem sampled_ae (v : Fin A → ℝ) {r : Fin L → Fin A} (hr : Function.Injective r) :
    ∀ᵐ ω ∂P, ∀ out : Fin A → Fin L → ℝ, IsSampledRanking (fun a => v a + G a ω) out →
      ((out = fun a p => pointMass (r p) a) ↔ (fun a => G a ω) ∈ strictTop v r) := by
  have hties : ∀ᵐ ω ∂P, ∀ a b : Fin A, a ≠ b → v a + G a ω ≠ v b + G b ω := by
    rw [ae_all_iff]; intro a
    rw [ae_all_iff]; intro b
    by_cases hab : a = b
    · exact ae_of_all _ fun ω h => absurd hab h
    · filter_upwards [gumbel_no_ties hm hind hcdf v hab] with ω hω _ using hω
  filter_upwards [hties] with ω hω out ⟨r', hi', ho, h1, h2⟩
  constructor
  · rintro rfl
    have : r' = r := by
      funext p
      have := ho (r p) p
      simp only [pointMass, if_true] at this
      by_contra hne
      rw [if_neg (Ne.symm hne)] at this
      exact one_ne_zero this
    subst this
    exact ⟨fun p p' hp => lt_of_le_of_ne (h1 p p' hp) (hω _ _ fun h => (ne_of_gt hp) (hr h)),
      fun a ha p => lt_of_le_of_ne (h2 a ha p) (hω _ _ fun h => ha p h.symm)⟩
  · rintro ⟨s1, s2⟩
    have : r' = r := ranking_unique (u := fun a => v a + G a ω) hr hi' s1 s2 h1 h2
    subst this
    funext a p
    exact ho a p

end gumbel

end Obp
