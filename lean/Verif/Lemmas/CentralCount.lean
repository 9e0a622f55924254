import Verif.Lemmas.RankLaw
import Mathlib.RingTheory.Polynomial.Bernstein
import Mathlib.Analysis.Calculus.Deriv.Polynomial
import Mathlib.Analysis.Calculus.Deriv.MeanValue
import Mathlib.Probability.Distributions.Gaussian.Real

set_option linter.unusedSectionVars false

/-!
# A value less dispersed than the others is more often in the middle
-/

namespace Obp
open MeasureTheory ProbabilityTheory Polynomial

/-- Chance of more than `k` successes and more than `k` failures in `B` trials with success probability `p`. -/
noncomputable def central (B k : ℕ) (p : ℝ) : ℝ := ∑ i ∈ Finset.Ioo k (B - k), B.choose i * p ^ i * (1 - p) ^ (B - i)

theorem central_symm (B k : ℕ) (p : ℝ) : central B k (1 - p) = central B k p := by
  unfold central
  refine Finset.sum_bij' (fun i _ => B - i) (fun i _ => B - i) (fun i hi => ?_) (fun i hi => ?_) (fun i hi => ?_) (fun i hi => ?_)
    fun i hi => ?_
  all_goals rw [Finset.mem_Ioo] at hi
  · rw [Finset.mem_Ioo]; omega
  · rw [Finset.mem_Ioo]; omega
  · omega
  · omega
  · have h1 : B - (B - i) = i := by omega
    rw [h1, sub_sub_cancel, Nat.choose_symm (by omega)]
    ring

theorem central_poly (B k : ℕ) (p : ℝ) : central B k p = (∑ i ∈ Finset.Ioo k (B - k), bernsteinPolynomial ℝ B i).eval p := by
  simp [central, bernsteinPolynomial, eval_finsetSum]

theorem telescope_bernstein (B k : ℕ) (hk : k < B - k) : derivative (∑ i ∈ Finset.Ioo k (B - k), bernsteinPolynomial ℝ B i) =
    (B : ℝ[X]) * (bernsteinPolynomial ℝ (B - 1) k - bernsteinPolynomial ℝ (B - 1) (B - k - 1)) := by
  rw [derivative_sum]
  have h1 : ∀ i ∈ Finset.Ioo k (B - k), derivative (bernsteinPolynomial ℝ B i) =
      (B : ℝ[X]) * (bernsteinPolynomial ℝ (B - 1) (i - 1) - bernsteinPolynomial ℝ (B - 1) i) := fun i hi => by
    obtain ⟨j, rfl⟩ : ∃ j, i = j + 1 := ⟨i - 1, by rw [Finset.mem_Ioo] at hi; omega⟩
    exact bernsteinPolynomial.derivative_succ ℝ B j
  rw [Finset.sum_congr rfl h1, ← Finset.mul_sum]
  congr 1
  obtain ⟨d, hd⟩ : ∃ d, B - k = k + 1 + d := ⟨B - k - (k + 1), by omega⟩
  rw [hd]
  have h2 : ∀ d, ∑ i ∈ Finset.Ioo k (k + 1 + d), (bernsteinPolynomial ℝ (B - 1) (i - 1) - bernsteinPolynomial ℝ (B - 1) i) =
      bernsteinPolynomial ℝ (B - 1) k - bernsteinPolynomial ℝ (B - 1) (k + 1 + d - 1) := by
    intro d
    induction d with
    | zero =>
      have : Finset.Ioo k (k + 1 + 0) = ∅ := by
        ext i
        simp only [Finset.mem_Ioo, Finset.notMem_empty, iff_false]
        omega
      simp [this]
    | succ d ih =>
      have : Finset.Ioo k (k + 1 + (d + 1)) = insert (k + 1 + d) (Finset.Ioo k (k + 1 + d)) := by
        ext i
        simp only [Finset.mem_Ioo, Finset.mem_insert]
        omega
      rw [this, Finset.sum_insert (by simp), ih, show k + 1 + (d + 1) - 1 = k + 1 + d by omega]
      ring
  exact h2 d

/-- The closer to one half, the more likely. -/
theorem central_antitone (B k : ℕ) : AntitoneOn (central B k) (Set.Icc (1 / 2) 1) := by
  by_cases hk : k < B - k
  swap
  · have : Finset.Ioo k (B - k) = ∅ := Finset.Ioo_eq_empty hk
    intro p _ p' _ _
    simp [central, this]
  have he : central B k = fun p => (∑ i ∈ Finset.Ioo k (B - k), bernsteinPolynomial ℝ B i).eval p := funext fun p => central_poly B k p
  rw [he]
  refine antitoneOn_of_deriv_nonpos (convex_Icc _ _) (Polynomial.continuous _).continuousOn
    (Polynomial.differentiable _).differentiableOn fun p hp => ?_
  rw [interior_Icc] at hp
  obtain ⟨h1, h2⟩ := hp
  rw [Polynomial.deriv, telescope_bernstein B k hk]
  have hs : (B - 1).choose (B - k - 1) = (B - 1).choose k := by
    rw [← Nat.choose_symm (n := B - 1) (k := k) (by omega)]
    congr 1
    omega
  have e : B - 1 - (B - k - 1) = k := by omega
  obtain ⟨d, hd⟩ : ∃ d, B - k - 1 = k + d := ⟨B - k - 1 - k, by omega⟩
  have e2 : B - 1 - k = k + d := by omega
  simp only [bernsteinPolynomial, eval_mul, eval_sub, eval_natCast, eval_pow, eval_X, eval_one, hs, e]
  rw [hd, e2]
  refine mul_nonpos_of_nonneg_of_nonpos (Nat.cast_nonneg _) ?_
  have hq : 0 ≤ 1 - p := by linarith
  have hle : (1 - p) ^ d ≤ p ^ d := pow_le_pow_left₀ hq (by linarith) d
  have : 0 ≤ ((B - 1).choose k : ℝ) * (p ^ k * (1 - p) ^ k) := by
    have : 0 ≤ p := by linarith
    positivity
  have := mul_le_mul_of_nonneg_left hle this
  have e3 : ((B - 1).choose k : ℝ) * p ^ k * (1 - p) ^ (k + d) - (B - 1).choose k * p ^ (k + d) * (1 - p) ^ k =
      (B - 1).choose k * (p ^ k * (1 - p) ^ k) * (1 - p) ^ d - (B - 1).choose k * (p ^ k * (1 - p) ^ k) * p ^ d := by ring
  rw [e3]
  linarith

/-! ### One value with a law of its own among equally distributed ones -/

section mixed
variable {ι : Type} [Fintype ι] [DecidableEq ι]

theorem pi_ne_mixed (μ : ι → Measure ℝ) [∀ i, IsProbabilityMeasure (μ i)] [∀ i, NullSingletonClass (μ i)] {i j : ι} (h : j ≠ i) :
    Measure.pi μ {w | w j = w i} = 0 := by
  have hind := (iIndepFun_pi (μ := μ) (X := fun _ => id) fun _ => aemeasurable_id).indepFun h
  have hmap := (indepFun_iff_map_prod_eq_prod_map_map (measurable_pi_apply j).aemeasurable (measurable_pi_apply i).aemeasurable).1 hind
  have hm : ∀ l : ι, (Measure.pi μ).map (fun w => w l) = μ l := fun l => (measurePreserving_eval μ l).map_eq
  rw [hm, hm] at hmap
  have hset : MeasurableSet {x : ℝ × ℝ | x.1 = x.2} := measurableSet_eq_fun measurable_fst measurable_snd
  have : Measure.pi μ {w | w j = w i} = ((μ j).prod (μ i)) {x : ℝ × ℝ | x.1 = x.2} := by
    rw [← hmap, Measure.map_apply (by fun_prop) hset]
    rfl
  rw [this, Measure.measure_prod_null hset]
  refine Filter.Eventually.of_forall fun x => ?_
  have : Prod.mk x ⁻¹' {x : ℝ × ℝ | x.1 = x.2} = {x} := by
    ext y
    simp [eq_comm]
  simp [this]

theorem midRank_frontier_null_mixed (μ : ι → Measure ℝ) [∀ i, IsProbabilityMeasure (μ i)] [∀ i, NullSingletonClass (μ i)] (k : ℕ)
    (i : ι) : Measure.pi μ (frontier (midRank k i)) = 0 := by
  refine measure_mono_null (midRank_frontier k i) ?_
  have : {w : ι → ℝ | ∃ j, j ≠ i ∧ w j = w i} = ⋃ j ∈ {j | j ≠ i}, {w | w j = w i} := by
    ext w
    simp
  rw [this, measure_biUnion_null_iff (Set.to_countable _)]
  exact fun j hj => pi_ne_mixed μ hj

end mixed

/-- Number of independent draws below `y`. -/
theorem count_law (ν : Measure ℝ) [IsProbabilityMeasure ν] (B k : ℕ) (y : ℝ) :
    (Measure.pi fun _ : Fin B => ν).real {w | (Finset.univ.filter fun j => w j < y).card ∈ Finset.Ioo k (B - k)} =
      central B k (ν.real (Set.Iio y)) := by
  classical
  let box : Finset (Fin B) → Set (Fin B → ℝ) := fun T => Set.univ.pi fun j => if j ∈ T then Set.Iio y else Set.Ici y
  have hbox : ∀ T w, w ∈ box T ↔ (Finset.univ.filter fun j => w j < y) = T := by
    intro T w
    simp only [box, Set.mem_pi, Set.mem_univ, true_implies, Finset.ext_iff, Finset.mem_filter, Finset.mem_univ, true_and]
    refine forall_congr' fun j => ?_
    by_cases hj : j ∈ T <;> simp [hj]
  have hset : {w : Fin B → ℝ | (Finset.univ.filter fun j => w j < y).card ∈ Finset.Ioo k (B - k)} =
      ⋃ T ∈ Finset.univ.filter (fun T : Finset (Fin B) => T.card ∈ Finset.Ioo k (B - k)), box T := by
    ext w
    simp only [Set.mem_iUnion, Finset.mem_filter, Finset.mem_univ, true_and, Set.mem_ofPred_eq, exists_prop, hbox]
    constructor
    · intro h
      exact ⟨_, h, rfl⟩
    · rintro ⟨T, h, rfl⟩
      exact h
  have hdis : (↑(Finset.univ.filter (fun T : Finset (Fin B) => T.card ∈ Finset.Ioo k (B - k))) : Set (Finset (Fin B))).PairwiseDisjoint box := by
    intro T _ T' _ hne
    refine Set.disjoint_left.2 fun w h1 h2 => hne ?_
    rw [hbox] at h1 h2
    rw [← h1, ← h2]
  have hmeas : ∀ T, MeasurableSet (box T) := fun T => MeasurableSet.univ_pi fun j => by
    split_ifs
    · exact measurableSet_Iio
    · exact measurableSet_Ici
  have hval : ∀ T : Finset (Fin B), (Measure.pi fun _ : Fin B => ν).real (box T) =
      ν.real (Set.Iio y) ^ T.card * (1 - ν.real (Set.Iio y)) ^ (B - T.card) := by
    intro T
    have h1 : ν.real (Set.Ici y) = 1 - ν.real (Set.Iio y) := by
      rw [← Set.compl_Iio, probReal_compl_eq_one_sub measurableSet_Iio]
    simp only [box, Measure.real, Measure.pi_pi, ENNReal.toReal_prod]
    change ∏ j, ν.real (if j ∈ T then Set.Iio y else Set.Ici y) = ν.real (Set.Iio y) ^ T.card * (1 - ν.real (Set.Iio y)) ^ (B - T.card)
    have h2 : ∀ j, ν.real (if j ∈ T then Set.Iio y else Set.Ici y) = if j ∈ T then ν.real (Set.Iio y) else ν.real (Set.Ici y) := fun j => by
      split_ifs <;> rfl
    simp only [h2, Finset.prod_ite, Finset.prod_const, h1]
    congr 2
    · simp
    · have := Finset.card_compl T
      rw [Fintype.card_fin] at this
      rw [← this]
      congr 1
      ext j
      simp
  rw [hset, measureReal_biUnion_finset hdis (fun T _ => hmeas T)]
  simp only [hval]
  rw [Finset.sum_filter]
  have h3 := Finset.sum_powerset_apply_card (fun c => if c ∈ Finset.Ioo k (B - k) then
    ν.real (Set.Iio y) ^ c * (1 - ν.real (Set.Iio y)) ^ (B - c) else 0) (x := (Finset.univ : Finset (Fin B)))
  rw [Finset.powerset_univ] at h3
  rw [h3, Finset.card_univ, Fintype.card_fin]
  simp only [nsmul_eq_mul, mul_ite, mul_zero]
  rw [← Finset.sum_filter]
  refine Finset.sum_congr ?_ fun i _ => by rw [mul_assoc]
  ext i
  simp only [Finset.mem_filter, Finset.mem_range, Finset.mem_Ioo]
  omega

/-- Law of one value with law `μ` and `B` with law `ν`. -/
noncomputable def mixedLaw (μ ν : Measure ℝ) (B : ℕ) (o : Option (Fin B)) : Measure ℝ := o.elim μ fun _ => ν

variable (μ ν : Measure ℝ) [IsProbabilityMeasure μ] [IsProbabilityMeasure ν] [NullSingletonClass μ] [NullSingletonClass ν]

instance (B : ℕ) (o : Option (Fin B)) : IsProbabilityMeasure (mixedLaw μ ν B o) := by
  cases o <;> (simp only [mixedLaw, Option.elim]; infer_instance)

instance (B : ℕ) (o : Option (Fin B)) : NullSingletonClass (mixedLaw μ ν B o) := by
  cases o <;> (simp only [mixedLaw, Option.elim]; infer_instance)

theorem mixed_midRank (B k : ℕ) : (Measure.pi (mixedLaw μ ν B)).real (midRank k none) =
    ∫ y, central B k (ν.real (Set.Iio y)) ∂μ := by
  have hm : MeasurableSet (midRank k (none : Option (Fin B))) := (isClosed_midRank k none).measurableSet
  have h1 := Measure.pi_map_piOptionEquivProd (mixedLaw μ ν B)
  have h2 : (Measure.pi (mixedLaw μ ν B)) (midRank k none) =
      ((Measure.pi fun _ : Fin B => ν).prod μ) ((MeasurableEquiv.piOptionEquivProd fun _ : Option (Fin B) => ℝ).symm ⁻¹' midRank k none) := by
    rw [← h1, MeasurableEquiv.map_apply]
    rfl
  have hme := (MeasurableEquiv.piOptionEquivProd fun _ : Option (Fin B) => ℝ).symm.measurable hm
  have hsec : ∀ y, (Measure.pi fun _ : Fin B => ν) ((fun w => (w, y)) ⁻¹'
      ((MeasurableEquiv.piOptionEquivProd fun _ : Option (Fin B) => ℝ).symm ⁻¹' midRank k none)) =
        ENNReal.ofReal (central B k (ν.real (Set.Iio y))) := by
    intro y
    rw [← count_law, ofReal_measureReal]
    refine measure_congr ?_
    have hne : ∀ᵐ w ∂(Measure.pi fun _ : Fin B => ν), ∀ j, w j ≠ y := by
      refine ae_all_iff.2 fun j => ?_
      have := (measurePreserving_eval (fun _ : Fin B => ν) j).quasiMeasurePreserving.ae (p := fun x => x ≠ y)
        (by rw [ae_iff]; simp)
      exact this
    filter_upwards [hne] with w hw
    refine propext ?_
    have key : ∀ p : Option (Fin B) → Prop, ∀ [DecidablePred p],
        (Finset.univ.filter fun o => o ≠ none ∧ p o).card = (Finset.univ.filter fun j => p (some j)).card := by
      intro p _
      refine (Finset.card_bij (fun j _ => some j) (fun j hj => ?_) (fun a _ b _ h => Option.some.inj h) fun o ho => ?_).symm
      · simpa using hj
      · simp only [Finset.mem_filter, Finset.mem_univ, true_and] at ho
        cases o with
        | none => exact absurd rfl ho.1
        | some j => exact ⟨j, by simpa using ho.2, rfl⟩
    let u : Option (Fin B) → ℝ := (MeasurableEquiv.piOptionEquivProd fun _ : Option (Fin B) => ℝ).symm (w, y)
    have hu0 : u none = y := rfl
    have hu1 : ∀ j, u (some j) = w j := fun j => rfl
    change u ∈ midRank k none ↔ (Finset.univ.filter fun j => w j < y).card ∈ Finset.Ioo k (B - k)
    simp only [midRank, Set.mem_ofPred_eq]
    rw [key fun o => u o ≤ u none, key fun o => u none ≤ u o]
    simp only [hu0, hu1]
    have e1 : (Finset.univ.filter fun j => w j ≤ y) = Finset.univ.filter fun j => w j < y :=
      Finset.filter_congr fun j _ => ⟨fun h => lt_of_le_of_ne h (hw j), le_of_lt⟩
    have e2 : (Finset.univ.filter fun j => y ≤ w j).card = B - (Finset.univ.filter fun j => w j < y).card := by
      have := Finset.card_compl (Finset.univ.filter fun j => w j < y)
      rw [Fintype.card_fin] at this
      rw [← this]
      congr 1
      ext j
      simp
    rw [e1, e2, Finset.mem_Ioo]
    have := Finset.card_le_univ (Finset.univ.filter fun j => w j < y)
    rw [Fintype.card_fin] at this
    omega
  rw [Measure.real, h2, Measure.prod_apply_symm hme, integral_eq_lintegral_of_nonneg_ae]
  · exact congrArg ENNReal.toReal (lintegral_congr fun y => hsec y)
  · exact Filter.Eventually.of_forall fun y => by
      change 0 ≤ central B k (ν.real (Set.Iio y))
      rw [← count_law]
      exact measureReal_nonneg
  · have hF : Measurable fun y => ν.real (Set.Iio y) :=
      Monotone.measurable fun y y' h => measureReal_mono (Set.Iio_subset_Iio h)
    have hc : Measurable (central B k) := by
      unfold central
      fun_prop
    exact (hc.comp hF).aestronglyMeasurable

theorem central_integrable (B k : ℕ) (f : ℝ → ℝ) (hf : Measurable f) : Integrable (fun y => central B k (ν.real (Set.Iio (f y)))) μ := by
  have hF : Measurable fun y => ν.real (Set.Iio y) :=
    Monotone.measurable fun y y' h => measureReal_mono (Set.Iio_subset_Iio h)
  have hc : Measurable (central B k) := by
    unfold central
    fun_prop
  refine Integrable.of_bound (hc.comp (hF.comp hf)).aestronglyMeasurable 1 (ae_of_all _ fun y => ?_)
  change ‖central B k (ν.real (Set.Iio (f y)))‖ ≤ 1
  rw [← count_law, Real.norm_eq_abs, abs_of_nonneg measureReal_nonneg]
  exact measureReal_le_one

theorem gaussian_half {b : NNReal} (hb : b ≠ 0) (y : ℝ) :
    (gaussianReal 0 b).real (Set.Iio (-y)) = 1 - (gaussianReal 0 b).real (Set.Iio y) := by
  have : NullSingletonClass (gaussianReal 0 b) := nullSingletonClass_gaussianReal hb
  have h1 : (gaussianReal 0 b).map (fun x => -x) = gaussianReal 0 b := by
    rw [gaussianReal_map_neg, neg_zero]
  rw [← probReal_compl_eq_one_sub measurableSet_Iio, Set.compl_Iio]
  conv_lhs => rw [← h1]
  rw [map_measureReal_apply measurable_neg measurableSet_Iio]
  have : (fun x : ℝ => -x) ⁻¹' Set.Iio (-y) = Set.Ioi y := by
    ext x
    simp
  rw [this]
  exact measureReal_congr Ioi_ae_eq_Ici

/-- A normal value among normal values of at least its variance. -/
theorem gaussian_midRank {a b : NNReal} (ha : a ≠ 0) (hab : a ≤ b) (B k : ℕ) :
    ((B - 1 - 2 * k : ℕ) : ℝ) / (B + 1) ≤ (Measure.pi (mixedLaw (gaussianReal 0 a) (gaussianReal 0 b) B)).real (midRank k none) := by
  have hb : b ≠ 0 := fun h => ha (le_antisymm (h ▸ hab) zero_le)
  have i1 : NullSingletonClass (gaussianReal 0 a) := nullSingletonClass_gaussianReal ha
  have i2 : NullSingletonClass (gaussianReal 0 b) := nullSingletonClass_gaussianReal hb
  have hb0 : (0 : ℝ) < b := lt_of_le_of_ne b.2 fun h => hb (NNReal.eq h.symm)
  have heq : (Measure.pi (mixedLaw (gaussianReal 0 b) (gaussianReal 0 b) B)).real (midRank k none) =
      ((B - 1 - 2 * k : ℕ) : ℝ) / (B + 1) := by
    have h1 : mixedLaw (gaussianReal 0 b) (gaussianReal 0 b) B = fun _ => gaussianReal 0 b := by
      funext o
      cases o <;> rfl
    have h2 := pi_midRank (gaussianReal 0 b) k (none : Option (Fin B))
    rw [h1, h2, Fintype.card_option, Fintype.card_fin]
    push_cast
    congr 2
  rw [← heq, mixed_midRank, mixed_midRank]
  set c : ℝ := √((a : ℝ) / b) with hc
  have hc0 : 0 ≤ c := Real.sqrt_nonneg _
  have hc1 : c ≤ 1 := by
    rw [hc, Real.sqrt_le_one, div_le_one hb0]
    exact_mod_cast hab
  have hmap : gaussianReal 0 a = (gaussianReal 0 b).map (fun y => c * y) := by
    rw [gaussianReal_map_const_mul, mul_zero]
    congr 1
    refine NNReal.eq ?_
    push_cast
    rw [hc, Real.sq_sqrt (by positivity), div_mul_cancel₀ _ hb0.ne']
  have hF : Measurable fun y => (gaussianReal 0 b).real (Set.Iio y) :=
    Monotone.measurable fun y y' h => measureReal_mono (Set.Iio_subset_Iio h)
  have hcm : Measurable (central B k) := by
    unfold central
    fun_prop
  have e : ∫ y, central B k ((gaussianReal 0 b).real (Set.Iio y)) ∂gaussianReal 0 a =
      ∫ y, central B k ((gaussianReal 0 b).real (Set.Iio (c * y))) ∂gaussianReal 0 b := by
    conv_lhs => rw [hmap]
    exact integral_map (measurable_const_mul c).aemeasurable (hcm.comp hF).aestronglyMeasurable
  rw [e]
  refine integral_mono (central_integrable _ _ B k (fun y => y) measurable_id)
    (central_integrable _ _ B k (fun y => c * y) (measurable_const_mul c)) fun y => ?_
  have hhalf : (gaussianReal 0 b).real (Set.Iio 0) = 1 / 2 := by
    have := gaussian_half hb 0
    rw [neg_zero] at this
    linarith
  have hpos : ∀ y, 0 ≤ y → central B k ((gaussianReal 0 b).real (Set.Iio y)) ≤ central B k ((gaussianReal 0 b).real (Set.Iio (c * y))) := by
    intro y hy
    have g1 : (gaussianReal 0 b).real (Set.Iio (c * y)) ≤ (gaussianReal 0 b).real (Set.Iio y) :=
      measureReal_mono (Set.Iio_subset_Iio (mul_le_of_le_one_left hy hc1))
    have g2 : 1 / 2 ≤ (gaussianReal 0 b).real (Set.Iio (c * y)) := by
      rw [← hhalf]
      exact measureReal_mono (Set.Iio_subset_Iio (mul_nonneg hc0 hy))
    exact central_antitone B k ⟨g2, measureReal_le_one⟩ ⟨g2.trans g1, measureReal_le_one⟩ g1
  rcases le_total 0 y with hy | hy
  · exact hpos y hy
  · have h3 := hpos (-y) (by linarith)
    rw [gaussian_half hb y, central_symm, mul_neg, gaussian_half hb (c * y), central_symm] at h3
    exact h3

end Obp
