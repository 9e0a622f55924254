import Mathlib.Probability.Independence.InfinitePi
import Mathlib.Analysis.Complex.ExponentialBounds
import Verif.Lemmas.PlackettLuce
import Verif.Props.Offline

/-!
# C152, C153: the distribution of sampled rankings

The noise drawn by `sample_action` is standard Gumbel noise (`Spec/Gumbel.lean`) on any probability space. Classifiers,
regressors and networks are arbitrary, and so is the resolution of ties by `np.argsort`.
-/

set_option linter.unusedSectionVars false

namespace Obp
open MeasureTheory ProbabilityTheory Filter Topology

variable {Ω : Type} [MeasurableSpace Ω] {P : Measure Ω} [IsProbabilityMeasure P] {M : Type} {A L n d : ℕ}

theorem sampled_joint {N : ℕ → Fin A → Ω → ℝ} (hN : GumbelNoise P N) (v : Fin n → Fin A → ℝ) {r : Fin n → Fin L → Fin A}
    (hr : ∀ i, Function.Injective (r i)) {f : Ω → Py (List (Fin A → Fin L → ℝ))}
    (hf : ∀ ω, ∃ out : Fin n → Fin A → Fin L → ℝ, f ω = .ok (List.ofFn out) ∧
      ∀ i, IsSampledRanking (fun a => v i a + N i a ω) (out i)) :
    P.real {ω | f ω = .ok (List.ofFn fun i a p => pointMass (r i p) a)} = ∏ i, plackettLuce (v i) (r i) := by
  have hpl : ∀ i, 0 ≤ plackettLuce (v i) (r i) := fun i => by
    unfold plackettLuce
    exact Finset.prod_nonneg fun p _ => div_nonneg (Real.exp_pos _).le
      (Finset.sum_nonneg fun a _ => by split_ifs; exacts [(Real.exp_pos _).le, le_rfl])
  have hae : ∀ᵐ ω ∂P, ∀ i : Fin n, ∀ out : Fin A → Fin L → ℝ, IsSampledRanking (fun a => v i a + N i a ω) out →
      ((out = fun a p => pointMass (r i p) a) ↔ (fun a => N i a ω) ∈ strictTop (v i) (r i)) := by
    rw [ae_all_iff]
    exact fun i => sampled_ae (hN.meas i) (hN.indep i) (hN.cdf i) (v i) (hr i)
  have hset : {ω | f ω = .ok (List.ofFn fun i a p => pointMass (r i p) a)} =ᵐ[P]
      ⋂ i ∈ (Finset.univ : Finset (Fin n)), (fun ω a => N i a ω) ⁻¹' strictTop (v i) (r i) := by
    filter_upwards [hae] with ω hω
    obtain ⟨out, ho, hs⟩ := hf ω
    refine propext ?_
    change f ω = _ ↔ ω ∈ (⋂ i ∈ (Finset.univ : Finset (Fin n)), (fun ω a => N i a ω) ⁻¹' strictTop (v i) (r i) : Set Ω)
    rw [ho, Except.ok.injEq, List.ofFn_inj]
    simp only [Finset.mem_univ, Set.iInter_true, Set.mem_iInter, Set.mem_preimage, funext_iff (f := out)]
    exact forall_congr' fun i => hω i (out i) (hs i)
  have hind : iIndepFun (fun (i : Fin n) ω a => N i a ω) P := hN.rows_indep.precomp Fin.val_injective
  rw [Measure.real, measure_congr hset, hind.measure_inter_preimage_eq_mul _ fun i _ => strictTop_measurable _ _]
  rw [ENNReal.toReal_prod]
  refine Finset.prod_congr rfl fun i _ => ?_
  have := strictTop_prob (hN.meas i) (hN.indep i) (hN.cdf i) (v i) (hr i)
  change (P {ω | (fun a => N i a ω) ∈ strictTop (v i) (r i)}).toReal = _
  rw [this, ENNReal.toReal_ofReal (hpl i)]

/-! ### C152 -/

/-- **C152.** `IPWLearner.sample_action` draws the rankings of the rounds independently from the Plackett–Luce distribution of
the classifiers' scores, averaged over positions and divided by the temperature. -/
theorem C152_ipw {N : ℕ → Fin A → Ω → ℝ} (hN : GumbelNoise P N) {argsort : List ℝ → List ℕ} (hs : IsArgsort argsort)
    (clf : WClassifier M ℝ) (hL : 0 < L) (ms : Fin L → M) (c : Fin n → Fin d → ℝ)
    (h : ∀ i p, (clf.proba (ms p) (List.ofFn (c i))).length = A) {tau : ℝ} (ht : 0 < tau) (hLA : L ≤ A)
    {r : Fin n → Fin L → Fin A} (hr : ∀ i, Function.Injective (r i)) :
    P.real {ω | ipwSampleAction clf ⟨A, L⟩ ms (.arr ⟨n, d, c⟩) (.flt tau) argsort (fun i a => N i a ω) =
        .ok (List.ofFn fun i a p => pointMass (r i p) a)} =
      ∏ i, plackettLuce (fun a => (∑ p, (clf.proba (ms p) (List.ofFn (c i))).getD a 0) / L / tau) (r i) :=
  sampled_joint hN _ hr fun ω => C71_ipw hs clf hL hLA ms c h ht fun i a => N i a ω

/-- **C152.** `QLearner.sample_action` draws from the Plackett–Luce distribution of the predicted rewards, averaged over
positions and divided by the temperature. -/
theorem C152_q {N : ℕ → Fin A → Ω → ℝ} (hN : GumbelNoise P N) {argsort : List ℝ → List ℕ} (hs : IsArgsort argsort)
    (lrn : Learner M ℝ) (method : FitMethod) (hL : 0 < L) (ms : Fin L → M) (c : Fin n → Fin d → ℝ) {tau : ℝ} (ht : 0 < tau)
    (hLA : L ≤ A) {r : Fin n → Fin L → Fin A} (hr : ∀ i, Function.Injective (r i)) :
    P.real {ω | qLearnerSampleAction lrn (qConfig ℝ A L method) ms (.arr ⟨n, d, c⟩) (.flt tau) argsort
        (fun i a => N i a ω) = .ok (List.ofFn fun i a p => pointMass (r i p) a)} =
      ∏ i, plackettLuce (fun a => (∑ p, qValue lrn c i (ms p) a) / L / tau) (r i) :=
  sampled_joint hN _ hr fun ω => C71_q hs lrn method hL hLA ms c ht fun i a => N i a ω

/-- **C152.** `NNPolicyLearner.sample_action` draws from the Plackett–Luce distribution of the network's outputs divided by the
temperature. -/
theorem C152_nn {N : ℕ → Fin A → Ω → ℝ} (hN : GumbelNoise P N) {argsort : List ℝ → List ℕ} (hs : IsArgsort argsort)
    (net : List ℝ → Fin A → ℝ) (c : Fin n → Fin d → ℝ) {tau : ℝ} (ht : 0 < tau) (hLA : L ≤ A)
    {r : Fin n → Fin L → Fin A} (hr : ∀ i, Function.Injective (r i)) :
    P.real {ω | nnSampleAction d L net (.arr ⟨n, d, c⟩) (.flt tau) argsort (fun i a => N i a ω) =
        .ok (List.ofFn fun i a p => pointMass (r i p) a)} =
      ∏ i, plackettLuce (fun a => net (List.ofFn (c i)) a / tau) (r i) :=
  sampled_joint hN _ hr fun ω => C71_nn hs net hLA c ht fun i a => N i a ω

theorem card_unranked {r : Fin L → Fin A} (hr : Function.Injective r) (p : Fin L) :
    (∑ a : Fin A, if ∀ p' < p, r p' ≠ a then (1 : ℝ) else 0) = A - p := by
  have h1 : (∑ a : Fin A, if ∀ p' < p, r p' ≠ a then (1 : ℝ) else 0) =
      ∑ a : Fin A, (1 - if ∃ p' < p, r p' = a then (1 : ℝ) else 0) :=
    Finset.sum_congr rfl fun a _ => by
      by_cases h : ∃ p' < p, r p' = a
      · rw [if_neg (by push Not; exact h), if_pos h, sub_self]
      · rw [if_pos (by push Not at h; exact h), if_neg h, sub_zero]
  rw [h1, Finset.sum_sub_distrib]
  congr 1
  · simp
  · rw [Finset.sum_boole]
    have : (Finset.univ.filter fun a : Fin A => ∃ p' < p, r p' = a) = (Finset.Iio p).image r := by
      ext a
      simp
    rw [this, Finset.card_image_of_injective _ hr]
    simp

theorem plackettLuce_uniform (s : Fin A → ℝ) {r : Fin L → Fin A} (hr : Function.Injective r) :
    Tendsto (fun tau : ℝ => plackettLuce (fun a => s a / tau) r) atTop (𝓝 (∏ p : Fin L, 1 / ((A : ℝ) - p))) := by
  unfold plackettLuce
  refine tendsto_finsetProd _ fun p _ => ?_
  have he : ∀ a, Tendsto (fun tau : ℝ => Real.exp (s a / tau)) atTop (𝓝 1) := fun a => by
    have : Tendsto (fun tau : ℝ => s a / tau) atTop (𝓝 0) := tendsto_const_nhds.div_atTop tendsto_id
    have h0 := (Real.continuous_exp.tendsto 0).comp this
    rw [Real.exp_zero] at h0
    exact h0
  refine Tendsto.div (he _) ?_ ?_
  · rw [← card_unranked hr p]
    refine tendsto_finsetSum _ fun a _ => ?_
    split_ifs
    exacts [he a, tendsto_const_nhds]
  · have hL : L ≤ A := by simpa using Fintype.card_le_of_injective r hr
    have : (p : ℝ) < A := by exact_mod_cast lt_of_lt_of_le p.isLt hL
    exact (sub_pos.2 this).ne'

/-- **C152.** As the temperature grows, every learner's sampled rankings become uniform: all rankings of `L` of the `A` actions
become equally likely in every round. -/
theorem C152_temperature {N : ℕ → Fin A → Ω → ℝ} (hN : GumbelNoise P N) {argsort : List ℝ → List ℕ} (hs : IsArgsort argsort)
    (hL : 0 < L) (hLA : L ≤ A) (c : Fin n → Fin d → ℝ) {r : Fin n → Fin L → Fin A} (hr : ∀ i, Function.Injective (r i)) :
    (∀ (clf : WClassifier M ℝ) (ms : Fin L → M), (∀ i p, (clf.proba (ms p) (List.ofFn (c i))).length = A) →
      Tendsto (fun tau => P.real {ω | ipwSampleAction clf ⟨A, L⟩ ms (.arr ⟨n, d, c⟩) (.flt tau) argsort
        (fun i a => N i a ω) = .ok (List.ofFn fun i a p => pointMass (r i p) a)}) atTop
        (𝓝 (∏ _i : Fin n, ∏ p : Fin L, 1 / ((A : ℝ) - p)))) ∧
    (∀ (lrn : Learner M ℝ) (method : FitMethod) (ms : Fin L → M),
      Tendsto (fun tau => P.real {ω | qLearnerSampleAction lrn (qConfig ℝ A L method) ms (.arr ⟨n, d, c⟩) (.flt tau) argsort
        (fun i a => N i a ω) = .ok (List.ofFn fun i a p => pointMass (r i p) a)}) atTop
        (𝓝 (∏ _i : Fin n, ∏ p : Fin L, 1 / ((A : ℝ) - p)))) ∧
    ∀ net : List ℝ → Fin A → ℝ,
      Tendsto (fun tau => P.real {ω | nnSampleAction d L net (.arr ⟨n, d, c⟩) (.flt tau) argsort
        (fun i a => N i a ω) = .ok (List.ofFn fun i a p => pointMass (r i p) a)}) atTop
        (𝓝 (∏ _i : Fin n, ∏ p : Fin L, 1 / ((A : ℝ) - p))) := by
  refine ⟨fun clf ms h => ?_, fun lrn method ms => ?_, fun net => ?_⟩
  · refine (tendsto_finsetProd Finset.univ fun i _ => plackettLuce_uniform
      (fun a => (∑ p, (clf.proba (ms p) (List.ofFn (c i))).getD a 0) / (L : ℝ)) (hr i)).congr' ?_
    filter_upwards [eventually_gt_atTop 0] with tau ht
    exact (C152_ipw hN hs clf hL ms c h ht hLA hr).symm
  · refine (tendsto_finsetProd Finset.univ fun i _ => plackettLuce_uniform
      (fun a => (∑ p, qValue lrn c i (ms p) a) / (L : ℝ)) (hr i)).congr' ?_
    filter_upwards [eventually_gt_atTop 0] with tau ht
    exact (C152_q hN hs lrn method hL ms c ht hLA hr).symm
  · refine (tendsto_finsetProd Finset.univ fun i _ => plackettLuce_uniform (net (List.ofFn (c i))) (hr i)).congr' ?_
    filter_upwards [eventually_gt_atTop 0] with tau ht
    exact (C152_nn hN hs net c ht hLA hr).symm

/-! ### C153 -/

theorem plackettLuce_one (v : Fin A → ℝ) (b : Fin A) :
    plackettLuce v (fun _ : Fin 1 => b) = Real.exp (v b) / ∑ a, Real.exp (v a) := by
  simp [plackettLuce]

/-- The distribution on a single slot determined by odds. -/
theorem boltzmann_entry [NeZero A] {score v : Fin A → Fin 1 → ℝ} {tau : ℝ} (h : IsBoltzmann score tau v) (b : Fin A) :
    v b 0 = Real.exp (score b 0 / tau) / ∑ a, Real.exp (score a 0 / tau) := by
  have hs : 0 < ∑ a, Real.exp (score a 0 / tau) := Finset.sum_pos (fun _ _ => Real.exp_pos _) Finset.univ_nonempty
  have ha : ∀ a, v a 0 = v b 0 / Real.exp (score b 0 / tau) * Real.exp (score a 0 / tau) := fun a => by
    have := h.odds a b 0
    rw [div_eq_iff (h.pos b 0).ne', sub_div, Real.exp_sub] at this
    rw [this]
    field_simp
  have h1 := h.sum_one 0
  rw [Finset.sum_congr rfl fun a _ => ha a, ← Finset.mul_sum] at h1
  rw [eq_div_iff hs.ne']
  have he := (Real.exp_pos (score b 0 / tau)).ne'
  field_simp at h1
  exact h1

/-- **C153.** With a single slot, `IPWLearner.sample_action` draws actions with exactly the probabilities returned by
`predict_proba` at the same temperature, independently over rounds. -/
theorem C153_ipw_partial [NeZero A] {N : ℕ → Fin A → Ω → ℝ} (hN : GumbelNoise P N) {argsort : List ℝ → List ℕ}
    (hs : IsArgsort argsort) (clf : WClassifier M ℝ) (ms : Fin 1 → M) (c : Fin n → Fin d → ℝ)
    (h : ∀ i p, (clf.proba (ms p) (List.ofFn (c i))).length = A) {tau : ℝ} (ht : 0 < tau) :
    ∃ proba : Fin n → Fin A → Fin 1 → ℝ,
      ipwPredictProba clf ⟨A, 1⟩ ms (.arr ⟨n, d, c⟩) (.flt tau) = .ok (List.ofFn proba) ∧
      ∀ b : Fin n → Fin A,
        P.real {ω | ipwSampleAction clf ⟨A, 1⟩ ms (.arr ⟨n, d, c⟩) (.flt tau) argsort (fun i a => N i a ω) =
          .ok (List.ofFn fun i a _ => pointMass (b i) a)} = ∏ i, proba i (b i) 0 := by
  obtain ⟨proba, h1, h2⟩ := C101_ipw clf ms c h ht
  refine ⟨proba, h1, fun b => ?_⟩
  have := C152_ipw hN hs clf one_pos ms c h ht (NeZero.pos A) (r := fun i (_ : Fin 1) => b i)
    fun i p p' _ => Subsingleton.elim _ _
  refine this.trans (Finset.prod_congr rfl fun i _ => ?_)
  rw [plackettLuce_one, boltzmann_entry (h2 i)]
  simp

/-- **C153.** The same for `QLearner`. -/
theorem C153_q_partial [NeZero A] {N : ℕ → Fin A → Ω → ℝ} (hN : GumbelNoise P N) {argsort : List ℝ → List ℕ}
    (hs : IsArgsort argsort) (lrn : Learner M ℝ) (method : FitMethod) (ms : Fin 1 → M) (c : Fin n → Fin d → ℝ)
    {tau : ℝ} (ht : 0 < tau) :
    ∃ proba : Fin n → Fin A → Fin 1 → ℝ,
      qLearnerPredictProba lrn (qConfig ℝ A 1 method) ms (.arr ⟨n, d, c⟩) (.flt tau) = .ok (List.ofFn proba) ∧
      ∀ b : Fin n → Fin A,
        P.real {ω | qLearnerSampleAction lrn (qConfig ℝ A 1 method) ms (.arr ⟨n, d, c⟩) (.flt tau) argsort
          (fun i a => N i a ω) = .ok (List.ofFn fun i a _ => pointMass (b i) a)} = ∏ i, proba i (b i) 0 := by
  obtain ⟨proba, h1, h2⟩ := C101_q (A := A) lrn method ms c ht
  refine ⟨proba, h1, fun b => ?_⟩
  have := C152_q hN hs lrn method one_pos ms c ht (NeZero.pos A) (r := fun i (_ : Fin 1) => b i)
    fun i p p' _ => Subsingleton.elim _ _
  refine this.trans (Finset.prod_congr rfl fun i _ => ?_)
  rw [plackettLuce_one, boltzmann_entry (h2 i)]
  simp

/-- **C153.** What `NNPolicyLearner.sample_action` does with a single slot: it draws action `b` with probability proportional to
the exponential of the *probability* that `predict_proba` returns, divided by the temperature. -/
theorem C153_nn_partial [NeZero A] {N : ℕ → Fin A → Ω → ℝ} (hN : GumbelNoise P N) {argsort : List ℝ → List ℕ}
    (hs : IsArgsort argsort) (net : List ℝ → Fin A → ℝ) (c : Fin n → Fin d → ℝ) {tau : ℝ} (ht : 0 < tau) :
    ∃ proba : Fin n → Fin A → Fin 1 → ℝ,
      nnPredictProba d net (.arr ⟨n, d, c⟩) = .ok (List.ofFn proba) ∧
      ∀ b : Fin n → Fin A,
        P.real {ω | nnSampleAction d 1 net (.arr ⟨n, d, c⟩) (.flt tau) argsort (fun i a => N i a ω) =
          .ok (List.ofFn fun i a _ => pointMass (b i) a)} =
        ∏ i, Real.exp (proba i (b i) 0 / tau) / ∑ a, Real.exp (proba i a 0 / tau) := by
  refine ⟨_, nnPredictProba_ok net c, fun b => ?_⟩
  have := C152_nn hN hs net c ht (L := 1) (NeZero.pos A) (r := fun i (_ : Fin 1) => b i) fun i p p' _ => Subsingleton.elim _ _
  refine this.trans (Finset.prod_congr rfl fun i _ => ?_)
  rw [plackettLuce_one]

/-- **C153 fails for `NNPolicyLearner`.** A network that returns probabilities 3/4 and 1/4 is sampled, at the default
temperature, with probability other than 3/4 for the first action, whatever the noise generator and sorting. -/
theorem not_C153_nn {N : ℕ → Fin 2 → Ω → ℝ} (hN : GumbelNoise P N) {argsort : List ℝ → List ℕ} (hs : IsArgsort argsort) :
    ∃ net : List ℝ → Fin 2 → ℝ, (∀ x, IsDist (net x)) ∧
      ∃ c : Fin 1 → Fin 1 → ℝ, ∃ proba : Fin 1 → Fin 2 → Fin 1 → ℝ,
        nnPredictProba 1 net (.arr ⟨1, 1, c⟩) = .ok (List.ofFn proba) ∧
        P.real {ω | nnSampleAction 1 1 net (.arr ⟨1, 1, c⟩) (.flt 1) argsort (fun i a => N i a ω) =
          .ok (List.ofFn fun (_ : Fin 1) a _ => pointMass 0 a)} ≠ proba 0 0 0 := by
  let net : List ℝ → Fin 2 → ℝ := fun _ => ![3 / 4, 1 / 4]
  refine ⟨net, fun x => ⟨fun a => ?_, ?_⟩, fun _ _ => 0, _, nnPredictProba_ok net _, ?_⟩
  · fin_cases a <;> norm_num [net]
  · norm_num [net, Fin.sum_univ_two]
  · have := C152_nn hN hs net (fun (_ : Fin 1) (_ : Fin 1) => (0 : ℝ)) one_pos (L := 1) (by decide) (r := fun _ _ => 0)
      fun i p p' _ => Subsingleton.elim _ _
    refine fun he => ?_
    rw [this, Fin.prod_univ_one, plackettLuce_one] at he
    simp only [net, Fin.sum_univ_two, Matrix.cons_val_zero, Matrix.cons_val_one, div_one] at he
    have e1 : Real.exp (3 / 4) = Real.exp (1 / 4) * Real.exp (1 / 4) * Real.exp (1 / 4) := by
      rw [← Real.exp_add, ← Real.exp_add]; norm_num
    have e2 : Real.exp 1 = Real.exp (1 / 4) ^ 4 := by
      rw [← Real.exp_nat_mul]; norm_num
    have hx := Real.exp_pos (1 / 4)
    have hlt := Real.exp_one_lt_d9
    generalize Real.exp (1 / 4) = x at *
    rw [e1, div_eq_iff (by positivity)] at he
    have h3 : x * x = 3 := by
      have : x * (x * x - 3) = 0 := by linarith
      rcases mul_eq_zero.1 this with h | h
      · exact absurd h hx.ne'
      · linarith
    have : x ^ 4 = 9 := by
      calc x ^ 4 = (x * x) * (x * x) := by ring
        _ = 9 := by rw [h3]; norm_num
    rw [e2, this] at hlt
    norm_num at hlt

/-! ### the hypotheses are met: Gumbel noise exists -/

/-- A probability space with Gumbel noise. -/
noncomputable def exGumbelSpace (A : ℕ) : Measure (ℕ → Fin A → ℝ) :=
  Measure.infinitePi fun _ => Measure.pi fun _ => expMeasure 1

instance exExp_prob : IsProbabilityMeasure (expMeasure 1) := isProbabilityMeasure_expMeasure one_pos

instance exGumbelSpace_prob (A : ℕ) : IsProbabilityMeasure (exGumbelSpace A) := by
  unfold exGumbelSpace
  infer_instance

theorem exGumbel_cdf (x : ℝ) : (expMeasure 1).real {y | -Real.log y ≤ x} = Real.exp (-Real.exp (-x)) := by
  have hpos : ∀ᵐ y ∂expMeasure 1, 0 < y := by
    rw [ae_iff]
    have : {y : ℝ | ¬ 0 < y} = (Set.Ioi 0)ᶜ := by ext; simp
    rw [this, prob_compl_eq_zero_iff measurableSet_Ioi, expMeasure_Ioi one_pos le_rfl]
    simp
  have : {y : ℝ | -Real.log y ≤ x} =ᵐ[expMeasure 1] Set.Ici (Real.exp (-x)) := by
    filter_upwards [hpos] with y hy
    refine propext ?_
    change -Real.log y ≤ x ↔ Real.exp (-x) ≤ y
    rw [← Real.le_log_iff_exp_le hy, neg_le]
  rw [measureReal_congr this, Measure.real, expMeasure_Ici one_pos, ENNReal.toReal_ofReal (Real.exp_pos _).le,
    max_eq_left (Real.exp_pos _).le, mul_one]

theorem exGumbel (A : ℕ) : GumbelNoise (exGumbelSpace A) fun i a ω => -Real.log (ω i a) where
  meas i a := (Real.measurable_log.comp ((measurable_pi_apply a).comp (measurable_pi_apply i))).neg
  rows_indep := iIndepFun_infinitePi (P := fun _ : ℕ => Measure.pi fun _ : Fin A => expMeasure 1)
    (X := fun _ y a => -Real.log (y a)) fun _ =>
      measurable_pi_lambda _ fun a => (Real.measurable_log.comp (measurable_pi_apply a)).neg
  indep i := by
    have h1 : iIndepFun (fun (a : Fin A) (y : Fin A → ℝ) => -Real.log (y a)) (Measure.pi fun _ : Fin A => expMeasure 1) :=
      iIndepFun_pi (μ := fun _ : Fin A => expMeasure 1) (X := fun _ y => -Real.log y)
        fun _ => Real.measurable_log.neg.aemeasurable
    have h2 : (exGumbelSpace A).map (fun ω => ω i) = Measure.pi fun _ : Fin A => expMeasure 1 :=
      Measure.infinitePi_map_eval _ i
    rw [← h2] at h1
    have hm : ∀ a : Fin A, Measurable fun y : Fin A → ℝ => -Real.log (y a) := fun a =>
      (Real.measurable_log.comp (measurable_pi_apply a)).neg
    rw [iIndepFun_iff_measure_inter_preimage_eq_mul] at h1 ⊢
    intro S sets hsets
    have := h1 S hsets
    rw [Measure.map_apply (measurable_pi_apply i) (Finset.measurableSet_biInter _ fun a ha => hm a (hsets a ha))] at this
    rw [Set.preimage_iInter₂] at this
    refine this.trans (Finset.prod_congr rfl fun a ha => ?_)
    rw [Measure.map_apply (measurable_pi_apply i) (hm a (hsets a ha))]
    rfl
  cdf i a x := by
    have h2 : (exGumbelSpace A).map (fun ω => ω i) = Measure.pi fun _ : Fin A => expMeasure 1 :=
      Measure.infinitePi_map_eval _ i
    have h3 : (exGumbelSpace A).map (fun ω => ω i a) = expMeasure 1 := by
      have : (fun ω : ℕ → Fin A → ℝ => ω i a) = (fun y => y a) ∘ fun ω => ω i := rfl
      rw [this, ← Measure.map_map (measurable_pi_apply a) (measurable_pi_apply i), h2, Measure.pi_map_eval]
      simp
    have hm : MeasurableSet {y : ℝ | -Real.log y ≤ x} := measurableSet_le Real.measurable_log.neg measurable_const
    rw [← exGumbel_cdf x, ← h3, map_measureReal_apply
      (show Measurable fun ω : ℕ → Fin A → ℝ => ω i a from (measurable_pi_apply a).comp (measurable_pi_apply i)) hm]
    rfl

/-- A stable argsort of reals. -/
noncomputable def realArgsort (xs : List ℝ) : List ℕ :=
  (List.range xs.length).insertionSort fun i j => xs.getD i 0 ≤ xs.getD j 0

theorem realArgsort_isArgsort : IsArgsort realArgsort := by
  intro xs
  refine ⟨List.perm_insertionSort _ _, ?_⟩
  have : Std.Total fun (i j : ℕ) => xs.getD i 0 ≤ xs.getD j 0 := ⟨fun i j => le_total _ _⟩
  have : IsTrans ℕ fun i j => xs.getD i 0 ≤ xs.getD j 0 := ⟨fun i j k => le_trans⟩
  refine (List.pairwise_insertionSort _ _).imp ?_
  intro i j hij x y hx hy
  rw [List.getD_eq_getElem?_getD, List.getD_eq_getElem?_getD, hx, hy] at hij
  exact hij

/-- Three actions with scores 0, log 2 and log 3, two places: the ranking (third, second) has probability 3/6 · 2/3. -/
example : (exGumbelSpace 3).real {ω | nnSampleAction 1 2 (fun _ => ![0, Real.log 2, Real.log 3]) (.arr ⟨1, 1, fun _ _ => 5⟩)
      (.flt 1) realArgsort (fun i a => -Real.log (ω i a)) =
      .ok (List.ofFn fun (_ : Fin 1) a (p : Fin 2) => pointMass (![2, 1] p) a)} = 1 / 3 := by
  have := C152_nn (exGumbel 3) realArgsort_isArgsort (fun _ => ![0, Real.log 2, Real.log 3])
    (fun (_ : Fin 1) (_ : Fin 1) => (5 : ℝ)) one_pos (L := 2) (by decide) (r := fun _ => ![2, 1]) fun _ => by decide
  refine this.trans ?_
  rw [Fin.prod_univ_one]
  have h3 : ∀ p : Fin 2, ∀ a : Fin 3, (∀ p' < p, (![2, 1] : Fin 2 → Fin 3) p' ≠ a) ↔ (p = 0 ∨ a ≠ 2) := by decide
  simp only [plackettLuce, h3, Fin.prod_univ_two, Fin.sum_univ_three]
  have e2 : (![0, Real.log 2, Real.log 3] : Fin 3 → ℝ) 2 = Real.log 3 := rfl
  have d0 : (0 : Fin 3) ≠ 2 := by decide
  have d1 : (1 : Fin 3) ≠ 2 := by decide
  norm_num [Real.exp_log, e2, d0, d1]

example := C152_ipw (exGumbel 2) realArgsort_isArgsort (M := Unit)
  ⟨fun m _ _ _ => .ok m, fun _ _ => 0, fun _ x => [x.sum, 1 - x.sum]⟩ (L := 2) (by decide) (fun _ => ())
  (fun (i : Fin 3) (_ : Fin 1) => (i : ℝ)) (by simp) (tau := 2) (by norm_num) le_rfl (r := fun _ => ![1, 0]) (by decide)

example := C153_ipw_partial (exGumbel 2) realArgsort_isArgsort (M := Unit)
  ⟨fun m _ _ _ => .ok m, fun _ _ => 0, fun _ x => [x.sum, 1 - x.sum]⟩ (fun _ => ())
  (fun (i : Fin 3) (_ : Fin 1) => (i : ℝ)) (by simp) (tau := 2) (by norm_num)

example := not_C153_nn (exGumbel 2) realArgsort_isArgsort

end Obp
