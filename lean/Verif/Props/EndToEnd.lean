import Mathlib.MeasureTheory.Constructions.Pi
import Mathlib.MeasureTheory.Measure.Lebesgue.Basic
import Mathlib.MeasureTheory.Integral.Prod
import Mathlib.MeasureTheory.Function.Floor
import Verif.Lemmas.Draws
import Verif.Props.Synthetic
import Verif.Props.MultiClass

set_option linter.unusedSectionVars false

/-! # From the simulated logged data to the estimate

The pipeline of the library's examples: a dataset produces logged data, an estimator is applied to them, and the result is compared
with the ground truth that the dataset reports. The vocabulary (`UniformDraws`, `RewardDraws`, `opeArgs`) is in `Spec/Draws`. -/

namespace Obp
open MeasureTheory ProbabilityTheory

variable {Ω : Type} [MeasurableSpace Ω] {P : Measure Ω} [IsProbabilityMeasure P] {n A : ℕ}

/-- **C154, synthetic data.** For all expected rewards, every `beta`, behaviour policy function, number of deficient actions, noise
order, evaluation policy and reward model: the expectation of the estimates of IPW and DR from the logged data is the ground truth
policy value that the dataset reports, less the part of that value which falls on the deficient actions (for DR, less the error of
the reward model there). -/
theorem C154_synthetic (hn : 0 < n) (beta : ℝ) {nDef : ℕ} (hd : nDef < A) (q : Fin n → Fin A → ℝ)
    (behavior : Option (Fin n → Fin A → ℝ)) (orders : Fin n → List ℕ) (ho : ∀ i, (orders i).Perm (List.range A))
    {U : Fin n → Ω → ℝ} (hU : UniformDraws P U) {R : Fin n → Fin A → Ω → ℝ} (hR : RewardDraws P U q R)
    {w : Fin n → Fin A → ℝ} (hw : ∀ i, IsDist (w i)) (qhat : Fin n → Fin A → ℝ) :
    ∃ (supp : Fin n → Finset (Fin A)) (V : ℝ) (vI vD : Ω → ℝ),
      (∀ i, (supp i).card = A - nDef) ∧
      datasetGroundTruth (.arr ⟨n, A, q⟩) (.arr ⟨n, A, 1, fun i a _ => w i a⟩) = .ok V ∧
      (∀ ω, ∃ (fb : SyntheticFeedback) (act : Fin n → Fin A),
        syntheticFeedback beta nDef (List.ofFn fun i => List.ofFn (q i))
          (behavior.map fun l => List.ofFn fun i => List.ofFn (l i)) (List.ofFn orders) (List.ofFn fun i => U i ω) = .ok fb ∧
        fb.action = List.ofFn (fun i => (act i : ℕ)) ∧ (∀ i, act i ∈ supp i) ∧
        (Estimator.mk .ipw .inf false).estimatePolicyValue
          (opeArgs fb.action (List.ofFn fun i => R i (act i) ω) fb.pscore w qhat) = .ok (vI ω) ∧
        (Estimator.mk .dr .inf false).estimatePolicyValue
          (opeArgs fb.action (List.ofFn fun i => R i (act i) ω) fb.pscore w qhat) = .ok (vD ω)) ∧
      Integrable vI P ∧ Integrable vD P ∧
      ∫ ω, vI ω ∂P = V - (∑ i, ∑ a with a ∉ supp i, w i a * q i a) / n ∧
      ∫ ω, vD ω ∂P = V - (∑ i, ∑ a with a ∉ supp i, w i a * (q i a - qhat i a)) / n := by
  have hrow := fun i => syntheticBehaviorRow_spec beta hd (behavior.getD q i) (ho i)
  choose pi supp hpi hcard hdist hsupp hval using hrow
  have hlog : (behavior.map fun l => List.ofFn fun i => List.ofFn (l i)).getD (List.ofFn fun i => List.ofFn (q i)) =
      List.ofFn fun i => List.ofFn (behavior.getD q i) := by
    cases behavior <;> rfl
  have hsamp := fun ω => C01_sample_action_fast hdist fun i => hU.range i ω
  choose act hact hprop using hsamp
  obtain ⟨vI, vD, hest, hII, hID, hvI, hvD⟩ := sampled_log_expect hn hU hR hdist (act := act) (fun ω i => (hprop ω i).2) hw qhat
  have hzero : ∀ i, (Finset.univ.filter fun a => pi i a = 0) = Finset.univ.filter fun a => a ∉ supp i := fun i => by
    ext a
    simp only [Finset.mem_filter, Finset.mem_univ, true_and, hsupp i a, not_lt]
    exact ⟨fun h => h.le, fun h => le_antisymm h ((hdist i).nonneg a)⟩
  refine ⟨supp, _, vI, vD, hcard, C84_policy_value hn one_pos q (fun i a _ => w i a) hw, fun ω => ?_, hII, hID, ?_, ?_⟩
  · refine ⟨⟨List.ofFn fun i => (act ω i : ℕ), List.ofFn fun i => List.ofFn (q i), List.ofFn fun i => List.ofFn (pi i),
      List.ofFn fun i => pi i (act ω i)⟩, act ω, ?_, rfl, fun i => (hsupp i _).2 (hprop ω i).1, (hest ω).1, (hest ω).2⟩
    unfold syntheticFeedback
    dsimp only
    rw [hlog, zip_ofFn, mapM_ofFn_ok (y := fun i => List.ofFn (pi i)) hpi, py_bind_ok, hact, py_bind_ok,
      gather_ofFn pi (act ω), py_bind_ok, py_pure]
  · simp only [hvI, hzero]
  · simp only [hvD, hzero]

/-- **C154, full support.** Without deficient actions both estimates are unbiased for the ground truth the dataset reports. -/
theorem C154_synthetic_unbiased (hn : 0 < n) (hA : 0 < A) (beta : ℝ) (q : Fin n → Fin A → ℝ)
    (behavior : Option (Fin n → Fin A → ℝ)) (orders : Fin n → List ℕ) (ho : ∀ i, (orders i).Perm (List.range A))
    {U : Fin n → Ω → ℝ} (hU : UniformDraws P U) {R : Fin n → Fin A → Ω → ℝ} (hR : RewardDraws P U q R)
    {w : Fin n → Fin A → ℝ} (hw : ∀ i, IsDist (w i)) (qhat : Fin n → Fin A → ℝ) :
    ∃ (V : ℝ) (vI vD : Ω → ℝ),
      datasetGroundTruth (.arr ⟨n, A, q⟩) (.arr ⟨n, A, 1, fun i a _ => w i a⟩) = .ok V ∧
      (∀ ω, ∃ (fb : SyntheticFeedback) (act : Fin n → Fin A),
        syntheticFeedback beta 0 (List.ofFn fun i => List.ofFn (q i))
          (behavior.map fun l => List.ofFn fun i => List.ofFn (l i)) (List.ofFn orders) (List.ofFn fun i => U i ω) = .ok fb ∧
        fb.action = List.ofFn (fun i => (act i : ℕ)) ∧
        (Estimator.mk .ipw .inf false).estimatePolicyValue
          (opeArgs fb.action (List.ofFn fun i => R i (act i) ω) fb.pscore w qhat) = .ok (vI ω) ∧
        (Estimator.mk .dr .inf false).estimatePolicyValue
          (opeArgs fb.action (List.ofFn fun i => R i (act i) ω) fb.pscore w qhat) = .ok (vD ω)) ∧
      Integrable vI P ∧ Integrable vD P ∧ ∫ ω, vI ω ∂P = V ∧ ∫ ω, vD ω ∂P = V := by
  obtain ⟨supp, V, vI, vD, hcard, hV, hω, hI, hD, h1, h2⟩ := C154_synthetic hn beta hA q behavior orders ho hU hR hw qhat
  have hall : ∀ i, supp i = Finset.univ := fun i => by
    rw [← Finset.card_eq_iff_eq_univ, hcard, Fintype.card_fin, Nat.sub_zero]
  simp only [hall, Finset.mem_univ, not_true_eq_false, Finset.filter_false, Finset.sum_empty, Finset.sum_const_zero, zero_div,
    sub_zero] at h1 h2
  refine ⟨V, vI, vD, hV, fun ω => ?_, hI, hD, h1, h2⟩
  obtain ⟨fb, act, h1, h2, -, h3, h4⟩ := hω ω
  exact ⟨fb, act, h1, h2, h3, h4⟩

/-- **C154, classification data.** The same for logged data made from classification data: the reward of an action is one exactly if
it is the true class, and the ground truth is the probability the evaluation policy gives to the true classes. The value of the
removed classes is lost. -/
theorem C154_multiclass {m k : ℕ} (hm : 0 < m) (y : Fin n → Fin k) (hy : Function.Surjective y)
    {alpha : ℝ} (h0 : 0 ≤ alpha) (h1 : alpha < 1) {nDef : ℕ} (hd : nDef < k)
    (ev : Fin m → Fin n) (preds : Fin m → Fin k) (orders : Fin m → List ℕ) (ho : ∀ i, (orders i).Perm (List.range k))
    {U : Fin m → Ω → ℝ} (hU : UniformDraws P U) {w : Fin m → Fin k → ℝ} (hw : ∀ i, IsDist (w i)) (qhat : Fin m → Fin k → ℝ) :
    ∃ (d : MultiClassData ℝ) (e : MultiClassEval ℝ) (gone : Fin m → Finset (Fin k)) (V : ℝ) (vI vD : Ω → ℝ),
      mkMultiClass ⟨true, .flt alpha, .int nDef, true, .int (List.ofFn fun i => ((y i : ℕ) : ℤ))⟩ = .ok d ∧
      splitTrainEval d (List.ofFn fun j => (ev j : ℕ)) = .ok e ∧ (∀ i, (gone i).card = nDef) ∧
      multiGroundTruth e (.arr ⟨m, k, 1, fun i a _ => w i a⟩) = .ok V ∧
      (∀ ω, ∃ fb, multiClassFeedback e (List.ofFn fun j => ((preds j : ℕ) : ℤ)) (List.ofFn orders) (List.ofFn fun i => U i ω) = .ok fb ∧
        (Estimator.mk .ipw .inf false).estimatePolicyValue (opeArgs fb.action fb.reward fb.pscore w qhat) = .ok (vI ω) ∧
        (Estimator.mk .dr .inf false).estimatePolicyValue (opeArgs fb.action fb.reward fb.pscore w qhat) = .ok (vD ω)) ∧
      Integrable vI P ∧ Integrable vD P ∧
      ∫ ω, vI ω ∂P = V - (∑ i, if y (ev i) ∈ gone i then w i (y (ev i)) else 0) / m ∧
      ∫ ω, vD ω ∂P = V - (∑ i, ∑ a ∈ gone i, w i a * ((if a = y (ev i) then 1 else 0) - qhat i a)) / m := by
  obtain ⟨d, e, pi, gone, hd', he, hyEv, hdist, hcard, hgone, -, hfb⟩ :=
    multiClassFeedback_spec y hy h0 h1 hd ev preds orders ho
  have hsamp := fun ω => hfb (fun i => U i ω) fun i => hU.range i ω
  choose fb act hok hpiB hact hrew hps hpos hprop using hsamp
  have hR : RewardDraws P U (fun i a => if a = y (ev i) then (1 : ℝ) else 0) (fun i a _ => if a = y (ev i) then (1 : ℝ) else 0) :=
    ⟨fun _ _ => integrable_const _, fun i a => by simp, fun i a => indepFun_const_right _ _⟩
  obtain ⟨vI, vD, hest, hII, hID, hvI, hvD⟩ := sampled_log_expect hm hU hR hdist (act := act) hprop hw qhat
  have hz : ∀ i, (Finset.univ.filter fun a => pi i a = 0) = gone i := fun i => by
    ext a
    simp [hgone i a]
  have hV : (∑ i, ∑ _l : Fin 1, w i (y (ev i))) / ((m : ℝ) * (1 : ℕ)) =
      (∑ i, expect1 (w i) fun a => if a = y (ev i) then 1 else 0) / m := by
    simp [expect1]
  refine ⟨d, e, gone, _, vI, vD, hd', he, hcard, C81_ground_truth hm one_pos e (fun i => y (ev i)) hyEv (fun i a _ => w i a),
    fun ω => ⟨fb ω, hok ω, ?_, ?_⟩, hII, hID, ?_, ?_⟩
  · rw [hact, hrew, hps]; exact (hest ω).1
  · rw [hact, hrew, hps]; exact (hest ω).2
  · rw [hV, hvI]
    simp only [hz]
    simp
  · rw [hV, hvD]
    simp only [hz]

/-! ### draws with the assumed properties exist -/

/-- Two independent uniform numbers, one for the action and one for the reward. -/
noncomputable def exDraws : Measure (ℝ × ℝ) := (volume.restrict (Set.Ico (0 : ℝ) 1)).prod (volume.restrict (Set.Ico (0 : ℝ) 1))

instance exUnif_prob : IsProbabilityMeasure (volume.restrict (Set.Ico (0 : ℝ) 1)) := ⟨by simp⟩

instance exDraws_prob : IsProbabilityMeasure exDraws := by unfold exDraws; infer_instance

theorem exUnif_cdf (t : ℝ) (h0 : 0 ≤ t) (h1 : t ≤ 1) : (volume.restrict (Set.Ico (0 : ℝ) 1)).real {x | Int.fract x < t} = t := by
  have hm : MeasurableSet {x : ℝ | Int.fract x < t} := measurableSet_lt measurable_fract measurable_const
  rw [measureReal_restrict_apply hm]
  have : {x : ℝ | Int.fract x < t} ∩ Set.Ico 0 1 = Set.Ico 0 t := by
    ext x
    simp only [Set.mem_inter_iff, Set.mem_ofPred_eq, Set.mem_Ico]
    constructor
    · rintro ⟨h, hx⟩
      rw [Int.fract_eq_self.2 hx] at h
      exact ⟨hx.1, h⟩
    · rintro ⟨h, hx⟩
      have hx' : 0 ≤ x ∧ x < 1 := ⟨h, hx.trans_le h1⟩
      rw [Int.fract_eq_self.2 hx']
      exact ⟨hx, hx'⟩
  rw [this]
  simp [h0]

/-- Uniform draws exist. -/
theorem exDraws_uniform : UniformDraws exDraws (fun (_ : Fin n) ω => Int.fract ω.1) := by
  refine ⟨fun _ => measurable_fract.comp measurable_fst, fun _ ω => ⟨Int.fract_nonneg _, Int.fract_lt_one _⟩, fun _ t h0 h1 => ?_⟩
  have : {ω : ℝ × ℝ | Int.fract ω.1 < t} = {x | Int.fract x < t} ×ˢ Set.univ := by ext; simp
  unfold exDraws
  rw [this, measureReal_prod_prod, exUnif_cdf t h0 h1]
  simp

/-- Binary rewards with any given means exist, independent of the draws of the actions. -/
theorem exDraws_reward (q : Fin n → Fin A → ℝ) (hq : ∀ i a, 0 ≤ q i a ∧ q i a ≤ 1) :
    RewardDraws exDraws (fun (_ : Fin n) ω => Int.fract ω.1) q (fun i a ω => if Int.fract ω.2 < q i a then 1 else 0) := by
  have hm : ∀ t : ℝ, MeasurableSet {ω : ℝ × ℝ | Int.fract ω.2 < t} := fun t =>
    measurableSet_lt (measurable_fract.comp measurable_snd) measurable_const
  have hmeas : ∀ t : ℝ, Measurable fun x : ℝ => if Int.fract x < t then (1 : ℝ) else 0 := fun t =>
    Measurable.ite (measurableSet_lt measurable_fract measurable_const) measurable_const measurable_const
  refine ⟨fun i a => ?_, fun i a => ?_, fun i a => ?_⟩
  · refine Integrable.of_bound ((hmeas (q i a)).comp measurable_snd).aestronglyMeasurable 1 (ae_of_all _ fun ω => ?_)
    split_ifs <;> simp
  · have : (fun ω : ℝ × ℝ => if Int.fract ω.2 < q i a then (1 : ℝ) else 0) = Set.indicator {ω | Int.fract ω.2 < q i a} 1 := by
      funext ω
      simp [Set.indicator]
    rw [this, integral_indicator_one (hm _)]
    have : {ω : ℝ × ℝ | Int.fract ω.2 < q i a} = Set.univ ×ˢ {x | Int.fract x < q i a} := by ext; simp
    unfold exDraws
    rw [this, measureReal_prod_prod, exUnif_cdf _ (hq i a).1 (hq i a).2]
    simp
  · exact indepFun_prod (μ := volume.restrict (Set.Ico (0 : ℝ) 1)) (ν := volume.restrict (Set.Ico (0 : ℝ) 1)) measurable_fract (hmeas _)

/-- The theorem applied: three actions, one deficient, uniform evaluation policy, no reward model. -/
example : ∃ (supp : Fin 2 → Finset (Fin 3)) (vI : ℝ × ℝ → ℝ), (∀ i, (supp i).card = 2) ∧
    ∫ ω, vI ω ∂exDraws = 1 / 2 - (∑ i, ∑ a with a ∉ supp i, (1 / 3 : ℝ) * (1 / 2)) / 2 := by
  obtain ⟨supp, V, vI, vD, hc, hV, -, -, -, h, -⟩ := C154_synthetic (n := 2) (A := 3) (by norm_num) 1 (nDef := 1) (by norm_num)
    (fun _ _ => 1 / 2) none (fun _ => [2, 0, 1]) (fun _ => by decide) exDraws_uniform (exDraws_reward _ fun _ _ => by norm_num)
    (w := fun _ _ => 1 / 3) (fun _ => ⟨fun _ => by norm_num, by norm_num [Fin.sum_univ_three]⟩) (fun _ _ => 0)
  have := C84_policy_value (K := ℝ) (n := 2) (A := 3) (by norm_num) one_pos (fun _ _ => 1 / 2) (fun _ _ _ => 1 / 3)
    (fun _ => ⟨fun _ => by norm_num, by norm_num [Fin.sum_univ_three]⟩)
  rw [this] at hV
  have hV := Except.ok.inj hV
  refine ⟨supp, vI, hc, ?_⟩
  rw [h, ← hV]
  norm_num [expect1, Fin.sum_univ_three]

end Obp
