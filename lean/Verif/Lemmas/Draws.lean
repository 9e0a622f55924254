import Mathlib.Probability.Independence.Integration
import Mathlib.Probability.Notation
import Verif.Spec.Draws
import Verif.Props.Utils
import Verif.Props.EstimatorApi
import Verif.Props.EstimatorValues

set_option linter.unusedSectionVars false

/-! # Lemmas about random draws: the distribution of inverse-CDF sampling -/

namespace Obp
open MeasureTheory ProbabilityTheory Log

variable {Ω : Type} [MeasurableSpace Ω] {P : Measure Ω} [IsProbabilityMeasure P] {n A : ℕ}

theorem UniformDraws.interval {U : Fin n → Ω → ℝ} (hU : UniformDraws P U) (i : Fin n) {a b : ℝ} (h0 : 0 ≤ a) (hab : a ≤ b)
    (h1 : b ≤ 1) : P.real {ω | a ≤ U i ω ∧ U i ω < b} = b - a := by
  have hm : ∀ t : ℝ, MeasurableSet {ω | U i ω < t} := fun t => measurableSet_lt (hU.meas i) measurable_const
  have : {ω | a ≤ U i ω ∧ U i ω < b} = {ω | U i ω < b} \ {ω | U i ω < a} := by
    ext ω
    simp only [Set.mem_ofPred_eq, Set.mem_sdiff, not_lt]
    exact and_comm
  have hsub : {ω | U i ω < a} ⊆ {ω | U i ω < b} := fun ω (h : U i ω < a) => h.trans_le hab
  rw [this, measureReal_sdiff hsub (hm a), hU.cdf i b (h0.trans hab) h1,
    hU.cdf i a h0 (hab.trans h1)]

/-- Is `act` the action that inverse-CDF sampling picks for the draw `u`? -/
def Picks (p : Fin A → ℝ) (u : ℝ) (a : Fin A) : Prop := (∑ b with b < a, p b) ≤ u ∧ u < (∑ b with b < a, p b) + p a

theorem picks_unique {p : Fin A → ℝ} (hp : IsDist p) {u : ℝ} (h : 0 ≤ u ∧ u < 1) {a b : Fin A} (ha : Picks p u a)
    (hb : Picks p u b) : a = b := by
  have h1 := (C01_row_interval hp h.1 h.2 a).2 ha
  have h2 := (C01_row_interval hp h.1 h.2 b).2 hb
  rw [h1] at h2
  exact Fin.ext (Except.ok.inj h2)

theorem partial_sum_le {p : Fin A → ℝ} (hp : IsDist p) (a : Fin A) : (∑ b with b < a, p b) + p a ≤ 1 := by
  rw [← hp.sum_one, add_comm, ← Finset.sum_insert (s := Finset.univ.filter fun b => b < a) (by simp)]
  exact Finset.sum_le_univ_sum_of_nonneg hp.nonneg

theorem picks_prob {U : Fin n → Ω → ℝ} (hU : UniformDraws P U) (i : Fin n) {p : Fin A → ℝ} (hp : IsDist p) (a : Fin A) :
    P.real {ω | Picks p (U i ω) a} = p a := by
  have h := hU.interval i (Finset.sum_nonneg fun b _ => hp.nonneg b) (le_add_of_nonneg_right (hp.nonneg a))
    (partial_sum_le hp a)
  rw [add_sub_cancel_left] at h
  exact h

open Classical in
/-- The expectation of a function of the sampled action times the reward of that action. -/
theorem draw_expect {U : Fin n → Ω → ℝ} (hU : UniformDraws P U) (i : Fin n) {p : Fin A → ℝ} (hp : IsDist p)
    {R : Fin A → Ω → ℝ} (hi : ∀ a, Integrable (R a) P) (hind : ∀ a, IndepFun (U i) (R a) P) {act : Ω → Fin A}
    (hact : ∀ ω, Picks p (U i ω) (act ω)) (h : Fin A → ℝ) :
    Integrable (fun ω => h (act ω) * R (act ω) ω) P ∧
      ∫ ω, h (act ω) * R (act ω) ω ∂P = ∑ a, p a * (h a * ∫ ω, R a ω ∂P) := by
  let I : Fin A → ℝ → ℝ := fun a u => if Picks p u a then 1 else 0
  have hset : ∀ a, MeasurableSet {u : ℝ | Picks p u a} := fun a =>
    (measurableSet_le measurable_const measurable_id).inter (measurableSet_lt measurable_id measurable_const)
  have hIm : ∀ a, Measurable (I a) := fun a => Measurable.ite (hset a) measurable_const measurable_const
  have hI : ∀ a ω, I a (U i ω) = if act ω = a then 1 else 0 := fun a ω => by
    by_cases e : act ω = a
    · subst e
      simp only [I, if_pos (hact ω), if_true]
    · have : ¬ Picks p (U i ω) a := fun h => e (picks_unique hp (hU.range i ω) (hact ω) h)
      simp only [I, if_neg this, if_neg e]
  have hsum : (fun ω => h (act ω) * R (act ω) ω) = fun ω => ∑ a, h a * (I a (U i ω) * R a ω) := by
    funext ω
    rw [Finset.sum_eq_single (act ω)]
    · rw [hI, if_pos rfl, one_mul]
    · intro b _ hb
      rw [hI, if_neg (Ne.symm hb), zero_mul, mul_zero]
    · simp
  have hindI : ∀ a, IndepFun (fun ω => I a (U i ω)) (R a) P := fun a => by
    have := (hind a).comp (hIm a) measurable_id
    exact this
  have hIi : ∀ a, Integrable (fun ω => I a (U i ω)) P := fun a => by
    refine Integrable.of_bound (((hIm a).comp (hU.meas i)).aestronglyMeasurable) 1 (ae_of_all _ fun ω => ?_)
    rw [hI]
    split_ifs <;> simp
  have hint : ∀ a, Integrable (fun ω => I a (U i ω) * R a ω) P := fun a =>
    IndepFun.integrable_mul (hindI a) (hIi a) (hi a)
  have hIv : ∀ a, ∫ ω, I a (U i ω) ∂P = p a := fun a => by
    rw [← picks_prob hU i hp a, ← integral_indicator_one (show MeasurableSet {ω | Picks p (U i ω) a} from hU.meas i (hset a))]
    congr 1
  rw [hsum]
  refine ⟨integrable_finsetSum _ fun a _ => (hint a).const_mul _, ?_⟩
  rw [integral_finsetSum _ fun a _ => (hint a).const_mul _]
  refine Finset.sum_congr rfl fun a _ => ?_
  rw [integral_const_mul, (hindI a).integral_fun_mul_eq_mul_integral (hIi a).aestronglyMeasurable (hi a).aestronglyMeasurable,
    hIv]
  ring

/-- The estimates of inverse propensity weighting and of the doubly robust estimator from a random log, and their expectations in
terms of the expectations `cI` of the weighted rewards and `cD` of the weighted predictions of the rounds. -/
theorem logged_value (hn : 0 < n) {act : Ω → Fin n → Fin A} {r : Ω → Fin n → ℝ} {ps : Fin n → Fin A → ℝ}
    (hpos : ∀ ω i, 0 < ps i (act ω i)) {w : Fin n → Fin A → ℝ} (hw : ∀ i, IsDist (w i)) (qhat : Fin n → Fin A → ℝ) {cI cD : Fin n → ℝ}
    (hround : ∀ i, Integrable (fun ω => w i (act ω i) / ps i (act ω i) * r ω i) P ∧
      ∫ ω, w i (act ω i) / ps i (act ω i) * r ω i ∂P = cI i)
    (hround1 : ∀ i, Integrable (fun ω => w i (act ω i) / ps i (act ω i) * qhat i (act ω i)) P ∧
      ∫ ω, w i (act ω i) / ps i (act ω i) * qhat i (act ω i) ∂P = cD i) :
    ∃ vI vD : Ω → ℝ,
      (∀ ω, (Estimator.mk .ipw .inf false).estimatePolicyValue (opeArgs (List.ofFn fun i => (act ω i : ℕ))
          (List.ofFn (r ω)) (List.ofFn fun i => ps i (act ω i)) w qhat) = .ok (vI ω) ∧
        (Estimator.mk .dr .inf false).estimatePolicyValue (opeArgs (List.ofFn fun i => (act ω i : ℕ))
          (List.ofFn (r ω)) (List.ofFn fun i => ps i (act ω i)) w qhat) = .ok (vD ω)) ∧
      Integrable vI P ∧ Integrable vD P ∧
      ∫ ω, vI ω ∂P = (∑ i, cI i) / n ∧
      ∫ ω, vD ω ∂P = (∑ i, (expect1 (w i) (qhat i) + (cI i - cD i))) / n := by
  let g : Ω → Log ℝ n A 1 := fun ω =>
    { action := act ω, reward := r ω, pscore := fun i => ps i (act ω i), estPscore := fun _ => 1
      position := fun _ => 0, piE := fun i a _ => w i a, q := fun i a _ => qhat i a, estIw := fun _ => 1 }
  have hg : ∀ ω, (g ω).Valid := fun ω => ⟨hn, hpos ω, fun _ => one_pos, fun _ => zero_le_one, fun i l => by
    simp only [g, (hw i).sum_one]
    exact closeToOne_one⟩
  have hargs : ∀ ω k, (k = .ipw ∨ k = .dr) → (Estimator.mk k .inf false).estimatePolicyValue
      (opeArgs (List.ofFn fun i => (act ω i : ℕ)) (List.ofFn (r ω)) (List.ofFn fun i => ps i (act ω i)) w qhat) =
      (Estimator.mk k .inf false).estimatePolicyValue (g ω).args := by
    intro ω k hk
    rw [← C29_position_none (hg ω)]
    rcases hk with rfl | rfl <;>
    · simp only [opeArgs, Log.args, List.map_ofFn]
      rfl
  have hdr : ∀ i, Integrable (fun ω => expect1 (w i) (qhat i) + (w i (act ω i) / ps i (act ω i) * r ω i -
      w i (act ω i) / ps i (act ω i) * qhat i (act ω i))) P := fun i => (integrable_const _).add ((hround i).1.sub (hround1 i).1)
  have hsub : ∀ i, Integrable (fun ω => w i (act ω i) / ps i (act ω i) * r ω i -
      w i (act ω i) / ps i (act ω i) * qhat i (act ω i)) P := fun i => (hround i).1.sub (hround1 i).1
  refine ⟨fun ω => (∑ i, w i (act ω i) / ps i (act ω i) * r ω i) / n,
    fun ω => (∑ i, ((expect1 (w i) (qhat i)) + (w i (act ω i) / ps i (act ω i) * r ω i -
      w i (act ω i) / ps i (act ω i) * qhat i (act ω i)))) / n, fun ω => ⟨?_, ?_⟩, ?_, ?_, ?_, ?_⟩
  · rw [hargs ω _ (.inl rfl), value_ipw (hg ω)]
    congr 1
    simp only [avg, Lam.clip, Log.weight, g]
    congr 1
    refine Finset.sum_congr rfl fun i _ => ?_
    simp [mul_comm]
  · rw [hargs ω _ (.inr rfl), value_dr (hg ω)]
    congr 1
    simp only [avg, Lam.clip, Log.weight, modelValue, Log.residual, g]
    congr 1
    refine Finset.sum_congr rfl fun i _ => ?_
    rw [(hw i).sum_one, div_one]
    unfold expect1
    simp only [Bool.false_eq_true, if_false, mul_sub]
    congr 1
    exact Finset.sum_congr rfl fun a _ => mul_comm _ _
  · exact (integrable_finsetSum _ fun i _ => (hround i).1).div_const _
  · exact (integrable_finsetSum _ fun i _ => hdr i).div_const _
  · rw [integral_div, integral_finsetSum _ fun i _ => (hround i).1]
    congr 1
    exact Finset.sum_congr rfl fun i _ => (hround i).2
  · rw [integral_div, integral_finsetSum _ fun i _ => hdr i]
    congr 1
    refine Finset.sum_congr rfl fun i _ => ?_
    rw [integral_add (integrable_const _) (hsub i), integral_sub (hround i).1 (hround1 i).1,
      (hround i).2, (hround1 i).2, integral_const, probReal_univ, one_smul]

/-- Expectations of the estimates of inverse propensity weighting and of the doubly robust estimator when actions are sampled from
`pi` and logged with propensities `ps`. -/
theorem logged_expect (hn : 0 < n) {U : Fin n → Ω → ℝ} (hU : UniformDraws P U) {q : Fin n → Fin A → ℝ}
    {R : Fin n → Fin A → Ω → ℝ} (hR : RewardDraws P U q R) {pi : Fin n → Fin A → ℝ} (hpi : ∀ i, IsDist (pi i))
    {act : Ω → Fin n → Fin A} (hact : ∀ ω i, Picks (pi i) (U i ω) (act ω i)) {ps : Fin n → Fin A → ℝ}
    (hpos : ∀ ω i, 0 < ps i (act ω i)) {w : Fin n → Fin A → ℝ} (hw : ∀ i, IsDist (w i))
    (qhat : Fin n → Fin A → ℝ) :
    ∃ vI vD : Ω → ℝ,
      (∀ ω, (Estimator.mk .ipw .inf false).estimatePolicyValue (opeArgs (List.ofFn fun i => (act ω i : ℕ))
          (List.ofFn fun i => R i (act ω i) ω) (List.ofFn fun i => ps i (act ω i)) w qhat) = .ok (vI ω) ∧
        (Estimator.mk .dr .inf false).estimatePolicyValue (opeArgs (List.ofFn fun i => (act ω i : ℕ))
          (List.ofFn fun i => R i (act ω i) ω) (List.ofFn fun i => ps i (act ω i)) w qhat) = .ok (vD ω)) ∧
      Integrable vI P ∧ Integrable vD P ∧
      ∫ ω, vI ω ∂P = (∑ i, ∑ a, pi i a * (w i a / ps i a * q i a)) / n ∧
      ∫ ω, vD ω ∂P = (∑ i, (expect1 (w i) (qhat i) + ∑ a, pi i a * (w i a / ps i a * (q i a - qhat i a)))) / n := by
  have hround : ∀ i, Integrable (fun ω => w i (act ω i) / ps i (act ω i) * R i (act ω i) ω) P ∧
      ∫ ω, w i (act ω i) / ps i (act ω i) * R i (act ω i) ω ∂P = ∑ a, pi i a * (w i a / ps i a * q i a) := fun i => by
    have := draw_expect hU i (hpi i) (hR.integrable i) (hR.indep i) (act := fun ω => act ω i) (fun ω => hact ω i)
      fun a => w i a / ps i a
    simp only [hR.mean] at this
    exact this
  have hround1 : ∀ i, Integrable (fun ω => w i (act ω i) / ps i (act ω i) * qhat i (act ω i)) P ∧
      ∫ ω, w i (act ω i) / ps i (act ω i) * qhat i (act ω i) ∂P = ∑ a, pi i a * (w i a / ps i a * qhat i a) := fun i => by
    have := draw_expect hU i (hpi i) (R := fun a _ => qhat i a) (fun a => integrable_const _)
      (fun a => indepFun_const_right _ _) (act := fun ω => act ω i) (fun ω => hact ω i) fun a => w i a / ps i a
    simpa only [integral_const, probReal_univ, one_smul] using this
  obtain ⟨vI, vD, h1, h2, h3, h4, h5⟩ := logged_value hn (r := fun ω i => R i (act ω i) ω) hpos hw qhat hround hround1
  refine ⟨vI, vD, h1, h2, h3, h4, h5.trans ?_⟩
  congr 1
  refine Finset.sum_congr rfl fun i _ => ?_
  rw [← Finset.sum_sub_distrib]
  congr 1
  exact Finset.sum_congr rfl fun a _ => by ring

open Classical in
/-- The expectation of a function of a finite random outcome times a reward of that outcome, when the outcome is determined by
`V` and the rewards are independent of `V`. -/
theorem outcome_expect {X : Type} [MeasurableSpace X] {V : Ω → X} (hV : Measurable V) {ι : Type} [Fintype ι] {Ev : ι → Set X}
    (hm : ∀ j, MeasurableSet (Ev j)) {o : Ω → ι} (ho : ∀ ω j, V ω ∈ Ev j ↔ o ω = j) {R : ι → Ω → ℝ} (hi : ∀ j, Integrable (R j) P)
    (hind : ∀ j, IndepFun V (R j) P) (h : ι → ℝ) :
    Integrable (fun ω => h (o ω) * R (o ω) ω) P ∧
      ∫ ω, h (o ω) * R (o ω) ω ∂P = ∑ j, P.real (V ⁻¹' Ev j) * (h j * ∫ ω, R j ω ∂P) := by
  let I : ι → X → ℝ := fun j x => if x ∈ Ev j then 1 else 0
  have hIm : ∀ j, Measurable (I j) := fun j => Measurable.ite (hm j) measurable_const measurable_const
  have hI : ∀ j ω, I j (V ω) = if o ω = j then 1 else 0 := fun j ω => by simp only [I, ho]
  have hsum : (fun ω => h (o ω) * R (o ω) ω) = fun ω => ∑ j, h j * (I j (V ω) * R j ω) := by
    funext ω
    rw [Finset.sum_eq_single (o ω)]
    · rw [hI, if_pos rfl, one_mul]
    · intro b _ hne
      rw [hI, if_neg hne.symm, zero_mul, mul_zero]
    · simp
  have hindI : ∀ j, IndepFun (fun ω => I j (V ω)) (R j) P := fun j => (hind j).comp (hIm j) measurable_id
  have hIi : ∀ j, Integrable (fun ω => I j (V ω)) P := fun j => by
    refine Integrable.of_bound (((hIm j).comp hV).aestronglyMeasurable) 1 (ae_of_all _ fun ω => ?_)
    simp only [I]
    split_ifs <;> simp
  have hint : ∀ j, Integrable (fun ω => I j (V ω) * R j ω) P := fun j => IndepFun.integrable_mul (hindI j) (hIi j) (hi j)
  have hIv : ∀ j, ∫ ω, I j (V ω) ∂P = P.real (V ⁻¹' Ev j) := fun j => by
    rw [← integral_indicator_one (hV (hm j))]
    congr 1
  rw [hsum]
  refine ⟨integrable_finsetSum _ fun j _ => (hint j).const_mul _, ?_⟩
  rw [integral_finsetSum _ fun j _ => (hint j).const_mul _]
  refine Finset.sum_congr rfl fun j _ => ?_
  rw [integral_const_mul, (hindI j).integral_fun_mul_eq_mul_integral (hIi j).aestronglyMeasurable (hi j).aestronglyMeasurable, hIv j]
  ring

/-- The same with the sampling probabilities as propensities. -/
theorem sampled_log_expect (hn : 0 < n) {U : Fin n → Ω → ℝ} (hU : UniformDraws P U) {q : Fin n → Fin A → ℝ}
    {R : Fin n → Fin A → Ω → ℝ} (hR : RewardDraws P U q R) {pi : Fin n → Fin A → ℝ} (hpi : ∀ i, IsDist (pi i))
    {act : Ω → Fin n → Fin A} (hact : ∀ ω i, Picks (pi i) (U i ω) (act ω i)) {w : Fin n → Fin A → ℝ} (hw : ∀ i, IsDist (w i))
    (qhat : Fin n → Fin A → ℝ) :
    ∃ vI vD : Ω → ℝ,
      (∀ ω, (Estimator.mk .ipw .inf false).estimatePolicyValue (opeArgs (List.ofFn fun i => (act ω i : ℕ))
          (List.ofFn fun i => R i (act ω i) ω) (List.ofFn fun i => pi i (act ω i)) w qhat) = .ok (vI ω) ∧
        (Estimator.mk .dr .inf false).estimatePolicyValue (opeArgs (List.ofFn fun i => (act ω i : ℕ))
          (List.ofFn fun i => R i (act ω i) ω) (List.ofFn fun i => pi i (act ω i)) w qhat) = .ok (vD ω)) ∧
      Integrable vI P ∧ Integrable vD P ∧
      ∫ ω, vI ω ∂P = (∑ i, expect1 (w i) (q i)) / n - (∑ i, ∑ a with pi i a = 0, w i a * q i a) / n ∧
      ∫ ω, vD ω ∂P = (∑ i, expect1 (w i) (q i)) / n - (∑ i, ∑ a with pi i a = 0, w i a * (q i a - qhat i a)) / n := by
  have hpos : ∀ ω i, 0 < pi i (act ω i) := fun ω i => by
    have := hact ω i
    unfold Picks at this
    linarith [this.1, this.2]
  have hcancel : ∀ i (f : Fin A → ℝ), ∑ a, pi i a * (w i a / pi i a * f a) =
      expect1 (w i) f - ∑ a with pi i a = 0, w i a * f a := fun i f => by
    unfold expect1
    rw [eq_sub_iff_add_eq, Finset.sum_filter, ← Finset.sum_add_distrib]
    refine Finset.sum_congr rfl fun a _ => ?_
    by_cases h0 : pi i a = 0
    · simp [h0]
    · rw [if_neg h0]
      field_simp
      ring
  obtain ⟨vI, vD, h1, h2, h3, h4, h5⟩ := logged_expect hn hU hR hpi hact hpos hw qhat
  refine ⟨vI, vD, h1, h2, h3, ?_, ?_⟩
  · rw [h4, ← sub_div, ← Finset.sum_sub_distrib]
    congr 1
    exact Finset.sum_congr rfl fun i _ => hcancel i _
  · rw [h5, ← sub_div, ← Finset.sum_sub_distrib]
    congr 1
    refine Finset.sum_congr rfl fun i _ => ?_
    rw [hcancel]
    unfold expect1
    simp only [mul_sub, Finset.sum_sub_distrib]
    ring

end Obp
