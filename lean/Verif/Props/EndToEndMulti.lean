import Mathlib.Probability.Distributions.Uniform
import Verif.Props.EndToEnd
import Verif.Props.Multi
import Verif.Props.MultiLogger

set_option linter.unusedSectionVars false

/-! # From simulated logged data of several loggers to the estimate -/

namespace Obp
open MeasureTheory ProbabilityTheory

variable {Ω : Type} [MeasurableSpace Ω] {P : Measure Ω} [IsProbabilityMeasure P] {n A m : ℕ}

/-- The arguments for an estimator for several loggers made from the feedback of the dataset, as in the library's examples. -/
def multiOpeArgs (fb : MultiLoggerFeedback) (reward : List ℝ) (dist qhat : Fin n → Fin A → ℝ) : MultiArgs ℝ where
  reward := .flt reward
  action := .int (fb.action.map fun a : ℕ => (a : ℤ))
  actionDist := .arr ⟨n, A, 1, fun i a _ => dist i a⟩
  stratumIdx := .int (fb.stratum.map fun a : ℕ => (a : ℤ))
  pscore := .flt fb.pscore
  pscoreAvg := .flt fb.pscoreAvg
  regModel := .arr ⟨n, A, 1, fun i a _ => qhat i a⟩

theorem naiveIpw_single (a : MultiArgs ℝ) : (MultiEstimator.mk .naiveIpw .inf false).estimatePolicyValue a =
    (Estimator.mk .ipw .inf false).estimatePolicyValue a.single := by
  show (ipwPrepare false a.single >>= fun r => ipwRound .inf r) >>= npMean = ipwPrepare false a.single >>= fun r => ipwRound .inf r >>= npMean
  rw [bind_assoc]

theorem naiveDr_single (a : MultiArgs ℝ) : (MultiEstimator.mk .naiveDr .inf false).estimatePolicyValue a =
    (Estimator.mk .dr .inf false).estimatePolicyValue a.single := by
  show (drPrepare false a.single >>= fun r => drRound .inf r) >>= npMean = drPrepare false a.single >>= fun r => drRound .inf r >>= npMean
  rw [bind_assoc]

theorem balancedIpw_single (a : MultiArgs ℝ) : (MultiEstimator.mk .balancedIpw .inf false).estimatePolicyValue a =
    (Estimator.mk .ipw .inf false).estimatePolicyValue a.balanced := by
  show (ipwPrepare false a.balanced >>= fun r => ipwRound .inf r) >>= npMean = ipwPrepare false a.balanced >>= fun r => ipwRound .inf r >>= npMean
  rw [bind_assoc]

theorem balancedDr_single (a : MultiArgs ℝ) : (MultiEstimator.mk .balancedDr .inf false).estimatePolicyValue a =
    (Estimator.mk .dr .inf false).estimatePolicyValue a.balanced := by
  show (drPrepare false a.balanced >>= fun r => drRound .inf r) >>= npMean = drPrepare false a.balanced >>= fun r => drRound .inf r >>= npMean
  rw [bind_assoc]

/-- **C155, given the contexts.** Logged data of several loggers without deficient actions, for all expected rewards, temperatures and
proportions with non-negative stratum sizes, evaluation policies and reward models: the naive estimators (propensity of the round's own
logger) are unbiased for the ground truth the dataset reports. The expectation of the balanced ones (propensity averaged over the
loggers) weights every action by how much more often the round's logger takes it than the average logger. -/
theorem C155_given_contexts (hn : 0 < n) (hA : 0 < A) (beta : ℝ) (betas rhos : Fin (m + 1) → ℝ) (hr : IsDist rhos)
    (s : Fin (m + 1) → ℤ) (hs : strataSizes n (List.ofFn rhos) = .ok (List.ofFn s)) (hs0 : ∀ k, 0 ≤ s k)
    (orders : Fin n → List ℕ) :
    ∃ strat : Fin n → Fin (m + 1), (∀ k, ((Finset.univ.filter fun i => strat i = k).card : ℤ) = s k) ∧
    ∀ (q : Fin n → Fin A → ℝ) (U : Fin n → Ω → ℝ) (_ : UniformDraws P U) (R : Fin n → Fin A → Ω → ℝ) (_ : RewardDraws P U q R)
      (w : Fin n → Fin A → ℝ) (_ : ∀ i, IsDist (w i)) (qhat : Fin n → Fin A → ℝ),
    ∃ (V : ℝ) (vN vND vB vBD : Ω → ℝ),
      datasetGroundTruth (.arr ⟨n, A, q⟩) (.arr ⟨n, A, 1, fun i a _ => w i a⟩) = .ok V ∧
      (∀ ω, ∃ (fb : MultiLoggerFeedback) (act : Fin n → Fin A),
        multiLoggerFeedback beta (List.ofFn betas) (List.ofFn rhos) 0 (List.ofFn fun i => List.ofFn (q i))
          (List.ofFn orders) (List.ofFn fun i => U i ω) = .ok fb ∧
        fb.action = List.ofFn (fun i => (act i : ℕ)) ∧ fb.stratum = List.ofFn (fun i => (strat i : ℕ)) ∧
        ∀ args, args = multiOpeArgs fb (List.ofFn fun i => R i (act i) ω) w qhat →
          (MultiEstimator.mk .naiveIpw .inf false).estimatePolicyValue args = .ok (vN ω) ∧
          (MultiEstimator.mk .naiveDr .inf false).estimatePolicyValue args = .ok (vND ω) ∧
          (MultiEstimator.mk .balancedIpw .inf false).estimatePolicyValue args = .ok (vB ω) ∧
          (MultiEstimator.mk .balancedDr .inf false).estimatePolicyValue args = .ok (vBD ω)) ∧
      ∫ ω, vN ω ∂P = V ∧ ∫ ω, vND ω ∂P = V ∧
      ∫ ω, vB ω ∂P = (∑ i, ∑ a, softProb (betas (strat i)) (q i) a / (∑ k, rhos k * softProb (betas k) (q i) a) *
        (w i a * q i a)) / n ∧
      ∫ ω, vBD ω ∂P = (∑ i, (expect1 (w i) (qhat i) +
        ∑ a, softProb (betas (strat i)) (q i) a / (∑ k, rhos k * softProb (betas k) (q i) a) *
          (w i a * (q i a - qhat i a)))) / n := by
  obtain ⟨strat, hc, h⟩ := multiLoggerFeedback_spec hA beta betas rhos hr s hs hs0 orders
  refine ⟨strat, hc, fun q U hU R hR w hw qhat => ?_⟩
  obtain ⟨hd, hav, h⟩ := h q
  have hsamp := fun ω => h (fun i => U i ω) fun i => hU.range i ω
  choose act hok hpos hprop using hsamp
  obtain ⟨vN, vND, hN, -, -, iN, iND⟩ := sampled_log_expect hn hU hR hd (act := act) hprop hw qhat
  obtain ⟨vB, vBD, hB, -, -, iB, iBD⟩ := logged_expect hn hU hR hd (act := act) hprop
    (ps := fun i a => ∑ k, rhos k * softProb (betas k) (q i) a) (fun ω i => hav i _) hw qhat
  have hpp : ∀ i a, 0 < softProb (betas (strat i)) (q i) a := fun i a =>
    div_pos (Real.exp_pos _) (Finset.sum_pos (fun b _ => Real.exp_pos _) ⟨a, Finset.mem_univ a⟩)
  have hz : ∀ i, (Finset.univ.filter fun a => softProb (betas (strat i)) (q i) a = 0) = ∅ := fun i => by
    ext a
    simp [(hpp i a).ne']
  refine ⟨_, vN, vND, vB, vBD, C84_policy_value hn one_pos q (fun i a _ => w i a) hw, fun ω => ⟨_, act ω, hok ω, rfl, rfl, ?_⟩,
    ?_, ?_, ?_, ?_⟩
  · rintro args rfl
    rw [naiveIpw_single, naiveDr_single, balancedIpw_single, balancedDr_single]
    exact ⟨(hN ω).1, (hN ω).2, (hB ω).1, (hB ω).2⟩
  · rw [iN]
    simp [hz]
  · rw [iND]
    simp [hz]
  · rw [iB]
    congr 1
    refine Finset.sum_congr rfl fun i _ => Finset.sum_congr rfl fun a _ => ?_
    ring
  · rw [iBD]
    congr 1
    refine Finset.sum_congr rfl fun i _ => ?_
    congr 1
    refine Finset.sum_congr rfl fun a _ => ?_
    ring

/-! ### contexts drawn from a distribution -/

section population
variable {X : Type} [MeasurableSpace X] {μ : Measure X} [IsProbabilityMeasure μ]

/-- The expectation over independent contexts of a sum of bounded functions of single contexts. -/
theorem integral_contexts {f : Fin n → X → ℝ} (hm : ∀ i, Measurable (f i)) {B : ℝ} (hb : ∀ i x, |f i x| ≤ B) :
    ∫ x, (∑ i, f i (x i)) / n ∂(Measure.pi fun _ : Fin n => μ) = (∑ i, ∫ x, f i x ∂μ) / n := by
  have hint : ∀ i, Integrable (fun x : Fin n → X => f i (x i)) (Measure.pi fun _ : Fin n => μ) := fun i =>
    Integrable.of_bound ((hm i).comp (measurable_pi_apply i)).aestronglyMeasurable B (ae_of_all _ fun x => by
      rw [Real.norm_eq_abs]; exact hb i _)
  rw [integral_div, integral_finsetSum _ fun i _ => hint i]
  congr 1
  refine Finset.sum_congr rfl fun i _ => ?_
  have hp := measurePreserving_eval (fun _ : Fin n => μ) i
  conv_rhs => rw [← hp.map_eq]
  rw [integral_map hp.measurable.aemeasurable (hm i).aestronglyMeasurable]

theorem softProb_measurable {q : X → Fin A → ℝ} (hq : ∀ a, Measurable fun x => q x a) (b : ℝ) (a : Fin A) :
    Measurable fun x => softProb b (q x) a := by
  unfold softProb
  exact (Real.measurable_exp.comp ((hq a).const_mul b)).div
    (Finset.measurable_sum _ fun c _ => Real.measurable_exp.comp ((hq c).const_mul b))

theorem softProb_pos (b : ℝ) (l : Fin A → ℝ) (a : Fin A) : 0 < softProb b l a :=
  div_pos (Real.exp_pos _) (Finset.sum_pos (fun _ _ => Real.exp_pos _) ⟨a, Finset.mem_univ a⟩)

/-- **C155, drawn contexts.** The contexts of the rounds are drawn independently from one distribution; expected rewards, evaluation
policy and reward model are functions of the context. If the strata have exactly the given proportions, the expectation over contexts,
actions and rewards of each of the four estimates is the value of the evaluation policy in the population. (For the naive estimators
the proportions need not be exact.) -/
theorem C155_population (hn : 0 < n) (hA : 0 < A) (beta : ℝ) (betas rhos : Fin (m + 1) → ℝ) (hr : IsDist rhos)
    (s : Fin (m + 1) → ℤ) (hs : strataSizes n (List.ofFn rhos) = .ok (List.ofFn s)) (hs0 : ∀ k, 0 ≤ s k)
    (orders : Fin n → List ℕ) (kind : MultiKind) (hkind : kind ≠ .weightedIpw ∧ kind ≠ .weightedDr)
    (hexact : kind = .balancedIpw ∨ kind = .balancedDr → ∀ k, (s k : ℝ) = n * rhos k)
    {q w qhat : X → Fin A → ℝ} (hq : ∀ a, Measurable fun x => q x a) (hwm : ∀ a, Measurable fun x => w x a)
    (hqh : ∀ a, Measurable fun x => qhat x a) {B : ℝ} (hqB : ∀ x a, |q x a| ≤ B) (hqhB : ∀ x a, |qhat x a| ≤ B)
    (hw : ∀ x, IsDist (w x)) {U : Fin n → Ω → ℝ} (hU : UniformDraws P U) {R : (Fin n → X) → Fin n → Fin A → Ω → ℝ}
    (hR : ∀ x, RewardDraws P U (fun i => q (x i)) (R x)) {v : (Fin n → X) → Ω → ℝ}
    (hv : ∀ x ω, ∃ (fb : MultiLoggerFeedback) (act : Fin n → Fin A),
      multiLoggerFeedback beta (List.ofFn betas) (List.ofFn rhos) 0 (List.ofFn fun i => List.ofFn (q (x i)))
        (List.ofFn orders) (List.ofFn fun i => U i ω) = .ok fb ∧ fb.action = List.ofFn (fun i => (act i : ℕ)) ∧
      (MultiEstimator.mk kind .inf false).estimatePolicyValue (multiOpeArgs fb (List.ofFn fun i => R x i (act i) ω)
        (fun i => w (x i)) (fun i => qhat (x i))) = .ok (v x ω)) :
    ∫ x, ∫ ω, v x ω ∂P ∂(Measure.pi fun _ : Fin n => μ) = ∫ x, expect1 (w x) (q x) ∂μ := by
  obtain ⟨strat, hc, h⟩ := C155_given_contexts (P := P) hn hA beta betas rhos hr s hs hs0 orders
  have hn' : (n : ℝ) ≠ 0 := by exact_mod_cast hn.ne'
  have hB : 0 ≤ B := by
    obtain ⟨x⟩ : Nonempty X := μ.nonempty_of_neZero
    exact (abs_nonneg _).trans (hqB x ⟨0, hA⟩)
  have hval : ∀ x, ∫ ω, v x ω ∂P =
      if kind = .naiveIpw ∨ kind = .naiveDr then (∑ i, expect1 (w (x i)) (q (x i))) / n
      else if kind = .balancedIpw then
        (∑ i, ∑ a, softProb (betas (strat i)) (q (x i)) a / (∑ k, rhos k * softProb (betas k) (q (x i)) a) *
          (w (x i) a * q (x i) a)) / n
      else (∑ i, (expect1 (w (x i)) (qhat (x i)) +
        ∑ a, softProb (betas (strat i)) (q (x i)) a / (∑ k, rhos k * softProb (betas k) (q (x i)) a) *
          (w (x i) a * (q (x i) a - qhat (x i) a)))) / n := by
    intro x
    obtain ⟨V, vN, vND, vB, vBD, hV, hω, iN, iND, iB, iBD⟩ := h (fun i => q (x i)) U hU (R x) (hR x) (fun i => w (x i))
      (fun i => hw (x i)) (fun i => qhat (x i))
    rw [C84_policy_value hn one_pos (fun i => q (x i)) (fun i a _ => w (x i) a) (fun i => hw (x i))] at hV
    have hV := Except.ok.inj hV
    have key : ∀ ω, v x ω = match kind with
        | .naiveIpw => vN ω | .naiveDr => vND ω | .balancedIpw => vB ω | .balancedDr => vBD ω | _ => 0 := by
      intro ω
      obtain ⟨fb, act, h1, h2, -, h3⟩ := hω ω
      obtain ⟨fb', act', h1', h2', h3'⟩ := hv x ω
      rw [h1] at h1'
      obtain rfl := Except.ok.inj h1'
      rw [h2] at h2'
      have hact : act = act' := by
        have := List.ofFn_injective h2'
        funext i
        exact Fin.ext (congrFun this i)
      subst hact
      obtain ⟨e1, e2, e3, e4⟩ := h3 _ rfl
      cases kind
      · rw [h3'] at e1; exact Except.ok.inj e1
      · rw [h3'] at e3; exact Except.ok.inj e3
      · exact absurd rfl hkind.1
      · rw [h3'] at e2; exact Except.ok.inj e2
      · rw [h3'] at e4; exact Except.ok.inj e4
      · exact absurd rfl hkind.2
    rw [integral_congr_ae (ae_of_all _ key)]
    cases kind
    · simp only [iN, ← hV, true_or, if_true]
    · simp [iB]
    · exact absurd rfl hkind.1
    · simp only [iND, ← hV, or_true, if_true]
    · simp [iBD]
    · exact absurd rfl hkind.2
  have hexp : ∀ (f : X → Fin A → ℝ), (∀ x a, |f x a| ≤ B) → ∀ x, |expect1 (w x) (f x)| ≤ B := fun f hf x => by
    unfold expect1
    refine (Finset.abs_sum_le_sum_abs _ _).trans ?_
    calc _ ≤ ∑ a, w x a * B := Finset.sum_le_sum fun a _ => by
            rw [abs_mul, abs_of_nonneg ((hw x).nonneg a)]
            exact mul_le_mul_of_nonneg_left (hf x a) ((hw x).nonneg a)
      _ = B := by rw [← Finset.sum_mul, (hw x).sum_one, one_mul]
  have hexpm : ∀ (f : X → Fin A → ℝ), (∀ a, Measurable fun x => f x a) → Measurable fun x => expect1 (w x) (f x) := fun f hf =>
    Finset.measurable_sum _ fun a _ => (hwm a).mul (hf a)
  by_cases hnaive : kind = .naiveIpw ∨ kind = .naiveDr
  · simp only [hval, if_pos hnaive]
    rw [integral_contexts (f := fun _ x => expect1 (w x) (q x)) (fun _ => hexpm q hq) (B := B) (fun _ => hexp q hqB)]
    simp only [Finset.sum_const, Finset.card_univ, Fintype.card_fin, nsmul_eq_mul]
    field_simp
  have hbal : kind = .balancedIpw ∨ kind = .balancedDr := by
    push Not at hnaive
    cases kind
    · exact absurd rfl hnaive.1
    · exact .inl rfl
    · exact absurd rfl hkind.1
    · exact absurd rfl hnaive.2
    · exact .inr rfl
    · exact absurd rfl hkind.2
  have hex : ∀ k, ((Finset.univ.filter fun i => strat i = k).card : ℝ) = n * rhos k := fun k => by
    rw [← hexact hbal k, ← hc k]
    simp
  have havg : ∀ x a, 0 < ∑ k, rhos k * softProb (betas k) (q x) a := fun x a => by
    obtain ⟨k, hk⟩ : ∃ k, 0 < rhos k := by
      by_contra h
      push Not at h
      have := hr.sum_one
      rw [Finset.sum_eq_zero fun k _ => le_antisymm (h k) (hr.nonneg k)] at this
      exact zero_ne_one this
    exact Finset.sum_pos' (fun j _ => mul_nonneg (hr.nonneg j) (softProb_pos _ _ _).le)
      ⟨k, Finset.mem_univ k, mul_pos hk (softProb_pos _ _ _)⟩
  have hratio : ∀ i x a, 0 ≤ softProb (betas (strat i)) (q x) a / (∑ k, rhos k * softProb (betas k) (q x) a) ∧
      softProb (betas (strat i)) (q x) a / (∑ k, rhos k * softProb (betas k) (q x) a) ≤ n := fun i x a => by
    refine ⟨div_nonneg (softProb_pos _ _ _).le (havg x a).le, ?_⟩
    rw [div_le_iff₀ (havg x a)]
    have h1 : (1 : ℝ) ≤ n * rhos (strat i) := by
      rw [← hex (strat i)]
      have : 0 < (Finset.univ.filter fun j => strat j = strat i).card := Finset.card_pos.2 ⟨i, by simp⟩
      exact_mod_cast this
    have h2 : rhos (strat i) * softProb (betas (strat i)) (q x) a ≤ ∑ k, rhos k * softProb (betas k) (q x) a :=
      Finset.single_le_sum (f := fun k => rhos k * softProb (betas k) (q x) a)
        (fun k _ => mul_nonneg (hr.nonneg k) (softProb_pos _ _ _).le) (Finset.mem_univ _)
    calc softProb (betas (strat i)) (q x) a ≤ n * rhos (strat i) * softProb (betas (strat i)) (q x) a :=
          le_mul_of_one_le_left (softProb_pos _ _ _).le h1
      _ = n * (rhos (strat i) * softProb (betas (strat i)) (q x) a) := by ring
      _ ≤ _ := mul_le_mul_of_nonneg_left h2 (Nat.cast_nonneg _)
  have hrm : ∀ i a, Measurable fun x => softProb (betas (strat i)) (q x) a / (∑ k, rhos k * softProb (betas k) (q x) a) :=
    fun i a => (softProb_measurable hq _ a).div (Finset.measurable_sum _ fun k _ => (softProb_measurable hq _ a).const_mul _)
  have hGm : ∀ (f : X → Fin A → ℝ), (∀ a, Measurable fun x => f x a) → ∀ i, Measurable fun x =>
      ∑ a, softProb (betas (strat i)) (q x) a / (∑ k, rhos k * softProb (betas k) (q x) a) * (w x a * f x a) := fun f hf i =>
    Finset.measurable_sum _ fun a _ => (hrm i a).mul ((hwm a).mul (hf a))
  have hGb : ∀ (f : X → Fin A → ℝ) (C : ℝ), (∀ x a, |f x a| ≤ C) → ∀ i x,
      |∑ a, softProb (betas (strat i)) (q x) a / (∑ k, rhos k * softProb (betas k) (q x) a) * (w x a * f x a)| ≤ n * C := by
    intro f C hf i x
    refine (Finset.abs_sum_le_sum_abs _ _).trans ?_
    calc _ ≤ ∑ a, n * (w x a * C) := Finset.sum_le_sum fun a _ => by
            rw [abs_mul, abs_of_nonneg (hratio i x a).1, abs_mul, abs_of_nonneg ((hw x).nonneg a)]
            exact mul_le_mul (hratio i x a).2 (mul_le_mul_of_nonneg_left (hf x a) ((hw x).nonneg a))
              (mul_nonneg ((hw x).nonneg a) (abs_nonneg _)) (Nat.cast_nonneg _)
      _ = n * C := by rw [← Finset.mul_sum, ← Finset.sum_mul, (hw x).sum_one, one_mul]
  have hGi : ∀ (f : X → Fin A → ℝ) (C : ℝ), (∀ a, Measurable fun x => f x a) → (∀ x a, |f x a| ≤ C) → ∀ i, Integrable (fun x =>
      ∑ a, softProb (betas (strat i)) (q x) a / (∑ k, rhos k * softProb (betas k) (q x) a) * (w x a * f x a)) μ :=
    fun f C hf hC i => Integrable.of_bound (hGm f hf i).aestronglyMeasurable (n * C) (ae_of_all _ fun x => by
      rw [Real.norm_eq_abs]; exact hGb f C hC i x)
  have hsum : ∀ (f : X → Fin A → ℝ) x, (∑ i, ∑ a, softProb (betas (strat i)) (q x) a /
      (∑ k, rhos k * softProb (betas k) (q x) a) * (w x a * f x a)) = n * expect1 (w x) (f x) := fun f x => by
    rw [Finset.sum_comm]
    unfold expect1
    rw [Finset.mul_sum]
    refine Finset.sum_congr rfl fun a _ => ?_
    have := C105_average_over_rounds_partial hn betas rhos strat hex (q x) a
    change (∑ i, softProb (betas (strat i)) (q x) a) / n = ∑ k, rhos k * softProb (betas k) (q x) a at this
    rw [← Finset.sum_mul, ← Finset.sum_div, ← this]
    have hS : (∑ i, softProb (betas (strat i)) (q x) a) ≠ 0 := by
      intro h0
      rw [h0, zero_div] at this
      exact (havg x a).ne this
    field_simp
  rcases hbal with rfl | rfl
  · simp only [hval, if_neg hnaive, if_true]
    rw [integral_contexts (hGm q hq) (hGb q B hqB), ← integral_finsetSum _ fun i _ => hGi q B hq hqB i]
    simp only [hsum]
    rw [integral_const_mul]
    field_simp
  · have hd : ∀ a, Measurable fun x => q x a - qhat x a := fun a => (hq a).sub (hqh a)
    have hdB : ∀ x a, |q x a - qhat x a| ≤ B + B := fun x a => (abs_sub _ _).trans (add_le_add (hqB x a) (hqhB x a))
    have hI : ∀ i, Integrable (fun x => expect1 (w x) (qhat x) + ∑ a, softProb (betas (strat i)) (q x) a /
        (∑ k, rhos k * softProb (betas k) (q x) a) * (w x a * (q x a - qhat x a))) μ := fun i =>
      (Integrable.of_bound (hexpm qhat hqh).aestronglyMeasurable B (ae_of_all _ fun x => by
        rw [Real.norm_eq_abs]; exact hexp qhat hqhB x)).add (hGi (fun x a => q x a - qhat x a) (B + B) hd hdB i)
    simp only [hval, if_neg hnaive, if_neg (show MultiKind.balancedDr ≠ .balancedIpw by decide)]
    rw [integral_contexts (f := fun i x => expect1 (w x) (qhat x) + ∑ a, softProb (betas (strat i)) (q x) a /
        (∑ k, rhos k * softProb (betas k) (q x) a) * (w x a * (q x a - qhat x a)))
      (fun i => (hexpm qhat hqh).add (hGm (fun x a => q x a - qhat x a) hd i)) (B := B + n * (B + B))
      (fun i x => (abs_add_le _ _).trans (add_le_add (hexp qhat hqhB x) (hGb (fun x a => q x a - qhat x a) (B + B) hdB i x))),
      ← integral_finsetSum _ fun i _ => hI i]
    have : ∀ x, (∑ i, (expect1 (w x) (qhat x) + ∑ a, softProb (betas (strat i)) (q x) a /
        (∑ k, rhos k * softProb (betas k) (q x) a) * (w x a * (q x a - qhat x a)))) = n * expect1 (w x) (q x) := fun x => by
      rw [Finset.sum_add_distrib, hsum (fun x a => q x a - qhat x a) x]
      unfold expect1
      simp only [Finset.sum_const, Finset.card_univ, Fintype.card_fin, nsmul_eq_mul, mul_sub, Finset.sum_sub_distrib]
      ring
    simp only [this]
    rw [integral_const_mul]
    field_simp

/-- The estimates that the theorem is about exist for all contexts and draws. -/
theorem C155_estimates_exist (hn : 0 < n) (hA : 0 < A) (beta : ℝ) (betas rhos : Fin (m + 1) → ℝ) (hr : IsDist rhos)
    (s : Fin (m + 1) → ℤ) (hs : strataSizes n (List.ofFn rhos) = .ok (List.ofFn s)) (hs0 : ∀ k, 0 ≤ s k)
    (orders : Fin n → List ℕ) (kind : MultiKind) (hkind : kind ≠ .weightedIpw ∧ kind ≠ .weightedDr)
    {q w qhat : X → Fin A → ℝ} (hw : ∀ x, IsDist (w x)) {U : Fin n → Ω → ℝ} (hU : UniformDraws P U)
    {R : (Fin n → X) → Fin n → Fin A → Ω → ℝ} (hR : ∀ x, RewardDraws P U (fun i => q (x i)) (R x)) :
    ∃ v : (Fin n → X) → Ω → ℝ, ∀ x ω, ∃ (fb : MultiLoggerFeedback) (act : Fin n → Fin A),
      multiLoggerFeedback beta (List.ofFn betas) (List.ofFn rhos) 0 (List.ofFn fun i => List.ofFn (q (x i)))
        (List.ofFn orders) (List.ofFn fun i => U i ω) = .ok fb ∧ fb.action = List.ofFn (fun i => (act i : ℕ)) ∧
      (MultiEstimator.mk kind .inf false).estimatePolicyValue (multiOpeArgs fb (List.ofFn fun i => R x i (act i) ω)
        (fun i => w (x i)) (fun i => qhat (x i))) = .ok (v x ω) := by
  obtain ⟨strat, hc, h⟩ := C155_given_contexts (P := P) hn hA beta betas rhos hr s hs hs0 orders
  have := fun x => h (fun i => q (x i)) U hU (R x) (hR x) (fun i => w (x i)) (fun i => hw (x i)) (fun i => qhat (x i))
  choose V vN vND vB vBD hV hω _ _ _ _ using this
  refine ⟨fun x ω => match kind with
    | .naiveIpw => vN x ω | .naiveDr => vND x ω | .balancedIpw => vB x ω | .balancedDr => vBD x ω | _ => 0, fun x ω => ?_⟩
  obtain ⟨fb, act, h1, h2, -, h3⟩ := hω x ω
  obtain ⟨e1, e2, e3, e4⟩ := h3 _ rfl
  refine ⟨fb, act, h1, h2, ?_⟩
  cases kind
  · exact e1
  · exact e3
  · exact absurd rfl hkind.1
  · exact e2
  · exact e4
  · exact absurd rfl hkind.2

/-- Two loggers with different temperatures, half of the two rounds each, two equally likely contexts, binary rewards: the balanced
estimate has an expectation equal to the population value. -/
example : ∃ v : (Fin 2 → Bool) → ℝ × ℝ → ℝ,
    ∫ x, ∫ ω, v x ω ∂exDraws ∂(Measure.pi fun _ : Fin 2 => (PMF.uniformOfFintype Bool).toMeasure) =
      ∫ x, expect1 (fun _ : Fin 3 => 1 / 3) (fun _ => if x then 1 / 4 else 3 / 4) ∂(PMF.uniformOfFintype Bool).toMeasure := by
  have hr : IsDist (fun _ : Fin (1 + 1) => (1 / 2 : ℝ)) := ⟨fun _ => by norm_num, by norm_num⟩
  have hw : IsDist (fun _ : Fin 3 => (1 / 3 : ℝ)) := ⟨fun _ => by norm_num, by norm_num [Fin.sum_univ_three]⟩
  have hs := C83_exact_sizes_partial 2 (fun _ : Fin (1 + 1) => (1 / 2 : ℝ)) hr.sum_one (fun _ => 1) (fun _ => by norm_num)
  have hR : ∀ x : Fin 2 → Bool, RewardDraws exDraws (fun (_ : Fin 2) ω => Int.fract ω.1)
      (fun i (_ : Fin 3) => if x i then (1 / 4 : ℝ) else 3 / 4) (fun i _ ω => if Int.fract ω.2 < (if x i then (1 / 4 : ℝ) else 3 / 4) then 1 else 0) :=
    fun x => exDraws_reward _ fun i a => by split_ifs <;> norm_num
  obtain ⟨v, hv⟩ := C155_estimates_exist (P := exDraws) (X := Bool) (qhat := fun _ _ => 0) (w := fun _ (_ : Fin 3) => (1 / 3 : ℝ))
    (q := fun x _ => if x then (1 / 4 : ℝ) else 3 / 4) two_pos three_pos 0 ![3, -1] _ hr _ hs (fun _ => by norm_num)
    (fun _ => []) .balancedIpw ⟨by decide, by decide⟩ (fun _ => hw) exDraws_uniform hR
  refine ⟨v, C155_population (P := exDraws) (X := Bool) (qhat := fun _ _ => 0) (w := fun _ (_ : Fin 3) => (1 / 3 : ℝ))
    (q := fun x _ => if x then (1 / 4 : ℝ) else 3 / 4) (v := v)
    (R := fun x i _ ω => if Int.fract ω.2 < (if x i then (1 / 4 : ℝ) else 3 / 4) then 1 else 0) (B := 1) two_pos three_pos 0 ![3, -1] _ hr _ hs (fun _ => by norm_num)
    (fun _ => []) .balancedIpw ⟨by decide, by decide⟩ (fun _ _ => by norm_num) (fun _ => measurable_of_finite _)
    (fun _ => measurable_of_finite _) (fun _ => measurable_of_finite _) (fun x a => ?_) (fun x a => by norm_num) (fun _ => hw) exDraws_uniform hR hv⟩
  split_ifs <;> norm_num [abs_of_pos]

end population

end Obp
