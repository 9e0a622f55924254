import Verif.Lemmas.LinExplore
import Mathlib.Analysis.Convex.Integral
import Mathlib.Analysis.Convex.SpecificFunctions.Pow

set_option linter.unusedSectionVars false

/-! # The regret of the exploiting rounds of `LinEpsilonGreedy` -/

namespace Obp
open Matrix MeasureTheory ProbabilityTheory
open scoped ENNReal NNReal

variable {n d : ℕ}

theorem dot_le_sqrt (x y : Fin d → ℝ) : |x ⬝ᵥ y| ≤ √(x ⬝ᵥ x) * √(y ⬝ᵥ y) := by
  have h := quad_cauchy ([] : List ((Fin d → ℝ) × ℝ)) x y
  simpa [quad, gram] using h

/-- The mean of a square root. -/
theorem integral_sqrt_le {Ω : Type} [MeasurableSpace Ω] {P : Measure Ω} [IsProbabilityMeasure P] {f : Ω → ℝ} (h0 : ∀ ω, 0 ≤ f ω)
    (hf : Integrable f P) (hs : Integrable (fun ω => √(f ω)) P) : ∫ ω, √(f ω) ∂P ≤ √(∫ ω, f ω ∂P) :=
  Real.strictConcaveOn_sqrt.concaveOn.le_map_integral Real.continuous_sqrt.continuousOn isClosed_Ici
    (Filter.Eventually.of_forall h0) hf hs

/-- Predictions within their bounds: the action with the largest prediction is not much worse than another one. -/
theorem greedy_gap (hn : 0 < n) {argsort : List ℝ → List ℕ} (ha : IsArgsort argsort) {L : ℕ} (hL0 : 0 < L) (hL : L ≤ n)
    (h : List (ℤ × (Fin d → ℝ) × ℝ)) (x : Fin d → ℝ) (θ : Fin n → Fin d → ℝ) {β : ℝ} (hβ : 0 ≤ β)
    (hconf : ∀ a, √(quad (dataOf h a) (noiseOf (dataOf h a) (θ a))) + √(θ a ⬝ᵥ θ a) ≤ β) (best : Fin n) :
    x ⬝ᵥ θ best - x ⬝ᵥ θ (greedyPick hn argsort L h x) ≤ β * √(2 * ∑ a : Fin n, quad (dataOf h a) x) := by
  set g := greedyPick hn argsort L h x with hg
  have hq : ∀ a : Fin n, 0 ≤ quad (dataOf h a) x := fun a => quad_nonneg _ _
  have hS : 0 ≤ ∑ a : Fin n, quad (dataOf h a) x := Finset.sum_nonneg fun a _ => hq a
  by_cases he : best = g
  · rw [he, sub_self]
    positivity
  have herr : ∀ a, |linScore (dataOf h a) x - x ⬝ᵥ θ a| ≤ √(quad (dataOf h a) x) * β := fun a =>
    (predict_error (dataOf h a) (θ a) x).trans (mul_le_mul_of_nonneg_left (hconf a) (Real.sqrt_nonneg _))
  have hbest := greedyPick_best hn ha hL0 hL h x best
  have e1 := abs_le.1 (herr best)
  have e2 := abs_le.1 (herr g)
  rw [← hg] at hbest
  have h1 : x ⬝ᵥ θ best - x ⬝ᵥ θ g ≤ β * (√(quad (dataOf h best) x) + √(quad (dataOf h g) x)) := by
    nlinarith [e1.1, e2.2]
  refine h1.trans (mul_le_mul_of_nonneg_left ?_ hβ)
  refine Real.le_sqrt_of_sq_le ?_
  have h2 : quad (dataOf h best) x + quad (dataOf h g) x ≤ ∑ a : Fin n, quad (dataOf h a) x := by
    rw [← Finset.sum_pair he (f := fun a : Fin n => quad (dataOf h a) x)]
    exact Finset.sum_le_univ_sum_of_nonneg hq
  have s1 := Real.sq_sqrt (hq best)
  have s2 := Real.sq_sqrt (hq g)
  nlinarith [sq_nonneg (√(quad (dataOf h best) x) - √(quad (dataOf h g) x))]

namespace ExploreWorld

variable {Ω : Type} [mΩ : MeasurableSpace Ω] {P : Measure Ω} [IsProbabilityMeasure P] {L : ℕ} (W : ExploreWorld P n L)
  (hn : 0 < n) {argsort : List ℝ → List ℕ} (hm : ∀ l, MeasurableSet {x : Fin n → ℝ | argsort (List.ofFn x) = l})
  (b : ℕ) {ε : ℝ} (h0 : 0 < ε) (h1 : ε ≤ 1) (x : ℕ → Fin d → ℝ)

theorem bonus_nonneg (a : Fin n) (t : ℕ) (ω : Ω) : 0 ≤ W.bonus hn argsort b ε x a t ω := ctxQuad_nonneg _ _ _ _ _ _

include hm in
theorem integrable_bonus (a : Fin n) (t : ℕ) : Integrable (W.bonus hn argsort b ε x a t) P := by
  refine Integrable.of_bound (C := x t ⬝ᵥ x t)
    ((W.measurable_bonus hn b ε x hm a t).mono (W.info_le _) le_rfl).aestronglyMeasurable (Filter.Eventually.of_forall fun ω => ?_)
  rw [Real.norm_eq_abs, abs_of_nonneg (W.bonus_nonneg hn b x a t ω)]
  exact ctxQuad_le _ _ _ _ _ _

theorem before_disjoint (t : ℕ) : Disjoint (before t) {Draw.rand t, Draw.choice t} := by
  rw [Set.disjoint_right]
  rintro d (rfl | rfl) <;> simp [before]

include hm h0 h1 in
/-- Exploring turns the bonuses of all actions into bonuses of actions played. -/
theorem sum_bonus_le (t : ℕ) :
    ∑ a, ∫ ω, W.bonus hn argsort b ε x a t ω ∂P ≤
      n / ε * ∫ ω, W.bonus hn argsort b ε x (W.act hn argsort b ε x t ω) t ω ∂P := by
  classical
  have hn' : (0 : ℝ) < n := by exact_mod_cast hn
  have hset : ∀ a, MeasurableSet {ω | W.Explores ε t a ω} := fun a => W.info_le _ _ (W.measurable_explores ε t a)
  have hone : ∀ a, ∫ ω, W.bonus hn argsort b ε x a t ω * (if W.Explores ε t a ω then (1 : ℝ) else 0) ∂P =
      (∫ ω, W.bonus hn argsort b ε x a t ω ∂P) * (ε / n) := by
    intro a
    rw [W.integral_mul_of_disjoint (before_disjoint t) (W.measurable_bonus hn b ε x hm a t)
      (g := fun ω => if W.Explores ε t a ω then (1 : ℝ) else 0)
      (Measurable.ite (W.measurable_explores ε t a) measurable_const measurable_const), integral_ite _ (hset a),
      W.prob_explores h0.le h1]
  have hint : ∀ a, Integrable (fun ω => W.bonus hn argsort b ε x a t ω * (if W.Explores ε t a ω then (1 : ℝ) else 0)) P := by
    intro a
    refine (W.integrable_bonus hn hm b x a t).mul_bdd (c := 1)
      ((Measurable.ite (hset a) measurable_const measurable_const).aestronglyMeasurable) (Filter.Eventually.of_forall fun ω => ?_)
    split <;> simp
  have hactm : Measurable (W.act hn argsort b ε x t) := (W.measurable_act hn b ε x hm t).mono (W.info_le _) le_rfl
  have hsplit : ∀ ω, W.bonus hn argsort b ε x (W.act hn argsort b ε x t ω) t ω =
      ∑ a, W.bonus hn argsort b ε x a t ω * if W.act hn argsort b ε x t ω = a then 1 else 0 := by
    intro ω
    rw [Finset.sum_eq_single (W.act hn argsort b ε x t ω)]
    · rw [if_pos rfl, mul_one]
    · intro a _ hne
      rw [if_neg hne.symm, mul_zero]
    · simp
  have hint' : ∀ a, Integrable (fun ω => W.bonus hn argsort b ε x a t ω * if W.act hn argsort b ε x t ω = a then (1 : ℝ) else 0) P := by
    intro a
    refine (W.integrable_bonus hn hm b x a t).mul_bdd (c := 1)
      ((Measurable.ite (hactm (measurableSet_singleton a)) measurable_const measurable_const).aestronglyMeasurable)
      (Filter.Eventually.of_forall fun ω => ?_)
    split <;> simp
  have hle : (∑ a, ∫ ω, W.bonus hn argsort b ε x a t ω ∂P) * (ε / n) ≤
      ∫ ω, W.bonus hn argsort b ε x (W.act hn argsort b ε x t ω) t ω ∂P := by
    rw [Finset.sum_mul]
    simp only [hsplit]
    rw [integral_finsetSum _ fun a _ => hint' a]
    refine Finset.sum_le_sum fun a _ => ?_
    rw [← hone a]
    refine integral_mono (hint a) (hint' a) fun ω => ?_
    refine mul_le_mul_of_nonneg_left ?_ (W.bonus_nonneg hn b x a t ω)
    by_cases h : W.Explores ε t a ω
    · rw [if_pos h, if_pos (W.act_explore hn argsort b ε x h)]
    · rw [if_neg h]
      split <;> norm_num
  have hd : 0 < ε / n := div_pos h0 hn'
  rw [← le_div_iff₀ hd] at hle
  refine hle.trans (le_of_eq ?_)
  field_simp

/-- the sum of the squared bonuses of round `t` -/
noncomputable def allBonus (argsort : List ℝ → List ℕ) (ε : ℝ) (t : ℕ) (ω : Ω) : ℝ := ∑ a, W.bonus hn argsort b ε x a t ω

include hm h0 h1 in
theorem sum_allBonus_le (hb : 0 < b) {X : ℝ} (hX0 : 0 ≤ X) (hX : ∀ t, x t ⬝ᵥ x t ≤ X) (T : ℕ) :
    ∑ t ∈ Finset.range T, ∫ ω, W.allBonus hn b x argsort ε t ω ∂P ≤
      n / ε * ((1 + (b - 1) * X) * ((1 + X) * (n * (d * Real.log (1 + T * X / d))))) := by
  have hn' : (0 : ℝ) < n := by exact_mod_cast hn
  have hactm : ∀ t, Measurable (W.act hn argsort b ε x t) := fun t => (W.measurable_act hn b ε x hm t).mono (W.info_le _) le_rfl
  have hbm : ∀ a t, Measurable (W.bonus hn argsort b ε x a t) := fun a t =>
    (W.measurable_bonus hn b ε x hm a t).mono (W.info_le _) le_rfl
  have hint : ∀ t, Integrable (fun ω => W.bonus hn argsort b ε x (W.act hn argsort b ε x t ω) t ω) P := by
    intro t
    refine Integrable.of_bound (C := x t ⬝ᵥ x t) (Measurable.aestronglyMeasurable ?_) (Filter.Eventually.of_forall fun ω => ?_)
    · have : Measurable fun ω => (fun a => W.bonus hn argsort b ε x a t ω) := measurable_pi_lambda _ fun a => hbm a t
      exact (measurable_from_prod_countable_left (f := fun p : (Fin n → ℝ) × Fin n => p.1 p.2)
        fun a => measurable_pi_apply a).comp (this.prodMk (hactm t))
    · rw [Real.norm_eq_abs, abs_of_nonneg (W.bonus_nonneg hn b x _ t ω)]
      exact ctxQuad_le _ _ _ _ _ _
  calc ∑ t ∈ Finset.range T, ∫ ω, W.allBonus hn b x argsort ε t ω ∂P
      = ∑ t ∈ Finset.range T, ∑ a, ∫ ω, W.bonus hn argsort b ε x a t ω ∂P := by
        refine Finset.sum_congr rfl fun t _ => ?_
        exact integral_finsetSum _ fun a _ => W.integrable_bonus hn hm b x a t
    _ ≤ ∑ t ∈ Finset.range T, n / ε * ∫ ω, W.bonus hn argsort b ε x (W.act hn argsort b ε x t ω) t ω ∂P :=
        Finset.sum_le_sum fun t _ => W.sum_bonus_le hn hm b h0 h1 x t
    _ = n / ε * ∫ ω, ∑ t ∈ Finset.range T, W.bonus hn argsort b ε x (W.act hn argsort b ε x t ω) t ω ∂P := by
        rw [← Finset.mul_sum, integral_finsetSum _ fun t _ => hint t]
    _ ≤ _ := by
        refine mul_le_mul_of_nonneg_left ?_ (by positivity)
        have := integral_mono (integrable_finsetSum (Finset.range T) fun t _ => hint t) (integrable_const (μ := P)
          ((1 + (b - 1) * X) * ((1 + X) * (n * (d * Real.log (1 + T * X / d)))))) fun ω =>
          sum_ctxQuad_le (W.pick hn argsort ε x ω) b x (fun s => W.r s ω) hb hX0 hX T
        simpa using this

include hm h0 h1 in
/-- The expected shortfall of the greedy actions. -/
theorem greedy_regret (ha : IsArgsort argsort) (hL0 : 0 < L) (hL : L ≤ n) (hb : 0 < b) {σ : ℝ≥0} (hσ : 0 < σ) {X S δ : ℝ}
    (hX0 : 0 ≤ X) (hX : ∀ t, x t ⬝ᵥ x t ≤ X) (hδ : 0 < δ) (θ : Fin n → Fin d → ℝ) (hθ : ∀ a, √(θ a ⬝ᵥ θ a) ≤ S)
    (hsub : ∀ t a, HasSubgaussianMGF (fun ω => W.r t ω a - x t ⬝ᵥ θ a) (σ ^ 2) P) (best : ℕ → Fin n) (T : ℕ) :
    ∑ t ∈ Finset.range T, ∫ ω, (x t ⬝ᵥ θ (best t) - x t ⬝ᵥ θ (W.greedy hn argsort b ε x t ω)) ∂P ≤
      (S + σ * √(d * Real.log (1 + T * X / d) + 2 * Real.log (n / δ))) *
        √(2 * T * (n / ε * ((1 + (b - 1) * X) * ((1 + X) * (n * (d * Real.log (1 + T * X / d))))))) +
      δ * (2 * S * √X * T) := by
  have hS : 0 ≤ S := (Real.sqrt_nonneg _).trans (hθ ⟨0, hn⟩)
  set c := σ * √(d * Real.log (1 + T * X / d) + 2 * Real.log (n / δ)) with hc
  set β := S + c with hβ
  have hβ0 : 0 ≤ β := by positivity
  set C := (1 + (b - 1) * X) * ((1 + X) * (n * (d * Real.log (1 + T * X / d)))) with hC
  have hgap : ∀ t a g, x t ⬝ᵥ θ a - x t ⬝ᵥ θ g ≤ 2 * S * √X := by
    intro t a g
    have hone : ∀ a, |x t ⬝ᵥ θ a| ≤ √X * S := fun a =>
      (dot_le_sqrt _ _).trans (mul_le_mul (Real.sqrt_le_sqrt (hX t)) (hθ a) (Real.sqrt_nonneg _) (Real.sqrt_nonneg _))
    have e1 := abs_le.1 (hone a)
    have e2 := abs_le.1 (hone g)
    linarith [e1.2, e2.1]
  have hgm : ∀ t, Measurable (W.greedy hn argsort b ε x t) := fun t =>
    (W.measurable_greedy hn b ε x hm t).mono (W.info_le _) le_rfl
  have hbm : ∀ t, Measurable (W.allBonus hn b x argsort ε t) := fun t =>
    Finset.measurable_fun_sum _ fun a _ => (W.measurable_bonus hn b ε x hm a t).mono (W.info_le _) le_rfl
  have hb0 : ∀ t ω, 0 ≤ W.allBonus hn b x argsort ε t ω := fun t ω =>
    Finset.sum_nonneg fun a _ => W.bonus_nonneg hn b x a t ω
  have hbi : ∀ t, Integrable (W.allBonus hn b x argsort ε t) P := fun t =>
    integrable_finsetSum _ fun a _ => W.integrable_bonus hn hm b x a t
  have hgi : ∀ t, Integrable (fun ω => x t ⬝ᵥ θ (best t) - x t ⬝ᵥ θ (W.greedy hn argsort b ε x t ω)) P := by
    intro t
    refine Integrable.of_bound (C := 2 * S * √X) (Measurable.aestronglyMeasurable ?_) (Filter.Eventually.of_forall fun ω => ?_)
    · exact measurable_const.sub ((measurable_of_countable (fun a => x t ⬝ᵥ θ a)).comp (hgm t))
    · rw [Real.norm_eq_abs, abs_le]
      constructor
      · linarith [hgap t (W.greedy hn argsort b ε x t ω) (best t)]
      · exact hgap t _ _
  -- all bounds hold with high probability
  set bad : Set Ω := {ω | ¬ ∀ t ≤ T, ∀ a,
        √(quad (pickData x (fun s => W.act hn argsort b ε x s ω = a) (fun s => W.r s ω a) t)
          (noiseOf (pickData x (fun s => W.act hn argsort b ε x s ω = a) (fun s => W.r s ω a) t) (θ a))) ≤ c} with hbad
  have hPbad : P bad ≤ ENNReal.ofReal δ :=
    pick_confidence hn x (W.act hn argsort b ε x) W.r hσ hX0 hX θ (W.measurable_act hn b ε x hm)
      (fun a => W.adaptive x a fun t => hsub t a) hδ T
  set bad' := toMeasurable P bad with hbad'
  have hms : MeasurableSet bad' := measurableSet_toMeasurable P bad
  have hPbad' : P.real bad' ≤ δ := by
    refine ENNReal.toReal_le_of_le_ofReal hδ.le ?_
    rw [hbad', measure_toMeasurable]
    exact hPbad
  set Y : Ω → ℝ := fun ω => ∑ t ∈ Finset.range T, W.allBonus hn b x argsort ε t ω with hY
  have hY0 : ∀ ω, 0 ≤ Y ω := fun ω => Finset.sum_nonneg fun t _ => hb0 t ω
  have hYi : Integrable Y P := integrable_finsetSum _ fun t _ => hbi t
  have hYm : Measurable Y := Finset.measurable_fun_sum _ fun t _ => hbm t
  have hpoint : ∀ ω, ∑ t ∈ Finset.range T, (x t ⬝ᵥ θ (best t) - x t ⬝ᵥ θ (W.greedy hn argsort b ε x t ω)) ≤
      β * √(2 * T * Y ω) + bad'.indicator (fun _ => 2 * S * √X * T) ω := by
    intro ω
    by_cases hω : ω ∈ bad'
    · rw [Set.indicator_of_mem hω]
      have : ∑ t ∈ Finset.range T, (x t ⬝ᵥ θ (best t) - x t ⬝ᵥ θ (W.greedy hn argsort b ε x t ω)) ≤ 2 * S * √X * T := by
        refine (Finset.sum_le_card_nsmul _ _ (2 * S * √X) fun t _ => hgap t _ _).trans (le_of_eq ?_)
        rw [Finset.card_range, nsmul_eq_mul, mul_comm]
      have : 0 ≤ β * √(2 * T * Y ω) := by positivity
      linarith
    · rw [Set.indicator_of_notMem hω, add_zero]
      have hgood : ω ∉ bad := fun h => hω (subset_toMeasurable P bad h)
      have hgood := not_not.1 hgood
      have hstep : ∀ t ∈ Finset.range T, x t ⬝ᵥ θ (best t) - x t ⬝ᵥ θ (W.greedy hn argsort b ε x t ω) ≤
          β * √(2 * W.allBonus hn b x argsort ε t ω) := by
        intro t ht
        refine greedy_gap hn ha hL0 hL _ (x t) θ hβ0 (fun a => ?_) (best t)
        rw [completed_ctxHist, dataOf_act]
        have := hgood (b * (t / b)) ((Nat.mul_div_le t b).trans (Finset.mem_range.1 ht).le) a
        linarith [hθ a]
      refine (Finset.sum_le_sum hstep).trans ?_
      rw [← Finset.mul_sum]
      refine mul_le_mul_of_nonneg_left (Real.le_sqrt_of_sq_le ?_) hβ0
      have hcs := sq_sum_le_card_mul_sum_sq (s := Finset.range T) (f := fun t => √(2 * W.allBonus hn b x argsort ε t ω))
      simp only [Finset.card_range, Real.sq_sqrt (mul_nonneg zero_le_two (hb0 _ ω)), ← Finset.mul_sum] at hcs
      refine hcs.trans (le_of_eq ?_)
      simp only [hY]
      ring
  have hsq : Integrable (fun ω => √(2 * T * Y ω)) P := by
    refine Integrable.mono' ((hYi.const_mul (2 * (T : ℝ))).add (integrable_const 1))
      ((hYm.const_mul (2 * (T : ℝ))).sqrt.aestronglyMeasurable) (Filter.Eventually.of_forall fun ω => ?_)
    rw [Real.norm_eq_abs, abs_of_nonneg (Real.sqrt_nonneg _)]
    have h2 : 0 ≤ 2 * T * Y ω := by have := hY0 ω; positivity
    show √(2 * T * Y ω) ≤ 2 * T * Y ω + 1
    rw [Real.sqrt_le_left (by linarith)]
    nlinarith
  rw [← integral_finsetSum _ fun t _ => hgi t]
  have hI := integral_mono (integrable_finsetSum (Finset.range T) fun t _ => hgi t)
    ((hsq.const_mul β).add ((integrable_const (2 * S * √X * T)).indicator hms)) hpoint
  refine hI.trans ?_
  have eI : ∫ ω, ((fun ω => β * √(2 * T * Y ω)) + bad'.indicator fun _ => 2 * S * √X * T) ω ∂P =
      β * ∫ ω, √(2 * T * Y ω) ∂P + P.real bad' * (2 * S * √X * T) := by
    simp only [Pi.add_apply]
    rw [integral_add (hsq.const_mul β) ((integrable_const (2 * S * √X * (T : ℝ))).indicator hms), integral_const_mul,
      integral_indicator_const _ hms]
    simp
  refine (le_of_eq eI).trans (add_le_add (mul_le_mul_of_nonneg_left ?_ hβ0) (mul_le_mul_of_nonneg_right hPbad' (by positivity)))
  refine (integral_sqrt_le (fun ω => by have := hY0 ω; positivity) (hYi.const_mul (2 * (T : ℝ))) hsq).trans ?_
  refine Real.sqrt_le_sqrt ?_
  rw [integral_const_mul]
  refine mul_le_mul_of_nonneg_left ?_ (by positivity)
  rw [hY, integral_finsetSum _ fun t _ => hbi t]
  exact W.sum_allBonus_le hn hm b h0 h1 x hb hX0 hX T

include hm h0 h1 in
/-- The expected reward of a round. -/
theorem integral_round (hL0 : 0 < L) (θ : Fin n → Fin d → ℝ) (t : ℕ) (hri : ∀ a, Integrable (fun ω => W.r t ω a) P)
    (hmean : ∀ a, ∫ ω, W.r t ω a ∂P = x t ⬝ᵥ θ a) :
    Integrable (fun ω => W.r t ω (W.act hn argsort b ε x t ω)) P ∧
    ∫ ω, W.r t ω (W.act hn argsort b ε x t ω) ∂P =
      (1 - ε) * ∫ ω, x t ⬝ᵥ θ (W.greedy hn argsort b ε x t ω) ∂P + ε / n * ∑ a, x t ⬝ᵥ θ a := by
  classical
  have hactF := W.measurable_act hn b ε x hm t
  have hactm : Measurable (W.act hn argsort b ε x t) := hactF.mono (W.info_le _) le_rfl
  have hgm : Measurable (W.greedy hn argsort b ε x t) := (W.measurable_greedy hn b ε x hm t).mono (W.info_le _) le_rfl
  have hite : ∀ a ω, ‖if W.act hn argsort b ε x t ω = a then (1 : ℝ) else 0‖ ≤ 1 := by
    intro a ω
    split <;> simp
  have hi1 : ∀ a, Integrable (fun ω => (if W.act hn argsort b ε x t ω = a then (1 : ℝ) else 0) * W.r t ω a) P := fun a =>
    (hri a).bdd_mul ((Measurable.ite (hactm (measurableSet_singleton a)) measurable_const measurable_const).aestronglyMeasurable)
      (c := 1) (Filter.Eventually.of_forall (hite a))
  have hsplit : ∀ (f : Fin n → ℝ) (k : Fin n), f k = ∑ a, (if k = a then (1 : ℝ) else 0) * f a := by
    intro f k
    simp
  have eR : (fun ω => W.r t ω (W.act hn argsort b ε x t ω)) = fun ω =>
      ∑ a, (if W.act hn argsort b ε x t ω = a then (1 : ℝ) else 0) * W.r t ω a :=
    funext fun ω => hsplit (W.r t ω) _
  refine ⟨by rw [eR]; exact integrable_finsetSum _ fun a _ => hi1 a, ?_⟩
  have hd : Disjoint (played t) {Draw.rewards t} := by
    rw [Set.disjoint_singleton_right]
    simp [played]
  -- the reward has the mean of the action played
  have h2 : ∫ ω, W.r t ω (W.act hn argsort b ε x t ω) ∂P = ∫ ω, x t ⬝ᵥ θ (W.act hn argsort b ε x t ω) ∂P := by
    have eM : (fun ω => x t ⬝ᵥ θ (W.act hn argsort b ε x t ω)) = fun ω =>
        ∑ a, (if W.act hn argsort b ε x t ω = a then (1 : ℝ) else 0) * x t ⬝ᵥ θ a :=
      funext fun ω => hsplit (fun a => x t ⬝ᵥ θ a) _
    have hi2 : ∀ a, Integrable (fun ω => (if W.act hn argsort b ε x t ω = a then (1 : ℝ) else 0) * x t ⬝ᵥ θ a) P := fun a =>
      (Integrable.of_bound ((Measurable.ite (hactm (measurableSet_singleton a)) measurable_const
        measurable_const).aestronglyMeasurable) 1 (Filter.Eventually.of_forall (hite a))).mul_const _
    rw [eR, eM, integral_finsetSum _ fun a _ => hi1 a, integral_finsetSum _ fun a _ => hi2 a]
    refine Finset.sum_congr rfl fun a _ => ?_
    rw [integral_mul_const, ← hmean a]
    exact W.integral_mul_of_disjoint hd
      (Measurable.ite (hactF (measurableSet_singleton a)) measurable_const measurable_const)
      (W.measurable_r_info (D := {Draw.rewards t}) rfl a)
  rw [h2]
  -- exploring or exploiting
  have hu : MeasurableSet[W.info {Draw.rand t, Draw.choice t}] {ω | W.u t ω ≤ ε} :=
    W.measurable_u_info (D := {Draw.rand t, Draw.choice t}) (by simp) measurableSet_Iic
  have hu' : MeasurableSet[W.info {Draw.rand t, Draw.choice t}] {ω | ε < W.u t ω} :=
    W.measurable_u_info (D := {Draw.rand t, Draw.choice t}) (by simp) measurableSet_Ioi
  have hset : ∀ a, MeasurableSet {ω | W.Explores ε t a ω} := fun a => W.info_le _ _ (W.measurable_explores ε t a)
  have ecase : ∀ ω, x t ⬝ᵥ θ (W.act hn argsort b ε x t ω) =
      x t ⬝ᵥ θ (W.greedy hn argsort b ε x t ω) * (if ε < W.u t ω then (1 : ℝ) else 0) +
        ∑ a, (if W.Explores ε t a ω then (1 : ℝ) else 0) * x t ⬝ᵥ θ a := by
    intro ω
    by_cases h : ε < W.u t ω
    · have hno : ∀ a, ¬ W.Explores ε t a ω := fun a h' => absurd h'.1 (not_le.2 h)
      rw [W.act_exploit hn argsort b ε x h, if_pos h, mul_one, Finset.sum_eq_zero, add_zero]
      intro a _
      rw [if_neg (hno a), zero_mul]
    · rw [if_neg h, mul_zero, zero_add]
      obtain ⟨rest, hrest⟩ := frontAction_spec hn hL0 (W.ranking_c t ω)
      have hex : W.Explores ε t (frontAction hn (W.c t ω)) ω := by
        refine ⟨not_lt.1 h, ?_⟩
        have := congrArg List.head? hrest
        simpa using this
      rw [W.act_explore hn argsort b ε x hex, Finset.sum_eq_single (frontAction hn (W.c t ω)), if_pos hex, one_mul]
      · intro a _ hne
        rw [if_neg, zero_mul]
        intro h'
        have h3 := h'.2.symm.trans hex.2
        exact hne (Fin.ext (Option.some.inj h3))
      · simp
  have hgi : Integrable (fun ω => x t ⬝ᵥ θ (W.greedy hn argsort b ε x t ω)) P := by
    have eM : (fun ω => x t ⬝ᵥ θ (W.greedy hn argsort b ε x t ω)) = fun ω =>
        ∑ a, (if W.greedy hn argsort b ε x t ω = a then (1 : ℝ) else 0) * x t ⬝ᵥ θ a :=
      funext fun ω => hsplit (fun a => x t ⬝ᵥ θ a) _
    rw [eM]
    refine integrable_finsetSum _ fun a _ => ?_
    refine (Integrable.of_bound ((Measurable.ite (hgm (measurableSet_singleton a)) measurable_const
        measurable_const).aestronglyMeasurable) 1 (Filter.Eventually.of_forall fun ω => ?_)).mul_const _
    split <;> simp
  have hi3 : Integrable (fun ω => x t ⬝ᵥ θ (W.greedy hn argsort b ε x t ω) * (if ε < W.u t ω then (1 : ℝ) else 0)) P := by
    refine hgi.mul_bdd (c := 1) ((Measurable.ite (W.info_le _ _ hu') measurable_const measurable_const).aestronglyMeasurable)
      (Filter.Eventually.of_forall fun ω => ?_)
    split <;> simp
  have hi4 : ∀ a, Integrable (fun ω => (if W.Explores ε t a ω then (1 : ℝ) else 0) * x t ⬝ᵥ θ a) P := by
    intro a
    refine (Integrable.of_bound ((Measurable.ite (hset a) measurable_const measurable_const).aestronglyMeasurable) 1
      (Filter.Eventually.of_forall fun ω => ?_)).mul_const _
    split <;> simp
  have hgx : Measurable[W.info (before t)] fun ω => x t ⬝ᵥ θ (W.greedy hn argsort b ε x t ω) :=
    (measurable_of_countable (fun a => x t ⬝ᵥ θ a)).comp (W.measurable_greedy hn b ε x hm t)
  have hpu : P.real {ω | ε < W.u t ω} = 1 - ε := by
    have e : {ω | ε < W.u t ω} = {ω | W.u t ω ≤ ε}ᶜ := by ext ω; simp
    rw [e, probReal_compl_eq_one_sub (W.info_le _ _ hu), W.uniform_u t ε h0.le h1]
  simp only [ecase]
  rw [integral_add hi3 (integrable_finsetSum _ fun a _ => hi4 a), integral_finsetSum _ fun a _ => hi4 a,
    W.integral_mul_of_disjoint (before_disjoint t) hgx
      (g := fun ω => if ε < W.u t ω then (1 : ℝ) else 0) (Measurable.ite hu' measurable_const measurable_const),
    integral_ite _ (W.info_le _ _ hu'), hpu, mul_comm]
  congr 1
  rw [Finset.mul_sum]
  refine Finset.sum_congr rfl fun a _ => ?_
  rw [integral_mul_const, integral_ite _ (hset a), W.prob_explores h0.le h1]

end ExploreWorld

end Obp
