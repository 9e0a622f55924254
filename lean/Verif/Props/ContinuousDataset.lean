import Verif.Lemmas.ContinuousDataset
import Verif.Props.RewardFunction
import Mathlib.Analysis.SpecialFunctions.Trigonometric.Bounds

set_option linter.unusedSectionVars false

/-!
# Logged data with continuous actions

C131 (propensities), C132 (rewards and ground truth), C133 (use of the random generator).
-/

namespace Obp
open MeasureTheory Log

/-! ### C131 -/

/-- **C131.** With a behaviour policy function, finite positive noise and bounds with room between them, the logged actions
lie within the bounds, follow the normal distribution around the function's values conditioned on the bounds, and the logged
propensities are its density at the logged actions. `A m u` is the action logged when the policy's value is `m` and the
uniform draw is `u`. Missing from the claim: zero and infinite noise and the default bounds without behaviour policy function
(`C131_zero_noise`, `C131_gaussian_iff`, `C131_default_bounds`). -/
theorem C131_gaussian_partial {s : ℝ} (hs : 0 < s) {lo hi : PyNum ℝ} (h : lo.Below hi) :
    ∃ A : ℝ → ℝ → ℝ,
      (∀ means us, gaussianActions (.fin s) lo hi means us =
        .ok (List.zipWith (fun m u => (A m u, normalGivenPdf m s (actionRange lo hi) (A m u))) means us)) ∧
      (∀ m u, 0 < u → u < 1 → A m u ∈ actionRange lo hi ∧ 0 < normalGivenPdf m s (actionRange lo hi) (A m u)) ∧
      (∀ m x, volume.real {u : ℝ | 0 < u ∧ u < 1 ∧ A m u ≤ x} =
        ∫ y in Set.Iic x, normalGivenPdf m s (actionRange lo hi) y) ∧
      ∀ m, ∫ y, normalGivenPdf m s (actionRange lo hi) y = 1 := by
  refine ⟨fun m u => truncRvsN (PyNum.standardize m s lo) (PyNum.standardize m s hi) m s u, ?_, ?_, ?_, ?_⟩
  · intro means us
    have hany : (means.any fun m => !(PyNum.standardize m s lo).ltNum (PyNum.standardize m s hi)) = false := by
      rw [List.any_eq_false]
      intro m _
      rw [ltNum_iff.2 ((standardize_below hs lo hi).2 h)]
      simp
    simp only [gaussianActions, hany, raiseIf_neg, py_bind_ok]
    rw [show List.zipWith (fun m u => (truncRvsN (PyNum.standardize m s lo) (PyNum.standardize m s hi) m s u,
        normalGivenPdf m s (actionRange lo hi) (truncRvsN (PyNum.standardize m s lo) (PyNum.standardize m s hi) m s u)))
        means us = (List.zipWith (fun m u => (m, truncRvsN (PyNum.standardize m s lo) (PyNum.standardize m s hi) m s u))
        means us).map fun p => (p.2, normalGivenPdf p.1 s (actionRange lo hi) p.2) by rw [List.map_zipWith]]
    rw [mapM_ok_iff, List.forall₂_map_right_iff]
    apply List.forall₂_same.2
    intro p _
    rw [truncPdfN_eq hs h]
    rfl
  · intro m u h0 h1
    have hr := truncRvsN_range (m := m) hs h h0 h1
    exact ⟨hr, normalGivenPdf_pos hs h hr⟩
  · exact fun m x => truncRvsN_law hs h x
  · exact fun m => normalGivenPdf_total hs h

/-- The hypotheses are met by the settings of the class's documentation, and by the default bounds. -/
example : (PyNum.fin (1 : ℝ)).Below (.fin 10) ∧ (PyNum.negInf : PyNum ℝ).Below .inf :=
  ⟨by simp [PyNum.Below], trivial⟩

/-- **C131.** With a behaviour policy function, a batch is obtained exactly for finite positive noise and bounds with room
between them, among all the settings that the constructor accepts. -/
theorem C131_gaussian_iff {noise lo hi : PyNum ℝ} (hn : noise.AtLeast 0 ∨ noise = .nan)
    (hb : lo.Below hi ∨ lo = .nan ∨ hi = .nan) {means us : List ℝ} (hne : means ≠ []) (hl : means.length = us.length) :
    (∃ ap, gaussianActions noise lo hi means us = .ok ap) ↔ ∃ s, noise = .fin s ∧ 0 < s ∧ lo.Below hi := by
  constructor
  · rintro ⟨ap, hap⟩
    cases noise with
    | fin s =>
        have hs : 0 ≤ s := by
          rcases hn with hn | hn
          · exact hn
          · cases hn
        simp only [gaussianActions, py_bind_eq_ok, raiseIf_ok_unit] at hap
        obtain ⟨-, hany, hap⟩ := hap
        rw [List.any_eq_false] at hany
        obtain ⟨m, means, rfl⟩ := List.exists_cons_of_ne_nil hne
        have hm := hany m (by simp)
        simp only [Bool.not_eq_true, Bool.not_eq_false', ltNum_iff] at hm
        refine ⟨s, rfl, ?_, ?_⟩
        · refine lt_of_le_of_ne hs fun h0 => ?_
          subst h0
          obtain ⟨u, us, rfl⟩ := List.exists_cons_of_length_pos (l := us) (by rw [← hl]; simp)
          simp [truncPdfN, py_bind_error] at hap
        · rcases hb with hb | rfl | rfl
          · exact hb
          · simp [PyNum.standardize, PyNum.Below] at hm
          · cases hlo : PyNum.standardize m s lo <;> simp [PyNum.standardize, PyNum.Below] at hm
    | _ => simp [gaussianActions] at hap
  · rintro ⟨s, rfl, hs, hb⟩
    obtain ⟨A, hA, -⟩ := C131_gaussian_partial hs hb
    exact ⟨_, hA means us⟩

example : (PyNum.fin (0 : ℝ)).AtLeast 0 ∧ ((PyNum.negInf : PyNum ℝ).Below .inf) := ⟨le_rfl, trivial⟩

/-- **C131.** Noise zero, which the constructor accepts, makes every propensity nan (or raises ValueError if a value of the
behaviour policy function is not strictly between the bounds). -/
theorem C131_zero_noise {lo hi : PyNum ℝ} (h : lo.Below hi) {means us : List ℝ} (hne : means ≠ [])
    (hl : means.length = us.length) :
    ((∀ m ∈ means, lo.Below (.fin m) ∧ (PyNum.fin m).Below hi) →
      gaussianActions (.fin 0) lo hi means us = .error .nonFinite) ∧
    (¬ (∀ m ∈ means, lo.Below (.fin m) ∧ (PyNum.fin m).Below hi) →
      gaussianActions (.fin 0) lo hi means us = .error .valueError) := by
  have key : ∀ m : ℝ, (PyNum.standardize m 0 lo).ltNum (PyNum.standardize m 0 hi) = true ↔
      lo.Below (.fin m) ∧ (PyNum.fin m).Below hi := by
    intro m
    rw [ltNum_iff]
    cases lo <;> cases hi <;> simp only [PyNum.Below] at h <;> simp only [PyNum.standardize, if_true] <;>
      (try split_ifs) <;> simp only [PyNum.Below, and_true, true_and, true_iff, false_iff] <;> grind
  simp only [gaussianActions]
  constructor <;> intro hall
  · rw [raiseIf_neg, py_bind_ok]
    · obtain ⟨m, means, rfl⟩ := List.exists_cons_of_ne_nil hne
      obtain ⟨u, us, rfl⟩ := List.exists_cons_of_length_pos (l := us) (by rw [← hl]; simp)
      simp [truncPdfN, py_bind_error]
    · rw [List.any_eq_false]
      intro m hm
      rw [(key m).2 (hall m hm)]
      simp
  · rw [raiseIf_pos, py_bind_error]
    rw [List.any_eq_true]
    push Not at hall
    obtain ⟨m, hm, hm'⟩ := hall
    refine ⟨m, hm, ?_⟩
    rw [Bool.not_eq_true', ← Bool.not_eq_true, key]
    exact fun h => hm' h.1 h.2

/-- **C131.** Without behaviour policy function and with finite bounds, actions are uniform between the bounds and the logged
propensities are the density. Missing from the claim: infinite bounds (`C131_default_bounds`). -/
theorem C131_uniform_partial {l h : ℝ} (hlh : l < h) :
    ∃ A : ℝ → ℝ,
      (∀ us : List ℝ, (∀ u ∈ us, 0 ≤ u ∧ u ≤ 1) → uniformActions (.fin l) (.fin h) us =
        .ok (us.map fun u => (A u, 1 / (h - l)))) ∧
      (∀ u, 0 ≤ u → u ≤ 1 → l ≤ A u ∧ A u ≤ h) ∧
      (∀ x, l ≤ x → x ≤ h → volume.real {u : ℝ | 0 ≤ u ∧ u ≤ 1 ∧ A u ≤ x} = ∫ _ in l..x, 1 / (h - l)) ∧
      ∫ _ in l..h, 1 / (h - l) = 1 := by
  have hd : 0 < h - l := sub_pos.2 hlh
  have hr : ∀ u, 0 ≤ u → u ≤ 1 → l ≤ l + (h - l) * u ∧ l + (h - l) * u ≤ h := by
    intro u h0 h1
    constructor <;> nlinarith
  refine ⟨fun u => l + (h - l) * u, ?_, hr, ?_, ?_⟩
  · intro us hus
    simp only [uniformActions]
    rw [mapM_ok_iff, List.forall₂_map_right_iff]
    apply List.forall₂_same.2
    intro u hu
    rw [npDiv_ok hd.ne', py_bind_ok, if_pos (hr u (hus u hu).1 (hus u hu).2)]
    rfl
  · intro x h1 h2
    have hset : {u : ℝ | 0 ≤ u ∧ u ≤ 1 ∧ l + (h - l) * u ≤ x} = Set.Icc 0 ((x - l) / (h - l)) := by
      ext u
      simp only [Set.mem_ofPred_eq, Set.mem_Icc, le_div_iff₀ hd]
      constructor
      · rintro ⟨a, b, c⟩
        exact ⟨a, by linarith⟩
      · rintro ⟨a, b⟩
        refine ⟨a, ?_, by linarith⟩
        nlinarith
    rw [hset, Real.volume_real_Icc_of_le (div_nonneg (by linarith) hd.le), intervalIntegral.integral_const, smul_eq_mul,
      mul_one_div, sub_zero]
  · rw [intervalIntegral.integral_const, smul_eq_mul, mul_one_div, div_self hd.ne']

example : (0 : ℝ) < 1 ∧ ∀ u ∈ [(1 : ℝ) / 2, 0], 0 ≤ u ∧ u ≤ 1 := by
  refine ⟨one_pos, ?_⟩
  simp
  norm_num

/-- **C131, failure.** A dataset with the default bounds and without behaviour policy function never yields a batch of finite
actions and propensities, although the constructor accepts these settings and documents a uniform behaviour policy. -/
theorem C131_default_bounds {S : Type} (c : ContinuousConfig) (hb : c.behavior = none) (hlo : c.lo = .negInf)
    (hhi : c.hi = .inf) (rng : NormalRng S) (s0 s : S) (n : PyScalar ℝ) (k : ℤ) (hn : n.toInt? = some k) (hk : 1 ≤ k) :
    initContinuous (K := ℝ) (.int 1) (.flt 1) (.flt 1) .negInf .inf .ok = .ok ⟨1, .fin 1, .fin 1, .negInf, .inf⟩ ∧
    c.obtain rng s0 s n = .error .nonFinite := by
  constructor
  · rw [C130_continuous_partial]
    exact ⟨rfl, le_refl (1 : ℤ), .flt 1, Or.inl (by simp [PyNum.AtLeast]), .flt 1, Or.inl (by simp [PyNum.AtLeast]), .negInf,
      .inf, Or.inl trivial, rfl⟩
  · rw [ContinuousConfig.obtain, checkIntMin_ok.2 ⟨hn, hk⟩, py_bind_ok]
    simp only [ContinuousConfig.actions, hb, hlo, hhi]
    rfl

example : ∃ c : ContinuousConfig, c.behavior = none ∧ c.lo = .negInf ∧ c.hi = .inf :=
  ⟨⟨1, .fin 1, .fin 1, .negInf, .inf, none, none⟩, rfl, rfl, rfl⟩

/-! ### C132 -/

/-- What a successful batch contains. -/
theorem obtain_ok {S : Type} {c : ContinuousConfig} {rng : NormalRng S} {s0 s : S} {nRounds : PyScalar ℝ}
    {fb : ContinuousFeedback} {s' : S} (h : c.obtain rng s0 s nRounds = .ok (fb, s')) :
    ∃ n : ℕ, ∃ r : ℝ, ∃ ap : List (ℝ × ℝ), nRounds.toInt? = some (n : ℤ) ∧ 1 ≤ n ∧ c.rewardNoise = .fin r ∧
      fb.context = (drawRows rng.normal c.dim n s).1 ∧
      c.actions fb.context (draws rng.uniform n s0).1 = .ok ap ∧
      fb.action = ap.map Prod.fst ∧ fb.pscore = ap.map Prod.snd ∧ c.expected fb.context fb.action = .ok fb.expectedReward ∧
      fb.reward = List.zipWith (fun q e => q + r * e) fb.expectedReward
        (draws rng.normal n (drawRows rng.normal c.dim n s).2).1 ∧
      s' = (draws rng.normal n (drawRows rng.normal c.dim n s).2).2 := by
  unfold ContinuousConfig.obtain at h
  simp only [py_bind_eq_ok, checkIntMin_ok] at h
  obtain ⟨z, ⟨hz, hz1⟩, ap, hap, q, hq, rew, hrew, h⟩ := h
  simp only [py_pure, Except.ok.injEq, Prod.mk.injEq] at h
  obtain ⟨rfl, rfl⟩ := h
  unfold addNoise at hrew
  split at hrew
  · rename_i r hr
    cases hrew
    exact ⟨z.toNat, r, ap, by rw [hz]; congr 1; omega, by omega, hr, rfl, hap, rfl, rfl, hq, rfl, rfl⟩
  · cases hrew

theorem gaussian_mean_zero : ∫ e, e * gaussianKernel e = 0 := by
  have h := integral_neg_eq_self (fun e => e * gaussianKernel e) volume
  have h2 : (fun e : ℝ => -e * gaussianKernel (-e)) = fun e => -(e * gaussianKernel e) := by
    funext e
    rw [show gaussianKernel (-e) = gaussianKernel e from C38_symm .gaussian e]
    ring
  rw [h2, MeasureTheory.integral_neg] at h
  linarith

theorem gaussian_first_moment_integrable : Integrable fun e : ℝ => e * gaussianKernel e := by
  have h := integrable_mul_exp_neg_mul_sq (b := 1 / 2) (by norm_num)
  refine (h.div_const (Real.sqrt (2 * Real.pi))).congr (Filter.Eventually.of_forall fun x => ?_)
  dsimp only
  rw [gaussianKernel, mul_div_assoc]
  congr 3
  ring

/-- **C132.** Every logged reward is the reported expected reward plus `reward_noise` times a standard normal number of its
own round, so that it is the reported expected reward on average. -/
theorem C132_reward_mean {S : Type} {c : ContinuousConfig} {rng : NormalRng S} {s0 s : S} {nRounds : PyScalar ℝ}
    {fb : ContinuousFeedback} {s' : S} (h : c.obtain rng s0 s nRounds = .ok (fb, s')) :
    ∃ r : ℝ, c.rewardNoise = .fin r ∧
      fb.reward = List.zipWith (fun q e => q + r * e) fb.expectedReward
        (draws rng.normal fb.context.length (drawRows rng.normal c.dim fb.context.length s).2).1 ∧
      ∀ q : ℝ, ∫ e, (q + r * e) * (Real.exp (-e ^ 2 / 2) / Real.sqrt (2 * Real.pi)) = q := by
  obtain ⟨n, r, ap, hn, hn1, hr, hc, -, -, -, -, hrew, -⟩ := obtain_ok h
  have hlen : ∀ (d n : ℕ) (s : S), (drawRows rng.normal d n s).1.length = n := by
    intro d n
    induction n with
    | zero => intro s; rfl
    | succ n ih => intro s; simp [drawRows, ih]
  refine ⟨r, hr, ?_, ?_⟩
  · rw [hc, hlen, hrew]
  · intro q
    have e : (fun e : ℝ => (q + r * e) * (Real.exp (-e ^ 2 / 2) / Real.sqrt (2 * Real.pi))) =
        fun e => q * gaussianKernel e + r * (e * gaussianKernel e) := by
      funext e
      unfold gaussianKernel
      ring
    rw [e, integral_add (gaussianKernel_integrable.const_mul q) (gaussian_first_moment_integrable.const_mul r),
      MeasureTheory.integral_const_mul, MeasureTheory.integral_const_mul, gaussian_mean_zero,
      show ∫ e, gaussianKernel e = 1 from C38_integral .gaussian]
    ring

/-- **C132.** `calc_ground_truth_policy_value` on a batch's own contexts and actions is the average of its reported expected
rewards. -/
theorem C132_ground_truth {S : Type} {c : ContinuousConfig} {rng : NormalRng S} {s0 s : S} {nRounds : PyScalar ℝ}
    {fb : ContinuousFeedback} {s' : S} (h : c.obtain rng s0 s nRounds = .ok (fb, s')) (x : Arr2 ℝ)
    (hx : x.rows = fb.context) (hd : x.d = c.dim) (hl : x.n = fb.action.length) :
    c.groundTruth (.arr x) (some fb.action) = npMean fb.expectedReward := by
  obtain ⟨n, r, ap, hn, hn1, hr, hc, -, -, -, hq, -, -⟩ := obtain_ok h
  simp [ContinuousConfig.groundTruth, checkArray2, hd, hl, raiseIf, hx, hq]

/-- **C132.** `calc_ground_truth_policy_value` succeeds only for a matrix of contexts of the dataset's dimension with one row
per action; other shapes raise ValueError. -/
theorem C132_ground_truth_shapes (c : ContinuousConfig) (ctx : Arg2 ℝ) (acts : Option (List ℝ)) :
    (∃ x as, ctx = .arr x ∧ acts = some as ∧ x.d = c.dim ∧ x.n = as.length ∧
      c.groundTruth ctx acts = c.expected x.rows as >>= npMean) ∨ c.groundTruth ctx acts = .error .valueError := by
  unfold ContinuousConfig.groundTruth
  cases ctx with
  | arr x =>
      cases acts with
      | none => exact Or.inr rfl
      | some as =>
          by_cases hd : x.d = c.dim
          · by_cases hl : x.n = as.length
            · exact Or.inl ⟨x, as, rfl, rfl, hd, hl, by simp [checkArray2, hd, hl, raiseIf]⟩
            · exact Or.inr (by simp [checkArray2, hd, hl, raiseIf])
          · exact Or.inr (by simp [checkArray2, hd, raiseIf])
  | _ => exact Or.inr rfl

/-- **C132.** Without reward function, the value of actions is the average of `2 |a| sqrt |a| - 5 a`. -/
theorem C132_contextfree (c : ContinuousConfig) (hc : c.reward = none) (x : Arr2 ℝ) (as : List ℝ) (hd : x.d = c.dim)
    (hl : x.n = as.length) (h0 : 0 < as.length) :
    c.groundTruth (.arr x) (some as) = .ok ((as.map fun a => 2 * (|a| * Real.sqrt |a|) - 5 * a).sum / as.length) := by
  have e : ∀ a : ℝ, contextfreeRewardContinuous a = 2 * (|a| * Real.sqrt |a|) - 5 * a := by
    intro a
    rw [contextfreeRewardContinuous, Real.sqrt_eq_rpow]
    rcases (abs_nonneg a).eq_or_lt with h | h
    · rw [← h, Real.zero_rpow (by norm_num)]
      simp
    · congr 2
      conv_rhs => rw [← Real.rpow_one |a|]
      rw [Real.rpow_one, ← Real.rpow_one_add' (abs_nonneg a) (by norm_num)]
      norm_num
  have e' : contextfreeRewardContinuous = fun a => 2 * (|a| * Real.sqrt |a|) - 5 * a := funext e
  simp only [ContinuousConfig.groundTruth, checkArray2, hd, hl, raiseIf, ContinuousConfig.expected, hc, py_bind_ok, npMean,
    List.length_map, h0.ne', e', ne_eq, not_true, decide_false, Bool.false_eq_true, if_false]

example : ∃ c : ContinuousConfig, c.reward = none ∧ c.dim = 2 :=
  ⟨⟨2, .fin 1, .fin 1, .fin 0, .fin 1, none, none⟩, rfl, rfl⟩

/-! #### Built-in functions -/

theorem draws_length {S : Type} (f : S → ℝ × S) (n : ℕ) (s : S) : (draws f n s).1.length = n := by
  induction n generalizing s with
  | zero => rfl
  | succ n ih => simp [draws, ih]

theorem vec_eq_ofFn {d : ℕ} {l : List ℝ} (h : l.length = d) : ∃ c : Fin d → ℝ, l = List.ofFn c := by
  subst h
  exact ⟨fun i => l[i], (List.ofFn_getElem (xs := l)).symm⟩

theorem zipWith_ofFn {α β γ : Type} {n : ℕ} (f : α → β → γ) (a : Fin n → α) (b : Fin n → β) :
    List.zipWith f (List.ofFn a) (List.ofFn b) = List.ofFn fun i => f (a i) (b i) := by
  apply List.ext_getElem
  · simp
  · intro i h1 h2
    simp

/-- **C132.** The linear reward function is `|x . theta - a|^p + b`, with coefficients that depend on the seed only. -/
theorem C132_linear_reward {S : Type} (rng : NormalRng S) (s0 : S) (d : ℕ) :
    ∃ (θ : Fin d → ℝ) (p b : ℝ), ∀ (n : ℕ) (x : Fin n → Fin d → ℝ) (a : Fin n → ℝ),
      linearRewardContinuousFn rng s0 (.arr ⟨n, d, x⟩) (some (List.ofFn a)) =
        .ok (List.ofFn fun i => |∑ j, x i j * θ j - a i| ^ p + b) := by
  obtain ⟨θ, hθ⟩ := vec_eq_ofFn (draws_length rng.normal d s0)
  refine ⟨θ, (rng.uniform (draws rng.normal d s0).2).1,
    (rng.uniform (rng.uniform (draws rng.normal d s0).2).2).1, fun n x a => ?_⟩
  simp only [linearRewardContinuousFn, checkContextAction, checkArray2, py_bind_ok, raiseIf, List.length_ofFn, ne_eq,
    not_true, decide_false, Bool.false_eq_true, if_false, py_pure, linearRewardContinuous, hθ, Arr2.rows, zipWith_ofFn,
    dot_ofFn]

/-- **C132.** The quadratic reward function is `c a (x . t) + (x . u) a + (a - x . v)^2`, with coefficients that depend on
the seed only. -/
theorem C132_quadratic_reward {S : Type} (rng : NormalRng S) (s0 : S) (d : ℕ) :
    ∃ (t u v : Fin d → ℝ) (c : ℝ), ∀ (n : ℕ) (x : Fin n → Fin d → ℝ) (a : Fin n → ℝ),
      quadraticRewardContinuousFn rng s0 (.arr ⟨n, d, x⟩) (some (List.ofFn a)) =
        .ok (List.ofFn fun i => c * a i * (∑ j, x i j * t j) + (∑ j, x i j * u j) * a i
          + (a i - ∑ j, x i j * v j) ^ 2) := by
  obtain ⟨t, ht⟩ := vec_eq_ofFn (draws_length rng.normal d s0)
  obtain ⟨u, hu⟩ := vec_eq_ofFn (draws_length rng.normal d (draws rng.normal d s0).2)
  obtain ⟨v, hv⟩ := vec_eq_ofFn (draws_length rng.normal d (draws rng.normal d (draws rng.normal d s0).2).2)
  refine ⟨t, u, v, (rng.normal (draws rng.normal d (draws rng.normal d (draws rng.normal d s0).2).2).2).1, fun n x a => ?_⟩
  simp only [quadraticRewardContinuousFn, checkContextAction, checkArray2, py_bind_ok, raiseIf, List.length_ofFn, ne_eq,
    not_true, decide_false, Bool.false_eq_true, if_false, py_pure, quadraticRewardContinuous, ht, hu, hv, Arr2.rows,
    zipWith_ofFn, dot_ofFn]

/-- **C132.** Both reward functions raise ValueError unless contexts are a matrix and actions a vector of as many entries. -/
theorem C132_reward_shapes {S : Type} (rng : NormalRng S) (s0 : S) (ctx : Arg2 ℝ) (acts : Option (List ℝ))
    (h : ¬ ∃ x as, ctx = .arr x ∧ acts = some as ∧ x.n = as.length) :
    linearRewardContinuousFn rng s0 ctx acts = .error .valueError ∧
    quadraticRewardContinuousFn rng s0 ctx acts = .error .valueError := by
  have key : checkContextAction ctx acts = .error .valueError := by
    unfold checkContextAction
    cases ctx with
    | arr x =>
        cases acts with
        | none => rfl
        | some as =>
            have : x.n ≠ as.length := fun h' => h ⟨x, as, rfl, rfl, h'⟩
            simp [checkArray2, raiseIf, this]
    | _ => rfl
  simp [linearRewardContinuousFn, quadraticRewardContinuousFn, key]

example : ¬ ∃ (x : Arr2 ℝ) (as : List ℝ), (.nd [2] : Arg2 ℝ) = .arr x ∧ some [1] = some as ∧ x.n = as.length := by
  rintro ⟨x, as, h, -⟩
  cases h

/-- **C132.** The linear behaviour policy's values are `x . theta + b`, with coefficients that depend on the seed only. -/
theorem C132_linear_behavior {S : Type} (rng : NormalRng S) (s0 : S) (d : ℕ) :
    ∃ (θ : Fin d → ℝ) (b : ℝ), ∀ (n : ℕ) (x : Fin n → Fin d → ℝ),
      linearBehaviorContinuous rng s0 d (List.ofFn fun i => List.ofFn (x i)) =
        List.ofFn fun i => ∑ j, x i j * θ j + b := by
  obtain ⟨θ, hθ⟩ := vec_eq_ofFn (draws_length rng.normal d s0)
  refine ⟨θ, (rng.uniform (draws rng.normal d s0).2).1, fun n x => ?_⟩
  simp only [linearBehaviorContinuous, hθ, List.map_ofFn]
  congr 1
  funext i
  simp only [Function.comp_apply, dot_ofFn]

/-- **C132.** The deterministic evaluation policies: the average of the context; zero, one or two as the average is below,
at or above 1.5; and the sine of the average, where the documentation announces the sign (`C132_sign_is_sine`). -/
theorem C132_policies_partial {d : ℕ} (hd : 0 < d) (x : Fin d → ℝ) :
    linearPolicyContinuous (List.ofFn x) = .ok ((∑ j, x j) / d) ∧
    thresholdPolicyContinuous (List.ofFn x) = .ok (if (∑ j, x j) / d < 1.5 then 0 else if 1.5 < (∑ j, x j) / d then 2 else 1) ∧
    signPolicyContinuous (List.ofFn x) = .ok (Real.sin ((∑ j, x j) / d)) := by
  have hm : rowMean (List.ofFn x) = .ok ((∑ j, x j) / d) := by
    simp [rowMean, npMean, hd.ne', List.sum_ofFn]
  refine ⟨hm, ?_, by simp [signPolicyContinuous, hm]⟩
  simp only [thresholdPolicyContinuous, hm, py_bind_ok, py_pure, Except.ok.injEq]
  set m := (∑ j, x j) / (d : ℝ)
  rcases lt_trichotomy m 1.5 with h | h | h
  · rw [if_pos h, sign_neg (by linarith)]
    norm_num
  · rw [h, if_neg (lt_irrefl _), if_neg (lt_irrefl _), sub_self, sign_zero]
    norm_num
  · rw [if_neg (not_lt.2 h.le), if_pos h, sign_pos (by linarith)]
    norm_num

/-- **C132, failure.** The policy named after the sign is not the sign of the context's average. -/
theorem C132_sign_is_sine : ∃ x : List ℝ, ∃ m, rowMean x = .ok m ∧ 0 < m ∧ signPolicyContinuous x ≠ .ok 1 := by
  refine ⟨[1], 1, by simp [rowMean, npMean], one_pos, ?_⟩
  have := Real.sin_lt (x := 1) one_pos
  simp [signPolicyContinuous, rowMean, npMean]
  exact this.ne

/-! ### C133 -/

theorem draws_add {S : Type} (f : S → ℝ × S) (m n : ℕ) (s : S) :
    draws f (m + n) s = ((draws f m s).1 ++ (draws f n (draws f m s).2).1, (draws f n (draws f m s).2).2) := by
  induction m generalizing s with
  | zero => simp [draws]
  | succ m ih => rw [Nat.succ_add]; simp [draws, ih]

theorem drawRows_flatten {S : Type} (f : S → ℝ × S) (d n : ℕ) (s : S) :
    ((drawRows f d n s).1.flatten, (drawRows f d n s).2) = draws f (n * d) s := by
  induction n generalizing s with
  | zero => simp [drawRows, draws]
  | succ n ih =>
      rw [Nat.succ_mul, Nat.add_comm (n * d) d, draws_add]
      simp [drawRows, ← ih]

/-- **C133.** Contexts and reward noise of a batch are consecutive numbers of the dataset's own generator, which is left after
them: successive batches use disjoint parts of one stream. Missing from the claim: the actions and the coefficients of the
built-in functions restart from the seed (the theorems below). -/
theorem C133_stream_partial {S : Type} {c : ContinuousConfig} {rng : NormalRng S} {s0 s : S} {nRounds : PyScalar ℝ}
    {fb : ContinuousFeedback} {s' : S} (h : c.obtain rng s0 s nRounds = .ok (fb, s')) :
    ∃ (n : ℕ) (r : ℝ) (eps : List ℝ), nRounds.toInt? = some (n : ℤ) ∧ c.rewardNoise = .fin r ∧
      draws rng.normal (n * c.dim + n) s = (fb.context.flatten ++ eps, s') ∧ eps.length = n ∧
      fb.reward = List.zipWith (fun q e => q + r * e) fb.expectedReward eps := by
  obtain ⟨n, r, ap, hn, hn1, hr, hc, -, -, -, -, hrew, hs⟩ := obtain_ok h
  refine ⟨n, r, _, hn, hr, ?_, draws_length rng.normal n (drawRows rng.normal c.dim n s).2, hrew⟩
  rw [draws_add, ← drawRows_flatten, hs, hc]

/-- **C133, failure.** Without behaviour policy function all batches of the same size have the same actions and
propensities. -/
theorem C133_actions_repeat {S : Type} {c : ContinuousConfig} (hb : c.behavior = none) {rng : NormalRng S} {s0 s t : S}
    {nRounds : PyScalar ℝ} {fb fb' : ContinuousFeedback} {s' t' : S} (h : c.obtain rng s0 s nRounds = .ok (fb, s'))
    (h' : c.obtain rng s0 t nRounds = .ok (fb', t')) : fb.action = fb'.action ∧ fb.pscore = fb'.pscore := by
  obtain ⟨n, r, ap, hn, -, -, -, ha, h1, h2, -⟩ := obtain_ok h
  obtain ⟨n', r', ap', hn', -, -, -, ha', h1', h2', -⟩ := obtain_ok h'
  have : n = n' := by
    rw [hn] at hn'
    simpa using hn'
  subst this
  simp only [ContinuousConfig.actions, hb] at ha ha'
  rw [ha] at ha'
  cases ha'
  exact ⟨h1.trans h1'.symm, h2.trans h2'.symm⟩

/-- **C133, failure.** The coefficients of the linear behaviour policy and of the linear reward function are the same vector,
and it is the first context of the first batch. -/
theorem C133_coefficients_are_context {S : Type} {c : ContinuousConfig} {rng : NormalRng S} {s0 : S}
    {nRounds : PyScalar ℝ} {fb : ContinuousFeedback} {s' : S} (h : c.obtain rng s0 s0 nRounds = .ok (fb, s')) :
    ∃ (x₀ : List ℝ) (b p b' : ℝ), fb.context.head? = some x₀ ∧
      (∀ ctx, linearBehaviorContinuous rng s0 c.dim ctx = ctx.map fun x => dot x x₀ + b) ∧
      ∀ ctx acts, linearRewardContinuous rng s0 c.dim ctx acts =
        List.zipWith (fun x a => |dot x x₀ - a| ^ p + b') ctx acts := by
  obtain ⟨n, r, ap, hn, hn1, -, hc, -⟩ := obtain_ok h
  refine ⟨(draws rng.normal c.dim s0).1, _, _, _, ?_, fun ctx => rfl, fun ctx acts => rfl⟩
  obtain ⟨m, rfl⟩ := Nat.exists_eq_succ_of_ne_zero (by omega : n ≠ 0)
  rw [hc]
  rfl

/-- **C133, failure.** With the built-in linear behaviour policy and linear reward function and without bounds, the reported
expected rewards are the same in all batches of the same size, whatever the contexts: they do not depend on the context at
all. -/
theorem C133_reward_ignores_context {S : Type} {c : ContinuousConfig} {rng : NormalRng S} {s0 s t : S} {σ : ℝ}
    (hσ : 0 < σ) (hnoise : c.actionNoise = .fin σ) (hlo : c.lo = .negInf) (hhi : c.hi = .inf)
    (hb : c.behavior = some fun ctx => .ok (linearBehaviorContinuous rng s0 c.dim ctx))
    (hr : c.reward = some fun ctx acts => .ok (linearRewardContinuous rng s0 c.dim ctx acts))
    {nRounds : PyScalar ℝ} {fb fb' : ContinuousFeedback} {s' t' : S} (h : c.obtain rng s0 s nRounds = .ok (fb, s'))
    (h' : c.obtain rng s0 t nRounds = .ok (fb', t')) : fb.expectedReward = fb'.expectedReward := by
  have hlen : ∀ (d n : ℕ) (s : S), (drawRows rng.normal d n s).1.length = n := by
    intro d n
    induction n with
    | zero => intro s; rfl
    | succ n ih => intro s; simp [drawRows, ih]
  have key : ∀ {s : S} {fb : ContinuousFeedback} {s' : S}, c.obtain rng s0 s nRounds = .ok (fb, s') →
      ∃ n : ℕ, nRounds.toInt? = some (n : ℤ) ∧ fb.expectedReward = (draws rng.uniform n s0).1.map fun u =>
        |0 - ((rng.uniform (draws rng.normal c.dim s0).2).1 + σ * truncPpfN .negInf .inf u)|
          ^ (rng.uniform (draws rng.normal c.dim s0).2).1
          + (rng.uniform (rng.uniform (draws rng.normal c.dim s0).2).2).1 := by
    intro s fb s' h
    obtain ⟨n, r, ap, hn, hn1, -, hc, ha, hact, -, hq, -⟩ := obtain_ok h
    refine ⟨n, hn, ?_⟩
    have hlc : fb.context.length = n := by rw [hc, hlen]
    have hlu : (draws rng.uniform n s0).1.length = n := draws_length _ _ _
    simp only [ContinuousConfig.actions, hb, hnoise, hlo, hhi, py_bind_ok] at ha
    simp only [ContinuousConfig.expected, hr, Except.ok.injEq] at hq
    have hA : fb.action = List.zipWith (fun m u => m + σ * truncPpfN .negInf .inf u)
        (linearBehaviorContinuous rng s0 c.dim fb.context) (draws rng.uniform n s0).1 := by
      have hany : ((linearBehaviorContinuous rng s0 c.dim fb.context).any fun m =>
          !(PyNum.standardize m σ .negInf).ltNum (PyNum.standardize m σ .inf)) = false := by
        rw [List.any_eq_false]
        intro m _
        simp [PyNum.standardize, PyNum.ltNum]
      simp only [gaussianActions, hany, raiseIf_neg, py_bind_ok, mapM_ok_iff, truncRvsN_unbounded _ _ _ hσ,
        py_bind_eq_ok, py_pure, Except.ok.injEq] at ha
      rw [hact]
      have hmap : ap.map Prod.fst = (List.zipWith (fun m u => (m, m + σ * truncPpfN .negInf .inf u))
          (linearBehaviorContinuous rng s0 c.dim fb.context) (draws rng.uniform n s0).1).map Prod.snd := by
        apply List.ext_getElem
        · simp [← ha.length_eq]
        · intro i h1 h2
          have := (List.forall₂_iff_get.1 ha).2 i (by simpa using h2) (by simpa using h1)
          obtain ⟨d, -, hd⟩ := this
          rw [List.getElem_map, List.getElem_map]
          simp only [List.get_eq_getElem] at hd
          rw [← hd]
      rw [hmap, List.map_zipWith]
    rw [← hq, hA]
    simp only [linearRewardContinuous, linearBehaviorContinuous]
    apply List.ext_getElem
    · simp [hlc, hlu]
    · intro i h1 h2
      simp only [List.getElem_zipWith, List.getElem_map]
      congr 3
      ring
  obtain ⟨n, hn, e⟩ := key h
  obtain ⟨n', hn', e'⟩ := key h'
  have : n = n' := by
    rw [hn] at hn'
    simpa using hn'
  rw [e, e', this]

/-- The hypotheses of the failures are met: a batch is obtained with the linear functions, a generator that counts, and no
bounds. -/
example : ∃ (c : ContinuousConfig) (rng : NormalRng ℝ) (fb : ContinuousFeedback) (s' : ℝ),
    c.actionNoise = .fin 1 ∧ c.lo = .negInf ∧ c.hi = .inf ∧
    c.behavior = (some fun ctx => .ok (linearBehaviorContinuous rng 0 c.dim ctx)) ∧
    c.reward = (some fun ctx acts => .ok (linearRewardContinuous rng 0 c.dim ctx acts)) ∧
    c.obtain rng 0 0 (.int 2) = .ok (fb, s') := by
  obtain ⟨A, hA, -⟩ := C131_gaussian_partial (s := 1) one_pos (lo := .negInf) (hi := .inf) trivial
  let rng : NormalRng ℝ := ⟨fun s => (s, s + 1), fun s => (1 / 2, s + 1)⟩
  let c : ContinuousConfig := ⟨1, .fin 1, .fin 1, .negInf, .inf,
    some fun ctx => .ok (linearBehaviorContinuous rng 0 1 ctx),
    some fun ctx acts => .ok (linearRewardContinuous rng 0 1 ctx acts)⟩
  refine ⟨c, rng, ?_, ?_, rfl, rfl, rfl, rfl, rfl, ?_⟩
  rotate_left 2
  · rw [ContinuousConfig.obtain, checkIntMin_ok.2 ⟨rfl, by norm_num⟩, py_bind_ok]
    simp only [ContinuousConfig.actions, c, py_bind_ok, hA, ContinuousConfig.expected, addNoise, py_pure]
    rfl

end Obp
