import Verif.Lemmas.Sampler
import Verif.Lemmas.Smoothing
import Verif.Props.ContinuousDataset
import Verif.Props.EndToEndEmbed

set_option linter.unusedSectionVars false

/-! # Kernelised estimates from simulated data with continuous actions -/

namespace Obp
open Log MeasureTheory ProbabilityTheory Filter Topology Set

variable {Ω S : Type} [MeasurableSpace Ω] {P : Measure Ω} [IsProbabilityMeasure P] {n : ℕ}

theorem actionRange_measurable (lo hi : PyNum ℝ) : MeasurableSet (actionRange lo hi) := by
  have h : actionRange lo hi = (⋂ l, ⋂ (_ : lo = .fin l), Ici l) ∩ ⋂ h, ⋂ (_ : hi = .fin h), Iic h := by
    ext x
    simp [actionRange]
  have h1 : MeasurableSet (⋂ l, ⋂ (_ : lo = .fin l), Ici l) := by
    cases lo with
    | fin l =>
        have : (⋂ l', ⋂ (_ : PyNum.fin l = .fin l'), Ici l') = Ici l := by
          ext x
          simp
        rw [this]
        exact measurableSet_Ici
    | _ => simp
  have h2 : MeasurableSet (⋂ h, ⋂ (_ : hi = .fin h), Iic h) := by
    cases hi with
    | fin l =>
        have : (⋂ l', ⋂ (_ : PyNum.fin l = .fin l'), Iic l') = Iic l := by
          ext x
          simp
        rw [this]
        exact measurableSet_Iic
    | _ => simp
  rw [h]
  exact h1.inter h2

/-- One round: the kernel-weighted reward minus a constant. -/
theorem kernel_round {A p : ℝ → ℝ} (hA : Sampler A p) {T : Set ℝ} (hT : MeasurableSet T) (hpos : ∀ x ∈ T, 0 < p x)
    (hzero : ∀ x, x ∉ T → p x = 0) {U ε : Fin n → Ω → ℝ} (hU : UniformDraws P U) (i : Fin n) (hεi : Integrable (ε i) P)
    (hε : ∫ ω, ε i ω ∂P = 0) (hind : IndepFun (U i) (ε i) P) (k : Kernel) {h : ℝ} (hh : 0 < h) (e r : ℝ) {q : ℝ → ℝ} (hq : Measurable q)
    (hqi : IntegrableOn (fun a => k.fn ((e - a) / h) * q a) T) :
    Integrable (fun ω => k.fn ((e - A (U i ω)) / h) * (q (A (U i ω)) + r * ε i ω) / (h * p (A (U i ω)))) P ∧
      ∫ ω, k.fn ((e - A (U i ω)) / h) * (q (A (U i ω)) + r * ε i ω) / (h * p (A (U i ω))) ∂P = smoothed k.fn T h e q := by
  have hkm : Measurable fun a => k.fn ((e - a) / h) := (kernel_continuous k).measurable.comp (by fun_prop)
  have hpm := hA.meas
  have hcancel : ∀ f : ℝ → ℝ, (fun a => p a * (k.fn ((e - a) / h) * f a / (h * p a))) =
      T.indicator fun a => k.fn ((e - a) / h) * f a / h := fun f => by
    funext a
    by_cases ha : a ∈ T
    · rw [indicator_of_mem ha]
      have := (hpos a ha).ne'
      field_simp
    · rw [indicator_of_notMem ha, hzero a ha, zero_mul]
  have h1 := hA.expect hU i (g := fun a => k.fn ((e - a) / h) * q a / (h * p a)) (by fun_prop) (by
    rw [hcancel q, integrable_indicator_iff hT]
    exact hqi.div_const h)
  have h2 := hA.expect hU i (g := fun a => k.fn ((e - a) / h) * r / (h * p a)) (by fun_prop) (by
    rw [hcancel fun _ => r, integrable_indicator_iff hT]
    exact (((kernel_scaled_integrable k hh e).mul_const r).div_const h).integrableOn)
  have hi2 : IndepFun (fun ω => k.fn ((e - A (U i ω)) / h) * r / (h * p (A (U i ω)))) (ε i) P :=
    IndepFun.comp₀ (φ := fun u => k.fn ((e - A u) / h) * r / (h * p (A u))) (ψ := id) hind (hU.meas i).aemeasurable hεi.aemeasurable h2.1
      aemeasurable_id
  have hprod : Integrable (fun ω => k.fn ((e - A (U i ω)) / h) * r / (h * p (A (U i ω))) * ε i ω) P := hi2.integrable_mul h2.2.1 hεi
  have hsplit : (fun ω => k.fn ((e - A (U i ω)) / h) * (q (A (U i ω)) + r * ε i ω) / (h * p (A (U i ω)))) = fun ω =>
      k.fn ((e - A (U i ω)) / h) * q (A (U i ω)) / (h * p (A (U i ω))) +
        k.fn ((e - A (U i ω)) / h) * r / (h * p (A (U i ω))) * ε i ω := by
    funext ω
    ring
  rw [hsplit]
  refine ⟨h1.2.1.add hprod, ?_⟩
  rw [integral_add h1.2.1 hprod, h1.2.2, hcancel q, MeasureTheory.integral_indicator hT,
    hi2.integral_fun_mul_eq_mul_integral h2.2.1.aestronglyMeasurable hεi.aestronglyMeasurable, hε, mul_zero, add_zero,
    MeasureTheory.integral_div]
  rfl

/-- The samplers behind a batch. -/
theorem batch_samplers {c : ContinuousConfig} {ctx : List (List ℝ)} (hc : c.Samples n ctx) :
    ∃ A p : Fin n → ℝ → ℝ, (∀ i, Sampler (A i) (p i)) ∧ (∀ i, ∀ x ∈ actionRange c.lo c.hi, 0 < p i x) ∧
      (∀ i x, x ∉ actionRange c.lo c.hi → p i x = 0) ∧
      ∀ u : Fin n → ℝ, (∀ i, 0 < u i ∧ u i < 1) →
        c.actions ctx (List.ofFn u) = .ok (List.ofFn fun i => (A i (u i), p i (A i (u i)))) := by
  rcases hc with ⟨f, means, s, hb, hf, hn, hs, hlh⟩ | ⟨hb, l, h, hl, hh, hlh⟩
  · refine ⟨fun i u => truncRvsN (PyNum.standardize (means i) s c.lo) (PyNum.standardize (means i) s c.hi) (means i) s u,
      fun i => normalGivenPdf (means i) s (actionRange c.lo c.hi), fun i => gaussian_sampler (means i) hs hlh,
      fun i x hx => normalGivenPdf_pos hs hlh hx, fun i x hx => if_neg hx, fun u hu => ?_⟩
    have hany : ((List.ofFn means).any fun m => !(PyNum.standardize m s c.lo).ltNum (PyNum.standardize m s c.hi)) = false := by
      rw [List.any_eq_false]
      intro m _
      rw [ltNum_iff.2 ((standardize_below hs c.lo c.hi).2 hlh)]
      simp
    simp only [ContinuousConfig.actions, hb, hf, hn, py_bind_ok, gaussianActions, hany, raiseIf_neg]
    rw [zipWith_ofFn]
    refine mapM_ofFn_ok fun i => ?_
    dsimp only
    rw [truncPdfN_eq hs hlh, py_bind_ok]
    rfl
  · rw [hl, hh]
    have hs := uniform_sampler hlh
    have hd : 0 < h - l := sub_pos.2 hlh
    refine ⟨fun _ u => l + (h - l) * u, fun _ => (actionRange (.fin l) (.fin h)).indicator fun _ => 1 / (h - l), fun _ => hs, fun i x hx => ?_,
      fun i x hx => indicator_of_notMem hx _, fun u hu => ?_⟩
    · dsimp only
      rw [indicator_of_mem hx]
      positivity
    · simp only [ContinuousConfig.actions, hb, hl, hh, uniformActions]
      refine mapM_ofFn_ok fun i => ?_
      have hr : l ≤ l + (h - l) * u i ∧ l + (h - l) * u i ≤ h := by
        constructor <;> nlinarith [(hu i).1, (hu i).2]
      have hmem : l + (h - l) * u i ∈ actionRange (.fin l) (.fin h) := by simpa [actionRange] using hr
      rw [npDiv_ok hd.ne', py_bind_ok, if_pos hr, indicator_of_mem hmem]
      rfl

/-- The batch and both estimates. -/
theorem continuous_pipeline (hn : 0 < n) {c : ContinuousConfig} {rng : NormalRng S} {s0 s : Ω → S} {ctx : List (List ℝ)}
    {U ε : Fin n → Ω → ℝ} (hd : ContinuousDraws P c rng s0 s ctx U ε) (hc : c.Samples n ctx) {r : ℝ} (hr : c.rewardNoise = .fin r)
    {q : Fin n → ℝ → ℝ} (hq : ∀ as : Fin n → ℝ, c.expected ctx (List.ofFn as) = .ok (List.ofFn fun i => q i (as i)))
    (hqm : ∀ i, Measurable (q i)) (k : Kernel) {h : ℝ} (hh : 0 < h) (e qhat : Fin n → ℝ)
    (hqi : ∀ i, IntegrableOn (fun a => k.fn ((e i - a) / h) * q i a) (actionRange c.lo c.hi)) :
    ∃ vI vD : Ω → ℝ,
      (∀ᵐ ω ∂P, ∃ fb s', c.obtain rng (s0 ω) (s ω) (.int n) = .ok (fb, s') ∧ fb.context = ctx ∧
        ContKind.ipw.estimatePolicyValue k (.fin h) (contArgs fb e qhat) = .ok (vI ω) ∧
        ContKind.dr.estimatePolicyValue k (.fin h) (contArgs fb e qhat) = .ok (vD ω)) ∧
      Integrable vI P ∧ ∫ ω, vI ω ∂P = avg (fun i => smoothed k.fn (actionRange c.lo c.hi) h (e i) (q i)) ∧
      Integrable vD P ∧ ∫ ω, vD ω ∂P = avg (fun i => qhat i +
        smoothed k.fn (actionRange c.lo c.hi) h (e i) fun a => q i a - qhat i) := by
  obtain ⟨A, p, hA, hpos, hzero, hact⟩ := batch_samplers hc
  have hT := actionRange_measurable c.lo c.hi
  let g : Ω → ContLog n := fun ω => ⟨e, fun i => A i (U i ω), fun i => q i (A i (U i ω)) + r * ε i ω, fun i => p i (A i (U i ω)), qhat⟩
  have hI := fun i => kernel_round (hA i) hT (hpos i) (hzero i) hd.uniform i (hd.noise_integrable i) (hd.noise_mean i) (hd.indep i) k hh (e i) r
    (hqm i) (hqi i)
  have hD := fun i => kernel_round (hA i) hT (hpos i) (hzero i) hd.uniform i (hd.noise_integrable i) (hd.noise_mean i) (hd.indep i) k hh (e i) r
    ((hqm i).sub_const (qhat i)) (by
      have := (hqi i).sub ((kernel_scaled_integrable k hh (e i)).mul_const (qhat i)).integrableOn
      refine this.congr (Eventually.of_forall fun a => ?_)
      simp only [Pi.sub_apply]
      ring)
  refine ⟨fun ω => avg fun i => k.fn ((e i - A i (U i ω)) / h) * (q i (A i (U i ω)) + r * ε i ω) / (h * p i (A i (U i ω))),
    fun ω => avg qhat + avg fun i => k.fn ((e i - A i (U i ω)) / h) * (q i (A i (U i ω)) - qhat i + r * ε i ω) / (h * p i (A i (U i ω))),
    ?_, ?_, ?_, ?_, ?_⟩
  · filter_upwards [hd.uniform.ae_pos] with ω hω
    have hap := hact (fun i => U i ω) hω
    have hpp : ∀ i, 0 < p i (A i (U i ω)) := fun i => (hA i).pos _ (hω i).1 (hω i).2
    let fb : ContinuousFeedback := ⟨ctx, List.ofFn fun i => A i (U i ω), List.ofFn fun i => q i (A i (U i ω)) + r * ε i ω,
      List.ofFn fun i => p i (A i (U i ω)), List.ofFn fun i => q i (A i (U i ω))⟩
    have hargs : contArgs fb e qhat = (g ω).args := rfl
    have hval : (g ω).Valid := ⟨hn, hpp⟩
    refine ⟨fb, (draws rng.normal n (drawRows rng.normal c.dim n (s ω)).2).2, ?_, rfl, ?_, ?_⟩
    · have hcheck : checkIntMin 1 (.int n : PyScalar ℝ) = .ok (n : ℤ) := checkIntMin_ok.2 ⟨rfl, by omega⟩
      have e1 := hd.contexts ω
      have e2 := hd.uniforms ω
      have e3 := hd.normals ω
      unfold ContinuousConfig.obtain
      rw [hcheck, py_bind_ok]
      simp only [Int.toNat_natCast, e1, e2, hap, py_bind_ok, List.map_ofFn, Function.comp_def, hq, e3, hr, addNoise, zipWith_ofFn]
      rfl
    · rw [hargs, C39_ipw_value hval k hh.ne']
    · rw [hargs, C39_dr_value hval k hh.ne']
      congr 2
      refine avg_congr fun i => ?_
      simp only [g]
      ring
  · simp only [avg]
    exact (integrable_finsetSum _ fun i _ => (hI i).1).div_const _
  · simp only [avg]
    rw [MeasureTheory.integral_div, integral_finsetSum _ fun i _ => (hI i).1]
    simp only [(hI _).2]
  · simp only [avg]
    exact (integrable_const _).add ((integrable_finsetSum _ fun i _ => (hD i).1).div_const _)
  · rw [avg_add qhat fun i => smoothed k.fn (actionRange c.lo c.hi) h (e i) fun a => q i a - qhat i]
    simp only [avg]
    rw [integral_add (integrable_const _) ((integrable_finsetSum _ fun i _ => (hD i).1).div_const _), MeasureTheory.integral_div,
      MeasureTheory.integral_div,
      integral_finsetSum _ fun i _ => (hD i).1]
    simp only [(hD _).2, integral_const, probReal_univ, one_smul]

/-- **C159.** Data from the dataset with continuous actions, logged by a policy function with noise or by the uniform policy, within any
bounds: the expectation of the kernelised inverse probability weighting estimate is the average, over the rounds, of the expected reward
smoothed by the kernel over the allowed actions around the evaluation action. -/
theorem C159_ipw (hn : 0 < n) {c : ContinuousConfig} {rng : NormalRng S} {s0 s : Ω → S} {ctx : List (List ℝ)} {U ε : Fin n → Ω → ℝ}
    (hd : ContinuousDraws P c rng s0 s ctx U ε) (hc : c.Samples n ctx) {r : ℝ} (hr : c.rewardNoise = .fin r)
    {q : Fin n → ℝ → ℝ} (hq : ∀ as : Fin n → ℝ, c.expected ctx (List.ofFn as) = .ok (List.ofFn fun i => q i (as i)))
    (hqm : ∀ i, Measurable (q i)) (k : Kernel) {h : ℝ} (hh : 0 < h) (e qhat : Fin n → ℝ)
    (hqi : ∀ i, IntegrableOn (fun a => k.fn ((e i - a) / h) * q i a) (actionRange c.lo c.hi)) :
    ∃ V, c.IsEstimate P rng s0 s .ipw k h e qhat V ∧
      ∫ ω, V ω ∂P = avg fun i => (∫ a in actionRange c.lo c.hi, k.fn ((e i - a) / h) * q i a) / h := by
  obtain ⟨vI, vD, h1, h2, h3, -, -⟩ := continuous_pipeline hn hd hc hr hq hqm k hh e qhat hqi
  refine ⟨vI, ⟨?_, h2⟩, h3⟩
  filter_upwards [h1] with ω ⟨fb, s', a, _, b, _⟩
  exact ⟨fb, s', a, b⟩

/-- **C159.** The expectation of the kernelised doubly robust estimate is the average prediction plus the average smoothed error of the
predictions. -/
theorem C159_dr (hn : 0 < n) {c : ContinuousConfig} {rng : NormalRng S} {s0 s : Ω → S} {ctx : List (List ℝ)} {U ε : Fin n → Ω → ℝ}
    (hd : ContinuousDraws P c rng s0 s ctx U ε) (hc : c.Samples n ctx) {r : ℝ} (hr : c.rewardNoise = .fin r)
    {q : Fin n → ℝ → ℝ} (hq : ∀ as : Fin n → ℝ, c.expected ctx (List.ofFn as) = .ok (List.ofFn fun i => q i (as i)))
    (hqm : ∀ i, Measurable (q i)) (k : Kernel) {h : ℝ} (hh : 0 < h) (e qhat : Fin n → ℝ)
    (hqi : ∀ i, IntegrableOn (fun a => k.fn ((e i - a) / h) * q i a) (actionRange c.lo c.hi)) :
    ∃ V, c.IsEstimate P rng s0 s .dr k h e qhat V ∧
      ∫ ω, V ω ∂P = avg fun i => qhat i + (∫ a in actionRange c.lo c.hi, k.fn ((e i - a) / h) * (q i a - qhat i)) / h := by
  obtain ⟨vI, vD, h1, -, -, h2, h3⟩ := continuous_pipeline hn hd hc hr hq hqm k hh e qhat hqi
  refine ⟨vD, ⟨?_, h2⟩, h3⟩
  filter_upwards [h1] with ω ⟨fb, s', a, _, _, b⟩
  exact ⟨fb, s', a, b⟩

theorem contTruth {c : ContinuousConfig} {ctx : List (List ℝ)} (hn : 0 < n)
    {q : Fin n → ℝ → ℝ} (hq : ∀ as : Fin n → ℝ, c.expected ctx (List.ofFn as) = .ok (List.ofFn fun i => q i (as i)))
    (x : Arr2 ℝ) (hx : x.rows = ctx) (hxd : x.d = c.dim) (hxn : x.n = n) (e : Fin n → ℝ) :
    c.groundTruth (.arr x) (some (List.ofFn e)) = .ok (avg fun i => q i (e i)) := by
  simp [ContinuousConfig.groundTruth, checkArray2, hxd, hxn, raiseIf, hx, hq, npMean_ofFn hn, avg]

theorem avg_abs_le (hn : 0 < n) {f : Fin n → ℝ} {B : ℝ} (h : ∀ i, |f i| ≤ B) : |avg f| ≤ B := by
  have hn' : (0 : ℝ) < n := by exact_mod_cast hn
  rw [avg, abs_div, abs_of_pos hn', div_le_iff₀ hn']
  refine (Finset.abs_sum_le_sum_abs _ _).trans ((Finset.sum_le_sum fun i _ => h i).trans ?_)
  simp [mul_comm]

/-- **C159.** If the kernel around every evaluation action stays within the bounds and the expected reward changes by at most `L` per unit
of action, the kernelised inverse probability weighting estimate differs in expectation by at most `L * h` from the ground truth of the
dataset. -/
theorem C159_ipw_bias (hn : 0 < n) {c : ContinuousConfig} {rng : NormalRng S} {s0 s : Ω → S} {ctx : List (List ℝ)} {U ε : Fin n → Ω → ℝ}
    (hd : ContinuousDraws P c rng s0 s ctx U ε) (hc : c.Samples n ctx) {r : ℝ} (hr : c.rewardNoise = .fin r)
    {q : Fin n → ℝ → ℝ} (hq : ∀ as : Fin n → ℝ, c.expected ctx (List.ofFn as) = .ok (List.ofFn fun i => q i (as i)))
    (hqm : ∀ i, Measurable (q i)) (k : Kernel) {h : ℝ} (hh : 0 < h) (e qhat : Fin n → ℝ)
    {L : ℝ} (hL : 0 ≤ L) (hlip : ∀ i, ∀ a ∈ actionRange c.lo c.hi, |q i a - q i (e i)| ≤ L * |a - e i|)
    (hin : ∀ i a, a ∉ actionRange c.lo c.hi → k.fn ((e i - a) / h) = 0)
    (x : Arr2 ℝ) (hx : x.rows = ctx) (hxd : x.d = c.dim) (hxn : x.n = n) :
    ∃ V truth, c.IsEstimate P rng s0 s .ipw k h e qhat V ∧ c.groundTruth (.arr x) (some (List.ofFn e)) = .ok truth ∧
      |∫ ω, V ω ∂P - truth| ≤ L * h := by
  have hT := actionRange_measurable c.lo c.hi
  have hqi := fun i => lipschitz_integrable k hT hh (e i) (hqm i) (hlip i)
  obtain ⟨V, hV, hval⟩ := C159_ipw hn hd hc hr hq hqm k hh e qhat hqi
  refine ⟨V, _, hV, contTruth hn hq x hx hxd hxn e, ?_⟩
  rw [hval, ← avg_sub]
  refine avg_abs_le hn fun i => ?_
  have h1 := smoothed_sub k (T := actionRange c.lo c.hi) hh (e i) (q i (e i)) (hqi i)
  rw [smoothed_const k hh (e i) _ (hin i)] at h1
  refine le_trans (le_of_eq (congrArg abs h1.symm)) ?_
  exact smoothed_lipschitz k hT hh (e i) hL (hlip i)

/-- **C159.** With predictions that are exact at the evaluation actions the kernelised doubly robust estimate differs in expectation by at
most `L * h` from the ground truth, for every kernel and wherever the evaluation actions lie. -/
theorem C159_dr_exact (hn : 0 < n) {c : ContinuousConfig} {rng : NormalRng S} {s0 s : Ω → S} {ctx : List (List ℝ)} {U ε : Fin n → Ω → ℝ}
    (hd : ContinuousDraws P c rng s0 s ctx U ε) (hc : c.Samples n ctx) {r : ℝ} (hr : c.rewardNoise = .fin r)
    {q : Fin n → ℝ → ℝ} (hq : ∀ as : Fin n → ℝ, c.expected ctx (List.ofFn as) = .ok (List.ofFn fun i => q i (as i)))
    (hqm : ∀ i, Measurable (q i)) (k : Kernel) {h : ℝ} (hh : 0 < h) (e : Fin n → ℝ)
    {L : ℝ} (hL : 0 ≤ L) (hlip : ∀ i, ∀ a ∈ actionRange c.lo c.hi, |q i a - q i (e i)| ≤ L * |a - e i|)
    (x : Arr2 ℝ) (hx : x.rows = ctx) (hxd : x.d = c.dim) (hxn : x.n = n) :
    ∃ V truth, c.IsEstimate P rng s0 s .dr k h e (fun i => q i (e i)) V ∧ c.groundTruth (.arr x) (some (List.ofFn e)) = .ok truth ∧
      |∫ ω, V ω ∂P - truth| ≤ L * h := by
  have hT := actionRange_measurable c.lo c.hi
  have hqi := fun i => lipschitz_integrable k hT hh (e i) (hqm i) (hlip i)
  obtain ⟨V, hV, hval⟩ := C159_dr hn hd hc hr hq hqm k hh e (fun i => q i (e i)) hqi
  refine ⟨V, _, hV, contTruth hn hq x hx hxd hxn e, ?_⟩
  rw [hval, ← avg_sub]
  refine avg_abs_le hn fun i => ?_
  rw [add_sub_cancel_left]
  exact smoothed_lipschitz k hT hh (e i) hL (hlip i)

/-- **C159.** As the bandwidth shrinks, the expectations of both estimates approach the ground truth of the dataset, whatever the
predictions, if the expected rewards are continuous, the evaluation actions lie strictly within the bounds and, for the Gaussian kernel, the
expected rewards grow at most quadratically in the allowed actions. -/
theorem C159_limit (hn : 0 < n) {c : ContinuousConfig} {rng : NormalRng S} {s0 s : Ω → S} {ctx : List (List ℝ)} {U ε : Fin n → Ω → ℝ}
    (hd : ContinuousDraws P c rng s0 s ctx U ε) (hc : c.Samples n ctx) {r : ℝ} (hr : c.rewardNoise = .fin r)
    {q : Fin n → ℝ → ℝ} (hq : ∀ as : Fin n → ℝ, c.expected ctx (List.ofFn as) = .ok (List.ofFn fun i => q i (as i)))
    (hqc : ∀ i, Continuous (q i)) (k : Kernel) (e qhat : Fin n → ℝ)
    (hb : k = .gaussian → ∀ i, ∃ C, ∀ a ∈ actionRange c.lo c.hi, |q i a| ≤ C * (1 + a ^ 2))
    (hlo : ∀ i l, c.lo = .fin l → l < e i) (hhi : ∀ i b, c.hi = .fin b → e i < b)
    (x : Arr2 ℝ) (hx : x.rows = ctx) (hxd : x.d = c.dim) (hxn : x.n = n) :
    ∃ (vI vD : ℝ → Ω → ℝ) (truth : ℝ), (∀ h > 0, c.IsEstimate P rng s0 s .ipw k h e qhat (vI h) ∧
        c.IsEstimate P rng s0 s .dr k h e qhat (vD h)) ∧
      c.groundTruth (.arr x) (some (List.ofFn e)) = .ok truth ∧
      Tendsto (fun h => ∫ ω, vI h ω ∂P) (𝓝[>] 0) (𝓝 truth) ∧ Tendsto (fun h => ∫ ω, vD h ω ∂P) (𝓝[>] 0) (𝓝 truth) := by
  have hT := actionRange_measurable c.lo c.hi
  have hTe : ∀ i, actionRange c.lo c.hi ∈ 𝓝 (e i) := fun i => actionRange_nhds (hlo i) (hhi i)
  have hqi := fun {h : ℝ} (hh : 0 < h) i => continuous_kernel_integrable k hT hh (e i) (hqc i) (fun hk => hb hk i)
  choose vI hI using fun h : {h : ℝ // 0 < h} => C159_ipw hn hd hc hr hq (fun i => (hqc i).measurable) k h.2 e qhat (hqi h.2)
  choose vD hD using fun h : {h : ℝ // 0 < h} => C159_dr hn hd hc hr hq (fun i => (hqc i).measurable) k h.2 e qhat (hqi h.2)
  classical
  refine ⟨fun h => if hh : 0 < h then vI ⟨h, hh⟩ else 0, fun h => if hh : 0 < h then vD ⟨h, hh⟩ else 0, avg fun i => q i (e i), fun h hh => ?_,
    contTruth hn hq x hx hxd hxn e, ?_, ?_⟩
  · simp only [dif_pos hh]
    exact ⟨(hI ⟨h, hh⟩).1, (hD ⟨h, hh⟩).1⟩
  · have : Tendsto (fun h => avg fun i => smoothed k.fn (actionRange c.lo c.hi) h (e i) (q i)) (𝓝[>] 0) (𝓝 (avg fun i => q i (e i))) := by
      unfold avg
      exact (tendsto_finsetSum _ fun i _ => smoothed_tendsto k hT (hTe i) (hqc i).measurable (hqc i).continuousAt fun hk => hb hk i).div_const _
    refine this.congr' ?_
    filter_upwards [self_mem_nhdsWithin] with h hh
    simp only [dif_pos (show 0 < h from hh)]
    exact (hI ⟨h, hh⟩).2.symm
  · have h1 : ∀ i, Tendsto (fun h => qhat i + smoothed k.fn (actionRange c.lo c.hi) h (e i) fun a => q i a - qhat i) (𝓝[>] 0)
        (𝓝 (qhat i + (q i (e i) - qhat i))) := fun i => by
      refine tendsto_const_nhds.add (smoothed_tendsto (q := fun a => q i a - qhat i) k hT (hTe i) ((hqc i).measurable.sub_const _)
        ((hqc i).continuousAt.sub continuousAt_const) fun hk => ?_)
      obtain ⟨C, hC⟩ := hb hk i
      refine ⟨C + |qhat i|, fun a ha => (abs_sub _ _).trans ?_⟩
      nlinarith [hC a ha, mul_nonneg (abs_nonneg (qhat i)) (sq_nonneg a)]
    have : Tendsto (fun h => avg fun i => qhat i + smoothed k.fn (actionRange c.lo c.hi) h (e i) fun a => q i a - qhat i) (𝓝[>] 0)
        (𝓝 (avg fun i => qhat i + (q i (e i) - qhat i))) := by
      unfold avg
      exact (tendsto_finsetSum _ fun i _ => h1 i).div_const _
    simp only [add_sub_cancel] at this
    refine this.congr' ?_
    filter_upwards [self_mem_nhdsWithin] with h hh
    simp only [dif_pos (show 0 < h from hh)]
    exact (hD ⟨h, hh⟩).2.symm

/-- **C159, limit.** At a bound the smoothing loses half of the kernel: if all expected rewards are one and the evaluation policy takes the
largest allowed action, the ground truth is one, and the kernelised inverse probability weighting estimate with a compactly supported kernel
has expectation one half for every bandwidth up to the width of the range. -/
theorem C159_edge (hn : 0 < n) {c : ContinuousConfig} {rng : NormalRng S} {s0 s : Ω → S} {ctx : List (List ℝ)} {U ε : Fin n → Ω → ℝ}
    (hd : ContinuousDraws P c rng s0 s ctx U ε) (hc : c.Samples n ctx) {r : ℝ} (hr : c.rewardNoise = .fin r)
    (hq : ∀ as : Fin n → ℝ, c.expected ctx (List.ofFn as) = .ok (List.ofFn fun _ : Fin n => 1))
    {k : Kernel} (hk : k ≠ .gaussian) {l b h : ℝ} (hl : c.lo = .fin l) (hb : c.hi = .fin b) (hh : 0 < h) (hbl : h ≤ b - l) (qhat : Fin n → ℝ)
    (x : Arr2 ℝ) (hx : x.rows = ctx) (hxd : x.d = c.dim) (hxn : x.n = n) :
    ∃ V, c.IsEstimate P rng s0 s .ipw k h (fun _ : Fin n => b) qhat V ∧
      c.groundTruth (.arr x) (some (List.ofFn fun _ : Fin n => b)) = .ok 1 ∧ ∫ ω, V ω ∂P = 1 / 2 := by
  have hn' : (n : ℝ) ≠ 0 := by exact_mod_cast hn.ne'
  obtain ⟨V, hV, hval⟩ := C159_ipw (q := fun _ _ => 1) hn hd hc hr hq (fun _ => measurable_const) k hh (fun _ => b) qhat fun i =>
    ((kernel_scaled_integrable k hh b).mul_const 1).integrableOn
  refine ⟨V, hV, ?_, ?_⟩
  · rw [contTruth (q := fun _ _ => 1) hn hq x hx hxd hxn]
    simp [avg, hn']
  · rw [hval, hl, hb]
    have := smoothed_edge hk hh hbl
    unfold smoothed at this
    simp only [this, avg]
    simp [hn']

theorem abs_rpow_le_sq {p b : ℝ} (h0 : 0 ≤ p) (h2 : p ≤ 2) : |b| ^ p ≤ 1 + b ^ 2 := by
  rcases le_or_gt |b| 1 with h | h
  · have := Real.rpow_le_one (abs_nonneg b) h h0
    nlinarith [sq_nonneg b]
  · have := Real.rpow_le_rpow_of_exponent_le h.le h2
    rw [Real.rpow_ofNat, sq_abs] at this
    linarith

/-- **C159.** The built-in expected reward functions meet the conditions on the expected rewards: round by round they are continuous functions
of the action that grow at most quadratically. -/
theorem C159_rewards (c : ContinuousConfig) (rng : NormalRng S) (s0 : S) (hu : ∀ s, 0 ≤ (rng.uniform s).1 ∧ (rng.uniform s).1 ≤ 1)
    (x : Fin n → List ℝ)
    (h : c.reward = none ∨ c.reward = some (fun ctx as => .ok (linearRewardContinuous rng s0 c.dim ctx as)) ∨
      c.reward = some (fun ctx as => .ok (quadraticRewardContinuous rng s0 c.dim ctx as))) :
    ∃ q : Fin n → ℝ → ℝ, (∀ i, Continuous (q i)) ∧ (∀ i, ∃ C, ∀ a, |q i a| ≤ C * (1 + a ^ 2)) ∧
      ∀ as : Fin n → ℝ, c.expected (List.ofFn x) (List.ofFn as) = .ok (List.ofFn fun i => q i (as i)) := by
  rcases h with h | h | h
  · refine ⟨fun _ => contextfreeRewardContinuous, fun _ => ?_, fun _ => ⟨7, fun a => ?_⟩, fun as => ?_⟩
    · unfold contextfreeRewardContinuous
      fun_prop (disch := norm_num)
    · unfold contextfreeRewardContinuous
      have h1 := abs_rpow_le_sq (p := 1.5) (b := a) (by norm_num) (by norm_num)
      have h0 : (0 : ℝ) ≤ |a| ^ (1.5 : ℝ) := Real.rpow_nonneg (abs_nonneg a) _
      rw [abs_le]
      constructor <;> nlinarith [sq_nonneg (a - 1), sq_nonneg (a + 1)]
    · simp [ContinuousConfig.expected, h, List.map_ofFn, Function.comp_def]
  · refine ⟨fun i a => |dot (x i) (draws rng.normal c.dim s0).1 - a| ^ (rng.uniform (draws rng.normal c.dim s0).2).1 +
      (rng.uniform (rng.uniform (draws rng.normal c.dim s0).2).2).1, fun i => ?_, fun i => ?_, fun as => ?_⟩
    · exact (Continuous.rpow_const (by fun_prop) fun a => Or.inr (hu _).1).add continuous_const
    · dsimp only
      generalize dot (x i) (draws rng.normal c.dim s0).1 = t
      obtain ⟨hp0, hp1⟩ := hu (draws rng.normal c.dim s0).2
      obtain ⟨hb0, hb1⟩ := hu (rng.uniform (draws rng.normal c.dim s0).2).2
      refine ⟨3 + 2 * t ^ 2, fun a => ?_⟩
      have h1 := abs_rpow_le_sq (b := t - a) hp0 (by linarith)
      have h0 := Real.rpow_nonneg (abs_nonneg (t - a)) (rng.uniform (draws rng.normal c.dim s0).2).1
      rw [abs_of_nonneg (by linarith)]
      nlinarith [sq_nonneg (t + a), mul_nonneg (sq_nonneg t) (sq_nonneg a), sq_nonneg a]
    · simp [ContinuousConfig.expected, h, linearRewardContinuous, zipWith_ofFn]
  · have hf : ∃ f : List ℝ → ℝ → ℝ, (∀ y, Continuous (f y)) ∧ (∀ y, ∃ C, ∀ a, |f y a| ≤ C * (1 + a ^ 2)) ∧
        ∀ ctx as, quadraticRewardContinuous rng s0 c.dim ctx as = List.zipWith f ctx as := by
      refine ⟨fun x a => (rng.normal (draws rng.normal c.dim (draws rng.normal c.dim (draws rng.normal c.dim s0).2).2).2).1 * a *
          dot x (draws rng.normal c.dim s0).1 + dot x (draws rng.normal c.dim (draws rng.normal c.dim s0).2).1 * a +
          (a - dot x (draws rng.normal c.dim (draws rng.normal c.dim (draws rng.normal c.dim s0).2).2).1) ^ 2,
        fun y => by fun_prop, fun y => ?_, fun ctx as => rfl⟩
      · beta_reduce
        generalize dot y (draws rng.normal c.dim s0).1 = u
        generalize dot y (draws rng.normal c.dim (draws rng.normal c.dim s0).2).1 = v
        generalize dot y (draws rng.normal c.dim (draws rng.normal c.dim (draws rng.normal c.dim s0).2).2).1 = w
        generalize (rng.normal (draws rng.normal c.dim (draws rng.normal c.dim (draws rng.normal c.dim s0).2).2).2).1 = z
        refine ⟨|z * u| + |v| + 2 + 2 * w ^ 2, fun a => ?_⟩
        have h1 : |a| ≤ 1 + a ^ 2 := by rw [abs_le]; constructor <;> nlinarith [sq_nonneg (a - 1), sq_nonneg (a + 1)]
        have h2 : |z * a * u| ≤ |z * u| * (1 + a ^ 2) := by
          rw [show z * a * u = z * u * a by ring, abs_mul]
          exact mul_le_mul_of_nonneg_left h1 (abs_nonneg _)
        have h3 : |v * a| ≤ |v| * (1 + a ^ 2) := by
          rw [abs_mul]
          exact mul_le_mul_of_nonneg_left h1 (abs_nonneg _)
        have h4 : |(a - w) ^ 2| ≤ (2 + 2 * w ^ 2) * (1 + a ^ 2) := by
          rw [abs_of_nonneg (sq_nonneg _)]
          nlinarith [sq_nonneg (a + w), mul_nonneg (sq_nonneg a) (sq_nonneg w)]
        calc _ ≤ |z * a * u| + |v * a| + |(a - w) ^ 2| := abs_add_three _ _ _
          _ ≤ (|z * u| + |v| + 2 + 2 * w ^ 2) * (1 + a ^ 2) := by linarith
    obtain ⟨f, hf, hg, hv⟩ := hf
    exact ⟨fun i => f (x i), fun i => hf _, fun i => hg _, fun as => by simp [ContinuousConfig.expected, h, hv, zipWith_ofFn]⟩

/-- **C159.** With the built-in expected reward functions the expectations of both estimates approach the ground truth of the dataset for all
five kernels and whatever the bounds, if the evaluation actions lie strictly within them. -/
theorem C159_limit_builtin (hn : 0 < n) {c : ContinuousConfig} {rng : NormalRng S} {s0 s : Ω → S} {ctx : List (List ℝ)} {U ε : Fin n → Ω → ℝ}
    (hd : ContinuousDraws P c rng s0 s ctx U ε) (hc : c.Samples n ctx) {r : ℝ} (hr : c.rewardNoise = .fin r)
    {T : Type} (rrng : NormalRng T) (t0 : T) (hu : ∀ t, 0 ≤ (rrng.uniform t).1 ∧ (rrng.uniform t).1 ≤ 1)
    (hrew : c.reward = none ∨ c.reward = some (fun ctx as => .ok (linearRewardContinuous rrng t0 c.dim ctx as)) ∨
      c.reward = some (fun ctx as => .ok (quadraticRewardContinuous rrng t0 c.dim ctx as)))
    (k : Kernel) (e qhat : Fin n → ℝ) (hlo : ∀ i l, c.lo = .fin l → l < e i) (hhi : ∀ i b, c.hi = .fin b → e i < b)
    (x : Arr2 ℝ) (hx : x.rows = ctx) (hxd : x.d = c.dim) (hxn : x.n = n) :
    ∃ (vI vD : ℝ → Ω → ℝ) (truth : ℝ), (∀ h > 0, c.IsEstimate P rng s0 s .ipw k h e qhat (vI h) ∧
        c.IsEstimate P rng s0 s .dr k h e qhat (vD h)) ∧
      c.groundTruth (.arr x) (some (List.ofFn e)) = .ok truth ∧
      Tendsto (fun h => ∫ ω, vI h ω ∂P) (𝓝[>] 0) (𝓝 truth) ∧ Tendsto (fun h => ∫ ω, vD h ω ∂P) (𝓝[>] 0) (𝓝 truth) := by
  subst hxn
  subst hx
  obtain ⟨q, hq, hg, he⟩ := C159_rewards c rrng t0 hu (fun i : Fin x.n => List.ofFn fun j : Fin x.d => x.val i j) hrew
  exact C159_limit hn hd hc hr he hq k e qhat (fun _ i => (hg i).imp fun _ h a _ => h a) hlo hhi x rfl hxd rfl

/-! ### such draws exist -/

/-- A generator that hands out a list of numbers. -/
def exListRng : NormalRng (List ℝ) where
  normal s := (s.headD 0, s.tail)
  uniform s := (s.headD 0, s.tail)

/-- A dataset with one-dimensional contexts, actions between zero and one and expected reward `f`. -/
def exContConfig (f : ℝ → ℝ) : ContinuousConfig where
  dim := 1
  actionNoise := .fin 1
  rewardNoise := .fin 3
  lo := .fin 0
  hi := .fin 1
  behavior := none
  reward := some fun _ as => .ok (as.map f)

theorem exContDraws (f : ℝ → ℝ) : ContinuousDraws (exUnifs 4) (exContConfig f) exListRng
    (fun ω => [Int.fract (ω 0), Int.fract (ω 1)]) (fun ω => [5, 6, Int.fract (ω 2) - 1 / 2, Int.fract (ω 3) - 1 / 2]) (n := 2) [[5], [6]]
    (fun i ω => Int.fract (ω (i.castLE (by norm_num)))) (fun i ω => Int.fract (ω (i.natAdd 2)) - 1 / 2) := by
  have h4 := exUnifs_draws (n := 1) 4
  have hu := h4.uniform 0
  have hU : UniformDraws (exUnifs 4) (fun (k : Fin 4) ω => Int.fract (ω k)) := hu
  have hmap := fun k : Fin 4 => hU.map_eq k
  have hint : ∀ k : Fin 4, Integrable (fun ω => Int.fract (ω k)) (exUnifs 4) := fun k =>
    Integrable.of_bound (hU.meas k).aestronglyMeasurable 1 (Eventually.of_forall fun ω => by
      rw [Real.norm_of_nonneg (Int.fract_nonneg _)]
      exact (Int.fract_lt_one _).le)
  have hval : ∀ k : Fin 4, ∫ ω, Int.fract (ω k) ∂(exUnifs 4) = 1 / 2 := fun k => by
    have h1 := integral_map (μ := exUnifs 4) (hU.meas k).aemeasurable (f := fun x : ℝ => x) measurable_id.aestronglyMeasurable
    rw [hmap k] at h1
    rw [← h1, ← integral_Ioc_eq_integral_Ioo, ← intervalIntegral.integral_of_le zero_le_one, integral_id]
    norm_num
  refine ⟨fun ω => ?_, fun ω => ?_, fun ω => ?_, ⟨fun i => hU.meas _, fun i ω => hU.range _ ω, fun i t a b => hU.cdf _ t a b⟩,
    fun i => (hint _).sub (integrable_const _), fun i => ?_, fun i => ?_⟩
  · simp [drawRows, draws, exListRng, exContConfig]
  · simp [draws, exListRng, List.ofFn_succ]
  · simp [drawRows, draws, exListRng, exContConfig, List.ofFn_succ]
  · rw [integral_sub (hint _) (integrable_const _), hval]
    simp
  · have := (h4.indep 0).indepFun (i := i.castLE (by norm_num)) (j := i.natAdd 2) (by
      intro h
      have := congrArg Fin.val h
      simp at this)
    exact this.comp measurable_id (measurable_id.sub_const (1 / 2))

theorem exCont_samples (f : ℝ → ℝ) : (exContConfig f).Samples 2 [[5], [6]] := Or.inr ⟨rfl, 0, 1, rfl, rfl, one_pos⟩

/-- The contexts as an array. -/
def exContCtx : Arr2 ℝ := ⟨2, 1, fun i _ => if i = 0 then 5 else 6⟩

theorem exContCtx_rows : exContCtx.rows = [[5], [6]] := by
  simp [Arr2.rows, exContCtx, List.ofFn_succ]

/-- The conditions on the built-in functions are met, for instance by a generator that hands out ones. -/
example : ∃ rng : NormalRng Unit, ∀ s, 0 ≤ (rng.uniform s).1 ∧ (rng.uniform s).1 ≤ 1 :=
  ⟨⟨fun s => (1, s), fun s => (1, s)⟩, fun _ => ⟨zero_le_one, le_rfl⟩⟩

/-- Rewards `a ^ 2`, both evaluation actions one half, triangular kernel with bandwidth one quarter. -/
example := C159_ipw_bias (P := exUnifs 4) two_pos (exContDraws fun a => a ^ 2) (exCont_samples _) (r := 3) rfl (q := fun _ a => a ^ 2)
  (fun as => by simp [ContinuousConfig.expected, exContConfig, List.ofFn_succ]) (fun _ => by fun_prop) .triangular (h := 1 / 4) (by norm_num)
  (fun _ => 1 / 2) (fun _ => 0) (L := 2) (by norm_num)
  (fun _ a ha => by
    have h3 : (0 : ℝ) ≤ a ∧ a ≤ 1 := by simpa [actionRange, exContConfig] using ha
    rw [sq_sub_sq, abs_mul]
    exact mul_le_mul_of_nonneg_right (abs_le.2 ⟨by linarith, by linarith⟩) (abs_nonneg _))
  (fun _ a ha => by
    refine C38_support (by decide) ?_
    have h3 : ¬ ((0 : ℝ) ≤ a ∧ a ≤ 1) := fun h => ha (by simpa [actionRange, exContConfig] using h)
    rw [not_and_or, not_le, not_le] at h3
    rw [le_abs]
    rcases h3 with h3 | h3
    · exact Or.inl (by linarith)
    · exact Or.inr (by linarith))
  exContCtx exContCtx_rows rfl rfl

/-- The same with the Gaussian kernel, different evaluation actions and any predictions, as the bandwidth shrinks. -/
example := C159_limit (P := exUnifs 4) two_pos (exContDraws fun a => a ^ 2) (exCont_samples _) (r := 3) rfl (q := fun _ a => a ^ 2)
  (fun as => by simp [ContinuousConfig.expected, exContConfig, List.ofFn_succ]) (fun _ => by fun_prop) .gaussian ![1 / 2, 1 / 3] ![7, 8]
  (fun _ _ => ⟨1, fun a _ => by
    rw [abs_of_nonneg (sq_nonneg a)]
    linarith⟩)
  (fun i l hl => by
    cases hl
    fin_cases i <;> norm_num)
  (fun i l hl => by
    cases hl
    fin_cases i <;> norm_num)
  exContCtx exContCtx_rows rfl rfl

/-- The built-in reward without contexts, for the Gaussian kernel. -/
example := C159_limit_builtin (P := exUnifs 4) (c := { exContConfig id with reward := none }) two_pos
  (by exact { exContDraws id with }) (exCont_samples id) (r := 3) rfl
  (⟨fun s => (1, s), fun s => (1 / 2, s)⟩ : NormalRng Unit) () (fun _ => by norm_num) (Or.inl rfl) .gaussian ![1 / 2, 1 / 3] ![7, 8]
  (fun i l hl => by
    cases hl
    fin_cases i <;> norm_num)
  (fun i l hl => by
    cases hl
    fin_cases i <;> norm_num)
  exContCtx exContCtx_rows rfl rfl

/-- The edge theorem applied. -/
example := C159_edge (P := exUnifs 4) two_pos (exContDraws fun _ => 1) (exCont_samples _) (r := 3) rfl
  (fun as => by simp [ContinuousConfig.expected, exContConfig, List.ofFn_succ]) (k := .epanechnikov) (by decide) (l := 0) (b := 1) (h := 1 / 2)
  rfl rfl (by norm_num) (by norm_num) (fun _ => 0) exContCtx exContCtx_rows rfl rfl

end Obp
