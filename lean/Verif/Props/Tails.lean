import Verif.Lemmas.Tails
import Verif.Props.AsymptoticNormality
import Verif.Props.NormalMulti
import Verif.Props.NormalSlate
import Verif.Props.NormalContinuous
import Verif.Props.NormalEmbed
import Mathlib.Analysis.Complex.ExponentialBounds

set_option linter.unusedSectionVars false

/-!
# Large errors

C189: for every number of rounds, errors of the distance `t` or more have exponentially small probability. Calls that fail
count as errors.
-/

namespace Obp
open MeasureTheory ProbabilityTheory Filter Topology Log

section single
open LogStream

variable {Ω C : Type} [MeasurableSpace Ω] [MeasurableSpace C] {A L : ℕ} {P : Measure Ω} [IsProbabilityMeasure P]
variable {s : LogStream Ω C A} {piB m : C → Fin A → ℝ} {pos : C → Fin L} {piE q : C → Fin A → Fin L → ℝ}

/-- **C189.** Inverse propensity weighting, unclipped: weighted rewards of a round in `[a, b]`. -/
theorem C189_ipw (hs : s.LoggedBy P piB m) (hE : Covers piB pos piE) {lam : Lam ℝ} (hl : NotClipped lam piB pos piE) {a b : ℝ}
    (hb : ∀ᵐ ω ∂P, s.ipwTerm piB pos piE 0 ω ∈ Set.Icc a b) {n : ℕ} (hn : 0 < n) {t : ℝ} (ht : 0 ≤ t) :
    P.real {ω | Misses ((⟨.ipw, lam, false⟩ : Estimator ℝ).estimatePolicyValue (s.log piB pos piE q n ω).args)
      (s.value P pos piE m) t} ≤ 2 * Real.exp (-(2 * n * t ^ 2 / (b - a) ^ 2)) := by
  have hF : Measurable fun x : C × Fin A × ℝ => x.2.2 * (piE x.1 x.2.1 (pos x.1) / piB x.1 x.2.1) :=
    (measurable_snd.comp measurable_snd).mul (hs.weightFn_meas hE)
  have hi : Integrable (s.ipwTerm piB pos piE 0) P := Integrable.of_mem_Icc a b (hF.comp (hs.iid.meas 0)).aemeasurable hb
  refine misses_mean hs.iid hF hb (hs.ipwTerm_mean hE hi) hn ht ?_
  filter_upwards [hs.log_valid (q := q) hE] with ω hω
  rw [value_roundReward (hω n hn)]
  simp only [roundReward, clip_weight hl]
  exact congrArg Except.ok (avg_meanTo (fun i => s.ipwTerm piB pos piE i ω) n)

/-- **C189.** Rewards in `[0, R]` and weights at most `W`. -/
theorem C189_ipw_bounded (hs : s.LoggedBy P piB m) (hE : Covers piB pos piE) {lam : Lam ℝ} (hl : NotClipped lam piB pos piE) {R W : ℝ}
    (hR : ∀ ω, s.rew 0 ω ∈ Set.Icc 0 R) (hW : ∀ c a, piE c a (pos c) / piB c a ≤ W) {n : ℕ} (hn : 0 < n) {t : ℝ} (ht : 0 ≤ t) :
    P.real {ω | Misses ((⟨.ipw, lam, false⟩ : Estimator ℝ).estimatePolicyValue (s.log piB pos piE q n ω).args)
      (s.value P pos piE m) t} ≤ 2 * Real.exp (-(2 * n * t ^ 2 / (W * R) ^ 2)) := by
  have hw0 : ∀ c a, 0 ≤ piE c a (pos c) / piB c a := fun c a => div_nonneg ((hE.dist c _).nonneg a) ((hs.piB_dist c).nonneg a)
  have := C189_ipw (q := q) hs hE hl (a := 0) (b := W * R) (ae_of_all _ fun ω => ⟨mul_nonneg (hR ω).1 (hw0 _ _), by
    rw [mul_comm W]
    exact mul_le_mul (hR ω).2 (hW _ _) (hw0 _ _) ((hR ω).1.trans (hR ω).2)⟩) hn ht
  rwa [sub_zero] at this

/-- **C189.** Doubly robust estimates (unclipped; switch and optimistic shrinkage at `lambda_` infinite), for every reward model,
right or wrong. -/
theorem C189_dr (hs : s.LoggedBy P piB m) (hE : Covers piB pos piE) (hi : Integrable (s.ipwTerm piB pos piE 0) P)
    (hq : ∀ a, Measurable fun c => q c a (pos c))
    (hqi : ∀ a, Integrable (fun ω => piE (s.ctx 0 ω) a (pos (s.ctx 0 ω)) * q (s.ctx 0 ω) a (pos (s.ctx 0 ω))) P)
    {k : Kind} {lam : Lam ℝ} (hk : k = .dr ∧ NotClipped lam piB pos piE ∨ (k = .switchDr ∨ k = .drOs) ∧ lam = .inf) {a b : ℝ}
    (hb : ∀ᵐ ω ∂P, s.drTerm piB pos piE q 0 ω ∈ Set.Icc a b) {n : ℕ} (hn : 0 < n) {t : ℝ} (ht : 0 ≤ t) :
    P.real {ω | Misses ((⟨k, lam, false⟩ : Estimator ℝ).estimatePolicyValue (s.log piB pos piE q n ω).args)
      (s.value P pos piE m) t} ≤ 2 * Real.exp (-(2 * n * t ^ 2 / (b - a) ^ 2)) := by
  have hqm : Measurable fun x : C × Fin A => q x.1 x.2 (pos x.1) := measurable_from_prod_countable_left hq
  have hF : Measurable fun x : C × Fin A × ℝ => (∑ a, piE x.1 a (pos x.1) * q x.1 a (pos x.1)) +
      piE x.1 x.2.1 (pos x.1) / piB x.1 x.2.1 * (x.2.2 - q x.1 x.2.1 (pos x.1)) := by
    refine Measurable.add ?_ ((hs.weightFn_meas hE).mul ((measurable_snd.comp measurable_snd).sub
      (hqm.comp (measurable_fst.prodMk (measurable_fst.comp measurable_snd)))))
    exact (Finset.measurable_fun_sum _ fun a _ => (hE.meas a).mul (hq a)).comp measurable_fst
  refine misses_mean hs.iid hF hb (hs.drTerm_mean hE hi hq hqi) hn ht ?_
  filter_upwards [hs.log_valid (q := q) hE] with ω hω
  have hfun : (fun i : Fin n => (s.log piB pos piE q n ω).modelValue i +
      (s.log piB pos piE q n ω).weight false i * (s.log piB pos piE q n ω).residual i) = fun i : Fin n => s.drTerm piB pos piE q i ω := by
    funext i
    rw [log_modelValue hE]
    rfl
  have hr : roundReward ⟨k, lam, false⟩ (s.log piB pos piE q n ω) = some fun i : Fin n => s.drTerm piB pos piE q i ω := by
    rw [← hfun]
    rcases hk with ⟨rfl, hl⟩ | ⟨rfl | rfl, rfl⟩
    · simp only [roundReward, clip_weight hl]
    · simp [roundReward, Lam.geB]
    · simp [roundReward]
  rw [value_roundReward (hω n hn), hr]
  exact congrArg Except.ok (avg_meanTo (fun i => s.drTerm piB pos piE q i ω) n)

/-- **C189.** Self-normalised inverse propensity weighting with rewards in `[lo, hi]`, weights at most `W`: the bound of the plain
estimates when `lo = 0`, and it only depends on the spread of the rewards. -/
theorem C189_snipw (hs : s.LoggedBy P piB m) (hE : Covers piB pos piE) (lam : Lam ℝ) {lo hi W : ℝ}
    (hR : ∀ᵐ ω ∂P, s.rew 0 ω ∈ Set.Icc lo hi) (hW : ∀ c a, piE c a (pos c) / piB c a ≤ W) {n : ℕ} (hn : 0 < n) {t : ℝ} (ht : 0 ≤ t)
    (ht' : t ≤ hi - lo) :
    P.real {ω | Misses ((⟨.snipw, lam, false⟩ : Estimator ℝ).estimatePolicyValue (s.log piB pos piE q n ω).args)
      (s.value P pos piE m) t} ≤ 2 * Real.exp (-(2 * n * t ^ 2 / (W * (hi - lo)) ^ 2)) := by
  have hw0 : ∀ c a, 0 ≤ piE c a (pos c) / piB c a := fun c a => div_nonneg ((hE.dist c _).nonneg a) ((hs.piB_dist c).nonneg a)
  obtain ⟨w1, w2⟩ := hs.weight_mean hE
  have hWm := hs.weightFn_meas hE
  have hint : Integrable (fun ω => s.weight piB pos piE ω * s.rew 0 ω) P := by
    refine Integrable.of_bound ((hWm.comp (hs.iid.meas 0)).mul (hs.rew_meas 0)).aestronglyMeasurable (W * max |lo| |hi|) ?_
    filter_upwards [hR] with ω h2
    have h1 : 0 ≤ s.weight piB pos piE ω := hw0 _ _
    rw [norm_mul, Real.norm_of_nonneg h1]
    exact mul_le_mul (hW _ _) (abs_le_max_abs_abs h2.1 h2.2) (abs_nonneg _) ((hw0 _ _).trans (hW (s.ctx 0 ω) (s.act 0 ω)))
  obtain ⟨-, r2⟩ := hs.weighted_reward hE hint
  refine misses_ratio hs.iid (FW := fun x => piE x.1 x.2.1 (pos x.1) / piB x.1 x.2.1) (FR := fun x => x.2.2) hWm
    (measurable_snd.comp measurable_snd) (ae_of_all _ fun ω => ⟨hw0 _ _, hW _ _⟩) hR w2 r2 hn ht ht' ?_
  filter_upwards [hs.log_valid (q := q) hE] with ω hω hb
  have e1 : avg ((s.log piB pos piE q n ω).weight false) =
    meanTo (fun i => piE (s.ctx i ω) (s.act i ω) (pos (s.ctx i ω)) / piB (s.ctx i ω) (s.act i ω)) n :=
    avg_meanTo (fun i => piE (s.ctx i ω) (s.act i ω) (pos (s.ctx i ω)) / piB (s.ctx i ω) (s.act i ω)) n
  have ha : avg ((s.log piB pos piE q n ω).weight false) ≠ 0 := by rwa [e1]
  rw [value_roundReward (hω n hn)]
  simp only [roundReward, if_neg ha]
  refine congrArg Except.ok ?_
  rw [← e1]
  have e2 : ∀ c : ℝ, avg (fun i => (s.log piB pos piE q n ω).reward i * (s.log piB pos piE q n ω).weight false i / c) =
      meanTo (fun i => piE (s.ctx i ω) (s.act i ω) (pos (s.ctx i ω)) / piB (s.ctx i ω) (s.act i ω) * s.rew i ω) n / c := fun c => by
    rw [← avg_meanTo]
    simp only [avg, ← Finset.sum_div, log, Log.weight]
    rw [div_right_comm]
    simp only [mul_comm]
    rfl
  exact e2 _

/-- **C189.** The self-normalised doubly robust estimate, for every reward model: mean predictions in `[a, b]`, rewards less predictions in
`[lo, hi]`, weights at most `W`; `t₁ + t₂` is any way to split the error. -/
theorem C189_sndr (hs : s.LoggedBy P piB m) (hE : Covers piB pos piE) (lam : Lam ℝ) {a b lo hi W : ℝ}
    (hq : ∀ a, Measurable fun c => q c a (pos c))
    (hqi : ∀ a, Integrable (fun ω => piE (s.ctx 0 ω) a (pos (s.ctx 0 ω)) * q (s.ctx 0 ω) a (pos (s.ctx 0 ω))) P)
    (hM : ∀ᵐ ω ∂P, ∑ a, piE (s.ctx 0 ω) a (pos (s.ctx 0 ω)) * q (s.ctx 0 ω) a (pos (s.ctx 0 ω)) ∈ Set.Icc a b)
    (hR : ∀ᵐ ω ∂P, s.rew 0 ω - q (s.ctx 0 ω) (s.act 0 ω) (pos (s.ctx 0 ω)) ∈ Set.Icc lo hi) (hW : ∀ c a, piE c a (pos c) / piB c a ≤ W)
    {n : ℕ} (hn : 0 < n) {t₁ t₂ : ℝ} (h1 : 0 ≤ t₁) (h2 : 0 ≤ t₂) (h2' : t₂ ≤ hi - lo) :
    P.real {ω | Misses ((⟨.sndr, lam, false⟩ : Estimator ℝ).estimatePolicyValue (s.log piB pos piE q n ω).args)
      (s.value P pos piE m) (t₁ + t₂)} ≤
      2 * Real.exp (-(2 * n * t₁ ^ 2 / (b - a) ^ 2)) + 2 * Real.exp (-(2 * n * t₂ ^ 2 / (W * (hi - lo)) ^ 2)) := by
  have hw0 : ∀ c a, 0 ≤ piE c a (pos c) / piB c a := fun c a => div_nonneg ((hE.dist c _).nonneg a) ((hs.piB_dist c).nonneg a)
  obtain ⟨w1, w2⟩ := hs.weight_mean hE
  have hWm := hs.weightFn_meas hE
  obtain ⟨q1, q2⟩ := hs.weighted hE (h := fun c a => q c a (pos c)) hq hqi
  have hqm : Measurable fun x : C × Fin A => q x.1 x.2 (pos x.1) := measurable_from_prod_countable_left hq
  have hp : Measurable fun x : C × Fin A × ℝ => (x.1, x.2.1) := measurable_fst.prodMk (measurable_fst.comp measurable_snd)
  have hFR : Measurable fun x : C × Fin A × ℝ => x.2.2 - q x.1 x.2.1 (pos x.1) :=
    (measurable_snd.comp measurable_snd).sub (hqm.comp hp)
  have hres : Integrable (fun ω => s.weight piB pos piE ω * (s.rew 0 ω - q (s.ctx 0 ω) (s.act 0 ω) (pos (s.ctx 0 ω)))) P := by
    refine Integrable.of_bound ((hWm.comp (hs.iid.meas 0)).mul (hFR.comp (hs.iid.meas 0))).aestronglyMeasurable (W * max |lo| |hi|) ?_
    filter_upwards [hR] with ω h2
    have h1 : 0 ≤ s.weight piB pos piE ω := hw0 _ _
    rw [norm_mul, Real.norm_of_nonneg h1]
    exact mul_le_mul (hW _ _) (abs_le_max_abs_abs h2.1 h2.2) (abs_nonneg _) ((hw0 _ _).trans (hW (s.ctx 0 ω) (s.act 0 ω)))
  have hint : Integrable (fun ω => s.weight piB pos piE ω * s.rew 0 ω) P :=
    (hres.add q1).congr (ae_of_all _ fun ω => by simp only [Pi.add_apply]; ring)
  obtain ⟨-, r2⟩ := hs.weighted_reward hE hint
  have hval : s.value P pos piE m = s.value P pos piE (fun c a => q c a (pos c)) +
      ∫ ω, s.weight piB pos piE ω * (s.rew 0 ω - q (s.ctx 0 ω) (s.act 0 ω) (pos (s.ctx 0 ω))) ∂P := by
    simp only [mul_sub]
    rw [integral_sub hint q1, r2, q2]
    ring
  rw [hval]
  refine misses_sum_ratio hs.iid (F := fun x => ∑ a, piE x.1 a (pos x.1) * q x.1 a (pos x.1))
    (FW := fun x => piE x.1 x.2.1 (pos x.1) / piB x.1 x.2.1) (FR := fun x => x.2.2 - q x.1 x.2.1 (pos x.1))
    ((Finset.measurable_fun_sum _ fun a _ => (hE.meas a).mul (hq a)).comp measurable_fst) hWm hFR hM rfl
    (ae_of_all _ fun ω => ⟨hw0 _ _, hW _ _⟩) hR w2 rfl hn h1 h2 h2' ?_
  filter_upwards [hs.log_valid (q := q) hE] with ω hω hb
  let w : ℕ → ℝ := fun i => piE (s.ctx i ω) (s.act i ω) (pos (s.ctx i ω)) / piB (s.ctx i ω) (s.act i ω)
  let mv : ℕ → ℝ := fun i => ∑ a, piE (s.ctx i ω) a (pos (s.ctx i ω)) * q (s.ctx i ω) a (pos (s.ctx i ω))
  let rs : ℕ → ℝ := fun i => s.rew i ω - q (s.ctx i ω) (s.act i ω) (pos (s.ctx i ω))
  have e1 : avg ((s.log piB pos piE q n ω).weight false) = meanTo w n := avg_meanTo w n
  have ha : avg ((s.log piB pos piE q n ω).weight false) ≠ 0 := by
    rw [e1]
    exact hb
  rw [value_roundReward (hω n hn)]
  simp only [roundReward, if_neg ha]
  refine congrArg Except.ok ?_
  have e2 : avg (fun i => (s.log piB pos piE q n ω).modelValue i + (s.log piB pos piE q n ω).weight false i *
      (s.log piB pos piE q n ω).residual i / avg ((s.log piB pos piE q n ω).weight false)) =
      meanTo (fun i => mv i + w i * rs i / meanTo w n) n := by
    rw [e1]
    refine Eq.trans (congrArg avg (funext fun i => ?_)) (avg_meanTo (fun i => mv i + w i * rs i / meanTo w n) n)
    rw [log_modelValue hE]
    rfl
  rw [e2]
  change _ = meanTo mv n + meanTo (fun i => w i * rs i) n / meanTo w n
  simp only [meanTo, Finset.sum_add_distrib, ← Finset.sum_div]
  rw [add_div, div_right_comm]

/-- **C189.** How many rounds are enough: `n ≥ (W R)² ln (2 / δ) / (2 t²)` rounds keep the probability of errors of `t` or more
below `δ`, for inverse propensity weighting and its self-normalised version. -/
theorem C189_sample_size (hs : s.LoggedBy P piB m) (hE : Covers piB pos piE) {lam : Lam ℝ} (hl : NotClipped lam piB pos piE) {R W : ℝ}
    (hR : ∀ ω, s.rew 0 ω ∈ Set.Icc 0 R) (hW : ∀ c a, piE c a (pos c) / piB c a ≤ W) {delta t : ℝ} (hd : 0 < delta) (ht : 0 < t)
    (hWR : 0 < W * R) {n : ℕ} (hn : 0 < n) (hbig : (W * R) ^ 2 * Real.log (2 / delta) / (2 * t ^ 2) ≤ n) :
    P.real {ω | Misses ((⟨.ipw, lam, false⟩ : Estimator ℝ).estimatePolicyValue (s.log piB pos piE q n ω).args)
      (s.value P pos piE m) t} ≤ delta ∧
    (t ≤ R → P.real {ω | Misses ((⟨.snipw, lam, false⟩ : Estimator ℝ).estimatePolicyValue (s.log piB pos piE q n ω).args)
      (s.value P pos piE m) t} ≤ delta) := by
  have key : 2 * Real.exp (-(2 * n * t ^ 2 / (W * R) ^ 2)) ≤ delta := by
    have h1 : Real.log (2 / delta) ≤ 2 * n * t ^ 2 / (W * R) ^ 2 := by
      rw [le_div_iff₀ (by positivity)]
      rw [div_le_iff₀ (by positivity)] at hbig
      linarith
    have h2 : Real.exp (-(2 * n * t ^ 2 / (W * R) ^ 2)) ≤ Real.exp (-Real.log (2 / delta)) := Real.exp_le_exp.2 (neg_le_neg h1)
    rw [Real.exp_neg (Real.log _), Real.exp_log (by positivity), inv_div] at h2
    linarith
  refine ⟨(C189_ipw_bounded hs hE hl hR hW hn ht.le).trans key, fun h => ?_⟩
  have := C189_snipw (q := q) hs hE lam (lo := 0) (hi := R) (ae_of_all _ hR) hW hn ht.le (by rwa [sub_zero])
  rw [sub_zero] at this
  exact this.trans key

end single

section slate
open SlateStream

variable {Ω C : Type} [MeasurableSpace Ω] [MeasurableSpace C] {L A : ℕ} {P : Measure Ω} [IsProbabilityMeasure P]
variable {s : SlateStream Ω C L A} {piB piE : C → (Fin L → Fin A) → ℝ} {m : C → (Fin L → Fin A) → Fin L → ℝ}

/-- **C189.** SIPS, IIPS and RIPS: the total weighted reward of a slate in `[a, b]`. -/
theorem C189_slate_ips (hs : s.LoggedBy P piB m) (hL : 0 < L) {k : SlateKind} (hk : k = .sips ∨ k = .iips ∨ k = .rips)
    (hE : SlateStream.Covers k piB piE m)
    (hi : ∀ l, Integrable (fun ω => slotWeight k piB piE l (s.ctx 0 ω) (s.slate 0 ω) * s.rew 0 ω l) P) {a b : ℝ}
    (hb : ∀ᵐ ω ∂P, s.ipsTerm k piB piE 0 ω ∈ Set.Icc a b) {n : ℕ} (hn : 0 < n) {t : ℝ} (ht : 0 ≤ t) :
    P.real {ω | Misses (k.estimatePolicyValue L (s.log (fun c => k.propensity (piB c)) (fun c => k.propensity (piE c)) n ω).args)
      (s.value P piE m) t} ≤ 2 * Real.exp (-(2 * n * t ^ 2 / (b - a) ^ 2)) := by
  have hF := ipsTerm_meas (k := k) hs hE.meas
  have hest := hs.ips_mean hL hk hE
  have hm := hs.iid.mean_of_results (F := ipsFn k piB piE) hF (integrable_finsetSum _ fun l _ => hi l) hest (C160_ips hs hL hk hE hi)
  exact misses_mean hs.iid hF hb hm hn ht (hest.mono fun ω hω => hω n hn)

/-- **C189.** SNSIPS: total rewards of a slate in `[lo, hi]` and weights at most `W`. -/
theorem C189_slate_snsips (hs : s.LoggedBy P piB m) (hL : 0 < L) (hE : SlateStream.Covers .snSips piB piE m) {lo hi W : ℝ}
    (hi' : ∀ l, Integrable (fun ω => slotWeight .snSips piB piE l (s.ctx 0 ω) (s.slate 0 ω) * s.rew 0 ω l) P)
    (hR : ∀ᵐ ω ∂P, ∑ l, s.rew 0 ω l ∈ Set.Icc lo hi) (hW : ∀ c a, piE c a / piB c a ≤ W) {n : ℕ} (hn : 0 < n) {t : ℝ}
    (ht : 0 ≤ t) (ht' : t ≤ hi - lo) :
    P.real {ω | Misses (SlateKind.snSips.estimatePolicyValue L
      (s.log (fun c => SlateKind.snSips.propensity (piB c)) (fun c => SlateKind.snSips.propensity (piE c)) n ω).args)
      (s.value P piE m) t} ≤ 2 * Real.exp (-(2 * n * t ^ 2 / (W * (hi - lo)) ^ 2)) := by
  have hL0 : (L : ℝ) ≠ 0 := by exact_mod_cast hL.ne'
  have hw0 : ∀ c a, 0 ≤ piE c a / piB c a := fun c a => div_nonneg ((hE.dist c).nonneg a) ((hs.piB_dist c).nonneg a)
  have hsw : ∀ c a (l : Fin L), slotWeight .snSips piB piE l c a = piE c a / piB c a := fun c a l => by
    rw [slotWeight, propensity_const (.inr rfl), propensity_const (.inr rfl)]
  have hwj := slotWeight_joint (k := .snSips) hs hE.meas ⟨0, hL⟩
  simp only [hsw] at hwj
  have hwb : ∀ᵐ ω ∂P, piE (s.ctx 0 ω) (s.slate 0 ω) / piB (s.ctx 0 ω) (s.slate 0 ω) ∈ Set.Icc 0 W :=
    ae_of_all _ fun ω => ⟨hw0 _ _, hW _ _⟩
  have hw1 : ∫ ω, piE (s.ctx 0 ω) (s.slate 0 ω) / piB (s.ctx 0 ω) (s.slate 0 ω) ∂P = 1 := by
    have := hs.slot_weight_mean hE ⟨0, hL⟩
    simp only [hsw] at this
    exact this (Integrable.of_mem_Icc 0 W (hwj.comp (hs.iid.meas 0)).aemeasurable hwb)
  have hv : ∫ ω, piE (s.ctx 0 ω) (s.slate 0 ω) / piB (s.ctx 0 ω) (s.slate 0 ω) * ∑ l, s.rew 0 ω l ∂P = s.value P piE m := by
    rw [hs.value_slots hE hi']
    simp only [Finset.mul_sum]
    rw [integral_finsetSum _ fun l _ => by simpa only [hsw] using hi' l]
    refine Finset.sum_congr rfl fun l _ => ?_
    rw [← hs.slot_mean hE l (hi' l)]
    simp only [hsw]
  refine misses_ratio hs.iid (FW := fun x => piE x.1 x.2.1 / piB x.1 x.2.1) (FR := fun x => ∑ l, x.2.2 l) hwj
    (Finset.measurable_fun_sum _ fun l _ => (measurable_pi_apply l).comp (measurable_snd.comp measurable_snd)) hwb hR hw1 hv hn ht ht' ?_
  filter_upwards [hs.snsips_value hL hE] with ω hω hne
  have e : ∀ i, (∑ l : Fin L, slotWeight .snSips piB piE l (s.ctx i ω) (s.slate i ω)) / L =
      piE (s.ctx i ω) (s.slate i ω) / piB (s.ctx i ω) (s.slate i ω) := fun i => by
    simp only [hsw, Finset.sum_const, Finset.card_univ, Fintype.card_fin, nsmul_eq_mul]
    field_simp
  have := hω n hn
  simp only [e] at this
  rw [this hne]
  simp only [hsw, Finset.mul_sum]

/-- **C189.** SNIIPS and SNRIPS: rewards of a slot in `[lo, hi]`, weights of a slot at most `W`. -/
theorem C189_slate_sn (hs : s.LoggedBy P piB m) (hL : 0 < L) {k : SlateKind} (hk : k = .snIips ∨ k = .snRips)
    (hE : SlateStream.Covers k piB piE m) {lo hi W : ℝ} (hR : ∀ᵐ ω ∂P, ∀ l, s.rew 0 ω l ∈ Set.Icc lo hi)
    (hW : ∀ᵐ ω ∂P, ∀ l, slotWeight k piB piE l (s.ctx 0 ω) (s.slate 0 ω) ∈ Set.Icc 0 W) {n : ℕ} (hn : 0 < n) {t : ℝ}
    (ht : 0 ≤ t) (ht' : t ≤ L * (hi - lo)) :
    P.real {ω | Misses (k.estimatePolicyValue L (s.log (fun c => k.propensity (piB c)) (fun c => k.propensity (piE c)) n ω).args)
      (s.value P piE m) t} ≤ 2 * L * Real.exp (-(2 * n * t ^ 2 / (L * W * (hi - lo)) ^ 2)) := by
  have hL0 : (0 : ℝ) < L := by exact_mod_cast hL
  have hWl : ∀ l, ∀ᵐ ω ∂P, slotWeight k piB piE l (s.ctx 0 ω) (s.slate 0 ω) ∈ Set.Icc 0 W := fun l => hW.mono fun ω h => h l
  have hRl : ∀ l, ∀ᵐ ω ∂P, s.rew 0 ω l ∈ Set.Icc lo hi := fun l => hR.mono fun ω h => h l
  have hwi : ∀ l, Integrable (fun ω => slotWeight k piB piE l (s.ctx 0 ω) (s.slate 0 ω)) P := fun l =>
    Integrable.of_mem_Icc 0 W ((slotWeight_joint hs hE.meas l).comp (hs.iid.meas 0)).aemeasurable (hWl l)
  have hri : ∀ l, Integrable (fun ω => slotWeight k piB piE l (s.ctx 0 ω) (s.slate 0 ω) * s.rew 0 ω l) P := fun l => by
    refine Integrable.of_bound ((slotTerm_joint hs hE.meas l).comp (hs.iid.meas 0)).aestronglyMeasurable (W * max |lo| |hi|) ?_
    filter_upwards [hWl l, hRl l] with ω h1 h2
    rw [norm_mul, Real.norm_of_nonneg h1.1]
    exact mul_le_mul h1.2 (abs_le_max_abs_abs h2.1 h2.2) (abs_nonneg _) (h1.1.trans h1.2)
  let r : Fin L → Ω → Py ℝ := fun l ω => if meanTo (fun i => slotWeight k piB piE l (s.ctx i ω) (s.slate i ω)) n ≠ 0 then
    .ok (meanTo (fun i => slotWeight k piB piE l (s.ctx i ω) (s.slate i ω) * s.rew i ω l) n /
          meanTo (fun i => slotWeight k piB piE l (s.ctx i ω) (s.slate i ω)) n) else .error .nonFinite
  have hslot : ∀ l, P.real {ω | Misses (r l ω) (s.slotValue P piE m l) (t / L)} ≤
      2 * Real.exp (-(2 * n * (t / L) ^ 2 / (W * (hi - lo)) ^ 2)) := fun l =>
    misses_ratio hs.iid (FW := fun x => slotWeight k piB piE l x.1 x.2.1) (FR := fun x => x.2.2 l) (slotWeight_joint hs hE.meas l)
      ((measurable_pi_apply l).comp (measurable_snd.comp measurable_snd)) (hWl l) (hRl l) (hs.slot_weight_mean hE l (hwi l))
      (hs.slot_mean hE l (hri l)) hn (by positivity) (by rwa [div_le_iff₀ hL0, mul_comm]) (ae_of_all _ fun ω h => if_pos h)
  refine (measureReal_le_of_ae (t := ⋃ l, {ω | Misses (r l ω) (s.slotValue P piE m l) (t / L)}) ?_).trans ?_
  · filter_upwards [hs.sn_value hL hk hE] with ω hω hmiss
    by_contra hno
    have hno : ∀ l, ∃ x, r l ω = .ok x ∧ |x - s.slotValue P piE m l| < t / L := fun l =>
      not_not.1 fun h => hno (Set.mem_iUnion.2 ⟨l, h⟩)
    have hne : ∀ l, meanTo (fun i => slotWeight k piB piE l (s.ctx i ω) (s.slate i ω)) n ≠ 0 := fun l h0 => by
      obtain ⟨x, hx, -⟩ := hno l
      simp [r, h0] at hx
    refine hmiss ⟨_, hω n hn hne, ?_⟩
    rw [hs.value_slots hE hri, ← Finset.sum_sub_distrib]
    refine (Finset.abs_sum_le_sum_abs _ _).trans_lt ?_
    have hlt : ∀ l, |meanTo (fun i => slotWeight k piB piE l (s.ctx i ω) (s.slate i ω) * s.rew i ω l) n /
        meanTo (fun i => slotWeight k piB piE l (s.ctx i ω) (s.slate i ω)) n - s.slotValue P piE m l| < t / L := fun l => by
      obtain ⟨x, hx, h⟩ := hno l
      simp only [r, if_pos (hne l), Except.ok.injEq] at hx
      rwa [hx]
    have : Nonempty (Fin L) := ⟨⟨0, hL⟩⟩
    refine (Finset.sum_lt_sum_of_nonempty Finset.univ_nonempty fun l _ => hlt l).trans_eq ?_
    simp only [Finset.sum_const, Finset.card_univ, Fintype.card_fin, nsmul_eq_mul]
    field_simp
  · refine (measureReal_iUnion_fintype_le _).trans ((Finset.sum_le_sum fun l _ => hslot l).trans_eq ?_)
    simp only [Finset.sum_const, Finset.card_univ, Fintype.card_fin, nsmul_eq_mul]
    rw [show 2 * (n : ℝ) * (t / L) ^ 2 / (W * (hi - lo)) ^ 2 = 2 * n * t ^ 2 / (L * W * (hi - lo)) ^ 2 by
      rw [div_pow, mul_assoc (L : ℝ), mul_pow (L : ℝ), mul_div_assoc', div_div]]
    ring

end slate

section continuous
open ContStream

variable {Ω C : Type} [MeasurableSpace Ω] [MeasurableSpace C] {P : Measure Ω} [IsProbabilityMeasure P]
variable {s : ContStream Ω C} {p m : C → ℝ → ℝ} {k : Kernel} {h : ℝ} {e q : C → ℝ}

/-- **C189.** `KernelizedInverseProbabilityWeighting`, as an estimate of the smoothed value. -/
theorem C189_kernel_ipw (hs : s.LoggedBy P p m) (hh : 0 < h) (he : Measurable e) {a b : ℝ}
    (hb : ∀ᵐ ω ∂P, s.ipwTerm k h p e 0 ω ∈ Set.Icc a b) {n : ℕ} (hn : 0 < n) {t : ℝ} (ht : 0 ≤ t) :
    P.real {ω | Misses (ContKind.ipw.estimatePolicyValue k (.fin h) (s.log p e q n ω).args) (s.smoothedValue P k h p e m) t} ≤
      2 * Real.exp (-(2 * n * t ^ 2 / (b - a) ^ 2)) := by
  have hF := ipwFn_meas (k := k) (h := h) hs he
  have hi : Integrable (s.ipwTerm k h p e 0) P := Integrable.of_mem_Icc a b (hF.comp (hs.iid.meas 0)).aemeasurable hb
  have hest := hs.ipw_mean (k := k) (e := e) (q := q) hh
  have hm := hs.iid.mean_of_results (F := ipwFn k h p e) hF hi hest (C161_ipw hs hh he (unscaled hh hi))
  exact misses_mean hs.iid hF hb hm hn ht (hest.mono fun ω hω => hω n hn)

/-- **C189.** `KernelizedDoublyRobust`, whatever the reward model predicts. -/
theorem C189_kernel_dr (hs : s.LoggedBy P p m) (hh : 0 < h) (hE : ContStream.Covers k h p e) (hi : Integrable (s.ipwTerm k h p e 0) P)
    (hq : Measurable q) (hqi : Integrable (fun ω => q (s.ctx 0 ω)) P) {a b : ℝ}
    (hb : ∀ᵐ ω ∂P, s.drTerm k h p e q 0 ω ∈ Set.Icc a b) {n : ℕ} (hn : 0 < n) {t : ℝ} (ht : 0 ≤ t) :
    P.real {ω | Misses (ContKind.dr.estimatePolicyValue k (.fin h) (s.log p e q n ω).args) (s.smoothedValue P k h p e m) t} ≤
      2 * Real.exp (-(2 * n * t ^ 2 / (b - a) ^ 2)) := by
  have hF := drFn_meas (k := k) (h := h) hs hE.meas hq
  have hi' : Integrable (s.drTerm k h p e q 0) P := Integrable.of_mem_Icc a b (hF.comp (hs.iid.meas 0)).aemeasurable hb
  have hest := hs.dr_mean (k := k) (e := e) (q := q) hh
  have hm := hs.iid.mean_of_results (F := drFn k h p e q) hF hi' hest (C161_dr hs hh hE (unscaled hh hi) hq hqi)
  exact misses_mean hs.iid hF hb hm hn ht (hest.mono fun ω hω => hω n hn)

/-- **C189.** `KernelizedSelfNormalizedInverseProbabilityWeighting`: rewards in `[lo, hi]`, weights at most `W`. -/
theorem C189_kernel_snipw (hs : s.LoggedBy P p m) (hh : 0 < h) (hE : ContStream.Covers k h p e) {lo hi W : ℝ}
    (hR : ∀ᵐ ω ∂P, s.rew 0 ω ∈ Set.Icc lo hi)
    (hW : ∀ᵐ ω ∂P, k.fn ((e (s.ctx 0 ω) - s.act 0 ω) / h) / (h * p (s.ctx 0 ω) (s.act 0 ω)) ∈ Set.Icc 0 W) {n : ℕ} (hn : 0 < n)
    {t : ℝ} (ht : 0 ≤ t) (ht' : t ≤ hi - lo) :
    P.real {ω | Misses (ContKind.snipw.estimatePolicyValue k (.fin h) (s.log p e q n ω).args) (s.smoothedValue P k h p e m) t} ≤
      2 * Real.exp (-(2 * n * t ^ 2 / (W * (hi - lo)) ^ 2)) := by
  have hwm := weightFn_meas (k := k) (h := h) hs hE.meas
  have hwi : Integrable (fun ω => weightFn k h p e (s.ctx 0 ω, s.act 0 ω, s.rew 0 ω)) P :=
    Integrable.of_mem_Icc 0 W (hwm.comp (hs.iid.meas 0)).aemeasurable hW
  have hint : Integrable (s.ipwTerm k h p e 0) P := by
    refine Integrable.of_bound ((ipwFn_meas (k := k) (h := h) hs hE.meas).comp (hs.iid.meas 0)).aestronglyMeasurable
      (W * max |lo| |hi|) ?_
    filter_upwards [hW, hR] with ω h1 h2
    simp only [ipwTerm]
    rw [norm_mul, Real.norm_of_nonneg h1.1]
    exact mul_le_mul h1.2 (abs_le_max_abs_abs h2.1 h2.2) (abs_nonneg _) (h1.1.trans h1.2)
  have hm := hs.iid.mean_of_results (F := ipwFn k h p e) (ipwFn_meas hs hE.meas) hint (hs.ipw_mean (k := k) (e := e) (q := q) hh)
    (C161_ipw hs hh hE.meas (unscaled hh hint))
  have hw : ∀ᵐ ω ∂P, Tendsto (fun n => meanTo (fun i => weightFn k h p e (s.ctx i ω, s.act i ω, s.rew i ω)) n) atTop (𝓝 1) := by
    filter_upwards [hs.lln_weight (q := q) hh hE] with ω hω
    have := hω.div_const h
    rw [div_self hh.ne'] at this
    refine this.congr fun n => ?_
    simp only [meanTo_avg, weightFn_eq, avg, ← Finset.sum_div]
    exact div_right_comm _ _ _
  have hw1 := hs.iid.mean_eq hwm hwi hw
  refine misses_ratio hs.iid (FW := weightFn k h p e) (FR := fun x => x.2.2) hwm (measurable_snd.comp measurable_snd) hW hR hw1 hm hn ht
    ht' ?_
  filter_upwards [hs.log_valid e q] with ω hval hne
  have ew : avg ((s.log p e q n ω).weight k.fn h) = h * meanTo (fun i => weightFn k h p e (s.ctx i ω, s.act i ω, s.rew i ω)) n := by
    simp only [meanTo_avg, weightFn_eq, avg, ← Finset.sum_div]
    have := hh.ne'
    field_simp
    rfl
  have er : avg (fun i => (s.log p e q n ω).reward i * (s.log p e q n ω).weight k.fn h i) =
      h * meanTo (fun i => ipwFn k h p e (s.ctx i ω, s.act i ω, s.rew i ω)) n := by
    simp only [meanTo_avg, ipwFn, weightFn_eq, avg]
    rw [← mul_div_assoc, Finset.mul_sum]
    refine congrArg (· / _) (Finset.sum_congr rfl fun i _ => ?_)
    have := hh.ne'
    field_simp
    simp only [log, ContLog.weight, kernelWeight]
    ring
  rw [contValue_eq (hval n hn) .snipw k hh.ne' fun _ => by rw [ew]; exact mul_ne_zero hh.ne' hne]
  refine congrArg Except.ok ?_
  have hx : avg ((s.log p e q n ω).roundReward .snipw k h) =
      avg (fun i => (s.log p e q n ω).reward i * (s.log p e q n ω).weight k.fn h i) / avg ((s.log p e q n ω).weight k.fn h) := by
    simp only [ContLog.roundReward, avg, ← Finset.sum_div]
    rw [div_right_comm]
  rw [hx, er, ew, mul_div_mul_left _ _ hh.ne']
  rfl

end continuous

section embed
open EmbStream

variable {Ω C : Type} [MeasurableSpace Ω] [MeasurableSpace C] {A E D L : ℕ} {P : Measure Ω} [IsProbabilityMeasure P]
variable {s : EmbStream Ω C A E D} {piB : C → Fin A → ℝ} {pEA : Fin A → Fin E → Fin D → ℝ} {m : C → (Fin D → Fin E) → ℝ}
variable {pos : C → Fin L} {piE : C → Fin A → Fin L → ℝ}

/-- **C189.** Marginalised inverse propensity weighting. -/
theorem C189_mips (hs : s.LoggedBy P piB pEA m) (hE : EmbStream.Covers pEA piB pos piE) (hB : ∀ c, Independent pEA (piB c))
    (hI : ∀ c, Independent pEA fun a => piE c a (pos c)) {a b : ℝ} (hb : ∀ᵐ ω ∂P, s.mipsTerm piB pEA pos piE 0 ω ∈ Set.Icc a b)
    (nActions : ℕ) (learner) {n : ℕ} (hn : 0 < n) {t : ℝ} (ht : 0 ≤ t) :
    P.real {ω | Misses (EmbKind.mipw.plainValue nActions learner (s.log piB pEA pos piE n ω).args) (s.value P pEA pos piE m) t} ≤
      2 * Real.exp (-(2 * n * t ^ 2 / (b - a) ^ 2)) := by
  have hF := mipsFn_meas hs hE
  have hi : Integrable (s.mipsTerm piB pEA pos piE 0) P := Integrable.of_mem_Icc a b (hF.comp (hs.iid.meas 0)).aemeasurable hb
  have hest := hs.mips_mean hE hB hI nActions learner
  have hm := hs.iid.mean_of_results (F := mipsFn piB pEA pos piE) hF hi hest (C163_mips hs hE hB hI hi nActions learner)
  exact misses_mean hs.iid hF hb hm hn ht (hest.mono fun ω hω => hω n hn)

/-- **C189.** The self-normalised version: rewards in `[lo, hi]`, weights at most `W`. -/
theorem C189_snmips (hs : s.LoggedBy P piB pEA m) (hE : EmbStream.Covers pEA piB pos piE) (hB : ∀ c, Independent pEA (piB c))
    (hI : ∀ c, Independent pEA fun a => piE c a (pos c)) {lo hi W : ℝ} (hR : ∀ᵐ ω ∂P, s.rew 0 ω ∈ Set.Icc lo hi)
    (hW : ∀ᵐ ω ∂P, s.weight piB pEA pos piE ω ∈ Set.Icc 0 W) (nActions : ℕ) (learner) {n : ℕ} (hn : 0 < n) {t : ℝ} (ht : 0 ≤ t)
    (ht' : t ≤ hi - lo) :
    P.real {ω | Misses (EmbKind.snmipw.plainValue nActions learner (s.log piB pEA pos piE n ω).args) (s.value P pEA pos piE m) t} ≤
      2 * Real.exp (-(2 * n * t ^ 2 / (W * (hi - lo)) ^ 2)) := by
  have hwm := weightFn_meas hs hE
  have hwi : Integrable (fun ω => weightFn piB pEA pos piE (s.ctx 0 ω, s.act 0 ω, s.emb 0 ω, s.rew 0 ω)) P :=
    Integrable.of_mem_Icc 0 W (hwm.comp (hs.iid.meas 0)).aemeasurable hW
  have hint : Integrable (s.mipsTerm piB pEA pos piE 0) P := by
    refine Integrable.of_bound ((mipsFn_meas hs hE).comp (hs.iid.meas 0)).aestronglyMeasurable (W * max |lo| |hi|) ?_
    filter_upwards [hW, hR] with ω h1 h2
    simp only [mipsTerm]
    have h1' : 0 ≤ marginal pEA (fun a => piE (s.ctx 0 ω) a (pos (s.ctx 0 ω))) (s.emb 0 ω) / marginal pEA (piB (s.ctx 0 ω)) (s.emb 0 ω) := h1.1
    rw [norm_mul, Real.norm_of_nonneg h1']
    exact mul_le_mul h1.2 (abs_le_max_abs_abs h2.1 h2.2) (abs_nonneg _) (h1.1.trans h1.2)
  have hm := hs.iid.mean_of_results (F := mipsFn piB pEA pos piE) (mipsFn_meas hs hE) hint
    (hs.mips_mean hE hB hI nActions learner) (C163_mips hs hE hB hI hint nActions learner)
  have hw : ∀ᵐ ω ∂P, Tendsto (fun n => meanTo (fun i => weightFn piB pEA pos piE (s.ctx i ω, s.act i ω, s.emb i ω, s.rew i ω)) n)
      atTop (𝓝 1) := by
    filter_upwards [hs.asAction.lln_weight (q := fun _ _ _ => 0) (hE.asAction hs)] with ω hω
    refine hω.congr fun n => ?_
    rw [meanTo_avg]
    refine congrArg avg (funext fun i => ?_)
    rw [← log_weight hB hI, log_weight_eq hB hI]
  have hw1 := hs.iid.mean_eq hwm hwi hw
  refine misses_ratio hs.iid (FW := weightFn piB pEA pos piE) (FR := fun x => x.2.2.2) hwm
    (measurable_snd.comp (measurable_snd.comp measurable_snd)) hW hR hw1 hm hn ht ht' ?_
  filter_upwards [hs.marginal_ne (pos := pos) (piE := piE) hB] with ω hval hne
  have ew : (s.log piB pEA pos piE n ω).weight =
      fun i : Fin n => weightFn piB pEA pos piE (s.ctx i ω, s.act i ω, s.emb i ω, s.rew i ω) := funext (log_weight_eq hB hI n ω)
  rw [meanTo_avg] at hne
  rw [EmbLog.value_snmipw (hs.log_valid hE hn ω) (hval n) (by rw [ew]; exact hne), ew]
  refine congrArg Except.ok ?_
  simp only [meanTo_avg]
  have hd : ∀ (x : Fin n → ℝ) (y : ℝ), avg (fun i => x i / y) = avg x / y := fun x y => by
    simp only [avg, ← Finset.sum_div]
    exact div_right_comm _ _ _
  rw [hd]
  exact congrArg (· / _) (congrArg avg (funext fun i => mul_comm _ _))

end embed

/-! ### Cases -/

section cases
open LogStream SlateStream

/-- 90 rounds of the log of C151, whose rewards are in `[0, 4]` and weights at most 3/2: errors of 1 or more have a probability of at
most 5%. -/
example : (Measure.infinitePi fun _ : ℕ => exRoundLaw).real {ω | Misses ((⟨.ipw, .inf, false⟩ : Estimator ℝ).estimatePolicyValue
      (exStream.log (fun _ _ => 1 / 2) (fun _ => (0 : Fin 1)) exEval (fun _ _ _ => 0) 90 ω).args) (19 / 8) 1} ≤ 1 / 20 ∧
    (Measure.infinitePi fun _ : ℕ => exRoundLaw).real {ω | Misses ((⟨.snipw, .inf, false⟩ : Estimator ℝ).estimatePolicyValue
      (exStream.log (fun _ _ => 1 / 2) (fun _ => (0 : Fin 1)) exEval (fun _ _ _ => 0) 90 ω).args) (19 / 8) 1} ≤ 1 / 20 := by
  have h := C189_sample_size (q := fun _ _ _ => 0) (R := 4) (W := 3 / 2) (delta := 1 / 20) (t := 1) (n := 90) (lam := .inf) exStream_logged
    exEval_covers (fun l h => by cases h) (fun ω => ?_) (fun c a => ?_) (by norm_num) one_pos (by norm_num) (by norm_num) ?_
  · rw [exStream_value] at h
    exact ⟨h.1, h.2 (by norm_num)⟩
  · change exReward (ω 0) ∈ Set.Icc 0 4
    unfold exReward exMean
    generalize (ω 0).2.1 = a
    fin_cases a <;> constructor <;> split <;> split <;> norm_num
  · unfold exEval
    split <;> norm_num
  · have h1 : Real.log (2 / (1 / 20)) ≤ 5 := by
      rw [Real.log_le_iff_le_exp (by norm_num), show (5 : ℝ) = (5 : ℕ) * 1 by norm_num, Real.exp_nat_mul]
      refine le_trans (by norm_num : (2 / (1 / 20) : ℝ) ≤ 2.5 ^ 5) (pow_le_pow_left₀ (by norm_num) ?_ 5)
      linarith [Real.exp_one_gt_d9]
    norm_num at h1 ⊢
    linarith

/-- A doubly robust estimate with a reward model that predicts 7 everywhere. -/
example {n : ℕ} (hn : 0 < n) {t : ℝ} (ht : 0 ≤ t) : (Measure.infinitePi fun _ : ℕ => exRoundLaw).real {ω | Misses
      ((⟨.dr, .inf, false⟩ : Estimator ℝ).estimatePolicyValue
        (exStream.log (fun _ _ => 1 / 2) (fun _ => (0 : Fin 1)) exEval (fun _ _ _ => 7) n ω).args) (19 / 8) t} ≤
    2 * Real.exp (-(2 * n * t ^ 2 / (7 - (-7 / 2)) ^ 2)) := by
  rw [← exStream_value]
  refine C189_dr exStream_logged exEval_covers
    ((exStream_memLp fun o => exReward o * (exEval o.1 o.2.1 0 / (1 / 2))).integrable one_le_two) (fun _ => measurable_const)
    (fun a => (exStream_memLp fun o => exEval o.1 a 0 * 7).integrable one_le_two) (.inl ⟨rfl, fun l h => by cases h⟩)
    (ae_of_all _ fun ω => ?_) hn ht
  change (∑ a, exEval (ω 0).1 a 0 * 7) + exEval (ω 0).1 (ω 0).2.1 0 / (1 / 2) * (exReward (ω 0) - 7) ∈ Set.Icc (-7 / 2) 7
  generalize ω 0 = o
  obtain ⟨c, a, b⟩ := o
  cases c <;> cases b <;> fin_cases a <;> norm_num [exEval, exReward, exMean, Fin.sum_univ_two]

/-- The same for the self-normalised version. -/
example {n : ℕ} (hn : 0 < n) {t : ℝ} (ht : 0 ≤ t) (ht' : t ≤ 4) : (Measure.infinitePi fun _ : ℕ => exRoundLaw).real {ω | Misses
      ((⟨.sndr, .inf, false⟩ : Estimator ℝ).estimatePolicyValue
        (exStream.log (fun _ _ => 1 / 2) (fun _ => (0 : Fin 1)) exEval (fun _ _ _ => 7) n ω).args) (19 / 8) (t / 2 + t)} ≤
    2 * Real.exp (-(2 * n * (t / 2) ^ 2 / (15 / 2 - 13 / 2) ^ 2)) + 2 * Real.exp (-(2 * n * t ^ 2 / (3 / 2 * (-3 - -7)) ^ 2)) := by
  rw [← exStream_value]
  refine C189_sndr exStream_logged exEval_covers .inf (fun _ => measurable_const)
    (fun a => (exStream_memLp fun o => exEval o.1 a 0 * 7).integrable one_le_two) (ae_of_all _ fun ω => ?_) (ae_of_all _ fun ω => ?_)
    (fun c a => ?_) hn (by positivity) ht (by linarith)
  · change ∑ a, exEval (ω 0).1 a 0 * 7 ∈ Set.Icc (13 / 2) (15 / 2)
    rw [← Finset.sum_mul, (exEval_covers.dist _ _).sum_one]
    norm_num
  · change exReward (ω 0) - 7 ∈ Set.Icc (-7) (-3)
    generalize ω 0 = o
    obtain ⟨c, a, b⟩ := o
    cases c <;> cases b <;> fin_cases a <;> norm_num [exReward, exMean]
  · unfold exEval
    split <;> norm_num

theorem exSlate_weight_le (k : SlateKind) (l : Fin 2) (c : Bool) (a : Fin 2 → Fin 2) :
    slotWeight k (fun _ _ => 1 / Fintype.card (Fin 2 → Fin 2)) exSlatePolicy l c a ∈ Set.Icc 0 2 := by
  have hp : 0 < k.propensity (fun _ : Fin 2 → Fin 2 => (1 / Fintype.card (Fin 2 → Fin 2) : ℝ)) a l :=
    propensity_pos ((exSlateStream_logged exSlateMean).piB_dist true) k (by simp) l
  refine ⟨div_nonneg (Finset.sum_nonneg fun b _ => ?_) hp.le, (div_le_iff₀ hp).2 ?_⟩
  · split
    · exact (exSlatePolicy_dist c).nonneg b
    · exact le_rfl
  · unfold SlateKind.propensity
    rw [Finset.mul_sum]
    refine Finset.sum_le_sum fun b _ => ?_
    split
    · unfold exSlatePolicy
      split <;> norm_num
    · norm_num

theorem exSlate_reward_mem (o : ExSlateRound 2 2) (l : Fin 2) : (exSlateMean o.1 o.2.1 l + if o.2.2 then 1 else -1) ∈ Set.Icc (-1 : ℝ) 4 := by
  have h1 : exSlateMean o.1 o.2.1 l ∈ Set.Icc (0 : ℝ) 3 := by
    have h : ∀ i : Fin 2, ((i : ℕ) : ℝ) ∈ Set.Icc (0 : ℝ) 1 := fun i => by fin_cases i <;> simp
    unfold exSlateMean
    have a0 := h (o.2.1 0)
    have a1 := h (o.2.1 1)
    split
    · exact ⟨a0.1, a0.2.trans (by norm_num)⟩
    · split
      · exact ⟨by linarith [a1.1], by linarith [a1.2]⟩
      · norm_num
  split
  · exact ⟨by linarith [h1.1], by linarith [h1.2]⟩
  · exact ⟨by linarith [h1.1], by linarith [h1.2]⟩

theorem exSlate_ips_mem (k : SlateKind) (ω : ℕ → ExSlateRound 2 2) :
    (exSlateStream exSlateMean).ipsTerm k (fun _ _ => 1 / Fintype.card (Fin 2 → Fin 2)) exSlatePolicy 0 ω ∈ Set.Icc (-4 : ℝ) 16 := by
  change ∑ l, slotWeight k (fun _ _ => 1 / Fintype.card (Fin 2 → Fin 2)) exSlatePolicy l (ω 0).1 (ω 0).2.1 *
      (exSlateMean (ω 0).1 (ω 0).2.1 l + if (ω 0).2.2 then 1 else -1) ∈ Set.Icc (-4 : ℝ) 16
  rw [Fin.sum_univ_two]
  have w0 := exSlate_weight_le k 0 (ω 0).1 (ω 0).2.1
  have w1 := exSlate_weight_le k 1 (ω 0).1 (ω 0).2.1
  have r0 := exSlate_reward_mem (ω 0) 0
  have r1 := exSlate_reward_mem (ω 0) 1
  constructor
  · nlinarith [w0.1, w0.2, w1.1, w1.2, r0.1, r1.1]
  · nlinarith [w0.1, w0.2, w1.1, w1.2, r0.2, r1.2]

/-- RIPS and SNRIPS: the value is 3. -/
example {n : ℕ} (hn : 0 < n) {t : ℝ} (ht : 0 ≤ t) (ht' : t ≤ 10) :
    (exSlateMeasure 2 2).real {ω | Misses (SlateKind.rips.estimatePolicyValue 2
      ((exSlateStream exSlateMean).log (fun _ => SlateKind.rips.propensity fun _ => 1 / Fintype.card (Fin 2 → Fin 2))
        (fun c => SlateKind.rips.propensity (exSlatePolicy c)) n ω).args) 3 t} ≤ 2 * Real.exp (-(2 * n * t ^ 2 / (16 - -4) ^ 2)) ∧
    (exSlateMeasure 2 2).real {ω | Misses (SlateKind.snRips.estimatePolicyValue 2
      ((exSlateStream exSlateMean).log (fun _ => SlateKind.snRips.propensity fun _ => 1 / Fintype.card (Fin 2 → Fin 2))
        (fun c => SlateKind.snRips.propensity (exSlatePolicy c)) n ω).args) 3 t} ≤
      2 * (2 : ℕ) * Real.exp (-(2 * n * t ^ 2 / ((2 : ℕ) * 2 * (4 - -1)) ^ 2)) ∧
    (exSlateMeasure 2 2).real {ω | Misses (SlateKind.snSips.estimatePolicyValue 2
      ((exSlateStream exSlateMean).log (fun _ => SlateKind.snSips.propensity fun _ => 1 / Fintype.card (Fin 2 → Fin 2))
        (fun c => SlateKind.snSips.propensity (exSlatePolicy c)) n ω).args) 3 t} ≤
      2 * Real.exp (-(2 * n * t ^ 2 / (2 * (8 - -2)) ^ 2)) := by
  have hi : ∀ (k : SlateKind) (l : Fin 2), Integrable (fun ω : ℕ → ExSlateRound 2 2 =>
      slotWeight k (fun _ _ => 1 / Fintype.card (Fin 2 → Fin 2)) exSlatePolicy l (ω 0).1 (ω 0).2.1 *
        (exSlateMean (ω 0).1 (ω 0).2.1 l + if (ω 0).2.2 then 1 else -1)) (exSlateMeasure 2 2) := fun k l =>
    (exSlate_memLp fun o => slotWeight k (fun _ _ => 1 / Fintype.card (Fin 2 → Fin 2)) exSlatePolicy l o.1 o.2.1 *
      (exSlateMean o.1 o.2.1 l + if o.2.2 then 1 else -1)).integrable one_le_two
  rw [← exSlate_value]
  refine ⟨C189_slate_ips (exSlateStream_logged _) two_pos (.inr (.inr rfl)) (exSlate_covers exSlate_rips) (hi .rips)
      (ae_of_all _ (exSlate_ips_mem .rips)) hn ht,
    C189_slate_sn (exSlateStream_logged _) two_pos (.inr rfl) (exSlate_covers exSlate_rips)
      (ae_of_all _ fun ω l => exSlate_reward_mem (ω 0) l) (ae_of_all _ fun ω l => exSlate_weight_le .snRips l (ω 0).1 (ω 0).2.1) hn ht
      (by norm_num; linarith),
    C189_slate_snsips (exSlateStream_logged _) two_pos (exSlate_covers fun c l a b (h : a = b) => by rw [h]) (hi .snSips)
      (ae_of_all _ fun ω => ?_) (fun c a => ?_) hn ht (by linarith)⟩
  · rw [Fin.sum_univ_two]
    have r0 := exSlate_reward_mem (ω 0) 0
    have r1 := exSlate_reward_mem (ω 0) 1
    exact ⟨(by norm_num : (-2 : ℝ) = -1 + -1).trans_le (add_le_add r0.1 r1.1), (add_le_add r0.2 r1.2).trans_eq (by norm_num)⟩
  · unfold exSlatePolicy
    split <;> norm_num

theorem exCont_unit : ∀ᵐ ω ∂exContMeasure, (ω 0).1 ∈ Set.Icc (0 : ℝ) 1 ∧ (ω 0).2 ∈ Set.Icc (0 : ℝ) 1 := by
  have h : ∀ᵐ x ∂exUnit.prod exUnit, x ∈ Set.Icc (0 : ℝ) 1 ×ˢ Set.Icc (0 : ℝ) 1 := by
    rw [exUnit, Measure.prod_restrict]
    exact ae_restrict_mem (measurableSet_Icc.prod measurableSet_Icc)
  rw [← exContStream_round] at h
  exact ae_of_ae_map (measurable_pi_apply 0).aemeasurable h

theorem exCont_weight_mem {c a : ℝ} (ha : a ∈ Set.Icc (0 : ℝ) 1) (r : ℝ) :
    ContStream.weightFn .epanechnikov (1 / 4) exDensity exContE (c, a, r) ∈ Set.Icc 0 3 := by
  refine ⟨?_, (le_abs_self _).trans (exCont_weight_le ha r)⟩
  unfold ContStream.weightFn
  simp only [exDensity, Set.indicator_of_mem ha, Pi.one_apply, mul_one]
  exact div_nonneg (C38_nonneg _ _) (by norm_num)

/-- Continuous actions. -/
example {n : ℕ} (hn : 0 < n) {t : ℝ} (ht : 0 ≤ t) (ht' : t ≤ 2) :
    exContMeasure.real {ω | Misses (ContKind.ipw.estimatePolicyValue .epanechnikov (.fin (1 / 4))
      (exContStream.log exDensity exContE (fun _ => 7) n ω).args)
      (exContStream.smoothedValue exContMeasure .epanechnikov (1 / 4) exDensity exContE fun c a => c + a) t} ≤
      2 * Real.exp (-(2 * n * t ^ 2 / (6 - 0) ^ 2)) ∧
    exContMeasure.real {ω | Misses (ContKind.snipw.estimatePolicyValue .epanechnikov (.fin (1 / 4))
      (exContStream.log exDensity exContE (fun _ => 7) n ω).args)
      (exContStream.smoothedValue exContMeasure .epanechnikov (1 / 4) exDensity exContE fun c a => c + a) t} ≤
      2 * Real.exp (-(2 * n * t ^ 2 / (3 * (2 - 0)) ^ 2)) ∧
    exContMeasure.real {ω | Misses (ContKind.dr.estimatePolicyValue .epanechnikov (.fin (1 / 4))
      (exContStream.log exDensity exContE (fun _ => 7) n ω).args)
      (exContStream.smoothedValue exContMeasure .epanechnikov (1 / 4) exDensity exContE fun c a => c + a) t} ≤
      2 * Real.exp (-(2 * n * t ^ 2 / (7 - -14) ^ 2)) := by
  refine ⟨C189_kernel_ipw exContStream_logged (by norm_num) exContStream_covers.meas ?_ hn ht,
    C189_kernel_snipw exContStream_logged (by norm_num) exContStream_covers ?_ ?_ hn ht (by linarith),
    C189_kernel_dr exContStream_logged (by norm_num) exContStream_covers (exCont_ipw_memLp.integrable one_le_two) measurable_const
      (integrable_const 7) ?_ hn ht⟩
  all_goals filter_upwards [exCont_unit] with ω hω
  · have w := exCont_weight_mem (c := (ω 0).1) hω.2 ((ω 0).1 + (ω 0).2)
    change ContStream.weightFn .epanechnikov (1 / 4) exDensity exContE ((ω 0).1, (ω 0).2, (ω 0).1 + (ω 0).2) * ((ω 0).1 + (ω 0).2) ∈
      Set.Icc (0 : ℝ) 6
    have h0 : 0 ≤ (ω 0).1 + (ω 0).2 := add_nonneg hω.1.1 hω.2.1
    have h2 : (ω 0).1 + (ω 0).2 ≤ 2 := by linarith [hω.1.2, hω.2.2]
    exact ⟨mul_nonneg w.1 h0, (mul_le_mul w.2 h2 h0 (by norm_num)).trans (by norm_num)⟩
  · exact ⟨add_nonneg hω.1.1 hω.2.1, (add_le_add hω.1.2 hω.2.2).trans (by norm_num)⟩
  · exact exCont_weight_mem (c := (ω 0).1) hω.2 ((ω 0).1 + (ω 0).2)
  · have w := exCont_weight_mem (c := (ω 0).1) hω.2 ((ω 0).1 + (ω 0).2)
    change 7 + ContStream.weightFn .epanechnikov (1 / 4) exDensity exContE ((ω 0).1, (ω 0).2, (ω 0).1 + (ω 0).2) * ((ω 0).1 + (ω 0).2 - 7) ∈
      Set.Icc (-14 : ℝ) 7
    have h0 : 0 ≤ (ω 0).1 + (ω 0).2 := add_nonneg hω.1.1 hω.2.1
    have h2 : (ω 0).1 + (ω 0).2 ≤ 2 := by linarith [hω.1.2, hω.2.2]
    constructor <;> nlinarith [w.1, w.2]

theorem exEmb_weight_eq (o : ExEmbRound) : exEmbWeight o = 1 := by
  unfold exEmbWeight EmbStream.marginal
  obtain ⟨c, b, i, r⟩ := o
  cases b <;> fin_cases i <;> simp [exEmbEmb, exEmbB, exEmbP, exStreamEmbE, Fin.sum_univ_three] <;> norm_num

/-- Action embeddings. -/
example (nActions : ℕ) (learner) {n : ℕ} (hn : 0 < n) {t : ℝ} (ht : 0 ≤ t) (ht' : t ≤ 4) :
    (Measure.infinitePi fun _ : ℕ => exEmbLaw).real {ω | Misses (EmbKind.mipw.plainValue nActions learner
      (exEmbStream.log exEmbB exEmbP (fun _ => (0 : Fin 1)) exStreamEmbE n ω).args) (9 / 4) t} ≤
      2 * Real.exp (-(2 * n * t ^ 2 / (4 - 0) ^ 2)) ∧
    (Measure.infinitePi fun _ : ℕ => exEmbLaw).real {ω | Misses (EmbKind.snmipw.plainValue nActions learner
      (exEmbStream.log exEmbB exEmbP (fun _ => (0 : Fin 1)) exStreamEmbE n ω).args) (9 / 4) t} ≤
      2 * Real.exp (-(2 * n * t ^ 2 / (1 * (4 - 0)) ^ 2)) := by
  have hr : ∀ o : ExEmbRound, exEmbReward o ∈ Set.Icc (0 : ℝ) 4 := by
    rintro ⟨c, b, i, r⟩
    cases c <;> cases b <;> cases r <;> fin_cases i <;> norm_num [exEmbReward, exEmbMean, exEmbEmb]
  rw [← exEmb_value]
  refine ⟨C189_mips exEmbStream_logged exEmb_covers (fun _ => exEmb_independent _) (fun _ => exEmb_independent _)
      (ae_of_all _ fun ω => ?_) nActions learner hn ht,
    C189_snmips exEmbStream_logged exEmb_covers (fun _ => exEmb_independent _) (fun _ => exEmb_independent _)
      (ae_of_all _ fun ω => hr (ω 0)) (ae_of_all _ fun ω => ?_) nActions learner hn ht (by linarith)⟩
  · change exEmbWeight (ω 0) * exEmbReward (ω 0) ∈ _
    rw [exEmb_weight_eq, one_mul]
    exact hr _
  · change exEmbWeight (ω 0) ∈ _
    rw [exEmb_weight_eq]
    norm_num

end cases

end Obp
