import Verif.Spec.Normality
import Verif.Lemmas.RatioClt
import Verif.Props.BootstrapCoverage

set_option linter.unusedSectionVars false

/-!
# Distribution of the errors

C174: the errors of the estimates are asymptotically normal.
-/

namespace Obp
open MeasureTheory ProbabilityTheory Filter Topology Log LogStream

variable {Ω C : Type} [MeasurableSpace Ω] [MeasurableSpace C] {A L : ℕ} {P : Measure Ω} [IsProbabilityMeasure P]
variable {s : LogStream Ω C A} {piB m : C → Fin A → ℝ} {pos : C → Fin L} {piE q : C → Fin A → Fin L → ℝ}

theorem avg_meanTo (x : ℕ → ℝ) (n : ℕ) : avg (fun i : Fin n => x i) = meanTo x n := by
  rw [avg, meanTo, Fin.sum_univ_eq_sum_range]

/-- Errors of the form `Ā + Ū / W̄`, with functions `FA`, `FU`, `FW` of the rounds. -/
theorem errorsNormal_ratio (hs : s.LoggedBy P piB m) {e : Estimator ℝ} {v var : ℝ} {FA FU FW : C × Fin A × ℝ → ℝ}
    (hA : Measurable FA) (hU : Measurable FU) (hW : Measurable FW)
    (hA2 : MemLp (fun ω => FA (s.ctx 0 ω, s.act 0 ω, s.rew 0 ω)) 2 P)
    (hU2 : MemLp (fun ω => FU (s.ctx 0 ω, s.act 0 ω, s.rew 0 ω)) 2 P)
    (hW1 : Integrable (fun ω => FW (s.ctx 0 ω, s.act 0 ω, s.rew 0 ω)) P)
    (hAm : ∫ ω, FA (s.ctx 0 ω, s.act 0 ω, s.rew 0 ω) ∂P = 0) (hUm : ∫ ω, FU (s.ctx 0 ω, s.act 0 ω, s.rew 0 ω) ∂P = 0)
    (hWm : ∫ ω, FW (s.ctx 0 ω, s.act 0 ω, s.rew 0 ω) ∂P = 1)
    (hvar : Var[fun ω => FA (s.ctx 0 ω, s.act 0 ω, s.rew 0 ω) + FU (s.ctx 0 ω, s.act 0 ω, s.rew 0 ω); P] = var) (hpos : 0 < var)
    (hest : ∀ᵐ ω ∂P, ∀ n, 0 < n → meanTo (fun i => FW (s.ctx i ω, s.act i ω, s.rew i ω)) n ≠ 0 →
      e.estimatePolicyValue (s.log piB pos piE q n ω).args = .ok (v + (meanTo (fun i => FA (s.ctx i ω, s.act i ω, s.rew i ω)) n +
        meanTo (fun i => FU (s.ctx i ω, s.act i ω, s.rew i ω)) n / meanTo (fun i => FW (s.ctx i ω, s.act i ω, s.rew i ω)) n))) :
    ErrorsNormal P e (fun n ω => s.log piB pos piE q n ω) v var := by
  refine ⟨hpos, fun t => ?_⟩
  obtain ⟨u1, u2, u3⟩ := hs.rounds_iid hU
  obtain ⟨w1, w2, w3⟩ := hs.rounds_iid hW
  obtain ⟨d1, d2, d3⟩ := hs.rounds_iid (hA.add hU)
  have hw : ∀ᵐ ω ∂P, Tendsto (fun n => meanTo (fun i => FW (s.ctx i ω, s.act i ω, s.rew i ω)) n) atTop (𝓝 1) := by
    have := strong_law_ae_real (fun i ω => FW (s.ctx i ω, s.act i ω, s.rew i ω)) hW1 (fun i j hij => w2.indepFun hij) w3
    rw [hWm] at this
    exact this
  have hc := clt_ratio (A := fun i ω => FA (s.ctx i ω, s.act i ω, s.rew i ω)) (U := fun i ω => FU (s.ctx i ω, s.act i ω, s.rew i ω))
    w1 (hA2.add hU2) d2 d3 (by rw [integral_add (hA2.integrable one_le_two) (hU2.integrable one_le_two), hAm, hUm, add_zero])
    hU2 u2 u3 hUm hw
  have hc' : TendstoInDistribution _ atTop id (fun _ => P) (gaussianReal 0 var.toNNReal) := hvar ▸ hc
  have hmm : ∀ n, Measurable fun ω => meanTo (fun i => FW (s.ctx i ω, s.act i ω, s.rew i ω)) n := fun n => by
    unfold meanTo
    exact (Finset.measurable_fun_sum _ fun i _ => w1 i).div_const _
  have hN : Tendsto (fun n => P.real {ω | meanTo (fun i => FW (s.ctx i ω, s.act i ω, s.rew i ω)) n = 0}) atTop (𝓝 0) := by
    have h1 := tendstoInMeasure_of_tendsto_ae (fun n => (hmm n).aestronglyMeasurable) hw
    rw [tendstoInMeasure_iff_measureReal_norm] at h1
    refine squeeze_zero (fun n => measureReal_nonneg) (fun n => measureReal_mono fun ω hω => ?_) (h1 1 one_pos)
    simp only [Set.mem_ofPred_eq] at hω ⊢
    rw [hω]
    norm_num
  refine tendsto_of_diff (tendsto_Iic hpos hc' t) hN ?_
  filter_upwards [eventually_gt_atTop 0] with n hn
  filter_upwards [hest] with ω hω hb
  refine Iff.trans (b := ∃ x, e.estimatePolicyValue (s.log piB pos piE q n ω).args = .ok x ∧ √n * (x - v) ≤ t) Iff.rfl ?_
  rw [hω n hn hb]
  refine ⟨?_, fun h => ⟨_, rfl, ?_⟩⟩
  · rintro ⟨x, hx, hle⟩
    cases hx
    rwa [add_sub_cancel_left] at hle
  · rw [add_sub_cancel_left]
    exact h

/-- Errors that are averages. -/
theorem errorsNormal_mean (hs : s.LoggedBy P piB m) {e : Estimator ℝ} {v : ℝ} {F : C × Fin A × ℝ → ℝ} (hF : Measurable F)
    (h2 : MemLp (fun ω => F (s.ctx 0 ω, s.act 0 ω, s.rew 0 ω)) 2 P)
    (hm : ∫ ω, F (s.ctx 0 ω, s.act 0 ω, s.rew 0 ω) ∂P = v)
    (hpos : Var[fun ω => F (s.ctx 0 ω, s.act 0 ω, s.rew 0 ω); P] ≠ 0)
    (hest : ∀ᵐ ω ∂P, ∀ n, 0 < n → e.estimatePolicyValue (s.log piB pos piE q n ω).args =
      .ok (meanTo (fun i => F (s.ctx i ω, s.act i ω, s.rew i ω)) n)) :
    ErrorsNormal P e (fun n ω => s.log piB pos piE q n ω) v (Var[fun ω => F (s.ctx 0 ω, s.act 0 ω, s.rew 0 ω); P]) := by
  refine errorsNormal_ratio hs (FA := fun x => F x - v) (FU := fun _ => 0) (FW := fun _ => 1) (hF.sub_const v) measurable_const
    measurable_const (h2.sub (memLp_const v)) (memLp_const 0) (integrable_const 1) ?_ (by simp) (by simp) ?_
    (lt_of_le_of_ne (variance_nonneg _ _) hpos.symm) ?_
  · rw [integral_sub (h2.integrable one_le_two) (integrable_const v), hm]
    simp
  · simp only [add_zero]
    exact variance_sub_const h2.aestronglyMeasurable v
  · filter_upwards [hest] with ω hω n hn _
    rw [hω n hn]
    have hn' : (n : ℝ) ≠ 0 := by exact_mod_cast hn.ne'
    simp only [meanTo, Finset.sum_sub_distrib, Finset.sum_const, Finset.card_range, nsmul_eq_mul, Except.ok.injEq]
    field_simp
    ring

/-- **C174.** Inverse propensity weighting, unclipped: the errors are normal with the variance of a weighted reward. -/
theorem C174_ipw (hs : s.LoggedBy P piB m) (hE : Covers piB pos piE) (h2 : MemLp (s.ipwTerm piB pos piE 0) 2 P)
    (hv : Var[s.ipwTerm piB pos piE 0; P] ≠ 0) {lam : Lam ℝ} (hl : NotClipped lam piB pos piE) :
    ErrorsNormal P ⟨.ipw, lam, false⟩ (fun n ω => s.log piB pos piE q n ω) (s.value P pos piE m)
      (Var[s.ipwTerm piB pos piE 0; P]) := by
  refine errorsNormal_mean hs (F := fun x => x.2.2 * (piE x.1 x.2.1 (pos x.1) / piB x.1 x.2.1))
    ((measurable_snd.comp measurable_snd).mul (hs.weightFn_meas hE)) h2 (hs.ipwTerm_mean hE (h2.integrable one_le_two)) hv ?_
  filter_upwards [hs.log_valid (q := q) hE] with ω hω n hn
  rw [value_roundReward (hω n hn)]
  simp only [roundReward, clip_weight hl]
  exact congrArg Except.ok (avg_meanTo (fun i => s.ipwTerm piB pos piE i ω) n)

/-- **C174.** Doubly robust estimates (unclipped; switch and optimistic shrinkage at `lambda_` infinite), for every reward
model, right or wrong. -/
theorem C174_dr (hs : s.LoggedBy P piB m) (hE : Covers piB pos piE) (hi : Integrable (s.ipwTerm piB pos piE 0) P)
    (hq : ∀ a, Measurable fun c => q c a (pos c))
    (hqi : ∀ a, Integrable (fun ω => piE (s.ctx 0 ω) a (pos (s.ctx 0 ω)) * q (s.ctx 0 ω) a (pos (s.ctx 0 ω))) P)
    (h2 : MemLp (s.drTerm piB pos piE q 0) 2 P) (hv : Var[s.drTerm piB pos piE q 0; P] ≠ 0)
    {k : Kind} {lam : Lam ℝ} (hk : k = .dr ∧ NotClipped lam piB pos piE ∨ (k = .switchDr ∨ k = .drOs) ∧ lam = .inf) :
    ErrorsNormal P ⟨k, lam, false⟩ (fun n ω => s.log piB pos piE q n ω) (s.value P pos piE m)
      (Var[s.drTerm piB pos piE q 0; P]) := by
  have hqm : Measurable fun x : C × Fin A => q x.1 x.2 (pos x.1) := measurable_from_prod_countable_left hq
  refine errorsNormal_mean hs (F := fun x => (∑ a, piE x.1 a (pos x.1) * q x.1 a (pos x.1)) +
    piE x.1 x.2.1 (pos x.1) / piB x.1 x.2.1 * (x.2.2 - q x.1 x.2.1 (pos x.1))) ?_ h2 (hs.drTerm_mean hE hi hq hqi) hv ?_
  · refine Measurable.add ?_ ((hs.weightFn_meas hE).mul ((measurable_snd.comp measurable_snd).sub
      (hqm.comp (measurable_fst.prodMk (measurable_fst.comp measurable_snd)))))
    exact (Finset.measurable_fun_sum _ fun a _ => (hE.meas a).mul (hq a)).comp measurable_fst
  filter_upwards [hs.log_valid (q := q) hE] with ω hω n hn
  have hfun : (fun i : Fin n => (s.log piB pos piE q n ω).modelValue i +
      (s.log piB pos piE q n ω).weight false i * (s.log piB pos piE q n ω).residual i) = fun i : Fin n => s.drTerm piB pos piE q i ω := by
    funext i
    rw [log_modelValue hE]
    rfl
  have hr : roundReward ⟨k, lam, false⟩ (s.log piB pos piE q n ω) = some fun i : Fin n => s.drTerm piB pos piE q i ω := by
    rw [← hfun]
    rcases hk with ⟨rfl, hl⟩ | ⟨rfl | rfl, rfl⟩
    · simp only [roundReward, clip_weight hl]
    · simp [roundReward, Lam.geB]
    · simp [roundReward]
  rw [value_roundReward (hω n hn), hr]
  exact congrArg Except.ok (avg_meanTo (fun i => s.drTerm piB pos piE q i ω) n)

/-- **C174.** Self-normalised inverse propensity weighting: the variance is that of the weighted distances from the value. -/
theorem C174_snipw (hs : s.LoggedBy P piB m) (hE : Covers piB pos piE)
    (h2 : MemLp (s.snipwTerm piB pos piE (s.value P pos piE m) 0) 2 P)
    (hv : Var[s.snipwTerm piB pos piE (s.value P pos piE m) 0; P] ≠ 0) (lam : Lam ℝ) :
    ErrorsNormal P ⟨.snipw, lam, false⟩ (fun n ω => s.log piB pos piE q n ω) (s.value P pos piE m)
      (Var[s.snipwTerm piB pos piE (s.value P pos piE m) 0; P]) := by
  obtain ⟨w1, w2⟩ := hs.weight_mean hE
  have hi : Integrable (fun ω => s.weight piB pos piE ω * s.rew 0 ω) P := by
    refine ((h2.integrable one_le_two).add (w1.mul_const (s.value P pos piE m))).congr (ae_of_all _ fun ω => ?_)
    simp only [Pi.add_apply, snipwTerm, LogStream.weight]
    ring
  obtain ⟨-, r2⟩ := hs.weighted_reward hE hi
  refine errorsNormal_ratio hs (FA := fun _ => 0)
    (FU := fun x => piE x.1 x.2.1 (pos x.1) / piB x.1 x.2.1 * (x.2.2 - s.value P pos piE m))
    (FW := fun x => piE x.1 x.2.1 (pos x.1) / piB x.1 x.2.1) measurable_const
    ((hs.weightFn_meas hE).mul ((measurable_snd.comp measurable_snd).sub_const _)) (hs.weightFn_meas hE) (memLp_const 0) h2 w1
    (by simp) ?_ w2 (by simp only [zero_add]; rfl) (lt_of_le_of_ne (variance_nonneg _ _) hv.symm) ?_
  · have e : ∀ ω, piE (s.ctx 0 ω) (s.act 0 ω) (pos (s.ctx 0 ω)) / piB (s.ctx 0 ω) (s.act 0 ω) * (s.rew 0 ω - s.value P pos piE m) =
        s.weight piB pos piE ω * s.rew 0 ω - s.weight piB pos piE ω * s.value P pos piE m := fun ω => by
      simp only [LogStream.weight]
      ring
    simp only [e]
    rw [integral_sub hi (w1.mul_const _), r2, integral_mul_const, w2]
    ring
  · filter_upwards [hs.log_valid (q := q) hE] with ω hω n hn hb
    have ha : avg ((s.log piB pos piE q n ω).weight false) ≠ 0 := by
      rw [← avg_meanTo] at hb
      exact hb
    rw [value_roundReward (hω n hn)]
    simp only [roundReward, if_neg ha]
    refine congrArg Except.ok ?_
    have e1 : avg ((s.log piB pos piE q n ω).weight false) =
      meanTo (fun i => piE (s.ctx i ω) (s.act i ω) (pos (s.ctx i ω)) / piB (s.ctx i ω) (s.act i ω)) n :=
      avg_meanTo (fun i => piE (s.ctx i ω) (s.act i ω) (pos (s.ctx i ω)) / piB (s.ctx i ω) (s.act i ω)) n
    have e2 : avg (fun i => (s.log piB pos piE q n ω).reward i * (s.log piB pos piE q n ω).weight false i /
        avg ((s.log piB pos piE q n ω).weight false)) = meanTo (fun i => s.rew i ω *
          (piE (s.ctx i ω) (s.act i ω) (pos (s.ctx i ω)) / piB (s.ctx i ω) (s.act i ω)) /
            avg ((s.log piB pos piE q n ω).weight false)) n := avg_meanTo (fun i => s.rew i ω *
          (piE (s.ctx i ω) (s.act i ω) (pos (s.ctx i ω)) / piB (s.ctx i ω) (s.act i ω)) /
            avg ((s.log piB pos piE q n ω).weight false)) n
    rw [e2, e1]
    have hz : meanTo (fun _ => (0 : ℝ)) n = 0 := by simp [meanTo]
    rw [hz, zero_add]
    set W := meanTo (fun i => piE (s.ctx i ω) (s.act i ω) (pos (s.ctx i ω)) / piB (s.ctx i ω) (s.act i ω)) n with hWdef
    have h3 : meanTo (fun i => piE (s.ctx i ω) (s.act i ω) (pos (s.ctx i ω)) / piB (s.ctx i ω) (s.act i ω) *
        (s.rew i ω - s.value P pos piE m)) n = meanTo (fun i => s.rew i ω *
          (piE (s.ctx i ω) (s.act i ω) (pos (s.ctx i ω)) / piB (s.ctx i ω) (s.act i ω))) n - W * s.value P pos piE m := by
      simp only [hWdef, meanTo, mul_sub, Finset.sum_sub_distrib, ← Finset.sum_mul]
      rw [sub_div, div_mul_eq_mul_div]
      simp only [mul_comm]
    have h4 : meanTo (fun i => s.rew i ω *
          (piE (s.ctx i ω) (s.act i ω) (pos (s.ctx i ω)) / piB (s.ctx i ω) (s.act i ω)) / W) n = meanTo (fun i => s.rew i ω *
          (piE (s.ctx i ω) (s.act i ω) (pos (s.ctx i ω)) / piB (s.ctx i ω) (s.act i ω))) n / W := by
      simp only [meanTo, ← Finset.sum_div]
      rw [div_right_comm]
    have hW : W ≠ 0 := hb
    rw [h3, h4]
    field_simp
    ring

/-- **C174.** The self-normalised doubly robust estimate, for every reward model: `d` is the amount by which the model is wrong
about the value. -/
theorem C174_sndr (hs : s.LoggedBy P piB m) (hE : Covers piB pos piE) (hi : Integrable (s.ipwTerm piB pos piE 0) P)
    (hq : ∀ a, Measurable fun c => q c a (pos c))
    (hqi : ∀ a, Integrable (fun ω => piE (s.ctx 0 ω) a (pos (s.ctx 0 ω)) * q (s.ctx 0 ω) a (pos (s.ctx 0 ω))) P)
    (hM : MemLp (fun ω => ∑ a, piE (s.ctx 0 ω) a (pos (s.ctx 0 ω)) * q (s.ctx 0 ω) a (pos (s.ctx 0 ω))) 2 P) {d : ℝ}
    (hd : s.value P pos piE m = s.value P pos piE (fun c a => q c a (pos c)) + d)
    (h2 : MemLp (s.sndrTerm piB pos piE q d 0) 2 P) (hv : Var[s.sndrTerm piB pos piE q d 0; P] ≠ 0) (lam : Lam ℝ) :
    ErrorsNormal P ⟨.sndr, lam, false⟩ (fun n ω => s.log piB pos piE q n ω) (s.value P pos piE m)
      (Var[s.sndrTerm piB pos piE q d 0; P]) := by
  obtain ⟨w1, w2⟩ := hs.weight_mean hE
  obtain ⟨q1, q2⟩ := hs.weighted hE (h := fun c a => q c a (pos c)) hq hqi
  have hqm : Measurable fun x : C × Fin A => q x.1 x.2 (pos x.1) := measurable_from_prod_countable_left hq
  set M := s.value P pos piE (fun c a => q c a (pos c)) with hMdef
  have hU2 : MemLp (fun ω => piE (s.ctx 0 ω) (s.act 0 ω) (pos (s.ctx 0 ω)) / piB (s.ctx 0 ω) (s.act 0 ω) *
      (s.rew 0 ω - q (s.ctx 0 ω) (s.act 0 ω) (pos (s.ctx 0 ω)) - d)) 2 P := by
    refine (h2.sub hM).ae_eq (ae_of_all _ fun ω => ?_)
    simp only [Pi.sub_apply, sndrTerm, add_sub_cancel_left]
  refine errorsNormal_ratio hs (FA := fun x => (∑ a, piE x.1 a (pos x.1) * q x.1 a (pos x.1)) - M)
    (FU := fun x => piE x.1 x.2.1 (pos x.1) / piB x.1 x.2.1 * (x.2.2 - q x.1 x.2.1 (pos x.1) - d))
    (FW := fun x => piE x.1 x.2.1 (pos x.1) / piB x.1 x.2.1)
    (((Finset.measurable_fun_sum _ fun a _ => (hE.meas a).mul (hq a)).comp measurable_fst).sub_const _)
    ((hs.weightFn_meas hE).mul (((measurable_snd.comp measurable_snd).sub
      (hqm.comp (measurable_fst.prodMk (measurable_fst.comp measurable_snd)))).sub_const d)) (hs.weightFn_meas hE)
    (hM.sub (memLp_const M)) hU2 w1 ?_ ?_ w2 ?_ (lt_of_le_of_ne (variance_nonneg _ _) hv.symm) ?_
  · rw [integral_sub (hM.integrable one_le_two) (integrable_const M)]
    simp [hMdef, LogStream.value]
  · have e : ∀ ω, piE (s.ctx 0 ω) (s.act 0 ω) (pos (s.ctx 0 ω)) / piB (s.ctx 0 ω) (s.act 0 ω) *
        (s.rew 0 ω - q (s.ctx 0 ω) (s.act 0 ω) (pos (s.ctx 0 ω)) - d) = s.ipwTerm piB pos piE 0 ω -
          (s.weight piB pos piE ω * q (s.ctx 0 ω) (s.act 0 ω) (pos (s.ctx 0 ω)) + s.weight piB pos piE ω * d) := fun ω => by
      simp only [LogStream.weight, ipwTerm]
      ring
    simp only [e]
    have hqd : Integrable (fun ω => s.weight piB pos piE ω * q (s.ctx 0 ω) (s.act 0 ω) (pos (s.ctx 0 ω)) +
      s.weight piB pos piE ω * d) P := q1.add (w1.mul_const d)
    rw [integral_sub hi hqd, integral_add q1 (w1.mul_const _), q2, integral_mul_const, w2,
      hs.ipwTerm_mean hE hi, hd]
    ring
  · have e : ∀ ω, (∑ a, piE (s.ctx 0 ω) a (pos (s.ctx 0 ω)) * q (s.ctx 0 ω) a (pos (s.ctx 0 ω))) - M +
        piE (s.ctx 0 ω) (s.act 0 ω) (pos (s.ctx 0 ω)) / piB (s.ctx 0 ω) (s.act 0 ω) *
          (s.rew 0 ω - q (s.ctx 0 ω) (s.act 0 ω) (pos (s.ctx 0 ω)) - d) = s.sndrTerm piB pos piE q d 0 ω - M := fun ω => by
      simp only [sndrTerm]
      ring
    simp only [e]
    exact variance_sub_const h2.aestronglyMeasurable M
  · filter_upwards [hs.log_valid (q := q) hE] with ω hω n hn hb
    let w : ℕ → ℝ := fun i => piE (s.ctx i ω) (s.act i ω) (pos (s.ctx i ω)) / piB (s.ctx i ω) (s.act i ω)
    let mv : ℕ → ℝ := fun i => ∑ a, piE (s.ctx i ω) a (pos (s.ctx i ω)) * q (s.ctx i ω) a (pos (s.ctx i ω))
    let rs : ℕ → ℝ := fun i => s.rew i ω - q (s.ctx i ω) (s.act i ω) (pos (s.ctx i ω))
    have e1 : avg ((s.log piB pos piE q n ω).weight false) = meanTo w n := avg_meanTo w n
    have ha : avg ((s.log piB pos piE q n ω).weight false) ≠ 0 := by
      rw [e1]
      exact hb
    rw [value_roundReward (hω n hn)]
    simp only [roundReward, if_neg ha]
    refine congrArg Except.ok ?_
    have e2 : avg (fun i => (s.log piB pos piE q n ω).modelValue i + (s.log piB pos piE q n ω).weight false i *
        (s.log piB pos piE q n ω).residual i / avg ((s.log piB pos piE q n ω).weight false)) =
        meanTo (fun i => mv i + w i * rs i / meanTo w n) n := by
      rw [e1]
      refine Eq.trans (congrArg avg (funext fun i => ?_)) (avg_meanTo (fun i => mv i + w i * rs i / meanTo w n) n)
      rw [log_modelValue hE]
      rfl
    rw [e2]
    change _ = _ + (meanTo (fun i => mv i - M) n + meanTo (fun i => w i * (rs i - d)) n / meanTo w n)
    have hW : meanTo w n ≠ 0 := hb
    have hn' : (n : ℝ) ≠ 0 := by exact_mod_cast hn.ne'
    have h3 : meanTo (fun i => w i * (rs i - d)) n = meanTo (fun i => w i * rs i) n - meanTo w n * d := by
      simp only [meanTo, mul_sub, Finset.sum_sub_distrib, ← Finset.sum_mul]
      ring
    have h4 : meanTo (fun i => mv i - M) n = meanTo mv n - M := by
      simp only [meanTo, Finset.sum_sub_distrib, Finset.sum_const, Finset.card_range, nsmul_eq_mul]
      field_simp
    have h5 : meanTo (fun i => mv i + w i * rs i / meanTo w n) n = meanTo mv n + meanTo (fun i => w i * rs i) n / meanTo w n := by
      have : ∀ c : ℝ, meanTo (fun i => mv i + w i * rs i / c) n = meanTo mv n + meanTo (fun i => w i * rs i) n / c := by
        intro c
        simp only [meanTo, Finset.sum_add_distrib, ← Finset.sum_div]
        ring
      exact this _
    rw [h3, h4, h5, hd]
    field_simp
    ring

/-! ### The example log of C151: self-normalising halves the variance -/

theorem exStream_memLp (g : ExRound → ℝ) : MemLp (fun ω => g (ω 0)) 2 (Measure.infinitePi fun _ : ℕ => exRoundLaw) := by
  obtain ⟨M, hM⟩ := (Set.finite_range fun o => ‖g o‖).bddAbove
  exact MemLp.of_bound ((measurable_of_finite g).comp (measurable_pi_apply 0)).aestronglyMeasurable M
    (ae_of_all _ fun ω => hM ⟨ω 0, rfl⟩)

theorem exStream_variance (g : ExRound → ℝ) :
    Var[fun ω => g (ω 0); Measure.infinitePi fun _ : ℕ => exRoundLaw] = ∑ o, (g o - ∑ o, g o / 8) ^ 2 / 8 := by
  rw [variance_eq_integral (exStream_memLp g).aestronglyMeasurable.aemeasurable, exStream_integral]
  exact exStream_integral fun o => (g o - ∑ o, g o / 8) ^ 2

example : ErrorsNormal (Measure.infinitePi fun _ : ℕ => exRoundLaw) ⟨.ipw, .inf, false⟩
    (fun n ω => exStream.log (fun _ _ => 1 / 2) (fun _ => (0 : Fin 1)) exEval (fun _ _ _ => 0) n ω) (19 / 8) (227 / 64) := by
  have hv : Var[exStream.ipwTerm (fun _ _ => 1 / 2) (fun _ => (0 : Fin 1)) exEval 0; Measure.infinitePi fun _ : ℕ => exRoundLaw] =
      227 / 64 := by
    refine (exStream_variance fun o => exReward o * (exEval o.1 o.2.1 0 / (1 / 2))).trans ?_
    simp only [Fintype.sum_prod_type, Fintype.sum_bool, Fin.sum_univ_two]
    norm_num [exEval, exMean, exReward]
  have h := C174_ipw (q := fun _ _ _ => 0) exStream_logged exEval_covers
    (exStream_memLp fun o => exReward o * (exEval o.1 o.2.1 0 / (1 / 2))) (by rw [hv]; norm_num) (lam := .inf)
    (fun l hl => by simp at hl)
  rwa [hv, exStream_value] at h

example : ErrorsNormal (Measure.infinitePi fun _ : ℕ => exRoundLaw) ⟨.snipw, .inf, false⟩
    (fun n ω => exStream.log (fun _ _ => 1 / 2) (fun _ => (0 : Fin 1)) exEval (fun _ _ _ => 0) n ω) (19 / 8) (433 / 256) := by
  have hv : Var[exStream.snipwTerm (fun _ _ => 1 / 2) (fun _ => (0 : Fin 1)) exEval (19 / 8) 0;
      Measure.infinitePi fun _ : ℕ => exRoundLaw] = 433 / 256 := by
    refine (exStream_variance fun o => exEval o.1 o.2.1 0 / (1 / 2) * (exReward o - 19 / 8)).trans ?_
    simp only [Fintype.sum_prod_type, Fintype.sum_bool, Fin.sum_univ_two]
    norm_num [exEval, exMean, exReward]
  have h := C174_snipw (q := fun _ _ _ => 0) (m := exMean) exStream_logged exEval_covers
    (by rw [exStream_value]; exact exStream_memLp fun o => exEval o.1 o.2.1 0 / (1 / 2) * (exReward o - 19 / 8))
    (by rw [exStream_value, hv]; norm_num) .inf
  rwa [exStream_value, hv] at h

/-- A reward model that predicts 7 everywhere: it is wrong by -37/8. -/
example : ErrorsNormal (Measure.infinitePi fun _ : ℕ => exRoundLaw) ⟨.sndr, .inf, false⟩
    (fun n ω => exStream.log (fun _ _ => 1 / 2) (fun _ => (0 : Fin 1)) exEval (fun _ _ _ => 7) n ω) (19 / 8) (433 / 256) := by
  have hv : Var[exStream.sndrTerm (fun _ _ => 1 / 2) (fun _ => (0 : Fin 1)) exEval (fun _ _ _ => 7) (-37 / 8) 0;
      Measure.infinitePi fun _ : ℕ => exRoundLaw] = 433 / 256 := by
    refine (exStream_variance fun o => (∑ a, exEval o.1 a 0 * 7) + exEval o.1 o.2.1 0 / (1 / 2) * (exReward o - 7 - -37 / 8)).trans ?_
    simp only [Fintype.sum_prod_type, Fintype.sum_bool, Fin.sum_univ_two]
    norm_num [exEval, exMean, exReward]
  have hval : exStream.value (Measure.infinitePi fun _ : ℕ => exRoundLaw) (fun _ => (0 : Fin 1)) exEval (fun _ _ => 7) = 7 := by
    refine (exStream_integral fun o => ∑ a, exEval o.1 a 0 * 7).trans ?_
    simp only [Fintype.sum_prod_type, Fintype.sum_bool, Fin.sum_univ_two]
    norm_num [exEval]
  have h := C174_sndr (q := fun _ _ _ => 7) (d := -37 / 8) exStream_logged exEval_covers
    ((exStream_memLp fun o => exReward o * (exEval o.1 o.2.1 0 / (1 / 2))).integrable one_le_two) (fun _ => measurable_const)
    (fun a => (exStream_memLp fun o => exEval o.1 a 0 * 7).integrable one_le_two)
    (exStream_memLp fun o => ∑ a, exEval o.1 a 0 * 7) (by rw [exStream_value, hval]; norm_num)
    (exStream_memLp fun o => (∑ a, exEval o.1 a 0 * 7) + exEval o.1 o.2.1 0 / (1 / 2) * (exReward o - 7 - -37 / 8))
    (by rw [hv]; norm_num) .inf
  rwa [exStream_value, hv] at h

end Obp
