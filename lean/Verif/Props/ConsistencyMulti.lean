import Verif.Lemmas.MultiStream

set_option linter.unusedSectionVars false

/-!
# Consistency of the estimators for several loggers

C162: with more and more rounds from several loggers, the estimates tend to the value of the evaluation policy.
-/

namespace Obp
open MeasureTheory ProbabilityTheory Filter Topology Log LogStream MultiStream

variable {Ω C : Type} [MeasurableSpace Ω] [MeasurableSpace C] {A L M : ℕ} {P : Measure Ω} [IsProbabilityMeasure P] {D : Measure C}
variable {s : Fin M → LogStream Ω C A} {piB : Fin M → C → Fin A → ℝ} {m : C → Fin A → ℝ} {pos : C → Fin L}
variable {piE q : C → Fin A → Fin L → ℝ} {N : ℕ → Fin M → ℕ} {rho : Fin M → ℝ}

namespace MultiStream

/-- The term of round `i` of logger `k` in inverse propensity weighting. -/
noncomputable def ipwTerm (s : Fin M → LogStream Ω C A) (p : Fin M → C → Fin A → ℝ) (pos : C → Fin L) (piE : C → Fin A → Fin L → ℝ)
    (ω : Ω) (k : Fin M) (i : ℕ) : ℝ :=
  (s k).rew i ω * (piE ((s k).ctx i ω) ((s k).act i ω) (pos ((s k).ctx i ω)) / p k ((s k).ctx i ω) ((s k).act i ω))

/-- The value of the reward model in round `i` of logger `k`. -/
noncomputable def modelTerm (s : Fin M → LogStream Ω C A) (pos : C → Fin L) (piE q : C → Fin A → Fin L → ℝ)
    (ω : Ω) (k : Fin M) (i : ℕ) : ℝ :=
  ∑ a, piE ((s k).ctx i ω) a (pos ((s k).ctx i ω)) * q ((s k).ctx i ω) a (pos ((s k).ctx i ω))

/-- The weighted residual in round `i` of logger `k`. -/
noncomputable def residualTerm (s : Fin M → LogStream Ω C A) (p : Fin M → C → Fin A → ℝ) (pos : C → Fin L)
    (piE q : C → Fin A → Fin L → ℝ) (ω : Ω) (k : Fin M) (i : ℕ) : ℝ :=
  piE ((s k).ctx i ω) ((s k).act i ω) (pos ((s k).ctx i ω)) / p k ((s k).ctx i ω) ((s k).act i ω) *
    ((s k).rew i ω - q ((s k).ctx i ω) ((s k).act i ω) (pos ((s k).ctx i ω)))

theorem pooled_modelValue (hE : ∀ c l, IsDist fun a => piE c a l) (N : Fin M → ℕ) (ω : Ω) (j : Fin (∑ k, N k)) :
    (pooled s rho piB pos piE q N ω).modelValue j = column N (modelTerm s pos piE q ω) j := by
  simp only [pooled, Log.modelValue, column, modelTerm, (hE _ _).sum_one, div_one]
  exact Finset.sum_congr rfl fun a _ => mul_comm _ _

theorem clip_eq {lam : Lam ℝ} {w : ℝ} (h : ∀ l, lam = .fin l → w ≤ l) : lam.clip w = w := by
  cases lam with
  | inf => rfl
  | fin l => exact min_eq_left (h l rfl)

theorem pooled_clip {lam : Lam ℝ} (hl : ∀ k, NotClipped lam (piB k) pos piE) {N : Fin M → ℕ} {ω : Ω} (j : Fin (∑ k, N k)) :
    lam.clip ((pooled s rho piB pos piE q N ω).weight false j) = (pooled s rho piB pos piE q N ω).weight false j :=
  clip_eq fun l h => hl _ l h _ _

theorem pooled_clip_avg {lam : Lam ℝ} (hl : NotClipped lam (average rho piB) pos piE) {N : Fin M → ℕ} {ω : Ω} (j : Fin (∑ k, N k)) :
    lam.clip ((pooled s rho piB pos piE q N ω).weightAvg false j) = (pooled s rho piB pos piE q N ω).weightAvg false j :=
  clip_eq fun l h => hl l h _ _

theorem Grows.loggers (hg : Grows N rho) : Nonempty (Fin M) := by
  by_contra h
  rw [not_nonempty_iff] at h
  simpa using hg.sum_rho

/-- The terms of one logger. -/
theorem LoggedBy.ipw_tendsto (hs : LoggedBy s P D piB m) (hE : ∀ k, Covers (piB k) pos piE)
    (hi : ∀ k, Integrable (fun ω => (s k).weight (piB k) pos piE ω * (s k).rew 0 ω) P) :
    ∀ᵐ ω ∂P, ∀ k, Tendsto (fun n => avg fun i : Fin n => ipwTerm s piB pos piE ω k i) atTop (𝓝 (value D pos piE m)) := by
  rw [ae_all_iff]
  intro k
  rw [← hs.value_eq k (hE k).meas (hs.logger k).m_meas]
  exact (hs.logger k).lln_weighted_reward (q := fun _ _ _ => 0) (hE k) (hi k)

theorem LoggedBy.model_tendsto (hs : LoggedBy s P D piB m) (hE : ∀ a, Measurable fun c => piE c a (pos c))
    (hq : ∀ a, Measurable fun c => q c a (pos c)) (hqi : ∀ a, Integrable (fun c => piE c a (pos c) * q c a (pos c)) D) :
    ∀ᵐ ω ∂P, ∀ k, Tendsto (fun n => avg fun i : Fin n => modelTerm s pos piE q ω k i) atTop
      (𝓝 (value D pos piE fun c a => q c a (pos c))) := by
  rw [ae_all_iff]
  intro k
  have hctx := ((hs.logger k).ctx_meas 0).aemeasurable (μ := P)
  have hqi' : ∀ a, Integrable (fun ω => piE ((s k).ctx 0 ω) a (pos ((s k).ctx 0 ω)) * q ((s k).ctx 0 ω) a (pos ((s k).ctx 0 ω))) P :=
    fun a => by
      have := hqi a
      rw [← hs.ctx_law k] at this
      exact (integrable_map_measure this.aestronglyMeasurable hctx).1 this
  have := (hs.logger k).lln (f := fun c _ _ => ∑ a, piE c a (pos c) * q c a (pos c))
    ((Finset.measurable_sum _ fun a _ => (hE a).mul (hq a)).comp measurable_fst) (integrable_finsetSum _ fun a _ => hqi' a)
  rw [← hs.value_eq k hE hq]
  exact this

theorem LoggedBy.residual_tendsto (hs : LoggedBy s P D piB m) (hE : ∀ k, Covers (piB k) pos piE)
    (hi : ∀ k, Integrable (fun ω => (s k).weight (piB k) pos piE ω * (s k).rew 0 ω) P)
    (hq : ∀ a, Measurable fun c => q c a (pos c)) (hqi : ∀ a, Integrable (fun c => piE c a (pos c) * q c a (pos c)) D) :
    ∀ᵐ ω ∂P, ∀ k, Tendsto (fun n => avg fun i : Fin n => residualTerm s piB pos piE q ω k i) atTop
      (𝓝 (value D pos piE m - value D pos piE fun c a => q c a (pos c))) := by
  rw [ae_all_iff]
  intro k
  have hctx := ((hs.logger k).ctx_meas 0).aemeasurable (μ := P)
  have hqi' : ∀ a, Integrable (fun ω => piE ((s k).ctx 0 ω) a (pos ((s k).ctx 0 ω)) * q ((s k).ctx 0 ω) a (pos ((s k).ctx 0 ω))) P :=
    fun a => by
      have := hqi a
      rw [← hs.ctx_law k] at this
      exact (integrable_map_measure this.aestronglyMeasurable hctx).1 this
  have h1 := (hs.logger k).lln_weighted_reward (q := q) (hE k) (hi k)
  have h2 := (hs.logger k).lln_weighted_model (hE k) hq hqi'
  rw [hs.value_eq k (hE k).meas (hs.logger k).m_meas] at h1
  rw [hs.value_eq k (hE k).meas hq] at h2
  filter_upwards [h1, h2] with ω a b
  refine (a.sub b).congr fun n => ?_
  simp only [avg, ← sub_div, ← Finset.sum_sub_distrib]
  refine congrArg (· / _) (Finset.sum_congr rfl fun i _ => ?_)
  simp only [LogStream.log, Log.weight, residualTerm]
  simp
  ring

end MultiStream

/-! ### C162 -/

/-- **C162.** Naive inverse propensity weighting tends to the value of the evaluation policy, if every single logger can take
all actions of the evaluation policy. -/
theorem C162_naive_ipw (hs : LoggedBy s P D piB m) (hg : Grows N rho) (hE : ∀ k, Covers (piB k) pos piE)
    (hi : ∀ k, Integrable (fun ω => (s k).weight (piB k) pos piE ω * (s k).rew 0 ω) P) {lam : Lam ℝ}
    (hl : ∀ k, NotClipped lam (piB k) pos piE) :
    ∀ᵐ ω ∂P, ResultsTendTo (fun t => (MultiEstimator.mk .naiveIpw lam false).estimatePolicyValue
      (pooled s rho piB pos piE q (N t) ω).margs) (value D pos piE m) := by
  obtain ⟨k0⟩ := hg.loggers
  filter_upwards [hs.pooled_valid (pos := pos) (q := q) hg.pos (hE k0).dist, hs.ipw_tendsto hE hi] with ω hv ht
  refine ⟨_, ?_, hg.pooled_tendsto_const ht⟩
  filter_upwards [hg.total.eventually_gt_atTop 0] with t hn
  rw [value_naiveIpw (hv _ hn).base]
  congr 2
  funext j
  rw [pooled_clip hl]
  rfl

/-- **C162.** Naive doubly robust estimates, for every reward model. -/
theorem C162_naive_dr (hs : LoggedBy s P D piB m) (hg : Grows N rho) (hE : ∀ k, Covers (piB k) pos piE)
    (hi : ∀ k, Integrable (fun ω => (s k).weight (piB k) pos piE ω * (s k).rew 0 ω) P)
    (hq : ∀ a, Measurable fun c => q c a (pos c)) (hqi : ∀ a, Integrable (fun c => piE c a (pos c) * q c a (pos c)) D)
    {lam : Lam ℝ} (hl : ∀ k, NotClipped lam (piB k) pos piE) :
    ∀ᵐ ω ∂P, ResultsTendTo (fun t => (MultiEstimator.mk .naiveDr lam false).estimatePolicyValue
      (pooled s rho piB pos piE q (N t) ω).margs) (value D pos piE m) := by
  obtain ⟨k0⟩ := hg.loggers
  filter_upwards [hs.pooled_valid (pos := pos) (q := q) hg.pos (hE k0).dist, hs.model_tendsto (hE k0).meas hq hqi,
    hs.residual_tendsto hE hi hq hqi] with ω hv h1 h2
  have ht := (hg.pooled_tendsto_const h1).add (hg.pooled_tendsto_const h2)
  rw [add_sub_cancel] at ht
  refine ⟨_, ?_, ht⟩
  filter_upwards [hg.total.eventually_gt_atTop 0] with t hn
  rw [value_naiveDr (hv _ hn).base]
  simp only [avg, ← add_div, ← Finset.sum_add_distrib]
  congr 2
  refine Finset.sum_congr rfl fun j _ => ?_
  rw [pooled_clip hl, pooled_modelValue (hE k0).dist]
  rfl

/-- **C162.** Weighted inverse propensity weighting, if the terms of no logger are all the same. -/
theorem C162_weighted_ipw (hs : LoggedBy s P D piB m) (hg : Grows N rho) (hE : ∀ k, Covers (piB k) pos piE)
    (hi : ∀ k, Integrable (fun ω => (s k).weight (piB k) pos piE ω * (s k).rew 0 ω) P)
    (hv : ∀ k, ¬ ∃ v, ∀ᵐ ω ∂P, (s k).rew 0 ω * (s k).weight (piB k) pos piE ω = v) {lam : Lam ℝ}
    (hl : ∀ k, NotClipped lam (piB k) pos piE) :
    ∀ᵐ ω ∂P, ResultsTendTo (fun t => (MultiEstimator.mk .weightedIpw lam false).estimatePolicyValue
      (pooled s rho piB pos piE q (N t) ω).margs) (value D pos piE m) := by
  obtain ⟨k0⟩ := hg.loggers
  have hvar : ∀ᵐ ω ∂P, ∀ k, ∃ i, ipwTerm s piB pos piE ω k i ≠ ipwTerm s piB pos piE ω k 0 := by
    rw [ae_all_iff]
    intro k
    exact (hs.logger k).varies (f := fun c a r => r * (piE c a (pos c) / piB k c a))
      ((measurable_snd.comp measurable_snd).mul ((hs.logger k).weightFn_meas (hE k))) (hv k)
  filter_upwards [hs.pooled_valid (pos := pos) (q := q) hg.pos (hE k0).dist, hs.ipw_tendsto hE hi, hvar] with ω hva ht hne
  choose i0 hi0 using hne
  have hterm : ∀ t, (fun j => (pooled s rho piB pos piE q (N t) ω).reward j *
      lam.clip ((pooled s rho piB pos piE q (N t) ω).weight false j)) = column (N t) (ipwTerm s piB pos piE ω) := fun t => by
    funext j
    rw [pooled_clip hl]
    rfl
  let Q : ℕ → (ℕ → ℝ) → Prop := fun t omega => (∀ j, 0 < omega ((pooled s rho piB pos piE q (N t) ω).stratum j)) ∧
    (avg fun j => omega ((pooled s rho piB pos piE q (N t) ω).stratum j)) = 1 ∧
    (MultiEstimator.mk .weightedIpw lam false).estimatePolicyValue (pooled s rho piB pos piE q (N t) ω).margs =
        .ok (avg fun j => column (N t) (ipwTerm s piB pos piE ω) j * omega (column (N t) (fun k _ => (k : ℕ)) j))
  have key : ∀ᶠ t in atTop, ∃ omega, Q t omega := by
    filter_upwards [hg.total.eventually_gt_atTop 0, eventually_all.2 fun k => (hg.size k).eventually_gt_atTop (i0 k)] with t hn hk
    obtain ⟨w, h1, h2⟩ := C51_weighted_ipw (hva _ hn).base lam false (pooled_contiguous (fun k => Nat.zero_lt_of_lt (hk k)) ω)
      (by rw [hterm]; exact stratumVar_ne fun k => ⟨i0 k, hk k, hi0 k⟩)
    refine ⟨w, h1.pos, h1.avg_one, h2.trans ?_⟩
    rw [← hterm]
    rfl
  have key' : ∀ t, ∃ omega, (∃ omega, Q t omega) → Q t omega := fun t => by
    by_cases h : ∃ omega, Q t omega
    · exact h.imp fun w hw _ => hw
    · exact ⟨0, fun h' => absurd h' h⟩
  choose W hW using key'
  exact ⟨_, key.mono fun t h => (hW t h).2.2, hg.weighted_tendsto ht (key.mono fun t h j => ((hW t h).1 j).le)
    (key.mono fun t h => (hW t h).2.1)⟩

/-- **C162.** Weighted doubly robust estimates, for every reward model, if the terms of no logger are all the same. -/
theorem C162_weighted_dr (hs : LoggedBy s P D piB m) (hg : Grows N rho) (hE : ∀ k, Covers (piB k) pos piE)
    (hi : ∀ k, Integrable (fun ω => (s k).weight (piB k) pos piE ω * (s k).rew 0 ω) P)
    (hq : ∀ a, Measurable fun c => q c a (pos c)) (hqi : ∀ a, Integrable (fun c => piE c a (pos c) * q c a (pos c)) D)
    (hv : ∀ k, ¬ ∃ v, ∀ᵐ ω ∂P, (∑ a, piE ((s k).ctx 0 ω) a (pos ((s k).ctx 0 ω)) * q ((s k).ctx 0 ω) a (pos ((s k).ctx 0 ω))) +
      (s k).weight (piB k) pos piE ω * ((s k).rew 0 ω - q ((s k).ctx 0 ω) ((s k).act 0 ω) (pos ((s k).ctx 0 ω))) = v)
    {lam : Lam ℝ} (hl : ∀ k, NotClipped lam (piB k) pos piE) :
    ∀ᵐ ω ∂P, ResultsTendTo (fun t => (MultiEstimator.mk .weightedDr lam false).estimatePolicyValue
      (pooled s rho piB pos piE q (N t) ω).margs) (value D pos piE m) := by
  obtain ⟨k0⟩ := hg.loggers
  have hvar : ∀ᵐ ω ∂P, ∀ k, ∃ i, modelTerm s pos piE q ω k i + residualTerm s piB pos piE q ω k i ≠
      modelTerm s pos piE q ω k 0 + residualTerm s piB pos piE q ω k 0 := by
    rw [ae_all_iff]
    intro k
    have hqm : Measurable fun x : C × Fin A => q x.1 x.2 (pos x.1) := measurable_from_prod_countable_left hq
    exact (hs.logger k).varies (f := fun c a r => (∑ b, piE c b (pos c) * q c b (pos c)) +
        piE c a (pos c) / piB k c a * (r - q c a (pos c)))
      (((Finset.measurable_sum _ fun a _ => ((hE k0).meas a).mul (hq a)).comp measurable_fst).add
        (((hs.logger k).weightFn_meas (hE k)).mul ((measurable_snd.comp measurable_snd).sub
          (hqm.comp (measurable_fst.prodMk (measurable_fst.comp measurable_snd)))))) (hv k)
  filter_upwards [hs.pooled_valid (pos := pos) (q := q) hg.pos (hE k0).dist, hs.model_tendsto (hE k0).meas hq hqi,
    hs.residual_tendsto hE hi hq hqi, hvar] with ω hva hm1 hr1 hne
  choose i0 hi0 using hne
  have hres : ∀ t j, lam.clip ((pooled s rho piB pos piE q (N t) ω).weight false j) * (pooled s rho piB pos piE q (N t) ω).residual j =
      column (N t) (residualTerm s piB pos piE q ω) j := fun t j => by
    rw [pooled_clip hl]
    rfl
  have hterm : ∀ t, (fun j => (pooled s rho piB pos piE q (N t) ω).modelValue j +
      lam.clip ((pooled s rho piB pos piE q (N t) ω).weight false j) * (pooled s rho piB pos piE q (N t) ω).residual j) =
      column (N t) fun k i => modelTerm s pos piE q ω k i + residualTerm s piB pos piE q ω k i := fun t => by
    funext j
    rw [hres, pooled_modelValue (hE k0).dist]
    rfl
  let Q : ℕ → (ℕ → ℝ) → Prop := fun t omega => (∀ j, 0 < omega ((pooled s rho piB pos piE q (N t) ω).stratum j)) ∧
    (avg fun j => omega ((pooled s rho piB pos piE q (N t) ω).stratum j)) = 1 ∧
    (MultiEstimator.mk .weightedDr lam false).estimatePolicyValue (pooled s rho piB pos piE q (N t) ω).margs =
        .ok (avg (column (N t) (modelTerm s pos piE q ω)) +
          avg fun j => column (N t) (residualTerm s piB pos piE q ω) j * omega (column (N t) (fun k _ => (k : ℕ)) j))
  have key : ∀ᶠ t in atTop, ∃ omega, Q t omega := by
    filter_upwards [hg.total.eventually_gt_atTop 0, eventually_all.2 fun k => (hg.size k).eventually_gt_atTop (i0 k)] with t hn hk
    obtain ⟨w, h1, h2⟩ := C51_weighted_dr (hva _ hn).base lam false (pooled_contiguous (fun k => Nat.zero_lt_of_lt (hk k)) ω)
      (by rw [hterm]; exact stratumVar_ne fun k => ⟨i0 k, hk k, hi0 k⟩)
    refine ⟨w, h1.pos, h1.avg_one, h2.trans ?_⟩
    simp only [avg, ← add_div, ← Finset.sum_add_distrib]
    congr 2
    refine Finset.sum_congr rfl fun j _ => ?_
    rw [hres, pooled_modelValue (hE k0).dist]
    rfl
  have key' : ∀ t, ∃ omega, (∃ omega, Q t omega) → Q t omega := fun t => by
    by_cases h : ∃ omega, Q t omega
    · exact h.imp fun w hw _ => hw
    · exact ⟨0, fun h' => absurd h' h⟩
  choose W hW using key'
  have ht := (hg.pooled_tendsto_const hm1).add (hg.weighted_tendsto hr1 (w := W)
    (key.mono fun t h j => ((hW t h).1 j).le) (key.mono fun t h => (hW t h).2.1))
  rw [add_sub_cancel] at ht
  exact ⟨_, key.mono fun t h => (hW t h).2.2, ht⟩

namespace MultiStream

theorem LoggedBy.average_meas (hs : LoggedBy s P D piB m) (a : Fin A) : Measurable fun c => average rho piB c a :=
  Finset.measurable_sum _ fun k _ => ((hs.logger k).piB_meas a).const_mul (rho k)

/-- Functions of context and action, weighted with the average policy, over all loggers. -/
theorem LoggedBy.balanced (hs : LoggedBy s P D piB m) (hE : Covers (average rho piB) pos piE) {f : C → Fin A → ℝ}
    (hf : ∀ a, Measurable fun c => f c a)
    (hi : ∀ k, Integrable (fun ω => (s k).weight (average rho piB) pos piE ω * f ((s k).ctx 0 ω) ((s k).act 0 ω)) P) :
    ∑ k, rho k * ∫ ω, (s k).weight (average rho piB) pos piE ω * f ((s k).ctx 0 ω) ((s k).act 0 ω) ∂P = value D pos piE f := by
  have hwm : ∀ a, Measurable fun c => piE c a (pos c) / average rho piB c a * f c a := fun a =>
    ((hE.meas a).div (hs.average_meas a)).mul (hf a)
  have h1 : ∀ k, ∫ ω, (s k).weight (average rho piB) pos piE ω * f ((s k).ctx 0 ω) ((s k).act 0 ω) ∂P =
      ∫ c, ∑ a, piB k c a * (piE c a (pos c) / average rho piB c a * f c a) ∂D := fun k => by
    have hk := hs.logger k
    have hi' := (hk.integrable_iff hwm).1 (hi k)
    refine (hk.integral_eq hwm hi').trans ?_
    have hm : Measurable fun c => ∑ a, piB k c a * (piE c a (pos c) / average rho piB c a * f c a) :=
      Finset.measurable_sum _ fun a _ => (hk.piB_meas a).mul (hwm a)
    rw [← hs.ctx_law k, integral_map (hk.ctx_meas 0).aemeasurable hm.aestronglyMeasurable]
  have h2 : ∀ k, Integrable (fun c => rho k * ∑ a, piB k c a * (piE c a (pos c) / average rho piB c a * f c a)) D := fun k => by
    have hk := hs.logger k
    have hi' := (hk.integrable_iff hwm).1 (hi k)
    have hm : Measurable fun c => ∑ a, piB k c a * (piE c a (pos c) / average rho piB c a * f c a) :=
      Finset.measurable_sum _ fun a _ => (hk.piB_meas a).mul (hwm a)
    rw [← hs.ctx_law k]
    exact ((integrable_map_measure hm.aestronglyMeasurable (hk.ctx_meas 0).aemeasurable).2
      (integrable_finsetSum _ fun a _ => hi' a)).const_mul _
  simp only [h1, ← MeasureTheory.integral_const_mul]
  rw [← integral_finsetSum _ fun k _ => h2 k]
  unfold value
  congr 1
  funext c
  simp only [Finset.mul_sum]
  rw [Finset.sum_comm]
  refine Finset.sum_congr rfl fun a _ => ?_
  simp only [← mul_assoc, ← Finset.sum_mul]
  rw [show ∑ k, rho k * piB k c a = average rho piB c a from rfl, hE.mul_div]

theorem LoggedBy.weightAvg_meas (hs : LoggedBy s P D piB m) (hE : Covers (average rho piB) pos piE) :
    Measurable fun x : C × Fin A × ℝ => piE x.1 x.2.1 (pos x.1) / average rho piB x.1 x.2.1 := by
  have : Measurable fun x : C × Fin A => piE x.1 x.2 (pos x.1) / average rho piB x.1 x.2 :=
    measurable_from_prod_countable_left fun a => (hE.meas a).div (hs.average_meas a)
  exact this.comp (measurable_fst.prodMk (measurable_fst.comp measurable_snd))

theorem LoggedBy.balanced_reward (hs : LoggedBy s P D piB m) (hg : Grows N rho) (hE : Covers (average rho piB) pos piE)
    (hi : ∀ k, Integrable (fun ω => (s k).weight (average rho piB) pos piE ω * (s k).rew 0 ω) P) :
    ∀ᵐ ω ∂P, Tendsto (fun t => avg (column (N t) (ipwTerm s (fun _ => average rho piB) pos piE ω))) atTop
      (𝓝 (value D pos piE m)) := by
  have hw : ∀ a, Measurable fun c => piE c a (pos c) / average rho piB c a := fun a => (hE.meas a).div (hs.average_meas a)
  have h1 := fun k => (hs.logger k).integral_reward (h := fun c a => piE c a (pos c) / average rho piB c a) hw (hi k)
  rcases hg.loggers with ⟨k0⟩
  rw [← hs.balanced hE (hs.logger k0).m_meas fun k => (h1 k).1]
  have hl : ∀ᵐ ω ∂P, ∀ k, Tendsto (fun n => avg fun i : Fin n => ipwTerm s (fun _ => average rho piB) pos piE ω k i) atTop
      (𝓝 (∫ ω, (s k).weight (average rho piB) pos piE ω * m ((s k).ctx 0 ω) ((s k).act 0 ω) ∂P)) := by
    rw [ae_all_iff]
    intro k
    have := (hs.logger k).lln (f := fun c a r => piE c a (pos c) / average rho piB c a * r)
      ((hs.weightAvg_meas hE).mul (measurable_snd.comp measurable_snd)) (hi k)
    rw [(h1 k).2] at this
    filter_upwards [this] with ω hω
    refine hω.congr fun n => ?_
    simp only [ipwTerm, mul_comm]
  filter_upwards [hl] with ω hω
  exact hg.pooled_tendsto hω

/-- The weights with respect to the average policy are bounded multiples of the evaluation policy's probabilities. -/
theorem LoggedBy.balanced_model_int (hs : LoggedBy s P D piB m) (hr : ∀ k, 0 < rho k) (hE : Covers (average rho piB) pos piE)
    (hq : ∀ a, Measurable fun c => q c a (pos c)) (hqi : ∀ a, Integrable (fun c => piE c a (pos c) * q c a (pos c)) D) (k : Fin M) :
    Integrable (fun ω => (s k).weight (average rho piB) pos piE ω *
      q ((s k).ctx 0 ω) ((s k).act 0 ω) (pos ((s k).ctx 0 ω))) P := by
  have hk := hs.logger k
  have hwm : ∀ a, Measurable fun c => piE c a (pos c) / average rho piB c a * q c a (pos c) := fun a =>
    ((hE.meas a).div (hs.average_meas a)).mul (hq a)
  refine (hk.integrable_iff hwm).2 fun a => ?_
  have h1 : Integrable (fun ω => piE ((s k).ctx 0 ω) a (pos ((s k).ctx 0 ω)) * q ((s k).ctx 0 ω) a (pos ((s k).ctx 0 ω))) P := by
    have := hqi a
    rw [← hs.ctx_law k] at this
    exact (integrable_map_measure this.aestronglyMeasurable (hk.ctx_meas 0).aemeasurable).1 this
  refine Integrable.mono' (h1.norm.const_mul (1 / rho k))
    (((hk.piB_meas a).mul (hwm a)).comp (hk.ctx_meas 0)).aestronglyMeasurable (ae_of_all _ fun ω => ?_)
  set c := (s k).ctx 0 ω
  have hp := (hk.piB_dist c).nonneg a
  have hle : piB k c a / average rho piB c a ≤ 1 / rho k := by
    rcases hp.eq_or_lt with h0 | h0
    · rw [← h0, zero_div]
      exact (one_div_pos.2 (hr k)).le
    · have ha := average_pos hs hr h0
      rw [div_le_div_iff₀ ha (hr k), one_mul, mul_comm]
      exact Finset.single_le_sum (f := fun k => rho k * piB k c a) (fun j _ => mul_nonneg (hr j).le (((hs.logger j).piB_dist c).nonneg a))
        (Finset.mem_univ k)
  have h0 : 0 ≤ piB k c a / average rho piB c a := div_nonneg hp
    (Finset.sum_nonneg fun j _ => mul_nonneg (hr j).le (((hs.logger j).piB_dist c).nonneg a))
  calc ‖piB k c a * (piE c a (pos c) / average rho piB c a * q c a (pos c))‖
      = piB k c a / average rho piB c a * ‖piE c a (pos c) * q c a (pos c)‖ := by
        rw [show piB k c a * (piE c a (pos c) / average rho piB c a * q c a (pos c)) =
          piB k c a / average rho piB c a * (piE c a (pos c) * q c a (pos c)) by ring, norm_mul, Real.norm_of_nonneg h0]
    _ ≤ 1 / rho k * ‖piE c a (pos c) * q c a (pos c)‖ := mul_le_mul_of_nonneg_right hle (norm_nonneg _)

theorem LoggedBy.balanced_model (hs : LoggedBy s P D piB m) (hg : Grows N rho) (hE : Covers (average rho piB) pos piE)
    (hq : ∀ a, Measurable fun c => q c a (pos c)) (hqi : ∀ a, Integrable (fun c => piE c a (pos c) * q c a (pos c)) D) :
    ∀ᵐ ω ∂P, Tendsto (fun t => avg (column (N t) fun k i =>
      piE ((s k).ctx i ω) ((s k).act i ω) (pos ((s k).ctx i ω)) / average rho piB ((s k).ctx i ω) ((s k).act i ω) *
        q ((s k).ctx i ω) ((s k).act i ω) (pos ((s k).ctx i ω)))) atTop
      (𝓝 (value D pos piE fun c a => q c a (pos c))) := by
  have hint := hs.balanced_model_int hg.pos hE hq hqi
  rw [← hs.balanced hE hq hint]
  have hqm : Measurable fun x : C × Fin A => q x.1 x.2 (pos x.1) := measurable_from_prod_countable_left hq
  have hl := ae_all_iff.2 fun k => (hs.logger k).lln (f := fun c a _ => piE c a (pos c) / average rho piB c a * q c a (pos c))
    ((hs.weightAvg_meas hE).mul (hqm.comp (measurable_fst.prodMk (measurable_fst.comp measurable_snd)))) (hint k)
  filter_upwards [hl] with ω hω
  exact hg.pooled_tendsto hω

end MultiStream

/-- **C162.** Balanced inverse propensity weighting, if the loggers together can take all actions of the evaluation policy. -/
theorem C162_balanced_ipw (hs : LoggedBy s P D piB m) (hg : Grows N rho) (hE : Covers (average rho piB) pos piE)
    (hi : ∀ k, Integrable (fun ω => (s k).weight (average rho piB) pos piE ω * (s k).rew 0 ω) P) {lam : Lam ℝ}
    (hl : NotClipped lam (average rho piB) pos piE) :
    ∀ᵐ ω ∂P, ResultsTendTo (fun t => (MultiEstimator.mk .balancedIpw lam false).estimatePolicyValue
      (pooled s rho piB pos piE q (N t) ω).margs) (value D pos piE m) := by
  filter_upwards [hs.pooled_valid (pos := pos) (q := q) hg.pos hE.dist, hs.balanced_reward hg hE hi] with ω hv ht
  refine ⟨_, ?_, ht⟩
  filter_upwards [hg.total.eventually_gt_atTop 0] with t hn
  rw [value_balancedIpw (hv _ hn)]
  congr 2
  funext j
  rw [pooled_clip_avg hl]
  rfl

/-- **C162.** Balanced doubly robust estimates, for every reward model. -/
theorem C162_balanced_dr (hs : LoggedBy s P D piB m) (hg : Grows N rho) (hE : Covers (average rho piB) pos piE)
    (hi : ∀ k, Integrable (fun ω => (s k).weight (average rho piB) pos piE ω * (s k).rew 0 ω) P)
    (hq : ∀ a, Measurable fun c => q c a (pos c)) (hqi : ∀ a, Integrable (fun c => piE c a (pos c) * q c a (pos c)) D)
    {lam : Lam ℝ} (hl : NotClipped lam (average rho piB) pos piE) :
    ∀ᵐ ω ∂P, ResultsTendTo (fun t => (MultiEstimator.mk .balancedDr lam false).estimatePolicyValue
      (pooled s rho piB pos piE q (N t) ω).margs) (value D pos piE m) := by
  filter_upwards [hs.pooled_valid (pos := pos) (q := q) hg.pos hE.dist, hs.balanced_reward hg hE hi,
    hs.balanced_model hg hE hq hqi, hs.model_tendsto hE.meas hq hqi] with ω hv h1 h2 h3
  have ht := (hg.pooled_tendsto_const h3).add (h1.sub h2)
  rw [add_sub_cancel] at ht
  refine ⟨_, ?_, ht⟩
  filter_upwards [hg.total.eventually_gt_atTop 0] with t hn
  rw [value_balancedDr (hv _ hn)]
  simp only [avg, ← add_div, ← sub_div, ← Finset.sum_add_distrib, ← Finset.sum_sub_distrib]
  congr 2
  refine Finset.sum_congr rfl fun j _ => ?_
  rw [pooled_clip_avg hl, pooled_modelValue hE.dist]
  simp only [pooled, MLog.weightAvg, Log.residual, column, ipwTerm]
  simp
  ring

/-! ### A concrete case

Rounds are uniform on `Bool × Fin 4 × Bool`: the context, a roll of a four-sided die, and whether the reward is one above or one
below its mean. Logger `k` sees the rounds with number `2 i + k`; it takes the action `d c b` in context `c` after rolling `b`. -/

abbrev ExDie := Bool × Fin 4 × Bool

noncomputable def exDieLaw : Measure ExDie := (PMF.uniformOfFintype ExDie).toMeasure

instance : IsProbabilityMeasure exDieLaw := PMF.toMeasure.isProbabilityMeasure _

noncomputable abbrev exDieMeasure : Measure (ℕ → ExDie) := Measure.infinitePi fun _ => exDieLaw

noncomputable def exLogger (d : Bool → Fin 4 → Fin 2) (k : ℕ) : LogStream (ℕ → ExDie) Bool 2 where
  ctx i ω := (ω (2 * i + k)).1
  act i ω := d (ω (2 * i + k)).1 (ω (2 * i + k)).2.1
  rew i ω := exMean (ω (2 * i + k)).1 (d (ω (2 * i + k)).1 (ω (2 * i + k)).2.1) + if (ω (2 * i + k)).2.2 then 1 else -1

/-- The policy of such a logger. -/
noncomputable def exDiePolicy (d : Bool → Fin 4 → Fin 2) (c : Bool) (a : Fin 2) : ℝ := (∑ b, if d c b = a then 1 else 0) / 4

theorem exDie_integral (j : ℕ) (g : ExDie → ℝ) : ∫ ω, g (ω j) ∂exDieMeasure = ∑ o, g o / 16 := by
  have h1 : ∫ o, g o ∂exDieLaw = ∑ o, g o / 16 := by
    rw [exDieLaw, PMF.integral_eq_sum]
    refine Finset.sum_congr rfl fun o _ => ?_
    simp [PMF.uniformOfFintype_apply]
    ring
  rw [← h1]
  conv_rhs => rw [← Measure.infinitePi_map_eval (fun _ : ℕ => exDieLaw) j]
  rw [integral_map (measurable_pi_apply j).aemeasurable (measurable_of_finite g).aestronglyMeasurable]

theorem exDie_integrable (j : ℕ) (g : ExDie → ℝ) : Integrable (fun ω => g (ω j)) exDieMeasure := by
  obtain ⟨B, hB⟩ := (Set.finite_range fun o : ExDie => ‖g o‖).bddAbove
  exact Integrable.of_bound ((measurable_of_finite g).comp (measurable_pi_apply j)).aestronglyMeasurable B
    (ae_of_all _ fun ω => hB ⟨ω j, rfl⟩)

theorem exLogger_logged (d : Bool → Fin 4 → Fin 2) (k : ℕ) :
    (exLogger d k).LoggedBy exDieMeasure (exDiePolicy d) exMean := by
  have hp : ∀ {β : Type} [MeasurableSpace β] (g : ExDie → β) (j : ℕ), Measurable fun ω : ℕ → ExDie => g (ω j) :=
    fun g j => (measurable_of_finite g).comp (measurable_pi_apply j)
  let rew : ExDie → ℝ := fun o => exMean o.1 (d o.1 o.2.1) + if o.2.2 then 1 else -1
  let round : ExDie → Bool × Fin 2 × ℝ := fun o => (o.1, d o.1 o.2.1, rew o)
  have hround : Measurable round := measurable_of_finite _
  refine ⟨fun i => hp (fun o => o.1) _, fun i => hp (fun o => d o.1 o.2.1) _, fun i => hp rew _, ?_, fun i => ?_, fun c => ⟨fun a => ?_, ?_⟩,
    fun a => measurable_of_finite _, fun a => measurable_of_finite _, fun a B hB => ?_, exDie_integrable _ rew, ?_⟩
  · have h1 : iIndepFun (fun (j : ℕ) (ω : ℕ → ExDie) => round (ω j)) exDieMeasure :=
      iIndepFun_infinitePi (X := fun _ => round) fun _ => hround
    exact h1.precomp (g := fun i => 2 * i + k) fun a b h => by simpa using h
  · have hid : ∀ j, exDieMeasure.map (fun ω => ω j) = exDieLaw := fun j => Measure.infinitePi_map_eval (fun _ : ℕ => exDieLaw) j
    have : IdentDistrib (fun ω : ℕ → ExDie => ω (2 * i + k)) (fun ω => ω (2 * 0 + k)) exDieMeasure exDieMeasure :=
      ⟨(measurable_pi_apply _).aemeasurable, (measurable_pi_apply _).aemeasurable, by rw [hid, hid]⟩
    exact this.comp hround
  · exact div_nonneg (Finset.sum_nonneg fun b _ => by split <;> norm_num) (by norm_num)
  · unfold exDiePolicy
    rw [← Finset.sum_div, Finset.sum_comm]
    simp
  · classical
    have h1 : MeasurableSet {ω : ℕ → ExDie | (exLogger d k).ctx 0 ω ∈ B} := hp (fun o => o.1) _ hB
    have hset : MeasurableSet {ω : ℕ → ExDie | (exLogger d k).ctx 0 ω ∈ B ∧ (exLogger d k).act 0 ω = a} :=
      h1.inter (hp (fun o => d o.1 o.2.1) _ (measurableSet_singleton a))
    rw [← integral_indicator h1, ← integral_indicator_one hset]
    have e1 := exDie_integral (2 * 0 + k) fun o => if o.1 ∈ B ∧ d o.1 o.2.1 = a then (1 : ℝ) else 0
    have e2 := exDie_integral (2 * 0 + k) fun o => if o.1 ∈ B then exDiePolicy d o.1 a else 0
    have g1 : (fun ω : ℕ → ExDie => {ω : ℕ → ExDie | (exLogger d k).ctx 0 ω ∈ B ∧ (exLogger d k).act 0 ω = a}.indicator
        (1 : (ℕ → ExDie) → ℝ) ω) = fun ω => if (ω (2 * 0 + k)).1 ∈ B ∧ d (ω (2 * 0 + k)).1 (ω (2 * 0 + k)).2.1 = a then (1 : ℝ) else 0 := by
      funext ω
      simp only [Set.indicator, Set.mem_ofPred_eq, exLogger, Pi.one_apply]
      congr
    have g2 : (fun ω : ℕ → ExDie => {ω : ℕ → ExDie | (exLogger d k).ctx 0 ω ∈ B}.indicator
        (fun ω => exDiePolicy d ((exLogger d k).ctx 0 ω) a) ω) =
        fun ω => if (ω (2 * 0 + k)).1 ∈ B then exDiePolicy d (ω (2 * 0 + k)).1 a else 0 := by
      funext ω
      simp only [Set.indicator, Set.mem_ofPred_eq, exLogger]
      congr
    refine ((congrArg (∫ ω, · ω ∂exDieMeasure) g1).trans (e1.trans ?_)).trans ((congrArg (∫ ω, · ω ∂exDieMeasure) g2).trans e2).symm
    simp only [Fintype.sum_prod_type]
    refine Finset.sum_congr rfl fun c _ => ?_
    by_cases hc : c ∈ B
    · simp only [hc, true_and, if_true, exDiePolicy, Finset.sum_const, Finset.card_univ, Fintype.card_bool, Fintype.card_fin,
        nsmul_eq_mul, ← Finset.sum_div, ← Finset.mul_sum]
      ring
    · simp [hc]
  · symm
    refine ae_eq_condExp_of_forall_setIntegral_eq ((hp (fun o => (o.1, d o.1 o.2.1)) (2 * 0 + k)).comap_le) (exDie_integrable _ rew)
      (fun t _ _ => (exDie_integrable (2 * 0 + k) fun o => exMean o.1 (d o.1 o.2.1)).integrableOn) ?_ ?_
    · rintro t ⟨T, hT, rfl⟩ -
      classical
      have hpre : MeasurableSet ((fun ω : ℕ → ExDie => ((ω (2 * 0 + k)).1, d (ω (2 * 0 + k)).1 (ω (2 * 0 + k)).2.1)) ⁻¹' T) :=
        hp (fun o => (o.1, d o.1 o.2.1)) _ hT
      have g1 : ∀ f : ExDie → ℝ, ∫ ω in (fun ω : ℕ → ExDie => ((ω (2 * 0 + k)).1, d (ω (2 * 0 + k)).1 (ω (2 * 0 + k)).2.1)) ⁻¹' T,
          f (ω (2 * 0 + k)) ∂exDieMeasure = ∑ o, (if (o.1, d o.1 o.2.1) ∈ T then f o else 0) / 16 := by
        intro f
        rw [← integral_indicator hpre, ← exDie_integral (2 * 0 + k)]
        congr 1
      refine (g1 fun o => exMean o.1 (d o.1 o.2.1)).trans (Eq.trans ?_ (g1 rew).symm)
      simp only [Fintype.sum_prod_type]
      refine Finset.sum_congr rfl fun c _ => Finset.sum_congr rfl fun b _ => ?_
      simp only [Fintype.sum_bool, rew]
      split
      · simp
        ring
      · rfl
    · exact (((measurable_of_finite fun x : Bool × Fin 2 => exMean x.1 x.2).comp
        (comap_measurable _)).stronglyMeasurable).aestronglyMeasurable

theorem exDie_const {j : ℕ} {g : ExDie → ℝ} {v : ℝ} (h : ∀ᵐ ω ∂exDieMeasure, g (ω j) = v) (o : ExDie) : g o = v := by
  have h1 := exDie_integral j fun o => |g o - v|
  have h2 : ∫ ω, |g (ω j) - v| ∂exDieMeasure = 0 := by
    rw [← integral_zero (ℕ → ExDie) ℝ (μ := exDieMeasure)]
    refine integral_congr_ae ?_
    filter_upwards [h] with ω hω
    simp [hω]
  rw [h2, eq_comm, Finset.sum_eq_zero_iff_of_nonneg fun o _ => by positivity] at h1
  have := h1 o (Finset.mem_univ o)
  rw [div_eq_zero_iff, or_iff_left (by norm_num), abs_eq_zero] at this
  exact sub_eq_zero.1 this

/-- The first logger takes both actions equally often. The second one takes action 0 with probability 1/4. -/
def exDice : Fin 2 → Bool → Fin 4 → Fin 2 := ![fun _ b => if b < 2 then 0 else 1, fun _ b => if b < 1 then 0 else 1]

noncomputable def exCtxLaw : Measure Bool := exDieLaw.map fun o => o.1

theorem exLoggers_logged (d : Fin 2 → Bool → Fin 4 → Fin 2) :
    MultiStream.LoggedBy (fun k => exLogger (d k) k) exDieMeasure exCtxLaw (fun k => exDiePolicy (d k)) exMean where
  logger k := exLogger_logged (d k) k
  ctx_law k := by
    have hid := Measure.infinitePi_map_eval (fun _ : ℕ => exDieLaw) (2 * 0 + (k : ℕ))
    unfold exCtxLaw
    conv_rhs => rw [← hid]
    exact (Measure.map_map (g := fun o : ExDie => o.1) (f := fun ω : ℕ → ExDie => ω (2 * 0 + k)) (measurable_of_finite _) (measurable_pi_apply _)).symm

/-- The second logger contributes twice as many rounds as the first one. -/
theorem exLoggers_grow : Grows (fun t (k : Fin 2) => (k + 1 : ℕ) * t) ![1 / 3, 2 / 3] where
  total := by
    simp only [Fin.sum_univ_two]
    exact tendsto_atTop_mono (fun t => by simp) tendsto_id
  share k := by
    refine tendsto_const_nhds.congr' ?_
    filter_upwards [eventually_gt_atTop 0] with t ht
    have : (t : ℝ) ≠ 0 := by exact_mod_cast ht.ne'
    fin_cases k <;> simp [Fin.sum_univ_two] <;> field_simp <;> norm_num
  pos k := by fin_cases k <;> norm_num

theorem exDiePolicy_card (d : Bool → Fin 4 → Fin 2) (c : Bool) (a : Fin 2) :
    exDiePolicy d c a = ((Finset.univ.filter fun b => d c b = a).card : ℝ) / 4 := by
  simp [exDiePolicy]

theorem exDice_policy (k : Fin 2) (c : Bool) (a : Fin 2) :
    exDiePolicy (exDice k) c a = ((![![2, 2], ![1, 3]] k a : ℕ) : ℝ) / 4 := by
  rw [exDiePolicy_card]
  congr 2
  revert k c a
  decide

theorem exDice_zero : ∀ k, exDice k true 0 = 0 := by decide

theorem exDice_covers (k : Fin 2) : LogStream.Covers (exDiePolicy (exDice k)) (fun _ : Bool => (0 : Fin 1)) exEval :=
  ⟨exEval_covers.dist, fun _ => measurable_of_finite _, fun c a h => by
    exfalso
    rw [exDice_policy] at h
    revert h
    fin_cases k <;> fin_cases a <;> simp⟩

theorem exMulti_value : MultiStream.value exCtxLaw (fun _ => (0 : Fin 1)) exEval exMean = 19 / 8 := by
  rw [← (exLoggers_logged exDice).value_eq 0 (fun _ => measurable_of_finite _) fun _ => measurable_of_finite _]
  have := exDie_integral (2 * 0 + 0) fun o => ∑ a, exEval o.1 a 0 * exMean o.1 a
  refine Eq.trans this ?_
  simp only [Fintype.sum_prod_type, Fintype.sum_bool, Fin.sum_univ_two, Fin.sum_univ_four]
  norm_num [exEval, exMean]

theorem exDice_integrable (d : Bool → Fin 4 → Fin 2) (k : ℕ) (p : Bool → Fin 2 → ℝ) :
    Integrable (fun ω => (exLogger d k).weight p (fun _ => (0 : Fin 1)) exEval ω * (exLogger d k).rew 0 ω) exDieMeasure :=
  exDie_integrable (2 * 0 + k) fun o => exEval o.1 (d o.1 o.2.1) 0 / p o.1 (d o.1 o.2.1) *
    (exMean o.1 (d o.1 o.2.1) + if o.2.2 then 1 else -1)

/-- All four estimates with the loggers' own propensities tend to 19/8, with a wrong reward model. -/
example : ∀ᵐ ω ∂exDieMeasure, ∀ kind ∈ [MultiKind.naiveIpw, .naiveDr, .weightedIpw, .weightedDr],
    ResultsTendTo (fun t => (MultiEstimator.mk kind .inf false).estimatePolicyValue
      (pooled (fun k => exLogger (exDice k) k) ![1 / 3, 2 / 3] (fun k => exDiePolicy (exDice k)) (fun _ => (0 : Fin 1)) exEval
        (fun _ _ _ => 7) (fun k : Fin 2 => (k + 1 : ℕ) * t) ω).margs) (19 / 8) := by
  have hl := exLoggers_logged exDice
  have hi := fun k : Fin 2 => exDice_integrable (exDice k) k (exDiePolicy (exDice k))
  have hq : ∀ a, Measurable fun _ : Bool => (7 : ℝ) := fun _ : Fin 2 => measurable_const
  have hfin : IsProbabilityMeasure exCtxLaw := by
    unfold exCtxLaw
    exact Measure.isProbabilityMeasure_map (measurable_of_finite _).aemeasurable
  have hqi : ∀ a, Integrable (fun c : Bool => exEval c a 0 * 7) exCtxLaw := fun a => Integrable.of_finite
  have hn : ∀ k, NotClipped .inf (exDiePolicy (exDice k)) (fun _ => (0 : Fin 1)) exEval := fun k l h => by cases h
  rw [← exMulti_value]
  have h1 := C162_naive_ipw (q := fun _ _ _ => 7) hl exLoggers_grow exDice_covers hi hn
  have h2 := C162_naive_dr (q := fun _ _ _ => 7) hl exLoggers_grow exDice_covers hi hq hqi hn
  have h3 := C162_weighted_ipw (q := fun _ _ _ => 7) hl exLoggers_grow exDice_covers hi (fun k ⟨v, hv⟩ => by
    have hc := exDie_const (j := 2 * 0 + k) (g := fun o => (exMean o.1 (exDice k o.1 o.2.1) + if o.2.2 then 1 else -1) *
      (exEval o.1 (exDice k o.1 o.2.1) 0 / exDiePolicy (exDice k) o.1 (exDice k o.1 o.2.1))) hv
    have a := (hc (true, 0, true)).trans (hc (true, 0, false)).symm
    dsimp only at a
    rw [exDice_zero, exDice_policy] at a
    revert a
    fin_cases k <;> norm_num [exMean, exEval]) hn
  have h4 := C162_weighted_dr (q := fun _ _ _ => 7) hl exLoggers_grow exDice_covers hi hq hqi (fun k ⟨v, hv⟩ => by
    have hc := exDie_const (j := 2 * 0 + k) (g := fun o => (∑ a, exEval o.1 a 0 * 7) +
      exEval o.1 (exDice k o.1 o.2.1) 0 / exDiePolicy (exDice k) o.1 (exDice k o.1 o.2.1) *
        ((exMean o.1 (exDice k o.1 o.2.1) + if o.2.2 then 1 else -1) - 7)) hv
    have a := (hc (true, 0, true)).trans (hc (true, 0, false)).symm
    dsimp only at a
    rw [exDice_zero, exDice_policy] at a
    revert a
    fin_cases k <;> norm_num [exMean, exEval]) hn
  filter_upwards [h1, h2, h3, h4] with ω a b c d kind hk
  fin_cases hk
  · exact a
  · exact b
  · exact c
  · exact d

/-- With a second logger that only ever takes action 1, the balanced estimates still tend to 19/8. -/
def exDice' : Fin 2 → Bool → Fin 4 → Fin 2 := ![fun _ b => if b < 2 then 0 else 1, fun _ _ => 1]

example : ∀ᵐ ω ∂exDieMeasure, ∀ kind ∈ [MultiKind.balancedIpw, .balancedDr],
    ResultsTendTo (fun t => (MultiEstimator.mk kind .inf false).estimatePolicyValue
      (pooled (fun k => exLogger (exDice' k) k) ![1 / 3, 2 / 3] (fun k => exDiePolicy (exDice' k)) (fun _ => (0 : Fin 1)) exEval
        (fun _ _ _ => 7) (fun k : Fin 2 => (k + 1 : ℕ) * t) ω).margs) (19 / 8) := by
  have hl := exLoggers_logged exDice'
  have hfin : IsProbabilityMeasure exCtxLaw := by
    unfold exCtxLaw
    exact Measure.isProbabilityMeasure_map (measurable_of_finite _).aemeasurable
  have hE : LogStream.Covers (average ![1 / 3, 2 / 3] fun k => exDiePolicy (exDice' k)) (fun _ : Bool => (0 : Fin 1)) exEval :=
    ⟨exEval_covers.dist, fun _ => measurable_of_finite _, fun c a h => by
      exfalso
      have hp : ∀ k c a, exDiePolicy (exDice' k) c a = ((![![2, 2], ![0, 4]] k a : ℕ) : ℝ) / 4 := fun k c a => by
        rw [exDiePolicy_card]
        congr 2
        revert k c a
        decide
      revert h
      simp only [MultiStream.average, hp, Fin.sum_univ_two]
      fin_cases a <;> norm_num⟩
  have hi := fun k : Fin 2 => exDice_integrable (exDice' k) k (average ![1 / 3, 2 / 3] fun k => exDiePolicy (exDice' k))
  rw [← exMulti_value]
  have h1 := C162_balanced_ipw (q := fun _ _ _ => 7) (lam := .inf) hl exLoggers_grow hE hi fun l h => by cases h
  have h2 := C162_balanced_dr (q := fun _ _ _ => 7) (lam := .inf) hl exLoggers_grow hE hi (fun _ => measurable_const)
    (fun a => Integrable.of_finite) fun l h => by cases h
  filter_upwards [h1, h2] with ω a b kind hk
  fin_cases hk
  · exact a
  · exact b

end Obp
