import Verif.Spec.MultiStream
import Verif.Props.Consistency
import Verif.Props.Multi
import Mathlib.MeasureTheory.Function.SpecialFunctions.Arctan

set_option linter.unusedSectionVars false

namespace Obp
open MeasureTheory ProbabilityTheory Filter Topology Log

namespace LogStream
variable {Ω C : Type} [MeasurableSpace Ω] [MeasurableSpace C] {A : ℕ} {P : Measure Ω} [IsProbabilityMeasure P]
variable {s : LogStream Ω C A} {piB m : C → Fin A → ℝ}

/-- If a function of the rounds is not almost surely constant, it takes different values within almost every stream. -/
theorem LoggedBy.varies (hs : s.LoggedBy P piB m) {f : C → Fin A → ℝ → ℝ} (hf : Measurable fun x : C × Fin A × ℝ => f x.1 x.2.1 x.2.2)
    (hv : ¬ ∃ v, ∀ᵐ ω ∂P, f (s.ctx 0 ω) (s.act 0 ω) (s.rew 0 ω) = v) :
    ∀ᵐ ω ∂P, ∃ i, f (s.ctx i ω) (s.act i ω) (s.rew i ω) ≠ f (s.ctx 0 ω) (s.act 0 ω) (s.rew 0 ω) := by
  have hround : Measurable fun ω => (s.ctx 0 ω, s.act 0 ω, s.rew 0 ω) :=
    (hs.ctx_meas 0).prodMk ((hs.act_meas 0).prodMk (hs.rew_meas 0))
  have hg : Measurable fun x : C × Fin A × ℝ => Real.arctan (f x.1 x.2.1 x.2.2) := Real.measurable_arctan.comp hf
  have hb : ∀ x, |Real.arctan x| ≤ 2 := fun x => by
    have h1 := Real.arctan_lt_pi_div_two x
    have h2 := Real.neg_pi_div_two_lt_arctan x
    have := Real.pi_le_four
    rw [abs_le]
    constructor <;> linarith
  have hi : Integrable (fun ω => Real.arctan (f (s.ctx 0 ω) (s.act 0 ω) (s.rew 0 ω))) P :=
    Integrable.of_bound (hg.comp hround).aestronglyMeasurable 2 (ae_of_all _ fun ω => hb _)
  have hi2 : Integrable (fun ω => Real.arctan (f (s.ctx 0 ω) (s.act 0 ω) (s.rew 0 ω)) ^ 2) P :=
    Integrable.of_bound ((hg.comp hround).pow_const 2).aestronglyMeasurable 4 (ae_of_all _ fun ω => by
      rw [norm_pow, Real.norm_eq_abs]
      nlinarith [hb (f (s.ctx 0 ω) (s.act 0 ω) (s.rew 0 ω)), abs_nonneg (Real.arctan (f (s.ctx 0 ω) (s.act 0 ω) (s.rew 0 ω)))])
  have l1 := hs.lln (f := fun c a r => Real.arctan (f c a r)) hg hi
  have l2 := hs.lln (f := fun c a r => Real.arctan (f c a r) ^ 2) (hg.pow_const 2) hi2
  filter_upwards [l1, l2] with ω h1 h2
  by_contra hall
  push Not at hall
  simp only [hall] at h1 h2
  have hconst : ∀ x : ℝ, Tendsto (fun n : ℕ => avg fun _ : Fin n => x) atTop (𝓝 x) := fun x => by
    refine tendsto_const_nhds.congr' ?_
    filter_upwards [eventually_gt_atTop 0] with n hn
    have : (n : ℝ) ≠ 0 := by exact_mod_cast hn.ne'
    simp [avg, this]
  have e1 := tendsto_nhds_unique h1 (hconst _)
  have e2 := tendsto_nhds_unique h2 (hconst _)
  apply hv
  have e3 : ∫ ω, (Real.arctan (f (s.ctx 0 ω) (s.act 0 ω) (s.rew 0 ω)) -
      ∫ ω, Real.arctan (f (s.ctx 0 ω) (s.act 0 ω) (s.rew 0 ω)) ∂P) ^ 2 ∂P = 0 := by
    rw [e1]
    generalize Real.arctan (f (s.ctx 0 ω) (s.act 0 ω) (s.rew 0 ω)) = v at e1 e2 ⊢
    have : ∀ ω, (Real.arctan (f (s.ctx 0 ω) (s.act 0 ω) (s.rew 0 ω)) - v) ^ 2 =
        Real.arctan (f (s.ctx 0 ω) (s.act 0 ω) (s.rew 0 ω)) ^ 2 - 2 * v * Real.arctan (f (s.ctx 0 ω) (s.act 0 ω) (s.rew 0 ω)) +
          v ^ 2 := fun ω => by ring
    simp only [this]
    have hsub : Integrable (fun ω => Real.arctan (f (s.ctx 0 ω) (s.act 0 ω) (s.rew 0 ω)) ^ 2 -
        2 * v * Real.arctan (f (s.ctx 0 ω) (s.act 0 ω) (s.rew 0 ω))) P := hi2.sub (hi.const_mul _)
    rw [integral_add hsub (integrable_const _), integral_sub hi2 (hi.const_mul _),
      MeasureTheory.integral_const_mul, e1, e2]
    simp
    ring
  rw [integral_eq_zero_iff_of_nonneg (fun ω => sq_nonneg _)] at e3
  · refine ⟨Real.tan (∫ ω, Real.arctan (f (s.ctx 0 ω) (s.act 0 ω) (s.rew 0 ω)) ∂P), ?_⟩
    filter_upwards [e3] with ω hω
    have : Real.arctan (f (s.ctx 0 ω) (s.act 0 ω) (s.rew 0 ω)) = ∫ ω, Real.arctan (f (s.ctx 0 ω) (s.act 0 ω) (s.rew 0 ω)) ∂P :=
      sub_eq_zero.1 (pow_eq_zero_iff (two_ne_zero)|>.1 hω)
    rw [← this, Real.tan_arctan]
  · refine Integrable.of_bound (((hg.comp hround).sub_const _).pow_const 2).aestronglyMeasurable 16 (ae_of_all _ fun ω => ?_)
    have hI : |∫ ω, Real.arctan (f (s.ctx 0 ω) (s.act 0 ω) (s.rew 0 ω)) ∂P| ≤ 2 := by rw [e1]; exact hb _
    have hJ := hb (f (s.ctx 0 ω) (s.act 0 ω) (s.rew 0 ω))
    rw [Real.norm_of_nonneg (sq_nonneg _), ← sq_abs]
    have := (abs_sub (Real.arctan (f (s.ctx 0 ω) (s.act 0 ω) (s.rew 0 ω)))
      (∫ ω, Real.arctan (f (s.ctx 0 ω) (s.act 0 ω) (s.rew 0 ω)) ∂P)).trans (add_le_add hJ hI)
    show _ ^ 2 ≤ (16 : ℝ)
    nlinarith [abs_nonneg (Real.arctan (f (s.ctx 0 ω) (s.act 0 ω) (s.rew 0 ω)) -
      (∫ ω, Real.arctan (f (s.ctx 0 ω) (s.act 0 ω) (s.rew 0 ω)) ∂P))]

end LogStream

namespace MultiStream
variable {Ω C : Type} [MeasurableSpace Ω] [MeasurableSpace C] {A L M : ℕ} {P : Measure Ω} [IsProbabilityMeasure P] {D : Measure C}
variable {s : Fin M → LogStream Ω C A} {piB : Fin M → C → Fin A → ℝ} {m : C → Fin A → ℝ} {pos : C → Fin L}
variable {piE q : C → Fin A → Fin L → ℝ} {N : ℕ → Fin M → ℕ} {rho : Fin M → ℝ}

theorem sum_column (N : Fin M → ℕ) (f : Fin M → ℕ → ℝ) : ∑ j, column N f j = ∑ k, ∑ i : Fin (N k), f k i := by
  rw [← Fintype.sum_sigma' (fun (k : Fin M) (i : Fin (N k)) => f k i)]
  exact Equiv.sum_comp finSigmaFinEquiv.symm fun x : (k : Fin M) × Fin (N k) => f x.1 x.2

theorem avg_column (N : Fin M → ℕ) (f : Fin M → ℕ → ℝ) :
    avg (column N f) = ∑ k, (N k : ℝ) / (∑ j, N j : ℕ) * avg fun i : Fin (N k) => f k i := by
  unfold avg
  rw [sum_column, Finset.sum_div]
  refine Finset.sum_congr rfl fun k _ => ?_
  rcases Nat.eq_zero_or_pos (N k) with h0 | h0
  · have : IsEmpty (Fin (N k)) := by rw [h0]; infer_instance
    simp
  · have : (N k : ℝ) ≠ 0 := by exact_mod_cast h0.ne'
    field_simp

theorem Grows.sum_rho (hg : Grows N rho) : ∑ k, rho k = 1 := by
  have h1 := tendsto_finsetSum (Finset.univ : Finset (Fin M)) fun k _ => hg.share k
  refine tendsto_nhds_unique h1 (tendsto_const_nhds.congr' ?_)
  filter_upwards [hg.total.eventually_gt_atTop 0] with t ht
  have : ((∑ j, N t j : ℕ) : ℝ) ≠ 0 := by exact_mod_cast ht.ne'
  rw [← Finset.sum_div, ← Nat.cast_sum, div_self this]

theorem Grows.size (hg : Grows N rho) (k : Fin M) : Tendsto (fun t => N t k) atTop atTop := by
  have h1 : Tendsto (fun t => ((∑ j, N t j : ℕ) : ℝ)) atTop atTop := tendsto_natCast_atTop_atTop.comp hg.total
  have h2 := h1.atTop_mul_pos (hg.pos k) (hg.share k)
  rw [← tendsto_natCast_atTop_iff (R := ℝ)]
  refine h2.congr' ?_
  filter_upwards [hg.total.eventually_gt_atTop 0] with t ht
  have : ((∑ j, N t j : ℕ) : ℝ) ≠ 0 := by exact_mod_cast ht.ne'
  field_simp

/-- Averages over the pooled log. -/
theorem Grows.pooled_tendsto (hg : Grows N rho) {f : Fin M → ℕ → ℝ} {v : Fin M → ℝ}
    (h : ∀ k, Tendsto (fun n => avg fun i : Fin n => f k i) atTop (𝓝 (v k))) :
    Tendsto (fun t => avg (column (N t) f)) atTop (𝓝 (∑ k, rho k * v k)) := by
  simp only [avg_column]
  exact tendsto_finsetSum _ fun k _ => (hg.share k).mul ((h k).comp (hg.size k))

theorem Grows.pooled_tendsto_const (hg : Grows N rho) {f : Fin M → ℕ → ℝ} {v : ℝ}
    (h : ∀ k, Tendsto (fun n => avg fun i : Fin n => f k i) atTop (𝓝 v)) :
    Tendsto (fun t => avg (column (N t) f)) atTop (𝓝 v) := by
  have := hg.pooled_tendsto h
  rwa [← Finset.sum_mul, hg.sum_rho, one_mul] at this

/-- Averages with weights per logger that are non-negative and one on average. -/
theorem Grows.weighted_tendsto (hg : Grows N rho) {f : Fin M → ℕ → ℝ} {v : ℝ}
    (h : ∀ k, Tendsto (fun n => avg fun i : Fin n => f k i) atTop (𝓝 v)) {w : ℕ → ℕ → ℝ}
    (h0 : ∀ᶠ t in atTop, ∀ j, 0 ≤ w t (column (N t) (fun k _ => (k : ℕ)) j))
    (h1 : ∀ᶠ t in atTop, avg (fun j => w t (column (N t) (fun k _ => (k : ℕ)) j)) = 1) :
    Tendsto (fun t => avg fun j => column (N t) f j * w t (column (N t) (fun k _ => (k : ℕ)) j)) atTop (𝓝 v) := by
  have hx : ∀ k, Tendsto (fun t => avg fun i : Fin (N t k) => f k i) atTop (𝓝 v) := fun k => (h k).comp (hg.size k)
  have hz : Tendsto (fun t => ∑ k, |(avg fun i : Fin (N t k) => f k i) - v|) atTop (𝓝 0) := by
    have : Tendsto (fun t => ∑ k, |(avg fun i : Fin (N t k) => f k i) - v|) atTop (𝓝 (∑ _k : Fin M, |v - v|)) :=
      tendsto_finsetSum _ fun k _ => ((hx k).sub_const v).abs
    simpa using this
  rw [tendsto_iff_norm_sub_tendsto_zero]
  refine squeeze_zero' (Eventually.of_forall fun t => norm_nonneg _) ?_ hz
  filter_upwards [h0, h1, eventually_all.2 fun k => (hg.size k).eventually_gt_atTop 0] with t a0 a1 hpos
  have e1 : (avg fun j => column (N t) f j * w t (column (N t) (fun k _ => (k : ℕ)) j)) =
      ∑ k, (N t k : ℝ) / (∑ j, N t j : ℕ) * w t k * avg fun i : Fin (N t k) => f k i := by
    refine (avg_column (N t) fun k i => f k i * w t k).trans (Finset.sum_congr rfl fun k _ => ?_)
    simp only [avg, ← Finset.sum_mul]
    ring
  have e2 : ∑ k, (N t k : ℝ) / (∑ j, N t j : ℕ) * w t k = 1 := by
    rw [← a1]
    refine Eq.symm ((avg_column (N t) fun k _ => w t k).trans (Finset.sum_congr rfl fun k _ => ?_))
    have : (N t k : ℝ) ≠ 0 := by exact_mod_cast (hpos k).ne'
    simp [avg, this]
  have hw : ∀ k : Fin M, 0 ≤ w t k := fun k => by
    have := a0 (finSigmaFinEquiv ⟨k, ⟨0, hpos k⟩⟩)
    simpa [column] using this
  have hc : ∀ k : Fin M, 0 ≤ (N t k : ℝ) / (∑ j, N t j : ℕ) * w t k := fun k => by have := hw k; positivity
  rw [e1, Real.norm_eq_abs]
  have e3 : (∑ k, (N t k : ℝ) / (∑ j, N t j : ℕ) * w t k * avg fun i : Fin (N t k) => f k i) - v =
      ∑ k, (N t k : ℝ) / (∑ j, N t j : ℕ) * w t k * ((avg fun i : Fin (N t k) => f k i) - v) := by
    simp only [mul_sub, Finset.sum_sub_distrib, ← Finset.sum_mul, e2, one_mul]
  rw [e3]
  refine (Finset.abs_sum_le_sum_abs _ _).trans (Finset.sum_le_sum fun k _ => ?_)
  rw [abs_mul, abs_of_nonneg (hc k)]
  have hle : (N t k : ℝ) / (∑ j, N t j : ℕ) * w t k ≤ 1 := by
    rw [← e2]
    exact Finset.single_le_sum (f := fun k => (N t k : ℝ) / (∑ j, N t j : ℕ) * w t k) (fun k _ => hc k) (Finset.mem_univ k)
  calc _ ≤ 1 * |(avg fun i : Fin (N t k) => f k i) - v| := mul_le_mul_of_nonneg_right hle (abs_nonneg _)
    _ = _ := one_mul _

theorem LoggedBy.value_eq (hs : LoggedBy s P D piB m) (k : Fin M) (hE : ∀ a, Measurable fun c => piE c a (pos c))
    {f : C → Fin A → ℝ} (hf : ∀ a, Measurable fun c => f c a) : (s k).value P pos piE f = value D pos piE f := by
  have hm : Measurable fun c => ∑ a, piE c a (pos c) * f c a := Finset.measurable_sum _ fun a _ => (hE a).mul (hf a)
  unfold value LogStream.value
  rw [← hs.ctx_law k, integral_map ((hs.logger k).ctx_meas 0).aemeasurable hm.aestronglyMeasurable]

/-- All logged actions have positive probability. -/
theorem LoggedBy.pscore_pos (hs : LoggedBy s P D piB m) :
    ∀ᵐ ω ∂P, ∀ k i, 0 < piB k ((s k).ctx i ω) ((s k).act i ω) :=
  ae_all_iff.2 fun k => (hs.logger k).pscore_pos

theorem average_pos (hs : LoggedBy s P D piB m) (hr : ∀ k, 0 < rho k) {k : Fin M} {c : C} {a : Fin A} (h : 0 < piB k c a) :
    0 < average rho piB c a :=
  lt_of_lt_of_le (mul_pos (hr k) h)
    (Finset.single_le_sum (f := fun k => rho k * piB k c a) (fun j _ => mul_nonneg (hr j).le (((hs.logger j).piB_dist c).nonneg a))
      (Finset.mem_univ k))

theorem LoggedBy.pooled_valid (hs : LoggedBy s P D piB m) (hr : ∀ k, 0 < rho k) (hE : ∀ c l, IsDist fun a => piE c a l) :
    ∀ᵐ ω ∂P, ∀ N : Fin M → ℕ, 0 < ∑ k, N k → (pooled s rho piB pos piE q N ω).MValid := by
  filter_upwards [hs.pscore_pos] with ω hω N hN
  refine ⟨⟨hN, fun j => hω _ _, fun j => hω _ _, fun j => div_nonneg ((hE _ _).nonneg _) (hω _ _).le, fun j l => ?_⟩,
    fun j => average_pos hs hr (hω _ _), fun j => average_pos hs hr (hω _ _)⟩
  simp only [pooled, column, (hE _ _).sum_one]
  exact closeToOne_one

/-- With rounds from every logger the labels are `0, …, M - 1`. -/
theorem pooled_contiguous {N : Fin M → ℕ} (hN : ∀ k, 0 < N k) (ω : Ω) : (pooled s rho piB pos piE q N ω).Contiguous := by
  intro j
  have : (pooled s rho piB pos piE q N ω).labels = Finset.range M := by
    ext x
    simp only [MLog.labels, Finset.mem_image, Finset.mem_univ, true_and, Finset.mem_range]
    constructor
    · rintro ⟨j, rfl⟩
      exact (finSigmaFinEquiv.symm j).1.isLt
    · intro hx
      refine ⟨finSigmaFinEquiv ⟨⟨x, hx⟩, ⟨0, hN _⟩⟩, ?_⟩
      simp [pooled, column]
  rw [this, Finset.card_range]
  exact (finSigmaFinEquiv.symm j).1.isLt

/-- A stratum of zero variance is constant. -/
theorem stratumVar_ne {N : Fin M → ℕ} {ω : Ω} {f : Fin M → ℕ → ℝ} (h : ∀ k, ∃ i < N k, f k i ≠ f k 0) (j : Fin (∑ k, N k)) :
    (pooled s rho piB pos piE q N ω).stratumVar (column N f) ((pooled s rho piB pos piE q N ω).stratum j) ≠ 0 := by
  intro h0
  set g := pooled s rho piB pos piE q N ω with hgdef
  obtain ⟨⟨k, i0⟩, rfl⟩ := finSigmaFinEquiv.surjective j
  have hst : g.stratum (finSigmaFinEquiv ⟨k, i0⟩) = k := by simp [hgdef, pooled, column]
  rw [hst] at h0
  have hsize : (g.size k : ℝ) ≠ 0 := by
    have : 0 < g.size k := Finset.card_pos.2 ⟨finSigmaFinEquiv ⟨k, i0⟩, by simp [hst]⟩
    exact_mod_cast this.ne'
  unfold MLog.stratumVar at h0
  generalize g.stratumMean (column N f) k = v at h0
  unfold MLog.stratumMean at h0
  rw [div_eq_zero_iff, or_iff_left hsize, Finset.sum_eq_zero_iff_of_nonneg fun _ _ => sq_nonneg _] at h0
  have hall : ∀ i (hi : i < N k), f k i = v := fun i hi => by
    have := h0 (finSigmaFinEquiv ⟨k, ⟨i, hi⟩⟩) (by simp [hgdef, pooled, column])
    have e : column N f (finSigmaFinEquiv ⟨k, ⟨i, hi⟩⟩) = f k i := by unfold column; rw [Equiv.symm_apply_apply]
    rw [e] at this
    exact sub_eq_zero.1 ((pow_eq_zero_iff two_ne_zero).1 this)
  obtain ⟨i, hi, hne⟩ := h k
  exact hne ((hall i hi).trans (hall 0 (Nat.zero_lt_of_lt hi)).symm)

end MultiStream

end Obp
