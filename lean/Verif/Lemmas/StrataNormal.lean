import Verif.Spec.MultiNormal
import Verif.Lemmas.StrataClt
import Verif.Lemmas.IidClt
import Verif.Lemmas.MultiStream

set_option linter.unusedSectionVars false

/-!
# Estimates from several loggers with normal errors
-/

namespace Obp
open MeasureTheory ProbabilityTheory Filter Topology MultiStream

variable {Ω : Type} [MeasurableSpace Ω] {P : Measure Ω} [IsProbabilityMeasure P] {M : ℕ} {N : ℕ → Fin M → ℕ} {rho : Fin M → ℝ}
variable {S : Type} [MeasurableSpace S] {Z : Fin M → ℕ → Ω → S}

theorem sqrt_share {a b : ℝ} (ha : 0 ≤ a) (hb : 0 < b) : √b * (a / b) = √(a / b) * √a := by
  rw [Real.sqrt_div ha, div_mul_eq_mul_div, Real.mul_self_sqrt ha, eq_div_iff (Real.sqrt_pos.2 hb).ne', mul_right_comm,
    Real.mul_self_sqrt hb.le, mul_div_cancel₀ _ hb.ne']

/-- Estimates that are averages over the loggers, with random weights that converge. -/
theorem normalErrors_strata (hZ : ∀ k, Iid P (Z k)) (hind : iIndepFun (fun k ω (i : ℕ) => Z k i ω) P) (hg : Grows N rho)
    {FA FB : Fin M → S → ℝ} (hA : ∀ k, Measurable (FA k)) (hB : ∀ k, Measurable (FB k))
    (hA2 : ∀ k, MemLp (fun ω => FA k (Z k 0 ω)) 2 P) (hB2 : ∀ k, MemLp (fun ω => FB k (Z k 0 ω)) 2 P)
    (hAm : ∀ k, ∫ ω, FA k (Z k 0 ω) ∂P = 0) (hBm : ∀ k, ∫ ω, FB k (Z k 0 ω) ∂P = 0) {V W : Fin M → ℕ → Ω → ℝ}
    (hVm : ∀ k t, Measurable (V k t)) (hWm : ∀ k t, Measurable (W k t)) {vl w : Fin M → ℝ} (hvl : ∀ k, vl k ≠ 0)
    (hV : ∀ k, ∀ᵐ ω ∂P, Tendsto (fun t => V k t ω) atTop (𝓝 (vl k)))
    (hW : ∀ k, ∀ᵐ ω ∂P, Tendsto (fun t => W k t ω) atTop (𝓝 (w k)))
    {e : ℕ → ℝ} (he : Tendsto (fun t => √(∑ k, N t k : ℕ) * e t) atTop (𝓝 0)) {r : ℕ → Ω → Py ℝ} {v var : ℝ}
    (hvar : ∑ k, rho k * Var[fun ω => FA k (Z k 0 ω) + w k * FB k (Z k 0 ω); P] = var) (hpos : 0 < var)
    (hest : ∀ᵐ ω ∂P, ∀ t, (∀ k, 0 < N t k) → (∀ k, V k t ω ≠ 0) → r t ω = .ok (v + e t + ∑ k, (N t k : ℝ) / (∑ j, N t j : ℕ) *
      (meanTo (fun i => FA k (Z k i ω)) (N t k) + W k t ω * meanTo (fun i => FB k (Z k i ω)) (N t k)))) :
    NormalErrorsOver P (fun t => ∑ k, N t k) r v var := by
  refine ⟨hpos, fun x => ?_⟩
  have hF : ∀ k, Measurable fun z => FA k z + w k * FB k z := fun k => (hA k).add ((hB k).const_mul _)
  have hwB : ∀ k, MemLp (fun ω => w k * FB k (Z k 0 ω)) 2 P := fun k => (hB2 k).const_mul (w k)
  have hsh : ∀ k, Tendsto (fun t => √((N t k : ℝ) / (∑ j, N t j : ℕ))) atTop (𝓝 (√(rho k))) := fun k =>
    (Real.continuous_sqrt.tendsto _).comp (hg.share k)
  have hc := clt_strata (P := P) (Z := fun k i ω => FA k (Z k i ω) + w k * FB k (Z k i ω)) (U := fun k i ω => FB k (Z k i ω))
    (fun k => (hA2 k).add (hwB k)) (fun k => ((hZ k).fn (hF k)).2.1) (fun k => ((hZ k).fn (hF k)).2.2)
    (fun k => by
      rw [integral_add ((hA2 k).integrable one_le_two) ((hwB k).integrable one_le_two), hAm,
        MeasureTheory.integral_const_mul, hBm, mul_zero, add_zero])
    (hind.comp (fun k (z : ℕ → S) (i : ℕ) => FA k (z i) + w k * FB k (z i)) fun k =>
      measurable_pi_lambda _ fun i => (hF k).comp (measurable_pi_apply i))
    (fun k => ((hZ k).fn (hB k)).1) hB2 (fun k => ((hZ k).fn (hB k)).2.1) (fun k => ((hZ k).fn (hB k)).2.2) hBm
    (N := N) hg.size (c := fun t k => √((N t k : ℝ) / (∑ j, N t j : ℕ))) hsh
    (d := fun k t ω => √((N t k : ℝ) / (∑ j, N t j : ℕ)) * (W k t ω - w k))
    (fun k t => ((hWm k t).sub_const _).const_mul _)
    (fun k => by
      filter_upwards [hW k] with ω hω
      have := (hsh k).mul (hω.sub_const (w k))
      rwa [sub_self, mul_zero] at this) he
  have hvar' : ∑ k, √(rho k) ^ 2 * Var[fun ω => FA k (Z k 0 ω) + w k * FB k (Z k 0 ω); P] = var := by
    rw [← hvar]
    exact Finset.sum_congr rfl fun k _ => by rw [Real.sq_sqrt (hg.pos k).le]
  rw [hvar'] at hc
  have hN1 : ∀ k, Tendsto (fun t => P.real {ω | V k t ω = 0}) atTop (𝓝 0) := fun k => by
    have h1 := tendstoInMeasure_of_tendsto_ae (fun t => (hVm k t).aestronglyMeasurable) (hV k)
    rw [tendstoInMeasure_iff_measureReal_norm] at h1
    refine squeeze_zero (fun t => measureReal_nonneg) (fun t => measureReal_mono fun ω hω => ?_) (h1 |vl k| (abs_pos.2 (hvl k)))
    simp only [Set.mem_ofPred_eq] at hω ⊢
    rw [hω, zero_sub, norm_neg, Real.norm_eq_abs]
  have hN : Tendsto (fun t => P.real {ω | ∃ k, V k t ω = 0}) atTop (𝓝 0) := by
    have h1 := tendsto_finsetSum (Finset.univ : Finset (Fin M)) fun k _ => hN1 k
    simp only [Finset.sum_const_zero] at h1
    refine squeeze_zero (fun t => measureReal_nonneg) (fun t => ?_) h1
    have h2 : {ω | ∃ k, V k t ω = 0} = ⋃ k ∈ (Finset.univ : Finset (Fin M)), {ω | V k t ω = 0} := by
      ext ω
      simp
    rw [h2]
    exact measureReal_biUnion_finset_le _ _
  refine tendsto_of_diff (tendsto_Iic hpos hc x) hN ?_
  filter_upwards [eventually_all.2 fun k => (hg.size k).eventually_gt_atTop 0, hg.total.eventually_gt_atTop 0] with t hk hn
  filter_upwards [hest] with ω hω hb
  have hn' : (0 : ℝ) < (∑ j, N t j : ℕ) := by exact_mod_cast hn
  have key : √(∑ k, N t k : ℕ) * ((v + e t + ∑ k, (N t k : ℝ) / (∑ j, N t j : ℕ) *
      (meanTo (fun i => FA k (Z k i ω)) (N t k) + W k t ω * meanTo (fun i => FB k (Z k i ω)) (N t k))) - v) =
      ∑ k, √((N t k : ℝ) / (∑ j, N t j : ℕ)) * rootMean (fun i ω => FA k (Z k i ω) + w k * FB k (Z k i ω)) (N t k) ω +
        ∑ k, rootMean (fun i ω => FB k (Z k i ω)) (N t k) ω * (√((N t k : ℝ) / (∑ j, N t j : ℕ)) * (W k t ω - w k)) +
          √(∑ k, N t k : ℕ) * e t := by
    rw [← Finset.sum_add_distrib]
    have e0 : ∀ a b : ℝ, v + a + b - v = b + a := fun a b => by ring
    rw [e0, mul_add, Finset.mul_sum]
    congr 1
    refine Finset.sum_congr rfl fun k _ => ?_
    have e1 : √(∑ k, N t k : ℕ) * ((N t k : ℝ) / (∑ j, N t j : ℕ)) = √((N t k : ℝ) / (∑ j, N t j : ℕ)) * √(N t k : ℝ) :=
      sqrt_share (Nat.cast_nonneg _) hn'
    have e2 : meanTo (fun i => FA k (Z k i ω) + w k * FB k (Z k i ω)) (N t k) =
        meanTo (fun i => FA k (Z k i ω)) (N t k) + w k * meanTo (fun i => FB k (Z k i ω)) (N t k) := by
      simp only [meanTo, Finset.sum_add_distrib, ← Finset.mul_sum]
      ring
    rw [← mul_assoc, e1]
    simp only [rootMean, e2]
    ring
  refine Iff.trans (b := ∃ y, r t ω = .ok y ∧ √(∑ k, N t k : ℕ) * (y - v) ≤ x) Iff.rfl ?_
  rw [hω t hk fun k h0 => hb ⟨k, h0⟩]
  refine ⟨?_, fun h => ⟨_, rfl, ?_⟩⟩
  · rintro ⟨y, hy, hle⟩
    cases hy
    rwa [key] at hle
  · rw [key]
    exact h

end Obp
