import Verif.Props.Consistency
import Verif.Props.Confidence

set_option linter.unusedSectionVars false

/-!
# High-confidence off-policy evaluation

C150: the Hoeffding lower bound of the per-round values of inverse propensity weighting.
-/

namespace Obp
open MeasureTheory ProbabilityTheory Filter Topology Log LogStream

/-- **C150.** High-confidence off-policy evaluation. Let rewards be in `[0, R]` and weights at most `W`. The Hoeffding lower bound
of the per-round values of (unclipped) inverse propensity weighting, with `x_max = W * R`, exceeds the value of the evaluation
policy with probability at most `delta`, for every number of rounds. -/
theorem C150_policy_value {Ω C : Type} [MeasurableSpace Ω] [MeasurableSpace C] {A L : ℕ} {P : Measure Ω} [IsProbabilityMeasure P]
    {s : LogStream Ω C A} {piB m : C → Fin A → ℝ} {pos : C → Fin L} {piE q : C → Fin A → Fin L → ℝ}
    (hs : s.LoggedBy P piB m) (hE : Covers piB pos piE) {R W : ℝ} (hR : ∀ i ω, s.rew i ω ∈ Set.Icc 0 R)
    (hW : ∀ c a, piE c a (pos c) / piB c a ≤ W) {n : ℕ} (hn : 0 < n) {delta : ℝ} (h0 : 0 < delta) (h1 : delta ≤ 1) :
    ∃ lb : Ω → ℝ,
      (∀ᵐ ω ∂P, (do
        let r ← (⟨.ipw, .inf, false⟩ : Estimator ℝ).prepare (s.log piB pos piE q n ω).args
        let x ← (⟨.ipw, .inf, false⟩ : Estimator ℝ).round r
        estimateHoeffdingLowerBound x (some (W * R)) delta) = .ok (lb ω)) ∧
      P.real {ω | s.value P pos piE m < lb ω} ≤ delta := by
  have hw0 : ∀ c a, 0 ≤ piE c a (pos c) / piB c a := fun c a => div_nonneg ((hE.dist c _).nonneg a) ((hs.piB_dist c).nonneg a)
  have hfm : Measurable fun x : C × Fin A × ℝ => x.2.2 * (piE x.1 x.2.1 (pos x.1) / piB x.1 x.2.1) :=
    (measurable_snd.comp measurable_snd).mul (hs.weightFn_meas hE)
  let X : ℕ → Ω → ℝ := fun i ω => s.rew i ω * (piE (s.ctx i ω) (s.act i ω) (pos (s.ctx i ω)) / piB (s.ctx i ω) (s.act i ω))
  have hXm : ∀ i, Measurable (X i) := fun i =>
    hfm.comp ((hs.ctx_meas i).prodMk ((hs.act_meas i).prodMk (hs.rew_meas i)))
  have hXi : iIndepFun (fun i : Fin n => X i) P := (hs.indep.comp (fun _ => _) fun _ => hfm).precomp Fin.val_injective
  have hXb : ∀ i ω, X i ω ∈ Set.Icc 0 (W * R) := fun i ω =>
    ⟨mul_nonneg (hR i ω).1 (hw0 _ _), by
      rw [mul_comm W]
      exact mul_le_mul (hR i ω).2 (hW _ _) (hw0 _ _) ((hR i ω).1.trans (hR i ω).2)⟩
  have hX0 : Integrable (fun ω => s.weight piB pos piE ω * s.rew 0 ω) P := by
    refine (Integrable.of_bound (hXm 0).aestronglyMeasurable (W * R) (ae_of_all _ fun ω => ?_)).congr
      (ae_of_all _ fun ω => mul_comm _ _)
    rw [Real.norm_of_nonneg (hXb 0 ω).1]
    exact (hXb 0 ω).2
  have hmean : ∀ i, ∫ ω, X i ω ∂P = s.value P pos piE m := by
    intro i
    rw [← (hs.weighted_reward hE hX0).2]
    refine (((hs.ident i).comp hfm).integral_eq).trans (integral_congr_ae (ae_of_all _ fun ω => mul_comm _ _))
  obtain ⟨lb, hlb, hp⟩ := C150_hoeffding_partial hn (fun i : Fin n => hXm i) hXi (fun i ω => hXb i ω) h0 h1
  refine ⟨lb, ?_, ?_⟩
  · filter_upwards [hs.log_valid (q := q) hE] with ω hv
    have := rounds_eq (hv n hn) ⟨.ipw, .inf, false⟩
    simp only [roundReward, roundOutcome] at this
    rw [← hlb ω]
    have hb : ∀ {α β γ : Type} (x : Py α) (f : α → Py β) (g : β → Py γ),
        (do let r ← x; let y ← f r; g y) = (do let r ← x; f r) >>= g := by
      intro α β γ x f g
      cases x <;> rfl
    rw [hb, this, py_bind_ok]
    rfl
  · have hn' : (n : ℝ) ≠ 0 := by exact_mod_cast hn.ne'
    simpa [hmean, hn'] using hp

/-- The hypotheses are met: coin-flip logging with noisy rewards between 0 and 4, and a policy that follows the context with
probability 3/4. -/
example : ∃ lb : (ℕ → ExRound) → ℝ, (∀ᵐ ω ∂(Measure.infinitePi fun _ : ℕ => exRoundLaw), (do
      let r ← (⟨.ipw, .inf, false⟩ : Estimator ℝ).prepare
        (exStream.log (fun _ _ => 1 / 2) (fun _ => (0 : Fin 1)) exEval (fun _ _ _ => 0) 100 ω).args
      let x ← (⟨.ipw, .inf, false⟩ : Estimator ℝ).round r
      estimateHoeffdingLowerBound x (some (3 / 2 * 4)) (1 / 20)) = .ok (lb ω)) ∧
    (Measure.infinitePi fun _ : ℕ => exRoundLaw).real {ω | 19 / 8 < lb ω} ≤ 1 / 20 := by
  rw [← exStream_value]
  refine C150_policy_value exStream_logged exEval_covers (fun i ω => ?_) (fun c a => ?_) (by norm_num) (by norm_num) (by norm_num)
  · change exReward (ω i) ∈ Set.Icc 0 4
    unfold exReward exMean
    generalize (ω i).2.1 = a
    fin_cases a <;> constructor <;> split <;> split <;> norm_num
  · unfold exEval
    split <;> norm_num

end Obp
