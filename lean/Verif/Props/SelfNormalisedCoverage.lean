import Verif.Spec.RoundTerms
import Verif.Lemmas.Meta
import Verif.Lemmas.Rounds
import Verif.Props.Bootstrap
import Verif.Props.EstimatorApi

set_option linter.unusedSectionVars false

/-!
# Confidence intervals of self-normalised estimates

C176: bootstrap samples of the self-normalised estimators keep the normaliser of the log.
-/

namespace Obp
open Log

variable {n A L : ℕ} {g : Log ℝ n A L}

/-- **C176.** The interval of self-normalised inverse propensity weighting contains `v` just if that of inverse propensity
weighting without clipping contains `v` times the average weight: bootstrap samples do not recompute the normaliser. -/
theorem C176_snipw_partial (h : g.Valid) (lam : Lam ℝ) (est : Bool) (hw : 0 < avg (g.weight est)) {alpha : ℝ} (h0 : 0 ≤ alpha)
    (h1 : alpha ≤ 1) {B : ℕ} (hB : 1 ≤ B) {draws : List (List ℕ)} (hd : ValidDraws n B draws) (v : ℝ) :
    Estimator.IntervalContains ⟨.snipw, lam, est⟩ g alpha B draws v ↔
      Estimator.IntervalContains ⟨.ipw, .inf, est⟩ g alpha B draws (v * avg (g.weight est)) := by
  have hne : (List.ofFn fun i : Fin n => g.reward i * g.weight est i) ≠ [] := by
    intro e
    have := congrArg List.length e
    simp at this
    have := h.nonempty
    omega
  obtain ⟨o, ho, ho'⟩ := C04_ci_equivariant hne h0 h1 hB (by simpa using hd) (inv_nonneg.2 hw.le) 0
  have hmap : ((List.ofFn fun i : Fin n => g.reward i * g.weight est i).map fun x => (avg (g.weight est))⁻¹ * x + 0) =
      List.ofFn fun i : Fin n => g.reward i * g.weight est i / avg (g.weight est) := by
    rw [List.map_ofFn]
    congr 1
    funext i
    simp only [Function.comp_apply, add_zero]
    rw [inv_mul_eq_div]
  rw [hmap] at ho'
  have hr1 : roundReward (⟨.snipw, lam, est⟩ : Estimator ℝ) g = some fun i => g.reward i * g.weight est i / avg (g.weight est) := by
    simp only [roundReward, if_neg hw.ne']
  have hr2 : roundReward (⟨.ipw, .inf, est⟩ : Estimator ℝ) g = some fun i => g.reward i * g.weight est i := by
    simp only [roundReward, Lam.clip]
  have e1 : Estimator.estimateInterval ⟨.snipw, lam, est⟩ g.args (ciCall alpha B) draws =
      bootstrapCI (List.ofFn fun i : Fin n => g.reward i * g.weight est i / avg (g.weight est)) (ciCall alpha B) draws := by
    rw [interval_eq_rounds, rounds_eq h, hr1]
    rfl
  have e2 : Estimator.estimateInterval ⟨.ipw, .inf, est⟩ g.args (ciCall alpha B) draws =
      bootstrapCI (List.ofFn fun i : Fin n => g.reward i * g.weight est i) (ciCall alpha B) draws := by
    rw [interval_eq_rounds, rounds_eq h, hr2]
    rfl
  unfold Estimator.IntervalContains
  rw [e1, e2, ho, ho']
  simp only [Except.ok.injEq, exists_eq_left', add_zero, inv_mul_eq_div]
  rw [div_le_iff₀ hw, le_div_iff₀ hw]

/-! ### An interval that misses the value -/

/-- Two actions chosen with probabilities 1/2; the evaluation policy has probabilities 3/4 and 1/4; the rewards of the actions are
1 and 3. -/
noncomputable def missLog {n : ℕ} (action : Fin n → Fin 2) : Log ℝ n 2 1 where
  action := action
  reward i := if action i = 0 then 1 else 3
  pscore _ := 1 / 2
  estPscore _ := 1 / 2
  position _ := 0
  piE _ a _ := if a = 0 then 3 / 4 else 1 / 4
  q _ _ _ := 0
  estIw _ := 1

theorem missLog_valid {n : ℕ} (hn : 0 < n) (action : Fin n → Fin 2) : (missLog action).Valid := by
  refine ⟨hn, fun i => by norm_num [missLog], fun i => by norm_num [missLog], fun i => by norm_num [missLog], fun i l => ?_⟩
  have : ∑ a, (missLog action).piE i a l = 1 := by
    simp only [missLog, Fin.sum_univ_two]
    norm_num
  rw [this]
  exact closeToOne_one

/-- The value of the evaluation policy. -/
theorem missLog_value : (3 / 4 : ℝ) * 1 + 1 / 4 * 3 = 3 / 2 := by norm_num

/-- **C176** fails. Whatever the number of bootstrap samples, `alpha` and the draws: on a log of `n` rounds the interval contains the
value 3/2 just if exactly half of the actions are the first one. -/
theorem not_C176_snipw {n : ℕ} (hn : 0 < n) (action : Fin n → Fin 2) (lam : Lam ℝ) {alpha : ℝ} (h0 : 0 ≤ alpha) (h1 : alpha ≤ 1)
    {B : ℕ} (hB : 1 ≤ B) {draws : List (List ℕ)} (hd : ValidDraws n B draws) :
    Estimator.IntervalContains ⟨.snipw, lam, false⟩ (missLog action) alpha B draws (3 / 2) ↔
      2 * (Finset.univ.filter fun i => action i = 0).card = n := by
  have hn' : (0 : ℝ) < n := by exact_mod_cast hn
  have hwi : ∀ i, (missLog action).weight false i = 1 / 2 + if action i = 0 then 1 else 0 := by
    intro i
    simp only [missLog, Log.weight]
    split <;> norm_num
  have hsum : avg ((missLog action).weight false) = 1 / 2 + ((Finset.univ.filter fun i => action i = 0).card : ℝ) / n := by
    simp only [avg, hwi, Finset.sum_add_distrib, Finset.sum_const, Finset.card_univ, Fintype.card_fin, nsmul_eq_mul,
      Finset.sum_ite, add_zero, mul_zero]
    field_simp
  have hw : 0 < avg ((missLog action).weight false) := by
    rw [hsum]
    positivity
  rw [C176_snipw_partial (missLog_valid hn action) lam false hw h0 h1 hB hd]
  have hr2 : roundReward (⟨.ipw, .inf, false⟩ : Estimator ℝ) (missLog action) = some fun _ => 3 / 2 := by
    simp only [roundReward, Lam.clip, hwi]
    congr 1
    funext i
    simp only [missLog]
    split <;> norm_num
  have e2 : Estimator.estimateInterval ⟨.ipw, .inf, false⟩ (missLog action).args (ciCall alpha B) draws = .ok ⟨3 / 2, 3 / 2, 3 / 2⟩ := by
    rw [interval_eq_rounds, rounds_eq (missLog_valid hn action), hr2]
    refine C03_ci_constant (samples := List.ofFn fun _ : Fin n => (3 / 2 : ℝ)) ?_ h0 h1 hB (by simpa using hd) _ fun x hx => ?_
    · intro e
      have := congrArg List.length e
      simp at this
      omega
    · obtain ⟨i, rfl⟩ := List.mem_ofFn.1 hx
      rfl
  unfold Estimator.IntervalContains
  rw [e2]
  simp only [Except.ok.injEq, exists_eq_left']
  rw [hsum]
  constructor
  · rintro ⟨h3, h4⟩
    have h5 : ((Finset.univ.filter fun i => action i = 0).card : ℝ) / n = 1 / 2 := by linarith
    rw [div_eq_iff hn'.ne'] at h5
    have : (2 * (Finset.univ.filter fun i => action i = 0).card : ℝ) = n := by linarith
    exact_mod_cast this
  · intro h3
    have h4 : (2 * (Finset.univ.filter fun i => action i = 0).card : ℝ) = n := by exact_mod_cast h3
    have h5 : ((Finset.univ.filter fun i => action i = 0).card : ℝ) / n = 1 / 2 := by
      rw [div_eq_iff hn'.ne']
      linarith
    rw [h5]
    norm_num

/-- **C176** fails on every log of an odd number of rounds: the interval never contains the value. -/
theorem not_C176_snipw_odd {n : ℕ} (hn : Odd n) (action : Fin n → Fin 2) (lam : Lam ℝ) {alpha : ℝ} (h0 : 0 ≤ alpha) (h1 : alpha ≤ 1)
    {B : ℕ} (hB : 1 ≤ B) {draws : List (List ℕ)} (hd : ValidDraws n B draws) :
    ¬ Estimator.IntervalContains ⟨.snipw, lam, false⟩ (missLog action) alpha B draws (3 / 2) := by
  rw [not_C176_snipw hn.pos action lam h0 h1 hB hd]
  obtain ⟨k, hk⟩ := hn
  omega

/-- Three rounds, two bootstrap samples. -/
example : ¬ Estimator.IntervalContains ⟨.snipw, .inf, false⟩ (missLog (![0, 1, 0] : Fin 3 → Fin 2)) (1 / 20) 2 [[0, 0, 2], [1, 2, 1]] (3 / 2) :=
  not_C176_snipw_odd (by decide) _ _ (by norm_num) (by norm_num) (by norm_num) ⟨rfl, by decide⟩

/-- The interval is the point `(3/2) / (7/6) = 9/7`. -/
example : Estimator.IntervalContains ⟨.snipw, .inf, false⟩ (missLog (![0, 1, 0] : Fin 3 → Fin 2)) (1 / 20) 2 [[0, 0, 2], [1, 2, 1]] (9 / 7) ↔
    Estimator.IntervalContains ⟨.ipw, .inf, false⟩ (missLog (![0, 1, 0] : Fin 3 → Fin 2)) (1 / 20) 2 [[0, 0, 2], [1, 2, 1]] (3 / 2) := by
  have hw : avg ((missLog (![0, 1, 0] : Fin 3 → Fin 2)).weight false) = 7 / 6 := by
    simp [avg, missLog, Log.weight, Fin.sum_univ_three]
    norm_num
  have hd : ValidDraws 3 2 [[0, 0, 2], [1, 2, 1]] := ⟨rfl, by decide⟩
  rw [C176_snipw_partial (missLog_valid (by norm_num) _) .inf false (by rw [hw]; norm_num) (by norm_num) (by norm_num) (by norm_num)
    hd, hw]
  norm_num

end Obp
