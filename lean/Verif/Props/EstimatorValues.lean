import Verif.Lemmas.Estimators

/-!
# What every estimator of `obp.ope.estimators` computes

For a well-shaped, valid log (`Log.Valid`) each class's `estimate_policy_value` succeeds and
returns the textbook formula, or its float result is not finite in exactly the stated cases.
These theorems are the basis of the properties C13-C29.
-/

set_option linter.unusedSectionVars false

namespace Obp
open Log

variable {K : Type} [Field K] [LinearOrder K] [IsStrictOrderedRing K]
variable {n A L : ℕ} {g : Log K n A L}

/-- IPW: mean of reward times clipped importance weight. -/
theorem value_ipw (h : g.Valid) (lam : Lam K) (est : Bool) :
    (Estimator.mk .ipw lam est).estimatePolicyValue g.args =
      .ok (avg fun i => g.reward i * lam.clip (g.weight est i)) := by
  simp only [Estimator.estimatePolicyValue, Estimator.prepare, Estimator.round,
    ipwPrepare_eq h, py_bind_ok, ipwRound_eq h, npMean_avg h]

/-- SNIPW with a non-zero mean weight. -/
theorem value_snipw (h : g.Valid) (lam : Lam K) (est : Bool) (hw : avg (g.weight est) ≠ 0) :
    (Estimator.mk .snipw lam est).estimatePolicyValue g.args =
      .ok (avg fun i => g.reward i * g.weight est i / avg (g.weight est)) := by
  simp only [Estimator.estimatePolicyValue, Estimator.prepare, Estimator.round,
    ipwPrepare_eq h, py_bind_ok, snipwRound_eq h est hw, npMean_avg h]

/-- SNIPW with zero mean weight is not a finite number. -/
theorem value_snipw_nonFinite (h : g.Valid) (lam : Lam K) (est : Bool)
    (hw : avg (g.weight est) = 0) :
    (Estimator.mk .snipw lam est).estimatePolicyValue g.args = .error .nonFinite := by
  simp only [Estimator.estimatePolicyValue, Estimator.prepare, Estimator.round,
    ipwPrepare_eq h, py_bind_ok, snipwRound_nonFinite h est hw, py_bind_error]

/-- Replay method when some round matches. -/
theorem value_rm (h : g.Valid) (lam : Lam K) (est : Bool) (hm : ∃ i, g.matched i) :
    (Estimator.mk .rm lam est).estimatePolicyValue g.args =
      .ok (avg fun i => (if g.matched i then 1 else 0) * g.reward i /
        avg (fun i => if g.matched i then (1 : K) else 0)) := by
  simp only [Estimator.estimatePolicyValue, Estimator.prepare, Estimator.round,
    rmPrepare_eq h est, py_bind_ok, rmRound_eq h est hm, npMean_avg h]

/-- Replay method when no round matches. -/
theorem value_rm_nomatch (h : g.Valid) (lam : Lam K) (est : Bool) (hm : ¬ ∃ i, g.matched i) :
    (Estimator.mk .rm lam est).estimatePolicyValue g.args = .ok 0 := by
  simp only [Estimator.estimatePolicyValue, Estimator.prepare, Estimator.round,
    rmPrepare_eq h est, py_bind_ok, rmRound_nomatch est hm, npMean_avg h]
  simp [avg]

/-- DM: mean of the predicted value of the evaluation policy. -/
theorem value_dm (h : g.Valid) (lam : Lam K) (est : Bool) :
    (Estimator.mk .dm lam est).estimatePolicyValue g.args = .ok (avg g.modelValue) := by
  simp only [Estimator.estimatePolicyValue, Estimator.prepare, Estimator.round,
    dmPrepare_eq h est, py_bind_ok, dmRound_eq h, npMean_avg h]

/-- DR: DM plus clipped-weight correction. -/
theorem value_dr (h : g.Valid) (lam : Lam K) (est : Bool) :
    (Estimator.mk .dr lam est).estimatePolicyValue g.args =
      .ok (avg fun i => g.modelValue i + lam.clip (g.weight est i) * g.residual i) := by
  simp only [Estimator.estimatePolicyValue, Estimator.prepare, Estimator.round,
    drPrepare_eq h, py_bind_ok, drRound_eq h, npMean_avg h]

/-- SNDR with a non-zero mean weight. -/
theorem value_sndr (h : g.Valid) (lam : Lam K) (est : Bool) (hw : avg (g.weight est) ≠ 0) :
    (Estimator.mk .sndr lam est).estimatePolicyValue g.args =
      .ok (avg fun i => g.modelValue i + g.weight est i * g.residual i / avg (g.weight est)) := by
  simp only [Estimator.estimatePolicyValue, Estimator.prepare, Estimator.round,
    drPrepare_eq h, py_bind_ok, sndrRound_eq h est hw, npMean_avg h]

/-- SNDR with zero mean weight is not a finite number. -/
theorem value_sndr_nonFinite (h : g.Valid) (lam : Lam K) (est : Bool)
    (hw : avg (g.weight est) = 0) :
    (Estimator.mk .sndr lam est).estimatePolicyValue g.args = .error .nonFinite := by
  simp only [Estimator.estimatePolicyValue, Estimator.prepare, Estimator.round,
    drPrepare_eq h, py_bind_ok, sndrRound_nonFinite h est hw, py_bind_error]

/-- Switch-DR: the correction is applied to rounds whose weight is at most `lambda_`. -/
theorem value_switchDr (h : g.Valid) (lam : Lam K) (est : Bool) :
    (Estimator.mk .switchDr lam est).estimatePolicyValue g.args =
      .ok (avg fun i => g.modelValue i +
        (if lam.geB (g.weight est i) then (1 : K) else 0) * g.weight est i * g.residual i) := by
  simp only [Estimator.estimatePolicyValue, Estimator.prepare, Estimator.round,
    drPrepare_eq h, py_bind_ok, switchDrRound_eq h, npMean_avg h]

/-- DRos with a finite positive `lambda_`. -/
theorem value_drOs (h : g.Valid) (est : Bool) (l : K)
    (hl : ∀ i, g.weight est i ^ 2 + l ≠ 0) :
    (Estimator.mk .drOs (.fin l) est).estimatePolicyValue g.args =
      .ok (avg fun i => g.modelValue i +
        l * g.weight est i / (g.weight est i ^ 2 + l) * g.residual i) := by
  simp only [Estimator.estimatePolicyValue, Estimator.prepare, Estimator.round,
    drPrepare_eq h, py_bind_ok, drOsRound_eq h est (.fin l) _ (fun i => npDiv_ok (hl i)),
    npMean_avg h]

/-- DRos with `lambda_ = inf`. -/
theorem value_drOs_inf (h : g.Valid) (est : Bool) :
    (Estimator.mk .drOs .inf est).estimatePolicyValue g.args =
      .ok (avg fun i => g.modelValue i + g.weight est i * g.residual i) := by
  simp only [Estimator.estimatePolicyValue, Estimator.prepare, Estimator.round,
    drPrepare_eq h, py_bind_ok, drOsRound_eq h est .inf _ (fun i => rfl), npMean_avg h]

/-- DRos is not finite as soon as one denominator vanishes. -/
theorem value_drOs_nonFinite (h : g.Valid) (est : Bool) (l : K) (i : Fin n)
    (hl : g.weight est i ^ 2 + l = 0) :
    (Estimator.mk .drOs (.fin l) est).estimatePolicyValue g.args = .error .nonFinite := by
  simp only [Estimator.estimatePolicyValue, Estimator.prepare, Estimator.round,
    drPrepare_eq h, py_bind_ok,
    drOsRound_nonFinite h est (.fin l) i (by simp [drOsWeight, npDiv, hl]), py_bind_error]

/-- SGIPW. -/
theorem value_sgIpw (h : g.Valid) (est : Bool) (l : K)
    (hl : ∀ i, 1 - l + l * g.weight est i ≠ 0) :
    (Estimator.mk .sgIpw (.fin l) est).estimatePolicyValue g.args =
      .ok (avg fun i => g.weight est i / (1 - l + l * g.weight est i) * g.reward i) := by
  simp only [Estimator.estimatePolicyValue, Estimator.prepare, Estimator.round,
    ipwPrepare_eq h, py_bind_ok, sgIpwRound_eq h est (.fin l) _ (fun i => npDiv_ok (hl i)),
    npMean_avg h]

/-- SGIPW is not finite as soon as one denominator vanishes. -/
theorem value_sgIpw_nonFinite (h : g.Valid) (est : Bool) (l : K) (i : Fin n)
    (hl : 1 - l + l * g.weight est i = 0) :
    (Estimator.mk .sgIpw (.fin l) est).estimatePolicyValue g.args = .error .nonFinite := by
  simp only [Estimator.estimatePolicyValue, Estimator.prepare, Estimator.round,
    ipwPrepare_eq h, py_bind_ok,
    sgIpwRound_nonFinite h est (.fin l) i (by simp [sgWeight, npDiv, hl]), py_bind_error]

/-- SGDR. -/
theorem value_sgDr (h : g.Valid) (est : Bool) (l : K)
    (hl : ∀ i, 1 - l + l * g.weight est i ≠ 0) :
    (Estimator.mk .sgDr (.fin l) est).estimatePolicyValue g.args =
      .ok (avg fun i => g.modelValue i +
        g.weight est i / (1 - l + l * g.weight est i) * g.residual i) := by
  simp only [Estimator.estimatePolicyValue, Estimator.prepare, Estimator.round,
    drPrepare_eq h, py_bind_ok, sgDrRound_eq h est (.fin l) _ (fun i => npDiv_ok (hl i)),
    npMean_avg h]

/-- SGDR is not finite as soon as one denominator vanishes. -/
theorem value_sgDr_nonFinite (h : g.Valid) (est : Bool) (l : K) (i : Fin n)
    (hl : 1 - l + l * g.weight est i = 0) :
    (Estimator.mk .sgDr (.fin l) est).estimatePolicyValue g.args = .error .nonFinite := by
  simp only [Estimator.estimatePolicyValue, Estimator.prepare, Estimator.round,
    drPrepare_eq h, py_bind_ok,
    sgDrRound_nonFinite h est (.fin l) i (by simp [sgWeight, npDiv, hl]), py_bind_error]

/-- Balanced IPW with a non-zero mean of clipped weights. -/
theorem value_bIpw (h : g.Valid) (lam : Lam K) (est : Bool)
    (hw : avg (fun i => lam.clip (g.estIw i)) ≠ 0) :
    (Estimator.mk .bIpw lam est).estimatePolicyValue g.args =
      .ok (avg fun i => g.reward i * lam.clip (g.estIw i) /
        avg (fun i => lam.clip (g.estIw i))) := by
  simp only [Estimator.estimatePolicyValue, Estimator.prepare, Estimator.round,
    bIpwPrepare_eq h est, py_bind_ok, bIpwRound_eq h est lam hw, npMean_avg h]

/-- Balanced IPW with zero mean weight is not a finite number. -/
theorem value_bIpw_nonFinite (h : g.Valid) (lam : Lam K) (est : Bool)
    (hw : avg (fun i => lam.clip (g.estIw i)) = 0) :
    (Estimator.mk .bIpw lam est).estimatePolicyValue g.args = .error .nonFinite := by
  simp only [Estimator.estimatePolicyValue, Estimator.prepare, Estimator.round,
    bIpwPrepare_eq h est, py_bind_ok, bIpwRound_nonFinite h est lam hw, py_bind_error]

/-! ### A concrete log used in the non-vacuity examples -/

/-- Three rounds, two actions, two positions. -/
def exLog : Log ℚ 3 2 2 where
  action := ![0, 1, 0]
  reward := ![1, 2, 4]
  pscore := ![1 / 2, 1 / 4, 1]
  estPscore := ![1 / 3, 1 / 2, 1 / 5]
  position := ![0, 1, 1]
  piE := fun i a _ => (![![1 / 4, 3 / 4], ![1, 0], ![1 / 2, 1 / 2]] : Fin 3 → Fin 2 → ℚ) i a
  q := fun i a l => (i.val : ℚ) + 2 * a.val - l.val
  estIw := ![1, 0, 3]

theorem exLog_valid : exLog.Valid where
  nonempty := by decide
  pscore_pos := by decide +kernel
  estPscore_pos := by decide +kernel
  estIw_nonneg := by decide +kernel
  sum_one := by decide +kernel

example : (Estimator.mk .ipw .inf false).estimatePolicyValue exLog.args = .ok (5 / 6) := by
  rw [value_ipw exLog_valid]; decide +kernel
example : (Estimator.mk .dr (.fin 1) true).estimatePolicyValue exLog.args ≠ .error .valueError := by
  rw [value_dr exLog_valid]; simp
example : avg (exLog.weight false) ≠ 0 ∧ ¬ (∃ i, exLog.matched i) := by decide +kernel

end Obp
