import Verif.Spec.Rounds
import Verif.Lemmas.Estimators

/-! # All estimator classes compute `roundReward` on valid logs -/

set_option linter.unusedSectionVars false

namespace Obp
open Log

variable {K : Type} [Field K] [LinearOrder K] [IsStrictOrderedRing K]
variable {n A L : ℕ} {g : Log K n A L}

theorem rounds_eq (h : g.Valid) (e : Estimator K) :
    (do let r ← e.prepare g.args; e.round r) = roundOutcome (roundReward e g) := by
  obtain ⟨k, lam, est⟩ := e
  cases k <;> simp only [Estimator.prepare, Estimator.round, roundReward]
  case rm =>
    rw [rmPrepare_eq h est]
    by_cases hm : ∃ i, g.matched i
    · simp only [py_bind_ok, rmRound_eq h est hm, hm, if_true]; rfl
    · simp only [py_bind_ok, rmRound_nomatch est hm, hm, if_false]; rfl
  case ipw => rw [ipwPrepare_eq h, py_bind_ok, ipwRound_eq h]; rfl
  case snipw =>
    rw [ipwPrepare_eq h, py_bind_ok]
    split
    · next hw => rw [snipwRound_nonFinite h est hw]; rfl
    · next hw => rw [snipwRound_eq h est hw]; rfl
  case dm => rw [dmPrepare_eq h est, py_bind_ok, dmRound_eq h]; rfl
  case dr => rw [drPrepare_eq h, py_bind_ok, drRound_eq h]; rfl
  case sndr =>
    rw [drPrepare_eq h, py_bind_ok]
    split
    · next hw => rw [sndrRound_nonFinite h est hw]; rfl
    · next hw => rw [sndrRound_eq h est hw]; rfl
  case switchDr => rw [drPrepare_eq h, py_bind_ok, switchDrRound_eq h]; rfl
  case drOs =>
    rw [drPrepare_eq h, py_bind_ok]
    cases lam with
    | inf => rw [drOsRound_eq h est .inf _ (fun i => rfl)]; rfl
    | fin l =>
      simp only
      split
      · next hw =>
        obtain ⟨i, hi⟩ := hw
        rw [drOsRound_nonFinite h est (.fin l) i (by simp [drOsWeight, npDiv, hi])]; rfl
      · next hw =>
        push Not at hw
        rw [drOsRound_eq h est (.fin l) _ (fun i => npDiv_ok (hw i))]; rfl
  case sgIpw =>
    rw [ipwPrepare_eq h, py_bind_ok]
    cases lam with
    | inf => rw [sgIpwRound_nonFinite h est .inf ⟨0, h.nonempty⟩ rfl]; rfl
    | fin l =>
      simp only
      split
      · next hw =>
        obtain ⟨i, hi⟩ := hw
        rw [sgIpwRound_nonFinite h est (.fin l) i (by simp [sgWeight, npDiv, hi])]; rfl
      · next hw =>
        push Not at hw
        rw [sgIpwRound_eq h est (.fin l) _ (fun i => npDiv_ok (hw i))]; rfl
  case sgDr =>
    rw [drPrepare_eq h, py_bind_ok]
    cases lam with
    | inf => rw [sgDrRound_nonFinite h est .inf ⟨0, h.nonempty⟩ rfl]; rfl
    | fin l =>
      simp only
      split
      · next hw =>
        obtain ⟨i, hi⟩ := hw
        rw [sgDrRound_nonFinite h est (.fin l) i (by simp [sgWeight, npDiv, hi])]; rfl
      · next hw =>
        push Not at hw
        rw [sgDrRound_eq h est (.fin l) _ (fun i => npDiv_ok (hw i))]; rfl
  case bIpw =>
    rw [bIpwPrepare_eq h est, py_bind_ok]
    split
    · next hw => rw [bIpwRound_nonFinite h est lam hw]; rfl
    · next hw => rw [bIpwRound_eq h est lam hw]; rfl

theorem value_eq_rounds (e : Estimator K) (a : EstArgs K) :
    e.estimatePolicyValue a = (do let r ← e.prepare a; e.round r) >>= npMean := by
  unfold Estimator.estimatePolicyValue
  cases e.prepare a <;> rfl

theorem interval_eq_rounds [FloorRing K] (e : Estimator K) (a : EstArgs K) (c : CiArgs K)
    (draws : List (List ℕ)) :
    e.estimateInterval a c draws =
      (do let r ← e.prepare a; e.round r) >>= fun rr => bootstrapCI rr c draws := by
  unfold Estimator.estimateInterval
  cases e.prepare a <;> rfl

end Obp
