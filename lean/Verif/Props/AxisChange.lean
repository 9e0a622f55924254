import Verif.Props.Continuous
import Verif.Props.Renaming

/-!
# C202: origin, unit and direction of the axis of continuous actions, zero of rewards
-/

set_option linter.unusedSectionVars false

namespace Obp
open Log
variable {n : ℕ}

theorem onAxis_valid {g : ContLog n} (hg : g.Valid) {s : ℝ} (hs : s ≠ 0) (t : ℝ) : (g.onAxis s t).Valid :=
  ⟨hg.nonempty, fun i => div_pos (hg.pscore_pos i) (abs_pos.2 hs)⟩

theorem onAxis_weight (g : ContLog n) (ker : Kernel) {s : ℝ} (hs : s ≠ 0) (t h : ℝ) (i : Fin n) :
    (g.onAxis s t).weight ker.fn (|s| * h) i = |s| * g.weight ker.fn h i := by
  have hk : ker.fn ((s * g.evalAction i + t - (s * g.action i + t)) / (|s| * h)) = ker.fn ((g.evalAction i - g.action i) / h) := by
    rcases abs_choice s with hc | hc
    · rw [hc, show s * g.evalAction i + t - (s * g.action i + t) = s * (g.evalAction i - g.action i) by ring, mul_div_mul_left _ _ hs]
    · rw [hc, show s * g.evalAction i + t - (s * g.action i + t) = s * (g.evalAction i - g.action i) by ring, ← C38_symm, neg_mul,
        div_neg, neg_neg, mul_div_mul_left _ _ hs]
  simp only [ContLog.weight, ContLog.onAxis, hk, div_div_eq_mul_div]
  ring

theorem no_weight {g : ContLog n} (hg : g.Valid) {ker : Kernel} {h : ℝ} (h0 : avg (g.weight ker.fn h) = 0) (i : Fin n) :
    ker.fn ((g.evalAction i - g.action i) / h) = 0 := by
  have hw : ∀ i, 0 ≤ g.weight ker.fn h i := fun i => div_nonneg (C38_nonneg _ _) (hg.pscore_pos i).le
  have hn : (n : ℝ) ≠ 0 := Nat.cast_ne_zero.2 hg.nonempty.ne'
  have hsum : ∑ i, g.weight ker.fn h i = 0 := by
    rcases div_eq_zero_iff.1 h0 with h1 | h1
    · exact h1
    · exact absurd h1 hn
  have := (Finset.sum_eq_zero_iff_of_nonneg fun i _ => hw i).1 hsum i (Finset.mem_univ i)
  rcases div_eq_zero_iff.1 this with h1 | h1
  · exact h1
  · exact absurd h1 (hg.pscore_pos i).ne'

/-- **C202 (axis).** Let logged and evaluation actions be written on another axis (another origin, another unit, possibly the other direction):
`s * a + t` instead of `a`, with densities per new unit and the bandwidth in the new unit. Every kernelised estimator, with every kernel,
returns the same estimate, or fails alike. -/
theorem C202_axis {g : ContLog n} (hg : g.Valid) (k : ContKind) (ker : Kernel) {h : ℝ} (hh : h ≠ 0) {s : ℝ} (hs : s ≠ 0) (t : ℝ) :
    k.estimatePolicyValue ker (.fin (|s| * h)) (g.onAxis s t).args = k.estimatePolicyValue ker (.fin h) g.args := by
  have hg' := onAxis_valid hg hs t
  have ha : |s| ≠ 0 := abs_ne_zero.2 hs
  have hh' : |s| * h ≠ 0 := mul_ne_zero ha hh
  have hw := onAxis_weight g ker hs t h
  have havg : avg ((g.onAxis s t).weight ker.fn (|s| * h)) = |s| * avg (g.weight ker.fn h) := by
    rw [funext hw, avg_mul_left]
  by_cases h0 : k = .snipw ∧ avg (g.weight ker.fn h) = 0
  · obtain ⟨rfl, h0⟩ := h0
    rw [C39_snipw_no_overlap hg ker hh (no_weight hg h0),
      C39_snipw_no_overlap hg' ker hh' (no_weight hg' (by rw [havg, h0, mul_zero]))]
  · have h1 : k = .snipw → avg (g.weight ker.fn h) ≠ 0 := fun hk h2 => h0 ⟨hk, h2⟩
    rw [contValue_eq hg k ker hh h1, contValue_eq hg' k ker hh' fun hk => by rw [havg]; exact mul_ne_zero ha (h1 hk)]
    refine congrArg (fun f => Except.ok (avg f)) (funext fun i => ?_)
    have e1 : (g.onAxis s t).reward = g.reward := rfl
    have e2 : (g.onAxis s t).q = g.q := rfl
    cases k <;> simp only [ContLog.roundReward, hw, e1, e2]
    · field_simp
    · have := h1 rfl
      rw [havg]
      field_simp
    · field_simp

/-- **C202 (zero of rewards).** Adding `d` to all rewards and predictions adds exactly `d` to the estimates of kernelised DR and, where it has
an estimate, self-normalised IPW; kernelised IPW moves by `d` times the average kernel weight, which need not be 1. -/
theorem C202_shift {g : ContLog n} (hg : g.Valid) (k : ContKind) (ker : Kernel) {h : ℝ} (hh : h ≠ 0) (d : ℝ) {v : ℝ}
    (hv : k.estimatePolicyValue ker (.fin h) g.args = .ok v) :
    k.estimatePolicyValue ker (.fin h) (g.shift d).args =
      .ok (v + if k = .ipw then d * avg fun i => g.weight ker.fn h i / h else d) := by
  have hg' : (g.shift d).Valid := ⟨hg.nonempty, hg.pscore_pos⟩
  have h1 : k = .snipw → avg (g.weight ker.fn h) ≠ 0 := by
    rintro rfl h0
    rw [C39_snipw_no_overlap hg ker hh (no_weight hg h0)] at hv
    cases hv
  have hw : (g.shift d).weight ker.fn h = g.weight ker.fn h := rfl
  have hr : ∀ i, (g.shift d).reward i = g.reward i + d := fun _ => rfl
  have hq : ∀ i, (g.shift d).q i = g.q i + d := fun _ => rfl
  rw [contValue_eq hg k ker hh h1] at hv
  rw [contValue_eq hg' k ker hh h1, ← Except.ok.inj hv]
  refine congrArg Except.ok ?_
  cases k
  · rw [if_pos rfl, ← avg_mul_left]
    simp only [ContLog.roundReward, hw, hr, avg, ← add_div, ← Finset.sum_add_distrib]
    congr 1
    exact Finset.sum_congr rfl fun i _ => by ring
  · rw [if_neg (by decide)]
    exact avg_normalised (h1 rfl) d
  · rw [if_neg (by decide), ← avg_add_const hg.nonempty]
    refine congrArg avg (funext fun i => ?_)
    simp only [ContLog.roundReward, hw, hr, hq]
    ring

/-- a log of two rounds with continuous actions -/
noncomputable def exAxis : ContLog 2 where
  evalAction := ![1, 2]
  action := ![1, 5 / 2]
  reward := ![3, 5]
  pscore := ![1 / 2, 1 / 4]
  q := ![2, 2]

/-- the hypotheses hold: the log measured in tenths of the unit and pointing the other way, evaluated with the triangular kernel -/
example : exAxis.Valid ∧ (exAxis.onAxis (-10) 7).Valid ∧
    ContKind.ipw.estimatePolicyValue .triangular (.fin 1) exAxis.args = .ok 8 ∧
    ContKind.ipw.estimatePolicyValue .triangular (.fin (|(-10)| * 1)) (exAxis.onAxis (-10) 7).args = .ok 8 := by
  have hv : exAxis.Valid := ⟨by decide, fun i => by fin_cases i <;> norm_num [exAxis]⟩
  have h1 : ContKind.ipw.estimatePolicyValue .triangular (.fin 1) exAxis.args = .ok 8 := by
    rw [contValue_eq hv _ _ one_ne_zero (by intro h; cases h)]
    refine congrArg Except.ok ?_
    norm_num [avg, Fin.sum_univ_two, ContLog.roundReward, ContLog.weight, exAxis, Kernel.fn, triangularKernel, clip1, abs_of_pos, abs_of_neg]
  exact ⟨hv, onAxis_valid hv (by norm_num) 7, h1, (C202_axis hv _ _ one_ne_zero (by norm_num) 7).trans h1⟩

end Obp
