import Verif.Props.Renaming
import Verif.Props.Multi

/-!
# C201 for several loggers
-/

set_option linter.unusedSectionVars false

namespace Obp
open Log MLog
variable {K : Type} [Field K] [LinearOrder K] [IsStrictOrderedRing K] {n A L A' L' : ℕ}

theorem renamed_weight {g : Log K n A L} {g' : Log K n A' L'} {σ : Fin A → Fin A'} {τ : Fin L → Fin L'} (hr : g.Renamed g' σ τ)
    (est : Bool) : g'.weight est = g.weight est := funext fun i => by
  simp only [weight, hr.action, hr.position, hr.piE, hr.pscore, hr.estPscore]

theorem renamed_model {g : Log K n A L} {g' : Log K n A' L'} {σ : Fin A → Fin A'} {τ : Fin L → Fin L'} (hr : g.Renamed g' σ τ) :
    g'.modelValue = g.modelValue := funext fun i => by
  simp only [modelValue, hr.position]
  rw [renamed_sum hr i (g.position i) (fun a => g.q i a (g.position i)) (fun b => g'.q i b (τ (g.position i))) fun a => hr.q i a _]
  have := renamed_sum hr i (g.position i) (fun _ => 1) (fun _ => 1) fun _ => rfl
  simp only [one_mul] at this
  rw [this]

theorem renamed_residual {g : Log K n A L} {g' : Log K n A' L'} {σ : Fin A → Fin A'} {τ : Fin L → Fin L'} (hr : g.Renamed g' σ τ) :
    g'.residual = g.residual := funext fun i => by
  simp only [Log.residual, hr.action, hr.position, hr.q, hr.reward]

/-- **C201 (names, several loggers).** If a log of several loggers is written with other names of actions and positions, possibly with further
actions that the evaluation policy never takes, each of the six estimators for several loggers returns the same estimate, or fails alike. -/
theorem C201_multi_renamed {g : MLog K n A L} {g' : MLog K n A' L'} (h : g.MValid) (h' : g'.MValid) {σ : Fin A → Fin A'}
    {τ : Fin L → Fin L'} (hr : g.MRenamed g' σ τ) (e : MultiEstimator K) :
    e.estimatePolicyValue g'.margs = e.estimatePolicyValue g.margs := by
  have hb := hr.base
  have hw := renamed_weight hb
  have hm := renamed_model hb
  have hs := renamed_residual hb
  have hst : g'.strata = g.strata := by simp only [MLog.strata, hr.stratum]
  have hwa : ∀ est, g'.weightAvg est = g.weightAvg est := fun est => funext fun i => by
    simp only [MLog.weightAvg, hb.action, hb.position, hb.piE, hr.pscoreAvg, hr.estPscoreAvg]
  have hq : (fun i => g'.q i (g'.action i) (g'.position i)) = fun i => g.q i (g.action i) (g.position i) := funext fun i => by
    simp only [hb.action, hb.position, hb.q]
  obtain ⟨k, lam, est⟩ := e
  cases k
  · rw [value_naiveIpw h.base, value_naiveIpw h'.base, hw, hb.reward]
  · rw [value_balancedIpw h, value_balancedIpw h', hwa, hb.reward]
  · simp only [MultiEstimator.estimatePolicyValue, MultiEstimator.rounds, weightedIpwPrepare_eq h.base, weightedIpwPrepare_eq h'.base,
      py_bind_ok, weightedIpwRound, iwOf_eq h.base, iwOf_eq h'.base, hst, hw]
    simp only [roundIn, List.length_ofFn, hb.reward]
  · rw [value_naiveDr h.base, value_naiveDr h'.base, hw, hm, hs]
  · rw [value_balancedDr h, value_balancedDr h', hwa, hm, hs]
  · simp only [MultiEstimator.estimatePolicyValue, MultiEstimator.rounds, weightedDrPrepare_eq h.base, weightedDrPrepare_eq h'.base,
      py_bind_ok, weightedDrRound, iwOf_eq h.base, iwOf_eq h'.base, hst, hw, qFactual_eq, hq]
    rw [show ({ g.toLog.roundIn est with estIw := [] } : RoundIn K).action.length = n by simp [roundIn],
      show ({ g'.toLog.roundIn est with estIw := [] } : RoundIn K).action.length = n by simp [roundIn],
      dmPart_eq h'.base _ rfl rfl rfl, dmPart_eq h.base _ rfl rfl rfl, hm]
    simp only [roundIn, hb.reward]

/-! ### names of loggers -/

theorem relabel_mean (g : MLog K n A L) {f : ℕ → ℕ} (hf : ∀ i j, f (g.stratum i) = f (g.stratum j) → g.stratum i = g.stratum j)
    (x : Fin n → K) (j : Fin n) : (g.relabel f).stratumMean x (f (g.stratum j)) = g.stratumMean x (g.stratum j) := by
  have e : (Finset.univ.filter fun i => (g.relabel f).stratum i = f (g.stratum j)) =
      Finset.univ.filter fun i => g.stratum i = g.stratum j :=
    Finset.filter_congr fun i _ => ⟨hf i j, congrArg f⟩
  simp only [MLog.stratumMean, MLog.size, e]

theorem relabel_var (g : MLog K n A L) {f : ℕ → ℕ} (hf : ∀ i j, f (g.stratum i) = f (g.stratum j) → g.stratum i = g.stratum j)
    (x : Fin n → K) (j : Fin n) : (g.relabel f).stratumVar x (f (g.stratum j)) = g.stratumVar x (g.stratum j) := by
  simp only [MLog.stratumVar, relabel_mean g hf]

theorem relabel_weights (g : MLog K n A L) {f : ℕ → ℕ} (hf : ∀ i j, f (g.stratum i) = f (g.stratum j) → g.stratum i = g.stratum j)
    {x : Fin n → K} {omega : ℕ → K} (h : (g.relabel f).VarianceWeights x omega) : g.VarianceWeights x fun k => omega (f k) :=
  ⟨h.pos, h.avg_one, fun i j => by
    rw [← relabel_var g hf, ← relabel_var g hf]
    exact h.inverse i j⟩

/-- **C201 (names of loggers).** Exchanging the numbers `0, ..., m - 1` of the loggers leaves the estimates of the six estimators for several
loggers unchanged. -/
theorem C201_loggers {g : MLog K n A L} (h : g.toLog.Valid) {f : ℕ → ℕ}
    (hf : ∀ i j, f (g.stratum i) = f (g.stratum j) → g.stratum i = g.stratum j) (hc : g.Contiguous) (hc' : (g.relabel f).Contiguous)
    (e : MultiEstimator K) : e.estimatePolicyValue (g.relabel f).margs = e.estimatePolicyValue g.margs := by
  have h' : (g.relabel f).toLog.Valid := h
  have hm : ∀ i, g.stratum i ∈ g.labels := fun i => Finset.mem_image.2 ⟨i, by simp, rfl⟩
  have hm' : ∀ i, f (g.stratum i) ∈ (g.relabel f).labels := fun i => Finset.mem_image.2 ⟨i, by simp, rfl⟩
  obtain ⟨k, lam, est⟩ := e
  cases k
  · rfl
  · rfl
  · by_cases hz : ∃ i, g.stratumVar (g.ipwTerm lam est) (g.stratum i) = 0
    · obtain ⟨i, hz⟩ := hz
      have hz' : (g.relabel f).stratumVar ((g.relabel f).ipwTerm lam est) (f (g.stratum i)) = 0 := (relabel_var g hf _ i).trans hz
      simp only [MultiEstimator.estimatePolicyValue, MultiEstimator.rounds, weightedIpwPrepare_eq h, weightedIpwPrepare_eq h', py_bind_ok,
        weightedIpwRound_nonFinite h est lam hc (hm i) hz, weightedIpwRound_nonFinite h' est lam hc' (hm' i) hz']
    · have hv : ∀ i, g.stratumVar (g.ipwTerm lam est) (g.stratum i) ≠ 0 := fun i hi => hz ⟨i, hi⟩
      obtain ⟨u, hu, eu⟩ := C51_weighted_ipw h lam est hc hv
      obtain ⟨v, hw, ev⟩ := C51_weighted_ipw h' lam est hc' fun i => by
        rw [show (g.relabel f).stratum i = f (g.stratum i) from rfl, relabel_var g hf]
        exact hv i
      rw [eu, ev]
      refine congrArg (fun x => Except.ok (avg x)) (funext fun i => ?_)
      rw [C51_weights_unique h.nonempty hv hu (relabel_weights g hf hw) i]
      rfl
  · rfl
  · rfl
  · by_cases hz : ∃ i, g.stratumVar (g.drTerm lam est) (g.stratum i) = 0
    · obtain ⟨i, hz⟩ := hz
      have hz' : (g.relabel f).stratumVar ((g.relabel f).drTerm lam est) (f (g.stratum i)) = 0 := (relabel_var g hf _ i).trans hz
      simp only [MultiEstimator.estimatePolicyValue, MultiEstimator.rounds, weightedDrPrepare_eq h, weightedDrPrepare_eq h', py_bind_ok,
        weightedDrRound_nonFinite h est lam hc (hm i) hz, weightedDrRound_nonFinite h' est lam hc' (hm' i) hz']
    · have hv : ∀ i, g.stratumVar (g.drTerm lam est) (g.stratum i) ≠ 0 := fun i hi => hz ⟨i, hi⟩
      obtain ⟨u, hu, eu⟩ := C51_weighted_dr h lam est hc hv
      obtain ⟨v, hw, ev⟩ := C51_weighted_dr h' lam est hc' fun i => by
        rw [show (g.relabel f).stratum i = f (g.stratum i) from rfl, relabel_var g hf]
        exact hv i
      rw [eu, ev]
      refine congrArg (fun x => Except.ok (avg x)) (funext fun i => ?_)
      rw [C51_weights_unique h.nonempty hv hu (relabel_weights g hf hw) i]
      rfl

/-! ### another zero of rewards -/

theorem stratumMean_add {g : MLog K n A L} (x : Fin n → K) (d : K) (j : Fin n) :
    g.stratumMean (fun i => x i + d) (g.stratum j) = g.stratumMean x (g.stratum j) + d := by
  have hs : ((g.size (g.stratum j) : ℕ) : K) ≠ 0 :=
    Nat.cast_ne_zero.2 (MLog.size_pos (Finset.mem_image.2 ⟨j, Finset.mem_univ j, rfl⟩)).ne'
  have hc : ∑ i with g.stratum i = g.stratum j, d = (g.size (g.stratum j) : K) * d := by
    rw [Finset.sum_const, nsmul_eq_mul]
    rfl
  rw [MLog.stratumMean, Finset.sum_add_distrib, hc, add_div, mul_div_cancel_left₀ _ hs, MLog.stratumMean]

theorem stratumVar_add {g : MLog K n A L} (x : Fin n → K) (d : K) (j : Fin n) :
    g.stratumVar (fun i => x i + d) (g.stratum j) = g.stratumVar x (g.stratum j) := by
  simp only [MLog.stratumVar, stratumMean_add]
  exact congrArg (fun y => g.stratumMean y (g.stratum j)) (funext fun i => by ring)

/-- **C201 (zero of rewards, several loggers).** Adding `d` to all rewards and predictions adds exactly `d` to the estimates of the naive,
balanced and weighted DR estimators for several loggers. -/
theorem C201_multi_shift {g : MLog K n A L} (h : g.MValid) {e : MultiEstimator K}
    (hk : e.kind ∈ [MultiKind.naiveDr, .balancedDr, .weightedDr]) (d : K) {v : K} (hv : e.estimatePolicyValue g.margs = .ok v) :
    e.estimatePolicyValue (g.mshift d).margs = .ok (v + d) := by
  have h' : (g.mshift d).MValid := ⟨shift_valid h.base d, h.avg_pos, h.estAvg_pos⟩
  have hm : ∀ i, (g.mshift d).modelValue i = g.modelValue i + d := shift_model h.base d
  have hr : (g.mshift d).residual = g.residual := shift_residual (g := g.toLog) d
  have hw : ∀ est, (g.mshift d).weight est = g.weight est := fun _ => rfl
  have hwa : ∀ est, (g.mshift d).weightAvg est = g.weightAvg est := fun _ => rfl
  obtain ⟨k, lam, est⟩ := e
  simp only [List.mem_cons, List.not_mem_nil, or_false] at hk
  rcases hk with rfl | rfl | rfl
  · rw [value_naiveDr h.base] at hv
    rw [value_naiveDr h'.base, ← Except.ok.inj hv, ← avg_add_const h.base.nonempty]
    exact congrArg (fun x => Except.ok (avg x)) (funext fun i => by rw [hm, hr, hw]; ring)
  · rw [value_balancedDr h] at hv
    rw [value_balancedDr h', ← Except.ok.inj hv, ← avg_add_const h.base.nonempty]
    exact congrArg (fun x => Except.ok (avg x)) (funext fun i => by rw [hm, hr, hwa]; ring)
  · have hc : g.Contiguous := by
      by_contra hc
      rw [(C53_other_labels_index_error h.base lam est hc).2.1] at hv
      cases hv
    have hz := (C53_accepts_contiguous_partial h.base lam est hc).2.1 ⟨v, hv⟩
    have ht : (fun i => (g.mshift d).modelValue i + lam.clip ((g.mshift d).weight est i) * (g.mshift d).residual i) =
        fun i => g.modelValue i + lam.clip (g.weight est i) * g.residual i + d := funext fun i => by rw [hm, hr, hw]; ring
    have hvar : ∀ i, (g.mshift d).stratumVar (fun i => (g.mshift d).modelValue i + lam.clip ((g.mshift d).weight est i) *
        (g.mshift d).residual i) ((g.mshift d).stratum i) =
        g.stratumVar (fun i => g.modelValue i + lam.clip (g.weight est i) * g.residual i) (g.stratum i) := fun i => by
      rw [ht]
      exact stratumVar_add _ d i
    obtain ⟨u, hu, eu⟩ := C51_weighted_dr h.base lam est hc hz
    obtain ⟨u', hu', eu'⟩ := C51_weighted_dr h'.base lam est hc fun i => by rw [hvar]; exact hz i
    have hu2 : g.VarianceWeights (fun i => g.modelValue i + lam.clip (g.weight est i) * g.residual i) u' :=
      ⟨hu'.pos, hu'.avg_one, fun i j => by
        rw [← hvar, ← hvar]
        exact hu'.inverse i j⟩
    rw [eu] at hv
    rw [eu', ← Except.ok.inj hv, ← avg_add_const h.base.nonempty]
    refine congrArg (fun x => Except.ok (avg x)) (funext fun i => ?_)
    rw [hm, hr, hw, C51_weights_unique h.base.nonempty hz hu hu2 i]
    show g.modelValue i + d + lam.clip (g.weight est i) * g.residual i * u' (g.stratum i) = _
    ring

/-- four rounds of two loggers; exchanging the loggers' numbers -/
example : (∀ i j, 1 - exStrata.stratum i = 1 - exStrata.stratum j → exStrata.stratum i = exStrata.stratum j) ∧
    exStrata.Contiguous ∧ (exStrata.relabel fun k => 1 - k).Contiguous ∧ (exStrata.relabel fun k => 1 - k).stratum = ![1, 1, 0, 0] := by
  unfold MLog.Contiguous
  decide +kernel

/-- the estimate of the weighted DR estimator exists and follows a shift -/
example : ∃ v, (MultiEstimator.mk .weightedDr .inf false).estimatePolicyValue exStrata.margs = .ok v ∧
    (MultiEstimator.mk .weightedDr .inf false).estimatePolicyValue (exStrata.mshift 3).margs = .ok (v + 3) := by
  obtain ⟨v, hv⟩ := (C53_accepts_contiguous_partial exStrata_valid .inf false (by unfold MLog.Contiguous; decide +kernel)).2.2
    (by decide +kernel)
  exact ⟨v, hv, C201_multi_shift ⟨exStrata_valid, by decide +kernel, by decide +kernel⟩ (by decide) 3 hv⟩

/-- the log `exNames` with one logger per round -/
def exNamesMulti : MLog ℚ 2 2 1 where
  toLog := exNames
  stratum := ![1, 0]
  pscoreAvg := ![1 / 3, 2 / 3]
  estPscoreAvg := ![1 / 2, 1 / 2]

/-- the same with the names of `exNames'` -/
def exNamesMulti' : MLog ℚ 2 3 1 where
  toLog := exNames'
  stratum := ![1, 0]
  pscoreAvg := ![1 / 3, 2 / 3]
  estPscoreAvg := ![1 / 2, 1 / 2]

/-- the hypotheses hold -/
example : exNamesMulti.MValid ∧ exNamesMulti'.MValid ∧ exNamesMulti.MRenamed exNamesMulti' ![2, 0] id ∧
    (MultiEstimator.mk .balancedIpw .inf false).estimatePolicyValue exNamesMulti.margs = .ok (51 / 16) ∧
    (MultiEstimator.mk .balancedIpw .inf false).estimatePolicyValue exNamesMulti'.margs = .ok (51 / 16) := by
  refine ⟨⟨⟨by decide, by decide +kernel, by decide +kernel, by decide +kernel, by decide +kernel⟩, by decide +kernel, by decide +kernel⟩,
    ⟨⟨by decide, by decide +kernel, by decide +kernel, by decide +kernel, by decide +kernel⟩, by decide +kernel, by decide +kernel⟩,
    ⟨⟨by decide, by decide, by decide, rfl, rfl, rfl, rfl, by decide +kernel, by decide +kernel, by decide +kernel⟩, rfl, rfl, rfl⟩, ?_⟩
  decide +kernel

end Obp
