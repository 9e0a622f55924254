import Verif.Props.RewardUnit
import Verif.Props.Slate
import Verif.Props.SlateChecks
import Verif.Props.Multi

/-!
# C203 for slates and several loggers
-/

set_option linter.unusedSectionVars false

namespace Obp
open Log
variable {K : Type} [Field K] [LinearOrder K] [IsStrictOrderedRing K] {N : ℕ}

theorem withReward_accepts (kind : SlateKind) (g : SlateLog K N) (r : Fin N → K) : kind.Accepts (g.withReward r) ↔ kind.Accepts g := by
  cases kind <;> exact Iff.rfl

/-- **C203 (unit of rewards, slates).** Multiplying all rewards by `c` multiplies every slate estimate by `c`, or the estimator fails alike. -/
theorem C203_slate_scale (kind : SlateKind) (lenList : ℕ) (g : SlateLog K N) (c : K) :
    kind.estimatePolicyValue lenList (g.withReward fun i => c * g.reward i).args =
      (kind.estimatePolicyValue lenList g.args).map (c * ·) := by
  by_cases h : kind.Accepts g
  · have h' := (withReward_accepts kind g fun i => c * g.reward i).2 h
    rw [slateValue_eq kind lenList h, slateValue_eq kind lenList h']
    have hn : (g.withReward fun i => c * g.reward i).numSlates = g.numSlates := rfl
    have hr : kind.rowVals lenList (g.withReward fun i => c * g.reward i) = (kind.rowVals lenList g).map fun f i => c * f i := by
      have hw : (g.withReward fun i => c * g.reward i).weight = g.weight := rfl
      have hp : (g.withReward fun i => c * g.reward i).posMean = g.posMean := rfl
      have hq : (g.withReward fun i => c * g.reward i).pos = g.pos := rfl
      have hre : ∀ i, (g.withReward fun i => c * g.reward i).reward i = c * g.reward i := fun _ => rfl
      cases kind <;> simp only [SlateKind.rowVals, hw, hp, hq] <;> (try split_ifs) <;>
        simp only [Option.map_some, Option.map_none, Option.some.injEq] <;> (try funext i) <;> (try split_ifs) <;>
        (try simp only [hre]) <;> (try ring)
    rw [hr, hn]
    cases kind.rowVals lenList g with
    | none => rfl
    | some f =>
      refine congrArg Except.ok ?_
      rw [← Finset.mul_sum, mul_div_assoc]
  · unfold SlateKind.estimatePolicyValue
    rw [slateError kind h, slateError kind fun h' => h ((withReward_accepts _ _ _).1 h')]
    rfl

/-- **C203 (better rewards, slates).** Larger rewards never lower a slate estimate. -/
theorem C203_slate_monotone (kind : SlateKind) (lenList : ℕ) {g : SlateLog K N} {r : Fin N → K} (hr : ∀ i, g.reward i ≤ r i) {v : K}
    (hv : kind.estimatePolicyValue lenList g.args = .ok v) :
    ∃ v', kind.estimatePolicyValue lenList (g.withReward r).args = .ok v' ∧ v ≤ v' := by
  have h : kind.Accepts g := by
    by_contra h
    unfold SlateKind.estimatePolicyValue at hv
    rw [slateError kind h] at hv
    cases hv
  have h' := (withReward_accepts kind g r).2 h
  have hw0 : ∀ i, 0 ≤ g.weight i := fun i => div_nonneg (h.2.1 i).2.2.1 (h.2.1 i).1.le
  have hp0 : ∀ p, 0 ≤ g.posMean p := fun p => by
    refine div_nonneg (Finset.sum_nonneg fun j _ => ?_) (Nat.cast_nonneg _)
    split_ifs
    · exact hw0 j
    · exact le_rfl
  rw [slateValue_eq kind lenList h] at hv
  rw [slateValue_eq kind lenList h']
  have hn : (g.withReward r).numSlates = g.numSlates := rfl
  have hw : (g.withReward r).weight = g.weight := rfl
  have hp : (g.withReward r).posMean = g.posMean := rfl
  have hq : (g.withReward r).pos = g.pos := rfl
  have hre : (g.withReward r).reward = r := rfl
  have key : ∀ f, kind.rowVals lenList g = some f → ∃ f', kind.rowVals lenList (g.withReward r) = some f' ∧ ∀ i, f i ≤ f' i := by
    intro f hf
    have hm : ∀ i, g.reward i * g.weight i ≤ r i * g.weight i := fun i => mul_le_mul_of_nonneg_right (hr i) (hw0 i)
    have hN : 0 ≤ (∑ i, g.weight i) / (N : K) := div_nonneg (Finset.sum_nonneg fun i _ => hw0 i) (Nat.cast_nonneg N)
    cases kind <;> simp only [SlateKind.rowVals, hw, hp, hq] at hf ⊢ <;> (try split_ifs at hf ⊢) <;>
      refine ⟨_, rfl, fun i => ?_⟩ <;> rw [← Option.some.inj hf]
    · exact hm i
    · exact hm i
    · exact hm i
    · exact div_le_div_of_nonneg_right (hm i) hN
    all_goals
      dsimp only
      split_ifs
      · exact div_le_div_of_nonneg_right (hm i) (hp0 _)
      · exact le_rfl
  cases hf : kind.rowVals lenList g with
  | none => rw [hf] at hv; cases hv
  | some f =>
    obtain ⟨f', hf', hle⟩ := key f hf
    rw [hf] at hv
    refine ⟨(∑ i, f' i) / (g.numSlates : K), by rw [hf', hn], ?_⟩
    rw [← Except.ok.inj hv]
    exact div_le_div_of_nonneg_right (Finset.sum_le_sum fun i _ => hle i) (Nat.cast_nonneg _)

/-- the hypotheses hold for `exSlate` -/
example : ∃ v v' : ℚ, SlateKind.rips.estimatePolicyValue 2 exSlate.args = .ok v ∧
    SlateKind.rips.estimatePolicyValue 2 (exSlate.withReward ![1, -1, 3, 6]).args = .ok v' ∧ v ≤ v' := by
  have e := slateValue_eq .rips 2 (exSlate_accepts .rips)
  obtain ⟨v', h1, h2⟩ := C203_slate_monotone .rips 2 (r := ![1, -1, 3, 6]) (by decide +kernel) e
  exact ⟨_, v', e, h1, h2⟩

/-! ### several loggers -/

/-- **C203 (better rewards, several loggers).** Larger rewards never lower the estimates of the naive and balanced estimators for several
loggers. -/
theorem C203_multi_monotone {n A L : ℕ} {g : MLog K n A L} (h : g.MValid) (hp : g.toLog.NonnegPolicy) {e : MultiEstimator K}
    (hl : e.lam.Nonneg) (hk : e.kind ∈ [MultiKind.naiveIpw, .balancedIpw, .naiveDr, .balancedDr]) {r : Fin n → K}
    (hr : ∀ i, g.reward i ≤ r i) :
    ∃ v v', e.estimatePolicyValue g.margs = .ok v ∧ e.estimatePolicyValue (g.withRewards r).margs = .ok v' ∧ v ≤ v' := by
  have h' : (g.withRewards r).MValid :=
    ⟨⟨h.base.nonempty, h.base.pscore_pos, h.base.estPscore_pos, h.base.estIw_nonneg, h.base.sum_one⟩, h.avg_pos, h.estAvg_pos⟩
  obtain ⟨k, lam, est⟩ := e
  have hc : ∀ i, 0 ≤ lam.clip (g.weight est i) := fun i => lamClip_nonneg hl (weight_nonneg h.base hp est i)
  have hc' : ∀ i, 0 ≤ lam.clip (g.weightAvg est i) := fun i =>
    lamClip_nonneg hl (div_nonneg (hp _ _ _) (by split_ifs; exacts [(h.estAvg_pos i).le, (h.avg_pos i).le]))
  have hs : ∀ i, g.residual i ≤ (g.withRewards r).residual i := fun i => sub_le_sub_right (hr i) _
  simp only [List.mem_cons, List.not_mem_nil, or_false] at hk
  rcases hk with rfl | rfl | rfl | rfl
  · exact ⟨_, _, value_naiveIpw h.base lam est, value_naiveIpw h'.base lam est, avg_mono fun i => mul_le_mul_of_nonneg_right (hr i) (hc i)⟩
  · exact ⟨_, _, value_balancedIpw h lam est, value_balancedIpw h' lam est, avg_mono fun i => mul_le_mul_of_nonneg_right (hr i) (hc' i)⟩
  · exact ⟨_, _, value_naiveDr h.base lam est, value_naiveDr h'.base lam est, avg_mono fun i =>
      add_le_add_right (mul_le_mul_of_nonneg_left (hs i) (hc i)) (g.modelValue i)⟩
  · exact ⟨_, _, value_balancedDr h lam est, value_balancedDr h' lam est, avg_mono fun i =>
      add_le_add_right (mul_le_mul_of_nonneg_left (hs i) (hc' i)) (g.modelValue i)⟩

theorem stratumMean_mul {n A L : ℕ} (g : MLog K n A L) (x : Fin n → K) (c : K) (k : ℕ) :
    g.stratumMean (fun i => c * x i) k = c * g.stratumMean x k := by
  simp only [MLog.stratumMean, ← Finset.mul_sum, mul_div_assoc]

theorem stratumVar_mul {n A L : ℕ} (g : MLog K n A L) (x : Fin n → K) (c : K) (k : ℕ) :
    g.stratumVar (fun i => c * x i) k = c ^ 2 * g.stratumVar x k := by
  rw [MLog.stratumVar, MLog.stratumVar, stratumMean_mul, ← stratumMean_mul g (fun i => (x i - g.stratumMean x k) ^ 2)]
  exact congrArg (fun y => g.stratumMean y k) (funext fun i => by ring)

theorem varianceWeights_mul {n A L : ℕ} {g : MLog K n A L} {x : Fin n → K} {c : K} (hc : c ≠ 0) {omega : ℕ → K}
    (h : g.VarianceWeights (fun i => c * x i) omega) : g.VarianceWeights x omega :=
  ⟨h.pos, h.avg_one, fun i j => by
    have := h.inverse i j
    simp only [stratumVar_mul] at this
    refine mul_left_cancel₀ (pow_ne_zero 2 hc) ?_
    rw [mul_left_comm, this, mul_left_comm]⟩

/-- **C203 (unit of rewards, several loggers).** Multiplying rewards and predictions by `c` other than 0 multiplies the estimates of the six
estimators for several loggers by `c`, or they fail alike. -/
theorem C203_multi_scale {n A L : ℕ} {g : MLog K n A L} (h : g.MValid) (e : MultiEstimator K) {c : K} (hc : c ≠ 0) :
    e.estimatePolicyValue (g.mscale c).margs = (e.estimatePolicyValue g.margs).map (c * ·) := by
  have h' : (g.mscale c).MValid :=
    ⟨⟨h.base.nonempty, h.base.pscore_pos, h.base.estPscore_pos, h.base.estIw_nonneg, h.base.sum_one⟩, h.avg_pos, h.estAvg_pos⟩
  have hm : ∀ i, (g.mscale c).modelValue i = c * g.modelValue i := fun i => by
    simp only [modelValue, MLog.mscale, Log.scale, mul_assoc, ← Finset.mul_sum, mul_div_assoc]
  have hs : ∀ i, (g.mscale c).residual i = c * g.residual i := fun i => by simp only [Log.residual, MLog.mscale, Log.scale]; ring
  have hr : ∀ i, (g.mscale c).reward i = c * g.reward i := fun _ => rfl
  have hw : ∀ est, (g.mscale c).weight est = g.weight est := fun _ => rfl
  have hwa : ∀ est, (g.mscale c).weightAvg est = g.weightAvg est := fun _ => rfl
  have hl : ∀ i, g.stratum i ∈ g.labels := fun i => Finset.mem_image.2 ⟨i, by simp, rfl⟩
  have fin : ∀ {f f' : Fin n → K}, (∀ i, f' i = c * f i) → (.ok (avg f') : Py K) = (.ok (avg f) : Py K).map (c * ·) := fun hf => by
    rw [funext hf, avg_mul_left]
    rfl
  obtain ⟨k, lam, est⟩ := e
  cases k
  · rw [value_naiveIpw h.base, value_naiveIpw h'.base]
    exact fin fun i => by rw [hr, hw]; ring
  · rw [value_balancedIpw h, value_balancedIpw h']
    exact fin fun i => by rw [hr, hwa]; ring
  · by_cases hcon : g.Contiguous
    swap
    · rw [(C53_other_labels_index_error h.base lam est hcon).1, (C53_other_labels_index_error h'.base lam est hcon).1]
      rfl
    have ht : (fun i => (g.mscale c).reward i * lam.clip ((g.mscale c).weight est i)) =
        fun i => c * (g.reward i * lam.clip (g.weight est i)) := funext fun i => by rw [hr, hw]; ring
    have hvar : ∀ k, (g.mscale c).stratumVar (fun i => (g.mscale c).reward i * lam.clip ((g.mscale c).weight est i)) k =
        c ^ 2 * g.stratumVar (fun i => g.reward i * lam.clip (g.weight est i)) k := fun k => by
      rw [ht]
      exact stratumVar_mul g _ c k
    by_cases hz : ∃ i, g.stratumVar (fun i => g.reward i * lam.clip (g.weight est i)) (g.stratum i) = 0
    · obtain ⟨i, hz⟩ := hz
      have hz' : (g.mscale c).stratumVar ((g.mscale c).ipwTerm lam est) (g.stratum i) = 0 := (hvar _).trans (by rw [hz, mul_zero])
      simp only [MultiEstimator.estimatePolicyValue, MultiEstimator.rounds, MLog.weightedIpwPrepare_eq h.base,
        MLog.weightedIpwPrepare_eq h'.base, py_bind_ok, MLog.weightedIpwRound_nonFinite h.base est lam hcon (hl i) hz,
        MLog.weightedIpwRound_nonFinite h'.base est lam hcon (hl i) hz']
      rfl
    · have hv : ∀ i, g.stratumVar (fun i => g.reward i * lam.clip (g.weight est i)) (g.stratum i) ≠ 0 := fun i hi => hz ⟨i, hi⟩
      obtain ⟨u, hu, eu⟩ := C51_weighted_ipw h.base lam est hcon hv
      obtain ⟨u', hu', eu'⟩ := C51_weighted_ipw h'.base lam est hcon fun i => by
        rw [hvar]
        exact mul_ne_zero (pow_ne_zero 2 hc) (hv i)
      rw [ht] at hu'
      rw [eu, eu']
      refine fin fun i => ?_
      rw [hr, hw, C51_weights_unique h.base.nonempty hv hu (varianceWeights_mul (g := g) hc ⟨hu'.pos, hu'.avg_one, hu'.inverse⟩) i]
      show c * g.reward i * lam.clip (g.weight est i) * u' (g.stratum i) = _
      ring
  · rw [value_naiveDr h.base, value_naiveDr h'.base]
    exact fin fun i => by rw [hm, hs, hw]; ring
  · rw [value_balancedDr h, value_balancedDr h']
    exact fin fun i => by rw [hm, hs, hwa]; ring
  · by_cases hcon : g.Contiguous
    swap
    · rw [(C53_other_labels_index_error h.base lam est hcon).2.1, (C53_other_labels_index_error h'.base lam est hcon).2.1]
      rfl
    have ht : (fun i => (g.mscale c).modelValue i + lam.clip ((g.mscale c).weight est i) * (g.mscale c).residual i) =
        fun i => c * (g.modelValue i + lam.clip (g.weight est i) * g.residual i) := funext fun i => by rw [hm, hs, hw]; ring
    have hvar : ∀ k, (g.mscale c).stratumVar (fun i => (g.mscale c).modelValue i + lam.clip ((g.mscale c).weight est i) *
        (g.mscale c).residual i) k = c ^ 2 * g.stratumVar (fun i => g.modelValue i + lam.clip (g.weight est i) * g.residual i) k :=
      fun k => by
        rw [ht]
        exact stratumVar_mul g _ c k
    by_cases hz : ∃ i, g.stratumVar (fun i => g.modelValue i + lam.clip (g.weight est i) * g.residual i) (g.stratum i) = 0
    · obtain ⟨i, hz⟩ := hz
      have hz' : (g.mscale c).stratumVar ((g.mscale c).drTerm lam est) (g.stratum i) = 0 := (hvar _).trans (by rw [hz, mul_zero])
      simp only [MultiEstimator.estimatePolicyValue, MultiEstimator.rounds, MLog.weightedDrPrepare_eq h.base,
        MLog.weightedDrPrepare_eq h'.base, py_bind_ok, MLog.weightedDrRound_nonFinite h.base est lam hcon (hl i) hz,
        MLog.weightedDrRound_nonFinite h'.base est lam hcon (hl i) hz']
      rfl
    · have hv : ∀ i, g.stratumVar (fun i => g.modelValue i + lam.clip (g.weight est i) * g.residual i) (g.stratum i) ≠ 0 :=
        fun i hi => hz ⟨i, hi⟩
      obtain ⟨u, hu, eu⟩ := C51_weighted_dr h.base lam est hcon hv
      obtain ⟨u', hu', eu'⟩ := C51_weighted_dr h'.base lam est hcon fun i => by
        rw [hvar]
        exact mul_ne_zero (pow_ne_zero 2 hc) (hv i)
      rw [ht] at hu'
      rw [eu, eu']
      refine fin fun i => ?_
      rw [hm, hs, hw, C51_weights_unique h.base.nonempty hv hu (varianceWeights_mul (g := g) hc ⟨hu'.pos, hu'.avg_one, hu'.inverse⟩) i]
      show c * g.modelValue i + lam.clip (g.weight est i) * (c * g.residual i) * u' (g.stratum i) = _
      ring

/-- the hypotheses hold for `exStrata` -/
example : exStrata.MValid ∧ exStrata.toLog.NonnegPolicy ∧ ∀ i, exStrata.reward i ≤ ![2, 3, 4, 7] i := by
  refine ⟨⟨exStrata_valid, by decide +kernel, by decide +kernel⟩, ?_, by decide +kernel⟩
  unfold Log.NonnegPolicy
  decide +kernel

/-- two rounds of each of two loggers, all with weight 1; the rewards are 9, 11 and 0, 2 -/
def exTwoPairs : MLog ℚ 4 2 1 where
  action := ![0, 1, 0, 1]
  reward := ![9, 11, 0, 2]
  pscore := fun _ => 1 / 2
  estPscore := fun _ => 1 / 2
  position := fun _ => 0
  piE := fun _ a _ => ![1 / 2, 1 / 2] a
  q := fun _ _ _ => 0
  estIw := fun _ => 1
  stratum := ![0, 0, 1, 1]
  pscoreAvg := fun _ => 1 / 2
  estPscoreAvg := fun _ => 1 / 2

/-- **C203 (better rewards, weighted estimators).** The weights of the weighted estimators for several loggers depend on the
rewards, so that their estimates may fall: on a valid log with all importance weights 1 raising one reward from 11 to 21 lowers both estimates from
5.5 to 51/37 (less than 1.4). -/
theorem C203_weighted_falls : exTwoPairs.MValid ∧ (∀ i, exTwoPairs.weight false i = 1) ∧
    (∀ i, exTwoPairs.reward i ≤ (exTwoPairs.withRewards ![9, 21, 0, 2]).reward i) ∧
    ∀ k ∈ [MultiKind.weightedIpw, .weightedDr],
      (MultiEstimator.mk k .inf false).estimatePolicyValue exTwoPairs.margs = .ok (11 / 2) ∧
      (MultiEstimator.mk k .inf false).estimatePolicyValue (exTwoPairs.withRewards ![9, 21, 0, 2]).margs = .ok (51 / 37) := by
  refine ⟨⟨⟨by decide, by decide +kernel, by decide +kernel, by decide +kernel, by decide +kernel⟩, by decide +kernel, by decide +kernel⟩,
    by decide +kernel, by decide +kernel, ?_⟩
  decide +kernel

end Obp
