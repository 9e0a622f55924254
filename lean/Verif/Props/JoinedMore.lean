import Verif.Props.JoinedLogs
import Verif.Props.Multi
import Verif.Props.Continuous

/-!
# C199 for several loggers and for continuous actions
-/

set_option linter.unusedSectionVars false

namespace Obp
open Log
variable {K : Type} [Field K] [LinearOrder K] [IsStrictOrderedRing K] {n n' A L : ℕ}

/-! ### several loggers -/

theorem mvalid_join {g : MLog K n A L} {g' : MLog K n' A L} (h : g.MValid) (h' : g'.MValid) : (g.join g').MValid where
  base := valid_join h.base h'.base
  avg_pos := forall_join (fun i => by simpa [MLog.join] using h.avg_pos i) fun i => by simpa [MLog.join] using h'.avg_pos i
  estAvg_pos := forall_join (fun i => by simpa [MLog.join] using h.estAvg_pos i) fun i => by
    simpa [MLog.join] using h'.estAvg_pos i

theorem weightAvg_join {g : MLog K n A L} {g' : MLog K n' A L} (est : Bool) :
    (g.join g').weightAvg est = Fin.append (g.weightAvg est) (g'.weightAvg est) :=
  funext <| forall_join (fun i => by simp [MLog.join, Log.join, MLog.weightAvg]) fun i => by
    simp [MLog.join, Log.join, MLog.weightAvg]

/-- **C199 (several loggers).** The naive and the balanced IPW and DR estimates of a joined log are the averages of the estimates of
the parts, weighted by their numbers of rounds. -/
theorem C199_multi {g : MLog K n A L} {g' : MLog K n' A L} (h : g.MValid) (h' : g'.MValid) (lam : Lam K) (est : Bool)
    (kind : MultiKind) (hk : kind = .naiveIpw ∨ kind = .naiveDr ∨ kind = .balancedIpw ∨ kind = .balancedDr) {v v' : K}
    (hv : (MultiEstimator.mk kind lam est).estimatePolicyValue g.margs = .ok v)
    (hv' : (MultiEstimator.mk kind lam est).estimatePolicyValue g'.margs = .ok v') :
    (MultiEstimator.mk kind lam est).estimatePolicyValue (g.join g').margs = .ok (((n : K) * v + n' * v') / (n + n')) := by
  have hj := mvalid_join h h'
  have hw : (g.join g').weight est = Fin.append (g.weight est) (g'.weight est) := weight_join est
  have hm : (g.join g').modelValue = Fin.append g.modelValue g'.modelValue := modelValue_join
  have hs : (g.join g').residual = Fin.append g.residual g'.residual := residual_join
  have hr : (g.join g').reward = Fin.append g.reward g'.reward := rfl
  rcases hk with rfl | rfl | rfl | rfl
  · rw [value_naiveIpw h.base] at hv
    rw [value_naiveIpw h'.base] at hv'
    rw [value_naiveIpw hj.base, ← Except.ok.inj hv, ← Except.ok.inj hv', ← avg_join h.base.nonempty h'.base.nonempty, hw, hr]
    refine congrArg Except.ok (congrArg avg (funext <| forall_join (fun i => ?_) fun i => ?_)) <;>
      simp [-Fin.natAdd_eq_addNat]
  · rw [value_naiveDr h.base] at hv
    rw [value_naiveDr h'.base] at hv'
    rw [value_naiveDr hj.base, ← Except.ok.inj hv, ← Except.ok.inj hv', ← avg_join h.base.nonempty h'.base.nonempty, hw, hm, hs]
    refine congrArg Except.ok (congrArg avg (funext <| forall_join (fun i => ?_) fun i => ?_)) <;>
      simp [-Fin.natAdd_eq_addNat]
  · rw [value_balancedIpw h] at hv
    rw [value_balancedIpw h'] at hv'
    rw [value_balancedIpw hj, ← Except.ok.inj hv, ← Except.ok.inj hv', ← avg_join h.base.nonempty h'.base.nonempty,
      weightAvg_join, hr]
    refine congrArg Except.ok (congrArg avg (funext <| forall_join (fun i => ?_) fun i => ?_)) <;>
      simp [-Fin.natAdd_eq_addNat]
  · rw [value_balancedDr h] at hv
    rw [value_balancedDr h'] at hv'
    rw [value_balancedDr hj, ← Except.ok.inj hv, ← Except.ok.inj hv', ← avg_join h.base.nonempty h'.base.nonempty,
      weightAvg_join, hm, hs]
    refine congrArg Except.ok (congrArg avg (funext <| forall_join (fun i => ?_) fun i => ?_)) <;>
      simp [-Fin.natAdd_eq_addNat]

/-- one round of a pooled log, by logger `k`, and its hypotheses -/
def exJoinMulti (k : ℕ) : MLog ℚ 1 2 1 :=
  { exJoinPart with stratum := fun _ => k, pscoreAvg := fun _ => 2 / 3, estPscoreAvg := fun _ => 1 / 2 }

example (k : ℕ) : (exJoinMulti k).MValid :=
  ⟨exJoinPart_valid, fun _ => by norm_num [exJoinMulti], fun _ => by norm_num [exJoinMulti]⟩

/-! ### continuous actions -/

theorem contValid_join {g : ContLog n} {g' : ContLog n'} (h : g.Valid) (h' : g'.Valid) : (g.join g').Valid where
  nonempty := Nat.add_pos_left h.nonempty n'
  pscore_pos := forall_join (fun i => by simpa [ContLog.join] using h.pscore_pos i) fun i => by
    simpa [ContLog.join] using h'.pscore_pos i

theorem contWeight_join {g : ContLog n} {g' : ContLog n'} (k : ℝ → ℝ) (b : ℝ) :
    (g.join g').weight k b = Fin.append (g.weight k b) (g'.weight k b) :=
  funext <| forall_join (fun i => by simp [ContLog.join, ContLog.weight]) fun i => by simp [ContLog.join, ContLog.weight]

/-- **C199 (continuous actions).** Kernelized IPW and DR return for a joined log the average of the estimates of the parts weighted by
their numbers of rounds. -/
theorem C199_cont {g : ContLog n} {g' : ContLog n'} (h : g.Valid) (h' : g'.Valid) (ker : Kernel) {b : ℝ} (hb : b ≠ 0)
    (kind : ContKind) (hk : kind = .ipw ∨ kind = .dr) {v v' : ℝ}
    (hv : kind.estimatePolicyValue ker (.fin b) g.args = .ok v) (hv' : kind.estimatePolicyValue ker (.fin b) g'.args = .ok v') :
    kind.estimatePolicyValue ker (.fin b) (g.join g').args = .ok (((n : ℝ) * v + n' * v') / (n + n')) := by
  have hns : kind ≠ .snipw := by rcases hk with rfl | rfl <;> simp
  rw [contValue_eq h kind ker hb fun e => absurd e hns] at hv
  rw [contValue_eq h' kind ker hb fun e => absurd e hns] at hv'
  rw [contValue_eq (contValid_join h h') kind ker hb fun e => absurd e hns, ← Except.ok.inj hv, ← Except.ok.inj hv',
    ← avg_join h.nonempty h'.nonempty]
  refine congrArg Except.ok (congrArg avg (funext <| forall_join (fun i => ?_) fun i => ?_)) <;>
    rcases hk with rfl | rfl <;>
    simp only [ContLog.roundReward, contWeight_join, Fin.append_left, Fin.append_right] <;>
    simp [ContLog.join, -Fin.natAdd_eq_addNat]

/-- **C199 (continuous actions, self-normalised).** Kernelized SNIPW weights the parts by their total kernel weights. -/
theorem C199_cont_snipw {g : ContLog n} {g' : ContLog n'} (h : g.Valid) (h' : g'.Valid) (ker : Kernel) {b : ℝ} (hb : b ≠ 0)
    (hp : ∃ i, 0 < ker.fn ((g.evalAction i - g.action i) / b)) (hp' : ∃ i, 0 < ker.fn ((g'.evalAction i - g'.action i) / b)) {v v' : ℝ}
    (hv : ContKind.snipw.estimatePolicyValue ker (.fin b) g.args = .ok v)
    (hv' : ContKind.snipw.estimatePolicyValue ker (.fin b) g'.args = .ok v') :
    ContKind.snipw.estimatePolicyValue ker (.fin b) (g.join g').args =
      .ok (((∑ i, g.weight ker.fn b i) * v + (∑ i, g'.weight ker.fn b i) * v') /
        (∑ i, g.weight ker.fn b i + ∑ i, g'.weight ker.fn b i)) := by
  have pos : ∀ {n : ℕ} {g : ContLog n} (_ : g.Valid), (∃ i, 0 < ker.fn ((g.evalAction i - g.action i) / b)) →
      0 < ∑ i, g.weight ker.fn b i := fun h hp =>
    lt_of_le_of_ne (Finset.sum_nonneg fun i _ => contWeight_nonneg h ker b i) fun h0 =>
      contAvg_ne h ker b hp ((avg_eq_zero_iff h.nonempty _).2 h0.symm)
  obtain ⟨hne, hr⟩ := avg_ratio_join h.nonempty h'.nonempty (x := fun i => g.reward i * g.weight ker.fn b i)
    (x' := fun i => g'.reward i * g'.weight ker.fn b i) (pos h hp) (pos h' hp')
  rw [contValue_eq h _ ker hb fun _ => contAvg_ne h ker b hp] at hv
  rw [contValue_eq h' _ ker hb fun _ => contAvg_ne h' ker b hp'] at hv'
  have hv : (avg fun i => g.reward i * g.weight ker.fn b i / avg (g.weight ker.fn b)) = v := Except.ok.inj hv
  have hv' : (avg fun i => g'.reward i * g'.weight ker.fn b i / avg (g'.weight ker.fn b)) = v' := Except.ok.inj hv'
  rw [contValue_eq (contValid_join h h') _ ker hb fun _ => by rwa [contWeight_join], ← hv, ← hv', ← hr]
  refine congrArg Except.ok (congrArg avg (funext <| forall_join (fun i => ?_) fun i => ?_)) <;>
    simp only [ContLog.roundReward, contWeight_join, Fin.append_left, Fin.append_right] <;>
    simp [ContLog.join, -Fin.natAdd_eq_addNat]

example (ker : Kernel) : exCont.Valid ∧ (1 : ℝ) ≠ 0 ∧ ∃ i, 0 < ker.fn ((exCont.evalAction i - exCont.action i) / 1) :=
  ⟨exCont_valid, one_ne_zero, exCont_pos ker⟩

end Obp
