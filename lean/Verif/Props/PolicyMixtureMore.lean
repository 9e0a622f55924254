import Verif.Props.PolicyMixture
import Verif.Props.Multi
import Verif.Props.Slate
import Verif.Props.Embed

/-!
# C198 for slates, several loggers and action embeddings

The same question as in `Props/PolicyMixture.lean`: how is the estimate of a policy that picks one of several candidates at random
related to the estimates of the candidates on the same log?
-/

set_option linter.unusedSectionVars false

namespace Obp
open Log
variable {K : Type} [Field K] [LinearOrder K] [IsStrictOrderedRing K] {n A L m : ℕ}
variable {c : Fin m → K} {pi : Fin m → Fin n → Fin A → Fin L → K}

/-! ### several loggers -/

theorem mvalid_withPolicy {g : MLog K n A L} (h : g.MValid) {p : Fin n → Fin A → Fin L → K} (hp : IsPolicyArray p) :
    ({ g with piE := p } : MLog K n A L).MValid :=
  ⟨valid_withPolicy h.base hp, h.avg_pos, h.estAvg_pos⟩

/-- **C198 (several loggers).** Without clipping the naive and the balanced IPW and DR estimates of a mixture are the mixture of the
estimates. -/
theorem C198_multi {g : MLog K n A L} (h : g.MValid) (hc : IsDist c) (hpi : ∀ k, IsPolicyArray (pi k)) (est : Bool)
    (kind : MultiKind) (hk : kind = .naiveIpw ∨ kind = .naiveDr ∨ kind = .balancedIpw ∨ kind = .balancedDr) :
    ∃ v : Fin m → K,
      (∀ k, (MultiEstimator.mk kind .inf est).estimatePolicyValue ({ g with piE := pi k } : MLog K n A L).margs = .ok (v k)) ∧
      (MultiEstimator.mk kind .inf est).estimatePolicyValue ({ g with piE := mixPolicy c pi } : MLog K n A L).margs
        = .ok (∑ k, c k * v k) := by
  have hmix := isPolicyArray_mix hc hpi
  have hb : ∀ i, ({ g with piE := mixPolicy c pi } : MLog K n A L).weightAvg est i
      = ∑ k, c k * ({ g with piE := pi k } : MLog K n A L).weightAvg est i := fun i => by
    simp only [MLog.weightAvg, mixPolicy, Finset.sum_div, mul_div_assoc]
  rcases hk with rfl | rfl | rfl | rfl
  · refine ⟨_, fun k => value_naiveIpw (mvalid_withPolicy h (hpi k)).base .inf est, ?_⟩
    rw [value_naiveIpw (mvalid_withPolicy h hmix).base, ← avg_mix]
    refine congrArg Except.ok (avg_congr fun i => ?_)
    change g.reward i * (g.toLog.withPolicy (mixPolicy c pi)).weight est i
      = ∑ k, c k * (g.reward i * (g.toLog.withPolicy (pi k)).weight est i)
    rw [weight_mix, Finset.mul_sum]
    exact Finset.sum_congr rfl fun k _ => by ring
  · refine ⟨_, fun k => value_naiveDr (mvalid_withPolicy h (hpi k)).base .inf est, ?_⟩
    rw [value_naiveDr (mvalid_withPolicy h hmix).base, ← avg_mix]
    refine congrArg Except.ok (avg_congr fun i => ?_)
    change (g.toLog.withPolicy (mixPolicy c pi)).modelValue i + (g.toLog.withPolicy (mixPolicy c pi)).weight est i * g.residual i
      = ∑ k, c k * ((g.toLog.withPolicy (pi k)).modelValue i + (g.toLog.withPolicy (pi k)).weight est i * g.residual i)
    rw [weight_mix, modelValue_mix hc hpi, Finset.sum_mul, ← Finset.sum_add_distrib]
    exact Finset.sum_congr rfl fun k _ => by ring
  · refine ⟨_, fun k => value_balancedIpw (mvalid_withPolicy h (hpi k)) .inf est, ?_⟩
    rw [value_balancedIpw (mvalid_withPolicy h hmix), ← avg_mix]
    refine congrArg Except.ok (avg_congr fun i => ?_)
    change g.reward i * ({ g with piE := mixPolicy c pi } : MLog K n A L).weightAvg est i
      = ∑ k, c k * (g.reward i * ({ g with piE := pi k } : MLog K n A L).weightAvg est i)
    rw [hb, Finset.mul_sum]
    exact Finset.sum_congr rfl fun k _ => by ring
  · refine ⟨_, fun k => value_balancedDr (mvalid_withPolicy h (hpi k)) .inf est, ?_⟩
    rw [value_balancedDr (mvalid_withPolicy h hmix), ← avg_mix]
    refine congrArg Except.ok (avg_congr fun i => ?_)
    change (g.toLog.withPolicy (mixPolicy c pi)).modelValue i
        + ({ g with piE := mixPolicy c pi } : MLog K n A L).weightAvg est i * g.residual i
      = ∑ k, c k * ((g.toLog.withPolicy (pi k)).modelValue i
        + ({ g with piE := pi k } : MLog K n A L).weightAvg est i * g.residual i)
    rw [hb, modelValue_mix hc hpi, Finset.sum_mul, ← Finset.sum_add_distrib]
    exact Finset.sum_congr rfl fun k _ => by ring

/-- a pooled log of two loggers -/
def exMixMulti : MLog ℚ 2 2 1 :=
  { exMix with stratum := ![0, 1], pscoreAvg := ![2 / 3, 1 / 3], estPscoreAvg := ![1 / 2, 1 / 2] }

example : exMixMulti.MValid :=
  ⟨⟨by decide, by decide +kernel, by decide +kernel, by decide +kernel, by decide +kernel⟩, by decide +kernel, by decide +kernel⟩

/-! ### slates -/

/-- The log under the policy that picks candidate `k` for the whole slate with probability `c k`: every propensity of the evaluation
policy — of a slate, of an item at its position, or of the items up to a position — is the mixture of the candidates'. -/
def SlateLog.mixEval {N : ℕ} (g : SlateLog K N) (c : Fin m → K) (e : Fin m → Fin N → K) : SlateLog K N :=
  { g with eps := fun i => ∑ k, c k * e k i }

/-- **C198 (slates).** SIPS, IIPS and RIPS accept the mixture whenever they accept every candidate, and their estimate of it is the
mixture of the estimates. -/
theorem C198_slate {N : ℕ} {g : SlateLog K N} (hc : IsDist c) {e : Fin m → Fin N → K} (kind : SlateKind)
    (hk : kind = .sips ∨ kind = .iips ∨ kind = .rips) (lenList : ℕ)
    (h : ∀ k, kind.Accepts { g with eps := e k }) :
    ∃ v : Fin m → K,
      (∀ k, kind.estimatePolicyValue lenList ({ g with eps := e k } : SlateLog K N).args = .ok (v k)) ∧
      kind.estimatePolicyValue lenList (g.mixEval c e).args = .ok (∑ k, c k * v k) := by
  obtain ⟨k0⟩ : Nonempty (Fin m) := by
    by_contra h0
    have h1 := hc.2
    rw [not_nonempty_iff] at h0
    simp at h1
  have heps : ∀ i, (g.mixEval c e).eps i = ∑ k, c k * e k i := fun i => rfl
  have hin : (g.mixEval c e).InRange := fun i => by
    obtain ⟨h1, h2, -, -⟩ := (h k0).2.1 i
    refine ⟨h1, h2, ?_, ?_⟩ <;> rw [heps]
    · exact Finset.sum_nonneg fun k _ => mul_nonneg (hc.1 k) ((h k).2.1 i).2.2.1
    calc ∑ k, c k * e k i ≤ ∑ k, c k * 1 :=
          Finset.sum_le_sum fun k _ => mul_le_mul_of_nonneg_left ((h k).2.1 i).2.2.2 (hc.1 k)
      _ = 1 := by rw [← Finset.sum_mul, hc.2, one_mul]
  have hacc : kind.Accepts (g.mixEval c e) := by
    refine ⟨(h k0).1, hin, (h k0).2.2.1, ?_⟩
    rcases hk with rfl | rfl | rfl
    · exact ⟨(h k0).2.2.2.1, fun i j hij => by
        rw [heps, heps]
        exact Finset.sum_congr rfl fun k _ => congrArg (c k * ·) ((h k).2.2.2.2 i j hij)⟩
    · trivial
    · exact ⟨(h k0).2.2.2.1, fun i j hij hp => by
        rw [heps, heps]
        exact Finset.sum_le_sum fun k _ => mul_le_mul_of_nonneg_left ((h k).2.2.2.2 i j hij hp) (hc.1 k)⟩
  have hr : ∀ g' : SlateLog K N, kind.rowVals lenList g' = some fun i => g'.reward i * g'.weight i := by
    intro g'
    rcases hk with rfl | rfl | rfl <;> rfl
  refine ⟨fun k => (∑ i, g.reward i * (e k i / g.ps i)) / (g.numSlates : K), fun k => ?_, ?_⟩
  · rw [slateValue_eq kind lenList (h k), hr]; rfl
  · rw [slateValue_eq kind lenList hacc, hr]
    refine congrArg Except.ok ?_
    change (∑ i, g.reward i * ((∑ k, c k * e k i) / g.ps i)) / (g.numSlates : K) = _
    simp only [← mul_div_assoc, ← Finset.sum_div, Finset.mul_sum]
    congr 1
    rw [Finset.sum_comm]
    refine (Finset.sum_congr rfl fun i _ => ?_)
    rw [Finset.sum_div]
    exact Finset.sum_congr rfl fun k _ => by ring

/-- one slate of two items, with cascade propensities under two candidates -/
def exMixSlate : SlateLog ℚ 2 where
  slate := fun _ => 0
  pos := ![0, 1]
  reward := ![1, 2]
  ps := ![1 / 2, 1 / 4]
  eps := fun _ => 0

example : (∀ k, SlateKind.rips.Accepts { exMixSlate with eps := (![![1, 1 / 3], ![1 / 5, 0]] : Fin 2 → Fin 2 → ℚ) k }) ∧
    (∀ k, SlateKind.iips.Accepts { exMixSlate with eps := (![![1, 1 / 3], ![1 / 5, 0]] : Fin 2 → Fin 2 → ℚ) k }) := by
  constructor <;> intro k <;> fin_cases k <;>
    refine ⟨by decide, by unfold SlateLog.InRange; decide +kernel, by unfold SlateLog.UniquePositions; decide +kernel, ?_⟩
  · exact ⟨by unfold SlateLog.NonincreasingPerSlate; decide +kernel, by unfold SlateLog.NonincreasingPerSlate; decide +kernel⟩
  · exact ⟨by unfold SlateLog.NonincreasingPerSlate; decide +kernel, by unfold SlateLog.NonincreasingPerSlate; decide +kernel⟩
  · trivial
  · trivial

/-! ### action embeddings -/

theorem embValid_withPolicy {C D : ℕ} {g : EmbLog K n A L C D} (h : g.Valid) {p : Fin n → Fin A → Fin L → K}
    (hp : IsPolicyArray p) : ({ g with piE := p } : EmbLog K n A L C D).Valid :=
  ⟨h.1, h.2, fun i l => by
    have : ∑ a, p i a l = 1 := (hp i l).2
    change closeToOne (∑ a, p i a l) = true
    rw [this]; exact closeToOne_one⟩

/-- **C198 (MIPS).** With one embedding dimension the MIPS estimate of a mixture is the mixture of the estimates. -/
theorem C198_mips_one_dim {C : ℕ} {g : EmbLog K n A L C 1} (h : g.Valid) (hb : ∀ i d, g.marginal g.piB i d ≠ 0)
    (hc : IsDist c) (hpi : ∀ k, IsPolicyArray (pi k)) (nActions : ℕ) (learner) :
    ∃ v : Fin m → K,
      (∀ k, EmbKind.mipw.plainValue nActions learner ({ g with piE := pi k } : EmbLog K n A L C 1).args = .ok (v k)) ∧
      EmbKind.mipw.plainValue nActions learner ({ g with piE := mixPolicy c pi } : EmbLog K n A L C 1).args
        = .ok (∑ k, c k * v k) := by
  refine ⟨_, fun k => EmbLog.value_mipw (embValid_withPolicy h (hpi k)) hb nActions learner, ?_⟩
  rw [EmbLog.value_mipw (embValid_withPolicy h (isPolicyArray_mix hc hpi)) hb, ← avg_mix]
  refine congrArg Except.ok (avg_congr fun i => ?_)
  simp only [EmbLog.weight, EmbLog.marginal, Fin.prod_univ_one, mixPolicy, Finset.sum_mul]
  rw [Finset.sum_comm, Finset.sum_div, Finset.mul_sum]
  refine Finset.sum_congr rfl fun k _ => ?_
  simp only [mul_assoc, ← Finset.mul_sum]
  ring

/-- **C198 (MIPS).** With two embedding dimensions it is not: on this log both candidates "always action 0" and "always action 1"
are estimated at 4 and their even mixture at 2, less than both, because the code multiplies the marginal probabilities of the dimensions. -/
theorem C198_mips_two_dims (nActions : ℕ) (learner) :
    let g : EmbLog ℚ 2 2 1 2 2 :=
      { action := ![0, 1], reward := ![2, 2], embed := fun i _ => i, piB := fun _ _ _ => 1 / 2, piE := fun _ _ _ => 0,
        position := fun _ => 0, pEA := fun a e _ => if a = e then 1 else 0 }
    EmbKind.mipw.plainValue nActions learner ({ g with piE := exMixPi 0 } : EmbLog ℚ 2 2 1 2 2).args = .ok 4 ∧
      EmbKind.mipw.plainValue nActions learner ({ g with piE := exMixPi 1 } : EmbLog ℚ 2 2 1 2 2).args = .ok 4 ∧
      EmbKind.mipw.plainValue nActions learner
        ({ g with piE := mixPolicy (fun _ => 1 / 2) exMixPi } : EmbLog ℚ 2 2 1 2 2).args = .ok 2 := by
  intro g
  refine ⟨?_, ?_, ?_⟩ <;>
    rw [EmbLog.value_mipw ⟨by decide, by decide +kernel, by decide +kernel⟩ (by decide +kernel)] <;> decide +kernel

end Obp
