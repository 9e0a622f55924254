import Verif.Props.Influence
import Verif.Props.JoinedMore
import Verif.Props.JoinedSlates

/-!
# C200 for slates, several loggers and continuous actions
-/

set_option linter.unusedSectionVars false

namespace Obp
open Log
variable {K : Type} [Field K] [LinearOrder K] [IsStrictOrderedRing K] {n N : ℕ}

/-! ### slates -/

/-- What SIPS, IIPS and RIPS return, times the number of slates. -/
theorem slates_times_value {kind : SlateKind} (hk : kind = .sips ∨ kind = .iips ∨ kind = .rips) {lenList : ℕ} {g : SlateLog K N}
    {v : K} (hv : kind.estimatePolicyValue lenList g.args = .ok v) :
    kind.Accepts g ∧ v = (∑ i, g.reward i * g.weight i) / g.numSlates := by
  have hacc : kind.Accepts g := by
    by_contra hn
    unfold SlateKind.estimatePolicyValue at hv
    rw [slateError kind hn] at hv
    cases hv
  refine ⟨hacc, ?_⟩
  have hr : kind.rowVals lenList g = some fun i => g.reward i * g.weight i := by rcases hk with rfl | rfl | rfl <;> rfl
  rw [slateValue_eq kind lenList hacc, hr] at hv
  exact (Except.ok.inj hv).symm

/-- **C200 (slates).** If two logs differ only in the rows of slate `s`, their SIPS, IIPS and RIPS estimates differ by the change of the
total weighted reward of that slate, divided by the number of slates. -/
theorem C200_slate_exchange {g g' : SlateLog K N} {s : ℕ} (hs : g.SameExcept g' s) {kind : SlateKind}
    (hk : kind = .sips ∨ kind = .iips ∨ kind = .rips) {lenList : ℕ} {v v' : K}
    (hv : kind.estimatePolicyValue lenList g.args = .ok v) (hv' : kind.estimatePolicyValue lenList g'.args = .ok v') :
    v' - v = (g'.slateTotal (fun i => g'.reward i * (g'.eps i / g'.ps i)) s -
      g.slateTotal (fun i => g.reward i * (g.eps i / g.ps i)) s) / g.numSlates := by
  have hn : g'.numSlates = g.numSlates := by simp only [SlateLog.numSlates, hs.1]
  rw [(slates_times_value hk hv).2, (slates_times_value hk hv').2, hn, ← sub_div, ← Finset.sum_sub_distrib, SlateLog.slateTotal,
    SlateLog.slateTotal, ← Finset.sum_sub_distrib]
  congr 1
  refine Finset.sum_congr rfl fun i _ => ?_
  simp only [← hs.1, SlateLog.weight]
  split_ifs with h
  · rfl
  · obtain ⟨-, h1, h2, h3⟩ := hs.2 i h
    rw [h1, h2, h3, sub_self, sub_zero]

/-- **C200 (slates, bound).** If the rewards of slate `s` are non-negative with total at most `R` in both logs and its importance weights
are at most `W`, exchanging the contents of the slate moves SIPS, IIPS and RIPS by at most `W * R` over the number of slates. -/
theorem C200_slate_bound {g g' : SlateLog K N} {s : ℕ} (hs : g.SameExcept g' s) {kind : SlateKind}
    (hk : kind = .sips ∨ kind = .iips ∨ kind = .rips) {lenList : ℕ} {v v' R W : K}
    (hv : kind.estimatePolicyValue lenList g.args = .ok v) (hv' : kind.estimatePolicyValue lenList g'.args = .ok v')
    (hr : ∀ i, g.slate i = s → 0 ≤ g.reward i ∧ 0 ≤ g'.reward i)
    (hw : ∀ i, g.slate i = s → g.eps i / g.ps i ≤ W ∧ g'.eps i / g'.ps i ≤ W)
    (hR : g.slateTotal g.reward s ≤ R ∧ g'.slateTotal g'.reward s ≤ R) (hW : 0 ≤ W) :
    |v' - v| ≤ W * R / g.numSlates := by
  have tot : ∀ {g : SlateLog K N} (_ : g.InRange), (∀ i, g.slate i = s → 0 ≤ g.reward i) → (∀ i, g.slate i = s → g.eps i / g.ps i ≤ W) →
      g.slateTotal g.reward s ≤ R → 0 ≤ g.slateTotal (fun i => g.reward i * (g.eps i / g.ps i)) s ∧
      g.slateTotal (fun i => g.reward i * (g.eps i / g.ps i)) s ≤ W * R := by
    intro g hg h1 h2 h3
    constructor
    · refine Finset.sum_nonneg fun i _ => ?_
      split_ifs with h
      · exact mul_nonneg (h1 i h) (div_nonneg (hg i).2.2.1 (hg i).1.le)
      · exact le_rfl
    · refine le_trans ?_ (mul_le_mul_of_nonneg_left h3 hW)
      rw [SlateLog.slateTotal, SlateLog.slateTotal, Finset.mul_sum]
      refine Finset.sum_le_sum fun i _ => ?_
      split_ifs with h
      · rw [mul_comm]
        exact mul_le_mul_of_nonneg_right (h2 i h) (h1 i h)
      · rw [mul_zero]
  have a := tot (slates_times_value hk hv).1.2.1 (fun i h => (hr i h).1) (fun i h => (hw i h).1) hR.1
  have b := tot (slates_times_value hk hv').1.2.1 (fun i h => (hr i (by rw [hs.1]; exact h)).2)
    (fun i h => (hw i (by rw [hs.1]; exact h)).2) hR.2
  rw [C200_slate_exchange hs hk hv hv', abs_div, Nat.abs_cast]
  refine div_le_div_of_nonneg_right ?_ (Nat.cast_nonneg _)
  rw [abs_le]
  constructor <;> linarith [a.1, a.2, b.1, b.2]

/-- `exSlate` with other rewards in slate 3, whose total falls from 6 to 2: two slates, weight 2/3, so the estimate falls by 4/3 -/
def exSlateOther : SlateLog ℚ 4 := { exSlate with reward := ![1, -2, 3, 1] }

example : exSlate.SameExcept exSlateOther 3 ∧
    (∀ kind ∈ [SlateKind.sips, .iips, .rips], kind.estimatePolicyValue 2 exSlate.args = .ok 2 ∧
      kind.estimatePolicyValue 2 exSlateOther.args = .ok (2 / 3)) ∧
    exSlate.slateTotal exSlate.reward 3 = 6 ∧ exSlateOther.slateTotal exSlateOther.reward 3 = 2 := by
  refine ⟨⟨rfl, ?_⟩, ?_⟩ <;> decide +kernel

/-! ### several loggers -/

/-- **C200 (several loggers).** Exchanging one of the `n` rounds of the pooled log for another, of the same or another logger, moves the
naive and the balanced IPW and DR estimates by the difference of the two rounds' own estimates, divided by `n`. -/
theorem C200_multi_exchange {A L : ℕ} {g g' : MLog K n A L} (h : g.MValid) (h' : g'.MValid) {j : Fin n} (hs : g.SameExcept g' j)
    {e : MultiEstimator K} (hk : e.kind ∈ [MultiKind.naiveIpw, .naiveDr, .balancedIpw, .balancedDr]) {v v' : K}
    (hv : e.estimatePolicyValue g.margs = .ok v) (hv' : e.estimatePolicyValue g'.margs = .ok v') :
    ∃ x x', e.estimatePolicyValue (g.only j).margs = .ok x ∧ e.estimatePolicyValue (g'.only j).margs = .ok x' ∧
      v' - v = (x' - x) / n := by
  have rounds : ∀ {g : MLog K n A L} (_ : g.MValid), ∃ f : Fin n → K, e.estimatePolicyValue g.margs = .ok (avg f) ∧
      ∀ i, e.estimatePolicyValue (g.only i).margs = .ok (f i) := by
    intro g h
    have ho : ∀ i, (g.only i).MValid := fun i => ⟨valid_only h.base i, fun _ => h.avg_pos i, fun _ => h.estAvg_pos i⟩
    obtain ⟨k, lam, est⟩ := e
    simp only [List.mem_cons, List.not_mem_nil, or_false] at hk
    rcases hk with rfl | rfl | rfl | rfl
    · exact ⟨_, value_naiveIpw h.base lam est, fun i => (value_naiveIpw (ho i).base lam est).trans
        (congrArg Except.ok (avg_const Nat.one_pos _))⟩
    · exact ⟨_, value_naiveDr h.base lam est, fun i => (value_naiveDr (ho i).base lam est).trans
        (congrArg Except.ok (avg_const Nat.one_pos _))⟩
    · exact ⟨_, value_balancedIpw h lam est, fun i => (value_balancedIpw (ho i) lam est).trans
        (congrArg Except.ok (avg_const Nat.one_pos _))⟩
    · exact ⟨_, value_balancedDr h lam est, fun i => (value_balancedDr (ho i) lam est).trans
        (congrArg Except.ok (avg_const Nat.one_pos _))⟩
  obtain ⟨f, hf, ho⟩ := rounds h
  obtain ⟨f', hf', ho'⟩ := rounds h'
  rw [hf] at hv
  rw [hf'] at hv'
  refine ⟨_, _, ho j, ho' j, ?_⟩
  rw [← Except.ok.inj hv, ← Except.ok.inj hv', avg, avg, ← sub_div, ← Finset.sum_sub_distrib, Finset.sum_eq_single j]
  · intro i _ hij
    have e1 := ho i
    rw [hs i hij, ho' i] at e1
    rw [Except.ok.inj e1, sub_self]
  · exact fun hj => absurd (Finset.mem_univ j) hj

/-- **C200 (several loggers, bound).** Balanced IPW with weights cut off at `B` and rewards in `[0, R]` moves by at most `B * R / n`. -/
theorem C200_balanced_bound {A L : ℕ} {g g' : MLog K n A L} (h : g.MValid) (h' : g'.MValid) {j : Fin n} (hs : g.SameExcept g' j)
    (est : Bool) {B R : K} (hB : 0 ≤ B) (hpi : 0 ≤ g.piE j (g.action j) (g.position j) ∧ 0 ≤ g'.piE j (g'.action j) (g'.position j))
    (hr : 0 ≤ g.reward j ∧ g.reward j ≤ R) (hr' : 0 ≤ g'.reward j ∧ g'.reward j ≤ R) {v v' : K}
    (hv : (MultiEstimator.mk .balancedIpw (.fin B) est).estimatePolicyValue g.margs = .ok v)
    (hv' : (MultiEstimator.mk .balancedIpw (.fin B) est).estimatePolicyValue g'.margs = .ok v') : |v' - v| ≤ B * R / n := by
  obtain ⟨x, x', hx, hx', e⟩ := C200_multi_exchange h h' hs (by simp) hv hv'
  have bound : ∀ {g : MLog K n A L} {x : K} (_ : g.MValid),
      (MultiEstimator.mk .balancedIpw (.fin B) est).estimatePolicyValue (g.only j).margs = .ok x →
      0 ≤ g.piE j (g.action j) (g.position j) → 0 ≤ g.reward j → g.reward j ≤ R → 0 ≤ x ∧ x ≤ B * R := by
    intro g x h hx hp h0 h1
    rw [value_balancedIpw (g := g.only j) ⟨valid_only h.base j, fun _ => h.avg_pos j, fun _ => h.estAvg_pos j⟩] at hx
    have hx : x = g.reward j * min (g.weightAvg est j) B := by
      rw [← Except.ok.inj hx]
      exact avg_const Nat.one_pos _
    have hw : 0 ≤ g.weightAvg est j := by
      refine div_nonneg hp ?_
      cases est
      · exact (h.avg_pos j).le
      · exact (h.estAvg_pos j).le
    rw [hx, mul_comm B]
    exact ⟨mul_nonneg h0 (le_min hw hB), mul_le_mul h1 (min_le_right _ _) (le_min hw hB) (h0.trans h1)⟩
  have a := bound h hx hpi.1 hr.1 hr.2
  have c := bound h' hx' hpi.2 hr'.1 hr'.2
  rw [e, abs_div, Nat.abs_cast]
  refine div_le_div_of_nonneg_right ?_ (Nat.cast_nonneg _)
  rw [abs_le]
  constructor <;> linarith [a.1, a.2, c.1, c.2]

/-- the second of two pooled rounds comes from logger 2 instead of logger 1 -/
example : ((exJoinMulti 0).join (exJoinMulti 1)).MValid ∧
    ((exJoinMulti 0).join (exJoinMulti 1)).SameExcept ((exJoinMulti 0).join (exJoinMulti 2)) (Fin.natAdd 1 0) := by
  have hv : ∀ k, (exJoinMulti k).MValid := fun k =>
    ⟨exJoinPart_valid, fun _ => by norm_num [exJoinMulti], fun _ => by norm_num [exJoinMulti]⟩
  refine ⟨mvalid_join (hv 0) (hv 1), forall_join (fun i _ => ?_) fun i hi => absurd (congrArg _ (Subsingleton.elim i 0)) hi⟩
  simp [MLog.only, Log.only, MLog.join, Log.join]

/-! ### continuous actions -/

/-- **C200 (continuous actions).** Exchanging one of the `n` rounds for another moves the kernelized IPW and DR estimates by the
difference of the two rounds' own estimates, divided by `n`. -/
theorem C200_cont_exchange {g g' : ContLog n} (h : g.Valid) (h' : g'.Valid) {j : Fin n} (hs : g.SameExcept g' j) (ker : Kernel) {b : ℝ}
    (hb : b ≠ 0) {kind : ContKind} (hk : kind = .ipw ∨ kind = .dr) {v v' : ℝ}
    (hv : kind.estimatePolicyValue ker (.fin b) g.args = .ok v) (hv' : kind.estimatePolicyValue ker (.fin b) g'.args = .ok v') :
    ∃ x x', kind.estimatePolicyValue ker (.fin b) (g.only j).args = .ok x ∧
      kind.estimatePolicyValue ker (.fin b) (g'.only j).args = .ok x' ∧ v' - v = (x' - x) / n := by
  have hns : kind ≠ .snipw := by rcases hk with rfl | rfl <;> simp
  have one : ∀ {g : ContLog n} (_ : g.Valid) (i : Fin n),
      kind.estimatePolicyValue ker (.fin b) (g.only i).args = .ok (g.roundReward kind ker b i) := by
    intro g h i
    rw [contValue_eq (g := g.only i) ⟨Nat.one_pos, fun _ => h.pscore_pos i⟩ kind ker hb fun e => absurd e hns]
    refine congrArg Except.ok (Eq.trans (congrArg avg (funext fun _ => ?_)) (avg_const Nat.one_pos _))
    rcases hk with rfl | rfl <;> rfl
  rw [contValue_eq h kind ker hb fun e => absurd e hns] at hv
  rw [contValue_eq h' kind ker hb fun e => absurd e hns] at hv'
  refine ⟨_, _, one h j, one h' j, ?_⟩
  rw [← Except.ok.inj hv, ← Except.ok.inj hv', avg, avg, ← sub_div, ← Finset.sum_sub_distrib, Finset.sum_eq_single j]
  · intro i _ hij
    have e1 := one h i
    have e2 := one h' i
    rw [hs i hij, e2] at e1
    rw [Except.ok.inj e1, sub_self]
  · exact fun hj => absurd (Finset.mem_univ j) hj

/-- **C200 (kernels).** Every kernel is largest at zero, where it is at most 1. -/
theorem C200_kernel_peak (ker : Kernel) (u : ℝ) : ker.fn u ≤ ker.fn 0 ∧ ker.fn 0 ≤ 1 := by
  have hc : clip1 0 = 0 := by simp [clip1]
  cases ker
  · have hs : (1 : ℝ) ≤ Real.sqrt (2 * Real.pi) := by
      rw [← Real.sqrt_one]
      exact Real.sqrt_le_sqrt (by linarith [Real.two_le_pi])
    simp only [Kernel.fn, gaussianKernel]
    have h0 : Real.exp (-(0 : ℝ) ^ 2 / 2) = 1 := by norm_num
    rw [h0]
    exact ⟨div_le_div_of_nonneg_right (Real.exp_le_one_iff.2 (by nlinarith [sq_nonneg u])) (by linarith),
      (div_le_one (by linarith)).2 hs⟩
  · simp only [Kernel.fn, epanechnikovKernel, hc]
    constructor
    · nlinarith [sq_nonneg (clip1 u)]
    · norm_num
  · simp only [Kernel.fn, triangularKernel, hc]
    constructor
    · simp
    · simp
  · simp only [Kernel.fn, cosineKernel, hc]
    have := Real.pi_pos
    constructor
    · refine mul_le_mul_of_nonneg_left ?_ (by linarith)
      simpa using Real.cos_le_one _
    · have := Real.pi_le_four
      simp only [zero_mul, zero_div, Real.cos_zero]
      linarith

/-- **C200 (continuous actions, bound).** If the propensity densities of the exchanged rounds are at least `p` and their rewards lie in
`[0, R]`, one round moves kernelized IPW with bandwidth `b` by at most `k(0) * R / (p * b)` over the number of rounds. -/
theorem C200_cont_bound {g g' : ContLog n} (h : g.Valid) (h' : g'.Valid) {j : Fin n} (hs : g.SameExcept g' j) (ker : Kernel) {b p R : ℝ}
    (hb : 0 < b) (hp : 0 < p) (hg : p ≤ g.pscore j ∧ p ≤ g'.pscore j)
    (hr : 0 ≤ g.reward j ∧ g.reward j ≤ R) (hr' : 0 ≤ g'.reward j ∧ g'.reward j ≤ R) {v v' : ℝ}
    (hv : ContKind.ipw.estimatePolicyValue ker (.fin b) g.args = .ok v)
    (hv' : ContKind.ipw.estimatePolicyValue ker (.fin b) g'.args = .ok v') : |v' - v| ≤ ker.fn 0 * R / (p * b) / n := by
  obtain ⟨M, hMe⟩ : ∃ M, M = ker.fn 0 := ⟨_, rfl⟩
  have hM : ∀ u, ker.fn u ≤ M := fun u => hMe ▸ (C200_kernel_peak ker u).1
  rw [← hMe]
  obtain ⟨x, x', hx, hx', e⟩ := C200_cont_exchange h h' hs ker hb.ne' (Or.inl rfl) hv hv'
  have bound : ∀ {g : ContLog n} {x : ℝ} (_ : g.Valid), ContKind.ipw.estimatePolicyValue ker (.fin b) (g.only j).args = .ok x →
      p ≤ g.pscore j → 0 ≤ g.reward j → g.reward j ≤ R → 0 ≤ x ∧ x ≤ M * R / (p * b) := by
    intro g x h hx hg h0 h1
    have hw0 := contWeight_nonneg h ker b j
    rw [contValue_eq (g := g.only j) ⟨Nat.one_pos, fun _ => h.pscore_pos j⟩ _ ker hb.ne' fun e => by cases e] at hx
    have hx : x = g.reward j * g.weight ker.fn b j / b := by
      rw [← Except.ok.inj hx]
      exact avg_const Nat.one_pos _
    have hk0 : 0 ≤ ker.fn ((g.evalAction j - g.action j) / b) := by
      have := mul_nonneg hw0 (h.pscore_pos j).le
      rwa [ContLog.weight, div_mul_cancel₀ _ (h.pscore_pos j).ne'] at this
    have hM0 : 0 ≤ M := hk0.trans (hM _)
    have hw : g.weight ker.fn b j ≤ M / p := div_le_div₀ hM0 (hM _) hp hg
    rw [hx]
    refine ⟨div_nonneg (mul_nonneg h0 hw0) hb.le, ?_⟩
    calc g.reward j * g.weight ker.fn b j / b ≤ R * (M / p) / b :=
          div_le_div_of_nonneg_right (mul_le_mul h1 hw hw0 (h0.trans h1)) hb.le
      _ = M * R / (p * b) := by field_simp
  have a := bound h hx hg.1 hr.1 hr.2
  have c := bound h' hx' hg.2 hr'.1 hr'.2
  rw [e, abs_div, Nat.abs_cast]
  refine div_le_div_of_nonneg_right ?_ (Nat.cast_nonneg _)
  rw [abs_le]
  constructor <;> linarith [a.1, a.2, c.1, c.2]

/-- another reward in one round of `exCont` -/
example : exCont.Valid ∧ exCont.SameExcept { exCont with reward := fun i => if i = 0 then 5 else exCont.reward i } 0 :=
  ⟨exCont_valid, fun i hi => by simp [ContLog.only, hi]⟩

end Obp
