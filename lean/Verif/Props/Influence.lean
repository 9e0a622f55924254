import Verif.Props.EstimatorLaws
import Verif.Lemmas.Meta
import Verif.Spec.Influence
import Verif.Spec.Bias

/-!
# C200: the influence of one logged round

How far can one logged round (a corrupt record, an outlier, a tiny propensity) move the estimate?
-/

set_option linter.unusedSectionVars false

namespace Obp
open Log
variable {K : Type} [Field K] [LinearOrder K] [IsStrictOrderedRing K] {n A L : ℕ}
variable {g g' : Log K n A L} {j : Fin n}

theorem valid_only (h : g.Valid) (j : Fin n) : (g.only j).Valid :=
  ⟨Nat.one_pos, fun _ => h.pscore_pos j, fun _ => h.estPscore_pos j, fun _ => h.estIw_nonneg j, fun _ => h.sum_one j⟩

/-- The estimators that treat every round on its own. -/
theorem roundReward_only {e : Estimator K} (hk : e.kind.HasBias) {f : Fin n → K} (hf : roundReward e g = some f) (j : Fin n) :
    roundReward e (g.only j) = some fun _ => f j := by
  obtain ⟨k, lam, est⟩ := e
  have hw : (g.only j).weight est = fun _ => g.weight est j := rfl
  have hm : (g.only j).modelValue = fun _ => g.modelValue j := rfl
  have hs : (g.only j).residual = fun _ => g.residual j := rfl
  have hr : (g.only j).reward = fun _ => g.reward j := rfl
  simp only [Kind.HasBias, List.mem_cons, List.not_mem_nil, or_false] at hk
  rcases hk with rfl | rfl | rfl | rfl | rfl | rfl | rfl <;>
    simp only [roundReward, hw, hm, hs, hr] at hf ⊢
  · cases hf; rfl
  · cases hf; rfl
  · cases hf; rfl
  · cases lam with
    | inf => cases hf; rfl
    | fin l =>
      simp only [Option.ite_none_left_eq_some, not_exists] at hf ⊢
      exact ⟨fun _ => hf.1 j, by rw [← Option.some.inj hf.2]⟩
  · cases lam with
    | inf => cases hf
    | fin l =>
      simp only [Option.ite_none_left_eq_some, not_exists] at hf ⊢
      exact ⟨fun _ => hf.1 j, by rw [← Option.some.inj hf.2]⟩
  · cases lam with
    | inf => cases hf
    | fin l =>
      simp only [Option.ite_none_left_eq_some, not_exists] at hf ⊢
      exact ⟨fun _ => hf.1 j, by rw [← Option.some.inj hf.2]⟩
  · cases hf; rfl

/-- Estimates come from per-round values, which are the estimates of the rounds on their own. -/
theorem values_of_rounds (h : g.Valid) {e : Estimator K} (hk : e.kind.HasBias) {v : K} (hv : e.estimatePolicyValue g.args = .ok v) :
    ∃ f : Fin n → K, roundReward e g = some f ∧ v = avg f ∧ ∀ i, e.estimatePolicyValue (g.only i).args = .ok (f i) := by
  rw [value_roundReward h] at hv
  cases hf : roundReward e g with
  | none => rw [hf] at hv; cases hv
  | some f =>
    rw [hf] at hv
    refine ⟨f, rfl, (Except.ok.inj hv).symm, fun i => ?_⟩
    rw [value_roundReward (valid_only h i), roundReward_only hk hf i]
    exact congrArg Except.ok (avg_const Nat.one_pos _)

/-- **C200 (IPW, DM, DR, Switch-DR, DRos, SGIPW, SGDR).** Every round has an estimate of its own, and exchanging one of the `n` rounds
for another moves the estimate by the difference of the two rounds' own estimates, divided by `n`. -/
theorem C200_exchange (h : g.Valid) (h' : g'.Valid) (hs : g.SameExcept g' j) {e : Estimator K}
    (hk : e.kind ∈ [Kind.ipw, .dm, .dr, .switchDr, .drOs, .sgIpw, .sgDr]) {v v' : K}
    (hv : e.estimatePolicyValue g.args = .ok v) (hv' : e.estimatePolicyValue g'.args = .ok v') :
    ∃ x x', e.estimatePolicyValue (g.only j).args = .ok x ∧ e.estimatePolicyValue (g'.only j).args = .ok x' ∧
      v' - v = (x' - x) / n := by
  have hk' : e.kind.HasBias := by
    simp only [Kind.HasBias, List.mem_cons, List.not_mem_nil, or_false] at hk ⊢
    tauto
  obtain ⟨f, -, rfl, hx⟩ := values_of_rounds h hk' hv
  obtain ⟨f', -, rfl, hx'⟩ := values_of_rounds h' hk' hv'
  refine ⟨f j, f' j, hx j, hx' j, ?_⟩
  have heq : ∀ i ≠ j, f i = f' i := fun i hi => by
    have h1 := hx i
    rw [hs i hi, hx' i] at h1
    exact (Except.ok.inj h1).symm
  rw [avg, avg, ← sub_div, ← Finset.sum_sub_distrib, Finset.sum_eq_single j (fun i _ hi => by rw [heq i hi, sub_self])
    fun hj => absurd (Finset.mem_univ j) hj]

/-- The weight applied to a round when weights are cut off. -/
theorem cut_weight (h : g.Valid) (hE : g.NonnegPolicy) {e : Estimator K} {B : K} (hc : e.CutAt B) {f : Fin n → K}
    (hf : roundReward e g = some f) (i : Fin n) :
    ∃ s, 0 ≤ s ∧ s ≤ B ∧ (e.kind ∈ [Kind.ipw, .sgIpw] → f i = s * g.reward i) ∧
      (e.kind ∈ [Kind.dr, .switchDr, .drOs, .sgDr] → f i = g.modelValue i + s * g.residual i) := by
  obtain ⟨k, lam, est⟩ := e
  have hw := weight_nonneg h hE est i
  cases lam with
  | inf => exact hc.elim
  | fin l =>
    obtain ⟨hB, ⟨hk, rfl⟩ | ⟨hk, hl, hlB⟩ | ⟨hk, hl, hl1, hlB⟩⟩ := hc
    · simp only [List.mem_cons, List.not_mem_nil, or_false] at hk
      rcases hk with rfl | rfl | rfl <;> simp only [roundReward] at hf <;> cases hf
      · exact ⟨min (g.weight est i) l, le_min hw hB, min_le_right _ _, fun _ => mul_comm _ _, by simp⟩
      · exact ⟨min (g.weight est i) l, le_min hw hB, min_le_right _ _, by simp, fun _ => rfl⟩
      · by_cases hle : g.weight est i ≤ l
        · exact ⟨g.weight est i, hw, hle, by simp, fun _ => by simp [Lam.geB, hle]⟩
        · exact ⟨0, le_rfl, hB, by simp, fun _ => by simp [Lam.geB, hle]⟩
    · obtain rfl : k = .drOs := hk
      simp only [roundReward, Option.ite_none_left_eq_some, not_exists] at hf
      have hd : 0 < g.weight est i ^ 2 + l := by positivity
      refine ⟨l * g.weight est i / (g.weight est i ^ 2 + l), by positivity, ?_, by simp, fun _ => ?_⟩
      · rw [div_le_iff₀ hd]
        have hw2 : 0 ≤ B * (g.weight est i * g.weight est i) := by positivity
        by_cases hwB : g.weight est i ≤ B
        · nlinarith
        · nlinarith [mul_nonneg hB (sq_nonneg (g.weight est i - 2 * B)), mul_nonneg (sub_nonneg.2 hlB) (sub_nonneg.2 (le_of_not_ge hwB))]
      · rw [← Option.some.inj hf.2]
    · simp only [List.mem_cons, List.not_mem_nil, or_false] at hk
      have hd : ∀ (_ : 1 - l + l * g.weight est i ≠ 0), 0 < 1 - l + l * g.weight est i := fun h0 =>
        lt_of_le_of_ne (add_nonneg (sub_nonneg.2 hl1) (mul_nonneg hl.le hw)) (Ne.symm h0)
      have hle : ∀ (_ : 1 - l + l * g.weight est i ≠ 0), g.weight est i / (1 - l + l * g.weight est i) ≤ B := fun h0 => by
        rw [hlB, div_le_div_iff₀ (hd h0) hl]
        linarith
      rcases hk with rfl | rfl <;> simp only [roundReward, Option.ite_none_left_eq_some, not_exists] at hf
      · exact ⟨_, div_nonneg hw (hd (hf.1 i)).le, hle (hf.1 i), fun _ => by rw [← Option.some.inj hf.2], by simp⟩
      · exact ⟨_, div_nonneg hw (hd (hf.1 i)).le, hle (hf.1 i), by simp, fun _ => by rw [← Option.some.inj hf.2]⟩

theorem modelValue_mem (h : g.Valid) (hE : g.NonnegPolicy) {lo hi : K} {i : Fin n}
    (hq : ∀ a, lo ≤ g.q i a (g.position i) ∧ g.q i a (g.position i) ≤ hi) : lo ≤ g.modelValue i ∧ g.modelValue i ≤ hi :=
  weightedAvg_bounds _ _ (fun a => hE i a _) (sum_piE_ne h i _) fun a _ => hq a

/-- **C200 (IPW and SGIPW, cut off).** If the weights are kept below `B` and rewards are between 0 and `R`, no exchange of one round —
whatever its propensity and action distribution — moves the estimate by more than `B R / n`. -/
theorem C200_ipw_cut (h : g.Valid) (h' : g'.Valid) (hE : g.NonnegPolicy) (hE' : g'.NonnegPolicy) (hs : g.SameExcept g' j)
    {e : Estimator K} {B R : K} (hc : e.CutAt B) (hk : e.kind ∈ [Kind.ipw, .sgIpw])
    (hr : 0 ≤ g.reward j ∧ g.reward j ≤ R) (hr' : 0 ≤ g'.reward j ∧ g'.reward j ≤ R) {v v' : K}
    (hv : e.estimatePolicyValue g.args = .ok v) (hv' : e.estimatePolicyValue g'.args = .ok v') : |v' - v| ≤ B * R / n := by
  have hk' : e.kind.HasBias := by
    simp only [Kind.HasBias, List.mem_cons, List.not_mem_nil, or_false] at hk ⊢
    tauto
  have hk7 : e.kind ∈ [Kind.ipw, .dm, .dr, .switchDr, .drOs, .sgIpw, .sgDr] := by
    simp only [List.mem_cons, List.not_mem_nil, or_false] at hk ⊢
    tauto
  have one : ∀ {g : Log K n A L} (_ : g.Valid) (_ : g.NonnegPolicy) (_ : 0 ≤ g.reward j ∧ g.reward j ≤ R) {v x : K},
      e.estimatePolicyValue g.args = .ok v → e.estimatePolicyValue (g.only j).args = .ok x → 0 ≤ x ∧ x ≤ B * R := by
    intro g h hE hr v x hv hx
    obtain ⟨f, hf, -, hxf⟩ := values_of_rounds h hk' hv
    obtain ⟨s, h0, hB, he, -⟩ := cut_weight h hE hc hf j
    rw [hxf j] at hx
    rw [← Except.ok.inj hx, he hk]
    exact ⟨mul_nonneg h0 hr.1, mul_le_mul hB hr.2 hr.1 (h0.trans hB)⟩
  obtain ⟨x, x', hx, hx', he⟩ := C200_exchange h h' hs hk7 hv hv'
  have h1 := one h hE hr hv hx
  have h2 := one h' hE' hr' hv' hx'
  have hn : (0 : K) < n := by exact_mod_cast h.nonempty
  rw [he, abs_div, abs_of_pos hn]
  exact div_le_div_of_nonneg_right (abs_le.2 ⟨by linarith [h1.2, h2.1], by linarith [h1.1, h2.2]⟩) hn.le

/-- **C200 (DR, Switch-DR, DRos and SGDR, cut off).** If the weights are kept below `B` and rewards and predictions lie in `[lo, hi]`,
no exchange of one round moves the estimate by more than `(1 + 2 B) (hi - lo) / n`. -/
theorem C200_dr_cut (h : g.Valid) (h' : g'.Valid) (hE : g.NonnegPolicy) (hE' : g'.NonnegPolicy) (hs : g.SameExcept g' j)
    {e : Estimator K} {B lo hi : K} (hc : e.CutAt B) (hk : e.kind ∈ [Kind.dr, .switchDr, .drOs, .sgDr])
    (hr : lo ≤ g.reward j ∧ g.reward j ≤ hi) (hr' : lo ≤ g'.reward j ∧ g'.reward j ≤ hi)
    (hq : ∀ a l, lo ≤ g.q j a l ∧ g.q j a l ≤ hi) (hq' : ∀ a l, lo ≤ g'.q j a l ∧ g'.q j a l ≤ hi) {v v' : K}
    (hv : e.estimatePolicyValue g.args = .ok v) (hv' : e.estimatePolicyValue g'.args = .ok v') :
    |v' - v| ≤ (1 + 2 * B) * (hi - lo) / n := by
  have hk' : e.kind.HasBias := by
    simp only [Kind.HasBias, List.mem_cons, List.not_mem_nil, or_false] at hk ⊢
    tauto
  have hk7 : e.kind ∈ [Kind.ipw, .dm, .dr, .switchDr, .drOs, .sgIpw, .sgDr] := by
    simp only [List.mem_cons, List.not_mem_nil, or_false] at hk ⊢
    tauto
  have one : ∀ {g : Log K n A L} (_ : g.Valid) (_ : g.NonnegPolicy) (_ : lo ≤ g.reward j ∧ g.reward j ≤ hi)
      (_ : ∀ a l, lo ≤ g.q j a l ∧ g.q j a l ≤ hi) {v x : K},
      e.estimatePolicyValue g.args = .ok v → e.estimatePolicyValue (g.only j).args = .ok x →
      lo - B * (hi - lo) ≤ x ∧ x ≤ hi + B * (hi - lo) := by
    intro g h hE hr hq v x hv hx
    obtain ⟨f, hf, -, hxf⟩ := values_of_rounds h hk' hv
    obtain ⟨s, h0, hB, -, he⟩ := cut_weight h hE hc hf j
    rw [hxf j] at hx
    rw [← Except.ok.inj hx, he hk]
    have hm := modelValue_mem h hE fun a => hq a (g.position j)
    have hqj := hq (g.action j) (g.position j)
    have hlh : 0 ≤ hi - lo := by linarith [hr.1, hr.2]
    have h1 : s * g.residual j ≤ s * (hi - lo) := mul_le_mul_of_nonneg_left (by unfold Log.residual; linarith [hr.2, hqj.1]) h0
    have h2 : s * -(hi - lo) ≤ s * g.residual j := mul_le_mul_of_nonneg_left (by unfold Log.residual; linarith [hr.1, hqj.2]) h0
    have h3 : s * (hi - lo) ≤ B * (hi - lo) := mul_le_mul_of_nonneg_right hB hlh
    constructor <;> linarith [hm.1, hm.2]
  obtain ⟨x, x', hx, hx', he⟩ := C200_exchange h h' hs hk7 hv hv'
  have h1 := one h hE hr hq hv hx
  have h2 := one h' hE' hr' hq' hv' hx'
  have hn : (0 : K) < n := by exact_mod_cast h.nonempty
  rw [he, abs_div, abs_of_pos hn]
  exact div_le_div_of_nonneg_right (abs_le.2 ⟨by linarith [h1.2, h2.1], by linarith [h1.1, h2.2]⟩) hn.le

/-- **C200 (DM).** With predictions in `[lo, hi]` the estimate moves by at most `(hi - lo) / n`, whatever happens to the logged
actions, rewards and propensities. -/
theorem C200_dm (h : g.Valid) (h' : g'.Valid) (hE : g.NonnegPolicy) (hE' : g'.NonnegPolicy) (hs : g.SameExcept g' j)
    (lam : Lam K) (est : Bool) {lo hi : K} (hq : ∀ a l, lo ≤ g.q j a l ∧ g.q j a l ≤ hi)
    (hq' : ∀ a l, lo ≤ g'.q j a l ∧ g'.q j a l ≤ hi) {v v' : K}
    (hv : (Estimator.mk .dm lam est).estimatePolicyValue g.args = .ok v)
    (hv' : (Estimator.mk .dm lam est).estimatePolicyValue g'.args = .ok v') : |v' - v| ≤ (hi - lo) / n := by
  obtain ⟨x, x', hx, hx', he⟩ := C200_exchange h h' hs (by simp) hv hv'
  have one : ∀ {g : Log K n A L} (_ : g.Valid) (_ : g.NonnegPolicy) (_ : ∀ a l, lo ≤ g.q j a l ∧ g.q j a l ≤ hi) {x : K},
      (Estimator.mk .dm lam est).estimatePolicyValue (g.only j).args = .ok x → lo ≤ x ∧ x ≤ hi := by
    intro g h hE hq x hx
    rw [value_dm (valid_only h j)] at hx
    rw [← Except.ok.inj hx, show (g.only j).modelValue = fun _ => g.modelValue j from rfl, avg_const Nat.one_pos]
    exact modelValue_mem h hE fun a => hq a _
  have h1 := one h hE hq hx
  have h2 := one h' hE' hq' hx'
  have hn : (0 : K) < n := by exact_mod_cast h.nonempty
  rw [he, abs_div, abs_of_pos hn]
  exact div_le_div_of_nonneg_right (abs_le.2 ⟨by linarith [h1.2, h2.1], by linarith [h1.1, h2.2]⟩) hn.le

theorem shift_bound {s s' u r r' lo hi : K} (h0 : 0 ≤ s) (hss : s ≤ s') (hu : lo ≤ u ∧ u ≤ hi) (hr : lo ≤ r ∧ r ≤ hi)
    (hr' : lo ≤ r' ∧ r' ≤ hi) : |s' * (r' - u) - s * (r - u)| ≤ s' * (hi - lo) := by
  have h1 : 0 ≤ s' := h0.trans hss
  have a1 : s' * r' ≤ s' * hi := mul_le_mul_of_nonneg_left hr'.2 h1
  have a2 : s' * lo ≤ s' * r' := mul_le_mul_of_nonneg_left hr'.1 h1
  have b1 : s * r ≤ s * hi := mul_le_mul_of_nonneg_left hr.2 h0
  have b2 : s * lo ≤ s * r := mul_le_mul_of_nonneg_left hr.1 h0
  have c1 : (s' - s) * u ≤ (s' - s) * hi := mul_le_mul_of_nonneg_left hu.2 (sub_nonneg.2 hss)
  have c2 : (s' - s) * lo ≤ (s' - s) * u := mul_le_mul_of_nonneg_left hu.1 (sub_nonneg.2 hss)
  rw [abs_le]
  constructor <;> linarith

/-- Exchanging one term of a weighted average moves it by at most the range of the values times the larger of the two shares. -/
theorem ratio_exchange {w w' r r' : Fin n → K} {lo hi : K} (hw : ∀ i, 0 ≤ w i) (hw' : ∀ i, 0 ≤ w' i) (hp : 0 < ∑ i, w i)
    (hp' : 0 < ∑ i, w' i) (hsw : ∀ i ≠ j, w i = w' i) (hsr : ∀ i ≠ j, r i = r' i) (hr : ∀ i, lo ≤ r i ∧ r i ≤ hi)
    (hr' : lo ≤ r' j ∧ r' j ≤ hi) :
    |(∑ i, r' i * w' i) / ∑ i, w' i - (∑ i, r i * w i) / ∑ i, w i| ≤ max (w j / ∑ i, w i) (w' j / ∑ i, w' i) * (hi - lo) := by
  set T := ∑ i ∈ Finset.univ.erase j, w i with hT
  set S := ∑ i ∈ Finset.univ.erase j, r i * w i with hS
  have hT' : T = ∑ i ∈ Finset.univ.erase j, w' i := Finset.sum_congr rfl fun i hi => hsw i (Finset.ne_of_mem_erase hi)
  have hS' : S = ∑ i ∈ Finset.univ.erase j, r' i * w' i := Finset.sum_congr rfl fun i hi => by
    rw [hsw i (Finset.ne_of_mem_erase hi), hsr i (Finset.ne_of_mem_erase hi)]
  have e1 : ∑ i, w i = T + w j := (Finset.sum_erase_add _ _ (Finset.mem_univ j)).symm
  have e2 : ∑ i, w' i = T + w' j := by rw [hT']; exact (Finset.sum_erase_add _ _ (Finset.mem_univ j)).symm
  have e3 : ∑ i, r i * w i = S + r j * w j := (Finset.sum_erase_add _ _ (Finset.mem_univ j)).symm
  have e4 : ∑ i, r' i * w' i = S + r' j * w' j := by rw [hS']; exact (Finset.sum_erase_add _ _ (Finset.mem_univ j)).symm
  have hT0 : 0 ≤ T := Finset.sum_nonneg fun i _ => hw i
  have hlo : lo * T ≤ S := by
    rw [hT, Finset.mul_sum]
    exact Finset.sum_le_sum fun i _ => mul_le_mul_of_nonneg_right (hr i).1 (hw i)
  have hhi : S ≤ hi * T := by
    rw [hT, Finset.mul_sum]
    exact Finset.sum_le_sum fun i _ => mul_le_mul_of_nonneg_right (hr i).2 (hw i)
  obtain ⟨u, hu, hSu⟩ : ∃ u, (lo ≤ u ∧ u ≤ hi) ∧ S = u * T := by
    rcases hT0.eq_or_lt with h0 | h0
    · refine ⟨lo, ⟨le_rfl, (hr j).1.trans (hr j).2⟩, ?_⟩
      rw [← h0, mul_zero] at hlo hhi ⊢
      exact le_antisymm hhi hlo
    · exact ⟨S / T, ⟨(le_div_iff₀ h0).2 hlo, (div_le_iff₀ h0).2 hhi⟩, (div_mul_cancel₀ _ h0.ne').symm⟩
  have v1 : (∑ i, r i * w i) / ∑ i, w i = u + w j / (∑ i, w i) * (r j - u) := by
    rw [e3, hSu, eq_comm, ← sub_eq_zero]
    have : T = ∑ i, w i - w j := by rw [e1]; ring
    rw [this]
    field_simp
    ring
  have v2 : (∑ i, r' i * w' i) / ∑ i, w' i = u + w' j / (∑ i, w' i) * (r' j - u) := by
    rw [e4, hSu, eq_comm, ← sub_eq_zero]
    have : T = ∑ i, w' i - w' j := by rw [e2]; ring
    rw [this]
    field_simp
    ring
  have s1 : 0 ≤ w j / ∑ i, w i := div_nonneg (hw j) hp.le
  have s2 : 0 ≤ w' j / ∑ i, w' i := div_nonneg (hw' j) hp'.le
  rw [v1, v2, add_sub_add_left_eq_sub]
  rcases le_total (w j / ∑ i, w i) (w' j / ∑ i, w' i) with hle | hle
  · rw [max_eq_right hle]
    exact shift_bound s1 hle hu (hr j) hr'
  · rw [max_eq_left hle, abs_sub_comm]
    exact shift_bound s2 hle hu hr' (hr j)

theorem weight_same (hs : g.SameExcept g' j) (est : Bool) : ∀ i ≠ j, g.weight est i = g'.weight est i := fun i hi =>
  congrArg (fun o : Log K 1 A L => o.weight est 0) (hs i hi)

theorem reward_same (hs : g.SameExcept g' j) : ∀ i ≠ j, g.reward i = g'.reward i := fun i hi =>
  congrArg (fun o : Log K 1 A L => o.reward 0) (hs i hi)

/-- **C200 (SNIPW).** With rewards in `[lo, hi]` the estimate moves by at most `hi - lo` times the share of the exchanged round in the
total importance weight, before or after the exchange — so by at most `hi - lo`, and by that much if one weight outweighs the rest. -/
theorem C200_snipw (h : g.Valid) (h' : g'.Valid) (hE : g.NonnegPolicy) (hE' : g'.NonnegPolicy) (hs : g.SameExcept g' j)
    (lam : Lam K) (est : Bool) {lo hi : K} (hr : ∀ i, lo ≤ g.reward i ∧ g.reward i ≤ hi) (hr' : lo ≤ g'.reward j ∧ g'.reward j ≤ hi)
    {v v' : K} (hv : (Estimator.mk .snipw lam est).estimatePolicyValue g.args = .ok v)
    (hv' : (Estimator.mk .snipw lam est).estimatePolicyValue g'.args = .ok v') :
    |v' - v| ≤ max (g.weight est j / ∑ i, g.weight est i) (g'.weight est j / ∑ i, g'.weight est i) * (hi - lo) := by
  have key : ∀ {g : Log K n A L} (_ : g.Valid) (_ : g.NonnegPolicy) {v : K},
      (Estimator.mk .snipw lam est).estimatePolicyValue g.args = .ok v →
      0 < ∑ i, g.weight est i ∧ v = (∑ i, g.reward i * g.weight est i) / ∑ i, g.weight est i := by
    intro g h hE v hv
    by_cases hw : avg (g.weight est) = 0
    · rw [value_snipw_nonFinite h lam est hw] at hv; cases hv
    · rw [value_snipw h lam est hw] at hv
      refine ⟨lt_of_le_of_ne (Finset.sum_nonneg fun i _ => weight_nonneg h hE est i) fun h0 =>
        hw ((avg_eq_zero_iff h.nonempty _).2 h0.symm), ?_⟩
      rw [← avg_ratio h.nonempty _ _ hw]
      exact (Except.ok.inj hv).symm
  obtain ⟨hp, rfl⟩ := key h hE hv
  obtain ⟨hp', rfl⟩ := key h' hE' hv'
  exact ratio_exchange (weight_nonneg h hE est) (weight_nonneg h' hE' est) hp hp' (weight_same hs est) (reward_same hs) hr hr'

/-- **C200 (SNDR).** With rewards and predictions in `[lo, hi]` the estimate moves by at most `hi - lo` times `1 / n` plus twice the
larger share of the exchanged round in the total importance weight. -/
theorem C200_sndr (h : g.Valid) (h' : g'.Valid) (hE : g.NonnegPolicy) (hE' : g'.NonnegPolicy) (hs : g.SameExcept g' j)
    (lam : Lam K) (est : Bool) {lo hi : K} (hr : ∀ i, lo ≤ g.reward i ∧ g.reward i ≤ hi) (hr' : lo ≤ g'.reward j ∧ g'.reward j ≤ hi)
    (hq : ∀ i a l, lo ≤ g.q i a l ∧ g.q i a l ≤ hi) (hq' : ∀ a l, lo ≤ g'.q j a l ∧ g'.q j a l ≤ hi)
    {v v' : K} (hv : (Estimator.mk .sndr lam est).estimatePolicyValue g.args = .ok v)
    (hv' : (Estimator.mk .sndr lam est).estimatePolicyValue g'.args = .ok v') :
    |v' - v| ≤ (1 / n + 2 * max (g.weight est j / ∑ i, g.weight est i) (g'.weight est j / ∑ i, g'.weight est i)) * (hi - lo) := by
  have key : ∀ {g : Log K n A L} (_ : g.Valid) (_ : g.NonnegPolicy) {v : K},
      (Estimator.mk .sndr lam est).estimatePolicyValue g.args = .ok v →
      0 < ∑ i, g.weight est i ∧ v = avg g.modelValue + (∑ i, g.residual i * g.weight est i) / ∑ i, g.weight est i := by
    intro g h hE v hv
    by_cases hw : avg (g.weight est) = 0
    · rw [value_sndr_nonFinite h lam est hw] at hv; cases hv
    · rw [value_sndr h lam est hw] at hv
      refine ⟨lt_of_le_of_ne (Finset.sum_nonneg fun i _ => weight_nonneg h hE est i) fun h0 =>
        hw ((avg_eq_zero_iff h.nonempty _).2 h0.symm), ?_⟩
      rw [← avg_ratio h.nonempty _ _ hw, ← Except.ok.inj hv]
      simp only [avg, Finset.sum_add_distrib, add_div, mul_comm]
  have hd := C200_dm h h' hE hE' hs lam est (hq j) hq' (value_dm h lam est) (value_dm h' lam est)
  obtain ⟨hp, rfl⟩ := key h hE hv
  obtain ⟨hp', rfl⟩ := key h' hE' hv'
  have hres : ∀ i, -(hi - lo) ≤ g.residual i ∧ g.residual i ≤ hi - lo := fun i => by
    have h1 := hr i
    have h2 := hq i (g.action i) (g.position i)
    unfold Log.residual
    constructor <;> linarith [h1.1, h1.2, h2.1, h2.2]
  have hres' : -(hi - lo) ≤ g'.residual j ∧ g'.residual j ≤ hi - lo := by
    have h2 := hq' (g'.action j) (g'.position j)
    unfold Log.residual
    constructor <;> linarith [hr'.1, hr'.2, h2.1, h2.2]
  have hb := ratio_exchange (weight_nonneg h hE est) (weight_nonneg h' hE' est) hp hp' (weight_same hs est)
    (fun i hi => congrArg (fun o : Log K 1 A L => o.residual 0) (hs i hi)) hres hres'
  rw [add_sub_add_comm]
  refine (abs_add_le _ _).trans ((add_le_add hd hb).trans (le_of_eq ?_))
  ring

/-- **C200 (balanced OPE).** As for SNIPW, with the estimated importance weights, clipped at a non-negative threshold. -/
theorem C200_bIpw (h : g.Valid) (h' : g'.Valid) (hs : g.SameExcept g' j)
    (lam : Lam K) (hl : ∀ l, lam = .fin l → 0 ≤ l) (est : Bool) {lo hi : K} (hr : ∀ i, lo ≤ g.reward i ∧ g.reward i ≤ hi)
    (hr' : lo ≤ g'.reward j ∧ g'.reward j ≤ hi)
    {v v' : K} (hv : (Estimator.mk .bIpw lam est).estimatePolicyValue g.args = .ok v)
    (hv' : (Estimator.mk .bIpw lam est).estimatePolicyValue g'.args = .ok v') :
    |v' - v| ≤ max (lam.clip (g.estIw j) / ∑ i, lam.clip (g.estIw i)) (lam.clip (g'.estIw j) / ∑ i, lam.clip (g'.estIw i)) *
      (hi - lo) := by
  have hc : ∀ {g : Log K n A L} (_ : g.Valid) i, 0 ≤ lam.clip (g.estIw i) := fun h i => by
    cases lam with
    | inf => exact h.estIw_nonneg i
    | fin l => exact le_min (h.estIw_nonneg i) (hl l rfl)
  have key : ∀ {g : Log K n A L} (_ : g.Valid) {v : K},
      (Estimator.mk .bIpw lam est).estimatePolicyValue g.args = .ok v →
      0 < ∑ i, lam.clip (g.estIw i) ∧ v = (∑ i, g.reward i * lam.clip (g.estIw i)) / ∑ i, lam.clip (g.estIw i) := by
    intro g h v hv
    by_cases hw : avg (fun i => lam.clip (g.estIw i)) = 0
    · rw [value_bIpw_nonFinite h lam est hw] at hv; cases hv
    · rw [value_bIpw h lam est hw] at hv
      refine ⟨lt_of_le_of_ne (Finset.sum_nonneg fun i _ => hc h i) fun h0 => hw ((avg_eq_zero_iff h.nonempty _).2 h0.symm), ?_⟩
      rw [← avg_ratio h.nonempty _ _ hw]
      exact (Except.ok.inj hv).symm
  obtain ⟨hp, rfl⟩ := key h hv
  obtain ⟨hp', rfl⟩ := key h' hv'
  exact ratio_exchange (hc h) (hc h') hp hp'
    (fun i hi => congrArg (fun o : Log K 1 A L => lam.clip (o.estIw 0)) (hs i hi)) (reward_same hs) hr hr'

/-- **C200 (RM).** With rewards in `[lo, hi]` and matched rounds before and after the exchange, the replay estimate moves by at most
`hi - lo` divided by the smaller number of matched rounds. -/
theorem C200_rm (h : g.Valid) (h' : g'.Valid) (hs : g.SameExcept g' j) (lam : Lam K) (est : Bool) {lo hi : K}
    (hr : ∀ i, lo ≤ g.reward i ∧ g.reward i ≤ hi) (hr' : lo ≤ g'.reward j ∧ g'.reward j ≤ hi)
    (hm : ∃ i, g.matched i) (hm' : ∃ i, g'.matched i) {v v' : K}
    (hv : (Estimator.mk .rm lam est).estimatePolicyValue g.args = .ok v)
    (hv' : (Estimator.mk .rm lam est).estimatePolicyValue g'.args = .ok v') :
    |v' - v| ≤ (hi - lo) / min ((Finset.univ.filter g.matched).card : K) (Finset.univ.filter g'.matched).card := by
  have key : ∀ {g : Log K n A L} (_ : g.Valid) (_ : ∃ i, g.matched i) {v : K},
      (Estimator.mk .rm lam est).estimatePolicyValue g.args = .ok v →
      0 < ((Finset.univ.filter g.matched).card : K) ∧
      (∑ i, (if g.matched i then (1 : K) else 0)) = (Finset.univ.filter g.matched).card ∧
      v = (∑ i, g.reward i * if g.matched i then 1 else 0) / ∑ i, if g.matched i then 1 else 0 := by
    intro g h hm v hv
    rw [C19_rm_matched_mean h lam est hm] at hv
    obtain ⟨i, hi⟩ := hm
    refine ⟨by exact_mod_cast Finset.card_pos.2 ⟨i, by simp [hi]⟩, by simp, ?_⟩
    rw [← Except.ok.inj hv, Finset.sum_filter]
    simp
  obtain ⟨hc, e1, e2⟩ := key h hm hv
  obtain ⟨hc', e1', e2'⟩ := key h' hm' hv'
  have hmat : ∀ i ≠ j, (if g.matched i then (1 : K) else 0) = if g'.matched i then 1 else 0 := fun i hi =>
    congrArg (fun o : Log K 1 A L => if o.matched 0 then (1 : K) else 0) (hs i hi)
  have hi01 : ∀ (g : Log K n A L) i, 0 ≤ (if g.matched i then (1 : K) else 0) := fun g i => by split <;> simp
  have hb := ratio_exchange (hi01 g) (hi01 g') (by rwa [e1]) (by rwa [e1']) hmat (reward_same hs) hr hr'
  rw [← e2, ← e2', e1, e1'] at hb
  refine hb.trans ?_
  have hlh : 0 ≤ hi - lo := by linarith [(hr j).1, (hr j).2]
  rw [div_eq_inv_mul (hi - lo)]
  refine mul_le_mul_of_nonneg_right (max_le ?_ ?_) hlh
  · rw [div_eq_mul_inv]
    refine (mul_le_of_le_one_left (inv_nonneg.2 hc.le) (by split <;> simp)).trans ?_
    exact inv_anti₀ (lt_min hc hc') (min_le_left _ _)
  · rw [div_eq_mul_inv]
    refine (mul_le_of_le_one_left (inv_nonneg.2 hc'.le) (by split <;> simp)).trans ?_
    exact inv_anti₀ (lt_min hc hc') (min_le_right _ _)

/-- A log of `n` rounds with one action, reward 1 throughout, and propensity `p` in round 0. -/
def onesLog (n : ℕ) (p : K) : Log K n 1 1 where
  action := fun _ => 0
  reward := fun _ => 1
  pscore := fun i => if (i : ℕ) = 0 then p else 1
  estPscore := fun i => if (i : ℕ) = 0 then p else 1
  position := fun _ => 0
  piE := fun _ _ _ => 1
  q := fun _ _ _ => 0
  estIw := fun _ => 1

theorem onesLog_valid (hn : 0 < n) {p : K} (hp : 0 < p) : (onesLog n p).Valid :=
  ⟨hn, fun i => by simp only [onesLog]; split <;> simp [hp], fun i => by simp only [onesLog]; split <;> simp [hp],
    fun _ => by simp [onesLog], fun _ _ => by simp [onesLog, closeToOne_one]⟩

/-- **C200 (no cut-off).** Without a cut-off there is no bound: for every number of rounds and every `M` there are logs with rewards in
`[0, 1]` and predictions 0 that differ in the propensity of one round only, where the IPW and DR estimates differ by more than `M`. -/
theorem C200_unbounded (hn : 0 < n) (M : K) (est : Bool) :
    ∃ (g g' : Log K n 1 1) (j : Fin n), g.Valid ∧ g'.Valid ∧ g.NonnegPolicy ∧ g'.NonnegPolicy ∧ g.SameExcept g' j ∧
      (∀ i, g.reward i = 1 ∧ g'.reward i = 1) ∧ (∀ i, g'.pscore i ≤ 1 ∧ g.pscore i ≤ 1) ∧
      ∀ k ∈ [Kind.ipw, .dr], ∃ v v', (Estimator.mk k .inf est).estimatePolicyValue g.args = .ok v ∧
        (Estimator.mk k .inf est).estimatePolicyValue g'.args = .ok v' ∧ M < v' - v := by
  have hn' : (0 : K) < n := by exact_mod_cast hn
  set c : K := (n : K) * |M| + n + 1 with hc
  have hc1 : 1 ≤ c := by
    have : 0 ≤ (n : K) * |M| := by positivity
    linarith
  have hc0 : 0 < c := lt_of_lt_of_le one_pos hc1
  have h1 : (onesLog n (1 : K)).Valid := onesLog_valid hn one_pos
  have h2 : (onesLog n c⁻¹).Valid := onesLog_valid hn (inv_pos.2 hc0)
  have hw1 : ∀ i, (onesLog n (1 : K)).weight est i = 1 := fun i => by cases est <;> simp [onesLog, weight]
  have hw2 : ∀ i : Fin n, (onesLog n c⁻¹).weight est i = if i = ⟨0, hn⟩ then c else 1 := fun i => by
    by_cases hi : (i : ℕ) = 0 <;> cases est <;> simp [onesLog, weight, Fin.ext_iff, hi]
  have hm1 : ∀ i (p : K), (onesLog n p).modelValue i = 0 := fun i p => by simp [onesLog, modelValue]
  have hs1 : ∀ i (p : K), (onesLog n p).residual i = 1 := fun i p => by simp [onesLog, Log.residual]
  have hv1 : (avg fun _ : Fin n => (1 : K)) = 1 := avg_const hn 1
  have hv2 : (avg fun i : Fin n => if i = ⟨0, hn⟩ then c else 1) = 1 + (c - 1) / n := by
    have : ∀ i : Fin n, (if i = ⟨0, hn⟩ then c else 1) = 1 + if i = ⟨0, hn⟩ then c - 1 else 0 := fun i => by split <;> ring
    simp only [avg, this, Finset.sum_add_distrib, Finset.sum_ite_eq', Finset.mem_univ, if_true, Finset.sum_const, Finset.card_univ,
      Fintype.card_fin, nsmul_eq_mul, mul_one]
    field_simp
  have hgt : M < 1 + (c - 1) / n - 1 := by
    have : (c - 1) / n = |M| + 1 := by rw [hc]; field_simp; ring
    rw [this]
    linarith [le_abs_self M]
  refine ⟨onesLog n 1, onesLog n c⁻¹, ⟨0, hn⟩, h1, h2, fun _ _ _ => zero_le_one, fun _ _ _ => zero_le_one, fun i hi => ?_,
    fun _ => ⟨rfl, rfl⟩, fun i => ?_, fun k hk => ?_⟩
  · have : (i : ℕ) ≠ 0 := fun h0 => hi (Fin.ext h0)
    simp [Log.only, onesLog, this]
  · simp only [onesLog]
    constructor <;> split <;> simp [inv_le_one_of_one_le₀ hc1]
  · simp only [List.mem_cons, List.not_mem_nil, or_false] at hk
    refine ⟨1, 1 + (c - 1) / n, ?_, ?_, hgt⟩ <;> rcases hk with rfl | rfl
    · rw [value_ipw h1]; simp only [Lam.clip, hw1]; exact congrArg Except.ok (by simpa [onesLog] using hv1)
    · rw [value_dr h1]; simp only [Lam.clip, hw1, hm1, hs1]; exact congrArg Except.ok (by simpa using hv1)
    · rw [value_ipw h2]; simp only [Lam.clip, hw2]; exact congrArg Except.ok (by simpa [onesLog] using hv2)
    · rw [value_dr h2]; simp only [Lam.clip, hw2, hm1, hs1]; exact congrArg Except.ok (by simpa using hv2)

/-- two logs that differ in the first of two rounds, with cut-offs for every kind of estimator -/
def exInfl (p : ℚ) : Log ℚ 2 2 1 where
  action := ![0, 1]
  reward := ![1, 1 / 2]
  pscore := ![p, 1 / 2]
  estPscore := ![p, 1 / 2]
  position := ![0, 0]
  piE := fun i a _ => (![![1, 0], ![1 / 3, 2 / 3]] : Fin 2 → Fin 2 → ℚ) i a
  q := fun _ a _ => (![1 / 2, 1 / 4] : Fin 2 → ℚ) a
  estIw := ![1, 2]

example : (exInfl (1 / 2)).Valid ∧ (exInfl (1 / 100)).Valid ∧ (exInfl (1 / 2)).NonnegPolicy ∧
    (exInfl (1 / 2)).SameExcept (exInfl (1 / 100)) 0 ∧ (∃ i, (exInfl (1 / 2)).matched i) ∧
    (Estimator.mk .ipw (.fin 3) false : Estimator ℚ).CutAt 3 ∧ (Estimator.mk .drOs (.fin 9) false : Estimator ℚ).CutAt 2 ∧
    (Estimator.mk .sgDr (.fin (1 / 2)) false : Estimator ℚ).CutAt 2 ∧
    (Estimator.mk .ipw (.fin 3) false).estimatePolicyValue (exInfl (1 / 2)).args = .ok (4 / 3) ∧
    (Estimator.mk .ipw (.fin 3) false).estimatePolicyValue (exInfl (1 / 100)).args = .ok (11 / 6) := by
  have h1 : (exInfl (1 / 2)).Valid :=
    ⟨by decide, by decide +kernel, by decide +kernel, by decide +kernel, by decide +kernel⟩
  have h2 : (exInfl (1 / 100)).Valid :=
    ⟨by decide, by decide +kernel, by decide +kernel, by decide +kernel, by decide +kernel⟩
  refine ⟨h1, h2, by unfold Log.NonnegPolicy; decide +kernel, fun i hi => ?_, by decide +kernel, ?_, ?_, ?_, ?_, ?_⟩
  · fin_cases i
    · exact absurd rfl hi
    · rfl
  · simp [Estimator.CutAt]
  · norm_num [Estimator.CutAt]
  · norm_num [Estimator.CutAt]
  · rw [value_ipw h1]; decide +kernel
  · rw [value_ipw h2]; decide +kernel

end Obp
