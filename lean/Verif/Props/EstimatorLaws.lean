import Verif.Props.EstimatorValues
import Verif.Lemmas.Avg

/-!
# C15-C25: algebraic laws and bounds of the estimators of `obp.ope.estimators`

All statements are about `estimate_policy_value` called on a valid log.
-/

set_option linter.unusedSectionVars false

namespace Obp
open Log

variable {K : Type} [Field K] [LinearOrder K] [IsStrictOrderedRing K]
variable {n A L : ℕ} {g : Log K n A L}

/-- The evaluation policy's probabilities are non-negative (not checked by the validators). -/
def Log.NonnegPolicy (g : Log K n A L) : Prop := ∀ i a l, 0 ≤ g.piE i a l

theorem weight_nonneg (h : g.Valid) (hE : g.NonnegPolicy) (est : Bool) (i : Fin n) :
    0 ≤ g.weight est i :=
  div_nonneg (hE _ _ _) (usedPscore_pos h est i).le

/-! ### C15: on-policy consistency -/

/-- The evaluation policy gives each logged action exactly its logged propensity. -/
def Log.OnPolicy (g : Log K n A L) : Prop :=
  ∀ i, g.piE i (g.action i) (g.position i) = g.pscore i

theorem onPolicy_weight (h : g.Valid) (ho : g.OnPolicy) (i : Fin n) : g.weight false i = 1 := by
  simp only [weight, ho i]
  exact div_self (h.pscore_pos i).ne'

/-- **C15 (IPW).** On-policy IPW with any clipping threshold `>= 1` (or none) is the mean
reward. -/
theorem C15_ipw_onPolicy (h : g.Valid) (ho : g.OnPolicy) (lam : Lam K)
    (hl : ∀ l, lam = .fin l → 1 ≤ l) :
    (Estimator.mk .ipw lam false).estimatePolicyValue g.args = .ok (avg g.reward) := by
  rw [value_ipw h]
  congr 2; funext i
  rw [onPolicy_weight h ho]
  cases lam with
  | inf => simp [Lam.clip]
  | fin l => simp [Lam.clip, hl l rfl]

/-- **C15 (SNIPW).** -/
theorem C15_snipw_onPolicy (h : g.Valid) (ho : g.OnPolicy) (lam : Lam K) :
    (Estimator.mk .snipw lam false).estimatePolicyValue g.args = .ok (avg g.reward) := by
  have h1 : avg (g.weight false) = 1 := by
    rw [avg_congr (onPolicy_weight h ho), avg_const h.nonempty]
  rw [value_snipw h lam false (by rw [h1]; exact one_ne_zero), h1]
  congr 2; funext i
  rw [onPolicy_weight h ho]; simp

/-- **C15 (SGIPW).** For every `lambda_` in `[0, 1]`. -/
theorem C15_sgIpw_onPolicy (h : g.Valid) (ho : g.OnPolicy) (l : K) :
    (Estimator.mk .sgIpw (.fin l) false).estimatePolicyValue g.args = .ok (avg g.reward) := by
  have h1 : ∀ i, 1 - l + l * g.weight false i = 1 := fun i => by
    rw [onPolicy_weight h ho]; ring
  rw [value_sgIpw h false l (fun i => by rw [h1]; exact one_ne_zero)]
  congr 2; funext i
  rw [h1, onPolicy_weight h ho]; simp

/-- **C15 (DR).** With no reward model (`q = 0`) on-policy DR is the mean reward. -/
theorem C15_dr_onPolicy (h : g.Valid) (ho : g.OnPolicy) (hq : ∀ i a l, g.q i a l = 0) :
    (Estimator.mk .dr .inf false).estimatePolicyValue g.args = .ok (avg g.reward) := by
  rw [value_dr h]
  congr 2; funext i
  rw [onPolicy_weight h ho]
  simp [modelValue, hq, residual, Lam.clip]

/-- an on-policy log -/
def exOnPolicy : Log ℚ 2 2 1 where
  action := ![0, 1]
  reward := ![3, 5]
  pscore := ![1 / 4, 2 / 3]
  estPscore := ![1, 1]
  position := ![0, 0]
  piE := fun i a _ => (![![1 / 4, 3 / 4], ![1 / 3, 2 / 3]] : Fin 2 → Fin 2 → ℚ) i a
  q := fun _ _ _ => 0
  estIw := ![1, 1]

theorem exOnPolicy_valid : exOnPolicy.Valid where
  nonempty := by decide
  pscore_pos := by decide +kernel
  estPscore_pos := by decide +kernel
  estIw_nonneg := by decide +kernel
  sum_one := by decide +kernel

example : exOnPolicy.OnPolicy ∧ (∀ i a l, exOnPolicy.q i a l = 0) ∧ avg exOnPolicy.reward = 4 :=
  ⟨by unfold Log.OnPolicy; decide +kernel, fun _ _ _ => rfl, by decide +kernel⟩

/-! ### C16: DR nests IPW and DM -/

/-- **C16.** DR with a zero reward model is IPW with the same clipping. -/
theorem C16_dr_zero_model (h : g.Valid) (hq : ∀ i a l, g.q i a l = 0) (lam : Lam K) (est : Bool) :
    (Estimator.mk .dr lam est).estimatePolicyValue g.args =
      (Estimator.mk .ipw lam est).estimatePolicyValue g.args := by
  rw [value_dr h, value_ipw h]
  congr 2; funext i
  simp [modelValue, hq, residual, mul_comm]

/-- **C16.** DR with `lambda_ = 0` is DM. -/
theorem C16_dr_lambda_zero (h : g.Valid) (hE : g.NonnegPolicy) (lam : Lam K) (est : Bool) :
    (Estimator.mk .dr (.fin 0) est).estimatePolicyValue g.args =
      (Estimator.mk .dm lam est).estimatePolicyValue g.args := by
  rw [value_dr h, value_dm h]
  congr 2; funext i
  simp [Lam.clip, weight_nonneg h hE]

/-- **C16.** DR is DM when the reward model fits the logged rewards exactly. -/
theorem C16_dr_perfect_fit (h : g.Valid) (hr : ∀ i, g.reward i = g.q i (g.action i) (g.position i))
    (lam lam' : Lam K) (est : Bool) :
    (Estimator.mk .dr lam est).estimatePolicyValue g.args =
      (Estimator.mk .dm lam' est).estimatePolicyValue g.args := by
  rw [value_dr h, value_dm h]
  congr 2; funext i
  simp [residual, hr]

example : exLog.NonnegPolicy := by unfold Log.NonnegPolicy; decide +kernel

/-! ### C17: clipping -/

/-- The order of thresholds in `[0, inf]`. -/
def Lam.Le : Lam K → Lam K → Prop
  | .fin a, .fin b => a ≤ b
  | _, .inf => True
  | .inf, .fin _ => False

theorem clip_mono {l l' : Lam K} (h : l.Le l') (w : K) : l.clip w ≤ l'.clip w := by
  cases l <;> cases l' <;> simp_all [Lam.Le, Lam.clip]

/-- **C17.** For non-negative rewards the clipped IPW estimate is non-decreasing in `lambda_`. -/
theorem C17_ipw_clip_mono (h : g.Valid) (hr : ∀ i, 0 ≤ g.reward i) (est : Bool)
    {l l' : Lam K} (hl : l.Le l') :
    ∃ v v', (Estimator.mk .ipw l est).estimatePolicyValue g.args = .ok v ∧
      (Estimator.mk .ipw l' est).estimatePolicyValue g.args = .ok v' ∧ v ≤ v' :=
  ⟨_, _, value_ipw h l est, value_ipw h l' est,
    avg_mono fun i => mul_le_mul_of_nonneg_left (clip_mono hl _) (hr i)⟩

/-- **C17.** For non-negative rewards and probabilities, clipping at `l >= 0` keeps the estimate
between zero and `l` times the mean reward. -/
theorem C17_ipw_clip_bound (h : g.Valid) (hE : g.NonnegPolicy) (hr : ∀ i, 0 ≤ g.reward i)
    (est : Bool) {l : K} (hl : 0 ≤ l) :
    ∃ v, (Estimator.mk .ipw (.fin l) est).estimatePolicyValue g.args = .ok v ∧
      0 ≤ v ∧ v ≤ l * avg g.reward := by
  refine ⟨_, value_ipw h (.fin l) est, avg_nonneg fun i => ?_, ?_⟩
  · exact mul_nonneg (hr i) (le_min (weight_nonneg h hE est i) hl)
  · rw [← avg_mul_left]
    refine avg_mono fun i => ?_
    rw [mul_comm l]
    exact mul_le_mul_of_nonneg_left (min_le_right _ _) (hr i)

/-- **C17.** Clipping at `l` changes nothing exactly when `l` is at least every importance weight
with positive reward. -/
theorem C17_ipw_clip_eq_iff (h : g.Valid) (hr : ∀ i, 0 ≤ g.reward i) (est : Bool) (l : K) :
    (Estimator.mk .ipw (.fin l) est).estimatePolicyValue g.args =
        (Estimator.mk .ipw .inf est).estimatePolicyValue g.args ↔
      ∀ i, 0 < g.reward i → g.weight est i ≤ l := by
  rw [value_ipw h, value_ipw h]
  have hn : (n : K) ≠ 0 := by exact_mod_cast h.nonempty.ne'
  constructor
  · intro he i hi
    simp only [Except.ok.injEq, avg, div_left_inj' hn] at he
    have hle : ∀ i ∈ Finset.univ, g.reward i * (Lam.fin l).clip (g.weight est i) ≤
        g.reward i * Lam.inf.clip (g.weight est i) := fun i _ =>
      mul_le_mul_of_nonneg_left (min_le_left _ _) (hr i)
    have := (Finset.sum_eq_sum_iff_of_le hle).1 he i (Finset.mem_univ i)
    have h2 := mul_left_cancel₀ hi.ne' this
    simpa [Lam.clip] using h2
  · intro hi
    congr 2; funext i
    rcases (hr i).eq_or_lt with h0 | h0
    · simp [← h0]
    · simp [Lam.clip, hi i h0]

example : (∀ i, 0 ≤ exLog.reward i) ∧ (Lam.fin (1 : ℚ)).Le (.fin 2) ∧
    ¬ (∀ i, 0 < exLog.reward i → exLog.weight false i ≤ 1 / 3) := by
  refine ⟨by decide +kernel, ?_, by decide +kernel⟩
  simp [Lam.Le]

/-! ### C18: SNIPW -/

/-- **C18.** SNIPW lies within the range of the rewards of rounds with positive weight. -/
theorem C18_snipw_bounds (h : g.Valid) (hE : g.NonnegPolicy) (lam : Lam K) (est : Bool)
    (hw : ∃ i, 0 < g.weight est i) {lo hi : K}
    (hr : ∀ i, 0 < g.weight est i → lo ≤ g.reward i ∧ g.reward i ≤ hi) :
    ∃ v, (Estimator.mk .snipw lam est).estimatePolicyValue g.args = .ok v ∧ lo ≤ v ∧ v ≤ hi := by
  obtain ⟨j, hj⟩ := hw
  have hs : 0 < ∑ i, g.weight est i :=
    Finset.sum_pos' (fun i _ => weight_nonneg h hE est i) ⟨j, Finset.mem_univ _, hj⟩
  have hne : avg (g.weight est) ≠ 0 := fun h0 => hs.ne' ((avg_eq_zero_iff h.nonempty _).1 h0)
  refine ⟨_, value_snipw h lam est hne, ?_⟩
  rw [avg_ratio h.nonempty _ _ hne]
  exact weightedAvg_bounds _ _ (weight_nonneg h hE est) hs.ne' hr

/-- **C18.** The result is finite exactly when some weight is positive. -/
theorem C18_snipw_finite_iff (h : g.Valid) (hE : g.NonnegPolicy) (lam : Lam K) (est : Bool) :
    (∃ v, (Estimator.mk .snipw lam est).estimatePolicyValue g.args = .ok v) ↔
      ∃ i, 0 < g.weight est i := by
  constructor
  · rintro ⟨v, hv⟩
    by_contra hno
    push Not at hno
    have h0 : avg (g.weight est) = 0 := by
      rw [avg_congr fun i => le_antisymm (hno i) (weight_nonneg h hE est i), avg_const h.nonempty]
    rw [value_snipw_nonFinite h lam est h0] at hv
    simp at hv
  · rintro ⟨j, hj⟩
    have hs : 0 < ∑ i, g.weight est i :=
      Finset.sum_pos' (fun i _ => weight_nonneg h hE est i) ⟨j, Finset.mem_univ _, hj⟩
    have hne : avg (g.weight est) ≠ 0 := fun h0 => hs.ne' ((avg_eq_zero_iff h.nonempty _).1 h0)
    exact ⟨_, value_snipw h lam est hne⟩

/-- The log with affinely transformed rewards. -/
def Log.mapReward (g : Log K n A L) (c d : K) : Log K n A L :=
  { g with reward := fun i => c * g.reward i + d }

/-- The log with rescaled propensities. -/
def Log.scalePscore (g : Log K n A L) (c : K) : Log K n A L :=
  { g with pscore := fun i => c * g.pscore i, estPscore := fun i => c * g.estPscore i }

/-- **C18.** SNIPW is affinely equivariant in the rewards. -/
theorem C18_snipw_affine (h : g.Valid) (lam : Lam K) (est : Bool)
    (hw : avg (g.weight est) ≠ 0) (c d : K) :
    ∃ v, (Estimator.mk .snipw lam est).estimatePolicyValue g.args = .ok v ∧
      (Estimator.mk .snipw lam est).estimatePolicyValue (g.mapReward c d).args =
        .ok (c * v + d) := by
  have h' : (g.mapReward c d).Valid := ⟨h.1, h.2, h.3, h.4, h.5⟩
  refine ⟨_, value_snipw h lam est hw, ?_⟩
  rw [value_snipw h' lam est hw]
  congr 1
  rw [← avg_mul_left]
  have h1 : avg (fun i => d * g.weight est i / avg (g.weight est)) = d := by
    rw [avg_div, avg_mul_left]; field_simp
  conv_rhs => rw [← h1, ← avg_add]
  refine avg_congr fun i => ?_
  change (c * g.reward i + d) * g.weight est i / avg (g.weight est) = _
  ring

/-- **C18.** SNIPW does not change when all propensities are multiplied by a positive constant. -/
theorem C18_snipw_scale (h : g.Valid) (lam : Lam K) (est : Bool)
    (hw : avg (g.weight est) ≠ 0) {c : K} (hc : 0 < c) :
    (Estimator.mk .snipw lam est).estimatePolicyValue (g.scalePscore c).args =
      (Estimator.mk .snipw lam est).estimatePolicyValue g.args := by
  have h' : (g.scalePscore c).Valid :=
    ⟨h.1, fun i => mul_pos hc (h.2 i), fun i => mul_pos hc (h.3 i), h.4, h.5⟩
  have hwt : ∀ i, (g.scalePscore c).weight est i = g.weight est i / c := by
    intro i
    simp only [weight, scalePscore]
    cases est <;> simp [div_div, mul_comm]
  have hav : avg ((g.scalePscore c).weight est) = avg (g.weight est) / c := by
    rw [avg_congr hwt, avg_div]
  rw [value_snipw h lam est hw,
    value_snipw h' lam est (by rw [hav]; exact div_ne_zero hw hc.ne')]
  congr 2; funext i
  rw [hav, hwt]
  change g.reward i * (g.weight est i / c) / (avg (g.weight est) / c) = _
  field_simp

example : ∃ i, 0 < exLog.weight true i := by decide +kernel

/-! ### C19: the replay method -/

/-- **C19.** RM is the arithmetic mean of the rewards of matched rounds. -/
theorem C19_rm_matched_mean (h : g.Valid) (lam : Lam K) (est : Bool) (hm : ∃ i, g.matched i) :
    (Estimator.mk .rm lam est).estimatePolicyValue g.args =
      .ok ((∑ i with g.matched i, g.reward i) / ((Finset.univ.filter g.matched).card : K)) := by
  have hpos : 0 < ∑ i, (if g.matched i then (1 : K) else 0) := by
    obtain ⟨i, hi⟩ := hm
    exact Finset.sum_pos' (fun j _ => by split <;> norm_num) ⟨i, Finset.mem_univ _, by simp [hi]⟩
  have hne : avg (fun i => if g.matched i then (1 : K) else 0) ≠ 0 := fun h0 =>
    hpos.ne' ((avg_eq_zero_iff h.nonempty _).1 h0)
  rw [value_rm h lam est hm]
  congr 1
  have := avg_ratio h.nonempty g.reward (fun i => if g.matched i then (1 : K) else 0) hne
  rw [avg_congr fun i => by rw [mul_comm (if g.matched i then (1 : K) else 0)], this]
  simp [Finset.sum_filter]

/-- **C19.** Without a match RM returns 0. -/
theorem C19_rm_no_match (h : g.Valid) (lam : Lam K) (est : Bool) (hm : ∀ i, ¬ g.matched i) :
    (Estimator.mk .rm lam est).estimatePolicyValue g.args = .ok 0 :=
  value_rm_nomatch h lam est (by simpa using hm)

/-- **C19.** Rewards of unmatched rounds have no influence. -/
theorem C19_rm_ignores_unmatched (h : g.Valid) (lam : Lam K) (est : Bool) (r' : Fin n → K)
    (hr : ∀ i, g.matched i → r' i = g.reward i) :
    (Estimator.mk .rm lam est).estimatePolicyValue { g with reward := r' }.args =
      (Estimator.mk .rm lam est).estimatePolicyValue g.args := by
  have h' : ({ g with reward := r' } : Log K n A L).Valid := ⟨h.1, h.2, h.3, h.4, h.5⟩
  by_cases hm : ∃ i, g.matched i
  · rw [value_rm h lam est hm, value_rm h' lam est hm]
    congr 2; funext i
    change (if g.matched i then (1 : K) else 0) * r' i / _ = _
    by_cases hi : g.matched i
    · simp only [hr i hi]; rfl
    · simp [hi]
  · rw [value_rm_nomatch h lam est hm, value_rm_nomatch h' lam est hm]

/-- a log with matched and unmatched rounds -/
def exMatch : Log ℚ 3 2 1 :=
  { exOnPolicy with
    action := ![0, 1, 1], reward := ![3, 5, 8], pscore := ![1, 1, 1], estPscore := ![1, 1, 1],
    position := ![0, 0, 0], estIw := ![1, 2, 3], q := fun _ a _ => a.val
    piE := fun i a _ => (![![1, 0], ![1, 0], ![0, 1]] : Fin 3 → Fin 2 → ℚ) i a }

theorem exMatch_valid : exMatch.Valid where
  nonempty := by decide
  pscore_pos := by decide +kernel
  estPscore_pos := by decide +kernel
  estIw_nonneg := by decide +kernel
  sum_one := by decide +kernel

example : (Estimator.mk .rm .inf false).estimatePolicyValue exMatch.args = .ok (11 / 2) := by
  rw [C19_rm_matched_mean exMatch_valid _ _ (by decide +kernel)]; decide +kernel
example : ∀ i, ¬ exLog.matched i := by decide +kernel

/-! ### C20: the direct method -/

/-- **C20.** DM lies between bounds on the predictions for actions of positive probability. -/
theorem C20_dm_bounds (h : g.Valid) (hE : g.NonnegPolicy) (lam : Lam K) (est : Bool) {lo hi : K}
    (hq : ∀ i a, 0 < g.piE i a (g.position i) →
      lo ≤ g.q i a (g.position i) ∧ g.q i a (g.position i) ≤ hi) :
    ∃ v, (Estimator.mk .dm lam est).estimatePolicyValue g.args = .ok v ∧ lo ≤ v ∧ v ≤ hi := by
  have hb : ∀ i, lo ≤ g.modelValue i ∧ g.modelValue i ≤ hi := fun i =>
    weightedAvg_bounds _ _ (fun a => hE i a _) (sum_piE_ne h i _) (hq i)
  refine ⟨_, value_dm h lam est, ?_, ?_⟩
  · rw [← avg_const (n := n) h.nonempty lo]; exact avg_mono fun i => (hb i).1
  · rw [← avg_const (n := n) h.nonempty hi]; exact avg_mono fun i => (hb i).2

/-- **C20.** DM is linear in the predictions. -/
theorem C20_dm_linear (h : g.Valid) (lam : Lam K) (est : Bool)
    (q' : Fin n → Fin A → Fin L → K) (c d : K) :
    ∃ v v', (Estimator.mk .dm lam est).estimatePolicyValue g.args = .ok v ∧
      (Estimator.mk .dm lam est).estimatePolicyValue { g with q := q' }.args = .ok v' ∧
      (Estimator.mk .dm lam est).estimatePolicyValue
        { g with q := fun i a l => c * g.q i a l + d * q' i a l }.args = .ok (c * v + d * v') := by
  have h1 : ({ g with q := q' } : Log K n A L).Valid := ⟨h.1, h.2, h.3, h.4, h.5⟩
  have h2 : ({ g with q := fun i a l => c * g.q i a l + d * q' i a l } : Log K n A L).Valid :=
    ⟨h.1, h.2, h.3, h.4, h.5⟩
  refine ⟨_, _, value_dm h lam est, value_dm h1 lam est, ?_⟩
  rw [value_dm h2, ← avg_mul_left, ← avg_mul_left, ← avg_add]
  congr 2; funext i
  simp only [modelValue, add_mul, Finset.sum_add_distrib, mul_assoc, ← Finset.mul_sum]
  ring

/-- **C20.** With exact predictions and an exactly normalised evaluation policy DM is the average
expected reward of the evaluation policy. -/
theorem C20_dm_exact (h : g.Valid) (lam : Lam K) (est : Bool)
    (hs : ∀ i l, ∑ a, g.piE i a l = 1) :
    (Estimator.mk .dm lam est).estimatePolicyValue g.args =
      .ok (avg fun i => ∑ a, g.piE i a (g.position i) * g.q i a (g.position i)) := by
  rw [value_dm h]
  congr 2; funext i
  simp only [modelValue, hs, div_one]
  exact Finset.sum_congr rfl fun a _ => mul_comm _ _

/-- **C20.** DM uses nothing of the log except the evaluation policy, positions and predictions. -/
theorem C20_dm_ignores_log {g' : Log K n A L} (h : g.Valid) (h' : g'.Valid) (lam : Lam K)
    (est : Bool) (hp : g'.position = g.position) (hE : g'.piE = g.piE) (hq : g'.q = g.q) :
    (Estimator.mk .dm lam est).estimatePolicyValue g'.args =
      (Estimator.mk .dm lam est).estimatePolicyValue g.args := by
  rw [value_dm h, value_dm h']
  congr 2; funext i
  simp [modelValue, hp, hE, hq]

/-- **C20.** Rescaling the rows of `action_dist` (within the validator's tolerance) has no
influence. -/
theorem C20_dm_rescale (h : g.Valid) (lam : Lam K) (est : Bool) (c : Fin n → Fin L → K)
    (hc : ∀ i l, c i l ≠ 0)
    (h' : ({ g with piE := fun i a l => c i l * g.piE i a l } : Log K n A L).Valid) :
    (Estimator.mk .dm lam est).estimatePolicyValue
        { g with piE := fun i a l => c i l * g.piE i a l }.args =
      (Estimator.mk .dm lam est).estimatePolicyValue g.args := by
  rw [value_dm h, value_dm h']
  congr 2; funext i
  have := hc i (g.position i)
  simp only [modelValue, mul_left_comm _ (c i _), ← Finset.mul_sum]
  exact mul_div_mul_left _ _ this

example : ∀ i a, 0 < exMatch.piE i a (exMatch.position i) →
    0 ≤ exMatch.q i a (exMatch.position i) ∧ exMatch.q i a (exMatch.position i) ≤ 1 := by
  decide +kernel
example : ∀ i l, ∑ a, exMatch.piE i a l = 1 := by decide +kernel

/-! ### C21: Switch-DR -/

/-- **C21.** Per round, Switch-DR is DR when the weight is at most `l` and DM otherwise. -/
theorem C21_switch_rounds (h : g.Valid) (est : Bool) (l : K) :
    (Estimator.mk .switchDr (.fin l) est).estimatePolicyValue g.args =
      .ok (avg fun i => if g.weight est i ≤ l then g.modelValue i + g.weight est i * g.residual i
        else g.modelValue i) := by
  rw [value_switchDr h]
  congr 2; funext i
  by_cases hi : g.weight est i ≤ l <;> simp [Lam.geB, hi]

/-- **C21.** With `lambda_` infinite or at least every weight, Switch-DR is unclipped DR. -/
theorem C21_switch_eq_dr (h : g.Valid) (est : Bool) (lam : Lam K)
    (hl : ∀ l, lam = .fin l → ∀ i, g.weight est i ≤ l) :
    (Estimator.mk .switchDr lam est).estimatePolicyValue g.args =
      (Estimator.mk .dr .inf est).estimatePolicyValue g.args := by
  rw [value_switchDr h, value_dr h]
  congr 2; funext i
  cases lam with
  | inf => simp [Lam.geB, Lam.clip]
  | fin l => simp [Lam.geB, Lam.clip, hl l rfl i]

/-- **C21.** With `lambda_` below every weight, Switch-DR is DM. -/
theorem C21_switch_eq_dm (h : g.Valid) (est : Bool) (l : K) (lam : Lam K)
    (hl : ∀ i, l < g.weight est i) :
    (Estimator.mk .switchDr (.fin l) est).estimatePolicyValue g.args =
      (Estimator.mk .dm lam est).estimatePolicyValue g.args := by
  rw [value_switchDr h, value_dm h]
  congr 2; funext i
  simp [Lam.geB, hl i]

example : (∀ i, exLog.weight false i ≤ 2) ∧ (∀ i, (1 / 10 : ℚ) < exOnPolicy.weight false i) := by
  decide +kernel

/-! ### C22: DRos -/

/-- **C22.** With `lambda_ = inf` DRos is unclipped DR. -/
theorem C22_drOs_inf (h : g.Valid) (est : Bool) :
    (Estimator.mk .drOs .inf est).estimatePolicyValue g.args =
      (Estimator.mk .dr .inf est).estimatePolicyValue g.args := by
  rw [value_drOs_inf h, value_dr h]; rfl

/-- **C22.** With `lambda_ = 0` (the default) and positive weights DRos is DM. -/
theorem C22_drOs_zero (h : g.Valid) (est : Bool) (lam : Lam K) (hw : ∀ i, 0 < g.weight est i) :
    (Estimator.mk .drOs (.fin 0) est).estimatePolicyValue g.args =
      (Estimator.mk .dm lam est).estimatePolicyValue g.args := by
  rw [value_drOs h est 0 (fun i => by have := hw i; positivity), value_dm h]
  congr 2; funext i
  simp

/-- **C22.** With `lambda_ = 0` and some logged action of zero evaluation probability the result is
not a finite number. -/
theorem C22_drOs_zero_nonFinite (h : g.Valid) (est : Bool) (i : Fin n)
    (hw : g.weight est i = 0) :
    (Estimator.mk .drOs (.fin 0) est).estimatePolicyValue g.args = .error .nonFinite :=
  value_drOs_nonFinite h est 0 i (by simp [hw])

/-- **C22.** For `lambda_ = l > 0` DRos replaces each weight by a shrunk weight in `[0, w]` whose
square is at most `l / 4`. -/
theorem C22_drOs_shrinks (h : g.Valid) (hE : g.NonnegPolicy) (est : Bool) {l : K} (hl : 0 < l) :
    ∃ w' : Fin n → K,
      (Estimator.mk .drOs (.fin l) est).estimatePolicyValue g.args =
        .ok (avg fun i => g.modelValue i + w' i * g.residual i) ∧
      ∀ i, 0 ≤ w' i ∧ w' i ≤ g.weight est i ∧ w' i ^ 2 ≤ l / 4 := by
  refine ⟨_, value_drOs h est l (fun i => by
    have := weight_nonneg h hE est i; positivity), fun i => ?_⟩
  have hw := weight_nonneg h hE est i
  generalize g.weight est i = w at hw
  have hd : 0 < w ^ 2 + l := by positivity
  refine ⟨by positivity, ?_, ?_⟩
  · rw [div_le_iff₀ hd]
    nlinarith [mul_nonneg hw (sq_nonneg w)]
  · rw [div_pow, div_le_div_iff₀ (by positivity) (by norm_num)]
    nlinarith [mul_nonneg hl.le (sq_nonneg (w ^ 2 - l)), sq_nonneg (w ^ 2 - l), sq_nonneg w]

/-- **C22.** The DRos weight is non-decreasing in `lambda_`: with non-negative residuals the
estimate is too, and it never exceeds unclipped DR. -/
theorem C22_drOs_mono (h : g.Valid) (hE : g.NonnegPolicy) (hr : ∀ i, 0 ≤ g.residual i)
    (est : Bool) {l l' : K} (hl : 0 < l) (hll : l ≤ l') :
    ∃ v v' v'', (Estimator.mk .drOs (.fin l) est).estimatePolicyValue g.args = .ok v ∧
      (Estimator.mk .drOs (.fin l') est).estimatePolicyValue g.args = .ok v' ∧
      (Estimator.mk .drOs .inf est).estimatePolicyValue g.args = .ok v'' ∧ v ≤ v' ∧ v' ≤ v'' := by
  have hl' : 0 < l' := lt_of_lt_of_le hl hll
  refine ⟨_, _, _, value_drOs h est l (fun i => by
      have := weight_nonneg h hE est i; positivity),
    value_drOs h est l' (fun i => by have := weight_nonneg h hE est i; positivity),
    value_drOs_inf h est, ?_, ?_⟩
  all_goals
    refine avg_mono fun i => ?_
    have hw := weight_nonneg h hE est i
    generalize g.weight est i = w at hw
    have hd : 0 < w ^ 2 + l := by positivity
    have hd' : 0 < w ^ 2 + l' := by positivity
    refine add_le_add le_rfl (mul_le_mul_of_nonneg_right ?_ (hr i))
  · rw [div_le_div_iff₀ hd hd']
    nlinarith [mul_nonneg hw (sq_nonneg w), mul_le_mul_of_nonneg_left hll
      (mul_nonneg hw (sq_nonneg w))]
  · rw [div_le_iff₀ hd']
    nlinarith [mul_nonneg hw (sq_nonneg w)]

example : (∀ i, 0 < exOnPolicy.weight false i) ∧ exLog.weight false 1 = 0 ∧
    (∀ i, 0 ≤ exOnPolicy.residual i) := by decide +kernel

/-! ### C23: sub-Gaussian weights -/

/-- **C23.** With `lambda_ = 0` SGIPW is IPW and SGDR is DR (no clipping). -/
theorem C23_sg_zero (h : g.Valid) (est : Bool) :
    (Estimator.mk .sgIpw (.fin 0) est).estimatePolicyValue g.args =
        (Estimator.mk .ipw .inf est).estimatePolicyValue g.args ∧
      (Estimator.mk .sgDr (.fin 0) est).estimatePolicyValue g.args =
        (Estimator.mk .dr .inf est).estimatePolicyValue g.args := by
  rw [value_sgIpw h est 0 (by simp), value_ipw h, value_sgDr h est 0 (by simp), value_dr h]
  constructor <;> congr 2 <;> funext i <;> simp [Lam.clip, mul_comm]

/-- **C23.** With `lambda_ = 1` and positive weights, SGIPW is the mean reward and SGDR uses weight
one in every round. -/
theorem C23_sg_one (h : g.Valid) (est : Bool) (hw : ∀ i, 0 < g.weight est i) :
    (Estimator.mk .sgIpw (.fin 1) est).estimatePolicyValue g.args = .ok (avg g.reward) ∧
      (Estimator.mk .sgDr (.fin 1) est).estimatePolicyValue g.args =
        .ok (avg fun i => g.modelValue i + g.residual i) := by
  have h1 : ∀ i, 1 - 1 + 1 * g.weight est i ≠ 0 := fun i => by
    have := hw i; simp [this.ne']
  rw [value_sgIpw h est 1 h1, value_sgDr h est 1 h1]
  constructor <;> congr 2 <;> funext i <;> simp [div_self (hw i).ne']

/-- **C23.** With `lambda_ = 1` and some weight zero neither result is a finite number. -/
theorem C23_sg_one_nonFinite (h : g.Valid) (est : Bool) (i : Fin n) (hw : g.weight est i = 0) :
    (Estimator.mk .sgIpw (.fin 1) est).estimatePolicyValue g.args = .error .nonFinite ∧
      (Estimator.mk .sgDr (.fin 1) est).estimatePolicyValue g.args = .error .nonFinite :=
  ⟨value_sgIpw_nonFinite h est 1 i (by simp [hw]), value_sgDr_nonFinite h est 1 i (by simp [hw])⟩

theorem sg_denominator_pos {w l : K} (hw : 0 ≤ w) (h0 : 0 ≤ l) (h1 : l < 1) :
    0 < 1 - l + l * w := by nlinarith [mul_nonneg h0 hw]

/-- **C23.** For `lambda_ = l` in `(0, 1)` both estimators use weights `w'` with `l * w' <= 1`,
between `min 1 w` and `max 1 w`, and in the same order as the original weights. -/
theorem C23_sg_weights (h : g.Valid) (hE : g.NonnegPolicy) (est : Bool) {l : K} (h0 : 0 ≤ l)
    (h1 : l < 1) :
    ∃ w' : Fin n → K,
      (Estimator.mk .sgIpw (.fin l) est).estimatePolicyValue g.args =
        .ok (avg fun i => w' i * g.reward i) ∧
      (Estimator.mk .sgDr (.fin l) est).estimatePolicyValue g.args =
        .ok (avg fun i => g.modelValue i + w' i * g.residual i) ∧
      (∀ i, l * w' i ≤ 1 ∧ min 1 (g.weight est i) ≤ w' i ∧ w' i ≤ max 1 (g.weight est i)) ∧
      ∀ i j, g.weight est i ≤ g.weight est j ↔ w' i ≤ w' j := by
  have hd : ∀ i, 0 < 1 - l + l * g.weight est i := fun i =>
    sg_denominator_pos (weight_nonneg h hE est i) h0 h1
  refine ⟨_, value_sgIpw h est l (fun i => (hd i).ne'), value_sgDr h est l (fun i => (hd i).ne'),
    fun i => ?_, fun i j => ?_⟩
  · have hw := weight_nonneg h hE est i
    have hdi := hd i
    generalize g.weight est i = w at hw hdi
    refine ⟨?_, ?_, ?_⟩
    · rw [← mul_div_assoc, div_le_one hdi]; linarith
    · rw [le_div_iff₀ hdi]
      rcases le_total 1 w with h2 | h2
      · rw [min_eq_left h2]; nlinarith
      · rw [min_eq_right h2]; nlinarith [mul_nonneg h0 hw, mul_nonneg (mul_nonneg h0 hw)
          (sub_nonneg.2 h2)]
    · rw [div_le_iff₀ hdi]
      rcases le_total 1 w with h2 | h2
      · rw [max_eq_right h2]; nlinarith [mul_nonneg h0 hw, mul_nonneg (mul_nonneg h0 hw)
          (sub_nonneg.2 h2)]
      · rw [max_eq_left h2]; nlinarith
  · rw [div_le_div_iff₀ (hd i) (hd j)]
    constructor
    · intro hij; nlinarith
    · intro hij
      have : (1 - l) * (g.weight est j - g.weight est i) ≥ 0 := by nlinarith
      nlinarith [nonneg_of_mul_nonneg_right this (by linarith : (0 : K) < 1 - l)]

/-! ### C24: SNDR -/

/-- **C24.** SNDR equals DR when the importance weights have mean one. -/
theorem C24_sndr_eq_dr (h : g.Valid) (lam : Lam K) (est : Bool) (hw : avg (g.weight est) = 1) :
    (Estimator.mk .sndr lam est).estimatePolicyValue g.args =
      (Estimator.mk .dr .inf est).estimatePolicyValue g.args := by
  rw [value_sndr h lam est (by rw [hw]; exact one_ne_zero), value_dr h, hw]
  congr 2; funext i
  simp [Lam.clip]

/-- **C24.** SNDR equals DM when the reward model fits the logged rewards. -/
theorem C24_sndr_eq_dm (h : g.Valid) (lam lam' : Lam K) (est : Bool)
    (hw : avg (g.weight est) ≠ 0)
    (hr : ∀ i, g.reward i = g.q i (g.action i) (g.position i)) :
    (Estimator.mk .sndr lam est).estimatePolicyValue g.args =
      (Estimator.mk .dm lam' est).estimatePolicyValue g.args := by
  rw [value_sndr h lam est hw, value_dm h]
  congr 2; funext i
  simp [residual, hr]

/-- **C24.** SNDR lies in `[lo + lo', hi + hi']` when predictions of actions of positive probability
lie in `[lo, hi]` and residuals of rounds with positive weight in `[lo', hi']`. -/
theorem C24_sndr_bounds (h : g.Valid) (hE : g.NonnegPolicy) (lam : Lam K) (est : Bool)
    (hw : ∃ i, 0 < g.weight est i) {lo hi lo' hi' : K}
    (hq : ∀ i a, 0 < g.piE i a (g.position i) →
      lo ≤ g.q i a (g.position i) ∧ g.q i a (g.position i) ≤ hi)
    (hr : ∀ i, 0 < g.weight est i → lo' ≤ g.residual i ∧ g.residual i ≤ hi') :
    ∃ v, (Estimator.mk .sndr lam est).estimatePolicyValue g.args = .ok v ∧
      lo + lo' ≤ v ∧ v ≤ hi + hi' := by
  obtain ⟨j, hj⟩ := hw
  have hs : 0 < ∑ i, g.weight est i :=
    Finset.sum_pos' (fun i _ => weight_nonneg h hE est i) ⟨j, Finset.mem_univ _, hj⟩
  have hne : avg (g.weight est) ≠ 0 := fun h0 => hs.ne' ((avg_eq_zero_iff h.nonempty _).1 h0)
  refine ⟨_, value_sndr h lam est hne, ?_⟩
  have hc : avg (fun i => g.weight est i * g.residual i / avg (g.weight est)) =
      avg fun i => g.residual i * g.weight est i / avg (g.weight est) :=
    avg_congr fun i => by rw [mul_comm (g.weight est i)]
  rw [avg_add, hc, avg_ratio h.nonempty g.residual _ hne]
  have h1 := weightedAvg_bounds _ _ (weight_nonneg h hE est) hs.ne' hr
  have hb : ∀ i, lo ≤ g.modelValue i ∧ g.modelValue i ≤ hi := fun i =>
    weightedAvg_bounds _ _ (fun a => hE i a _) (sum_piE_ne h i _) (hq i)
  have h2 : lo ≤ avg g.modelValue := by
    rw [← avg_const (n := n) h.nonempty lo]; exact avg_mono fun i => (hb i).1
  have h3 : avg g.modelValue ≤ hi := by
    rw [← avg_const (n := n) h.nonempty hi]; exact avg_mono fun i => (hb i).2
  exact ⟨add_le_add h2 h1.1, add_le_add h3 h1.2⟩

/-- **C24.** Shifting rewards and predictions by the same constant shifts SNDR by that constant. -/
theorem C24_sndr_shift (h : g.Valid) (lam : Lam K) (est : Bool)
    (hw : avg (g.weight est) ≠ 0) (c : K) :
    ∃ v, (Estimator.mk .sndr lam est).estimatePolicyValue g.args = .ok v ∧
      (Estimator.mk .sndr lam est).estimatePolicyValue
        { g with reward := fun i => g.reward i + c, q := fun i a l => g.q i a l + c }.args =
        .ok (v + c) := by
  have h' : ({ g with reward := fun i => g.reward i + c, q := fun i a l => g.q i a l + c } :
    Log K n A L).Valid := ⟨h.1, h.2, h.3, h.4, h.5⟩
  refine ⟨_, value_sndr h lam est hw, ?_⟩
  rw [value_sndr h' lam est hw]
  congr 1
  conv_rhs => rw [← avg_const (n := n) h.nonempty c, ← avg_add]
  refine avg_congr fun i => ?_
  have hm : ({ g with reward := fun i => g.reward i + c, q := fun i a l => g.q i a l + c } :
      Log K n A L).modelValue i = g.modelValue i + c := by
    have := sum_piE_ne h i (g.position i)
    simp only [modelValue, add_mul, Finset.sum_add_distrib, ← Finset.mul_sum, add_div]
    field_simp
  have hres : ({ g with reward := fun i => g.reward i + c, q := fun i a l => g.q i a l + c } :
      Log K n A L).residual i = g.residual i := by simp [residual]
  rw [hm, hres]
  change g.modelValue i + c + g.weight est i * g.residual i / avg (g.weight est) = _
  ring

example : avg (exOnPolicy.weight false) = 1 := by decide +kernel

/-! ### C25: Balanced IPW -/

/-- **C25.** B-IPW lies in the range of the rewards of rounds with positive estimated weight, for
every `lambda_ > 0`. -/
theorem C25_bIpw_bounds (h : g.Valid) (lam : Lam K) (est : Bool)
    (hl : ∀ l, lam = .fin l → 0 < l) (hw : ∃ i, 0 < g.estIw i) {lo hi : K}
    (hr : ∀ i, 0 < g.estIw i → lo ≤ g.reward i ∧ g.reward i ≤ hi) :
    ∃ v, (Estimator.mk .bIpw lam est).estimatePolicyValue g.args = .ok v ∧ lo ≤ v ∧ v ≤ hi := by
  have hc0 : ∀ i, 0 ≤ lam.clip (g.estIw i) := fun i => by
    cases lam with
    | inf => exact h.estIw_nonneg i
    | fin l => exact le_min (h.estIw_nonneg i) (hl l rfl).le
  have hcpos : ∀ i, 0 < lam.clip (g.estIw i) ↔ 0 < g.estIw i := fun i => by
    cases lam with
    | inf => rfl
    | fin l => simp [Lam.clip, hl l rfl]
  obtain ⟨j, hj⟩ := hw
  have hs : 0 < ∑ i, lam.clip (g.estIw i) :=
    Finset.sum_pos' (fun i _ => hc0 i) ⟨j, Finset.mem_univ _, (hcpos j).2 hj⟩
  have hne : avg (fun i => lam.clip (g.estIw i)) ≠ 0 := fun h0 =>
    hs.ne' ((avg_eq_zero_iff h.nonempty _).1 h0)
  refine ⟨_, value_bIpw h lam est hne, ?_⟩
  rw [avg_ratio h.nonempty _ _ hne]
  exact weightedAvg_bounds _ _ hc0 hs.ne' fun i hi' => hr i ((hcpos i).1 hi')

/-- **C25.** Without clipping, B-IPW is invariant to rescaling the estimated weights. -/
theorem C25_bIpw_scale (h : g.Valid) (est : Bool) (hw : avg g.estIw ≠ 0) {c : K} (hc : 0 < c) :
    (Estimator.mk .bIpw .inf est).estimatePolicyValue
        { g with estIw := fun i => c * g.estIw i }.args =
      (Estimator.mk .bIpw .inf est).estimatePolicyValue g.args := by
  have h' : ({ g with estIw := fun i => c * g.estIw i } : Log K n A L).Valid :=
    ⟨h.1, h.2, h.3, fun i => mul_nonneg hc.le (h.4 i), h.5⟩
  have hav : avg (fun i => c * g.estIw i) = c * avg g.estIw := avg_mul_left _ _
  rw [value_bIpw h .inf est hw,
    value_bIpw h' .inf est (by simp only [Lam.clip, hav]; exact mul_ne_zero hc.ne' hw)]
  congr 2; funext i
  simp only [Lam.clip, hav]
  have := hc.ne'
  field_simp

/-- **C25.** With `lambda_ = 0` (accepted by the constructor) the result is never finite. -/
theorem C25_bIpw_zero_nonFinite (h : g.Valid) (est : Bool) :
    (Estimator.mk .bIpw (.fin 0) est).estimatePolicyValue g.args = .error .nonFinite := by
  apply value_bIpw_nonFinite h
  rw [avg_eq_zero_iff h.nonempty]
  exact Finset.sum_eq_zero fun i _ => by simp [Lam.clip, h.estIw_nonneg i]

example : ∃ i, 0 < exLog.estIw i := by decide +kernel

end Obp
