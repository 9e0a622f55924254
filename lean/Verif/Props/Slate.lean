import Verif.Lemmas.SlateValues
import Verif.Props.EstimatorValues
import Verif.Lemmas.Avg
import Mathlib.Algebra.BigOperators.Field

/-! # C42 (first half), C43 – C46: laws of the slate estimators -/

set_option linter.unusedSectionVars false

namespace Obp
open Log

variable {K : Type} [Field K] [LinearOrder K] [IsStrictOrderedRing K]
variable {N A : ℕ}

/-! ### C43: row order -/

theorem slateError (k : SlateKind) {g : SlateLog K N} (h : ¬ k.Accepts g) :
    k.check g.args = .error .valueError := by
  cases hc : k.check g.args with
  | ok r => exact absurd ((accepts_args_iff k g).1 ⟨r, hc⟩) h
  | error e => rw [C11_error_kind k _ hc]

/-- **C43.** For the standard, independent and reward-interaction estimators and their
self-normalised versions, permuting the rows of any log leaves `estimate_policy_value` unchanged
(including whether it raises). -/
theorem C43_value_row_order_partial (k : SlateKind) (lenList : ℕ) (g : SlateLog K N) (σ : Equiv.Perm (Fin N)) :
    k.estimatePolicyValue lenList (g.permute σ).args = k.estimatePolicyValue lenList g.args := by
  by_cases h : k.Accepts g
  · rw [slateValue_eq k lenList h, slateValue_eq k lenList ((accepts_permute k g σ).2 h),
      rowVals_permute, numSlates_permute]
    cases k.rowVals lenList g with
    | none => rfl
    | some f =>
      simp only [Option.map_some, Function.comp_apply]
      rw [Equiv.sum_comp σ f]
  · unfold SlateKind.estimatePolicyValue
    rw [slateError k h, slateError k fun hh => h ((accepts_permute k g σ).1 hh)]

/-- **C43.** Nor does it change `estimate_interval` for the same random draws. -/
theorem C43_interval_row_order_partial [FloorRing K] (k : SlateKind) (lenList : ℕ) (g : SlateLog K N)
    (σ : Equiv.Perm (Fin N)) (c : CiArgs K) (draws : List (List ℕ)) :
    k.estimateInterval lenList (g.permute σ).args c draws =
      k.estimateInterval lenList g.args c draws := by
  unfold SlateKind.estimateInterval
  by_cases h : k.Accepts g
  · have h' := (accepts_permute k g σ).2 h
    rw [slateCheck_args k g h, slateCheck_args k _ h', py_bind_ok, py_bind_ok,
      slateRound_eq k lenList h, slateRound_eq k lenList h', rowVals_permute]
    cases k.rowVals lenList g with
    | none => rfl
    | some f =>
      simp only [Option.map_some, rowOutcome, py_bind_ok]
      rw [slateSums_permute]
  · rw [slateError k h, slateError k fun hh => h ((accepts_permute k g σ).1 hh)]

/-- One slate of two positions. -/
def exCdr : CascadeLog ℚ 2 1 where
  slate := ![0, 0]
  pos := ![0, 1]
  reward := ![1, 2]
  ps := ![1, 1 / 2]
  eps := ![1, 1 / 4]
  action := ![0, 0]
  q := ![![1], ![5]]
  dist := ![![1], ![1]]

theorem exCdr_valid : exCdr.Valid where
  rips := ⟨by decide, by unfold SlateLog.InRange; decide +kernel,
    by unfold SlateLog.UniquePositions; decide +kernel,
    by unfold SlateLog.NonincreasingPerSlate; decide +kernel,
    by unfold SlateLog.NonincreasingPerSlate; decide +kernel⟩
  dist_sum := by decide +kernel

/-- **C43, disagreement.** `SlateCascadeDoublyRobust` is not invariant: swapping the two rows of an
accepted log changes the estimate from 9/2 to 4. -/
theorem C43_cascade_depends_on_order :
    ∃ (g : CascadeLog ℚ 2 1) (σ : Equiv.Perm (Fin 2)) (v v' : ℚ), g.Valid ∧ (g.permute σ).Valid ∧
      cascadeDrValue 2 1 g.args = .ok v ∧ cascadeDrValue 2 1 (g.permute σ).args = .ok v' ∧ v ≠ v' := by
  have hp : (exCdr.permute (Equiv.swap 0 1)).Valid := ⟨(accepts_permute _ _ _).2 exCdr_valid.rips,
    by decide +kernel⟩
  refine ⟨exCdr, Equiv.swap 0 1, _, _, exCdr_valid, hp, cascadeValue_eq (by decide) exCdr_valid
    (by decide +kernel), cascadeValue_eq (by decide) hp (by decide +kernel), by decide +kernel⟩

/-! ### C44: intervals -/

/-- The distinct slate ids as natural numbers. -/
theorem slateSums_mem {g : SlateLog K N} {f : Fin N → K} {x : K}
    (hx : x ∈ slateSums g.rows (List.ofFn f)) : ∃ i, x = g.slateTotal f (g.slate i) := by
  rw [slateSums_eq] at hx
  obtain ⟨s, hs, rfl⟩ := List.mem_map.1 hx
  obtain ⟨r, hr, rfl⟩ := List.mem_map.1 (npUnique_mem.1 hs)
  obtain ⟨i, rfl⟩ := SlateLog.mem_rows.1 hr
  exact ⟨i, by simp [SlateLog.slateTotal]⟩

theorem slateSums_length (g : SlateLog K N) (f : Fin N → K) :
    (slateSums g.rows (List.ofFn f)).length = g.numSlates := by
  rw [slateSums_eq, List.length_map]; exact g.unique_length

/-- What is claimed about an interval built from per-row contributions `f`. -/
def IntervalFrom [FloorRing K] (g : SlateLog K N) (f : Fin N → K)
    (interval : CiArgs K → List (List ℕ) → Py (CiOut K)) : Prop :=
  ∃ samples : List K, samples.length = g.numSlates ∧ samples.sum = ∑ i, f i ∧
    (∀ x ∈ samples, ∃ i, x = g.slateTotal f (g.slate i)) ∧
    (∀ c draws, interval c draws = bootstrapCI samples c draws) ∧
    ∀ (alpha : K) (nBoot : ℕ) (draws : List (List ℕ)), 0 ≤ alpha → alpha ≤ 1 → 1 ≤ nBoot →
      ValidDraws g.numSlates nBoot draws →
      ∃ o, interval (ciCall alpha nBoot) draws = .ok o ∧ o.lower ≤ o.upper ∧
        ∀ lo hi, (∀ i, lo ≤ g.slateTotal f (g.slate i) ∧ g.slateTotal f (g.slate i) ≤ hi) →
          lo ≤ o.lower ∧ o.upper ≤ hi ∧ lo ≤ o.mean ∧ o.mean ≤ hi

theorem intervalFrom [FloorRing K] {g : SlateLog K N} (hN : 0 < N) (f : Fin N → K)
    {interval : CiArgs K → List (List ℕ) → Py (CiOut K)}
    (h : ∀ c draws, interval c draws = bootstrapCI (slateSums g.rows (List.ofFn f)) c draws) :
    IntervalFrom g f interval := by
  refine ⟨_, slateSums_length g f, sum_slateSums g f, fun x hx => slateSums_mem hx, h, ?_⟩
  intro alpha nBoot draws h0 h1 hb hd
  have hne : slateSums g.rows (List.ofFn f) ≠ [] := by
    intro he
    have := slateSums_length g f
    rw [he] at this
    have := g.numSlates_pos hN
    simp at *; omega
  obtain ⟨o, ho, hlu, hr⟩ := C03_ci_ordered_in_range hne h0 h1 hb (by rwa [slateSums_length])
  refine ⟨o, by rw [h]; exact ho, hlu, fun lo hi hs => hr lo hi fun x hx => ?_⟩
  obtain ⟨i, rfl⟩ := slateSums_mem hx
  exact hs i

/-- **C44.** On every accepted log on which the estimate is finite there are per-row contributions `f`
with: the estimate is their total over the number of slates; `estimate_interval` bootstraps a list
with one sample per slate, each the slate's total, so their mean is the estimate; it succeeds for all
draws with ordered bounds inside the range of the slate totals. -/
theorem C44_interval_per_slate [FloorRing K] (k : SlateKind) (lenList : ℕ) {g : SlateLog K N}
    (h : k.Accepts g) {v : K} (hv : k.estimatePolicyValue lenList g.args = .ok v) :
    ∃ f : Fin N → K, v = (∑ i, f i) / (g.numSlates : K) ∧
      IntervalFrom g f (k.estimateInterval lenList g.args) := by
  rw [slateValue_eq k lenList h] at hv
  cases hf : k.rowVals lenList g with
  | none => rw [hf] at hv; simp at hv
  | some f =>
    rw [hf] at hv
    refine ⟨f, (Except.ok.inj hv).symm, intervalFrom h.1 f fun c draws => ?_⟩
    unfold SlateKind.estimateInterval
    rw [slateCheck_args k g h, py_bind_ok, slateRound_eq k lenList h, hf]
    rfl

/-- **C44.** The contributions of the unnormalised estimators are reward times weight. -/
theorem C44_ips_interval [FloorRing K] {k : SlateKind} (hk : k = .sips ∨ k = .iips ∨ k = .rips)
    (lenList : ℕ) {g : SlateLog K N} (h : k.Accepts g) :
    k.estimatePolicyValue lenList g.args =
        .ok ((∑ i, g.reward i * g.weight i) / (g.numSlates : K)) ∧
      IntervalFrom g (fun i => g.reward i * g.weight i) (k.estimateInterval lenList g.args) := by
  have hr : k.rowVals lenList g = some fun i => g.reward i * g.weight i := by
    rcases hk with rfl | rfl | rfl <;> rfl
  refine ⟨by rw [slateValue_eq k lenList h, hr], intervalFrom h.1 _ fun c draws => ?_⟩
  unfold SlateKind.estimateInterval
  rw [slateCheck_args k g h, py_bind_ok, slateRound_eq k lenList h, hr]
  rfl

/-- **C44.** The same for the cascade doubly robust estimator on a log with `lenList` rows per
slate. -/
theorem C44_cascade_interval [FloorRing K] {lenList : ℕ} (hL : 0 < lenList) {g : CascadeLog K N A}
    (h : g.Valid) (hn : g.numSlates * lenList = N) :
    ∃ f : Fin N → K,
      cascadeDrValue lenList A g.args = .ok ((∑ i, f i) / (g.numSlates : K)) ∧
      IntervalFrom g.toSlateLog f (cascadeDrInterval lenList A g.args) :=
  ⟨_, cascadeValue_eq hL h hn, intervalFrom h.rips.1 _ fun _ _ => cascadeInterval_eq hL h hn _ _⟩

/-! ### C45: self-normalised estimators -/

theorem card_position {g : SlateLog K N} (hu : g.UniquePositions) {lenList : ℕ}
    (hc : g.Complete lenList) {p : ℕ} (hp : p < lenList) :
    (Finset.univ.filter fun j => g.pos j = p).card = g.numSlates := by
  unfold SlateLog.numSlates
  have himg : (Finset.univ.filter fun j => g.pos j = p).image g.slate = Finset.univ.image g.slate := by
    ext s
    simp only [Finset.mem_image, Finset.mem_filter, Finset.mem_univ, true_and]
    constructor
    · rintro ⟨j, -, rfl⟩; exact ⟨j, rfl⟩
    · rintro ⟨i, rfl⟩
      obtain ⟨j, h1, h2⟩ := hc i p hp
      exact ⟨j, h2, h1⟩
  rw [← himg, Finset.card_image_of_injOn]
  intro i hi j hj hij
  simp only [Finset.coe_filter, Set.mem_ofPred_eq, Finset.mem_univ, true_and] at hi hj
  exact hu i j hij (hi.trans hj.symm)

/-- The contribution of position `p`: the weighted average reward of the rows at `p`. -/
def SlateLog.positionValue (g : SlateLog K N) (p : ℕ) : K :=
  (∑ i, if g.pos i = p then g.reward i * g.weight i else 0) / ∑ i, if g.pos i = p then g.weight i else 0

/-- **C45.** On a log in which every slate fills the `lenList` positions and every position has
positive total weight, the self-normalised independent and reward-interaction estimates are the sum
over positions of the weighted average reward at the position. -/
theorem C45_sn_value {k : SlateKind} (hk : k = .snIips ∨ k = .snRips) {lenList : ℕ} {g : SlateLog K N}
    (h : k.Accepts g) (hc : g.Complete lenList)
    (hw : ∀ p < lenList, (∑ i, if g.pos i = p then g.weight i else 0) ≠ 0) :
    k.estimatePolicyValue lenList g.args = .ok (∑ p ∈ Finset.range lenList, g.positionValue p) := by
  have hM : (g.numSlates : K) ≠ 0 := by exact_mod_cast (g.numSlates_pos h.1).ne'
  have hpm : ∀ p < lenList, g.posMean p =
      (∑ i, if g.pos i = p then g.weight i else 0) / (g.numSlates : K) := fun p hp => by
    unfold SlateLog.posMean
    rw [card_position h.2.2.1 hc hp]
  have hne : ¬ ∃ i, g.pos i < lenList ∧ g.posMean (g.pos i) = 0 := by
    rintro ⟨i, hi, h0⟩
    rw [hpm _ hi] at h0
    rcases div_eq_zero_iff.1 h0 with h1 | h1
    · exact hw _ hi h1
    · exact hM h1
  have hr : k.rowVals lenList g = some fun i =>
      if g.pos i < lenList then g.reward i * g.weight i / g.posMean (g.pos i) else 0 := by
    rcases hk with rfl | rfl <;> exact if_neg hne
  rw [slateValue_eq k lenList h, hr]
  refine congrArg Except.ok ?_
  have hexp : ∀ i, (if g.pos i < lenList then g.reward i * g.weight i / g.posMean (g.pos i) else 0) =
      ∑ p ∈ Finset.range lenList,
        if g.pos i = p then g.reward i * g.weight i / g.posMean p else 0 := by
    intro i
    rw [Finset.sum_ite_eq]
    simp only [Finset.mem_range]
  simp only [hexp]
  rw [Finset.sum_comm, Finset.sum_div]
  refine Finset.sum_congr rfl fun p hp => ?_
  have hp := Finset.mem_range.1 hp
  have hwp := hw p hp
  unfold SlateLog.positionValue
  have : (∑ i, if g.pos i = p then g.reward i * g.weight i / g.posMean p else 0) =
      (∑ i, if g.pos i = p then g.reward i * g.weight i else 0) / g.posMean p := by
    rw [Finset.sum_div]
    refine Finset.sum_congr rfl fun i _ => ?_
    split <;> simp
  rw [this, hpm p hp]
  field_simp

/-- **C45.** Each position's contribution lies within the range of the rewards logged at that
position with positive weight. -/
theorem C45_position_in_range {g : SlateLog K N} (hr : g.InRange) {p : ℕ}
    (hw : (∑ i, if g.pos i = p then g.weight i else 0) ≠ 0) {lo hi : K}
    (hb : ∀ i, g.pos i = p → 0 < g.weight i → lo ≤ g.reward i ∧ g.reward i ≤ hi) :
    lo ≤ g.positionValue p ∧ g.positionValue p ≤ hi := by
  have := weightedAvg_bounds g.reward (fun i => if g.pos i = p then g.weight i else 0)
    (fun i => by
      split
      · exact div_nonneg (hr i).2.2.1 (hr i).1.le
      · exact le_refl _) hw (lo := lo) (hi := hi) (fun i hi => by
      split at hi
      · exact hb i ‹_› hi
      · exact absurd hi (lt_irrefl _))
  unfold SlateLog.positionValue
  simpa only [mul_ite, mul_zero] using this

/-- **C45.** If all rewards equal `c`, the estimate is `c` times the number of positions. -/
theorem C45_constant_reward {k : SlateKind} (hk : k = .snIips ∨ k = .snRips) {lenList : ℕ}
    {g : SlateLog K N} (h : k.Accepts g) (hc : g.Complete lenList)
    (hw : ∀ p < lenList, (∑ i, if g.pos i = p then g.weight i else 0) ≠ 0)
    {c : K} (hr : ∀ i, g.reward i = c) :
    k.estimatePolicyValue lenList g.args = .ok (c * lenList) := by
  rw [C45_sn_value hk h hc hw]
  congr 1
  have : ∀ p ∈ Finset.range lenList, g.positionValue p = c := fun p hp => by
    obtain ⟨h1, h2⟩ := C45_position_in_range h.2.1 (hw p (Finset.mem_range.1 hp)) (lo := c) (hi := c)
      fun i _ _ => by rw [hr i]; exact ⟨le_refl _, le_refl _⟩
    exact le_antisymm h2 h1
  rw [Finset.sum_congr rfl this]
  simp [mul_comm]

/-- **C45.** A position whose weights are all zero makes the estimate non-finite. -/
theorem C45_zero_weight {k : SlateKind} (hk : k = .snIips ∨ k = .snRips) {lenList : ℕ}
    {g : SlateLog K N} (h : k.Accepts g) (i : Fin N) (hi : g.pos i < lenList)
    (hw : ∀ j, g.pos j = g.pos i → g.eps j = 0) :
    k.estimatePolicyValue lenList g.args = .error .nonFinite := by
  have h0 : g.posMean (g.pos i) = 0 := by
    unfold SlateLog.posMean
    rw [Finset.sum_eq_zero, zero_div]
    intro j _
    split
    · next hj => simp [SlateLog.weight, hw j hj]
    · rfl
  have hr : k.rowVals lenList g = none := by
    rcases hk with rfl | rfl <;> exact if_pos ⟨i, hi, h0⟩
  rw [slateValue_eq k lenList h, hr]

/-- **C45.** The self-normalised standard estimator: the estimate is the weighted average reward
times rows per slate; so all rewards `c` give `c` times rows per slate. -/
theorem C45_snsips_value (lenList : ℕ) {g : SlateLog K N} (h : SlateKind.snSips.Accepts g)
    (hw : ∑ i, g.weight i ≠ 0) :
    SlateKind.snSips.estimatePolicyValue lenList g.args =
      .ok ((∑ i, g.reward i * g.weight i) / (∑ i, g.weight i) * ((N : K) / (g.numSlates : K))) := by
  have hN : (N : K) ≠ 0 := by exact_mod_cast h.1.ne'
  have hr : SlateKind.snSips.rowVals lenList g =
      some fun i => g.reward i * g.weight i / ((∑ i, g.weight i) / (N : K)) :=
    if_neg fun h0 => by
      rcases div_eq_zero_iff.1 h0 with h1 | h1
      · exact hw h1
      · exact hN h1
  rw [slateValue_eq _ lenList h, hr]
  refine congrArg Except.ok ?_
  rw [← Finset.sum_div]
  field_simp

theorem C45_snsips_constant (lenList : ℕ) {g : SlateLog K N} (h : SlateKind.snSips.Accepts g)
    (hw : ∑ i, g.weight i ≠ 0) {c : K} (hr : ∀ i, g.reward i = c) :
    SlateKind.snSips.estimatePolicyValue lenList g.args = .ok (c * ((N : K) / (g.numSlates : K))) := by
  rw [C45_snsips_value lenList h hw]
  simp only [hr, ← Finset.mul_sum]
  rw [mul_div_assoc, div_self hw, mul_one]

/-! ### C42 (first half) and C46 -/

/-- **C42.** With `q_hat` identically zero, `SlateCascadeDoublyRobust` equals
`SlateRewardInteractionIPS`, for every row order and every `evaluation_policy_action_dist`. -/
theorem C42_zero_q_is_rips {lenList : ℕ} (hL : 0 < lenList) {g : CascadeLog K N A} (h : g.Valid)
    (hn : g.numSlates * lenList = N) (hq : ∀ i a, g.q i a = 0) :
    cascadeDrValue lenList A g.args = SlateKind.rips.estimatePolicyValue lenList g.toSlateLog.args := by
  rw [cascadeValue_eq hL h hn, slateValue_eq .rips lenList h.rips]
  simp only [SlateKind.rowVals, CascadeLog.rowVal, hq, sub_zero, mul_zero, Finset.sum_const_zero, add_zero]
  simp only [mul_comm]

/-- **C42.** The same for the interval. -/
theorem C42_zero_q_interval [FloorRing K] {lenList : ℕ} (hL : 0 < lenList) {g : CascadeLog K N A}
    (h : g.Valid) (hn : g.numSlates * lenList = N) (hq : ∀ i a, g.q i a = 0) (c : CiArgs K)
    (draws : List (List ℕ)) :
    cascadeDrInterval lenList A g.args c draws =
      SlateKind.rips.estimateInterval lenList g.toSlateLog.args c draws := by
  rw [cascadeInterval_eq hL h hn]
  unfold SlateKind.estimateInterval
  rw [slateCheck_args _ _ h.rips, py_bind_ok, slateRound_eq .rips lenList h.rips]
  simp only [SlateKind.rowVals, rowOutcome, py_bind_ok]
  congr 3
  funext j
  simp only [CascadeLog.rowVal, hq, sub_zero, mul_zero, Finset.sum_const_zero, add_zero]
  exact mul_comm _ _

/-- **C46.** For a log with one row per slate, the standard, independent and reward-interaction
estimates and the cascade doubly robust estimate with zero `q_hat` are all equal to the IPW estimate
(`lambda_ = inf`) of the ordinary log `o` with the same rewards, propensities and evaluation
probabilities of the logged actions. -/
theorem C46_single_position {g : CascadeLog K N A} (hN : 0 < N) (hr : g.InRange)
    (hs : Function.Injective g.slate)
    (hd : ∀ i, |∑ a, g.dist i a - 1| ≤ 1 / 10 ^ 8 + 1 / 10 ^ 5) (hq : ∀ i a, g.q i a = 0)
    {A' L' : ℕ} {o : Log K N A' L'} (ho : o.Valid) (h1 : ∀ i, o.reward i = g.reward i)
    (h2 : ∀ i, o.pscore i = g.ps i) (h3 : ∀ i, o.piE i (o.action i) (o.position i) = g.eps i) :
    ∃ v, (Estimator.mk .ipw .inf false).estimatePolicyValue o.args = .ok v ∧
      SlateKind.sips.estimatePolicyValue 1 g.toSlateLog.args = .ok v ∧
      SlateKind.iips.estimatePolicyValue 1 g.toSlateLog.args = .ok v ∧
      SlateKind.rips.estimatePolicyValue 1 g.toSlateLog.args = .ok v ∧
      cascadeDrValue 1 A g.args = .ok v := by
  have hn : g.numSlates = N := by
    unfold SlateLog.numSlates
    rw [Finset.card_image_of_injective _ hs, Finset.card_univ, Fintype.card_fin]
  have hu : g.UniquePositions := fun i j h _ => hs h
  have hc : ∀ f, g.ConstantPerSlate f := fun f i j h => by rw [hs h]
  have hm : ∀ f, g.NonincreasingPerSlate f := fun f i j h _ => by rw [hs h]
  have ha1 : SlateKind.sips.Accepts g.toSlateLog := ⟨hN, hr, hu, hc _, hc _⟩
  have ha2 : SlateKind.iips.Accepts g.toSlateLog := ⟨hN, hr, hu, trivial⟩
  have ha3 : SlateKind.rips.Accepts g.toSlateLog := ⟨hN, hr, hu, hm _, hm _⟩
  refine ⟨(∑ i, g.reward i * g.weight i) / (g.numSlates : K), ?_, ?_, ?_, ?_, ?_⟩
  · rw [value_ipw ho, hn]
    simp only [Lam.clip, avg, Log.weight, Bool.false_eq_true, if_false, h1, h2, h3]
    rfl
  · rw [slateValue_eq _ _ ha1]; rfl
  · rw [slateValue_eq _ _ ha2]; rfl
  · rw [slateValue_eq _ _ ha3]; rfl
  · rw [C42_zero_q_is_rips one_pos ⟨ha3, hd⟩ (by rw [hn, mul_one]) hq, slateValue_eq _ _ ha3]; rfl

/-! ### Examples -/

example := C43_value_row_order_partial .snIips 2 exSlate (Equiv.swap 0 2)
example := C44_interval_per_slate .rips 2 (exSlate_accepts .rips) (C44_ips_interval (by tauto) 2
  (exSlate_accepts .rips)).1
example := C44_cascade_interval (lenList := 2) (by decide) exCdr_valid (by decide +kernel)
/-- positions 0 and 1 of `exSlate` -/
example := C45_sn_value (k := .snIips) (Or.inl rfl) (lenList := 2) (exSlate_accepts .snIips)
  (by unfold SlateLog.Complete; decide +kernel) (by decide +kernel)
example := C45_constant_reward (k := .snRips) (Or.inr rfl) (lenList := 2)
  (g := { exSlate with reward := fun _ => 7 }) (exSlate_accepts .snRips)
  (by unfold SlateLog.Complete; decide +kernel) (by decide +kernel) (fun _ => rfl)
example := C45_zero_weight (k := .snIips) (Or.inl rfl) (lenList := 2)
  (g := { exSlate with eps := ![0, 0, 1, 1] })
  ⟨by decide, by unfold SlateLog.InRange; decide +kernel, (exSlate_accepts .snIips).2.2.1, trivial⟩ 0
  (by decide) (by decide +kernel)
example := C45_snsips_value 2 (exSlate_accepts .snSips) (by decide +kernel)
example := C42_zero_q_is_rips (lenList := 2) (by decide) (g := { exCdr with q := fun _ _ => 0 })
  ⟨exCdr_valid.rips, exCdr_valid.dist_sum⟩ (by decide +kernel) (fun _ _ => rfl)
/-- three slates of one position matching the ordinary log `exLog` -/
example := C46_single_position (N := 3) (A := 2)
  (g := { slate := ![4, 0, 9], pos := fun _ => 0, reward := exLog.reward, ps := exLog.pscore,
          eps := fun i => exLog.piE i (exLog.action i) (exLog.position i), action := exLog.action,
          q := fun _ _ => 0, dist := fun _ _ => 1 / 2 })
  (by decide) (by unfold SlateLog.InRange; decide +kernel) (by decide +kernel) (by decide +kernel)
  (fun _ _ => rfl) exLog_valid (fun _ => rfl) (fun _ => rfl) (fun _ => rfl)

end Obp
