import Verif.Lemmas.IidClt
import Verif.Props.ConsistencySlate

set_option linter.unusedSectionVars false

/-!
# Errors and intervals of the slate estimators

C183: the errors of the slate estimates are asymptotically normal, and how often the intervals contain the value.
-/

namespace Obp
open MeasureTheory ProbabilityTheory Filter Topology Log SlateStream

variable {Ω C : Type} [MeasurableSpace Ω] [MeasurableSpace C] {L A : ℕ} {P : Measure Ω} [IsProbabilityMeasure P]
variable {s : SlateStream Ω C L A} {piB piE : C → (Fin L → Fin A) → ℝ} {m : C → (Fin L → Fin A) → Fin L → ℝ}

namespace SlateStream

theorem LoggedBy.iid (hs : s.LoggedBy P piB m) : Iid P fun i ω => (s.ctx i ω, s.slate i ω, s.rew i ω) :=
  ⟨fun i => (hs.ctx_meas i).prodMk ((hs.slate_meas i).prodMk (hs.rew_meas i)), hs.indep, hs.ident⟩

/-- The slates of the log, in order. -/
theorem log_slates (hL : 0 < L) (pb pe : C → (Fin L → Fin A) → Fin L → ℝ) (n : ℕ) (ω : Ω) :
    (s.log pb pe n ω).slates = List.ofFn fun i : Fin n => (i : ℤ) := by
  unfold SlateLog.slates
  refine List.Perm.eq_of_pairwise' (r := (· ≤ ·)) (List.pairwise_insertionSort _ _) ?_ ?_
  · rw [List.pairwise_ofFn]
    intro i j hij
    exact_mod_cast hij.le
  · refine (List.perm_ext_iff_of_nodup (npUnique_nodup _) ?_).2 fun x => ?_
    · exact List.nodup_ofFn.2 fun i j h => Fin.ext (by exact_mod_cast h)
    · rw [npUnique_mem, List.mem_map, List.mem_ofFn]
      constructor
      · rintro ⟨r, hr, rfl⟩
        obtain ⟨j, rfl⟩ := SlateLog.mem_rows.1 hr
        exact ⟨j.divNat, rfl⟩
      · rintro ⟨i, rfl⟩
        refine ⟨_, SlateLog.mem_rows.2 ⟨finProdFinEquiv (i, ⟨0, hL⟩), rfl⟩, ?_⟩
        have := congrArg (fun x => ((x.1 : ℕ) : ℤ)) (finProdFinEquiv.symm_apply_apply (i, (⟨0, hL⟩ : Fin L)))
        exact this

/-- What is bootstrapped: the totals of the slates. -/
theorem log_slateSums (hL : 0 < L) (pb pe : C → (Fin L → Fin A) → Fin L → ℝ) (n : ℕ) (ω : Ω) (x : Fin n → Fin L → ℝ) :
    slateSums (s.log pb pe n ω).rows (List.ofFn fun j => x j.divNat j.modNat) = List.ofFn fun i => ∑ l, x i l := by
  rw [slateSums_eq, log_slates hL, List.map_ofFn]
  congr 1
  funext i
  have := sum_grid (n := n) (L := L) fun i' l => if i' = i then x i' l else 0
  refine Eq.trans ?_ (this.trans ?_)
  · refine Finset.sum_congr rfl fun j _ => ?_
    refine if_congr ?_ rfl rfl
    show ((j.divNat : ℕ) : ℤ) = (i : ℕ) ↔ _
    rw [Fin.ext_iff]
    exact Nat.cast_inj
  · rw [Finset.sum_eq_single i]
    · simp
    · intro b _ hb
      simp [hb]
    · simp

theorem slotWeight_joint (hs : s.LoggedBy P piB m) {k : SlateKind} (hE : ∀ a, Measurable fun c => piE c a) (l : Fin L) :
    Measurable fun x : C × (Fin L → Fin A) × (Fin L → ℝ) => slotWeight k piB piE l x.1 x.2.1 := by
  have h : Measurable fun x : C × (Fin L → Fin A) => slotWeight k piB piE l x.1 x.2 :=
    measurable_from_prod_countable_left fun a => slotWeight_meas hs hE l a
  exact h.comp (measurable_fst.prodMk (measurable_fst.comp measurable_snd))

theorem slotTerm_joint (hs : s.LoggedBy P piB m) {k : SlateKind} (hE : ∀ a, Measurable fun c => piE c a) (l : Fin L) :
    Measurable fun x : C × (Fin L → Fin A) × (Fin L → ℝ) => slotWeight k piB piE l x.1 x.2.1 * x.2.2 l :=
  (slotWeight_joint hs hE l).mul ((measurable_pi_apply l).comp (measurable_snd.comp measurable_snd))

/-- The total as a function of the round. -/
noncomputable def ipsFn (k : SlateKind) (piB piE : C → (Fin L → Fin A) → ℝ) (x : C × (Fin L → Fin A) × (Fin L → ℝ)) : ℝ :=
  ∑ l, slotWeight k piB piE l x.1 x.2.1 * x.2.2 l

theorem ipsTerm_meas (hs : s.LoggedBy P piB m) {k : SlateKind} (hE : ∀ a, Measurable fun c => piE c a) :
    Measurable (ipsFn k piB piE) :=
  Finset.measurable_fun_sum _ fun l _ => slotTerm_joint hs hE l

/-- The estimate is the average of the totals. -/
theorem LoggedBy.ips_mean (hs : s.LoggedBy P piB m) (hL : 0 < L) {k : SlateKind} (hk : k = .sips ∨ k = .iips ∨ k = .rips)
    (hE : Covers k piB piE m) : ∀ᵐ ω ∂P, ∀ n, 0 < n → k.estimatePolicyValue L
      (s.log (fun c => k.propensity (piB c)) (fun c => k.propensity (piE c)) n ω).args = .ok (meanTo (fun i => s.ipsTerm k piB piE i ω) n) := by
  filter_upwards [hs.piB_ne hL] with ω hω n hn
  have hacc := log_accepts (piB := piB) hs.piB_dist hE.dist hL hn hω k
  rw [log_eq (piB := piB)] at hacc ⊢
  rw [SlateProcess.value_of_log hk hL hacc, meanTo, ← Fin.sum_univ_eq_sum_range (fun i => s.ipsTerm k piB piE i ω)]
  refine congrArg Except.ok (congrArg (· / _) (Finset.sum_congr rfl fun i _ => Finset.sum_congr rfl fun l _ => ?_))
  exact mul_comm _ _

/-- The interval is bootstrapped from the totals. -/
theorem LoggedBy.ips_interval (hs : s.LoggedBy P piB m) (hL : 0 < L) {k : SlateKind} (hk : k = .sips ∨ k = .iips ∨ k = .rips)
    (hE : Covers k piB piE m) : ∀ᵐ ω ∂P, ∀ n, 0 < n → ∀ c draws, k.estimateInterval L
      (s.log (fun c => k.propensity (piB c)) (fun c => k.propensity (piE c)) n ω).args c draws =
        bootstrapCI (List.ofFn fun i : Fin n => s.ipsTerm k piB piE i ω) c draws := by
  filter_upwards [hs.piB_ne hL] with ω hω n hn c draws
  have hacc := log_accepts (piB := piB) hs.piB_dist hE.dist hL hn hω k
  have hr : ∀ g : SlateLog ℝ (n * L), k.rowVals L g = some fun i => g.reward i * g.weight i := by
    rcases hk with rfl | rfl | rfl <;> exact fun g => rfl
  unfold SlateKind.estimateInterval
  rw [slateCheck_args k _ hacc, py_bind_ok, slateRound_eq k L hacc, hr]
  have := log_slateSums (s := s) hL (fun c => k.propensity (piB c)) (fun c => k.propensity (piE c)) n ω
    fun i l => s.rew i ω l * slotWeight k piB piE l (s.ctx i ω) (s.slate i ω)
  refine Eq.trans (congrArg (fun xs => bootstrapCI xs c draws) this) ?_
  simp only [ipsTerm, slotWeight, mul_comm]

end SlateStream

/-- **C183.** SIPS, IIPS and RIPS: the errors are normal with the variance of the total weighted reward of a slate. -/
theorem C183_slate_ips (hs : s.LoggedBy P piB m) (hL : 0 < L) {k : SlateKind} (hk : k = .sips ∨ k = .iips ∨ k = .rips)
    (hE : Covers k piB piE m)
    (h2 : ∀ l, MemLp (fun ω => slotWeight k piB piE l (s.ctx 0 ω) (s.slate 0 ω) * s.rew 0 ω l) 2 P)
    (hv : Var[s.ipsTerm k piB piE 0; P] ≠ 0) :
    NormalErrors P (fun n ω => k.estimatePolicyValue L
      (s.log (fun c => k.propensity (piB c)) (fun c => k.propensity (piE c)) n ω).args) (s.value P piE m)
      (Var[s.ipsTerm k piB piE 0; P]) := by
  have hF := ipsTerm_meas (k := k) hs hE.meas
  have h2' : MemLp (s.ipsTerm k piB piE 0) 2 P := memLp_finsetSum _ fun l _ => h2 l
  have hest := hs.ips_mean hL hk hE
  have hm := hs.iid.mean_of_results (F := ipsFn k piB piE) hF (h2'.integrable one_le_two) hest
    (C160_ips hs hL hk hE fun l => (h2 l).integrable one_le_two)
  exact normalErrors_mean (F := ipsFn k piB piE) hs.iid hF h2' hm hv hest

/-- **C183.** The intervals of SIPS, IIPS and RIPS. -/
theorem C183_slate_coverage (hs : s.LoggedBy P piB m) (hL : 0 < L) {k : SlateKind} (hk : k = .sips ∨ k = .iips ∨ k = .rips)
    (hE : Covers k piB piE m)
    (h2 : ∀ l, MemLp (fun ω => slotWeight k piB piE l (s.ctx 0 ω) (s.slate 0 ω) * s.rew 0 ω l) 2 P)
    (hv : Var[s.ipsTerm k piB piE 0; P] ≠ 0) {Ω' : Type} [MeasurableSpace Ω'] {P' : Measure Ω'} [IsProbabilityMeasure P']
    {f : Ω' → Ω} (hf : MeasurePreserving f P' P) {B : ℕ} (hB : 1 ≤ B) (R : Resampling P' (fun i ω => s.ipsTerm k piB piE i (f ω)) B)
    {alpha : ℝ} (h0 : 0 ≤ alpha) (h1 : alpha ≤ 1) :
    NearlyCovers (fun n => P'.real {ω | ReturnsAround (k.estimateInterval L
      (s.log (fun c => k.propensity (piB c)) (fun c => k.propensity (piE c)) n (f ω)).args (ciCall alpha B) (R.draws n ω))
      (s.value P piE m)}) alpha B := by
  have hF := ipsTerm_meas (k := k) hs hE.meas
  have h2' : MemLp (s.ipsTerm k piB piE 0) 2 P := memLp_finsetSum _ fun l _ => h2 l
  have hm := hs.iid.mean_of_results (F := ipsFn k piB piE) hF (h2'.integrable one_le_two) (hs.ips_mean hL hk hE)
    (C160_ips hs hL hk hE fun l => (h2 l).integrable one_le_two)
  exact nearlyCovers_rounds (F := ipsFn k piB piE) hs.iid hF h2' hm hv hf hB R h0 h1 (hs.ips_interval hL hk hE)

/-! ### Self-normalised estimators -/

namespace SlateStream

/-- The mean of the weighted rewards of a slot. -/
theorem LoggedBy.slot_mean (hs : s.LoggedBy P piB m) {k : SlateKind} (hE : Covers k piB piE m) (l : Fin L)
    (hi : Integrable (fun ω => slotWeight k piB piE l (s.ctx 0 ω) (s.slate 0 ω) * s.rew 0 ω l) P) :
    ∫ ω, slotWeight k piB piE l (s.ctx 0 ω) (s.slate 0 ω) * s.rew 0 ω l ∂P = s.slotValue P piE m l := by
  refine hs.iid.mean_eq (F := fun x => slotWeight k piB piE l x.1 x.2.1 * x.2.2 l) (slotTerm_joint hs hE.meas l) hi ?_
  have h := (hs.lln_reward l (slotWeight_meas (k := k) hs hE.meas l) hi).2
  have e : ∀ ω, ∑ a, piB (s.ctx 0 ω) a * (slotWeight k piB piE l (s.ctx 0 ω) a * m (s.ctx 0 ω) a l) =
      ∑ a, piE (s.ctx 0 ω) a * m (s.ctx 0 ω) a l := fun ω =>
    propensity_reweight k l (fun a => m (s.ctx 0 ω) a l) (hE.local_reward _ l) fun a ha => hE.support _ a l ha
  simp only [e] at h
  filter_upwards [h] with ω hω
  refine hω.congr fun n => ?_
  rw [meanTo, avg, Fin.sum_univ_eq_sum_range fun i => slotWeight k piB piE l (s.ctx i ω) (s.slate i ω) * s.rew i ω l]

theorem LoggedBy.slot_weight_mean (hs : s.LoggedBy P piB m) {k : SlateKind} (hE : Covers k piB piE m) (l : Fin L)
    (hi : Integrable (fun ω => slotWeight k piB piE l (s.ctx 0 ω) (s.slate 0 ω)) P) :
    ∫ ω, slotWeight k piB piE l (s.ctx 0 ω) (s.slate 0 ω) ∂P = 1 := by
  refine hs.iid.mean_eq (F := fun x => slotWeight k piB piE l x.1 x.2.1) (slotWeight_joint hs hE.meas l) hi ?_
  filter_upwards [weights_tendsto hs hE] with ω hω
  refine (hω l).congr fun n => ?_
  rw [meanTo, avg, Fin.sum_univ_eq_sum_range fun i => slotWeight k piB piE l (s.ctx i ω) (s.slate i ω)]

theorem LoggedBy.value_slots (hs : s.LoggedBy P piB m) {k : SlateKind} (hE : Covers k piB piE m)
    (hi : ∀ l, Integrable (fun ω => slotWeight k piB piE l (s.ctx 0 ω) (s.slate 0 ω) * s.rew 0 ω l) P) :
    s.value P piE m = ∑ l, s.slotValue P piE m l :=
  value_eq fun l => integrable_sum_piE hE l (hs.lln_reward l (slotWeight_meas (k := k) hs hE.meas l) (hi l)).1

/-- The estimates of SNIIPS and SNRIPS, slot by slot. -/
theorem LoggedBy.sn_value (hs : s.LoggedBy P piB m) (hL : 0 < L) {k : SlateKind} (hk : k = .snIips ∨ k = .snRips)
    (hE : Covers k piB piE m) : ∀ᵐ ω ∂P, ∀ n, 0 < n →
      (∀ l, meanTo (fun i => slotWeight k piB piE l (s.ctx i ω) (s.slate i ω)) n ≠ 0) → k.estimatePolicyValue L
      (s.log (fun c => k.propensity (piB c)) (fun c => k.propensity (piE c)) n ω).args =
        .ok (∑ l, meanTo (fun i => slotWeight k piB piE l (s.ctx i ω) (s.slate i ω) * s.rew i ω l) n /
          meanTo (fun i => slotWeight k piB piE l (s.ctx i ω) (s.slate i ω)) n) := by
  filter_upwards [hs.piB_ne hL] with ω hω n hn hne
  simp only [meanTo_avg] at hne ⊢
  have hacc := log_accepts (piB := piB) hs.piB_dist hE.dist hL hn hω k
  have h1 := fun l : Fin L => s.log_slot_sum (fun c => k.propensity (piB c)) (fun c => k.propensity (piE c)) n ω
    (fun i l => slotWeight k piB piE l (s.ctx i ω) (s.slate i ω)) l
  have h2 := fun l : Fin L => s.log_slot_sum (fun c => k.propensity (piB c)) (fun c => k.propensity (piE c)) n ω
    (fun i l => s.rew i ω l * slotWeight k piB piE l (s.ctx i ω) (s.slate i ω)) l
  have hn0 : (n : ℝ) ≠ 0 := by exact_mod_cast hn.ne'
  rw [C45_sn_value hk hacc log_complete, ← Fin.sum_univ_eq_sum_range (fun p => SlateLog.positionValue _ p)]
  · refine congrArg Except.ok (Finset.sum_congr rfl fun l _ => ?_)
    have e : (s.log (fun c => k.propensity (piB c)) (fun c => k.propensity (piE c)) n ω).positionValue l =
        (∑ i : Fin n, s.rew i ω l * slotWeight k piB piE l (s.ctx i ω) (s.slate i ω)) /
          ∑ i : Fin n, slotWeight k piB piE l (s.ctx i ω) (s.slate i ω) := by
      rw [← h1 l, ← h2 l]
      rfl
    rw [e]
    simp only [avg, mul_comm (s.rew _ _ _)]
    field_simp
  · intro p hp h0
    have := h1 ⟨p, hp⟩
    apply hne ⟨p, hp⟩
    unfold avg
    rw [← this, div_eq_zero_iff]
    exact .inl h0

/-- The estimate of SNSIPS. -/
theorem LoggedBy.snsips_value (hs : s.LoggedBy P piB m) (hL : 0 < L) (hE : Covers .snSips piB piE m) : ∀ᵐ ω ∂P, ∀ n, 0 < n →
      meanTo (fun i => (∑ l, slotWeight .snSips piB piE l (s.ctx i ω) (s.slate i ω)) / L) n ≠ 0 → SlateKind.snSips.estimatePolicyValue L
      (s.log (fun c => SlateKind.snSips.propensity (piB c)) (fun c => SlateKind.snSips.propensity (piE c)) n ω).args =
        .ok (meanTo (fun i => ∑ l, slotWeight .snSips piB piE l (s.ctx i ω) (s.slate i ω) * s.rew i ω l) n /
          meanTo (fun i => (∑ l, slotWeight .snSips piB piE l (s.ctx i ω) (s.slate i ω)) / L) n) := by
  filter_upwards [hs.piB_ne hL] with ω hω n hn hne
  simp only [meanTo_avg] at hne ⊢
  have hL0 : (L : ℝ) ≠ 0 := by exact_mod_cast hL.ne'
  have hacc := log_accepts (piB := piB) hs.piB_dist hE.dist hL hn hω .snSips
  have hn0 : (n : ℝ) ≠ 0 := by exact_mod_cast hn.ne'
  have h1 : ∑ j, (s.log (fun c => SlateKind.snSips.propensity (piB c)) (fun c => SlateKind.snSips.propensity (piE c)) n ω).weight j =
      ∑ i : Fin n, ∑ l, slotWeight .snSips piB piE l (s.ctx i ω) (s.slate i ω) :=
    sum_grid fun (i : Fin n) l => slotWeight .snSips piB piE l (s.ctx i ω) (s.slate i ω)
  have h2 : ∑ j, (s.log (fun c => SlateKind.snSips.propensity (piB c)) (fun c => SlateKind.snSips.propensity (piE c)) n ω).reward j *
      (s.log (fun c => SlateKind.snSips.propensity (piB c)) (fun c => SlateKind.snSips.propensity (piE c)) n ω).weight j =
      ∑ i : Fin n, ∑ l, s.rew i ω l * slotWeight .snSips piB piE l (s.ctx i ω) (s.slate i ω) :=
    sum_grid fun (i : Fin n) l => s.rew i ω l * slotWeight .snSips piB piE l (s.ctx i ω) (s.slate i ω)
  have h3 : (s.log (fun c => SlateKind.snSips.propensity (piB c)) (fun c => SlateKind.snSips.propensity (piE c)) n ω).numSlates = n := by
    rw [log_eq (piB := piB)]
    exact SlateProcess.log_numSlates hL _ _ _
  have hne' : ∑ i : Fin n, ∑ l, slotWeight .snSips piB piE l (s.ctx i ω) (s.slate i ω) ≠ 0 := by
    intro h0
    apply hne
    simp only [avg, ← Finset.sum_div]
    rw [h0]
    simp
  rw [C45_snsips_value L hacc (by rw [h1]; exact hne'), h1, h2, h3]
  refine congrArg Except.ok ?_
  simp only [avg, ← Finset.sum_div]
  simp only [mul_comm (s.rew _ _ _)]
  push_cast
  field_simp

end SlateStream

/-- **C183.** SNIIPS and SNRIPS: the variance is that of the total weighted distance of the rewards from the values of the
slots. -/
theorem C183_slate_sn (hs : s.LoggedBy P piB m) (hL : 0 < L) {k : SlateKind} (hk : k = .snIips ∨ k = .snRips)
    (hE : Covers k piB piE m)
    (h2 : ∀ l, MemLp (fun ω => slotWeight k piB piE l (s.ctx 0 ω) (s.slate 0 ω) * s.rew 0 ω l) 2 P)
    (hw2 : ∀ l, MemLp (fun ω => slotWeight k piB piE l (s.ctx 0 ω) (s.slate 0 ω)) 2 P)
    (hv : Var[s.snTerm k piB piE (s.slotValue P piE m) 0; P] ≠ 0) :
    NormalErrors P (fun n ω => k.estimatePolicyValue L
      (s.log (fun c => k.propensity (piB c)) (fun c => k.propensity (piE c)) n ω).args) (s.value P piE m)
      (Var[s.snTerm k piB piE (s.slotValue P piE m) 0; P]) := by
  have hi := fun l => (h2 l).integrable one_le_two
  have hwi := fun l => (hw2 l).integrable one_le_two
  refine normalErrors_ratios hs.iid (J := Fin L) (FA := fun _ => 0)
    (FU := fun l x => slotWeight k piB piE l x.1 x.2.1 * x.2.2 l - s.slotValue P piE m l * slotWeight k piB piE l x.1 x.2.1)
    (FW := fun l x => slotWeight k piB piE l x.1 x.2.1) measurable_const
    (fun l => (slotTerm_joint hs hE.meas l).sub ((slotWeight_joint hs hE.meas l).const_mul _)) (slotWeight_joint hs hE.meas)
    (memLp_const 0) (fun l => (h2 l).sub ((hw2 l).const_mul _)) (by simp) (fun l => ?_) ?_ ?_
    (lt_of_le_of_ne (variance_nonneg _ _) hv.symm) ?_
  · rw [integral_sub (hi l) ((hwi l).const_mul _), integral_const_mul, hs.slot_mean hE l (hi l), hs.slot_weight_mean hE l (hwi l)]
    ring
  · filter_upwards [weights_tendsto hs hE] with ω hω l
    refine (hω l).congr fun n => (meanTo_avg _ n).symm
  · congr 1
    funext ω
    simp only [snTerm, zero_add, slotWeight]
    exact Finset.sum_congr rfl fun l _ => by ring
  · filter_upwards [hs.sn_value hL hk hE] with ω hω n hn hne
    rw [hω n hn hne, hs.value_slots hE hi]
    refine congrArg Except.ok ?_
    have h0 : meanTo (fun _ => (0 : ℝ)) n = 0 := by simp [meanTo]
    rw [h0, zero_add, ← Finset.sum_add_distrib]
    refine Finset.sum_congr rfl fun l _ => ?_
    have := hne l
    rw [meanTo_sub_mul]
    field_simp
    ring

/-- **C183.** SNSIPS: the variance is that of the weighted distance of the total reward of a slate from the value. -/
theorem C183_slate_snsips (hs : s.LoggedBy P piB m) (hL : 0 < L) (hE : Covers .snSips piB piE m)
    (h2 : ∀ l, MemLp (fun ω => slotWeight .snSips piB piE l (s.ctx 0 ω) (s.slate 0 ω) * s.rew 0 ω l) 2 P)
    (hw2 : ∀ l, MemLp (fun ω => slotWeight .snSips piB piE l (s.ctx 0 ω) (s.slate 0 ω)) 2 P)
    (hv : Var[fun ω => piE (s.ctx 0 ω) (s.slate 0 ω) / piB (s.ctx 0 ω) (s.slate 0 ω) * ((∑ l, s.rew 0 ω l) - s.value P piE m); P] ≠ 0) :
    NormalErrors P (fun n ω => SlateKind.snSips.estimatePolicyValue L
      (s.log (fun c => SlateKind.snSips.propensity (piB c)) (fun c => SlateKind.snSips.propensity (piE c)) n ω).args) (s.value P piE m)
      (Var[fun ω => piE (s.ctx 0 ω) (s.slate 0 ω) / piB (s.ctx 0 ω) (s.slate 0 ω) * ((∑ l, s.rew 0 ω l) - s.value P piE m); P]) := by
  have hi := fun l => (h2 l).integrable one_le_two
  have hwi := fun l => (hw2 l).integrable one_le_two
  have hL0 : (L : ℝ) ≠ 0 := by exact_mod_cast hL.ne'
  have hsw : ∀ c a (l : Fin L), slotWeight .snSips piB piE l c a = piE c a / piB c a := fun c a l => by
    rw [slotWeight, propensity_const (.inr rfl), propensity_const (.inr rfl)]
  have hWm : Measurable fun x : C × (Fin L → Fin A) × (Fin L → ℝ) => (∑ l, slotWeight .snSips piB piE l x.1 x.2.1) / L :=
    (Finset.measurable_fun_sum _ fun l _ => slotWeight_joint hs hE.meas l).div_const _
  have hW2 : MemLp (fun ω => (∑ l, slotWeight .snSips piB piE l (s.ctx 0 ω) (s.slate 0 ω)) / L) 2 P := by
    simp only [div_eq_mul_inv]
    exact (memLp_finsetSum _ fun l _ => hw2 l).mul_const _
  have hW1 : ∫ ω, (∑ l, slotWeight .snSips piB piE l (s.ctx 0 ω) (s.slate 0 ω)) / L ∂P = 1 := by
    rw [MeasureTheory.integral_div, integral_finsetSum _ fun l _ => hwi l]
    simp only [hs.slot_weight_mean hE _ (hwi _)]
    simp [hL0]
  refine normalErrors_ratios hs.iid (J := Unit) (FA := fun _ => 0)
    (FU := fun _ x => ipsFn .snSips piB piE x - s.value P piE m * ((∑ l, slotWeight .snSips piB piE l x.1 x.2.1) / L))
    (FW := fun _ x => (∑ l, slotWeight .snSips piB piE l x.1 x.2.1) / L) measurable_const
    (fun _ => (ipsTerm_meas hs hE.meas).sub (hWm.const_mul _)) (fun _ => hWm)
    (memLp_const 0) (fun _ => (memLp_finsetSum _ fun l _ => h2 l).sub (hW2.const_mul _)) (by simp) (fun _ => ?_) ?_ ?_
    (lt_of_le_of_ne (variance_nonneg _ _) hv.symm) ?_
  · have hI : ∫ ω, ipsFn .snSips piB piE (s.ctx 0 ω, s.slate 0 ω, s.rew 0 ω) ∂P = s.value P piE m := by
      rw [hs.value_slots hE hi]
      unfold ipsFn
      rw [integral_finsetSum _ fun l _ => hi l]
      exact Finset.sum_congr rfl fun l _ => hs.slot_mean hE l (hi l)
    have hii : Integrable (fun ω => ipsFn .snSips piB piE (s.ctx 0 ω, s.slate 0 ω, s.rew 0 ω)) P := integrable_finsetSum _ fun l _ => hi l
    rw [integral_sub hii ((hW2.integrable one_le_two).const_mul _), integral_const_mul, hI, hW1]
    ring
  · filter_upwards [hs.iid.lln (F := fun x => (∑ l, slotWeight .snSips piB piE l x.1 x.2.1) / L) hWm (hW2.integrable one_le_two)] with ω hω _
    rw [hW1] at hω
    exact hω
  · congr 1
    funext ω
    simp only [ipsFn, hsw, zero_add, Finset.univ_unique, Finset.sum_const, Finset.card_univ, Finset.card_singleton, one_smul, Fintype.card_fin,
      nsmul_eq_mul, ← Finset.mul_sum]
    field_simp
  · filter_upwards [hs.snsips_value hL hE] with ω hω n hn hne
    have hne := hne ()
    rw [hω n hn hne]
    refine congrArg Except.ok ?_
    have h0 : meanTo (fun _ => (0 : ℝ)) n = 0 := by simp [meanTo]
    rw [h0, zero_add]
    simp only [Finset.univ_unique, Finset.sum_const, Finset.card_singleton, one_smul]
    rw [meanTo_sub_mul]
    simp only [ipsFn]
    field_simp
    ring

/-! ### A case: two slots and two actions, slates drawn uniformly, a policy that follows the context -/

theorem exSlate_memLp (f : ExSlateRound 2 2 → ℝ) : MemLp (fun ω : ℕ → ExSlateRound 2 2 => f (ω 0)) 2 (exSlateMeasure 2 2) :=
  (memLp_two_iff_integrable_sq (exSlate_meas f 0).aestronglyMeasurable).2 (exSlate_integrable fun o => f o ^ 2)

/-- What differs between two kinds of rounds varies. -/
theorem exSlate_variance {f : ExSlateRound 2 2 → ℝ} {o o' : ExSlateRound 2 2} (h : f o < f o') :
    Var[fun ω : ℕ → ExSlateRound 2 2 => f (ω 0); exSlateMeasure 2 2] ≠ 0 := by
  intro h0
  rw [variance_eq_integral (exSlate_meas f 0).aemeasurable] at h0
  have e := exSlate_integral (L := 2) (A := 2) fun o => (f o - ∫ ω, f (ω 0) ∂exSlateMeasure 2 2) ^ 2
  rw [h0, eq_comm, div_eq_zero_iff, Finset.sum_eq_zero_iff_of_nonneg fun _ _ => sq_nonneg _] at e
  have e : ∀ o, f o = ∫ ω, f (ω 0) ∂exSlateMeasure 2 2 := fun o =>
    sub_eq_zero.1 (pow_eq_zero_iff two_ne_zero |>.1 (e.resolve_right (by simp) o (Finset.mem_univ o)))
  exact h.ne ((e o).trans (e o').symm)

theorem exSlate_weight_pos (k : SlateKind) (l : Fin 2) :
    0 < slotWeight k (fun _ _ => 1 / Fintype.card (Fin 2 → Fin 2)) exSlatePolicy l true ![1, 0] :=
  div_pos (propensity_pos (exSlatePolicy_dist true) k (by simp [exSlatePolicy]) l)
    (propensity_pos ((exSlateStream_logged exSlateMean).piB_dist true) k (by simp) l)

theorem exSlate_ips_variance (k : SlateKind) :
    Var[(exSlateStream exSlateMean).ipsTerm k (fun _ _ => 1 / Fintype.card (Fin 2 → Fin 2)) exSlatePolicy 0; exSlateMeasure 2 2] ≠ 0 := by
  refine exSlate_variance (f := fun o => ∑ l, slotWeight k (fun _ _ => 1 / Fintype.card (Fin 2 → Fin 2)) exSlatePolicy l o.1 o.2.1 *
    (exSlateMean o.1 o.2.1 l + if o.2.2 then 1 else -1)) (o := (true, ![1, 0], false)) (o' := (true, ![1, 0], true)) ?_
  refine Finset.sum_lt_sum_of_nonempty Finset.univ_nonempty fun l _ => ?_
  have := exSlate_weight_pos k l
  exact mul_lt_mul_of_pos_left (by norm_num) this

/-- RIPS: the value is 3. -/
example : NormalErrors (exSlateMeasure 2 2) (fun n ω => SlateKind.rips.estimatePolicyValue 2
    ((exSlateStream exSlateMean).log (fun _ => SlateKind.rips.propensity fun _ => 1 / Fintype.card (Fin 2 → Fin 2))
      (fun c => SlateKind.rips.propensity (exSlatePolicy c)) n ω).args) 3
    (Var[(exSlateStream exSlateMean).ipsTerm .rips (fun _ _ => 1 / Fintype.card (Fin 2 → Fin 2)) exSlatePolicy 0; exSlateMeasure 2 2]) := by
  rw [← exSlate_value]
  exact C183_slate_ips (exSlateStream_logged _) two_pos (.inr (.inr rfl)) (exSlate_covers exSlate_rips)
    (fun l => exSlate_memLp fun o => slotWeight .rips (fun _ _ => 1 / Fintype.card (Fin 2 → Fin 2)) exSlatePolicy l o.1 o.2.1 *
      (exSlateMean o.1 o.2.1 l + if o.2.2 then 1 else -1)) (exSlate_ips_variance .rips)

/-- Its intervals, 100 resamples at a level of 95 percent. -/
example : NearlyCovers (fun n => ((exSlateMeasure 2 2).prod (tablesLaw 100)).real {ω | ReturnsAround (SlateKind.rips.estimateInterval 2
    ((exSlateStream exSlateMean).log (fun _ => SlateKind.rips.propensity fun _ => 1 / Fintype.card (Fin 2 → Fin 2))
      (fun c => SlateKind.rips.propensity (exSlatePolicy c)) n ω.1).args (ciCall (1 / 20) 100)
      ((Resampling.beside (P := exSlateMeasure 2 2)
        ((exSlateStream exSlateMean).ipsTerm .rips (fun _ _ => 1 / Fintype.card (Fin 2 → Fin 2)) exSlatePolicy) 100).draws n ω)) 3})
    (1 / 20) 100 := by
  rw [← exSlate_value]
  exact C183_slate_coverage (exSlateStream_logged _) two_pos (.inr (.inr rfl)) (exSlate_covers exSlate_rips)
    (fun l => exSlate_memLp fun o => slotWeight .rips (fun _ _ => 1 / Fintype.card (Fin 2 → Fin 2)) exSlatePolicy l o.1 o.2.1 *
      (exSlateMean o.1 o.2.1 l + if o.2.2 then 1 else -1)) (exSlate_ips_variance .rips) measurePreserving_fst (by norm_num)
    (Resampling.beside (P := exSlateMeasure 2 2)
        ((exSlateStream exSlateMean).ipsTerm .rips (fun _ _ => 1 / Fintype.card (Fin 2 → Fin 2)) exSlatePolicy) 100) (by norm_num) (by norm_num)

/-- SNRIPS. -/
example : NormalErrors (exSlateMeasure 2 2) (fun n ω => SlateKind.snRips.estimatePolicyValue 2
    ((exSlateStream exSlateMean).log (fun _ => SlateKind.snRips.propensity fun _ => 1 / Fintype.card (Fin 2 → Fin 2))
      (fun c => SlateKind.snRips.propensity (exSlatePolicy c)) n ω).args) 3
    (Var[(exSlateStream exSlateMean).snTerm .snRips (fun _ _ => 1 / Fintype.card (Fin 2 → Fin 2)) exSlatePolicy
      ((exSlateStream exSlateMean).slotValue (exSlateMeasure 2 2) exSlatePolicy exSlateMean) 0; exSlateMeasure 2 2]) := by
  rw [← exSlate_value]
  refine C183_slate_sn (exSlateStream_logged _) two_pos (.inr rfl) (exSlate_covers exSlate_rips)
    (fun l => exSlate_memLp fun o => slotWeight .snRips (fun _ _ => 1 / Fintype.card (Fin 2 → Fin 2)) exSlatePolicy l o.1 o.2.1 *
      (exSlateMean o.1 o.2.1 l + if o.2.2 then 1 else -1))
    (fun l => exSlate_memLp fun o => slotWeight .snRips (fun _ _ => 1 / Fintype.card (Fin 2 → Fin 2)) exSlatePolicy l o.1 o.2.1) ?_
  refine exSlate_variance (f := fun o => ∑ l, slotWeight .snRips (fun _ _ => 1 / Fintype.card (Fin 2 → Fin 2)) exSlatePolicy l o.1 o.2.1 *
    ((exSlateMean o.1 o.2.1 l + if o.2.2 then 1 else -1) - (exSlateStream exSlateMean).slotValue (exSlateMeasure 2 2) exSlatePolicy exSlateMean l))
    (o := (true, ![1, 0], false)) (o' := (true, ![1, 0], true)) ?_
  refine Finset.sum_lt_sum_of_nonempty Finset.univ_nonempty fun l _ => ?_
  have := exSlate_weight_pos .snRips l
  exact mul_lt_mul_of_pos_left (by norm_num) this

/-- SNSIPS. -/
example : NormalErrors (exSlateMeasure 2 2) (fun n ω => SlateKind.snSips.estimatePolicyValue 2
    ((exSlateStream exSlateMean).log (fun _ => SlateKind.snSips.propensity fun _ => 1 / Fintype.card (Fin 2 → Fin 2))
      (fun c => SlateKind.snSips.propensity (exSlatePolicy c)) n ω).args) 3
    (Var[fun ω => exSlatePolicy (ω 0).1 (ω 0).2.1 / (1 / Fintype.card (Fin 2 → Fin 2)) *
      ((∑ l, (exSlateMean (ω 0).1 (ω 0).2.1 l + if (ω 0).2.2 then 1 else -1)) - 3); exSlateMeasure 2 2]) := by
  rw [← exSlate_value]
  refine C183_slate_snsips (exSlateStream_logged _) two_pos (exSlate_covers fun c l a b (h : a = b) => by rw [h])
    (fun l => exSlate_memLp fun o => slotWeight .snSips (fun _ _ => 1 / Fintype.card (Fin 2 → Fin 2)) exSlatePolicy l o.1 o.2.1 *
      (exSlateMean o.1 o.2.1 l + if o.2.2 then 1 else -1))
    (fun l => exSlate_memLp fun o => slotWeight .snSips (fun _ _ => 1 / Fintype.card (Fin 2 → Fin 2)) exSlatePolicy l o.1 o.2.1) ?_
  refine exSlate_variance (f := fun o => exSlatePolicy o.1 o.2.1 / (1 / Fintype.card (Fin 2 → Fin 2)) *
    ((∑ l, (exSlateMean o.1 o.2.1 l + if o.2.2 then 1 else -1)) - (exSlateStream exSlateMean).value (exSlateMeasure 2 2) exSlatePolicy exSlateMean))
    (o := (true, ![1, 0], false)) (o' := (true, ![1, 0], true)) ?_
  norm_num [exSlatePolicy, Fin.sum_univ_two]
  linarith

end Obp
