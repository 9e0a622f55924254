import Verif.Props.NormalSlate

set_option linter.unusedSectionVars false

/-!
# Errors and intervals of the cascade doubly robust estimator

C183: its errors are asymptotically normal, and how often its intervals contain the value.
-/

namespace Obp
open MeasureTheory ProbabilityTheory Filter Topology Log SlateStream

variable {Ω C : Type} [MeasurableSpace Ω] [MeasurableSpace C] {L A : ℕ} {P : Measure Ω} [IsProbabilityMeasure P]
variable {s : SlateStream Ω C L A} {piB piE : C → (Fin L → Fin A) → ℝ} {m : C → (Fin L → Fin A) → Fin L → ℝ}
variable {q dist : C → (Fin L → Fin A) → Fin L → Fin A → ℝ}

namespace SlateStream

/-- One slot of the corrected prediction. -/
noncomputable def cascadeSlot (piB piE : C → (Fin L → Fin A) → ℝ) (q dist : C → (Fin L → Fin A) → Fin L → Fin A → ℝ) (c : C)
    (a : Fin L → Fin A) (r : Fin L → ℝ) (l : Fin L) : ℝ :=
  slotWeight .rips piB piE l c a * (r l - q c a l (a l)) + prefixWeight piB piE l c a * ∑ b, dist c a l b * q c a l b

/-- The total as a function of the round. -/
noncomputable def cascadeFn (piB piE : C → (Fin L → Fin A) → ℝ) (q dist : C → (Fin L → Fin A) → Fin L → Fin A → ℝ)
    (x : C × (Fin L → Fin A) × (Fin L → ℝ)) : ℝ :=
  ∑ l, cascadeSlot piB piE q dist x.1 x.2.1 x.2.2 l

theorem cascadeTerm_eq (i : ℕ) (ω : Ω) :
    s.cascadeTerm piB piE q dist i ω = cascadeFn piB piE q dist (s.ctx i ω, s.slate i ω, s.rew i ω) := by
  unfold cascadeTerm cascadeFn cascadeSlot slotWeight prefixWeight
  simp only [← cascadePscore_eq (n := 1) (fun _ => piE (s.ctx i ω)) 0, ← cascadePscore_eq (n := 1) (fun _ => piB (s.ctx i ω)) 0]

theorem cascadeFn_meas (hs : s.LoggedBy P piB m) (hE : ∀ a, Measurable fun c => piE c a)
    (hqm : ∀ a l b, Measurable fun c => q c a l b) (hdm : ∀ a l b, Measurable fun c => dist c a l b) :
    Measurable (cascadeFn piB piE q dist) := by
  refine Finset.measurable_fun_sum _ fun l _ => ?_
  have h1 : Measurable fun x : C × (Fin L → Fin A) => q x.1 x.2 l (x.2 l) :=
    measurable_from_prod_countable_left fun a => hqm a l (a l)
  have h2 : Measurable fun x : C × (Fin L → Fin A) => prefixWeight piB piE l x.1 x.2 * ∑ b, dist x.1 x.2 l b * q x.1 x.2 l b :=
    measurable_from_prod_countable_left fun a => ((prefix_meas hE a l).div (prefix_meas hs.piB_meas a l)).mul
      (Finset.measurable_fun_sum _ fun b _ => (hdm a l b).mul (hqm a l b))
  have hp : Measurable fun x : C × (Fin L → Fin A) × (Fin L → ℝ) => (x.1, x.2.1) :=
    measurable_fst.prodMk (measurable_fst.comp measurable_snd)
  exact ((slotWeight_joint hs hE l).mul (((measurable_pi_apply l).comp (measurable_snd.comp measurable_snd)).sub (h1.comp hp))).add
    (h2.comp hp)

/-- The log is accepted, has one slate per round, and its rows hold the slots of the corrected predictions. -/
theorem LoggedBy.cascade_rows (hs : s.LoggedBy P piB m) (hL : 0 < L) (hE : Covers .rips piB piE m)
    (hd : ∀ c a l, IsDist (dist c a l)) : ∀ᵐ ω ∂P, ∀ n, 0 < n →
      (s.cascadeLog (fun c => SlateKind.rips.propensity (piB c)) (fun c => SlateKind.rips.propensity (piE c)) q dist n ω).Valid ∧
      (s.cascadeLog (fun c => SlateKind.rips.propensity (piB c)) (fun c => SlateKind.rips.propensity (piE c)) q dist n ω).numSlates = n ∧
      ∀ j, (s.cascadeLog (fun c => SlateKind.rips.propensity (piB c)) (fun c => SlateKind.rips.propensity (piE c)) q dist n ω).rowVal L j =
        cascadeSlot piB piE q dist (s.ctx j.divNat ω) (s.slate j.divNat ω) (s.rew j.divNat ω) j.modNat := by
  filter_upwards [hs.piB_ne hL] with ω hω n hn
  have hacc := log_accepts (piB := piB) hs.piB_dist hE.dist hL hn hω .rips
  refine ⟨⟨hacc, fun j => ?_⟩, ?_, fun j => ?_⟩
  · have := (hd (s.ctx j.divNat ω) (s.slate j.divNat ω) j.modNat).sum_one
    simp only [cascadeLog, this, sub_self, abs_zero]
    positivity
  · exact SlateProcess.log_numSlates (P := s.process piB n ω) hL (fun i => (s.slate i ω, 0)) (fun i => SlateKind.rips.propensity (piB (s.ctx i ω)))
      (fun i => SlateKind.rips.propensity (piE (s.ctx i ω)))
  · have hpV : (s.process piB n ω).Valid := ⟨fun i => hs.piB_dist _, fun i a => ⟨fun _ => zero_le_one, by simp [process]⟩⟩
    have hprev := cascade_prevWeight hpV (fun i : Fin n => piE (s.ctx i ω)) (fun i => hE.dist _) (fun i => (s.slate i ω, 0)) j
    have hlog : (s.process piB n ω).log (fun i => (s.slate i ω, 0)) (cascadePscore (s.process piB n ω).piB)
        (cascadePscore fun i : Fin n => piE (s.ctx i ω)) =
        s.log (fun c => SlateKind.rips.propensity (piB c)) (fun c => SlateKind.rips.propensity (piE c)) n ω := by
      rw [log_eq (piB := piB)]
      congr 1
      · funext i a l
        exact cascadePscore_eq _ _ _ _
      · funext i a l
        exact cascadePscore_eq (fun i : Fin n => piE (s.ctx i ω)) _ _ _
    rw [hlog] at hprev
    unfold CascadeLog.rowVal
    rw [show (s.cascadeLog (fun c => SlateKind.rips.propensity (piB c)) (fun c => SlateKind.rips.propensity (piE c)) q dist n ω).toSlateLog =
      s.log (fun c => SlateKind.rips.propensity (piB c)) (fun c => SlateKind.rips.propensity (piE c)) n ω from rfl, hprev]
    rfl

theorem LoggedBy.cascade_mean (hs : s.LoggedBy P piB m) (hL : 0 < L) (hE : Covers .rips piB piE m)
    (hd : ∀ c a l, IsDist (dist c a l)) : ∀ᵐ ω ∂P, ∀ n, 0 < n → cascadeDrValue L A
      (s.cascadeLog (fun c => SlateKind.rips.propensity (piB c)) (fun c => SlateKind.rips.propensity (piE c)) q dist n ω).args = .ok (meanTo (fun i => s.cascadeTerm piB piE q dist i ω) n) := by
  filter_upwards [hs.cascade_rows (q := q) hL hE hd] with ω hω n hn
  obtain ⟨hv, hns, hr⟩ := hω n hn
  rw [cascadeValue_eq hL hv (by rw [hns]), hns, meanTo, ← Fin.sum_univ_eq_sum_range (fun i => s.cascadeTerm piB piE q dist i ω)]
  simp only [hr, cascadeTerm_eq]
  rw [sum_grid fun (i : Fin n) l => cascadeSlot piB piE q dist (s.ctx i ω) (s.slate i ω) (s.rew i ω) l]
  rfl

theorem LoggedBy.cascade_interval (hs : s.LoggedBy P piB m) (hL : 0 < L) (hE : Covers .rips piB piE m)
    (hd : ∀ c a l, IsDist (dist c a l)) : ∀ᵐ ω ∂P, ∀ n, 0 < n → ∀ c draws, cascadeDrInterval L A
      (s.cascadeLog (fun c => SlateKind.rips.propensity (piB c)) (fun c => SlateKind.rips.propensity (piE c)) q dist n ω).args c draws = bootstrapCI (List.ofFn fun i : Fin n => s.cascadeTerm piB piE q dist i ω) c draws := by
  filter_upwards [hs.cascade_rows (q := q) hL hE hd] with ω hω n hn c draws
  obtain ⟨hv, hns, hr⟩ := hω n hn
  rw [cascadeInterval_eq hL hv (by rw [hns])]
  have := log_slateSums (s := s) hL (fun c => SlateKind.rips.propensity (piB c)) (fun c => SlateKind.rips.propensity (piE c)) n ω
    fun i l => cascadeSlot piB piE q dist (s.ctx i ω) (s.slate i ω) (s.rew i ω) l
  simp only [← hr] at this
  refine Eq.trans (congrArg (fun xs => bootstrapCI xs c draws) this) ?_
  simp only [cascadeTerm_eq, cascadeFn]

end SlateStream

/-- **C183.** Cascade-DR, with any bounded reward model that looks only at a slot and the actions above it: the errors are normal
with the variance of the corrected prediction for a slate. -/
theorem C183_cascade_dr (hs : s.LoggedBy P piB m) (hL : 0 < L) (hE : Covers .rips piB piE m)
    (hi : ∀ l, Integrable (fun ω => slotWeight .rips piB piE l (s.ctx 0 ω) (s.slate 0 ω) * s.rew 0 ω l) P)
    {q dist : C → (Fin L → Fin A) → Fin L → Fin A → ℝ}
    (hq : ∀ c l a b, (∀ m < l, a m = b m) → q c a l = q c b l) (hqm : ∀ a l b, Measurable fun c => q c a l b)
    {Q : ℝ} (hQ : ∀ c a l b, |q c a l b| ≤ Q)
    (hd : ∀ c a l, IsDist (dist c a l)) (hdp : ∀ c l a b, (∀ m < l, a m = b m) → dist c a l = dist c b l)
    (hdm : ∀ a l b, Measurable fun c => dist c a l b)
    (hcond : ∀ c a l b, prefixPscore (fun _ : Fin 1 => piE c) 0 a l * dist c a l b =
      cascadePscore (fun _ : Fin 1 => piE c) 0 (Function.update a l b) l)
    (h2 : MemLp (s.cascadeTerm piB piE q dist 0) 2 P) (hv : Var[s.cascadeTerm piB piE q dist 0; P] ≠ 0) :
    NormalErrors P (fun n ω => cascadeDrValue L A
      (s.cascadeLog (fun c => SlateKind.rips.propensity (piB c)) (fun c => SlateKind.rips.propensity (piE c)) q dist n ω).args)
      (s.value P piE m) (Var[s.cascadeTerm piB piE q dist 0; P]) := by
  have hF := cascadeFn_meas (q := q) (dist := dist) hs hE.meas hqm hdm
  have hest := hs.cascade_mean (q := q) hL hE hd
  simp only [funext fun i => funext fun ω => cascadeTerm_eq (s := s) (piB := piB) (piE := piE) (q := q) (dist := dist) i ω] at h2 hv hest ⊢
  have hm := hs.iid.mean_of_results (F := cascadeFn piB piE q dist) hF (h2.integrable one_le_two) hest
    (C160_cascade_dr hs hL hE hi hq hqm hQ hd hdp hdm hcond)
  exact normalErrors_mean (F := cascadeFn piB piE q dist) hs.iid hF h2 hm hv hest

/-- **C183.** The intervals of Cascade-DR. -/
theorem C183_cascade_coverage (hs : s.LoggedBy P piB m) (hL : 0 < L) (hE : Covers .rips piB piE m)
    (hi : ∀ l, Integrable (fun ω => slotWeight .rips piB piE l (s.ctx 0 ω) (s.slate 0 ω) * s.rew 0 ω l) P)
    {q dist : C → (Fin L → Fin A) → Fin L → Fin A → ℝ}
    (hq : ∀ c l a b, (∀ m < l, a m = b m) → q c a l = q c b l) (hqm : ∀ a l b, Measurable fun c => q c a l b)
    {Q : ℝ} (hQ : ∀ c a l b, |q c a l b| ≤ Q)
    (hd : ∀ c a l, IsDist (dist c a l)) (hdp : ∀ c l a b, (∀ m < l, a m = b m) → dist c a l = dist c b l)
    (hdm : ∀ a l b, Measurable fun c => dist c a l b)
    (hcond : ∀ c a l b, prefixPscore (fun _ : Fin 1 => piE c) 0 a l * dist c a l b =
      cascadePscore (fun _ : Fin 1 => piE c) 0 (Function.update a l b) l)
    (h2 : MemLp (s.cascadeTerm piB piE q dist 0) 2 P) (hv : Var[s.cascadeTerm piB piE q dist 0; P] ≠ 0)
    {Ω' : Type} [MeasurableSpace Ω'] {P' : Measure Ω'} [IsProbabilityMeasure P']
    {f : Ω' → Ω} (hf : MeasurePreserving f P' P) {B : ℕ} (hB : 1 ≤ B) (R : Resampling P' (fun i ω => s.cascadeTerm piB piE q dist i (f ω)) B)
    {alpha : ℝ} (h0 : 0 ≤ alpha) (h1 : alpha ≤ 1) :
    NearlyCovers (fun n => P'.real {ω | ReturnsAround (cascadeDrInterval L A
      (s.cascadeLog (fun c => SlateKind.rips.propensity (piB c)) (fun c => SlateKind.rips.propensity (piE c)) q dist n (f ω)).args
      (ciCall alpha B) (R.draws n ω)) (s.value P piE m)}) alpha B := by
  have hF := cascadeFn_meas (q := q) (dist := dist) hs hE.meas hqm hdm
  have hest := hs.cascade_mean (q := q) hL hE hd
  have hiv := hs.cascade_interval (q := q) hL hE hd
  have e := funext fun i => funext fun ω => cascadeTerm_eq (s := s) (piB := piB) (piE := piE) (q := q) (dist := dist) i ω
  have e' : (fun i ω => s.cascadeTerm piB piE q dist i (f ω)) =
      fun i ω => cascadeFn piB piE q dist (s.ctx i (f ω), s.slate i (f ω), s.rew i (f ω)) :=
    funext fun i => funext fun ω => cascadeTerm_eq i (f ω)
  revert R
  rw [e']
  intro R
  simp only [e] at h2 hv hest hiv
  have hm := hs.iid.mean_of_results (F := cascadeFn piB piE q dist) hF (h2.integrable one_le_two) hest
    (C160_cascade_dr hs hL hE hi hq hqm hQ hd hdp hdm hcond)
  exact nearlyCovers_rounds (F := cascadeFn piB piE q dist) hs.iid hF h2 hm hv hf hB R h0 h1 hiv

/-! ### A case: a wrong reward model -/

noncomputable def exCascadeQ (_ : Bool) (a : Fin 2 → Fin 2) (l b : Fin 2) : ℝ := if l = 0 then 5 else (a 0 : ℕ) - 7 * (b : ℕ)

noncomputable def exCascadeDist (c : Bool) (_ : Fin 2 → Fin 2) (l b : Fin 2) : ℝ :=
  if l = 0 then (if (b = 1) = c then 1 else 0) else 1 / 2

example : NormalErrors (exSlateMeasure 2 2) (fun n ω => cascadeDrValue 2 2
    ((exSlateStream exSlateMean).cascadeLog (fun _ => SlateKind.rips.propensity fun _ => 1 / Fintype.card (Fin 2 → Fin 2))
      (fun c => SlateKind.rips.propensity (exSlatePolicy c)) exCascadeQ exCascadeDist n ω).args) 3
    (Var[(exSlateStream exSlateMean).cascadeTerm (fun _ _ => 1 / Fintype.card (Fin 2 → Fin 2)) exSlatePolicy exCascadeQ exCascadeDist 0;
      exSlateMeasure 2 2]) := by
  rw [← exSlate_value]
  refine C183_cascade_dr (Q := 100) (exSlateStream_logged _) two_pos (exSlate_covers exSlate_rips) (exSlate_weighted _)
    (fun c l a b h => ?_) (fun a l b => measurable_of_finite _) (fun c a l b => ?_) (fun c a l => ⟨fun b => ?_, ?_⟩)
    (fun c l a b h => ?_) (fun a l b => measurable_of_finite _) (fun c a l b => ?_) ?_ ?_
  · funext x
    unfold exCascadeQ
    split
    · rfl
    · rw [h 0 (by omega)]
  · unfold exCascadeQ
    split
    · norm_num
    · have h1 : ((a 0 : ℕ) : ℝ) ≤ 1 := by exact_mod_cast (by omega : (a 0 : ℕ) ≤ 1)
      have h2 : ((b : ℕ) : ℝ) ≤ 1 := by exact_mod_cast (by omega : (b : ℕ) ≤ 1)
      have h3 : (0 : ℝ) ≤ (a 0 : ℕ) := Nat.cast_nonneg _
      have h4 : (0 : ℝ) ≤ (b : ℕ) := Nat.cast_nonneg _
      rw [abs_le]
      constructor <;> linarith
  · unfold exCascadeDist
    split
    · split <;> norm_num
    · norm_num
  · rw [Fin.sum_univ_two]
    unfold exCascadeDist
    by_cases hl : l = 0 <;> cases c <;> simp [hl]
    all_goals norm_num
  · rfl
  · unfold prefixPscore cascadePscore exCascadeDist
    simp only [sum_slates]
    fin_cases l <;> fin_cases b <;> cases c <;> (obtain ⟨x, y, rfl⟩ : ∃ x y, a = ![x, y] := ⟨a 0, a 1, by ext i; fin_cases i <;> rfl⟩) <;>
      fin_cases x <;> fin_cases y <;> simp [exSlatePolicy, Fin.forall_fin_two, Function.update] <;> norm_num
  · rw [funext (cascadeTerm_eq 0)]
    exact exSlate_memLp fun o => cascadeFn (fun _ _ => 1 / Fintype.card (Fin 2 → Fin 2)) exSlatePolicy exCascadeQ exCascadeDist
      (o.1, o.2.1, fun l => exSlateMean o.1 o.2.1 l + if o.2.2 then 1 else -1)
  · rw [funext (cascadeTerm_eq 0)]
    refine exSlate_variance (f := fun o => cascadeFn (fun _ _ => 1 / Fintype.card (Fin 2 → Fin 2)) exSlatePolicy exCascadeQ exCascadeDist
      (o.1, o.2.1, fun l => exSlateMean o.1 o.2.1 l + if o.2.2 then 1 else -1)) (o := (true, ![1, 0], false)) (o' := (true, ![1, 0], true)) ?_
    refine Finset.sum_lt_sum_of_nonempty Finset.univ_nonempty fun l _ => ?_
    have := exSlate_weight_pos .rips l
    exact add_lt_add_left (mul_lt_mul_of_pos_left (by norm_num) this) _

end Obp
