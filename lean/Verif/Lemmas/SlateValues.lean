import Verif.Props.SlateChecks
import Verif.Props.Bootstrap

/-! # Closed forms of the slate estimators -/

set_option linter.unusedSectionVars false

namespace Obp

variable {K : Type} [Field K] [LinearOrder K] [IsStrictOrderedRing K]
variable {N : ℕ}

open Classical in
/-- Per-row contributions; `none` when a normaliser is zero. -/
noncomputable def SlateKind.rowVals (k : SlateKind) (lenList : ℕ) (g : SlateLog K N) :
    Option (Fin N → K) :=
  match k with
  | .sips | .iips | .rips => some fun i => g.reward i * g.weight i
  | .snSips =>
    if (∑ i, g.weight i) / (N : K) = 0 then none
    else some fun i => g.reward i * g.weight i / ((∑ i, g.weight i) / (N : K))
  | .snIips | .snRips =>
    if ∃ i, g.pos i < lenList ∧ g.posMean (g.pos i) = 0 then none
    else some fun i => if g.pos i < lenList then g.reward i * g.weight i / g.posMean (g.pos i) else 0

/-- The list outcome for per-row values. -/
def rowOutcome (o : Option (Fin N → K)) : Py (List K) :=
  match o with
  | none => .error .nonFinite
  | some f => .ok (List.ofFn f)

theorem slateRound_eq (k : SlateKind) (lenList : ℕ) {g : SlateLog K N} (h : k.Accepts g) :
    k.round lenList g.rows = rowOutcome (k.rowVals lenList g) := by
  cases k
  · exact g.slateIpwRound_eq h.2.1
  · exact g.slateIpwRound_eq h.2.1
  · exact g.slateIpwRound_eq h.2.1
  · simp only [SlateKind.round, SlateKind.rowVals]
    rw [g.slateSnGlobalRound_eq h.2.1 h.1]; split <;> rfl
  · simp only [SlateKind.round, SlateKind.rowVals]
    rw [g.slateSnRound_eq h.2.1 lenList]; split <;> rfl
  · simp only [SlateKind.round, SlateKind.rowVals]
    rw [g.slateSnRound_eq h.2.1 lenList]; split <;> rfl

theorem slateValue_eq (k : SlateKind) (lenList : ℕ) {g : SlateLog K N} (h : k.Accepts g) :
    k.estimatePolicyValue lenList g.args =
      match k.rowVals lenList g with
      | none => .error .nonFinite
      | some f => .ok ((∑ i, f i) / (g.numSlates : K)) := by
  unfold SlateKind.estimatePolicyValue
  rw [slateCheck_args k g h, py_bind_ok, slateRound_eq k lenList h, g.unique_length]
  have h0 : (g.numSlates : K) ≠ 0 := by exact_mod_cast (g.numSlates_pos h.1).ne'
  cases k.rowVals lenList g with
  | none => rfl
  | some f => simp only [rowOutcome, py_bind_ok, List.sum_ofFn, npDiv_ok h0]

/-- The distinct slates of a log in increasing order. -/
def SlateLog.slates (g : SlateLog K N) : List ℤ := npUnique (g.rows.map (·.slate))

theorem slateSums_eq (g : SlateLog K N) (f : Fin N → K) :
    slateSums g.rows (List.ofFn f) =
      g.slates.map fun s => ∑ i, if (g.slate i : ℤ) = s then f i else 0 := by
  unfold slateSums SlateLog.slates
  refine List.map_congr_left fun s _ => ?_
  have hz : g.rows.zip (List.ofFn f) =
      List.ofFn fun i => (⟨g.slate i, g.pos i, g.reward i, g.ps i, g.eps i⟩, f i) := by
    unfold SlateLog.rows
    apply List.ext_getElem <;> simp
  rw [hz, sum_filter_ofFn]
  simp

theorem sum_slateSums (g : SlateLog K N) (f : Fin N → K) :
    (slateSums g.rows (List.ofFn f)).sum = ∑ i, f i := by
  have hnd : g.slates.Nodup := npUnique_nodup _
  rw [slateSums_eq, ← List.sum_toFinset _ hnd, Finset.sum_comm]
  refine Finset.sum_congr rfl fun i _ => ?_
  rw [Finset.sum_ite_eq, if_pos]
  rw [List.mem_toFinset]
  exact npUnique_mem.2 (List.mem_map.2 ⟨_, SlateLog.mem_rows.2 ⟨i, rfl⟩, rfl⟩)

theorem slates_permute (g : SlateLog K N) (σ : Equiv.Perm (Fin N)) : (g.permute σ).slates = g.slates := by
  refine npUnique_perm ?_
  simp only [SlateLog.rows, SlateLog.permute, List.map_ofFn, Function.comp_def]
  exact Equiv.Perm.ofFn_comp_perm σ fun x => (g.slate x : ℤ)

theorem slateSums_permute (g : SlateLog K N) (σ : Equiv.Perm (Fin N)) (f : Fin N → K) :
    slateSums (g.permute σ).rows (List.ofFn (f ∘ σ)) = slateSums g.rows (List.ofFn f) := by
  rw [slateSums_eq, slateSums_eq, slates_permute]
  refine List.map_congr_left fun s _ => ?_
  exact Equiv.sum_comp σ fun i => if (g.slate i : ℤ) = s then f i else 0

theorem numSlates_permute (g : SlateLog K N) (σ : Equiv.Perm (Fin N)) :
    (g.permute σ).numSlates = g.numSlates := by
  rw [← SlateLog.unique_length, ← SlateLog.unique_length]
  exact congrArg List.length (slates_permute g σ)

theorem posMean_permute (g : SlateLog K N) (σ : Equiv.Perm (Fin N)) (p : ℕ) :
    (g.permute σ).posMean p = g.posMean p := by
  unfold SlateLog.posMean
  congr 1
  · exact Equiv.sum_comp σ fun j => if g.pos j = p then g.weight j else 0
  · congr 1
    rw [Finset.card_filter, Finset.card_filter]
    exact Equiv.sum_comp σ fun j => if g.pos j = p then 1 else 0

theorem rowVals_permute (k : SlateKind) (lenList : ℕ) (g : SlateLog K N) (σ : Equiv.Perm (Fin N)) :
    k.rowVals lenList (g.permute σ) = (k.rowVals lenList g).map (· ∘ σ) := by
  have hw : ∀ i, (g.permute σ).weight i = g.weight (σ i) := fun i => rfl
  have hr : ∀ i, (g.permute σ).reward i = g.reward (σ i) := fun i => rfl
  have hp : ∀ i, (g.permute σ).pos i = g.pos (σ i) := fun i => rfl
  have hs : (∑ i, g.weight (σ i)) = ∑ i, g.weight i := Equiv.sum_comp σ g.weight
  have hsn : (∃ i, g.pos (σ i) < lenList ∧ g.posMean (g.pos (σ i)) = 0) ↔
      ∃ i, g.pos i < lenList ∧ g.posMean (g.pos i) = 0 :=
    ⟨fun ⟨i, h⟩ => ⟨_, h⟩, fun ⟨i, h⟩ => ⟨σ.symm i, by simpa using h⟩⟩
  cases k <;> simp only [SlateKind.rowVals, hw, hr, hp, hs, posMean_permute]
  · rfl
  · rfl
  · rfl
  · split <;> rfl
  · by_cases h : ∃ i, g.pos i < lenList ∧ g.posMean (g.pos i) = 0
    · rw [if_pos (hsn.2 h), if_pos h]; rfl
    · rw [if_neg (fun hh => h (hsn.1 hh)), if_neg h]; rfl
  · by_cases h : ∃ i, g.pos i < lenList ∧ g.posMean (g.pos i) = 0
    · rw [if_pos (hsn.2 h), if_pos h]; rfl
    · rw [if_neg (fun hh => h (hsn.1 hh)), if_neg h]; rfl

/-! ### The cascade doubly robust estimator -/

variable {A : ℕ}

/-- The weight of the row before, or one at the first row of a block of `lenList` rows. -/
def SlateLog.prevWeight (g : SlateLog K N) (lenList : ℕ) (j : Fin N) : K :=
  if (j : ℕ) % lenList = 0 then 1 else g.weight ⟨j - 1, by omega⟩

/-- Per-row contribution of the cascade doubly robust estimator. -/
def CascadeLog.rowVal (g : CascadeLog K N A) (lenList : ℕ) (j : Fin N) : K :=
  g.weight j * (g.reward j - g.q j (g.action j)) +
    g.toSlateLog.prevWeight lenList j * ∑ b, g.dist j b * g.q j b

theorem cascade_accepted {g : CascadeLog K N A} (h : g.Valid) :
    checkCascadeDrInputs A g.args = .ok g.rows := by
  have hN := h.rips.1
  have hA : 0 < A := lt_of_le_of_lt (Nat.zero_le _) (g.action ⟨0, hN⟩).isLt
  obtain ⟨r, hr⟩ := (C12_accept_iff_partial hA g.args).2 ⟨N, g.toSlateLog, g.toSlateLog.args_encodes,
    h.rips, ⟨_, rfl, by simp, fun he => by have := congrArg List.length he; simp at this; omega, by
      intro z hz
      obtain ⟨i, rfl⟩ := List.mem_ofFn.1 hz
      exact ⟨by omega, by have := (g.action i).isLt; omega⟩⟩,
    ⟨N * A, Or.inr ⟨_, rfl, flatten2_length _⟩, le_refl _, Nat.mul_lt_mul_of_pos_right (by omega) hA⟩,
    Or.inr ⟨_, rfl, flatten2_length _⟩, g.dist, rfl, h.dist_sum⟩
  have : r = g.rows := by
    unfold checkCascadeDrInputs at hr
    simp only [py_bind_eq_ok, exists_unit, raiseIf_ok, py_pure, Except.ok.injEq] at hr
    obtain ⟨rows, h1, -, -, -, _, -, -, _, -, _, -, _, -, _, -, -, -, -, rfl⟩ := hr
    have h2 := slateCheck_args .rips g.toSlateLog h.rips
    exact Except.ok.inj (h1.symm.trans h2)
  rw [hr, this]

theorem roll1_ofFn {α : Type} (f : Fin N → α) (hN : 0 < N) :
    roll1 (List.ofFn f) = List.ofFn fun j : Fin N =>
      if (j : ℕ) = 0 then f ⟨N - 1, by omega⟩ else f ⟨j - 1, by omega⟩ := by
  have hl : (List.ofFn f).getLast? = some (f ⟨N - 1, by omega⟩) := by
    rw [List.getLast?_eq_getElem?, List.length_ofFn, List.getElem?_ofFn, dif_pos (by omega)]
  unfold roll1
  rw [hl]
  apply List.ext_getElem
  · simp; omega
  · intro j h1 h2
    rcases j with _ | j
    · simp
    · simp

theorem mapIdx_ofFn {α β : Type} (f : Fin N → α) (h : ℕ → α → β) :
    (List.ofFn f).mapIdx h = List.ofFn fun j => h j (f j) := by
  apply List.ext_getElem <;> simp

theorem cascadeRound_eq {lenList : ℕ} (hL : 0 < lenList) {g : CascadeLog K N A} (h : g.Valid)
    (hn : g.numSlates * lenList = N) :
    cascadeDrRound lenList A g.numSlates g.rows (List.ofFn fun i => ((g.action i : ℕ) : ℤ))
      (flatten2 g.q) (flatten2 g.dist) = .ok (List.ofFn (g.rowVal lenList)) := by
  have hN := h.rips.1
  have hA : 0 < A := lt_of_le_of_lt (Nat.zero_le _) (g.action ⟨0, hN⟩).isLt
  have hmod : (N * A) % (lenList * A) = 0 := by
    rw [← hn, Nat.mul_assoc, Nat.mul_mod_left]
  have hLA : lenList * A ≠ 0 := (Nat.mul_pos hL hA).ne'
  unfold cascadeDrRound
  dsimp only
  rw [show raiseIf _ PyErr.valueError = .ok () from raiseIf_ok.2 (by
    simp [flatten2_length, hmod, hL.ne', hA.ne']), py_bind_ok]
  have hq : ((List.range (g.numSlates * lenList)).mapM fun j =>
      qObserved A (List.ofFn fun i => ((g.action i : ℕ) : ℤ)) (flatten2 g.q) j) =
      .ok (List.ofFn fun i => g.q i (g.action i)) := by
    rw [hn, show List.range N = List.ofFn (fun i : Fin N => (i : ℕ)) from by
      apply List.ext_getElem <;> simp]
    refine mapM_ofFn_ok fun i => ?_
    have h1 : (List.ofFn fun i => ((g.action i : ℕ) : ℤ))[(i : ℕ)]? = some ((g.action i : ℕ) : ℤ) := by
      rw [List.getElem?_ofFn, dif_pos i.isLt]
    simp only [qObserved, h1, wrapIdx_natCast, Option.bind_some, flatten2_getElem?]
  rw [hq, py_bind_ok]
  have hprod : bop (· * ·) (flatten2 g.dist) (flatten2 g.q) =
      .ok (flatten2 fun i b => g.dist i b * g.q i b) := by
    unfold flatten2; exact bop_ofFn _ _ _
  rw [hprod, py_bind_ok, show raiseIf _ PyErr.valueError = .ok () from raiseIf_ok.2 (by
    simp [flatten2_length, hmod]), py_bind_ok, blockSums_flatten2 hA, g.iw_rows h.rips.2.1, py_bind_ok,
    roll1_ofFn _ hN, show raiseIf _ PyErr.indexError = .ok () from raiseIf_ok.2 (by
      simp only [List.length_ofFn, List.any_eq_false, List.mem_range, decide_eq_true_eq, not_le]
      intro i hi
      rw [← hn]
      exact Nat.mul_lt_mul_of_pos_right hi hL), py_bind_ok, mapIdx_ofFn]
  have hrows : g.rows.map (·.reward) = List.ofFn g.reward := by
    simp [SlateLog.rows, List.map_ofFn, Function.comp_def]
  rw [hrows, bop_ofFn, py_bind_ok, bop_ofFn, py_bind_ok, bop_ofFn, py_bind_ok, bop_ofFn]
  congr 2
  funext j
  have hj : (j : ℕ) / lenList < g.numSlates := by
    rw [Nat.div_lt_iff_lt_mul hL, hn]; exact j.isLt
  unfold CascadeLog.rowVal SlateLog.prevWeight
  congr 2
  by_cases hm : (j : ℕ) % lenList = 0
  · rw [if_pos ⟨hm, hj⟩, if_pos hm]
  · rw [if_neg (fun hh => hm hh.1), if_neg hm, if_neg]
    intro h0; rw [h0] at hm; simp at hm

theorem cascadeValue_eq {lenList : ℕ} (hL : 0 < lenList) {g : CascadeLog K N A} (h : g.Valid)
    (hn : g.numSlates * lenList = N) :
    cascadeDrValue lenList A g.args = .ok ((∑ j, g.rowVal lenList j) / (g.numSlates : K)) := by
  unfold cascadeDrValue
  dsimp only
  rw [cascade_accepted h, py_bind_ok, show g.args.action.ints = .ok _ from rfl, py_bind_ok,
    g.unique_length]
  rw [show g.args.qHat.vals = flatten2 g.q from rfl, show g.args.evalDist.vals = flatten2 g.dist from rfl,
    cascadeRound_eq hL h hn, py_bind_ok, List.sum_ofFn]
  exact npDiv_ok (by exact_mod_cast (g.numSlates_pos h.rips.1).ne')

theorem cascadeInterval_eq [FloorRing K] {lenList : ℕ} (hL : 0 < lenList) {g : CascadeLog K N A}
    (h : g.Valid) (hn : g.numSlates * lenList = N) (c : CiArgs K) (draws : List (List ℕ)) :
    cascadeDrInterval lenList A g.args c draws =
      bootstrapCI (slateSums g.rows (List.ofFn (g.rowVal lenList))) c draws := by
  unfold cascadeDrInterval
  dsimp only
  rw [cascade_accepted h, py_bind_ok, show g.args.action.ints = .ok _ from rfl, py_bind_ok,
    g.unique_length]
  rw [show g.args.qHat.vals = flatten2 g.q from rfl, show g.args.evalDist.vals = flatten2 g.dist from rfl,
    cascadeRound_eq hL h hn, py_bind_ok]

end Obp
