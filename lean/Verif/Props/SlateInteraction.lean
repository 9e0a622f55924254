import Verif.Model.SlateInteraction
import Verif.Spec.SlateInteraction
import Verif.Props.SlateReward
import Verif.Props.Utils

/-! # C146: expected rewards of slates, from the arguments to the result -/

set_option linter.unusedSectionVars false

namespace Obp

theorem logitFn_of {q : ℝ} (h : 0 < q ∧ q < 1) : logitFn q = .ok (Real.log (q / (1 - q))) := if_pos h

theorem slateUnlink_eq (binary : Bool) (v : ℝ) :
    (if binary then sigmoidWith Real.exp v else clipReward v) = slateUnlink binary v := by
  cases binary
  · rfl
  · simp [slateUnlink, C07_sigmoid_value]

/-- The base rewards after the first transformation. -/
theorem linked_base {n A : ℕ} {binary : Bool} {b : Fin n → Fin A → ℝ} (hb : binary = true → ∀ i a, 0 < b i a ∧ b i a < 1) :
    slateBase binary (List.ofFn fun i => List.ofFn (b i)) = .ok (List.ofFn fun i => List.ofFn fun a => slateLink binary (b i a)) := by
  unfold slateBase
  cases binary
  · rfl
  · simp only [if_true]
    refine mapM_ofFn_ok fun i => mapM_ofFn_ok fun a => ?_
    rw [logitFn_of (hb rfl i a)]
    rfl

/-- The value of one position before the last transformation. -/
theorem slateReward_value {A L : ℕ} (hA : A ≤ 128) (binary : Bool) (st : RewardStructure) (b : Fin A → ℝ) (W : Fin A → Fin A → ℝ)
    (V : Fin L → Fin L → ℝ) (s : Fin L → Fin A) (k : Fin L) :
    ∃ v, interactionValue st L (List.ofFn fun a => slateLink binary (b a))
      (if st.isAdditive then List.ofFn fun a => List.ofFn (W a) else List.ofFn fun a => List.ofFn (V a)) (List.ofFn fun i => (s i).val) k = .ok v ∧
      slateUnlink binary v = slateReward binary st b W V s k := by
  cases st
  case independent =>
    refine ⟨slateLink binary (b (s k)), ?_, by simp [slateReward]⟩
    exact (C112_additive_partial hA (fun a => slateLink binary (b a)) (fun _ _ => 0) _ s k).1
  case cascadeAdditive =>
    refine ⟨_, (C112_additive_partial hA (fun a => slateLink binary (b a)) W [] s k).2.1, rfl⟩
  case standardAdditive =>
    refine ⟨_, (C112_additive_partial hA (fun a => slateLink binary (b a)) W [] s k).2.2, rfl⟩
  case cascadeDecay =>
    refine ⟨_, interactionValue_ok hA (fun a => slateLink binary (b a)) _ s k _ fun j => interactionTerm_decay rfl hA _ V s k j, ?_⟩
    simp [slateReward, RewardStructure.isCascade, Finset.sum_filter]
  case standardDecay =>
    refine ⟨_, interactionValue_ok hA (fun a => slateLink binary (b a)) _ s k _ fun j => interactionTerm_decay rfl hA _ V s k j, ?_⟩
    simp [slateReward, RewardStructure.isCascade, Finset.sum_filter]

/-- The names of reward types. -/
theorem slateRewardBinary_ok (binary : Bool) : slateRewardBinary (if binary then "binary" else "continuous") = .ok binary := by
  cases binary <;> rfl

theorem weights_shape {A L : ℕ} (st : RewardStructure) (W : Fin A → Fin A → ℝ) (V : Fin L → Fin L → ℝ) :
    let M := if st.isAdditive then List.ofFn fun a => List.ofFn (W a) else List.ofFn fun a => List.ofFn (V a)
    let size := if st.isAdditive then A else L
    (!(decide (M.length = size) && M.all fun row => decide (row.length = size))) = false := by
  cases h : st.isAdditive <;> simp

/-- **C146.** The rewards of logged slates: for every round and position the documented formula, except that the base rewards are those of round
`i / len_list` (see C110). At most 128 actions (see C111); binary base rewards strictly between 0 and 1. -/
theorem C146_rewards_partial {n A L : ℕ} (hn : 0 < n) (hL : 0 < L) (hA : A ≤ 128) (binary : Bool) {name : String} {st : RewardStructure}
    (hname : (name, st) ∈ [("independent", .independent), ("cascade_additive", .cascadeAdditive), ("standard_additive", .standardAdditive),
      ("cascade_decay", .cascadeDecay), ("standard_decay", .standardDecay)])
    (b : Fin n → Fin A → ℝ) (hb : binary = true → ∀ i a, 0 < b i a ∧ b i a < 1) (W : Fin A → Fin A → ℝ) (V : Fin L → Fin L → ℝ)
    (s : Fin n → Fin L → Fin A) :
    slateInteraction A (if binary then "binary" else "continuous") name L false (List.ofFn fun i => List.ofFn (b i))
      (if st = .cascadeAdditive ∨ st = .standardAdditive then List.ofFn fun a => List.ofFn (W a) else List.ofFn fun a => List.ofFn (V a))
      (List.ofFn fun i => List.ofFn fun k => (s i k).val).flatten =
    .ok (List.ofFn fun i => List.ofFn fun k =>
      slateReward binary st (b ⟨i / L, (Nat.div_le_self _ _).trans_lt i.2⟩) W V (s i) k) := by
  have hst : RewardStructure.ofName name = .ok st := by
    simp only [List.mem_cons, Prod.mk.injEq, List.not_mem_nil, or_false] at hname
    rcases hname with ⟨rfl, rfl⟩ | ⟨rfl, rfl⟩ | ⟨rfl, rfl⟩ | ⟨rfl, rfl⟩ | ⟨rfl, rfl⟩ <;> rfl
  have hM : (if st = .cascadeAdditive ∨ st = .standardAdditive then List.ofFn fun a => List.ofFn (W a) else List.ofFn fun a => List.ofFn (V a)) =
      (if st.isAdditive then List.ofFn fun a => List.ofFn (W a) else List.ofFn fun a => List.ofFn (V a)) := by
    cases st <;> rfl
  have hfl : (List.ofFn fun i => List.ofFn fun k => (s i k).val).flatten.length = L * n := by
    rw [List.length_flatten, List.map_ofFn, show (List.length ∘ fun i => List.ofFn fun k => (s i k).val) = fun _ => L from funext fun i => by simp,
      List.sum_ofFn]
    simp [mul_comm]
  choose v hv hu using fun (i : Fin n) (k : Fin L) =>
    slateReward_value hA binary st (b ⟨i / L, (Nat.div_le_self _ _).trans_lt i.2⟩) W V (s i) k
  unfold slateInteraction
  rw [raiseIf_neg (by simp), py_bind_ok, raiseIf_neg (by simp [hfl]), py_bind_ok, slateRewardBinary_ok, py_bind_ok, hst, py_bind_ok, hM]
  simp only []
  rw [raiseIf_neg (weights_shape st W V), py_bind_ok, linked_base hb, py_bind_ok,
    C110_round_used hn hL st (fun i => List.ofFn fun a => slateLink binary (b i a)) _ _ (by simp) v hv, py_bind_ok, py_pure]
  simp only [List.map_ofFn, Function.comp_def, slateUnlink_eq, hu]

/-- **C146.** The same when the slates are enumerated for every round, as for the ground truth: row `r * m + i` has the rewards of slate `i` in
round `r`. -/
theorem C146_enumerated_partial {n m A L : ℕ} (hn : 0 < n) (hm : 0 < m) (hL : 0 < L) (hA : A ≤ 128) (binary : Bool) {name : String}
    {st : RewardStructure}
    (hname : (name, st) ∈ [("independent", .independent), ("cascade_additive", .cascadeAdditive), ("standard_additive", .standardAdditive),
      ("cascade_decay", .cascadeDecay), ("standard_decay", .standardDecay)])
    (b : Fin n → Fin A → ℝ) (hb : binary = true → ∀ i a, 0 < b i a ∧ b i a < 1) (W : Fin A → Fin A → ℝ) (V : Fin L → Fin L → ℝ)
    (s : Fin m → Fin L → Fin A) :
    ∃ rows, slateInteraction A (if binary then "binary" else "continuous") name L true (List.ofFn fun i => List.ofFn (b i))
      (if st = .cascadeAdditive ∨ st = .standardAdditive then List.ofFn fun a => List.ofFn (W a) else List.ofFn fun a => List.ofFn (V a))
      (List.ofFn fun i => List.ofFn fun k => (s i k).val).flatten = .ok rows ∧ rows.length = n * m ∧
      ∀ (r : Fin n) (i : Fin m), rows[r.val * m + i.val]? = some (List.ofFn fun k =>
        slateReward binary st (b ⟨r / L, (Nat.div_le_self _ _).trans_lt r.2⟩) W V (s i) k) := by
  have hst : RewardStructure.ofName name = .ok st := by
    simp only [List.mem_cons, Prod.mk.injEq, List.not_mem_nil, or_false] at hname
    rcases hname with ⟨rfl, rfl⟩ | ⟨rfl, rfl⟩ | ⟨rfl, rfl⟩ | ⟨rfl, rfl⟩ | ⟨rfl, rfl⟩ <;> rfl
  have hM : (if st = .cascadeAdditive ∨ st = .standardAdditive then List.ofFn fun a => List.ofFn (W a) else List.ofFn fun a => List.ofFn (V a)) =
      (if st.isAdditive then List.ofFn fun a => List.ofFn (W a) else List.ofFn fun a => List.ofFn (V a)) := by
    cases st <;> rfl
  have hfl : (List.ofFn fun i => List.ofFn fun k => (s i k).val).flatten.length = L * m := by
    rw [List.length_flatten, List.map_ofFn, show (List.length ∘ fun i => List.ofFn fun k => (s i k).val) = fun _ => L from funext fun i => by simp,
      List.sum_ofFn]
    simp [mul_comm]
  choose v hv hu using fun (r : Fin n) (i : Fin m) (k : Fin L) =>
    slateReward_value hA binary st (b ⟨r / L, (Nat.div_le_self _ _).trans_lt r.2⟩) W V (s i) k
  obtain ⟨rows, hrows, hlen, hr⟩ := C110_round_used_enumerated hn hm hL st (fun i => List.ofFn fun a => slateLink binary (b i a)) _
    (fun i => List.ofFn fun k => (s i k).val) (by simp) v hv
  refine ⟨rows.map fun row => row.map fun v => slateUnlink binary v, ?_, by simp [hlen], fun r i => ?_⟩
  · unfold slateInteraction
    rw [raiseIf_neg (by simp [hfl]), py_bind_ok, raiseIf_neg (by simp), py_bind_ok, slateRewardBinary_ok, py_bind_ok, hst, py_bind_ok, hM]
    simp only []
    rw [raiseIf_neg (weights_shape st W V), py_bind_ok, linked_base hb, py_bind_ok, hrows, py_bind_ok, py_pure]
    simp only [slateUnlink_eq]
  · rw [List.getElem?_map, hr]
    simp only [Option.map_some, List.map_ofFn, Function.comp_def, hu]

/-- **C146.** What the function returns is a probability strictly between 0 and 1 for binary rewards, and non-negative for continuous ones, whatever
the weights and the arguments are. -/
theorem C146_range {A L : ℕ} {rewardType name : String} {enumerated : Bool} {base W : List (List ℝ)} {action : List ℕ} {rows : List (List ℝ)}
    (h : slateInteraction A rewardType name L enumerated base W action = .ok rows) :
    (rewardType = "binary" ∧ ∀ row ∈ rows, ∀ q ∈ row, 0 < q ∧ q < 1) ∨ (rewardType = "continuous" ∧ ∀ row ∈ rows, ∀ q ∈ row, 0 ≤ q) := by
  unfold slateInteraction at h
  simp only [py_bind_eq_ok] at h
  obtain ⟨_, _, _, _, binary, hbin, st, _, _, _, _, _, rows', _, hr⟩ := h
  have hr' := Except.ok.inj hr
  subst hr'
  unfold slateRewardBinary at hbin
  split at hbin
  · obtain rfl := Except.ok.inj hbin
    refine Or.inl ⟨rfl, ?_⟩
    simp only [List.mem_map]
    rintro _ ⟨row, _, rfl⟩ q hq
    obtain ⟨v, _, rfl⟩ := List.mem_map.1 hq
    exact C07_sigmoid_shape.1 v
  · obtain rfl := Except.ok.inj hbin
    refine Or.inr ⟨rfl, ?_⟩
    simp only [List.mem_map]
    rintro _ ⟨row, _, rfl⟩ q hq
    obtain ⟨v, _, rfl⟩ := List.mem_map.1 hq
    exact le_max_right _ _
  · cases hbin

/-- **C146.** With the independent structure the expected reward is the base reward of the action itself. -/
theorem C146_independent {A L : ℕ} (binary : Bool) (b : Fin A → ℝ) (W : Fin A → Fin A → ℝ) (V : Fin L → Fin L → ℝ) (s : Fin L → Fin A) (k : Fin L)
    (hb : if binary then 0 < b (s k) ∧ b (s k) < 1 else 0 ≤ b (s k)) : slateReward binary .independent b W V s k = b (s k) := by
  cases binary
  · simpa [slateReward, slateUnlink, slateLink] using hb
  · simp only [if_true] at hb
    have h1 : 0 < 1 - b (s k) := by linarith [hb.2]
    simp only [slateReward, slateUnlink, slateLink, if_true, add_zero, Real.exp_neg, Real.exp_log (div_pos hb.1 h1)]
    have := hb.1.ne'
    field_simp
    ring

/-- **C146.** For binary rewards the effects are added to the log-odds. -/
theorem C146_log_odds (v : ℝ) : Real.log (slateUnlink true v / (1 - slateUnlink true v)) = v := by
  have : 0 < Real.exp (-v) := Real.exp_pos _
  have e : slateUnlink true v / (1 - slateUnlink true v) = Real.exp v := by
    rw [show Real.exp v = (Real.exp (-v))⁻¹ by rw [Real.exp_neg, inv_inv]]
    simp only [slateUnlink, if_true]
    field_simp
    ring
  rw [e, Real.log_exp]

/-- **C146.** What is refused, always with a ValueError. -/
theorem C146_rejects {A L : ℕ} (rewardType name : String) (enumerated : Bool) (base W : List (List ℝ)) (action : List ℕ)
    (h : (enumerated = true ∧ ¬ L ∣ action.length) ∨ (enumerated = false ∧ action.length ≠ L * base.length) ∨
      (rewardType ≠ "binary" ∧ rewardType ≠ "continuous") ∨
      name ∉ ["independent", "cascade_additive", "standard_additive", "cascade_decay", "standard_decay"] ∨
      (name ∈ ["cascade_additive", "standard_additive"] ∧ (W.length ≠ A ∨ ∃ row ∈ W, row.length ≠ A)) ∨
      (name ∉ ["cascade_additive", "standard_additive"] ∧ (W.length ≠ L ∨ ∃ row ∈ W, row.length ≠ L))) :
    slateInteraction A rewardType name L enumerated base W action = .error .valueError := by
  unfold slateInteraction
  by_cases h1 : enumerated = true ∧ ¬ L ∣ action.length
  · rw [raiseIf_pos (by simp [h1.1, Nat.dvd_iff_mod_eq_zero] at h1 ⊢; exact h1), py_bind_error]
  rw [raiseIf_neg (by simpa [Nat.dvd_iff_mod_eq_zero] using h1), py_bind_ok]
  by_cases h2 : enumerated = false ∧ action.length ≠ L * base.length
  · rw [raiseIf_pos (by simpa using h2), py_bind_error]
  rw [raiseIf_neg (by simpa using h2), py_bind_ok]
  by_cases h3 : rewardType ≠ "binary" ∧ rewardType ≠ "continuous"
  · have : slateRewardBinary rewardType = .error .valueError := by
      unfold slateRewardBinary
      split
      · exact absurd rfl h3.1
      · exact absurd rfl h3.2
      · rfl
    rw [this, py_bind_error]
  have hb : ∃ binary, slateRewardBinary rewardType = .ok binary := by
    by_cases hc : rewardType = "binary"
    · exact ⟨true, by rw [hc]; rfl⟩
    · have : rewardType = "continuous" := by by_contra h'; exact h3 ⟨hc, h'⟩
      exact ⟨false, by rw [this]; rfl⟩
  obtain ⟨binary, hb⟩ := hb
  rw [hb, py_bind_ok]
  simp only [h1, h2, h3, false_or] at h
  by_cases h4 : name ∉ ["independent", "cascade_additive", "standard_additive", "cascade_decay", "standard_decay"]
  · have : RewardStructure.ofName name = .error .valueError := by
      unfold RewardStructure.ofName
      split <;> first | rfl | simp at h4
    rw [this, py_bind_error]
  simp only [h4, false_or] at h
  have shape : ∀ size, (W.length ≠ size ∨ ∃ row ∈ W, row.length ≠ size) →
      (!(decide (W.length = size) && W.all fun row => decide (row.length = size))) = true := by
    intro size hs
    by_contra hc
    simp only [Bool.not_eq_true', Bool.not_eq_false, Bool.and_eq_true, decide_eq_true_eq, List.all_eq_true] at hc
    rcases hs with hs | ⟨row, hr, hs⟩
    · exact hs hc.1
    · exact hs (hc.2 row hr)
  simp only [not_not, List.mem_cons, List.not_mem_nil, or_false] at h4
  rcases h4 with rfl | rfl | rfl | rfl | rfl
  · rw [show RewardStructure.ofName "independent" = .ok .independent from rfl, py_bind_ok]
    simp only [RewardStructure.isAdditive, Bool.false_eq_true, if_false]
    rw [raiseIf_pos (shape L (by simpa using h)), py_bind_error]
  · rw [show RewardStructure.ofName "cascade_additive" = .ok .cascadeAdditive from rfl, py_bind_ok]
    simp only [RewardStructure.isAdditive, if_true]
    rw [raiseIf_pos (shape A (by simpa using h)), py_bind_error]
  · rw [show RewardStructure.ofName "standard_additive" = .ok .standardAdditive from rfl, py_bind_ok]
    simp only [RewardStructure.isAdditive, if_true]
    rw [raiseIf_pos (shape A (by simpa using h)), py_bind_error]
  · rw [show RewardStructure.ofName "cascade_decay" = .ok .cascadeDecay from rfl, py_bind_ok]
    simp only [RewardStructure.isAdditive, Bool.false_eq_true, if_false]
    rw [raiseIf_pos (shape L (by simpa using h)), py_bind_error]
  · rw [show RewardStructure.ofName "standard_decay" = .ok .standardDecay from rfl, py_bind_ok]
    simp only [RewardStructure.isAdditive, Bool.false_eq_true, if_false]
    rw [raiseIf_pos (shape L (by simpa using h)), py_bind_error]

/-- Two positions, two actions, one round: base rewards 1 and 2, weight -4 between the two actions. The first position is not affected, the second
would be negative and is clipped. -/
example : slateInteraction 2 "continuous" "cascade_additive" 2 false [[1, 2]] [[0, -4], [-4, 0]] [0, 1] = .ok [[1, 0]] := by
  have := C146_rewards_partial (n := 1) (A := 2) (L := 2) one_pos two_pos (by norm_num) false (name := "cascade_additive") (st := .cascadeAdditive)
    (by simp) (fun _ => ![1, 2]) (by simp) ![![0, -4], ![-4, 0]] (fun _ _ => 0) (fun _ => ![0, 1])
  norm_num [slateReward, slateUnlink, slateLink, Finset.sum_filter, Fin.sum_univ_two, List.ofFn_succ] at this
  exact this

/-- A weight matrix of the size of the slate is refused by the additive structures when there are more actions. -/
example : slateInteraction 3 "binary" "standard_additive" 2 false [[1 / 2, 1 / 3, 1 / 4]] [[0, 1], [1, 0]] [0, 1] = .error .valueError :=
  C146_rejects _ _ _ _ _ _ (by simp)

end Obp
