import Verif.Model.Utils
import Verif.Spec.Prob
import Verif.Lemmas.Checks
import Mathlib.Algebra.BigOperators.Fin
import Mathlib.Algebra.BigOperators.Field

/-!
# C01, C02, C06, C07: sampling, one-hot conversion, softmax and sigmoid of `obp/utils.py`
-/

set_option linter.unusedSectionVars false

namespace Obp

/-! ### C01: `sample_action_fast` -/

section sampling
variable {K : Type} [Field K] [LinearOrder K] [IsStrictOrderedRing K]

theorem cumsumFrom_length (acc : K) (xs : List K) : (cumsumFrom acc xs).length = xs.length := by
  induction xs generalizing acc with
  | nil => rfl
  | cons x xs ih => simp [cumsumFrom, ih]

theorem cumsumFrom_getElem (acc : K) (xs : List K) (j : ℕ) (h : j < (cumsumFrom acc xs).length) :
    (cumsumFrom acc xs)[j] = acc + (xs.take (j + 1)).sum := by
  induction xs generalizing acc j with
  | nil => simp [cumsumFrom] at h
  | cons x xs ih =>
    cases j with
    | zero => simp [cumsumFrom]
    | succ j =>
      simp only [cumsumFrom, List.getElem_cons_succ]
      rw [ih]
      simp [add_assoc]

theorem argmaxBool_eq_iff {bs : List Bool} {a : ℕ} (hex : ∃ b ∈ bs, b = true) :
    argmaxBool bs = .ok a ↔ ∃ h : a < bs.length, bs[a] = true ∧ ∀ j, ∀ hj : j < a,
      bs[j] = false := by
  cases bs with
  | nil => simp at hex
  | cons b bs =>
    simp only [argmaxBool]
    split
    rotate_left
    · next hf =>
      rw [List.findIdx?_eq_none_iff] at hf
      obtain ⟨c, hc, rfl⟩ := hex
      simpa using hf _ hc
    · next i hf =>
      rw [List.findIdx?_eq_some_iff_getElem] at hf
      obtain ⟨hi, h1, h2⟩ := hf
      simp only [Except.ok.injEq]
      constructor
      · rintro rfl
        exact ⟨hi, by simpa using h1, fun j hj => by simpa using h2 j hj⟩
      · rintro ⟨ha, h3, h4⟩
        rcases lt_trichotomy i a with h | h | h
        · have := h4 i h; simp [this] at h1
        · exact h
        · have := h2 a h; simp [h3] at this

theorem sampleActionRow_iff {row : List K} (hnn : ∀ x ∈ row, 0 ≤ x) {u : K} (h0 : 0 ≤ u)
    (hu : u < row.sum) (a : ℕ) :
    sampleActionRow row u = .ok a ↔
      a < row.length ∧ (row.take a).sum ≤ u ∧ u < (row.take (a + 1)).sum := by
  have hmono : ∀ i j, i ≤ j → (row.take i).sum ≤ (row.take j).sum := fun i j hij => by
    obtain ⟨d, rfl⟩ := Nat.exists_eq_add_of_le hij
    rw [List.take_add, List.sum_append]
    have : 0 ≤ ((row.drop i).take d).sum := List.sum_nonneg fun x hx =>
      hnn x (List.mem_of_mem_drop (List.mem_of_mem_take hx))
    linarith
  have hlen : 0 < row.length := by
    rcases row with _ | ⟨x, xs⟩
    · simp at hu; exact absurd (lt_of_le_of_lt h0 hu) (lt_irrefl _)
    · simp
  have hget : ∀ j (h : j < ((cumsumFrom 0 row).map fun c => decide (u < c)).length),
      ((cumsumFrom 0 row).map fun c => decide (u < c))[j] = decide (u < (row.take (j + 1)).sum) := by
    intro j h
    rw [List.getElem_map, cumsumFrom_getElem]; simp
  unfold sampleActionRow
  rw [argmaxBool_eq_iff]
  · simp only [hget]
    constructor
    · rintro ⟨h, h1, h2⟩
      simp only [List.length_map, cumsumFrom_length] at h
      refine ⟨h, ?_, by simpa using h1⟩
      rcases a with _ | a
      · simpa using h0
      · simpa using h2 a (Nat.lt_succ_self a)
    · rintro ⟨h, h1, h2⟩
      refine ⟨by simpa [cumsumFrom_length] using h, by simpa using h2, fun j hj => ?_⟩
      simpa using (hmono (j + 1) a hj).trans h1
  · refine ⟨_, List.getElem_mem (n := row.length - 1) (by simp [cumsumFrom_length, hlen]), ?_⟩
    rw [hget, Nat.sub_add_cancel hlen, List.take_length]
    simpa using hu

/-- **C01.** For a row that is a probability distribution and a uniform draw `u` in `[0, 1)`, action
`a` is returned exactly when `u` lies in `[F(a), F(a) + p a)`, where `F(a)` is the probability of
the actions before `a`. That interval has length `p a`. -/
theorem C01_row_interval {A : ℕ} {p : Fin A → K} (hp : IsDist p) {u : K} (h0 : 0 ≤ u) (h1 : u < 1)
    (a : Fin A) :
    sampleActionRow (List.ofFn p) u = .ok (a : ℕ) ↔
      (∑ b with b < a, p b) ≤ u ∧ u < (∑ b with b < a, p b) + p a := by
  rw [sampleActionRow_iff (by simpa [List.mem_ofFn] using hp.nonneg) h0
    (by rw [List.sum_ofFn, hp.sum_one]; exact h1)]
  rw [List.sum_take_ofFn, List.sum_take_ofFn]
  have hs : (∑ b with b.val < (a : ℕ) + 1, p b) = (∑ b with b < a, p b) + p a := by
    rw [add_comm _ (p a), ← Finset.sum_insert (s := Finset.univ.filter fun b => b < a) (by simp)]
    congr 1
    ext b
    simp only [Finset.mem_filter, Finset.mem_univ, true_and, Finset.mem_insert, Fin.lt_def,
      Fin.ext_iff]
    omega
  rw [hs]
  simp only [List.length_ofFn, a.isLt, true_and, Fin.lt_def]

/-- **C01.** On probability rows the call succeeds and the action of each round is in range, has
positive probability and is the inverse-CDF image of that round's draw. -/
theorem C01_sample_action_fast {n A : ℕ} {p : Fin n → Fin A → K} (hp : ∀ i, IsDist (p i))
    {u : Fin n → K} (hu : ∀ i, 0 ≤ u i ∧ u i < 1) :
    ∃ act : Fin n → Fin A,
      sampleActionFast (List.ofFn fun i => List.ofFn (p i)) (List.ofFn u) =
        .ok (List.ofFn fun i => (act i : ℕ)) ∧
      ∀ i, 0 < p i (act i) ∧ (∑ b with b < act i, p i b) ≤ u i ∧
        u i < (∑ b with b < act i, p i b) + p i (act i) := by
  have hrow : ∀ i, ∃ a : Fin A, sampleActionRow (List.ofFn (p i)) (u i) = .ok (a : ℕ) := by
    intro i
    have hr : ∃ a, sampleActionRow (List.ofFn (p i)) (u i) = .ok a := by
      unfold sampleActionRow argmaxBool
      split
      · next h =>
        exfalso
        have : A = 0 := by simpa [cumsumFrom_length] using congrArg List.length h
        subst this
        have := (hp i).sum_one
        simp at this
      · split <;> simp
    obtain ⟨a, ha⟩ := hr
    have := (sampleActionRow_iff (by simpa [List.mem_ofFn] using (hp i).nonneg) (hu i).1
      (by rw [List.sum_ofFn, (hp i).sum_one]; exact (hu i).2) a).1 ha
    exact ⟨⟨a, by simpa using this.1⟩, ha⟩
  choose act hact using hrow
  refine ⟨act, ?_, fun i => ?_⟩
  · unfold sampleActionFast
    have : (List.ofFn fun i => List.ofFn (p i)).zip (List.ofFn u) =
        List.ofFn fun i => (List.ofFn (p i), u i) := by
      apply List.ext_getElem <;> simp
    rw [this]
    exact mapM_ofFn_ok hact
  · have := (C01_row_interval (hp i) (hu i).1 (hu i).2 (act i)).1 (hact i)
    exact ⟨by linarith [this.1, this.2], this⟩

/-- **C01, limit of the claim.** When no cumulative sum exceeds the draw (a row summing to less than
the draw, possible with rounding), action 0 is returned whatever its probability. -/
theorem C01_fallback_zero {row : List K} (hne : row ≠ []) {u : K}
    (h : ∀ j, j ≤ row.length → (row.take j).sum ≤ u) : sampleActionRow row u = .ok 0 := by
  unfold sampleActionRow argmaxBool
  split
  · next h' =>
    have := congrArg List.length h'
    simp [cumsumFrom_length, hne] at this
  · next b bs hb =>
    split
    · next i hi =>
      rw [List.findIdx?_eq_some_iff_getElem] at hi
      obtain ⟨hlt, h1, -⟩ := hi
      have hlt' : i < row.length := by
        have := congrArg List.length hb
        simp [cumsumFrom_length] at this
        simpa [this] using hlt
      have : (b :: bs)[i] = decide (u < (row.take (i + 1)).sum) := by
        simp only [← hb]
        rw [List.getElem_map, cumsumFrom_getElem]; simp
      rw [this] at h1
      simp only [decide_eq_true_eq] at h1
      exact absurd h1 (not_lt.2 (h _ hlt'))
    · rfl

example : IsDist (![1 / 4, 0, 3 / 4] : Fin 3 → ℚ) := ⟨by decide +kernel, by decide +kernel⟩
example : sampleActionFast [[1 / 4, 0, 3 / 4], [1 / 2, 1 / 2, 0]] [(1 / 4 : ℚ), 0] = .ok [2, 0] := by
  decide +kernel

end sampling

/-! ### C02: `convert_to_action_dist` -/

section onehot
variable {K : Type} [Field K] [LinearOrder K] [IsStrictOrderedRing K]

theorem foldlM_setOne {n A L : ℕ} (sel : Fin n → Fin L → ℤ) (l : Fin L) (is : List (Fin n))
    (v : Fin n → Fin A → Fin L → K) (hok : ∀ i ∈ is, ∃ a, wrapIdx A (sel i l) = some a) :
    is.foldlM (fun v i => setOne v i (sel i l) l) v =
      .ok fun i b l' => if i ∈ is ∧ l' = l ∧ wrapIdx A (sel i l) = some b then 1 else v i b l' := by
  induction is generalizing v with
  | nil => simp
  | cons i is ih =>
    obtain ⟨a, ha⟩ := hok i (by simp)
    rw [List.foldlM_cons]
    have : setOne v i (sel i l) l =
        .ok fun i' b l' => if i' = i ∧ b = a ∧ l' = l then 1 else v i' b l' := by
      simp [setOne, ha]
    rw [this, py_bind_ok, ih _ fun j hj => hok j (by simp [hj])]
    congr 1
    funext i' b l'
    by_cases h1 : i' ∈ is ∧ l' = l ∧ wrapIdx A (sel i' l) = some b
    · rw [if_pos h1, if_pos ⟨by simp [h1.1], h1.2⟩]
    · rw [if_neg h1]
      by_cases h2 : i' = i ∧ b = a ∧ l' = l
      · obtain ⟨rfl, rfl, rfl⟩ := h2
        simp [ha]
      · rw [if_neg h2, if_neg]
        rintro ⟨hm, rfl, hw⟩
        rcases List.mem_cons.1 hm with rfl | hm
        · rw [ha] at hw; cases hw; exact h2 ⟨rfl, rfl, rfl⟩
        · exact h1 ⟨hm, rfl, hw⟩

theorem foldlM_setOne_outer {n A L : ℕ} (sel : Fin n → Fin L → ℤ) (ls : List (Fin L))
    (v : Fin n → Fin A → Fin L → K) (hok : ∀ i, ∀ l ∈ ls, ∃ a, wrapIdx A (sel i l) = some a) :
    ls.foldlM (fun v l => (List.finRange n).foldlM (fun v i => setOne v i (sel i l) l) v) v =
      .ok fun i b l => if l ∈ ls ∧ wrapIdx A (sel i l) = some b then 1 else v i b l := by
  induction ls generalizing v with
  | nil => simp
  | cons l ls ih =>
    rw [List.foldlM_cons, foldlM_setOne sel l _ _ fun i _ => hok i l (by simp), py_bind_ok,
      ih _ fun i l hl => hok i l (by simp [hl])]
    congr 1
    funext i b l'
    simp only [List.mem_finRange, true_and, List.mem_cons]
    by_cases h1 : l' ∈ ls ∧ wrapIdx A (sel i l') = some b
    · simp [h1]
    · by_cases h2 : l' = l
      · subst h2; by_cases h3 : wrapIdx A (sel i l') = some b <;> simp [h3]
      · simp [h2]

theorem setOne_error_or {n A L : ℕ} (v : Fin n → Fin A → Fin L → K) (i : Fin n) (a : ℤ) (l : Fin L) :
    (∃ w, setOne v i a l = .ok w) ∨ setOne v i a l = .error .indexError := by
  unfold setOne; split <;> simp

theorem foldlM_error {σ β : Type} (f : σ → β → Py σ) (e : PyErr)
    (h : ∀ s b, (∃ t, f s b = .ok t) ∨ f s b = .error e) (xs : List β)
    (hbad : ∃ b ∈ xs, ∀ s, f s b = .error e) (s : σ) : xs.foldlM f s = .error e := by
  induction xs generalizing s with
  | nil => simp at hbad
  | cons x xs ih =>
    rw [List.foldlM_cons]
    rcases h s x with ⟨t, ht⟩ | ht
    · rw [ht, py_bind_ok]
      apply ih
      obtain ⟨b, hb, hb'⟩ := hbad
      rcases List.mem_cons.1 hb with rfl | hb
      · rw [hb'] at ht; simp at ht
      · exact ⟨b, hb, hb'⟩
    · rw [ht]; rfl

theorem foldlM_ok_or {σ β : Type} (f : σ → β → Py σ) (e : PyErr)
    (h : ∀ s b, (∃ t, f s b = .ok t) ∨ f s b = .error e) (xs : List β) (s : σ) :
    (∃ t, xs.foldlM f s = .ok t) ∨ xs.foldlM f s = .error e := by
  induction xs generalizing s with
  | nil => simp
  | cons x xs ih =>
    rw [List.foldlM_cons]
    rcases h s x with ⟨t, ht⟩ | ht
    · rw [ht, py_bind_ok]; exact ih t
    · rw [ht]; exact Or.inr rfl

/-- **C02.** When every selected id is in `[0, n_actions)` the result is one-hot at the selected
action of every `(round, position)`, and hence sums to one over actions. -/
theorem C02_convert_onehot {n A L : ℕ} (sel : Fin n → Fin L → Fin A) :
    ∃ v : Fin n → Fin A → Fin L → K,
      convertToActionDist A (fun i l => ((sel i l : ℕ) : ℤ)) = .ok v ∧
      (∀ i a l, v i a l = if a = sel i l then 1 else 0) ∧ ∀ i l, ∑ a, v i a l = 1 := by
  have h := foldlM_setOne_outer (K := K) (A := A) (fun i l => ((sel i l : ℕ) : ℤ)) (List.finRange L)
    (fun _ _ _ => 0) (fun i l _ => ⟨sel i l, wrapIdx_natCast _⟩)
  refine ⟨_, h, fun i a l => ?_, fun i l => ?_⟩
  · simp [eq_comm]
  · simp

/-- **C02.** The result passes the `action_dist` check of the estimators: used as `action_dist`
it is accepted by the OPE validation (with positions supplied). -/
theorem C02_convert_passes_check {n A L : ℕ} (sel : Fin n → Fin L → Fin A) :
    ∃ v : Fin n → Fin A → Fin L → K,
      convertToActionDist A (fun i l => ((sel i l : ℕ) : ℤ)) = .ok v ∧
      ∀ pos : Fin n → Fin L, 0 < n →
        ∃ x, checkOpeInputs
          { actionDist := .arr ⟨n, A, L, v⟩
            position := .int (List.ofFn fun i => ((pos i : ℕ) : ℤ)) } = .ok x := by
  obtain ⟨v, hv, -, hsum⟩ := C02_convert_onehot (K := K) sel
  refine ⟨v, hv, fun pos hn => ⟨⟨n, A, L, v⟩, ?_⟩⟩
  have hpos : checkPosition (K := K) ⟨n, A, L, v⟩ (.int (List.ofFn fun i => ((pos i : ℕ) : ℤ))) =
      .ok () := by
    rw [checkPosition_ok]
    refine Or.inr ⟨_, rfl, by simp, by simp; omega, ?_⟩
    intro z hz
    obtain ⟨i, rfl⟩ := List.mem_ofFn.1 hz
    have := (pos i).isLt
    exact ⟨by omega, by simp⟩
  have hd : distSumsToOne (⟨n, A, L, v⟩ : Arr3 K) = true := by
    simp [distSumsToOne, hsum, closeToOne_one]
  simp [checkOpeInputs, checkArray3, hd, raiseIf, hpos, checkRegModel, Arg3.isNone, checkEstIw,
    Arg1.isNone, checkActionReward, checkPscore]

/-- **C02.** Some id outside `[-n_actions, n_actions)` raises IndexError. -/
theorem C02_convert_out_of_range {n A L : ℕ} (sel : Fin n → Fin L → ℤ) (i : Fin n) (l : Fin L)
    (h : sel i l < -(A : ℤ) ∨ (A : ℤ) ≤ sel i l) :
    convertToActionDist (K := K) A sel = .error .indexError := by
  have hw : wrapIdx A (sel i l) = none := by
    unfold wrapIdx
    rw [dif_neg (by omega), dif_neg (by omega)]
  unfold convertToActionDist
  apply foldlM_error
  · intro v l; exact foldlM_ok_or _ _ (fun v i => setOne_error_or v i _ l) _ _
  · refine ⟨l, List.mem_finRange l, fun v => ?_⟩
    apply foldlM_error
    · intro v i; exact setOne_error_or v i _ l
    · exact ⟨i, List.mem_finRange i, fun v => by simp [setOne, hw]⟩

/-- **C02.** A negative id `-k` within range counts from the end, as Python indexing does. -/
theorem C02_convert_negative {n A L : ℕ} (sel : Fin n → Fin L → Fin A) :
    convertToActionDist (K := K) A (fun i l => ((sel i l : ℕ) : ℤ) - A) =
      convertToActionDist A (fun i l => ((sel i l : ℕ) : ℤ)) := by
  have hw : ∀ i l, wrapIdx A (((sel i l : ℕ) : ℤ) - A) = some (sel i l) := fun i l => by
    have := (sel i l).isLt
    unfold wrapIdx
    rw [dif_neg (by omega), dif_pos (by omega)]
    simp
  unfold convertToActionDist
  rw [foldlM_setOne_outer _ _ _ fun i l _ => ⟨_, hw i l⟩,
    foldlM_setOne_outer _ _ _ fun i l _ => ⟨_, wrapIdx_natCast _⟩]
  simp only [hw, wrapIdx_natCast]

example : (convertToActionDist (K := ℚ) 3 (fun (i : Fin 2) (l : Fin 2) => if i = l then 2 else 0)).map
    (fun v => (v 0 2 0, v 0 0 0, v 0 0 1)) = .ok (1, 0, 1) := by decide +kernel

end onehot

/-! ### C06: softmax -/

theorem softmaxWith_ofFn {n : ℕ} (e : ℝ → ℝ) (x : Fin (n + 1) → ℝ) :
    ∃ b, (∀ i, x i ≤ b) ∧ (∃ i, x i = b) ∧ softmaxWith e (List.ofFn x) =
      .ok (List.ofFn fun i => e (x i - b) / ∑ j, e (x j - b)) := by
  have hne : List.ofFn x ≠ [] := by simp
  obtain ⟨b, hb, hlt, hle⟩ := npMax_of_ne hne
  have hub : ∀ i, x i ≤ b := fun i => (hle b).1 le_rfl _ (List.mem_ofFn.2 ⟨i, rfl⟩)
  have hatt : ∃ i, x i = b := by
    by_contra hno
    push Not at hno
    have : b < b := (hlt b).2 fun y hy => by
      obtain ⟨i, rfl⟩ := List.mem_ofFn.1 hy
      exact lt_of_le_of_ne (hub i) (hno i)
    exact lt_irrefl _ this
  refine ⟨b, hub, hatt, ?_⟩
  unfold softmaxWith
  rw [hb]
  simp only [py_bind_ok, py_pure, List.map_ofFn, List.sum_ofFn]
  rfl

/-- **C06.** `softmax` of a non-empty row `x` is `exp (x i) / sum_j exp (x j)`. -/
theorem C06_softmax_value {n : ℕ} (x : Fin (n + 1) → ℝ) :
    softmaxWith Real.exp (List.ofFn x) =
      .ok (List.ofFn fun i => Real.exp (x i) / ∑ j, Real.exp (x j)) := by
  obtain ⟨b, -, -, h⟩ := softmaxWith_ofFn Real.exp x
  rw [h]
  congr 2
  funext i
  simp only [Real.exp_sub, ← Finset.sum_div]
  have := Real.exp_pos b
  have h2 : 0 < ∑ j, Real.exp (x j) := Finset.sum_pos (fun j _ => Real.exp_pos _) ⟨0, by simp⟩
  field_simp

/-- **C06.** The entries are positive, sum to one and are ordered like the logits; the result does
not change when a constant is added to the row. -/
theorem C06_softmax_policy {n : ℕ} (x : Fin (n + 1) → ℝ) :
    ∃ p : Fin (n + 1) → ℝ, softmaxWith Real.exp (List.ofFn x) = .ok (List.ofFn p) ∧
      (∀ i, 0 < p i) ∧ ∑ i, p i = 1 ∧ (∀ i j, x i ≤ x j ↔ p i ≤ p j) ∧
      ∀ c, softmaxWith Real.exp (List.ofFn fun i => x i + c) = .ok (List.ofFn p) := by
  have h2 : 0 < ∑ j, Real.exp (x j) := Finset.sum_pos (fun j _ => Real.exp_pos _) ⟨0, by simp⟩
  refine ⟨_, C06_softmax_value x, fun i => div_pos (Real.exp_pos _) h2, ?_, fun i j => ?_,
    fun c => ?_⟩
  · rw [← Finset.sum_div]; exact div_self h2.ne'
  · rw [div_le_div_iff_of_pos_right h2, Real.exp_le_exp]
  · rw [C06_softmax_value]
    congr 2
    funext i
    simp only [Real.exp_add, ← Finset.sum_mul]
    have := Real.exp_pos c
    field_simp

/-- **C06.** Only non-positive numbers are exponentiated: any function that agrees with `exp` there
gives the same result, so overflow for large arguments cannot matter. -/
theorem C06_softmax_no_overflow {n : ℕ} (e : ℝ → ℝ) (he : ∀ y ≤ 0, e y = Real.exp y)
    (x : Fin (n + 1) → ℝ) :
    softmaxWith e (List.ofFn x) = softmaxWith Real.exp (List.ofFn x) := by
  have hne : List.ofFn x ≠ [] := by simp
  obtain ⟨b, hb, -, hle⟩ := npMax_of_ne hne
  have hub : ∀ y ∈ List.ofFn x, e (y - b) = Real.exp (y - b) := fun y hy =>
    he _ (sub_nonpos.2 ((hle b).1 le_rfl y hy))
  unfold softmaxWith
  rw [hb]
  simp only [py_bind_ok, List.map_congr_left hub]

/-- **C06.** The denominator is at least one (the largest logit contributes `exp 0`), so the
division is well conditioned: the exponentials cannot all underflow. -/
theorem C06_softmax_no_underflow {n : ℕ} (x : Fin (n + 1) → ℝ) :
    ∃ b, softmaxWith Real.exp (List.ofFn x) =
      .ok (List.ofFn fun i => Real.exp (x i - b) / ∑ j, Real.exp (x j - b)) ∧
      1 ≤ ∑ j, Real.exp (x j - b) := by
  obtain ⟨b, -, ⟨i, hi⟩, h⟩ := softmaxWith_ofFn Real.exp x
  refine ⟨b, h, ?_⟩
  have := Finset.single_le_sum (f := fun j => Real.exp (x j - b))
    (fun j _ => (Real.exp_pos _).le) (Finset.mem_univ i)
  simpa [hi] using this

/-! ### C07: sigmoid -/

/-- **C07.** `sigmoid x = 1 / (1 + exp (-x))`. -/
theorem C07_sigmoid_value (x : ℝ) : sigmoidWith Real.exp x = 1 / (1 + Real.exp (-x)) := by
  unfold sigmoidWith
  rcases le_total 0 x with h | h
  · rw [min_eq_right h, abs_of_nonneg h, Real.exp_zero]
  · rw [min_eq_left h, abs_of_nonpos h, neg_neg, Real.exp_neg]
    have := Real.exp_pos x
    field_simp
    ring

/-- **C07.** Range, symmetry and strict monotonicity. -/
theorem C07_sigmoid_shape :
    (∀ x, 0 < sigmoidWith Real.exp x ∧ sigmoidWith Real.exp x < 1) ∧
    (∀ x, sigmoidWith Real.exp (-x) = 1 - sigmoidWith Real.exp x) ∧
    StrictMono (sigmoidWith Real.exp) ∧ sigmoidWith Real.exp 0 = 1 / 2 := by
  refine ⟨fun x => ?_, fun x => ?_, fun x y hxy => ?_, ?_⟩
  · rw [C07_sigmoid_value]
    have := Real.exp_pos (-x)
    refine ⟨by positivity, ?_⟩
    rw [div_lt_one (by positivity)]; linarith
  · rw [C07_sigmoid_value, C07_sigmoid_value, neg_neg, Real.exp_neg]
    have := Real.exp_pos x
    field_simp
    ring
  · rw [C07_sigmoid_value, C07_sigmoid_value]
    have := Real.exp_pos (-y)
    exact one_div_lt_one_div_of_lt (by positivity)
      (by have := Real.exp_lt_exp.2 (neg_lt_neg hxy); linarith)
  · rw [C07_sigmoid_value]; norm_num

/-- **C07.** Only non-positive numbers are exponentiated. -/
theorem C07_sigmoid_no_overflow (e : ℝ → ℝ) (he : ∀ y ≤ 0, e y = Real.exp y) (x : ℝ) :
    sigmoidWith e x = sigmoidWith Real.exp x := by
  unfold sigmoidWith
  rw [he _ (min_le_right _ _), he _ (by simp)]

end Obp
