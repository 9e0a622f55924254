import Verif.Lemmas.Checks
import Verif.Lemmas.Rounds

/-! # Which exceptions the validators raise, and what acceptance gives -/

set_option linter.unusedSectionVars false

namespace Obp
open Log

variable {K : Type} [Field K] [LinearOrder K]

/-- A computation that returns normally or raises ValueError. -/
def OnlyVE {α : Type} (p : Py α) : Prop := ∀ err, p = .error err → err = .valueError

section onlyVE
variable {α β : Type}

theorem OnlyVE.ok (a : α) : OnlyVE (.ok a : Py α) := by intro e h; cases h
theorem OnlyVE.err : OnlyVE (.error .valueError : Py α) := by intro e h; cases h; rfl
theorem OnlyVE.raiseIf (c : Bool) : OnlyVE (raiseIf c .valueError) := by
  unfold Obp.raiseIf; split
  · exact .err
  · exact .ok _
theorem OnlyVE.bind {p : Py α} {f : α → Py β} (hp : OnlyVE p) (hf : ∀ a, p = .ok a → OnlyVE (f a)) :
    OnlyVE (p >>= f) := by
  cases p with
  | error e => intro e' h; simp at h; subst h; exact hp _ rfl
  | ok a => exact hf a rfl

end onlyVE

theorem onlyVE_checkArray1 (a : Arg1 K) : OnlyVE (checkArray1 a) := by
  cases a <;> first | exact .ok _ | exact .err
theorem onlyVE_checkArray2 (a : Arg2 K) : OnlyVE (checkArray2 a) := by
  cases a <;> first | exact .ok _ | exact .err
theorem onlyVE_checkArray3 (a : Arg3 K) : OnlyVE (checkArray3 a) := by
  cases a <;> first | exact .ok _ | exact .err
theorem onlyVE_intNonneg (a : Arg1 K) : OnlyVE (intNonneg a) := by
  rcases intNonneg_cases a with ⟨v, h⟩ | h <;> rw [h]
  · exact .ok _
  · exact .err
theorem onlyVE_intInRange (a : Arg1 K) (b : ℕ) : OnlyVE (intInRange a b) := by
  rcases intInRange_cases a b with ⟨v, h⟩ | h <;> rw [h]
  · exact .ok _
  · exact .err
theorem onlyVE_npMax {α : Type} [LinearOrder α] (xs : List α) : OnlyVE (npMax xs) := by
  cases xs <;> first | exact .ok _ | exact .err
theorem onlyVE_shape0 {a : Arg1 K} {k : ℕ} (h : a.Leading k) : OnlyVE a.shape0 := by
  rw [shape0_ok.2 h]; exact .ok _

theorem onlyVE_checkPosition (x : Arr3 K) (p : Arg1 K) : OnlyVE (checkPosition x p) := by
  unfold checkPosition
  split
  · refine .bind (onlyVE_checkArray1 p) fun _ h => ?_
    obtain ⟨k, hk⟩ := checkArray1_ok.1 h
    refine .bind (onlyVE_shape0 (isVec_leading hk)) fun _ _ => .bind (.raiseIf _) fun _ _ =>
      .bind (onlyVE_intNonneg p) fun b hb => .bind (.raiseIf _) fun _ hr => .bind ?_
        fun _ _ => .raiseIf _
    have hbt : b = true := by have := raiseIf_ok.1 hr; simpa using this
    subst hbt
    obtain ⟨xs, rfl, -, -⟩ := intNonneg_ok_true.1 hb
    exact .bind (.ok _) fun _ _ => onlyVE_npMax _
  · exact .raiseIf _

theorem onlyVE_checkRegModel (x : Arr3 K) {q : Arg3 K} (hq : q ≠ .notArray) :
    OnlyVE (checkRegModel x q) := by
  cases q <;> first
    | exact absurd rfl hq
    | exact .ok _
    | exact .bind (.ok _) fun _ _ => .raiseIf _

theorem onlyVE_checkEstIw {a w : Arg1 K}
    (h : w = .none ∨ ∃ k l, a.Leading k ∧ w.Leading l) : OnlyVE (checkEstIw a w) := by
  unfold checkEstIw
  split
  · next hw =>
    rcases h with rfl | ⟨k, l, hk, hl⟩
    · simp [Arg1.isNone] at hw
    · exact .bind (onlyVE_shape0 hk) fun _ _ => .bind (onlyVE_shape0 hl) fun _ _ =>
        .bind (.raiseIf _) fun _ _ => .raiseIf _
  · exact .ok _

theorem onlyVE_checkActionReward (x : Arr3 K) (a r : Arg1 K) :
    OnlyVE (checkActionReward x a r) := by
  unfold checkActionReward
  split
  · refine .bind (onlyVE_checkArray1 a) fun _ h => .bind (onlyVE_checkArray1 r) fun _ h' => ?_
    obtain ⟨k, hk⟩ := checkArray1_ok.1 h
    obtain ⟨k', hk'⟩ := checkArray1_ok.1 h'
    exact .bind (onlyVE_shape0 (isVec_leading hk)) fun _ _ =>
      .bind (onlyVE_shape0 (isVec_leading hk')) fun _ _ => .bind (.raiseIf _) fun _ _ =>
      .bind (onlyVE_intInRange a _) fun _ _ => .raiseIf _
  · exact .ok _

theorem onlyVE_checkPscore {a r p : Arg1 K} (hp : p ≠ .notArray)
    (h : p = .none ∨ ∃ k l, a.Leading k ∧ r.Leading l) : OnlyVE (checkPscore a r p) := by
  have key : (∃ l, p.IsVec l) → (∃ k l, a.Leading k ∧ r.Leading l) → OnlyVE (do
      let a0 ← a.shape0
      let r0 ← r.shape0
      let p0 ← p.shape0
      raiseIf (¬ (a0 = r0 ∧ r0 = p0)) .valueError
      raiseIf (p.vals.any (fun w => decide (w ≤ 0))) .valueError) := by
    rintro ⟨m, hm⟩ ⟨k, l, hk, hl⟩
    exact .bind (onlyVE_shape0 hk) fun _ _ => .bind (onlyVE_shape0 hl) fun _ _ =>
      .bind (onlyVE_shape0 (isVec_leading hm)) fun _ _ => .bind (.raiseIf _) fun _ _ => .raiseIf _
  unfold checkPscore
  cases p with
  | none => exact .ok _
  | notArray => exact absurd rfl hp
  | nd s d => exact .err
  | int xs => exact key ⟨_, Or.inl ⟨xs, rfl, rfl⟩⟩ (by simpa using h)
  | flt xs => exact key ⟨_, Or.inr ⟨xs, rfl, rfl⟩⟩ (by simpa using h)

theorem onlyVE_checkOpeInputs {args : OpeArgs K} (hq : args.regModel ≠ .notArray)
    (hp : args.pscore ≠ .notArray)
    (hw : args.estIw = .none ∨ ∃ k l, args.action.Leading k ∧ args.estIw.Leading l)
    (ha : args.pscore = .none ∨ args.action ≠ .none ∨ args.reward ≠ .none) :
    OnlyVE (checkOpeInputs args) := by
  unfold checkOpeInputs
  refine .bind (onlyVE_checkArray3 _) fun x _ => .bind (.raiseIf _) fun _ _ =>
    .bind (onlyVE_checkPosition x _) fun _ _ => .bind (onlyVE_checkRegModel x hq) fun _ _ =>
    .bind (onlyVE_checkEstIw hw) fun _ _ => .bind (onlyVE_checkActionReward x _ _) fun _ hc =>
    .bind (onlyVE_checkPscore hp ?_) fun _ _ => .ok _
  rcases ha with h | h
  · exact Or.inl h
  · refine Or.inr ?_
    rcases checkActionReward_ok.1 hc with ⟨h1, h2⟩ | ⟨k, ⟨xs, h1, h2, -⟩, h3⟩
    · rcases h with h | h
      · exact absurd h1 h
      · exact absurd h2 h
    · exact ⟨k, k, Or.inl (Or.inl ⟨xs, h1, h2⟩), isVec_leading h3⟩

theorem checkOpeInputs_ok {args : OpeArgs K} {x : Arr3 K} (hq : args.regModel.WF) :
    checkOpeInputs args = .ok x ↔ args.WellFormed x := by
  simp only [checkOpeInputs, py_bind_eq_ok, exists_unit, checkArray3_ok, raiseIf_ok,
    decide_eq_false_iff_not, Bool.not_eq_false, distSumsToOne_iff, checkPosition_ok, py_pure,
    checkRegModel_ok hq, checkEstIw_ok, checkActionReward_ok, checkPscore_ok, Except.ok.injEq]
  constructor
  · rintro ⟨y, h1, h2, h3, h4, h5, h6, h7, rfl⟩; exact ⟨h1, h2, h3, h4, h5, h6, h7⟩
  · rintro ⟨h1, h2, h3, h4, h5, h6, h7⟩; exact ⟨x, h1, h2, h3, h4, h5, h6, h7, rfl⟩

/-! ### From accepted raw arguments to typed logs -/

theorem list_eq_ofFn {α : Type} {n : ℕ} {xs : List α} (h : xs.length = n) :
    ∃ f : Fin n → α, xs = List.ofFn f := by
  subst h; exact ⟨fun i => xs[i], by simp⟩

theorem isIndexVec_ofFn {a : Arg1 K} {n b : ℕ} (h : a.IsIndexVec n b) :
    ∃ f : Fin n → Fin b, a = .int (List.ofFn fun i => ((f i : ℕ) : ℤ)) := by
  obtain ⟨xs, rfl, hl, -, hr⟩ := h
  obtain ⟨f, rfl⟩ := list_eq_ofFn hl
  have hf : ∀ i, 0 ≤ f i ∧ f i < b := fun i => hr _ (List.mem_ofFn.2 ⟨i, rfl⟩)
  refine ⟨fun i => ⟨(f i).toNat, by have := hf i; omega⟩, ?_⟩
  congr 2; funext i
  simp [(hf i).1]

theorem isVec_vals {a : Arg1 K} {n : ℕ} (h : a.IsVec n) : ∃ f : Fin n → K, a.vals = List.ofFn f := by
  rcases h with ⟨xs, rfl, hl⟩ | ⟨xs, rfl, hl⟩
  · exact list_eq_ofFn (by simpa [Arg1.vals] using hl)
  · exact list_eq_ofFn hl

theorem isVec_of_checkArray1 {a : Arg1 K} {k : ℕ} (h : checkArray1 a = .ok ()) (h' : a.Leading k) :
    a.IsVec k := by
  obtain ⟨l, hl⟩ := checkArray1_ok.1 h
  rwa [isVec_unique h' (isVec_leading hl)]

theorem positionOrZeros_ofFn {x : Arr3 K} {p : Arg1 K} (hL : 0 < x.L)
    (h : (p = .none ∧ x.L ≤ 1) ∨ p.IsIndexVec x.n x.L) :
    ∃ f : Fin x.n → Fin x.L,
      positionOrZeros x p = .ok (List.ofFn fun i => ((f i : ℕ) : ℤ)) := by
  rcases h with ⟨rfl, -⟩ | h
  · refine ⟨fun _ => ⟨0, hL⟩, ?_⟩
    simp [positionOrZeros, Arg1.isNone, List.ofFn_const]
  · obtain ⟨f, rfl⟩ := isIndexVec_ofFn h
    exact ⟨f, by simp [positionOrZeros, Arg1.isNone, Arg1.ints]⟩

end Obp
