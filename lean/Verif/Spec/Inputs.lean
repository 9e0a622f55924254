import Verif.Model.Checks

/-!
# Which inputs count as well-formed

Predicates on raw API arguments, written without reference to the validators.
-/

namespace Obp

variable {K : Type} [Field K] [LinearOrder K]

/-- A one-dimensional array of length `k`. -/
def Arg1.IsVec (a : Arg1 K) (k : ℕ) : Prop :=
  (∃ xs : List ℤ, a = .int xs ∧ xs.length = k) ∨ ∃ xs : List K, a = .flt xs ∧ xs.length = k

/-- An array whose leading dimension is `k`. -/
def Arg1.Leading (a : Arg1 K) (k : ℕ) : Prop :=
  a.IsVec k ∨ ∃ s d, a = .nd (k :: s) d

/-- A non-empty integer vector of length `k` with entries in `[0, b)`. -/
def Arg1.IsIndexVec (a : Arg1 K) (k b : ℕ) : Prop :=
  ∃ xs : List ℤ, a = .int xs ∧ xs.length = k ∧ xs ≠ [] ∧ ∀ z ∈ xs, 0 ≤ z ∧ z < b

/-- The representation invariant of `Arg3`: the constructor `nd` stands for arrays that are not
three-dimensional. -/
def Arg3.WF : Arg3 K → Prop
  | .nd s => s.length ≠ 3
  | _ => True

/-- Inputs that `check_ope_inputs` is meant to accept (`obp/utils.py:313-345`, docstring). -/
structure OpeArgs.WellFormed (g : OpeArgs K) (x : Arr3 K) : Prop where
  /-- `action_dist` is 3-D -/
  dist : g.actionDist = .arr x
  /-- every `(round, position)` slice sums to one within `1e-5 + 1e-8` -/
  dist_sum : ∀ i l, |∑ a, x.val i a l - 1| ≤ 1 / 10 ^ 8 + 1 / 10 ^ 5
  /-- positions in range, or omitted and at most one position -/
  position : (g.position = .none ∧ x.L ≤ 1) ∨ g.position.IsIndexVec x.n x.L
  /-- predictions have the shape of `action_dist` -/
  regModel : g.regModel = .none ∨ ∃ y : Arr3 K, g.regModel = .arr y ∧ y.n = x.n ∧ y.A = x.A ∧ y.L = x.L
  /-- estimated weights: one per action, non-negative -/
  estIw : g.estIw = .none ∨
    ((∃ k, g.action.Leading k ∧ g.estIw.Leading k) ∧ ∀ w ∈ g.estIw.vals, 0 ≤ w)
  /-- actions in range, with as many rewards; or both omitted -/
  action : (g.action = .none ∧ g.reward = .none) ∨
    ∃ k, g.action.IsIndexVec k x.A ∧ g.reward.IsVec k
  /-- propensities: one per action and reward, positive -/
  pscore : g.pscore = .none ∨
    ((∃ k, g.action.Leading k ∧ g.reward.Leading k ∧ g.pscore.IsVec k) ∧ ∀ p ∈ g.pscore.vals, 0 < p)

end Obp
