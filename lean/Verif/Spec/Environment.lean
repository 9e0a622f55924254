import Verif.Model.Environment

/-! # Vocabulary for the environment simulator (C144, C145) -/

namespace Obp

variable {R C D K : Type} [Field K] [LinearOrder K]

/-- All arrays of the batch have one row per round. -/
structure EnvRounds.Full (b : EnvRounds K) : Prop where
  context : b.context.length = b.nRounds
  rewards : b.rewards.length = b.nRounds
  expected : b.expected.length = b.nRounds
  delays : ∀ ds ∈ b.delays, ds.length = b.nRounds

/-- `r` is round `i` of the batch: every per-round field is row `i` of the array of that name, the other two are those of the
batch. -/
structure EnvRounds.IsRow (b : EnvRounds K) (i : ℕ) (r : EnvRound K) : Prop where
  nActions : r.nActions = b.nActions
  actionContext : r.actionContext = .mat b.actionContext
  context : ∃ c, b.context[i]? = some c ∧ r.context = .vec c
  rewards : b.rewards[i]? = some r.rewards
  expected : b.expected[i]? = some r.expected
  delays : match b.delays with
    | none => r.delays = none
    | some ds => ∃ d, ds[i]? = some d ∧ r.delays = some d

/-- `rs` are all rounds of the batch, in order. -/
def EnvRounds.AllRows (b : EnvRounds K) (rs : List (EnvRound K)) : Prop :=
  rs.length = b.nRounds ∧ ∀ i r, rs[i]? = some r → b.IsRow i r

/-- A matrix with `n` rows of `d` entries. -/
def IsMat (n d : ℕ) (m : List (List K)) : Prop := m.length = n ∧ ∀ row ∈ m, row.length = d

/-- Expected rewards numpy accepts as success probabilities. -/
def AreProbs (p : List (List K)) : Prop := ∀ row ∈ p, ∀ x ∈ row, 0 ≤ x ∧ x ≤ 1

/-- The arrays of a batch: one row per requested round in the contexts, with one entry per context dimension; the rewards, of the
shape of the expected rewards, are zeros and ones. -/
structure EnvRounds.Binary (b : EnvRounds K) (d : ℕ) : Prop where
  context : IsMat b.nRounds d b.context
  rewards : b.rewards.length = b.expected.length
  rows : ∀ (i : ℕ) (row prow : List K), b.rewards[i]? = some row → b.expected[i]? = some prow → row.length = prow.length
  binary : ∀ row ∈ b.rewards, ∀ y ∈ row, y = 0 ∨ y = 1
  probs : AreProbs b.expected

/-- A delay function that always returns one delay per round and action. -/
def EnvDelayFn.Fits (f : EnvDelayFn D K) (A : ℕ) : Prop :=
  ∀ d n p, IsMat n A p → AreProbs p → ∃ ds d', f d n A p = .ok (ds, d') ∧ IsMat n A ds

/-- The environment produced exactly these rounds one after the other. -/
inductive FreshRounds (ops : EnvRng R K) (e : Env C D K) : EnvState R C D → List (EnvRound K) → EnvState R C D → Prop
  | nil (t) : FreshRounds ops e t [] t
  | cons {t u v : EnvState R C D} {b : EnvRound K} {bs : List (EnvRound K)} (h : e.nextRound ops t = .ok (b, u))
      (hs : FreshRounds ops e u bs v) : FreshRounds ops e t (b :: bs) v

end Obp
