import Verif.Model.Slate
import Verif.Spec.Inputs

/-!
# Specification vocabulary for slate off-policy evaluation
-/

namespace Obp

variable {K : Type} [Field K] [LinearOrder K]

/-- A slate log of `N` rows: slate id, position, reward, behaviour and evaluation propensity. -/
structure SlateLog (K : Type) (N : ℕ) where
  slate : Fin N → ℕ
  pos : Fin N → ℕ
  reward : Fin N → K
  ps : Fin N → K
  eps : Fin N → K

namespace SlateLog
variable {N : ℕ}

/-- The arguments of an API call on this log. -/
def args (g : SlateLog K N) : SlateArgs K where
  slateId := .int (List.ofFn fun i => (g.slate i : ℤ))
  position := .int (List.ofFn fun i => (g.pos i : ℤ))
  reward := .flt (List.ofFn g.reward)
  pscore := .flt (List.ofFn g.ps)
  evalPscore := .flt (List.ofFn g.eps)

/-- Propensities in `(0, 1]`, evaluation propensities in `[0, 1]`. -/
def InRange (g : SlateLog K N) : Prop :=
  ∀ i, 0 < g.ps i ∧ g.ps i ≤ 1 ∧ 0 ≤ g.eps i ∧ g.eps i ≤ 1

/-- No position occurs twice in a slate. -/
def UniquePositions (g : SlateLog K N) : Prop :=
  ∀ i j, g.slate i = g.slate j → g.pos i = g.pos j → i = j

/-- A column is constant within each slate. -/
def ConstantPerSlate (g : SlateLog K N) (f : Fin N → K) : Prop :=
  ∀ i j, g.slate i = g.slate j → f i = f j

/-- A column is non-increasing in position within each slate. -/
def NonincreasingPerSlate (g : SlateLog K N) (f : Fin N → K) : Prop :=
  ∀ i j, g.slate i = g.slate j → g.pos i < g.pos j → f j ≤ f i

/-- The rows in another order. -/
def permute (g : SlateLog K N) (σ : Equiv.Perm (Fin N)) : SlateLog K N where
  slate := g.slate ∘ σ
  pos := g.pos ∘ σ
  reward := g.reward ∘ σ
  ps := g.ps ∘ σ
  eps := g.eps ∘ σ

/-- The number of distinct slates. -/
def numSlates (g : SlateLog K N) : ℕ := (Finset.univ.image g.slate).card

/-- The importance weight of a row. -/
def weight (g : SlateLog K N) (i : Fin N) : K := g.eps i / g.ps i

/-- Every slate has a row at each of the positions `0, …, lenList - 1`. -/
def Complete (g : SlateLog K N) (lenList : ℕ) : Prop :=
  ∀ i, ∀ p < lenList, ∃ j, g.slate j = g.slate i ∧ g.pos j = p

/-- The total of `f` over the rows of the slate `s`. -/
def slateTotal (g : SlateLog K N) (f : Fin N → K) (s : ℕ) : K :=
  ∑ i, if g.slate i = s then f i else 0

end SlateLog

/-- The raw arguments are arrays holding the entries of the log `g`; integer or float arrays for the
real-valued columns. -/
structure SlateArgs.Encodes {N : ℕ} (a : SlateArgs K) (g : SlateLog K N) : Prop where
  slateId : a.slateId = .int (List.ofFn fun i => (g.slate i : ℤ))
  position : a.position = .int (List.ofFn fun i => (g.pos i : ℤ))
  reward : a.reward.IsVec N ∧ a.reward.vals = List.ofFn g.reward
  pscore : a.pscore.IsVec N ∧ a.pscore.vals = List.ofFn g.ps
  evalPscore : a.evalPscore.IsVec N ∧ a.evalPscore.vals = List.ofFn g.eps

/-- What each slate estimator requires of its log. -/
def SlateKind.Accepts {N : ℕ} (k : SlateKind) (g : SlateLog K N) : Prop :=
  0 < N ∧ g.InRange ∧ g.UniquePositions ∧
  match k with
  | .sips | .snSips => g.ConstantPerSlate g.ps ∧ g.ConstantPerSlate g.eps
  | .iips | .snIips => True
  | .rips | .snRips => g.NonincreasingPerSlate g.ps ∧ g.NonincreasingPerSlate g.eps

/-- A slate log with actions, reward predictions `q` and evaluation probabilities `dist` for every
row. -/
structure CascadeLog (K : Type) (N A : ℕ) extends SlateLog K N where
  action : Fin N → Fin A
  q : Fin N → Fin A → K
  dist : Fin N → Fin A → K

/-- A two-dimensional array in row-major order: entry `i * m + b` is `d i b`. -/
def flatten2 {N m : ℕ} (d : Fin N → Fin m → K) : List K :=
  List.ofFn fun j : Fin (N * m) => d j.divNat j.modNat

namespace CascadeLog
variable {N A : ℕ}

/-- The arguments of an API call on this log. -/
def args (g : CascadeLog K N A) : CascadeArgs K where
  toSlateArgs := g.toSlateLog.args
  action := .int (List.ofFn fun i => ((g.action i : ℕ) : ℤ))
  qHat := .flt (flatten2 g.q)
  evalDist := .flt (flatten2 g.dist)

/-- The rows in another order. -/
def permute (g : CascadeLog K N A) (σ : Equiv.Perm (Fin N)) : CascadeLog K N A where
  toSlateLog := g.toSlateLog.permute σ
  action := g.action ∘ σ
  q := g.q ∘ σ
  dist := g.dist ∘ σ

/-- What the cascade doubly robust estimator requires of its log. -/
structure Valid (g : CascadeLog K N A) : Prop where
  rips : SlateKind.rips.Accepts g.toSlateLog
  dist_sum : ∀ i, |∑ a, g.dist i a - 1| ≤ 1 / 10 ^ 8 + 1 / 10 ^ 5

end CascadeLog

end Obp
