import Verif.Model.Embed
import Verif.Spec.Process

/-!
# Specification vocabulary for evaluation with action embeddings
-/

namespace Obp

variable {K : Type} [Field K] [LinearOrder K]

/-- A log of `n` rounds with `A` actions, `L` positions, `D` embedding dimensions with `C` categories
each; `pEA a c d` is the probability that dimension `d` of the embedding of action `a` is `c`. -/
structure EmbLog (K : Type) (n A L C D : ℕ) where
  action : Fin n → Fin A
  reward : Fin n → K
  embed : Fin n → Fin D → Fin C
  piB : Fin n → Fin A → Fin L → K
  piE : Fin n → Fin A → Fin L → K
  position : Fin n → Fin L
  pEA : Fin A → Fin C → Fin D → K

namespace EmbLog
variable {n A L C D : ℕ}

/-- The keyword arguments of an API call that supplies `p_e_a`. -/
def args (g : EmbLog K n A L C D) : EmbArgs K where
  reward := .flt (List.ofFn g.reward)
  action := .int (List.ofFn fun i => ((g.action i : ℕ) : ℤ))
  embed := .arr ⟨n, D, fun i d => ((g.embed i d : ℕ) : ℤ)⟩
  piB := .arr ⟨n, A, L, g.piB⟩
  actionDist := .arr ⟨n, A, L, g.piE⟩
  pEA := .arr ⟨A, C, D, g.pEA⟩
  position := .int (List.ofFn fun i => ((g.position i : ℕ) : ℤ))

/-- The keyword arguments of an API call that supplies contexts instead of `p_e_a`. -/
def argsCtx {m : ℕ} (g : EmbLog K n A L C D) (ctx : Fin n → Fin m → K) : EmbArgs K :=
  { g.args with pEA := .none, context := .arr ⟨n, m, ctx⟩ }

/-- At least one round, and both policies sum to one (up to `np.allclose`). -/
structure Valid (g : EmbLog K n A L C D) : Prop where
  nonempty : 0 < n
  piB_sum : ∀ i l, closeToOne (∑ a, g.piB i a l) = true
  piE_sum : ∀ i l, closeToOne (∑ a, g.piE i a l) = true

/-- Probability that dimension `d` takes its logged value in round `i` when the action is drawn from
`pi`. -/
def marginal (g : EmbLog K n A L C D) (pi : Fin n → Fin A → Fin L → K) (i : Fin n) (d : Fin D) : K :=
  ∑ a, pi i a (g.position i) * g.pEA a (g.embed i d) d

/-- The weight of round `i`: ratio of the products over dimensions of the marginal probabilities. -/
def weight (g : EmbLog K n A L C D) (i : Fin n) : K :=
  (∏ d, g.marginal g.piE i d) / ∏ d, g.marginal g.piB i d

/-- The log with the embedding dimensions in `s` only. -/
def restrict {D' : ℕ} (g : EmbLog K n A L C D) (s : Fin D' → Fin D) : EmbLog K n A L C D' :=
  { g with embed := fun i d => g.embed i (s d), pEA := fun a c d => g.pEA a c (s d) }

end EmbLog

/-- A logging process without direct effects: in round `i` the behaviour policy draws `a` with
probability `piB i a`, the embedding `e` is drawn with probability `∏ d, pEA a (e d) d`, and the
reward outcome `s` with probability `law i e s`, which depends on the embedding only. -/
structure EmbProcess (K : Type) (n A C D S : ℕ) where
  piB : Fin n → Fin A → K
  pEA : Fin A → Fin C → Fin D → K
  law : Fin n → (Fin D → Fin C) → Fin S → K
  val : Fin n → (Fin D → Fin C) → Fin S → K

namespace EmbProcess
variable {n A C D S L : ℕ}

/-- All components are probability distributions. -/
structure Valid (P : EmbProcess K n A C D S) : Prop where
  piB_dist : ∀ i, IsDist (P.piB i)
  pEA_dist : ∀ a d, IsDist fun c => P.pEA a c d
  law_dist : ∀ i e, IsDist (P.law i e)

/-- Probability of embedding `e` given action `a`. -/
def embProb (P : EmbProcess K n A C D S) (a : Fin A) (e : Fin D → Fin C) : K := ∏ d, P.pEA a (e d) d

/-- Probability of the outcome (action, embedding, reward outcome) in round `i`. -/
def prob (P : EmbProcess K n A C D S) (i : Fin n) (o : Fin A × (Fin D → Fin C) × Fin S) : K :=
  P.piB i o.1 * P.embProb o.1 o.2.1 * P.law i o.2.1 o.2.2

/-- Expected reward given the embedding. -/
def meanReward (P : EmbProcess K n A C D S) (i : Fin n) (e : Fin D → Fin C) : K :=
  ∑ s, P.law i e s * P.val i e s

/-- Value of the policy `pi`. -/
def policyValue (P : EmbProcess K n A C D S) (pi : Fin n → Fin A → K) : K :=
  (∑ i, ∑ a, pi i a * ∑ e, P.embProb a e * P.meanReward i e) / (n : K)

/-- Probability of embedding `e` when actions are drawn from `pi`. -/
def embMarginal (P : EmbProcess K n A C D S) (pi : Fin A → K) (e : Fin D → Fin C) : K :=
  ∑ a, pi a * P.embProb a e

/-- When actions are drawn from `pi` the embedding dimensions are independent. -/
def Independent (P : EmbProcess K n A C D S) (pi : Fin A → K) : Prop :=
  ∀ e, P.embMarginal pi e = ∏ d, ∑ a, pi a * P.pEA a (e d) d

/-- The log produced by outcome `w`. -/
def log (P : EmbProcess K n A C D S) (w : Fin n → Fin A × (Fin D → Fin C) × Fin S)
    (piB piE : Fin n → Fin A → Fin L → K) (pos : Fin n → Fin L) : EmbLog K n A L C D where
  action i := (w i).1
  reward i := P.val i (w i).2.1 (w i).2.2
  embed i := (w i).2.1
  piB := piB
  piE := piE
  position := pos
  pEA := P.pEA

end EmbProcess

end Obp
