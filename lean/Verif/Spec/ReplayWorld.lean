import Verif.Model.Simulator
import Verif.Spec.Simulator
import Verif.Spec.Ope
import Verif.Spec.Prob

/-!
# Replaying a log instead of playing online

A stationary environment draws a context and a reward for every action; a policy has a memory and uses one fresh random draw per
selection.
-/

namespace Obp

variable {K : Type}

/-- A policy that selects one action: from its memory, the context it is given (none for context-free policies) and a random
draw, and that changes its memory when it is updated. -/
structure DrawPolicy (K M D : Type) (A : ℕ) where
  kind : PolicyKind
  sel : M → Option (Arg2 K) → D → Fin A
  upd : M → Option (Arg2 K) → Fin A → K → M

/-- The policy as an object: its state is the memory and the draws to come. -/
def DrawPolicy.object {M D : Type} {A : ℕ} (π : DrawPolicy K M D A) : SimPolicy (M × List D) K where
  kind := π.kind
  select := fun s c =>
    match s.2 with
    | d :: ds => .ok ([((π.sel s.1 c d).val : ℤ)], (s.1, ds))
    | [] => .error .runtimeError
  update := fun s c a r =>
    match wrapIdx A a with
    | some j => .ok (π.upd s.1 c j r, s.2)
    | none => .error .indexError

/-- A stationary environment: outcomes of a round with their probabilities, each with a context and the rewards of all actions. -/
structure RoundLaw (K X : Type) (A : ℕ) where
  prob : X → K
  context : X → List K
  reward : X → Fin A → K

/-- A round of a log: the environment's outcome and the logged action, whose reward is recorded; position 0. -/
def RoundLaw.logged {X : Type} {A : ℕ} (E : RoundLaw K X A) (x : X) (a : Fin A) : LogRound K where
  action := a.val
  reward := E.reward x a
  position := 0
  context := E.context x

/-- A round played online. -/
def RoundLaw.online {X : Type} {A : ℕ} (E : RoundLaw K X A) (x : X) : BanditRound K :=
  ⟨.vec (E.context x), List.ofFn (E.reward x), none⟩

/-- `bandit_feedback` of rounds logged uniformly at random: per round the environment's outcome, the logged action (and the draw
that the policy will use in a replay); contexts with `d` entries, no positions. -/
def RoundLaw.replayLog [Field K] {X D : Type} {A : ℕ} (E : RoundLaw K X A) (d : ℕ) {n : ℕ} (w : Fin n → X × Fin A × D) :
    ReplayLog K n d where
  context := fun i j => (E.context (w i).1).getD j 0
  action := fun i => (w i).2.1
  reward := fun i => E.reward (w i).1 (w i).2.1
  position := none
  pscore := fun _ => 1 / A

/-- The same rounds as the arguments of an estimator, with `pi` as `action_dist`. -/
def RoundLaw.evalLog [Field K] {X D : Type} {A : ℕ} (E : RoundLaw K X A) {n : ℕ} (w : Fin n → X × Fin A × D)
    (pi : Fin n → Fin A → Fin 1 → K) : Log K n A 1 where
  action := fun i => (w i).2.1
  reward := fun i => E.reward (w i).1 (w i).2.1
  pscore := fun _ => 1 / A
  estPscore := fun _ => 1
  position := fun _ => 0
  piE := pi
  q := fun _ _ _ => 0
  estIw := fun _ => 1

/-- rounds in which the selection is the logged action -/
def replayMatches {X D : Type} {A n : ℕ} (sel : Fin n → Fin A) (w : Fin n → X × Fin A × D) : Finset (Fin n) :=
  Finset.univ.filter fun i => (w i).2.1 = sel i

/-- average logged reward of those rounds, zero if there is none -/
def RoundLaw.matchedMean [Field K] {X D : Type} {A n : ℕ} (E : RoundLaw K X A) (sel : Fin n → Fin A)
    (w : Fin n → X × Fin A × D) : K :=
  (∑ i ∈ replayMatches sel w, E.reward (w i).1 (w i).2.1) / (replayMatches sel w).card

end Obp
