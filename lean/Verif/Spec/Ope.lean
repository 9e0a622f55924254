import Verif.Model.Estimators

/-!
# Specification vocabulary for off-policy evaluation

A well-shaped log, how it is passed to the API, and the textbook quantities that the property
theorems talk about. Nothing here uses the model's `_estimate_round_rewards` functions.
-/

namespace Obp

variable {K : Type} [Field K] [LinearOrder K]

/-- A log of `n` rounds with `A` actions and `L` positions, together with an evaluation policy
`piE`, reward predictions `q` and estimated importance weights. -/
structure Log (K : Type) (n A L : ℕ) where
  action : Fin n → Fin A
  reward : Fin n → K
  pscore : Fin n → K
  estPscore : Fin n → K
  position : Fin n → Fin L
  piE : Fin n → Fin A → Fin L → K
  q : Fin n → Fin A → Fin L → K
  estIw : Fin n → K

namespace Log
variable {n A L : ℕ}

/-- The keyword arguments of an API call on this log. -/
def args (g : Log K n A L) : EstArgs K where
  reward := .flt (List.ofFn g.reward)
  action := .int (List.ofFn fun i => ((g.action i : ℕ) : ℤ))
  actionDist := .arr ⟨n, A, L, g.piE⟩
  pscore := .flt (List.ofFn g.pscore)
  position := .int (List.ofFn fun i => ((g.position i : ℕ) : ℤ))
  estimatedPscore := .flt (List.ofFn g.estPscore)
  regModel := .arr ⟨n, A, L, g.q⟩
  estIw := .flt (List.ofFn g.estIw)

/-- What the validators require of a well-shaped log: at least one round, positive propensities,
non-negative estimated weights, evaluation probabilities summing to one (up to `np.allclose`). -/
structure Valid (g : Log K n A L) : Prop where
  nonempty : 0 < n
  pscore_pos : ∀ i, 0 < g.pscore i
  estPscore_pos : ∀ i, 0 < g.estPscore i
  estIw_nonneg : ∀ i, 0 ≤ g.estIw i
  sum_one : ∀ i l, closeToOne (∑ a, g.piE i a l) = true

/-- The arithmetic mean over rounds. -/
def avg (f : Fin n → K) : K := (∑ i, f i) / (n : K)

/-- The importance weight of round `i`, with logged or estimated propensities. -/
def weight (g : Log K n A L) (est : Bool) (i : Fin n) : K :=
  g.piE i (g.action i) (g.position i) / (if est then g.estPscore i else g.pscore i)

/-- Expected predicted reward of the evaluation policy in round `i`. -/
def modelValue (g : Log K n A L) (i : Fin n) : K :=
  (∑ a, g.q i a (g.position i) * g.piE i a (g.position i)) / ∑ a, g.piE i a (g.position i)

/-- Residual of the reward model at the logged action. -/
def residual (g : Log K n A L) (i : Fin n) : K :=
  g.reward i - g.q i (g.action i) (g.position i)

/-- Does the evaluation policy choose the logged action with probability exactly one? -/
def matched (g : Log K n A L) (i : Fin n) : Prop := g.piE i (g.action i) (g.position i) = 1

instance (g : Log K n A L) (i : Fin n) : Decidable (g.matched i) := by
  unfold matched; infer_instance

end Log

end Obp
