import Verif.Spec.Policy
import Verif.Model.Contextual

/-! # Vocabulary for the contextual policies -/

namespace Obp
open Matrix

variable {n d : ℕ}

/-- What a contextual policy has been told: action index, context, reward. -/
def ctxObservations (calls : List (CtxCall d)) : List (ℤ × (Fin d → ℝ) × ℝ) :=
  calls.filterMap fun c =>
    match c with
    | .update z r x => some (z, x, r)
    | _ => none

/-- The contexts and rewards observed for an action. -/
def dataOf (h : List (ℤ × (Fin d → ℝ) × ℝ)) (a : Fin n) : List ((Fin d → ℝ) × ℝ) :=
  (h.filter fun p => Names p.1 a).map (·.2)

/-- The regularised Gram matrix `I + Σ x xᵀ`. -/
def gram (data : List ((Fin d → ℝ) × ℝ)) : Matrix (Fin d) (Fin d) ℝ :=
  1 + (data.map fun p => vecMulVec p.1 p.1).sum

/-- The moment vector `Σ r x`. -/
def moment (data : List ((Fin d → ℝ) × ℝ)) : Fin d → ℝ := (data.map fun p => p.2 • p.1).sum

/-- The ridge-regression objective with penalty one. -/
def ridge (data : List ((Fin d → ℝ) × ℝ)) (θ : Fin d → ℝ) : ℝ :=
  θ ⬝ᵥ θ + (data.map fun p => (p.2 - p.1 ⬝ᵥ θ) ^ 2).sum

/-- The completed batches of a history, in order. -/
def batches {α : Type} (b : ℕ) (h : List α) : List (List α) :=
  (List.range (h.length / b)).map fun i => (h.drop (b * i)).take b

/-- The number of `update_params` calls since the last `initialize`. -/
def updatesSinceReset (calls : List (CtxCall d)) : ℕ :=
  calls.foldl (fun t c =>
    match c with
    | .update _ _ _ => t + 1
    | .select _ => t
    | .reset => 0) 0

/-- An update directly after the calls `p` completes a batch: its action exists and the number of updates
since the last `initialize`, this one included, is a multiple of the batch size. -/
def CompletesBatch (b n : ℕ) (p : List (CtxCall d)) (z : ℤ) : Prop :=
  -(n : ℤ) ≤ z ∧ z < n ∧ b ∣ updatesSinceReset p + 1

/-- The first `k` observations are those up to the last one that completed a batch. -/
def LearnedUpTo (b n : ℕ) (calls : List (CtxCall d)) (k : ℕ) : Prop :=
  (k = 0 ∨ ∃ p z r x q, calls = p ++ .update z r x :: q ∧ CompletesBatch b n p z ∧
    k = (ctxObservations p).length + 1) ∧
  ∀ p z r x q, calls = p ++ .update z r x :: q → CompletesBatch b n p z →
    (ctxObservations p).length + 1 ≤ k

/-- An `initialize` call. -/
def CtxCall.isReset : CtxCall d → Bool
  | .reset => true
  | _ => false

/-- The observations between `initialize` calls. -/
def segments (calls : List (CtxCall d)) : List (List (ℤ × (Fin d → ℝ) × ℝ)) :=
  (calls.splitOnP CtxCall.isReset).map ctxObservations

variable {R : Type}

/-- The model obtained by one `fit` call per non-empty batch, in order. -/
noncomputable def fitBatches (minimize : Minimizer d) (g : LogReg R d)
    (bs : List (List ((Fin d → ℝ) × ℝ))) : LogReg R d :=
  bs.foldl (fun g D => if D = [] then g else g.fit minimize D) g

/-- Two models agree in everything but the state of their generators. -/
def SameModel (g h : LogReg R d) : Prop := g.lam = h.lam ∧ g.alpha = h.alpha ∧ g.m = h.m ∧ g.q = h.q

end Obp
