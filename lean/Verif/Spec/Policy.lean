import Verif.Spec.Argsort
import Verif.Model.ContextFree

/-! # Vocabulary for the online policies -/

namespace Obp

/-- A ranking of `L` distinct actions out of `n`. -/
structure IsRanking (n L : ℕ) (l : List ℕ) : Prop where
  length_eq : l.length = L
  nodup : l.Nodup
  lt : ∀ a ∈ l, a < n

/-- A ranking of the `L` actions with the largest scores, in descending order. -/
structure IsTopRanking {K : Type} [LinearOrder K] {n : ℕ} (score : Fin n → K) (L : ℕ) (l : List ℕ) :
    Prop extends IsRanking n L l where
  descending : l.Pairwise fun i j => ∀ (hi : i < n) (hj : j < n), score ⟨j, hj⟩ ≤ score ⟨i, hi⟩
  best : ∀ i ∈ l, ∀ (hi : i < n) (a : Fin n), a.val ∉ l → score a ≤ score ⟨i, hi⟩

/-- The generator's contract: `choice` without replacement returns distinct items. -/
def Rng.Valid {R K : Type} (ops : Rng R K) : Prop :=
  ∀ r n k, k ≤ n → IsRanking n k (ops.choice r n k).1

/-- The longest prefix of a history that consists of whole batches. -/
def completed {α : Type} (batchSize : ℕ) (h : List α) : List α := h.take (batchSize * (h.length / batchSize))

/-- The observations given to a policy since it was created or last initialised. -/
def observations {K : Type} (calls : List (CfCall K)) : List (ℤ × K) :=
  calls.foldl (fun acc c =>
    match c with
    | .update z r => acc ++ [(z, r)]
    | .select => acc
    | .reset => []) []

/-- A Python index names an action directly or counting from the end. -/
def Names {n : ℕ} (z : ℤ) (a : Fin n) : Prop := z = a ∨ z = (a : ℤ) - n

instance {n : ℕ} (z : ℤ) (a : Fin n) : Decidable (Names z a) := by unfold Names; infer_instance

/-- How often an action occurs in a history. -/
def timesSeen {K : Type} {n : ℕ} (h : List (ℤ × K)) (a : Fin n) : ℕ := h.countP fun p => Names p.1 a

/-- The rewards observed for an action. -/
def rewardsOf {K : Type} {n : ℕ} (h : List (ℤ × K)) (a : Fin n) : List K :=
  (h.filter fun p => Names p.1 a).map (·.2)

end Obp
