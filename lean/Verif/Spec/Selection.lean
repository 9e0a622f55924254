import Verif.Model.Embed

/-!
# Specification of embedding selection

Candidates are visited in a fixed order; a candidate is acceptable if its estimate is compatible with
the estimates of all candidates before it.
-/

namespace Obp

/-- `np.argsort`: a permutation of the indices that sorts the keys; ties in any order. -/
def Argsort (srt : List ℝ → List ℕ) : Prop :=
  ∀ xs : List ℝ, (srt xs).Perm (List.range xs.length) ∧
    (srt xs).Pairwise fun i j => xs[i]?.getD 0 ≤ xs[j]?.getD 0

/-- Candidate `k` is compatible with all earlier candidates (estimate, width). -/
def EmbCompatible (seq : List (ℝ × ℝ)) (k : ℕ) : Prop :=
  ∀ j < k, |(seq.getD j (0, 0)).1 - (seq.getD k (0, 0)).1| ≤
    (seq.getD k (0, 0)).2 + (√6 - 1) * (seq.getD j (0, 0)).2

/-- What the code returns on a sequence of candidates: `k` is the last candidate that was tested (all
before it were compatible; it was not, or it is the last one), and the estimate of candidate
`k - 1` is returned. -/
def ReturnsBeforeLastTested (seq : List (ℝ × ℝ)) (v : ℝ) : Prop :=
  ∃ k, 1 ≤ k ∧ k < seq.length ∧ (∀ i, 1 ≤ i → i < k → EmbCompatible seq i) ∧
    (k + 1 = seq.length ∨ ¬ EmbCompatible seq k) ∧ v = (seq.getD (k - 1) (0, 0)).1

/-- What the documentation asks for: the estimate of the last candidate before the first incompatible
one. -/
def ReturnsLastAccepted (seq : List (ℝ × ℝ)) (v : ℝ) : Prop :=
  ∃ k, k < seq.length ∧ (∀ i, 1 ≤ i → i ≤ k → EmbCompatible seq i) ∧
    (k + 1 = seq.length ∨ ¬ EmbCompatible seq (k + 1)) ∧ v = (seq.getD k (0, 0)).1

/-- The candidates of the greedy method after the current set `feats`: all sets with one dimension
less, by non-increasing width; then the same for the set without the dimension visited last. -/
inductive GreedySeq (est : List ℕ → ℝ × ℝ) (minEmb : ℕ) : List ℕ → List (List ℕ) → Prop
  | stop (feats) : feats.length ≤ minEmb → GreedySeq est minEmb feats []
  | step (feats order : List ℕ) (d : ℕ) (rest : List (List ℕ)) : minEmb < feats.length →
      order.Perm feats →
      order.Pairwise (fun a b => (est (feats.filter (· ≠ b))).2 ≤ (est (feats.filter (· ≠ a))).2) →
      order.getLast? = some d → GreedySeq est minEmb (feats.filter (· ≠ d)) rest →
      GreedySeq est minEmb feats (order.map (fun d => feats.filter (· ≠ d)) ++ rest)

end Obp
