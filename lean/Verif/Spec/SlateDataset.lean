import Mathlib.Data.Finset.Union
import Mathlib.Data.Finset.Image
import Mathlib.Data.List.Nodup
import Mathlib.Data.Bool.Basic
import Mathlib.Analysis.SpecialFunctions.Log.Basic

/-!
# Slates

Specification vocabulary: the slates that a policy can produce and the outcomes of a list of coin
flips.
-/

namespace Obp

/-- The slates of `L` actions from `S`: all sequences for a factorizable policy, those without
repetition otherwise. Characterised by `mem_slates`. -/
def slates (fact : Bool) : ℕ → Finset ℕ → Finset (List ℕ)
  | 0, _ => {[]}
  | L + 1, S => S.biUnion fun a => (slates fact L (if fact then S else S.erase a)).image (a :: ·)

theorem mem_slates {fact : Bool} {L : ℕ} {S : Finset ℕ} {s : List ℕ} :
    s ∈ slates fact L S ↔ s.length = L ∧ (fact = false → s.Nodup) ∧ ∀ a ∈ s, a ∈ S := by
  induction L generalizing S s with
  | zero =>
      simp only [slates, Finset.mem_singleton]
      constructor
      · rintro rfl
        simp
      · rintro ⟨h, -⟩
        exact List.length_eq_zero_iff.1 h
  | succ L ih =>
      simp only [slates, Finset.mem_biUnion, Finset.mem_image]
      constructor
      · rintro ⟨a, ha, t, ht, rfl⟩
        obtain ⟨h1, h2, h3⟩ := ih.1 ht
        refine ⟨by simp [h1], fun hf => ?_, fun b hb => ?_⟩
        · subst hf
          refine List.nodup_cons.2 ⟨fun hat => ?_, h2 rfl⟩
          have := h3 a hat
          simp at this
        · rcases List.mem_cons.1 hb with rfl | hb
          · exact ha
          · have := h3 b hb
            cases fact
            · exact Finset.mem_of_mem_erase (by simpa using this)
            · simpa using this
      · rintro ⟨h1, h2, h3⟩
        cases s with
        | nil => simp at h1
        | cons a t =>
            refine ⟨a, h3 a (by simp), t, ih.2 ⟨by simpa using h1, fun hf => (List.nodup_cons.1 (h2 hf)).2, fun b hb => ?_⟩,
              rfl⟩
            cases fact
            · have hne : b ≠ a := by
                rintro rfl
                exact (List.nodup_cons.1 (h2 rfl)).1 hb
              simpa [hne] using h3 b (List.mem_cons_of_mem _ hb)
            · simpa using h3 b (List.mem_cons_of_mem _ hb)

/-- The actions still available at position `k` of the slate `s`. -/
def available (fact : Bool) (S : Finset ℕ) (s : List ℕ) (k : ℕ) : Finset ℕ :=
  if fact then S else S \ (s.take k).toFinset

/-- The probability of a slate whose actions are chosen one after the other by a softmax of the logits `l` over the
actions still available. -/
noncomputable def slateProb (l : ℕ → ℝ) (fact : Bool) (A : ℕ) (s : List ℕ) : ℝ :=
  ∏ k : Fin s.length, Real.exp (l s[k]) / ∑ b ∈ available fact (Finset.range A) s k, Real.exp (l b)

/-- The probability that such a slate has the action `a` at position `k`. -/
noncomputable def slateMarginal (l : ℕ → ℝ) (fact : Bool) (A L k a : ℕ) : ℝ :=
  ∑ t ∈ slates fact L (Finset.range A) with t[k]? = some a, slateProb l fact A t

/-- The probability that such a slate begins like `s` up to and including position `k`. -/
noncomputable def slatePrefix (l : ℕ → ℝ) (fact : Bool) (A L : ℕ) (s : List ℕ) (k : ℕ) : ℝ :=
  ∑ t ∈ slates fact L (Finset.range A) with t.take (k + 1) = s.take (k + 1), slateProb l fact A t

end Obp
