import Verif.Model.SlateDataset
import Mathlib.Analysis.SpecialFunctions.Log.Basic

/-! # The documented expected rewards of a slate (`obp/dataset/synthetic_slate.py:1362-1372`)

`q_k(x, a) = g(g^-1(f(x, a(k))) + sum of effects)`, `g` the sigmoid for binary rewards and clipping at zero for continuous ones. -/

namespace Obp

/-- `g^{-1}` -/
noncomputable def slateLink (binary : Bool) (q : ℝ) : ℝ := if binary then Real.log (q / (1 - q)) else q

/-- `g` -/
noncomputable def slateUnlink (binary : Bool) (v : ℝ) : ℝ := if binary then 1 / (1 + Real.exp (-v)) else max v 0

/-- The expected reward at position `k` of the slate `s` when the base rewards are `b`: `W` has the weights of pairs of actions, `V` those of pairs of
positions. -/
noncomputable def slateReward {A L : ℕ} (binary : Bool) (st : RewardStructure) (b : Fin A → ℝ) (W : Fin A → Fin A → ℝ) (V : Fin L → Fin L → ℝ)
    (s : Fin L → Fin A) (k : Fin L) : ℝ :=
  slateUnlink binary (slateLink binary (b (s k)) + match st with
    | .independent => 0
    | .cascadeAdditive => ∑ j with j < k, W (s k) (s j)
    | .standardAdditive => ∑ j with j ≠ k, W (s k) (s j)
    | .cascadeDecay => ∑ j with j < k, slateLink binary (b (s j)) * V k j
    | .standardDecay => ∑ j with j ≠ k, slateLink binary (b (s j)) * V k j)

end Obp
