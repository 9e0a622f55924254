import Verif.Model.RewardLaw

/-! # Expectations under the distributions that rewards are drawn from -/

namespace Obp

/-- The density of the normal distribution with mean `loc` and standard deviation `scale` conditioned on the standardised
value lying in [a, b]. -/
noncomputable def truncPdf (a b loc scale x : ℝ) : ℝ :=
  if a ≤ (x - loc) / scale ∧ (x - loc) / scale ≤ b then
    (Real.exp (-(((x - loc) / scale) ^ 2) / 2) / Real.sqrt (2 * Real.pi))
      / (scale * ∫ z in a..b, Real.exp (-(z ^ 2) / 2) / Real.sqrt (2 * Real.pi))
  else 0

/-- The expectation of `g` of a reward. -/
noncomputable def RewardLaw.expect (g : ℝ → ℝ) : RewardLaw → ℝ
  | .bernoulli p => p * g 1 + (1 - p) * g 0
  | .truncnorm a b loc scale => ∫ x, g x * truncPdf a b loc scale x

/-- The expected reward. -/
noncomputable def RewardLaw.mean (l : RewardLaw) : ℝ := l.expect fun x => x

end Obp
