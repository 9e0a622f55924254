import Verif.Model.Continuous
import Verif.Model.Utils
import Mathlib.MeasureTheory.Integral.IntervalIntegral.Basic

/-!
# Sampled rewards of the synthetic datasets

`obp/dataset/synthetic.py:256-279, 330-337`, `obp/dataset/synthetic_multi.py:273-280`,
`obp/dataset/synthetic_slate.py:677-727`. What matters about a draw is the distribution it is requested from: a call of the
random generator is modelled by its parameters. Floats are real numbers.
-/

namespace Obp

/-- `scipy.stats.norm.cdf(b) - scipy.stats.norm.cdf(a)`, the mass of the standard normal distribution on [a, b]. (Library
behaviour.) -/
noncomputable def normalMass (a b : ℝ) : ℝ := ∫ z in a..b, gaussianKernel z

/-- `truncnorm.stats(a, b, loc, scale, moments="m")` as computed by scipy. (Library behaviour.) -/
noncomputable def truncMean (a b loc scale : ℝ) : ℝ :=
  loc + scale * ((gaussianKernel a - gaussianKernel b) / normalMass a b)

/-- The distribution that a reward is drawn from. -/
inductive RewardLaw
  /-- `binomial(n=1, p=p)` -/
  | bernoulli (p : ℝ)
  /-- `truncnorm.rvs(a, b, loc, scale)` -/
  | truncnorm (a b loc scale : ℝ)

/-- `sample_reward_given_expected_reward` for one entry of `expected_reward_factual` (`obp/dataset/synthetic.py:262-279`,
`obp/dataset/synthetic_slate.py:711-723`) with `reward_min = 0` and `reward_max = 1e10` (`obp/dataset/synthetic.py:218-219`,
`obp/dataset/synthetic_slate.py:304-306`); `binomial` refuses probabilities outside [0, 1]. -/
noncomputable def rewardLaw (binary : Bool) (std expected : ℝ) : Py RewardLaw :=
  if binary then
    if 0 ≤ expected ∧ expected ≤ 1 then .ok (.bernoulli expected) else .error .valueError
  else do
    let a ← npDiv (0 - expected) std
    let b ← npDiv (10 ^ 10 - expected) std
    pure (.truncnorm a b expected std)

/-- `obp/dataset/synthetic.py:329-337`, `obp/dataset/synthetic_multi.py:272-280`: the entry of `expected_reward` in the
feedback from an entry of `calc_expected_reward`. -/
noncomputable def reportedReward (binary : Bool) (std mean : ℝ) : Py ℝ :=
  if binary then .ok mean
  else do
    let a ← npDiv (0 - mean) std
    let b ← npDiv (10 ^ 10 - mean) std
    pure (truncMean a b mean std)

/-- `obtain_batch_bandit_feedback` (`obp/dataset/synthetic.py:329-337, 368, 378`; `obp/dataset/synthetic_multi.py:272-280, 308, 319`):
what is reported for the logged action of a round as expected reward, and the distribution of its logged reward. -/
noncomputable def batchReward (binary : Bool) (std mean : ℝ) : Py (ℝ × RewardLaw) := do
  let r ← reportedReward binary std mean
  let law ← rewardLaw binary std r
  pure (r, law)

/-- `sample_reward(context, action)` (`obp/dataset/synthetic.py:307-309`) for one round: `mean` is the entry of
`calc_expected_reward`. -/
noncomputable def directReward (binary : Bool) (std mean : ℝ) : Py RewardLaw := rewardLaw binary std mean

/-- `SyntheticSlateBanditDataset.obtain_batch_bandit_feedback` with continuous rewards
(`obp/dataset/synthetic_slate.py:693, 711-723, 836`), for one position of a round: the reported entry of
`expected_reward_factual`, which is multiplied by the examination weight in place, and the distribution of the logged
reward. -/
noncomputable def slateBatchReward (std examWeight mean : ℝ) : Py (ℝ × RewardLaw) := do
  let r := mean * examWeight
  let law ← rewardLaw false std r
  pure (r, law)

/-- `truncnorm.ppf(u, a, b)`: the quantile function of the standard normal distribution conditioned on [a, b]. (Library
behaviour.) -/
noncomputable def truncPpf (a b u : ℝ) : ℝ := sSup {z | a ≤ z ∧ z ≤ b ∧ normalMass a z ≤ u * normalMass a b}

/-- `truncnorm.rvs(a, b, loc, scale, random_state)` for one entry whose uniform draw is `u`: scipy inverts the distribution
function, consuming one uniform number per entry. (Library behaviour.) -/
noncomputable def truncRvs (a b loc scale u : ℝ) : ℝ := loc + scale * truncPpf a b u

/-- One round of `obtain_batch_bandit_feedback` with continuous rewards (`obp/dataset/synthetic.py:366, 369`,
`obp/dataset/synthetic_multi.py:301, 308`): `sample_action_fast(pi_b, random_state=self.random_state)` and
`truncnorm.rvs(..., random_state=self.random_state)` each start a generator from the same integer seed and take one uniform
number per round, so the round's action and reward are computed from the same number `u`. `expected` is the row of
`expected_reward`. -/
noncomputable def sharedSeedRound (std : ℝ) (piB expected : List ℝ) (u : ℝ) : Py (ℕ × ℝ) := do
  let a ← sampleActionRow piB u
  match expected[a]? with
  | none => .error .indexError
  | some m => do
    let lo ← npDiv (0 - m) std
    let hi ← npDiv (10 ^ 10 - m) std
    pure (a, truncRvs lo hi m std u)

/-- One round of the slate dataset with continuous rewards (`obp/dataset/synthetic_slate.py:711-723`): every position starts
a generator from the same integer seed, so all positions of the round use the same uniform number `u`. `means` are the
entries of `expected_reward_factual`, `std = 1` (`obp/dataset/synthetic_slate.py:306`). -/
noncomputable def slateSharedSeedRound (means : List ℝ) (u : ℝ) : List ℝ :=
  means.map fun m => truncRvs ((0 - m) / 1) ((10 ^ 10 - m) / 1) m 1 u

end Obp
