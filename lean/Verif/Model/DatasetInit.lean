import Verif.Model.Scalar
import Verif.Model.Checks

/-!
# Constructors of the synthetic datasets and of the environment simulator

`obp/dataset/synthetic.py:189-231`, `obp/dataset/synthetic_multi.py:167-233`, `obp/dataset/synthetic_embed.py:200-224`,
`obp/dataset/synthetic_continuous.py:125-146`, `obp/simulator/simulator.py:147-169`. Functions given as arguments are not
checked by the code and left out.
-/

namespace Obp

/-- A `random_state` argument: `None`, something `check_random_state` accepts, or something it refuses with ValueError. -/
inductive Seed
  | none | ok | bad
  deriving DecidableEq

variable {K : Type} [Field K] [LinearOrder K]

/-- `if self.random_state is None: raise ValueError` and `check_random_state`
(`obp/dataset/synthetic.py:202-204`). -/
def checkSeed : Seed → Py Unit
  | .none => .error .valueError
  | .bad => .error .valueError
  | .ok => .ok ()

/-- `RewardType(self.reward_type)` (`obp/dataset/synthetic.py:206-213`, `obp/dataset/reward_type.py`): whether rewards are
binary. An unknown name makes the enum raise ValueError. -/
def rewardTypeBinary : String → Py Bool
  | "binary" => .ok true
  | "continuous" => .ok false
  | _ => .error .valueError

/-- `obp/dataset/synthetic.py:222-231`: the action context. -/
def initActionContext (nActions : ℤ) : Option (Arg2 K) → Py (Arr2 K)
  | none => .ok (eye nActions.toNat)
  | some a => do
    let x ← checkArray2 a
    raiseIf ((x.n : ℤ) ≠ nActions) .valueError
    pure x

/-- What the constructor of `SyntheticBanditDataset` keeps. -/
structure SyntheticInit (K : Type) where
  nActions : ℤ
  dimContext : ℤ
  beta : PyNum K
  nDeficient : ℤ
  binary : Bool
  rewardStd : PyNum K
  actionContext : Arr2 K

/-- `SyntheticBanditDataset.__post_init__` (`obp/dataset/synthetic.py:189-231`). -/
def initSynthetic (nActions dimContext beta nDeficient : PyScalar K) (seed : Seed) (rewardType : String)
    (rewardStd : PyScalar K) (actionContext : Option (Arg2 K)) : Py (SyntheticInit K) := do
  let n ← checkIntMin 2 nActions
  let d ← checkIntMin 1 dimContext
  let b ← checkNumber none beta
  let k ← checkIntIn 0 (n - 1) nDeficient
  checkSeed seed
  let bin ← rewardTypeBinary rewardType
  let s ← checkNumber (some 0) rewardStd
  let a ← initActionContext n actionContext
  pure ⟨n, d, b, k, bin, s, a⟩

/-- A `betas` or `rhos` argument: a list, or something else. -/
inductive ListArg (K : Type)
  | list (xs : List (PyScalar K))
  | other

/-- `obp/dataset/synthetic_multi.py:187-197`: a list of numbers, with a lower bound or none. -/
def checkNumberList (lo : Option K) : ListArg K → Py (List (PyNum K))
  | .other => .error .typeError
  | .list xs => xs.mapM (checkNumber lo)

/-- What the constructor of `SyntheticMultiLoggersBanditDataset` keeps; `rhos` is before the division by the sum. -/
structure MultiInit (K : Type) where
  nActions : ℤ
  dimContext : ℤ
  nDeficient : ℤ
  betas : List (PyNum K)
  rhos : List (PyNum K)
  binary : Bool
  rewardStd : PyNum K
  actionContext : Arr2 K

/-- `SyntheticMultiLoggersBanditDataset.__post_init__` (`obp/dataset/synthetic_multi.py:167-233`). The division of the
`rhos` by their sum (`:198`) is `normalizeRhos`; it raises nothing. -/
def initMulti (nActions dimContext nDeficient : PyScalar K) (seed : Seed) (betas rhos : ListArg K) (rewardType : String)
    (rewardStd : PyScalar K) (actionContext : Option (Arg2 K)) : Py (MultiInit K) := do
  let n ← checkIntMin 2 nActions
  let d ← checkIntMin 1 dimContext
  let k ← checkIntIn 0 (n - 1) nDeficient
  checkSeed seed
  let bs ← checkNumberList none betas
  let rs ← checkNumberList (some 0) rhos
  raiseIf (bs.length ≠ rs.length) .valueError
  let bin ← rewardTypeBinary rewardType
  let s ← checkNumber (some 0) rewardStd
  let a ← initActionContext n actionContext
  pure ⟨n, d, k, bs, rs, bin, s, a⟩

/-- What the constructor of `SyntheticBanditDatasetWithActionEmbeds` keeps in addition: the numbers of dimensions as they are
used, that is with the extra first dimension (`obp/dataset/synthetic_embed.py:221-223`). -/
structure EmbedInit (K : Type) where
  base : SyntheticInit K
  nCatPerDim : ℤ
  latentDim : ℤ
  nCatDim : ℤ
  paramStd : PyNum K
  nUnobserved : ℤ
  nIrrelevant : ℤ

/-- `SyntheticBanditDatasetWithActionEmbeds.__post_init__` (`obp/dataset/synthetic_embed.py:200-223`). -/
def initEmbed (nActions dimContext beta nDeficient : PyScalar K) (seed : Seed) (rewardType : String)
    (rewardStd : PyScalar K) (actionContext : Option (Arg2 K))
    (nCatPerDim latentDim nCatDim paramStd nUnobserved nIrrelevant : PyScalar K) : Py (EmbedInit K) := do
  let b ← initSynthetic nActions dimContext beta nDeficient seed rewardType rewardStd actionContext
  let c ← checkIntMin 1 nCatPerDim
  let l ← checkIntMin 1 latentDim
  let m ← checkIntMin 1 nCatDim
  let p ← checkNumber (some 0) paramStd
  let u ← checkIntIn 0 m nUnobserved
  let i ← checkIntIn 0 m nIrrelevant
  pure ⟨b, c, l, m + 1, p, u + 1, i + 1⟩

/-- What the constructor of `SyntheticContinuousBanditDataset` keeps. -/
structure ContinuousInit (K : Type) where
  dimContext : ℤ
  actionNoise : PyNum K
  rewardNoise : PyNum K
  lo : PyNum K
  hi : PyNum K

/-- `SyntheticContinuousBanditDataset.__post_init__` (`obp/dataset/synthetic_continuous.py:125-146`). -/
def initContinuous (dimContext actionNoise rewardNoise lo hi : PyScalar K) (seed : Seed) : Py (ContinuousInit K) := do
  let d ← checkIntMin 1 dimContext
  let a ← checkNumber (some 0) actionNoise
  let r ← checkNumber (some 0) rewardNoise
  let l ← checkNumber none lo
  let h ← checkNumber none hi
  raiseIf (h.le l) .valueError
  checkSeed seed
  pure ⟨d, a, r, l, h⟩

/-- `BanditEnvironmentSimulator.__post_init__` (`obp/simulator/simulator.py:147-169`): numbers of actions and of context
variables, and the action context. `reward_type` and `reward_std` are not looked at. -/
def initEnvironment (nActions dimContext : PyScalar K) (seed : Seed) (actionContext : Option (Arg2 K)) :
    Py (ℤ × ℤ × Arr2 K) := do
  let n ← checkIntMin 2 nActions
  let d ← checkIntMin 1 dimContext
  checkSeed seed
  let a ← initActionContext n actionContext
  pure (n, d, a)

end Obp
