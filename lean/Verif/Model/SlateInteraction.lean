import Verif.Model.SlateDataset
import Verif.Model.Utils

/-! # `action_interaction_reward_function` (`obp/dataset/synthetic_slate.py:1313-1479`)

The steps between the checks and the result, with the transformations at both ends. The three `check_array` calls at the top are left out:
contexts enter only through the base rewards, actions are lists of action numbers. -/

namespace Obp

/-- `reward_structure not in [...]` (`obp/dataset/synthetic_slate.py:1393-1402`) -/
def RewardStructure.ofName : String → Py RewardStructure
  | "standard_additive" => .ok .standardAdditive
  | "cascade_additive" => .ok .cascadeAdditive
  | "standard_decay" => .ok .standardDecay
  | "cascade_decay" => .ok .cascadeDecay
  | "independent" => .ok .independent
  | _ => .error .valueError

/-- `reward_type not in [...]` (`obp/dataset/synthetic_slate.py:1386-1392`): whether rewards are binary. -/
def slateRewardBinary : String → Py Bool
  | "binary" => .ok true
  | "continuous" => .ok false
  | _ => .error .valueError

/-- `if reward_type == "binary": expected_reward = logit(expected_reward)` (`obp/dataset/synthetic_slate.py:1435-1436`) -/
noncomputable def slateBase (binary : Bool) (base : List (List ℝ)) : Py (List (List ℝ)) :=
  if binary then base.mapM (fun row => row.mapM logitFn) else .ok base

/-- `action_interaction_reward_function` (`obp/dataset/synthetic_slate.py:1374-1479`) for a base reward function that returned `base`, of `A`
actions, and a weight matrix given by its rows (numpy's matrices are rectangular, so the shape is the number of rows and the length of each).
Base rewards 0 and 1 of the binary type are flagged as not finite, like the logits; numpy carries the infinities on. The rounding to `float16` is not
modelled; `L` is positive, as the constructor of the dataset requires. -/
noncomputable def slateInteraction (A : ℕ) (rewardType structName : String) (L : ℕ) (enumerated : Bool) (base W : List (List ℝ))
    (action : List ℕ) : Py (List (List ℝ)) := do
  raiseIf (enumerated && decide (action.length % L ≠ 0)) .valueError
  raiseIf (!enumerated && decide (action.length ≠ L * base.length)) .valueError
  let binary ← slateRewardBinary rewardType
  let st ← RewardStructure.ofName structName
  let size := if st.isAdditive then A else L
  raiseIf (!(decide (W.length = size) && W.all fun row => decide (row.length = size))) .valueError
  let base' ← slateBase binary base
  let rows ← interactionRewards st L enumerated base' W action
  pure (rows.map fun row => row.map fun v => if binary then sigmoidWith Real.exp v else clipReward v)

end Obp
