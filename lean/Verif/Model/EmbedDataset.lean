import Verif.Model.SlateDataset

/-!
# Model of `SyntheticBanditDatasetWithActionEmbeds` (`obp/dataset/synthetic_embed.py:231-352`)

Contexts and latent category parameters enter only through the rewards of the categories, which are a parameter, as are all random
draws. Three-dimensional arrays are nested lists: category distributions are indexed by action, dimension and category, the rewards of
the categories by round, dimension and category, embeddings by dimension and round. The number of dimensions counts the extra first
dimension that the constructor adds.
-/

namespace Obp

section embedData

/-- `obp/dataset/synthetic_embed.py:232-248` `_define_action_embed`: the category distributions are the softmax over the categories of
the normal draws `params`; the embedding of the actions in dimension `d` is sampled from them with the draws `us[d]`. -/
noncomputable def embedDefine (params : List (List (List ℝ))) (us : List (List ℝ)) :
    Py (List (List (List ℝ)) × List (List ℕ)) := do
  let p ← params.mapM fun pa => pa.mapM (softmaxWith Real.exp)
  let reg ← us.zipIdx.mapM fun x => do
    let rows ← p.mapM fun pa => entryAt pa x.2
    sampleActionFast rows x.1
  pure (p, reg)

/-- The expected reward of an action (`obp/dataset/synthetic_embed.py:282-283`): in every dimension the sum over categories of reward
times probability, weighted by the importance of the dimension. -/
def embedDot (w : List ℝ) (q p : List (List ℝ)) : ℝ :=
  (List.zipWith (· * ·) (List.zipWith (fun x y => (List.zipWith (· * ·) x y).sum) q p) w).sum

/-- The mean reward of round `i` given its embedding (`obp/dataset/synthetic_embed.py:320-325`); `q` are the category rewards of the
round. -/
def embedFactual (w : List ℝ) (embed : List (List ℕ)) (q : List (List ℝ)) (i : ℕ) : Py ℝ := do
  let terms ← (embed.zip (w.zip q)).mapM fun y => do
    let e ← entryAt y.1 i
    let v ← entryAt y.2.2 e
    pure (y.2.1 * v)
  pure terms.sum

/-- What `obtain_batch_bandit_feedback` returns (`obp/dataset/synthetic_embed.py:333-352`), and the means of the rewards. -/
structure EmbedFeedback where
  actionContext : List (List ℕ)
  embed : List (List ℕ)
  action : List ℕ
  rewardMean : List ℝ
  expectedReward : List (List ℝ)
  qxe : List (List (List ℝ))
  pEA : List (List (List ℝ))
  piB : List (List ℝ)
  pscore : List ℝ

/-- `obp/dataset/synthetic_embed.py:263-352` `obtain_batch_bandit_feedback`: `w` is the importance of the dimensions, `p` and `reg`
are from the constructor, `q` the rewards of the categories, `us` the draws for the actions, `embUs[d]` those for dimension `d` of the
embeddings. `nUnobserved` is counted without the extra dimension. The rewards are drawn with means `rewardMean`. The behaviour policy
is computed as in `SyntheticBanditDataset`. -/
noncomputable def embedFeedback (beta : ℝ) (nDeficient nUnobserved : ℕ) (w : List ℝ) (p : List (List (List ℝ))) (reg : List (List ℕ))
    (q : List (List (List ℝ))) (behavior : Option (List (List ℝ))) (orders : List (List ℕ)) (us : List ℝ) (embUs : List (List ℝ)) :
    Py EmbedFeedback := do
  let expected := q.map fun qi => p.map fun pa => embedDot w qi pa
  let s ← syntheticFeedback beta nDeficient expected behavior orders us
  let embed ← embUs.zipIdx.mapM fun x => do
    let table ← p.mapM fun pa => entryAt pa x.2
    sampleEmbed table s.action x.1
  let means ← q.zipIdx.mapM fun x => embedFactual w embed x.1 x.2
  pure { actionContext := reg.drop (nUnobserved + 1), embed := embed.drop (nUnobserved + 1), action := s.action, rewardMean := means,
         expectedReward := expected, qxe := q.map fun qi => qi.drop (nUnobserved + 1), pEA := p.map fun pa => pa.drop (nUnobserved + 1),
         piB := s.piB, pscore := s.pscore }

end embedData

end Obp
