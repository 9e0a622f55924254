import Verif.Props.Embed
import Verif.Lemmas.Dataset

set_option linter.unusedSectionVars false

/-!
# Embedding estimators with estimated weights

C124.
-/

namespace Obp
open Log

variable {K : Type} [Field K] [LinearOrder K] [IsStrictOrderedRing K]
variable {n A L C D m : ℕ}

/-- The elements of `Fin A` that occur among the values of `f`, in increasing order. -/
def loggedClasses (f : Fin n → Fin A) : List (Fin A) := (List.finRange A).filter fun a => decide (∃ k, f k = a)

/-- What a classifier with `fit` and `predict_proba` returns: one row per round, with one column for every logged action in
increasing order, holding the probabilities `post`. -/
def PredictsProba (out : List (List K)) (action : Fin n → Fin A) (post : Fin n → Fin A → K) : Prop :=
  out = List.ofFn fun i => (loggedClasses action).map (post i)

/-- The features of round `i`: its context, then for every embedding dimension the indicators of the categories that occur in
that dimension, without the smallest one. -/
def embFeatures (ctx : Fin n → Fin m → K) (embed : Fin n → Fin D → Fin C) (i : Fin n) : List K :=
  List.ofFn (ctx i) ++ (List.finRange D).flatMap fun d =>
    (loggedClasses fun k => embed k d).tail.map fun c => if embed i d = c then 1 else 0

theorem mem_seen {f : Fin n → Fin A} {a : Fin A} : a ∈ loggedClasses f ↔ ∃ k, f k = a := by simp [loggedClasses]

theorem seen_nodup (f : Fin n → Fin A) : (loggedClasses f).Nodup := (List.nodup_finRange A).filter _

theorem seen_sorted (f : Fin n → Fin A) : (loggedClasses f).Pairwise (· < ·) := (List.pairwise_lt_finRange A).filter _

theorem npUnique_fin (f : Fin n → Fin A) :
    npUnique (List.ofFn fun i => ((f i : ℕ) : ℤ)) = (loggedClasses f).map fun a : Fin A => ((a : ℕ) : ℤ) := by
  have hp : (npUnique (List.ofFn fun i => ((f i : ℕ) : ℤ))).Perm ((loggedClasses f).map fun a : Fin A => ((a : ℕ) : ℤ)) := by
    rw [List.perm_ext_iff_of_nodup (npUnique_nodup _)
      ((seen_nodup f).map fun a b hab => Fin.ext (by exact_mod_cast hab))]
    intro z
    rw [mem_npUnique', List.mem_ofFn', Set.mem_range, List.mem_map]
    constructor
    · rintro ⟨i, rfl⟩
      exact ⟨f i, mem_seen.2 ⟨i, rfl⟩, rfl⟩
    · rintro ⟨a, ha, rfl⟩
      obtain ⟨i, rfl⟩ := mem_seen.1 ha
      exact ⟨i, rfl⟩
  refine hp.eq_of_pairwise (le := (· ≤ ·)) (fun a b _ _ h1 h2 => le_antisymm h1 h2)
    (List.pairwise_insertionSort _ _) ?_
  rw [List.pairwise_map]
  refine (seen_sorted f).imp fun {a b} h => ?_
  have : (a : ℕ) < b := h
  omega

theorem find_pair (l : List (Fin A)) (p : Fin A → K) (j : Fin A) :
    (l.map fun a => (a, p a)).find? (fun q => decide (q.1 = j)) = if j ∈ l then some (j, p j) else none := by
  induction l with
  | nil => simp
  | cons a l ih =>
      rw [List.map_cons, List.find?_cons]
      by_cases h : a = j
      · subst h; simp
      · simp only [h, decide_false, ih, List.mem_cons, Ne.symm h, false_or]

theorem scatterRow_seen (f : Fin n → Fin A) (p : Fin A → K) :
    scatterRow A ((loggedClasses f).map fun a : Fin A => ((a : ℕ) : ℤ)) ((loggedClasses f).map p) =
      .ok (List.ofFn fun a => if ∃ k, f k = a then p a else 0) := by
  unfold scatterRow
  rw [if_pos (by simp), List.zip_map', (mapM_ok_iff (ys := (loggedClasses f).map fun a => (a, p a))).2 (by
    rw [List.forall₂_map_left_iff, List.forall₂_map_right_iff, List.forall₂_same]
    intro a _
    simp only [wrapIdx_natCast]), py_bind_ok, py_pure]
  refine congrArg Except.ok (congrArg List.ofFn (funext fun j => ?_))
  rw [find_pair]
  simp only [mem_seen]
  split <;> rfl

theorem oneHot_eq (g : EmbLog K n A L C D) (ctx : Fin n → Fin m → K) :
    hstack ⟨n, m, ctx⟩ (oneHotDropFirst ⟨n, D, fun i d => ((g.embed i d : ℕ) : ℤ)⟩) =
      .ok (List.ofFn (embFeatures ctx g.embed)) := by
  unfold hstack
  rw [if_pos (by simp [oneHotDropFirst])]
  refine congrArg Except.ok (List.ext_getElem (by simp [oneHotDropFirst]) fun i h1 h2 => ?_)
  simp only [oneHotDropFirst, List.getElem_zipWith, List.getElem_ofFn, embFeatures]
  congr 1
  refine List.flatMap_congr fun d _ => ?_
  rw [npUnique_fin fun k => g.embed k d, ← List.map_tail, List.map_map]
  refine List.map_congr_left fun c _ => ?_
  simp only [Function.comp_apply, Nat.cast_inj, Fin.val_inj]

/-- The importance weight of an action, zero where the behaviour policy never plays it. -/
def iwOrZero (g : EmbLog K n A L C D) (i : Fin n) (a : Fin A) : K :=
  if g.piB i a (g.position i) = 0 then 0 else g.piE i a (g.position i) / g.piB i a (g.position i)

theorem ratioOrZero_eq (pe pb : K) (h : 0 ≤ pe) : ratioOrZero pe pb = .ok (if pb = 0 then 0 else pe / pb) := by
  unfold ratioOrZero
  rw [if_neg (not_lt.2 h)]
  split <;> rfl

theorem weightsEstimated_eq {g : EmbLog K n A L C D} (ctx : Fin n → Fin m → K) {learner}
    {post : Fin n → Fin A → K}
    (hE : ∀ i a, 0 ≤ g.piE i a (g.position i))
    (hp : PredictsProba (learner (List.ofFn (embFeatures ctx g.embed)) (List.ofFn fun i => ((g.action i : ℕ) : ℤ)))
      g.action post) :
    embWeights A learner (g.embIn none ⟨n, m, ctx⟩) =
      .ok (List.ofFn fun i => ∑ a with ∃ k, g.action k = a, iwOrZero g i a * post i a) := by
  show embWeightsEstimated A learner (g.embIn none ⟨n, m, ctx⟩) = _
  unfold embWeightsEstimated
  have hB := fancyRow_ofFn ⟨n, A, L, g.piB⟩ g.position
  have hEr := fancyRow_ofFn ⟨n, A, L, g.piE⟩ g.position
  simp only [EmbLog.embIn, List.length_ofFn] at hB hEr ⊢
  rw [hEr, py_bind_ok, hB, py_bind_ok, oneHot_eq]
  have hz : ∀ {α β : Type} (x : Fin n → α) (y : Fin n → β),
      List.zip (List.ofFn x) (List.ofFn y) = List.ofFn fun i => (x i, y i) := fun x y =>
    List.ext_getElem (by simp) fun i h1 h2 => by simp
  rw [hz, mapM_ofFn_ok (f := fun q : List K × List K => bopM ratioOrZero q.1 q.2)
    (y := fun i => List.ofFn (iwOrZero g i)) (fun i =>
    bopM_ofFn_ok _ _ _ _ fun a => ratioOrZero_eq _ _ (hE i a)), py_bind_ok, py_bind_ok, hp,
    npUnique_fin, mapM_ofFn_ok fun i => scatterRow_seen g.action (post i), py_bind_ok, hz]
  refine mapM_ofFn_ok fun i => ?_
  dsimp only
  rw [bop_ofFn, py_bind_ok, py_pure, List.sum_ofFn, Finset.sum_filter]
  refine congrArg Except.ok (Finset.sum_congr rfl fun a _ => ?_)
  split <;> simp

/-- **C124.** Without `p_e_a`, MIPS multiplies every reward by the expected importance weight under the classifier's
probabilities of the actions given context and embedding; the classifier is trained on `embFeatures` to predict the logged
actions. Actions that were never logged are left out, as are actions the behaviour policy never plays. -/
theorem C124_value {g : EmbLog K n A L C D} (hg : g.Valid) (ctx : Fin n → Fin m → K) {learner}
    {post : Fin n → Fin A → K} (hE : ∀ i a, 0 ≤ g.piE i a (g.position i))
    (hp : PredictsProba (learner (List.ofFn (embFeatures ctx g.embed)) (List.ofFn fun i => ((g.action i : ℕ) : ℤ)))
      g.action post) :
    EmbKind.mipw.plainValue A learner (g.argsCtx ctx) = .ok ((∑ i, g.reward i *
      ∑ a with (∃ k, g.action k = a) ∧ g.piB i a (g.position i) ≠ 0,
        g.piE i a (g.position i) / g.piB i a (g.position i) * post i a) / (n : K)) := by
  unfold EmbKind.plainValue EmbKind.round
  rw [EmbLog.prepareCtx_eq hg, py_bind_ok, weightsEstimated_eq ctx hE hp, py_bind_ok]
  simp only [EmbLog.embIn]
  rw [bop_ofFn, py_bind_ok, py_pure, py_bind_ok, npMean_ofFn hg.nonempty]
  refine congrArg Except.ok (congrArg (· / (n : K)) (Finset.sum_congr rfl fun i _ => congrArg _ ?_))
  rw [Finset.sum_filter, Finset.sum_filter]
  refine Finset.sum_congr rfl fun a _ => ?_
  unfold iwOrZero
  by_cases h1 : ∃ k, g.action k = a <;> by_cases h2 : g.piB i a (g.position i) = 0 <;> simp [h1, h2]

theorem flatMap_inj {α β : Type} (l : List α) (f g : α → List β) (hl : ∀ a ∈ l, (f a).length = (g a).length)
    (h : l.flatMap f = l.flatMap g) : ∀ a ∈ l, f a = g a := by
  induction l with
  | nil => simp
  | cons x l ih =>
      rw [List.flatMap_cons, List.flatMap_cons] at h
      obtain ⟨h1, h2⟩ := List.append_inj h (hl x (by simp))
      intro a ha
      rcases List.mem_cons.1 ha with rfl | ha
      · exact h1
      · exact ih (fun b hb => hl b (by simp [hb])) h2 a ha

/-- **C124.** The features tell all contexts and all embeddings apart. -/
theorem C124_features (ctx : Fin n → Fin m → K) (embed : Fin n → Fin D → Fin C) (i k : Fin n) :
    embFeatures ctx embed i = embFeatures ctx embed k ↔ ctx i = ctx k ∧ embed i = embed k := by
  constructor
  · intro h
    unfold embFeatures at h
    obtain ⟨h1, h2⟩ := List.append_inj h (by simp)
    refine ⟨List.ofFn_injective h1, funext fun d => ?_⟩
    have h3 := flatMap_inj _ _ _ (by simp) h2 d (List.mem_finRange d)
    rw [List.map_inj_left] at h3
    have h4 : ∀ c ∈ (loggedClasses fun k => embed k d).tail, (embed i d = c ↔ embed k d = c) := by
      intro c hc
      have := h3 c hc
      by_cases e1 : embed i d = c <;> by_cases e2 : embed k d = c <;> simp [e1, e2] at this ⊢
    have hi : embed i d ∈ loggedClasses fun k => embed k d := mem_seen.2 ⟨i, rfl⟩
    have hk : embed k d ∈ loggedClasses fun k => embed k d := mem_seen.2 ⟨k, rfl⟩
    cases hs : loggedClasses fun k => embed k d with
    | nil => rw [hs] at hi; simp at hi
    | cons x l =>
        rw [hs] at hi hk h4
        rw [List.tail_cons] at h4
        rcases List.mem_cons.1 hi with hi | hi
        · rcases List.mem_cons.1 hk with hk | hk
          · rw [hi, hk]
          · exact (h4 _ hk).2 rfl
        · exact ((h4 _ hi).1 rfl).symm
  · rintro ⟨h1, h2⟩
    unfold embFeatures
    rw [h1, h2]

/-- **C124.** If the classifier returns the true probability of every logged action given the context and the embedding
(`pe i a` being the probability of the embedding of round `i` under action `a`), and every action that the evaluation policy
plays and that can have the embedding is logged somewhere and played by the behaviour policy, then every reward is weighted
with the ratio of the probabilities of its embedding under the two policies, for any number of embedding dimensions. -/
theorem C124_true_weights {g : EmbLog K n A L C D} (hg : g.Valid) (ctx : Fin n → Fin m → K) {learner}
    {post pe : Fin n → Fin A → K} (hE : ∀ i a, 0 ≤ g.piE i a (g.position i))
    (hp : PredictsProba (learner (List.ofFn (embFeatures ctx g.embed)) (List.ofFn fun i => ((g.action i : ℕ) : ℤ)))
      g.action post)
    (_hpos : ∀ i, ∑ b, g.piB i b (g.position i) * pe i b ≠ 0)
    (hcal : ∀ i k, post i (g.action k) =
      g.piB i (g.action k) (g.position i) * pe i (g.action k) / ∑ b, g.piB i b (g.position i) * pe i b)
    (hsup : ∀ i a, g.piE i a (g.position i) * pe i a ≠ 0 → g.piB i a (g.position i) ≠ 0 ∧ ∃ k, g.action k = a) :
    EmbKind.mipw.plainValue A learner (g.argsCtx ctx) = .ok ((∑ i, g.reward i *
      ((∑ a, g.piE i a (g.position i) * pe i a) / ∑ a, g.piB i a (g.position i) * pe i a)) / (n : K)) := by
  rw [C124_value hg ctx hE hp]
  refine congrArg Except.ok (congrArg (· / (n : K)) (Finset.sum_congr rfl fun i _ => congrArg _ ?_))
  rw [Finset.sum_div, Finset.sum_filter]
  refine Finset.sum_congr rfl fun a _ => ?_
  split
  · rename_i h
    obtain ⟨⟨k, rfl⟩, h0⟩ := h
    rw [hcal i k]
    field_simp
  · rename_i h
    have : g.piE i a (g.position i) * pe i a = 0 := by
      by_contra h0
      exact h ((hsup i a h0).symm)
    rw [this, zero_div]

/-- **C124.** The self-normalised estimator divides by the mean of the same weights. -/
theorem C124_self_normalised {g : EmbLog K n A L C D} (hg : g.Valid) (ctx : Fin n → Fin m → K) {learner}
    {post : Fin n → Fin A → K} (hE : ∀ i a, 0 ≤ g.piE i a (g.position i))
    (hp : PredictsProba (learner (List.ofFn (embFeatures ctx g.embed)) (List.ofFn fun i => ((g.action i : ℕ) : ℤ)))
      g.action post)
    {w : Fin n → K} (hw : ∀ i, w i = ∑ a with (∃ k, g.action k = a) ∧ g.piB i a (g.position i) ≠ 0,
        g.piE i a (g.position i) / g.piB i a (g.position i) * post i a) :
    (∑ i, w i ≠ 0 → EmbKind.snmipw.plainValue A learner (g.argsCtx ctx) =
      .ok ((∑ i, g.reward i * w i) / ∑ i, w i)) ∧
    (∑ i, w i = 0 → EmbKind.snmipw.plainValue A learner (g.argsCtx ctx) = .error .nonFinite) := by
  have hn : (n : K) ≠ 0 := by exact_mod_cast hg.nonempty.ne'
  have hw' : (fun i => ∑ a with ∃ k, g.action k = a, iwOrZero g i a * post i a) = w := by
    funext i
    rw [hw, Finset.sum_filter, Finset.sum_filter]
    refine Finset.sum_congr rfl fun a _ => ?_
    unfold iwOrZero
    by_cases h1 : ∃ k, g.action k = a <;> by_cases h2 : g.piB i a (g.position i) = 0 <;> simp [h1, h2]
  have key := weightsEstimated_eq ctx hE hp
  rw [hw'] at key
  unfold EmbKind.plainValue EmbKind.round
  rw [EmbLog.prepareCtx_eq hg, py_bind_ok, key, py_bind_ok]
  simp only [EmbLog.embIn]
  rw [bop_ofFn, py_bind_ok, npMean_ofFn hg.nonempty, py_bind_ok]
  constructor
  · intro h
    have h' : (∑ i, w i) / (n : K) ≠ 0 := div_ne_zero h hn
    rw [mapM_ofFn_ok (f := fun x => npDiv x ((∑ i, w i) / (n : K))) fun i => npDiv_ok h', py_bind_ok,
      npMean_ofFn hg.nonempty]
    refine congrArg Except.ok ?_
    rw [← Finset.sum_div]
    field_simp
  · intro h
    rw [h, zero_div, mapM_error_of (e := .nonFinite) (fun x _ => Or.inr (npDiv_zero x))
      ⟨_, List.mem_ofFn.2 ⟨⟨0, hg.nonempty⟩, rfl⟩, npDiv_zero _⟩]
    rfl

/-! ### Examples -/

/-- Three rounds, three actions, two embedding dimensions; action 2 is never logged. -/
def exLearned : EmbLog ℚ 3 3 1 2 2 where
  action := ![0, 1, 1]
  reward := ![1, 2, 4]
  embed := fun i _ => ![0, 1, 1] i
  piB := fun _ a _ => ![1 / 2, 1 / 4, 1 / 4] a
  piE := fun _ a _ => ![1 / 4, 3 / 4, 0] a
  position := fun _ => 0
  pEA := fun _ _ _ => 1 / 2

/-- The probability of the logged embedding given the action. -/
def exLearnedPe (i : Fin 3) (a : Fin 3) : ℚ := if i = 0 then ![1 / 2, 1 / 8, 0] a else ![1 / 2, 7 / 8, 1] a

/-- The true probability of the action given the logged embedding. -/
def exLearnedPost (i : Fin 3) (a : Fin 3) : ℚ :=
  exLearned.piB i a 0 * exLearnedPe i a / ∑ b, exLearned.piB i b 0 * exLearnedPe i b

theorem exLearned_valid : exLearned.Valid := ⟨by decide, by decide +kernel, by decide +kernel⟩

example := C124_true_weights exLearned_valid (m := 1) (fun i _ => (i.val : ℚ))
  (learner := fun _ _ => List.ofFn fun i => (loggedClasses exLearned.action).map (exLearnedPost i)) (post := exLearnedPost)
  (pe := exLearnedPe) (by decide +kernel) rfl (by decide +kernel) (by decide +kernel) (by decide +kernel)

example : EmbKind.mipw.plainValue 3 (fun _ _ => [[4 / 5, 1 / 5], [1 / 2, 1 / 2], [1 / 2, 1 / 2]])
    (exLearned.argsCtx fun i (_ : Fin 1) => (i.val : ℚ)) = .ok (23 / 6) := by
  rw [C124_value exLearned_valid _ (post := fun i a => (![![4 / 5, 1 / 5, 0], ![1 / 2, 1 / 2, 0], ![1 / 2, 1 / 2, 0]] i a : ℚ))
    (by decide +kernel) (by unfold PredictsProba; decide +kernel)]
  exact congrArg Except.ok (by decide +kernel)

example : embFeatures (fun i (_ : Fin 1) => (i.val : ℚ)) exLearned.embed 1 = [1, 1, 1] := by decide +kernel

end Obp
