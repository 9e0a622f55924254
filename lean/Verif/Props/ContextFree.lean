import Verif.Lemmas.Policy
import Mathlib.Algebra.BigOperators.Field
import Mathlib.Algebra.Order.BigOperators.Group.List
import Mathlib.Data.Rat.Floor

/-! # C60-C64, C67: context-free policies -/

set_option linter.unusedSectionVars false

namespace Obp

variable {K : Type} [Field K] [LinearOrder K] {R : Type}

/-- **C60.** After any interleaving of `update_params`, `select_action` and `initialize` calls,
`n_trial` is the number of observations since the last initialisation, and the counts and reward
sums used for selection are those of the completed batches. -/
theorem C60_counts (ops : Rng R K) (argsort : List K → List ℕ) (cfg : CfConfig)
    (c : CfClass K cfg.nActions) (calls : List (CfCall K))
    (hz : ∀ p ∈ observations calls, -(cfg.nActions : ℤ) ≤ p.1 ∧ p.1 < cfg.nActions) :
    let s := c.run ops argsort cfg calls
    let h := completed cfg.batchSize (observations calls)
    s.nTrial = (observations calls).length ∧
      ∀ a, s.actionCounts a = timesSeen h a ∧ s.rewardCounts a = (rewardsOf h a).sum := by
  have hi := cfInv_run ops argsort cfg c calls hz
  exact ⟨hi.nTrial, fun a => ⟨hi.counts a, hi.rewards a⟩⟩

/-- **C60.** An action that does not exist raises IndexError and changes no count; the call is
nevertheless counted in `n_trial`. -/
theorem C60_bad_action (b : ℕ) {n : ℕ} (s : CfState R K n) (z : ℤ) (r : K) (hz : z < -n ∨ n ≤ z) :
    s.updateParams b z r = (.error .indexError, { s with nTrial := s.nTrial + 1 }) := by
  simp only [CfState.updateParams, wrapIdx_none hz]

/-- **C60.** A valid action never raises. -/
theorem C60_update_ok (b : ℕ) {n : ℕ} (s : CfState R K n) (z : ℤ) (r : K) (h1 : -n ≤ z) (h2 : z < n) :
    (s.updateParams b z r).1 = .ok () := by
  obtain ⟨a, ha⟩ := wrapIdx_isSome h1 h2
  simp only [CfState.updateParams, ha]
  split <;> rfl

/-- **C61.** `select_action` of `EpsilonGreedy`, `Random` and `BernoulliTS`: whatever the state and the
generator, a result is a ranking of `len_list` distinct existing actions. -/
theorem C61_contextfree {ops : Rng R K} (ho : ops.Valid) {argsort : List K → List ℕ}
    (ha : IsArgsort argsort) {n L b : ℤ} {cfg : CfConfig} (hc : mkCfConfig n L b = .ok cfg)
    (c : CfClass K cfg.nActions) (s : CfState R K cfg.nActions) {l : List ℕ}
    (h : (c.select ops argsort cfg.lenList s).1 = .ok l) : IsRanking cfg.nActions cfg.lenList l := by
  obtain ⟨-, -, hL, -⟩ := mkCfConfig_ok hc
  cases c with
  | egreedy e =>
    simp only [CfClass.select, egreedySelect] at h
    split at h
    · obtain rfl := Except.ok.inj h
      exact (topRanking_isTop ha _ hL).toIsRanking
    · obtain rfl := Except.ok.inj h
      exact ho _ _ _ hL
  | bts al be =>
    simp only [CfClass.select, btsSelect] at h
    split at h
    · obtain rfl := Except.ok.inj h
      exact (topRanking_isTop ha _ hL).toIsRanking
    · cases h

/-- **C62.** `EpsilonGreedy.select_action` after any history: if the uniform draw exceeds `epsilon` and
every action occurs in the completed batches, the result is the top ranking by average observed
reward; otherwise it is the random choice. -/
theorem C62_egreedy {ops : Rng R K} {argsort : List K → List ℕ} (ha : IsArgsort argsort) {n L b : ℤ}
    {cfg : CfConfig} (hc : mkCfConfig n L b = .ok cfg) (epsilon : K) (calls : List (CfCall K))
    (hz : ∀ p ∈ observations calls, -(cfg.nActions : ℤ) ≤ p.1 ∧ p.1 < cfg.nActions) :
    let s := (CfClass.egreedy (n := cfg.nActions) epsilon).run ops argsort cfg calls
    let h := completed cfg.batchSize (observations calls)
    let u := (ops.rand s.rng).1
    let out := (egreedySelect ops argsort cfg.lenList epsilon s).1
    (epsilon < u → (∀ a : Fin cfg.nActions, ∃ p ∈ h, Names p.1 a) →
      ∃ l, out = .ok l ∧ IsTopRanking
        (fun a : Fin cfg.nActions => (rewardsOf h a).sum / ((rewardsOf h a).length : K)) cfg.lenList l) ∧
    (u ≤ epsilon ∨ (∃ a : Fin cfg.nActions, ∀ p ∈ h, ¬ Names p.1 a) →
      out = .ok (ops.choice (ops.rand s.rng).2 cfg.nActions cfg.lenList).1) := by
  intro s h u out
  have hi := cfInv_run ops argsort cfg (.egreedy epsilon) calls hz
  obtain ⟨-, -, hL, -⟩ := mkCfConfig_ok hc
  have hseen : ∀ a : Fin cfg.nActions, 0 < s.actionCounts a ↔ ∃ p ∈ h, Names p.1 a := by
    intro a
    rw [hi.counts a, timesSeen, List.countP_pos_iff]
    simp [h]
  constructor
  · intro hu hall
    have hcond : epsilon < (ops.rand s.rng).1 ∧ ∀ a, 0 < s.actionCounts a :=
      ⟨hu, fun a => (hseen a).2 (hall a)⟩
    refine ⟨topRanking argsort (List.ofFn fun a => s.rewardCounts a / (s.actionCounts a : K)) cfg.lenList,
      ?_, ?_⟩
    · simp only [out, egreedySelect, if_pos hcond]
    · have hscore : (fun a : Fin cfg.nActions => s.rewardCounts a / (s.actionCounts a : K)) =
          fun a => (rewardsOf h a).sum / ((rewardsOf h a).length : K) := by
        funext a
        have hlen : s.actionCounts a = (rewardsOf h a).length := by
          rw [hi.counts a, rewardsOf, List.length_map, timesSeen, List.countP_eq_length_filter]
        rw [hi.rewards a, hlen]
      rw [hscore]
      exact topRanking_isTop ha _ hL
  · intro hno
    have hcond : ¬ (epsilon < (ops.rand s.rng).1 ∧ ∀ a, 0 < s.actionCounts a) := by
      rintro ⟨h1, h2⟩
      rcases hno with hno | ⟨a, hno⟩
      · exact absurd h1 (not_lt.2 hno)
      · obtain ⟨p, hp, hn⟩ := (hseen a).1 (h2 a)
        exact hno p hp hn
    simp only [out, egreedySelect, if_neg hcond]

/-- **C64.** For rewards in [0, 1] and a positive prior, after any history the parameters given to the
Beta distributions are the posterior of the completed batches, they are positive, and
`select_action` does not fail. -/
theorem C64_beta_posterior [IsStrictOrderedRing K] (ops : Rng R K) (argsort : List K → List ℕ)
    (cfg : CfConfig) (alpha beta : Fin cfg.nActions → K) (h1 : ∀ a, 0 < alpha a) (h2 : ∀ a, 0 < beta a)
    (calls : List (CfCall K))
    (hz : ∀ p ∈ observations calls, -(cfg.nActions : ℤ) ≤ p.1 ∧ p.1 < cfg.nActions)
    (hr : ∀ p ∈ observations calls, 0 ≤ p.2 ∧ p.2 ≤ 1) :
    let s := (CfClass.bts alpha beta).run ops argsort cfg calls
    let h := completed cfg.batchSize (observations calls)
    (∀ a, btsA alpha s a = alpha a + (rewardsOf h a).sum ∧ 0 < btsA alpha s a) ∧
    (∀ a, btsB beta s a = beta a + ((rewardsOf h a).map (1 - ·)).sum ∧ 0 < btsB beta s a) ∧
    ∃ l, (btsSelect ops argsort cfg.lenList alpha beta s).1 = .ok l := by
  intro s h
  have hi := cfInv_run ops argsort cfg (.bts alpha beta) calls hz
  have hmem : ∀ (a : Fin cfg.nActions), ∀ x ∈ rewardsOf h a, 0 ≤ x ∧ x ≤ 1 := by
    intro a x hx
    obtain ⟨p, hp, rfl⟩ := List.mem_map.1 hx
    exact hr p ((completed_prefix _ _).subset (List.mem_of_mem_filter hp))
  have hA : ∀ a, btsA alpha s a = alpha a + (rewardsOf h a).sum ∧ 0 < btsA alpha s a := by
    intro a
    have e : btsA alpha s a = alpha a + (rewardsOf h a).sum := by
      rw [btsA, hi.rewards a, add_comm]
    refine ⟨e, ?_⟩
    rw [e]
    exact add_pos_of_pos_of_nonneg (h1 a) (List.sum_nonneg fun x hx => (hmem a x hx).1)
  have hsub : ∀ l : List K, ((l.length : K) - l.sum) = (l.map (1 - ·)).sum := by
    intro l
    induction l with
    | nil => simp
    | cons x l ih => simp only [List.length_cons, List.sum_cons, List.map_cons, ← ih]; push_cast; ring
  have hB : ∀ a, btsB beta s a = beta a + ((rewardsOf h a).map (1 - ·)).sum ∧ 0 < btsB beta s a := by
    intro a
    have hlen : s.actionCounts a = (rewardsOf h a).length := by
      rw [hi.counts a, rewardsOf, List.length_map, timesSeen, List.countP_eq_length_filter]
    have e : btsB beta s a = beta a + ((rewardsOf h a).map (1 - ·)).sum := by
      rw [btsB, hlen, hi.rewards a, hsub, add_comm]
    refine ⟨e, ?_⟩
    rw [e]
    refine add_pos_of_pos_of_nonneg (h2 a) (List.sum_nonneg fun x hx => ?_)
    obtain ⟨y, hy, rfl⟩ := List.mem_map.1 hx
    exact sub_nonneg.2 (hmem a y hy).2
  refine ⟨hA, hB, ?_⟩
  have hcond : ∀ a, 0 < btsA alpha s a ∧ 0 < btsB beta s a := fun a => ⟨(hA a).2, (hB a).2⟩
  simp only [btsSelect, if_pos hcond]
  exact ⟨_, rfl⟩

/-- **C64.** The restriction on rewards is needed: with the default prior, one reward of 2 makes the
next `select_action` raise ValueError. -/
theorem C64_reward_above_one {R : Type} (ops : Rng R ℚ) (argsort : List ℚ → List ℕ) :
    ∃ s : CfState R ℚ 2, s = ((CfState.init ops 2).updateParams 1 0 2).2 ∧
      (btsSelect ops argsort 1 (fun _ => 1) (fun _ => 1) s).1 = .error .valueError := by
  refine ⟨_, rfl, ?_⟩
  have : ¬ ∀ a, 0 < btsA (fun _ => 1) ((CfState.init ops 2).updateParams 1 0 2).2 a ∧
      0 < btsB (fun _ => 1) ((CfState.init ops 2).updateParams 1 0 2).2 a := by
    intro h
    have := (h 0).2
    simp [btsB, CfState.updateParams, CfState.init, wrapIdx] at this
    norm_num at this
  simp only [btsSelect, if_neg this]

/-- **C67.** `initialize` of the context-free policies: whatever happened before, the policy then
continues exactly like a new one with the same arguments (given an integer seed). -/
theorem C67_contextfree_reset_partial (ops : Rng R K) (argsort : List K → List ℕ) (cfg : CfConfig)
    (c : CfClass K cfg.nActions) (before after : List (CfCall K)) :
    c.run ops argsort cfg (before ++ .reset :: after) = c.run ops argsort cfg after := by
  simp only [CfClass.run, List.foldl_append, List.foldl_cons]
  rfl

/-! ### C63 -/

/-- **C63.** `Random.compute_batch_action_dist` is the uniform distribution at every position. -/
theorem C63_random [IsStrictOrderedRing K] {n L b : ℤ} {cfg : CfConfig}
    (hc : mkCfConfig n L b = .ok cfg) (nRounds : ℕ) :
    ∃ x : Arr3 K, randomBatchDist nRounds cfg.nActions cfg.lenList = .ok x ∧ x.n = nRounds ∧
      x.A = cfg.nActions ∧ x.L = cfg.lenList ∧ (∀ i a l, x.val i a l = 1 / (cfg.nActions : K)) ∧
      (∀ i a l, 0 ≤ x.val i a l) ∧ ∀ i l, ∑ a, x.val i a l = 1 := by
  obtain ⟨hn, -, -, -⟩ := mkCfConfig_ok hc
  have hne : (cfg.nActions : K) ≠ 0 := Nat.cast_ne_zero.2 (by omega)
  refine ⟨⟨nRounds, cfg.nActions, cfg.lenList, fun _ _ _ => 1 * (1 / (cfg.nActions : K))⟩, ?_, rfl, rfl,
    rfl, fun _ _ _ => one_mul _, fun _ _ _ => ?_, fun _ _ => ?_⟩
  · simp only [randomBatchDist, npDiv_ok hne, py_bind_ok]
    rfl
  · dsimp only
    rw [one_mul]; positivity
  · simp [Finset.card_univ, hne]

/-- `sels` are the results of successive `select_action` calls from state `s`. -/
inductive Selections (ops : Rng R K) (argsort : List K → List ℕ) (L : ℕ) {n : ℕ} (c : CfClass K n) :
    CfState R K n → List (List ℕ) → Prop
  | nil (s) : Selections ops argsort L c s []
  | cons {s l sels} (h : (c.select ops argsort L s).1 = .ok l)
      (t : Selections ops argsort L c (c.select ops argsort L s).2 sels) :
      Selections ops argsort L c s (l :: sels)

theorem countSelection_ok {n L : ℕ} {sel : List ℕ} (hs : IsRanking n L sel) :
    ∀ (k pos : ℕ) (count : Fin n → ℕ → ℕ), pos + k = L →
      ∃ c', countSelection count sel pos k = .ok c' ∧
        ∀ b p, c' b p = count b p + if pos ≤ p ∧ sel[p]? = some b.val then 1 else 0 := by
  intro k
  induction k with
  | zero =>
    intro pos count hp
    refine ⟨count, rfl, fun b p => ?_⟩
    rw [if_neg, Nat.add_zero]
    rintro ⟨h1, h2⟩
    have := (List.getElem?_eq_some_iff.1 h2).1
    rw [hs.length_eq] at this
    omega
  | succ k ih =>
    intro pos count hp
    have hlt : pos < sel.length := by rw [hs.length_eq]; omega
    have hget : sel[pos]? = some sel[pos] := List.getElem?_eq_getElem hlt
    have hb : sel[pos] < n := hs.lt _ (List.getElem_mem hlt)
    obtain ⟨c', h1, h2⟩ := ih (pos + 1)
      (fun b p => if b = ⟨sel[pos], hb⟩ ∧ p = pos then count b p + 1 else count b p) (by omega)
    refine ⟨c', ?_, ?_⟩
    · simp only [countSelection, hget, dif_pos hb]
      exact h1
    · intro b p
      rw [h2 b p]
      rcases lt_trichotomy p pos with h | h | h
      · rw [if_neg (by omega), if_neg (by omega), if_neg (by omega)]
      · subst h
        rw [hget]
        by_cases hbb : b = ⟨sel[p], hb⟩
        · subst hbb; simp
        · rw [if_neg (by tauto), if_neg (by omega), if_neg]
          rintro ⟨-, h⟩
          exact hbb (Fin.ext (Option.some.inj h).symm)
      · rw [if_neg (by omega)]
        congr 1
        by_cases h4 : sel[p]? = some b.val
        · rw [if_pos ⟨by omega, h4⟩, if_pos ⟨by omega, h4⟩]
        · rw [if_neg fun h' => h4 h'.2, if_neg fun h' => h4 h'.2]

theorem simulateCounts_ok {ops : Rng R K} {argsort : List K → List ℕ} (ha : IsArgsort argsort)
    {L n : ℕ} (hL : L ≤ n) (alpha beta : Fin n → K) :
    ∀ (k : ℕ) (s : CfState R K n) (count : Fin n → ℕ → ℕ),
      (∀ a, 0 < btsA alpha s a ∧ 0 < btsB beta s a) →
      ∃ c' sels, (simulateCounts ops argsort L alpha beta k s count).1 = .ok c' ∧
        Selections ops argsort L (.bts alpha beta) s sels ∧ sels.length = k ∧
        (∀ l ∈ sels, IsRanking n L l) ∧
        ∀ b p, c' b p = count b p + sels.countP fun l => l[p]? = some b.val := by
  intro k
  induction k with
  | zero =>
    intro s count _
    exact ⟨count, [], rfl, .nil _, rfl, by simp, by simp⟩
  | succ k ih =>
    intro s count hpos
    set l := topRanking argsort (List.ofFn (ops.beta s.rng (btsA alpha s) (btsB beta s)).1) L with hl
    set s' : CfState R K n := { s with rng := (ops.beta s.rng (btsA alpha s) (btsB beta s)).2 } with hs'
    have hsel : btsSelect ops argsort L alpha beta s = (.ok l, s') := by
      simp only [btsSelect, if_pos hpos]; rfl
    have hr : IsRanking n L l := (topRanking_isTop ha _ hL).toIsRanking
    obtain ⟨c1, h1, h2⟩ := countSelection_ok hr L 0 count (by omega)
    obtain ⟨c', sels, h3, h4, h5, h6, h7⟩ := ih s' c1 hpos
    refine ⟨c', l :: sels, ?_, ?_, by simp [h5], ?_, ?_⟩
    · simp only [simulateCounts, hsel, h1]
      exact h3
    · refine .cons ?_ ?_
      · show (btsSelect ops argsort L alpha beta s).1 = _
        rw [hsel]
      · show Selections _ _ _ _ (btsSelect ops argsort L alpha beta s).2 _
        rw [hsel]; exact h4
    · intro l' hl'
      rcases List.mem_cons.1 hl' with rfl | hl'
      · exact hr
      · exact h6 l' hl'
    · intro b p
      rw [h7, h2, List.countP_cons]
      simp only [zero_le, true_and, decide_eq_true_eq]
      omega

/-- **C63.** `BernoulliTS.compute_batch_action_dist`, from any state whose Beta parameters are positive
(`C64_beta_posterior`): the probability of an action at a position is the frequency with which
`n_sim` successive `select_action` calls put it there, the same in every round; the probabilities
are non-negative and sum to one. -/
theorem C63_bts [IsStrictOrderedRing K] {ops : Rng R K} {argsort : List K → List ℕ}
    (ha : IsArgsort argsort) {n L b : ℤ} {cfg : CfConfig} (hc : mkCfConfig n L b = .ok cfg)
    (alpha beta : Fin cfg.nActions → K) (nRounds nSim : ℕ) (hsim : 0 < nSim)
    (s : CfState R K cfg.nActions) (hpos : ∀ a, 0 < btsA alpha s a ∧ 0 < btsB beta s a) :
    ∃ x sels, (btsBatchDist ops argsort cfg.lenList alpha beta nRounds nSim s).1 = .ok x ∧
      x.n = nRounds ∧ x.A = cfg.nActions ∧ x.L = cfg.lenList ∧
      Selections ops argsort cfg.lenList (.bts alpha beta) s sels ∧ sels.length = nSim ∧
      (∀ i a p, x.val i a p = ((sels.countP fun l => l[p.val]? = some a.val : ℕ) : K) / (nSim : K)) ∧
      (∀ i a p, 0 ≤ x.val i a p) ∧ ∀ i p, ∑ a, x.val i a p = 1 := by
  obtain ⟨-, -, hL, -⟩ := mkCfConfig_ok hc
  obtain ⟨c', sels, h1, h2, h3, h4, h5⟩ :=
    simulateCounts_ok (ops := ops) ha hL alpha beta nSim s (fun _ _ => 0) hpos
  have hne : (nSim : K) ≠ 0 := Nat.cast_ne_zero.2 (by omega)
  refine ⟨⟨nRounds, cfg.nActions, cfg.lenList, fun _ a p => (c' a p : K) / (nSim : K)⟩, sels, ?_, rfl,
    rfl, rfl, h2, h3, ?_, ?_, ?_⟩
  · unfold btsBatchDist
    split
    · next e s' he => rw [he] at h1; cases h1
    · next cc s' he =>
      rw [he] at h1
      obtain rfl := Except.ok.inj h1
      rw [if_neg (by omega)]
  · intro i a p
    dsimp only
    rw [h5, Nat.zero_add]
  · intro i a p
    dsimp only
    positivity
  · intro i p
    dsimp only
    rw [← Finset.sum_div, div_eq_one_iff_eq hne, ← Nat.cast_sum]
    congr 1
    simp only [h5, Nat.zero_add]
    rw [← h3]
    clear h1 h2 h3 h5
    induction sels with
    | nil => simp
    | cons l sels ih =>
      have ih := ih fun l' hl' => h4 l' (List.mem_cons_of_mem _ hl')
      simp only [List.countP_cons, Finset.sum_add_distrib, ih, List.length_cons]
      have hr := h4 l List.mem_cons_self
      have hlt : p.val < l.length := by rw [hr.length_eq]; exact p.isLt
      have hb := hr.lt _ (List.getElem_mem hlt)
      congr 1
      rw [Finset.sum_eq_single (⟨l[p.val], hb⟩ : Fin cfg.nActions)]
      · simp
      · intro c _ hcne
        rw [if_neg]
        simp only [decide_eq_true_eq, List.getElem?_eq_getElem hlt]
        intro h
        exact hcne (Fin.ext (Option.some.inj h).symm)
      · simp

/-- **C63.** With `n_sim = 0` there is no distribution (0/0). -/
theorem C63_no_simulation (ops : Rng R K) (argsort : List K → List ℕ) (L : ℕ) {n : ℕ}
    (alpha beta : Fin n → K) (nRounds : ℕ) (s : CfState R K n) :
    (btsBatchDist ops argsort L alpha beta nRounds 0 s).1 = .error .nonFinite := rfl

/-! ### Examples -/

/-- a generator: a constant uniform draw, the identity permutation, the first Beta parameter -/
def exRng : Rng Unit ℚ where
  seeded := ()
  rand := fun _ => (1 / 2, ())
  choice := fun _ _ k => (List.range k, ())
  beta := fun _ _ a _ => (a, ())

theorem exRng_valid : exRng.Valid := fun _ _ _ h =>
  ⟨List.length_range, List.nodup_range, fun _ ha => lt_of_lt_of_le (List.mem_range.1 ha) h⟩

/-- a stable argsort -/
def insArgsort (xs : List ℚ) : List ℕ :=
  (List.range xs.length).insertionSort fun i j => xs.getD i 0 ≤ xs.getD j 0

theorem insArgsort_isArgsort : IsArgsort insArgsort := by
  intro xs
  refine ⟨List.perm_insertionSort _ _, ?_⟩
  have : Std.Total fun (i j : ℕ) => xs.getD i 0 ≤ xs.getD j 0 := ⟨fun i j => le_total _ _⟩
  have : IsTrans ℕ fun i j => xs.getD i 0 ≤ xs.getD j 0 := ⟨fun i j k => le_trans⟩
  refine (List.pairwise_insertionSort _ _).imp ?_
  intro i j hij x y hx hy
  rw [List.getD_eq_getElem?_getD, List.getD_eq_getElem?_getD, hx, hy] at hij
  exact hij

/-- batches of two; three observations and a selection in between -/
def exCalls : List (CfCall ℚ) := [.update 0 1, .select, .update 1 (1 / 2), .update (-1) 1]

example := C60_counts exRng insArgsort ⟨2, 1, 2⟩ (.egreedy (1 / 4)) exCalls (by decide +kernel)
/-- the third observation is not yet used -/
example : completed 2 (observations exCalls) = [(0, 1), (1, 1 / 2)] := by decide +kernel
example : timesSeen (n := 2) (observations exCalls) 1 = 2 := by decide +kernel
/-- the policy exploits action 0 -/
example : ∃ l, (egreedySelect exRng insArgsort 1 (1 / 4)
    ((CfClass.egreedy (1 / 4)).run exRng insArgsort ⟨2, 1, 2⟩ exCalls)).1 = .ok l ∧ l.length = 1 := by
  have := (C62_egreedy (ops := exRng) insArgsort_isArgsort (n := 2) (L := 1) (b := 2) (cfg := ⟨2, 1, 2⟩) rfl
    (1 / 4) exCalls (by decide +kernel)).1 (by show (1 / 4 : ℚ) < 1 / 2; norm_num) (by decide +kernel)
  obtain ⟨l, h1, h2⟩ := this
  exact ⟨l, h1, h2.length_eq⟩
example := C64_beta_posterior exRng insArgsort ⟨2, 1, 2⟩ (fun _ => 1) (fun _ => 1) (fun _ => one_pos)
  (fun _ => one_pos) exCalls (by decide +kernel) (by decide +kernel)
example := C63_bts (ops := exRng) insArgsort_isArgsort (n := 2) (L := 2) (b := 1) (cfg := ⟨2, 2, 1⟩) rfl
  (fun _ => 1) (fun _ => 1) 3 10 (by decide) (CfState.init exRng 2)
  (by intro a; simp [btsA, btsB, CfState.init])

end Obp
