import Verif.Spec.BanditWorld
import Verif.Lemmas.Policy
import Mathlib.Algebra.BigOperators.Group.Finset.Basic
import Mathlib.Tactic.Linarith

set_option linter.unusedSectionVars false

/-! # The actions an `EpsilonGreedy` policy takes in `BanditPolicySimulator`, as a recursion -/

namespace Obp

variable {n : ℕ}

/-- how often an action has been played before round `T` -/
def playCount (act : ℕ → Fin n) (T : ℕ) (a : Fin n) : ℕ := ∑ t ∈ Finset.range T, if act t = a then 1 else 0

/-- the rewards obtained with an action before round `T` -/
noncomputable def playReward (act : ℕ → Fin n) (r : ℕ → Fin n → ℝ) (T : ℕ) (a : Fin n) : ℝ :=
  ∑ t ∈ Finset.range T, if act t = a then r t a else 0

/-- the list selected, given counts and reward sums -/
noncomputable def playList (argsort : List ℝ → List ℕ) (L : ℕ) (ε : ℝ) (N : Fin n → ℕ) (S : Fin n → ℝ) (u : ℝ)
    (c : List ℕ) : List ℕ :=
  if ε < u ∧ ∀ a, 0 < N a then topRanking argsort (List.ofFn fun a => S a / (N a : ℝ)) L else c

/-- the first action of a list -/
def frontAction (hn : 0 < n) (l : List ℕ) : Fin n :=
  if h : l.head?.getD 0 < n then ⟨l.head?.getD 0, h⟩ else ⟨0, hn⟩

/-- the first `T` actions, as a function that is constant afterwards -/
noncomputable def playPrefix (hn : 0 < n) (argsort : List ℝ → List ℕ) (L b : ℕ) (ε : ℝ) (u : ℕ → ℝ) (c : ℕ → List ℕ)
    (r : ℕ → Fin n → ℝ) : ℕ → ℕ → Fin n
  | 0 => fun _ => ⟨0, hn⟩
  | T + 1 =>
    let F := playPrefix hn argsort L b ε u c r T
    Function.update F T (frontAction hn (playList argsort L ε (playCount F (b * (T / b)))
      (playReward F r (b * (T / b))) (u T) (c T)))

/-- the action of round `t` -/
noncomputable def playAction (hn : 0 < n) (argsort : List ℝ → List ℕ) (L b : ℕ) (ε : ℝ) (u : ℕ → ℝ) (c : ℕ → List ℕ)
    (r : ℕ → Fin n → ℝ) (t : ℕ) : Fin n := playPrefix hn argsort L b ε u c r (t + 1) t

theorem playCount_congr {act act' : ℕ → Fin n} {T : ℕ} (h : ∀ t < T, act t = act' t) :
    playCount act T = playCount act' T := by
  funext a
  exact Finset.sum_congr rfl fun t ht => by rw [h t (Finset.mem_range.1 ht)]

theorem playReward_congr {act act' : ℕ → Fin n} {r : ℕ → Fin n → ℝ} {T : ℕ} (h : ∀ t < T, act t = act' t) :
    playReward act r T = playReward act' r T := by
  funext a
  exact Finset.sum_congr rfl fun t ht => by rw [h t (Finset.mem_range.1 ht)]

section
variable (hn : 0 < n) (argsort : List ℝ → List ℕ) (L b : ℕ) (ε : ℝ) (u : ℕ → ℝ) (c : ℕ → List ℕ) (r : ℕ → Fin n → ℝ)

theorem playPrefix_eq (T : ℕ) : ∀ t < T, playPrefix hn argsort L b ε u c r T t = playAction hn argsort L b ε u c r t := by
  induction T with
  | zero => intro t ht; omega
  | succ T ih =>
    intro t ht
    rcases Nat.lt_succ_iff_lt_or_eq.1 ht with h | rfl
    · rw [← ih t h, playPrefix, Function.update_of_ne (by omega)]
    · rfl

/-- The recursion: an action depends on the batches completed and on the draws of its round. -/
theorem playAction_eq (t : ℕ) :
    playAction hn argsort L b ε u c r t =
      frontAction hn (playList argsort L ε (playCount (playAction hn argsort L b ε u c r) (b * (t / b)))
        (playReward (playAction hn argsort L b ε u c r) r (b * (t / b))) (u t) (c t)) := by
  have hle : b * (t / b) ≤ t := Nat.mul_div_le t b
  have h : ∀ s < b * (t / b), playPrefix hn argsort L b ε u c r t s = playAction hn argsort L b ε u c r s :=
    fun s hs => playPrefix_eq hn argsort L b ε u c r t s (by omega)
  rw [playAction, playPrefix, Function.update_self, playCount_congr h, playReward_congr h]

theorem playList_isRanking {argsort : List ℝ → List ℕ} (ha : IsArgsort argsort) {L : ℕ} (hL : L ≤ n) (N : Fin n → ℕ)
    (S : Fin n → ℝ) (u : ℝ) {c : List ℕ} (hc : IsRanking n L c) : IsRanking n L (playList argsort L ε N S u c) := by
  unfold playList
  split
  · exact (topRanking_isTop ha _ hL).toIsRanking
  · exact hc

theorem frontAction_spec {L : ℕ} (hL : 0 < L) {l : List ℕ} (h : IsRanking n L l) :
    ∃ rest, l = (frontAction hn l).val :: rest := by
  cases l with
  | nil => have := h.length_eq; simp at this; omega
  | cons a rest =>
    have : a < n := h.lt a (by simp)
    exact ⟨rest, by simp [frontAction, this]⟩

/-- the state of the policy after `T` rounds -/
noncomputable def playState (act : ℕ → Fin n) (r : ℕ → Fin n → ℝ) (b T : ℕ) : CfState ℕ ℝ n where
  nTrial := T
  rng := T
  actionCounts := playCount act (b * (T / b))
  actionCountsTemp := playCount act T
  rewardCountsTemp := playReward act r T
  rewardCounts := playReward act r (b * (T / b))

theorem playState_update (act : ℕ → Fin n) (r : ℕ → Fin n → ℝ) (b T : ℕ) :
    CfState.updateParams b { playState act r b T with rng := T + 1 } ((act T).val : ℤ) (r T (act T)) =
      (.ok (), playState act r b (T + 1)) := by
  have hw : wrapIdx n ((act T).val : ℤ) = some (act T) := by
    simp [wrapIdx]
  have e1 : Function.update (playCount act T) (act T) (playCount act T (act T) + 1) = playCount act (T + 1) := by
    funext a
    by_cases h : a = act T
    · subst h; rw [Function.update_self, playCount, playCount, Finset.sum_range_succ, if_pos rfl]
    · rw [Function.update_of_ne h, playCount, playCount, Finset.sum_range_succ, if_neg (Ne.symm h), add_zero]
  have e2 : Function.update (playReward act r T) (act T) (playReward act r T (act T) + r T (act T)) =
      playReward act r (T + 1) := by
    funext a
    by_cases h : a = act T
    · subst h; simp [playReward, Finset.sum_range_succ]
    · rw [Function.update_of_ne h]
      simp [playReward, Finset.sum_range_succ, Ne.symm h]
  simp only [CfState.updateParams, hw, playState, e1, e2]
  by_cases hd : (T + 1) % b = 0
  · have : b * ((T + 1) / b) = T + 1 := Nat.mul_div_cancel' (Nat.dvd_of_mod_eq_zero hd)
    rw [if_pos hd, this]
  · have : (T + 1) / b = T / b := by
      rw [Nat.succ_div]
      simp [show ¬ b ∣ T + 1 from fun h => hd (Nat.mod_eq_zero_of_dvd h)]
    rw [if_neg hd, this]

/-- One round of the simulator. -/
theorem simStep_play {cfg : CfConfig} (hn : 0 < cfg.nActions) (hL0 : 0 < cfg.lenList) (hL : cfg.lenList ≤ cfg.nActions)
    {argsort : List ℝ → List ℕ} (ha : IsArgsort argsort) (ops : Rng ℕ ℝ) (ε : ℝ)
    (u : ℕ → ℝ) (c : ℕ → List ℕ) (r : ℕ → Fin cfg.nActions → ℝ) (hc : ∀ t, IsRanking cfg.nActions cfg.lenList (c t))
    (hu : ∀ i, ops.rand i = (u i, i + 1)) (hch : ∀ i n k, ops.choice i n k = (c (i - 1), i)) (ctx : SimContext ℝ) (T : ℕ)
    (s : SimState (CfState ℕ ℝ cfg.nActions) ℝ)
    (hs : s.policy = playState (playAction hn argsort cfg.lenList cfg.batchSize ε u c r) r cfg.batchSize T) :
    simStep (cfPolicy ops argsort cfg (.egreedy ε)) ⟨ctx, List.ofFn (r T), none⟩ s =
      .ok { s with
        policy := playState (playAction hn argsort cfg.lenList cfg.batchSize ε u c r) r cfg.batchSize (T + 1)
        contexts := s.contexts ++ [ctx]
        groundTruth := s.groundTruth ++ [List.ofFn (r T)]
        selected := s.selected ++ [((playAction hn argsort cfg.lenList cfg.batchSize ε u c r T).val : ℤ)]
        obtained := s.obtained ++ [r T (playAction hn argsort cfg.lenList cfg.batchSize ε u c r T)]
        total := s.total + r T (playAction hn argsort cfg.lenList cfg.batchSize ε u c r T)
        played := s.played + 1 } := by
  set act := playAction hn argsort cfg.lenList cfg.batchSize ε u c r with hact
  have hsel : egreedySelect ops argsort cfg.lenList ε (playState act r cfg.batchSize T) =
      (.ok (playList argsort cfg.lenList ε (playCount act (cfg.batchSize * (T / cfg.batchSize)))
        (playReward act r (cfg.batchSize * (T / cfg.batchSize))) (u T) (c T)),
        { playState act r cfg.batchSize T with rng := T + 1 }) := by
    have hr : (playState act r cfg.batchSize T).rng = T := rfl
    simp only [egreedySelect, hr, hu, hch, playList]
    by_cases hcond : ε < u T ∧ ∀ a, 0 < playCount act (cfg.batchSize * (T / cfg.batchSize)) a
    · have h' : ε < u T ∧ ∀ a, 0 < (playState act r cfg.batchSize T).actionCounts a := hcond
      rw [if_pos hcond, if_pos h']
      rfl
    · have h' : ¬ (ε < u T ∧ ∀ a, 0 < (playState act r cfg.batchSize T).actionCounts a) := hcond
      rw [if_neg hcond, if_neg h', Nat.add_sub_cancel]
  obtain ⟨rest, hrest⟩ := frontAction_spec hn hL0
    (playList_isRanking ε ha hL (playCount act (cfg.batchSize * (T / cfg.batchSize)))
      (playReward act r (cfg.batchSize * (T / cfg.batchSize))) (u T) (hc T))
  rw [← playAction_eq hn argsort cfg.lenList cfg.batchSize ε u c r T] at hrest
  have hsim : simSelect (cfPolicy ops argsort cfg (.egreedy ε)) ctx s.policy =
      .ok (((act T).val : ℤ), { playState act r cfg.batchSize T with rng := T + 1 }) := by
    rw [hs]
    simp only [simSelect, cfPolicy, CfClass.select, hsel]
    rw [hrest]
    rfl
  have hidx : npIndex (List.ofFn (r T)) ((act T).val : ℤ) = .ok (r T (act T)) := by
    unfold npIndex
    simp [wrapIdx]
  have hupd : (cfPolicy ops argsort cfg (.egreedy ε)).update { playState act r cfg.batchSize T with rng := T + 1 } none
      ((act T).val : ℤ) (r T (act T)) = .ok (playState act r cfg.batchSize (T + 1)) := by
    simp only [cfPolicy, playState_update act r cfg.batchSize T]
  have hk : (cfPolicy ops argsort cfg (.egreedy ε)).kind = .contextFree := rfl
  simp only [simStep, hsim, bind, Except.bind, simRoundUpdate, simUpdate, hk, hidx, hupd, pure, Except.pure]

/-- The simulator after `T` rounds. -/
theorem simRun_play {cfg : CfConfig} (hn : 0 < cfg.nActions) (hL0 : 0 < cfg.lenList) (hL : cfg.lenList ≤ cfg.nActions)
    {argsort : List ℝ → List ℕ} (ha : IsArgsort argsort) (ops : Rng ℕ ℝ) (ε : ℝ)
    (u : ℕ → ℝ) (c : ℕ → List ℕ) (r : ℕ → Fin cfg.nActions → ℝ) (hc : ∀ t, IsRanking cfg.nActions cfg.lenList (c t))
    (hu : ∀ i, ops.rand i = (u i, i + 1)) (hch : ∀ i n k, ops.choice i n k = (c (i - 1), i)) (h0 : ops.seeded = 0)
    (ctx : ℕ → SimContext ℝ) (T : ℕ) :
    ∃ s, simRun (cfPolicy ops argsort cfg (.egreedy ε)) (CfState.init ops cfg.nActions)
        (simSteps ((List.range T).map fun t => ⟨ctx t, List.ofFn (r t), none⟩)) = .ok s ∧
      s.policy = playState (playAction hn argsort cfg.lenList cfg.batchSize ε u c r) r cfg.batchSize T ∧
      s.selected = (List.range T).map (fun t => ((playAction hn argsort cfg.lenList cfg.batchSize ε u c r t).val : ℤ)) ∧
      s.total = ∑ t ∈ Finset.range T, r t (playAction hn argsort cfg.lenList cfg.batchSize ε u c r t) := by
  induction T with
  | zero =>
    refine ⟨simInit (CfState.init ops cfg.nActions), rfl, ?_, rfl, by simp [simInit]⟩
    simp only [simInit, CfState.init, playState, h0]
    congr 1 <;> (funext a; simp [playCount, playReward])
  | succ T ih =>
    obtain ⟨s, h1, h2, h3, h4⟩ := ih
    have hstep := simStep_play hn hL0 hL ha ops ε u c r hc hu hch (ctx T) T s h2
    have hlast : simRun (cfPolicy ops argsort cfg (.egreedy ε)) (CfState.init ops cfg.nActions)
        (simSteps ((List.range (T + 1)).map fun t => ⟨ctx t, List.ofFn (r t), none⟩)) =
        simStep (cfPolicy ops argsort cfg (.egreedy ε)) ⟨ctx T, List.ofFn (r T), none⟩ s := by
      simp only [simRun, simSteps, List.range_succ, List.map_append, List.foldlM_append] at h1 ⊢
      rw [h1]
      simp only [bind, Except.bind, List.map_cons, List.map_nil, List.foldlM_cons, List.foldlM_nil, simOp, pure, Except.pure]
      cases simStep (cfPolicy ops argsort cfg (.egreedy ε)) ⟨ctx T, List.ofFn (r T), none⟩ s <;> rfl
    rw [hstep] at hlast
    refine ⟨_, hlast, rfl, ?_, ?_⟩
    · simp only [h3, List.range_succ, List.map_append, List.map_cons, List.map_nil]
    · simp only [h4, Finset.sum_range_succ]

end

end Obp
