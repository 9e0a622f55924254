import Verif.Spec.ThompsonWorld
import Verif.Lemmas.ThompsonLimit

set_option linter.unusedSectionVars false

/-! # The actions a `BernoulliTS` policy takes in `BanditPolicySimulator`, as a recursion -/

namespace Obp

variable {n : ℕ}

/-- the action selected, given the draws for all parameters, counts and reward sums -/
noncomputable def tsFront (hn : 0 < n) (argsort : List ℝ → List ℕ) (L : ℕ) (θ : Fin n → ℝ × ℝ → ℝ) (α β : Fin n → ℝ)
    (N : Fin n → ℕ) (S : Fin n → ℝ) : Fin n :=
  frontAction hn (topRanking argsort (List.ofFn fun a => θ a (S a + α a, ((N a : ℝ) - S a) + β a)) L)

/-- the first `T` actions, as a function that is constant afterwards -/
noncomputable def tsPrefix (hn : 0 < n) (argsort : List ℝ → List ℕ) (L b : ℕ) (α β : Fin n → ℝ)
    (θ : ℕ → Fin n → ℝ × ℝ → ℝ) (r : ℕ → Fin n → ℝ) : ℕ → ℕ → Fin n
  | 0 => fun _ => ⟨0, hn⟩
  | T + 1 =>
    let F := tsPrefix hn argsort L b α β θ r T
    Function.update F T (tsFront hn argsort L (θ T) α β (playCount F (b * (T / b))) (playReward F r (b * (T / b))))

/-- the action of round `t` -/
noncomputable def tsAction (hn : 0 < n) (argsort : List ℝ → List ℕ) (L b : ℕ) (α β : Fin n → ℝ)
    (θ : ℕ → Fin n → ℝ × ℝ → ℝ) (r : ℕ → Fin n → ℝ) (t : ℕ) : Fin n := tsPrefix hn argsort L b α β θ r (t + 1) t

section
variable (hn : 0 < n) (argsort : List ℝ → List ℕ) (L b : ℕ) (α β : Fin n → ℝ) (θ : ℕ → Fin n → ℝ × ℝ → ℝ)
  (r : ℕ → Fin n → ℝ)

theorem tsPrefix_eq (T : ℕ) : ∀ t < T, tsPrefix hn argsort L b α β θ r T t = tsAction hn argsort L b α β θ r t := by
  induction T with
  | zero => intro t ht; omega
  | succ T ih =>
    intro t ht
    rcases Nat.lt_succ_iff_lt_or_eq.1 ht with h | rfl
    · rw [← ih t h, tsPrefix, Function.update_of_ne (by omega)]
    · rfl

/-- The recursion: an action depends on the batches completed and on the draws of its round. -/
theorem tsAction_eq (t : ℕ) :
    tsAction hn argsort L b α β θ r t =
      tsFront hn argsort L (θ t) α β (playCount (tsAction hn argsort L b α β θ r) (b * (t / b)))
        (playReward (tsAction hn argsort L b α β θ r) r (b * (t / b))) := by
  have hle : b * (t / b) ≤ t := Nat.mul_div_le t b
  have h : ∀ s < b * (t / b), tsPrefix hn argsort L b α β θ r t s = tsAction hn argsort L b α β θ r s :=
    fun s hs => tsPrefix_eq hn argsort L b α β θ r t s (by omega)
  rw [tsAction, tsPrefix, Function.update_self, playCount_congr h, playReward_congr h]

end

/-- The action in front has the largest draw. -/
theorem tsFront_max (hn : 0 < n) {argsort : List ℝ → List ℕ} (ha : IsArgsort argsort) {L : ℕ} (hL0 : 0 < L) (hL : L ≤ n)
    (x : Fin n → ℝ) (j : Fin n) : x j ≤ x (frontAction hn (topRanking argsort (List.ofFn x) L)) := by
  have htop := topRanking_isTop ha x hL
  obtain ⟨rest, hrest⟩ := frontAction_spec hn hL0 htop.toIsRanking
  generalize hf : frontAction hn (topRanking argsort (List.ofFn x) L) = f at hrest ⊢
  by_cases hmem : j.val ∈ topRanking argsort (List.ofFn x) L
  · rw [hrest, List.mem_cons] at hmem
    rcases hmem with h | h
    · have : j = f := Fin.ext h
      rw [this]
    · have hp := htop.descending
      rw [hrest, List.pairwise_cons] at hp
      exact hp.1 j.val h f.2 j.2
  · exact htop.best f.val (by rw [hrest]; simp) f.2 j hmem

/-- One round of the simulator. -/
theorem simStep_ts {cfg : CfConfig} (hn : 0 < cfg.nActions) (hL0 : 0 < cfg.lenList) (hL : cfg.lenList ≤ cfg.nActions)
    {argsort : List ℝ → List ℕ} (ha : IsArgsort argsort) (ops : Rng ℕ ℝ) (α β : Fin cfg.nActions → ℝ)
    (hα : ∀ a, 0 < α a) (hβ : ∀ a, 0 < β a)
    (θ : ℕ → ℕ → ℝ × ℝ → ℝ) (r : ℕ → Fin cfg.nActions → ℝ) (hr : ∀ t a, r t a = 0 ∨ r t a = 1)
    (hops : ∀ i (a b : Fin cfg.nActions → ℝ), ops.beta i a b = (fun x => θ i x.val (a x, b x), i + 1))
    (ctx : SimContext ℝ) (T : ℕ) (s : SimState (CfState ℕ ℝ cfg.nActions) ℝ)
    (hs : s.policy = playState (tsAction hn argsort cfg.lenList cfg.batchSize α β (fun t x => θ t x.val) r) r
      cfg.batchSize T) :
    simStep (cfPolicy ops argsort cfg (.bts α β)) ⟨ctx, List.ofFn (r T), none⟩ s =
      .ok { s with
        policy := playState (tsAction hn argsort cfg.lenList cfg.batchSize α β (fun t x => θ t x.val) r) r
          cfg.batchSize (T + 1)
        contexts := s.contexts ++ [ctx]
        groundTruth := s.groundTruth ++ [List.ofFn (r T)]
        selected := s.selected ++
          [((tsAction hn argsort cfg.lenList cfg.batchSize α β (fun t x => θ t x.val) r T).val : ℤ)]
        obtained := s.obtained ++ [r T (tsAction hn argsort cfg.lenList cfg.batchSize α β (fun t x => θ t x.val) r T)]
        total := s.total + r T (tsAction hn argsort cfg.lenList cfg.batchSize α β (fun t x => θ t x.val) r T)
        played := s.played + 1 } := by
  set act := tsAction hn argsort cfg.lenList cfg.batchSize α β (fun t x => θ t x.val) r with hact
  set b := cfg.batchSize
  set x : Fin cfg.nActions → ℝ := fun a => θ T a.val (playReward act r (b * (T / b)) a + α a,
    ((playCount act (b * (T / b)) a : ℝ) - playReward act r (b * (T / b)) a) + β a) with hx
  have hsel : btsSelect ops argsort cfg.lenList α β (playState act r b T) =
      (.ok (topRanking argsort (List.ofFn x) cfg.lenList), { playState act r b T with rng := T + 1 }) := by
    have hpos : ∀ a, 0 < btsA α (playState act r b T) a ∧ 0 < btsB β (playState act r b T) a := fun a =>
      ⟨postA_pos hr hα (b * (T / b)) a, postB_pos hr hβ (b * (T / b)) a⟩
    rw [btsSelect, if_pos hpos, hops]
    rfl
  obtain ⟨rest, hrest⟩ := frontAction_spec hn hL0 (topRanking_isTop ha x hL).toIsRanking
  have hfront : frontAction hn (topRanking argsort (List.ofFn x) cfg.lenList) = act T :=
    (tsAction_eq hn argsort cfg.lenList b α β (fun t x => θ t x.val) r T).symm
  rw [hfront] at hrest
  have hsim : simSelect (cfPolicy ops argsort cfg (.bts α β)) ctx s.policy =
      .ok (((act T).val : ℤ), { playState act r b T with rng := T + 1 }) := by
    rw [hs]
    simp only [simSelect, cfPolicy, CfClass.select, hsel]
    rw [hrest]
    rfl
  have hidx : npIndex (List.ofFn (r T)) ((act T).val : ℤ) = .ok (r T (act T)) := by
    unfold npIndex
    simp [wrapIdx]
  have hupd : (cfPolicy ops argsort cfg (.bts α β)).update { playState act r b T with rng := T + 1 } none
      ((act T).val : ℤ) (r T (act T)) = .ok (playState act r b (T + 1)) := by
    simp only [cfPolicy, playState_update act r b T, b]
  have hk : (cfPolicy ops argsort cfg (.bts α β)).kind = .contextFree := rfl
  simp only [simStep, hsim, bind, Except.bind, simRoundUpdate, simUpdate, hk, hidx, hupd, pure, Except.pure]

/-- The simulator after `T` rounds. -/
theorem simRun_ts {cfg : CfConfig} (hn : 0 < cfg.nActions) (hL0 : 0 < cfg.lenList) (hL : cfg.lenList ≤ cfg.nActions)
    {argsort : List ℝ → List ℕ} (ha : IsArgsort argsort) (ops : Rng ℕ ℝ) (α β : Fin cfg.nActions → ℝ)
    (hα : ∀ a, 0 < α a) (hβ : ∀ a, 0 < β a)
    (θ : ℕ → ℕ → ℝ × ℝ → ℝ) (r : ℕ → Fin cfg.nActions → ℝ) (hr : ∀ t a, r t a = 0 ∨ r t a = 1)
    (hops : ∀ i (a b : Fin cfg.nActions → ℝ), ops.beta i a b = (fun x => θ i x.val (a x, b x), i + 1))
    (h0 : ops.seeded = 0) (ctx : ℕ → SimContext ℝ) (T : ℕ) :
    ∃ s, simRun (cfPolicy ops argsort cfg (.bts α β)) (CfState.init ops cfg.nActions)
        (simSteps ((List.range T).map fun t => ⟨ctx t, List.ofFn (r t), none⟩)) = .ok s ∧
      s.policy = playState (tsAction hn argsort cfg.lenList cfg.batchSize α β (fun t x => θ t x.val) r) r
        cfg.batchSize T ∧
      s.selected = (List.range T).map (fun t =>
        ((tsAction hn argsort cfg.lenList cfg.batchSize α β (fun t x => θ t x.val) r t).val : ℤ)) ∧
      s.total = ∑ t ∈ Finset.range T,
        r t (tsAction hn argsort cfg.lenList cfg.batchSize α β (fun t x => θ t x.val) r t) := by
  induction T with
  | zero =>
    refine ⟨simInit (CfState.init ops cfg.nActions), rfl, ?_, rfl, by simp [simInit]⟩
    simp only [simInit, CfState.init, playState, h0]
    congr 1 <;> (funext a; simp [playCount, playReward])
  | succ T ih =>
    obtain ⟨s, h1, h2, h3, h4⟩ := ih
    have hstep := simStep_ts hn hL0 hL ha ops α β hα hβ θ r hr hops (ctx T) T s h2
    have hlast : simRun (cfPolicy ops argsort cfg (.bts α β)) (CfState.init ops cfg.nActions)
        (simSteps ((List.range (T + 1)).map fun t => ⟨ctx t, List.ofFn (r t), none⟩)) =
        simStep (cfPolicy ops argsort cfg (.bts α β)) ⟨ctx T, List.ofFn (r T), none⟩ s := by
      simp only [simRun, simSteps, List.range_succ, List.map_append, List.foldlM_append] at h1 ⊢
      rw [h1]
      simp only [bind, Except.bind, List.map_cons, List.map_nil, List.foldlM_cons, List.foldlM_nil, simOp, pure, Except.pure]
      cases simStep (cfPolicy ops argsort cfg (.bts α β)) ⟨ctx T, List.ofFn (r T), none⟩ s <;> rfl
    rw [hstep] at hlast
    refine ⟨_, hlast, rfl, ?_, ?_⟩
    · simp only [h3, List.range_succ, List.map_append, List.map_cons, List.map_nil]
    · simp only [h4, Finset.sum_range_succ]

end Obp
