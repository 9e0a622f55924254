import Verif.Lemmas.Simulator

set_option linter.unusedSectionVars false

/-! # `BanditPolicySimulator`: delivery of feedback and bookkeeping -/

namespace Obp

section
variable {S K : Type} [Field K] [LinearOrder K] [IsStrictOrderedRing K] {pol : SimPolicy S K}

/-- Recording the calls on a policy object does not change what a simulator does. -/
theorem C75_recording_transparent (pol : SimPolicy S K) (p : S) (l : List (PolicyCall K)) (ops : List (SimOp K)) :
    (simRun (recording pol) (p, l) ops).map SimState.erase = simRun pol p ops :=
  simRun_erase p l ops

/-- After any sequence of steps and clearings that ends with a clearing, the policy has been given the
`(context, action, reward)` of every round exactly once. `hist` are the rounds that were given, in order. -/
theorem C75_exactly_once (hk : pol.kind ≠ .offline) (p : S) (ops : List (SimOp K)) {s : RecState S K}
    (h : simRun (recording pol) (p, []) (ops ++ [.clear]) = .ok s) :
    ∃ hist : ℕ → Played K, IsHistory s hist ∧
      opRounds ops = (List.range s.played).map (fun i => (hist i).round) ∧
      (s.policy.2.filter PolicyCall.isUpdate).Perm
        ((List.range s.played).map fun i => (hist i).updateCall pol.kind) := by
  rw [simRun_append] at h
  obtain ⟨u, hu, h⟩ := py_bind_eq_ok.1 h
  simp only [List.foldlM_cons, List.foldlM_nil] at h
  obtain ⟨v, hv, h⟩ := py_bind_eq_ok.1 h
  simp only [py_pure, Except.ok.injEq] at h
  subst h
  obtain ⟨x, t, hi⟩ := simRun_inv hk p ops hu
  obtain ⟨-, -, hr⟩ := runInv_clear hk hi hv
  refine ⟨x, hr.inv.history, ?_, ?_⟩
  · rw [← hr.rounds, opRounds_append]
    simp [opRounds]
  · have := hr.once
    simpa using this

/-- At no time has a round been delivered twice: the deliveries so far can be completed to one per round. -/
theorem C75_never_twice (hk : pol.kind ≠ .offline) (p : S) (ops : List (SimOp K)) {s : RecState S K}
    (h : simRun (recording pol) (p, []) ops = .ok s) :
    ∃ hist : ℕ → Played K, IsHistory s hist ∧ ∃ outstanding : List ℕ,
      (s.policy.2.filter PolicyCall.isUpdate ++ outstanding.map fun i => (hist i).updateCall pol.kind).Perm
        ((List.range s.played).map fun i => (hist i).updateCall pol.kind) := by
  obtain ⟨x, t, hi⟩ := simRun_inv hk p ops h
  exact ⟨x, hi.inv.history, _, hi.once⟩

/-- Timing: from the start or from any clearing on, the calls made on the policy are, round by round, the
selection of the round and then the updates that are due in it, oldest round first: the round itself if it has no
delays, and the rounds `i` since the clearing with `i + delay = j`. -/
theorem C75_on_time (hk : pol.kind ≠ .offline) (p : S) (ops : List (SimOp K)) (rounds : List (BanditRound K))
    {s : RecState S K}
    (h : simRun (recording pol) (p, []) (ops ++ [.clear] ++ simSteps rounds) = .ok s) :
    ∃ (s₀ : RecState S K) (hist : ℕ → Played K), simRun (recording pol) (p, []) (ops ++ [.clear]) = .ok s₀ ∧
      IsHistory s hist ∧ s.played = s₀.played + rounds.length ∧
      opRounds ops ++ rounds = (List.range s.played).map (fun i => (hist i).round) ∧
      s.policy.2 = s₀.policy.2 ++ segmentLog pol.kind hist s₀.played rounds.length := by
  rw [simRun_append] at h
  obtain ⟨v, hv, h⟩ := py_bind_eq_ok.1 h
  rw [simRun_append] at hv
  obtain ⟨u, hu, hv'⟩ := py_bind_eq_ok.1 hv
  simp only [List.foldlM_cons, List.foldlM_nil] at hv'
  obtain ⟨w, hw, hv'⟩ := py_bind_eq_ok.1 hv'
  simp only [py_pure, Except.ok.injEq] at hv'
  subst hv'
  obtain ⟨x, t, hi⟩ := simRun_inv hk p ops hu
  obtain ⟨-, -, hr⟩ := runInv_clear hk hi hw
  obtain ⟨x', -, h2, h3, h4⟩ := steps_recording rounds hr h
  refine ⟨w, x', ?_, h2.inv.history, h3, ?_, h4⟩
  · rw [simRun_append]; exact hv
  · rw [← h2.rounds, opRounds_append, opRounds_append, opRounds_steps]
    simp [opRounds]

/-- In particular from the start, where there is nothing to clear. -/
theorem C75_on_time_from_start (hk : pol.kind ≠ .offline) (p : S) (rounds : List (BanditRound K))
    {s : RecState S K} (h : simRun (recording pol) (p, []) (simSteps rounds) = .ok s) :
    ∃ hist : ℕ → Played K, IsHistory s hist ∧
      rounds = (List.range rounds.length).map (fun i => (hist i).round) ∧
      s.policy.2 = segmentLog pol.kind hist 0 rounds.length := by
  have h0 : simRun (recording pol) (p, []) ([] ++ [.clear]) = .ok (simInit (p, [])) := rfl
  obtain ⟨s₀, x, e, h1, h2, h3, h4⟩ := C75_on_time hk p [] rounds (s := s) (by
    rw [simRun_append, h0]; exact h)
  rw [h0] at e
  simp only [Except.ok.injEq] at e
  subst e
  have hp : s.played = rounds.length := by rw [h2]; simp [simInit]
  rw [hp] at h3
  exact ⟨x, h1, by simpa [opRounds] using h3, by rw [h4]; simp [simInit]⟩

/-- Bookkeeping, after any operations: one entry per round in each list, contexts and reward tables as given,
obtained rewards looked up in the table at the selected action, and the total their sum. -/
theorem C76_bookkeeping (hk : pol.kind ≠ .offline) (p : S) (ops : List (SimOp K)) {s : SimState S K}
    (h : simRun pol p ops = .ok s) :
    s.played = (opRounds ops).length ∧
      s.contexts = (opRounds ops).map BanditRound.context ∧
      s.groundTruth = (opRounds ops).map BanditRound.rewards ∧
      s.selected.length = s.played ∧ s.obtained.length = s.played ∧
      (∀ t : ℕ, ∀ b a r, (opRounds ops)[t]? = some b → s.selected[t]? = some a → s.obtained[t]? = some r →
        ∃ j, wrapIdx b.rewards.length a = some j ∧ b.rewards.get j = r) ∧
      s.total = s.obtained.sum := by
  rw [← simRun_erase p [] ops] at h
  obtain ⟨u, hu, rfl⟩ := map_eq_ok h
  obtain ⟨x, t, hi⟩ := simRun_inv hk p ops hu
  have hh := hi.inv.history
  refine ⟨?_, ?_, ?_, ?_, ?_, ?_, hi.total⟩
  · rw [hi.rounds]; simp [SimState.erase]
  · rw [hi.rounds, List.map_map]; exact hh.contexts
  · rw [hi.rounds, List.map_map]; exact hh.groundTruth
  · simp [SimState.erase, hh.selected]
  · simp [SimState.erase, hh.obtained]
  · intro i b a r h1 h2 h3
    simp only [SimState.erase] at h2 h3
    rw [hi.rounds] at h1
    rw [hh.selected] at h2
    rw [hh.obtained] at h3
    have hlt : i < u.played := by
      by_contra hlt
      simp [hlt] at h1
    simp only [List.getElem?_map, List.getElem?_range hlt, Option.map_some, Option.some.injEq] at h1 h2 h3
    have hv := (hh.valid i hlt).reward
    rw [h1, h2, h3] at hv
    unfold npIndex at hv
    split at hv
    · rename_i j hj
      exact ⟨j, hj, by simpa using hv⟩
    · simp at hv

/-- Runs do not fail: a policy that always selects one of `A` actions and accepts all updates can be run on any
rounds with `A` rewards (and `A` delays), with any interleaving of clearings. -/
theorem C76_total {A : ℕ} (ht : pol.Total A) (p : S) (ops : List (SimOp K))
    (hr : ∀ b ∈ opRounds ops, b.rewards.length = A ∧ ∀ ds ∈ b.delays, ds.length = A) :
    ∃ s, simRun pol p ops = .ok s := by
  obtain ⟨s, hs⟩ := simRun_total ht p ops hr
  refine ⟨s.erase, ?_⟩
  rw [← simRun_erase p [] ops, hs]
  rfl

/-- Offline policies are rejected at the first step. -/
theorem C76_offline_rejected (hk : pol.kind = .offline) (p : S) (b : BanditRound K) (ops : List (SimOp K)) :
    simRun pol p (.step b :: ops) = .error .runtimeError := by
  simp [simRun, simOp, simStep, simSelect, hk]

/-- `steps(n_rounds)` hands the policy a three-dimensional array of shape `(1, 1, dim_context)`: the environment
returns contexts of shape `(1, dim_context)` and the simulator adds an axis. A contextual policy that checks
for a two-dimensional context therefore raises ValueError in the first round. -/
theorem C103_environment_steps_raise (hk : pol.kind = .contextual)
    (hcheck : ∀ s c, checkArray2 c = .error .valueError → pol.select s (some c) = .error .valueError)
    (p : S) (x : Arr2 K) (b : BanditRound K) (hb : b.context = .mat x) (ops : List (SimOp K)) :
    simRun pol p (.step b :: ops) = .error .valueError := by
  have : pol.select p (some b.context.expand) = .error .valueError :=
    hcheck p _ (by rw [hb]; rfl)
  simp [simRun, simOp, simStep, simSelect, hk, this, simInit]

/-- Rounds given as a batch have one-dimensional contexts, and the policy sees one row with the same entries. -/
theorem C103_batch_rounds_partial (hk : pol.kind = .contextual) (p : S) (xs : List K) (b : BanditRound K)
    (hb : b.context = .vec xs) {s : RecState S K}
    (h : simRun (recording pol) (p, []) [.step b] = .ok s) :
    ∃ row : Arr2 K, row.n = 1 ∧ row.d = xs.length ∧
      (∀ i (j : Fin row.d), some (row.val i j) = xs[(j : ℕ)]?) ∧
      ∃ returned, s.policy.2.head? = some (.select (some (.arr row)) returned) := by
  obtain ⟨hist, -, h2, h3⟩ := C75_on_time_from_start (by rw [hk]; simp) p [b] (s := s) h
  refine ⟨⟨1, xs.length, fun _ j => xs.get j⟩, rfl, rfl, fun i j => by simp, (hist 0).returned, ?_⟩
  have hb0 : (hist 0).round = b := by
    have := congrArg List.head? h2
    simpa using this.symm
  rw [h3]
  simp [segmentLog, Played.selectCall, seen, hk, hb0, hb, SimContext.expand]

/-- A context-free policy on two actions: it selects the action with the larger total reward so far. -/
def demoPolicy : SimPolicy (ℚ × ℚ) ℚ where
  kind := .contextFree
  select s _ := .ok ([if s.1 < s.2 then 1 else 0], s)
  update s _ a r := .ok (if a = 0 then (s.1 + r, s.2) else (s.1, s.2 + r))

/-- Four rounds; the reward of action 0 in the first round is a cost that arrives after two rounds. -/
def demoRounds : List (BanditRound ℚ) :=
  [⟨.vec [1], [-1, 5], some [2, 0]⟩, ⟨.vec [2], [3, 6], some [7 / 2, 0]⟩, ⟨.vec [3], [0, 7], some [0, 1]⟩,
    ⟨.vec [4], [1, 8], some [0, 4]⟩]

/-- The rewards passed to `update_params`, in order. -/
def demoRewards (l : List (PolicyCall ℚ)) : List ℚ :=
  l.filterMap fun
    | .update _ _ r => some r
    | .select .. => none

/-- The hypotheses of the theorems above hold for this policy and these rounds: the run succeeds, the first
cost is delivered in round two, the second reward (delay `7/2`) and the last one only by clearing. -/
example : demoPolicy.Total 2 ∧ demoPolicy.kind ≠ .offline ∧
    (simRun (recording demoPolicy) ((0, 0), []) (simSteps demoRounds)).map
      (fun s => (s.selected, s.total, demoRewards s.policy.2)) = .ok ([0, 0, 0, 1], 10, [-1, 0]) ∧
    (simRun (recording demoPolicy) ((0, 0), []) (simSteps demoRounds ++ [.clear])).map
      (fun s => (s.selected, s.total, demoRewards s.policy.2)) = .ok ([0, 0, 0, 1], 10, [-1, 0, 3, 8]) := by
  refine ⟨⟨by decide, fun s c => ?_, fun s c a r => ⟨_, rfl⟩⟩, by decide, by decide +kernel, by decide +kernel⟩
  by_cases h : s.1 < s.2
  · exact ⟨1, [], s, by simp [demoPolicy, h]⟩
  · exact ⟨0, [], s, by simp [demoPolicy, h]⟩

/-- The hypothesis of `C103_environment_steps_raise` for a policy that checks its context, as `LinUCB` does
(`obp/policy/linear.py:223`); the same policy runs on batch rounds. -/
example :
    let pol : SimPolicy Unit ℚ :=
      { kind := .contextual
        select := fun s c => do
          let x ← checkArray2 (c.getD .none)
          raiseIf (x.n ≠ 1) .valueError
          pure ([0], s)
        update := fun s _ _ _ => .ok s }
    (simRun pol () [.step ⟨.mat ⟨1, 2, fun _ _ => 1⟩, [1, 2], none⟩]).map (fun s => s.total) = .error .valueError ∧
      (simRun pol () [.step ⟨.vec [1, 1], [1, 2], none⟩]).map (fun s => s.total) = .ok 1 := by
  decide +kernel

end

end Obp
