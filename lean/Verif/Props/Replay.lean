import Verif.Lemmas.Simulator
import Verif.Lemmas.Policy
import Verif.Props.InputChecks
import Verif.Props.Utils

set_option linter.unusedSectionVars false

/-! # `run_bandit_replay` and `calc_ground_truth_policy_value` -/

namespace Obp

section
variable {S K : Type} [Field K] [LinearOrder K] [IsStrictOrderedRing K] {pol : SimPolicy S K}
variable {n d A : ℕ}

theorem ReplayLog.check (g : ReplayLog K n d) (hn : 0 < n) (hp : ∀ i, 0 < g.pscore i) :
    checkBanditFeedbackInputs { context := g.args.context, action := g.args.action, reward := g.args.reward
                                position := g.args.position, pscore := g.args.pscore } = .ok () := by
  rw [C10_accept_iff]
  refine ⟨n, List.ofFn fun i => (g.action i : ℤ), ⟨⟨_, rfl, rfl⟩, ⟨rfl, by simp, by simp; omega, ?_⟩,
    .inr ⟨_, rfl, by simp⟩, .inl rfl, .inr ⟨.inr ⟨_, rfl, by simp⟩, ?_⟩, ?_, .inl rfl⟩⟩
  · intro z hz
    obtain ⟨i, rfl⟩ := List.mem_ofFn.1 hz
    omega
  · intro p hp'
    simp only [ReplayLog.args, Arg1.vals] at hp'
    obtain ⟨i, rfl⟩ := List.mem_ofFn.1 hp'
    exact hp i
  · simp only [ReplayLog.args]
    cases g.position with
    | none => exact .inl rfl
    | some q =>
        refine .inr ⟨_, rfl, by simp, by simp; omega, ?_⟩
        intro z hz
        obtain ⟨i, rfl⟩ := List.mem_ofFn.1 hz
        omega

/-- The rounds of a log. -/
def ReplayLog.round (g : ReplayLog K n d) (i : Fin n) : LogRound K where
  action := g.action i
  reward := g.reward i
  position := g.pos i
  context := List.ofFn (g.context i)

theorem ReplayLog.rounds (g : ReplayLog K n d) (hn : 0 < n) (hp : ∀ i, 0 < g.pscore i) :
    replayRounds g.args = .ok (List.ofFn g.round) := by
  unfold replayRounds
  rw [g.check hn hp]
  simp only [py_bind_ok]
  cases hq : g.position with
  | none =>
      have e1 : checkArray2 g.args.context = .ok ⟨n, d, g.context⟩ := rfl
      have e2 : g.args.action.ints = .ok (List.ofFn fun i => (g.action i : ℤ)) := rfl
      have e3 : g.args.position = .none := by simp [ReplayLog.args, hq]
      have e4 : g.args.reward.vals = List.ofFn g.reward := rfl
      rw [e1, e2, e3]
      simp only [py_bind_ok, Arg1.isNone, if_true, py_pure, e4]
      congr 2
      funext i
      simp [ReplayLog.round, ReplayLog.pos, hq, List.getD_eq_getElem?_getD]
  | some q =>
      have e1 : checkArray2 g.args.context = .ok ⟨n, d, g.context⟩ := rfl
      have e2 : g.args.action.ints = .ok (List.ofFn fun i => (g.action i : ℤ)) := rfl
      have e3 : g.args.position = .int (List.ofFn fun i => (q i : ℤ)) := by simp [ReplayLog.args, hq]
      have e4 : g.args.reward.vals = List.ofFn g.reward := rfl
      rw [e1, e2, e3]
      simp only [py_bind_ok, Arg1.isNone, Bool.false_eq_true, if_false, py_pure, e4, Arg1.ints]
      congr 2
      funext i
      simp [ReplayLog.round, ReplayLog.pos, hq, List.getD_eq_getElem?_getD]

/-- As written, `run_bandit_replay` raises TypeError on every log that passes validation: `tqdm` is the module,
which is not callable (`obp/simulator/replay.py:2, 49`). -/
theorem C77_always_raises (g : ReplayLog K n d) (hn : 0 < n) (hp : ∀ i, 0 < g.pscore i) (pol : SimPolicy S K)
    (p : S) : runReplay .module_ pol p g.args = .error .typeError := by
  unfold runReplay
  rw [g.rounds hn hp]
  rfl

theorem npIndex_nat {α : Type} (xs : List α) (i : ℕ) :
    npIndex xs (i : ℤ) = match xs[i]? with
      | some x => .ok x
      | none => .error .indexError := by
  by_cases h : i < xs.length
  · rw [(npIndex_natCast xs i _).2 (List.getElem?_eq_getElem h), List.getElem?_eq_getElem h]
  · unfold npIndex
    rw [wrapIdx_none (.inr (by omega)), List.getElem?_eq_none (by omega)]

theorem rowContext_ofFn (x : Fin d → K) : rowContext (List.ofFn x) = rowArg x := by
  unfold rowContext rowArg
  congr 1
  have h : (List.ofFn x).length = d := List.length_ofFn
  rw [Arr2.mk.injEq]
  refine ⟨rfl, h, ?_⟩
  refine Function.hfunext rfl fun a a' _ => ?_
  refine Function.hfunext (by rw [h]) fun j j' hj => ?_
  have : (j : ℕ) = (j' : ℕ) := by
    exact (Fin.heq_ext_iff h).1 hj
  simp [this]

theorem replayRound_recording (g : ReplayLog K n d) (i : Fin n) {s s' : ReplayState (S × List (PolicyCall K)) K}
    (h : replayRound (recording pol) s (g.round i) = .ok s') :
    ∃ sel, s'.selected = s.selected ++ [sel] ∧ s'.policy.2 = s.policy.2 ++ g.calls pol.kind i sel := by
  unfold replayRound at h
  obtain ⟨q, hq, h⟩ := py_bind_eq_ok.1 h
  obtain ⟨z, hz, h⟩ := py_bind_eq_ok.1 h
  have hz' : q.1[g.pos i]? = some z := (npIndex_natCast _ _ _).1 hz
  have hsel : pol.kind ≠ .offline ∧
      q.2.2 = s.policy.2 ++ [.select (seen pol.kind (rowArg (g.context i))) q.1] := by
    unfold replaySelect recording at hq
    simp only [ReplayLog.round, rowContext_ofFn] at hq
    cases hk : pol.kind with
    | offline => rw [hk] at hq; simp at hq
    | contextFree =>
        rw [hk] at hq
        simp only at hq
        obtain ⟨v, hv, rfl⟩ := map_eq_ok hq
        exact ⟨by simp, by simp [seen]⟩
    | contextual =>
        rw [hk] at hq
        simp only at hq
        obtain ⟨v, hv, rfl⟩ := map_eq_ok hq
        exact ⟨by simp, by simp [seen]⟩
  refine ⟨q.1, ?_⟩
  by_cases hm : (g.round i).action = z
  · rw [if_pos hm] at h
    obtain ⟨p, hp, h⟩ := py_bind_eq_ok.1 h
    simp only [py_pure, Except.ok.injEq] at h
    subst h
    refine ⟨rfl, ?_⟩
    have hm' : q.1[g.pos i]? = some (g.action i : ℤ) := by rw [hz', ← hm]; rfl
    have hup : p.2 = q.2.2 ++ [.update (seen pol.kind (rowArg (g.context i))) (g.action i) (g.reward i)] := by
      unfold replayUpdate recording at hp
      simp only [ReplayLog.round, rowContext_ofFn] at hp
      cases hk : pol.kind with
      | offline => exact absurd hk hsel.1
      | contextFree =>
          rw [hk] at hp
          simp only at hp
          obtain ⟨v, hv, rfl⟩ := map_eq_ok hp
          simp [seen]
      | contextual =>
          rw [hk] at hp
          simp only at hp
          obtain ⟨v, hv, rfl⟩ := map_eq_ok hp
          simp [seen]
    simp only
    rw [hup, hsel.2, ReplayLog.calls, if_pos hm']
    simp
  · rw [if_neg hm] at h
    simp only [py_pure, Except.ok.injEq] at h
    subst h
    refine ⟨rfl, ?_⟩
    have hm' : ¬ q.1[g.pos i]? = some (g.action i : ℤ) := by
      rw [hz']
      intro e
      exact hm (Option.some.inj e).symm
    simp only
    rw [hsel.2, ReplayLog.calls, if_neg hm']

theorem replay_fold (g : ReplayLog K n d) (is : List (Fin n)) :
    ∀ {s s' : ReplayState (S × List (PolicyCall K)) K},
      (is.map g.round).foldlM (replayRound (recording pol)) s = .ok s' →
      ∃ sels : List (List ℤ), sels.length = is.length ∧ s'.selected = s.selected ++ sels ∧
        s'.policy.2 = s.policy.2 ++ (is.zip sels).flatMap fun x => g.calls pol.kind x.1 x.2 := by
  induction is with
  | nil =>
      intro s s' h
      simp only [List.map_nil, List.foldlM_nil, py_pure, Except.ok.injEq] at h
      subst h
      exact ⟨[], rfl, by simp, by simp⟩
  | cons i is ih =>
      intro s s' h
      rw [List.map_cons, List.foldlM_cons] at h
      obtain ⟨u, hu, h⟩ := py_bind_eq_ok.1 h
      obtain ⟨sel, h1, h2⟩ := replayRound_recording g i hu
      obtain ⟨sels, h3, h4, h5⟩ := ih h
      refine ⟨sel :: sels, by simp [h3], by rw [h4, h1]; simp, ?_⟩
      rw [h5, h2]
      simp

theorem replayDist_ok {A : ℕ} {sels : List (List ℤ)} {x : Arr3 K} (h : replayDist A sels = .ok x) :
    ∃ L v, x = ⟨sels.length, A, L, v⟩ ∧ ∀ i : Fin sels.length, (sels.get i).length = L ∧
      ∀ (l : Fin L) (a : Fin A), ∃ z, (sels.get i)[(l : ℕ)]? = some z ∧ (∃ a', wrapIdx A z = some a') ∧
        v i a l = if wrapIdx A z = some a then 1 else 0 := by
  unfold replayDist at h
  obtain ⟨⟨⟩, hr, h⟩ := py_bind_eq_ok.1 h
  obtain ⟨v, hv, h⟩ := py_bind_eq_ok.1 h
  simp only [py_pure, Except.ok.injEq] at h
  simp only [raiseIf_ok, List.any_eq_false, decide_eq_true_eq, ne_eq, not_not] at hr
  have hlen : ∀ i : Fin sels.length, (sels.get i).length = (sels.headD []).length := fun i =>
    hr _ (List.get_mem _ _)
  refine ⟨_, v, h.symm, fun i => ⟨hlen i, fun l a => ?_⟩⟩
  have hin : ∀ (i : Fin sels.length) (l : Fin (sels.headD []).length),
      ∃ a', wrapIdx A ((sels.get i).getD l 0) = some a' := by
    intro i l
    by_contra hc
    have hout : (sels.get i).getD l 0 < -(A : ℤ) ∨ (A : ℤ) ≤ (sels.get i).getD l 0 := by
      by_contra hno
      apply hc
      unfold wrapIdx
      split
      · exact ⟨_, rfl⟩
      · rw [dif_pos (by omega)]; exact ⟨_, rfl⟩
    have := C02_convert_out_of_range (K := K) (A := A)
      (fun (i : Fin sels.length) (l : Fin (sels.headD []).length) => (sels.get i).getD l 0) i l hout
    rw [this] at hv
    simp at hv
  have hl : (l : ℕ) < (sels.get i).length := by rw [hlen i]; exact l.isLt
  have hz : (sels.get i)[(l : ℕ)]? = some ((sels.get i).getD l 0) := by
    rw [List.getD_eq_getElem?_getD, List.getElem?_eq_getElem hl]; simp
  refine ⟨_, hz, hin i l, ?_⟩
  have := foldlM_setOne_outer (K := K) (A := A)
    (fun (i : Fin sels.length) (l : Fin (sels.headD []).length) => (sels.get i).getD l 0)
    (List.finRange _) (fun _ _ _ => 0) (fun i l _ => hin i l)
  unfold convertToActionDist at hv
  rw [this] at hv
  simp only [Except.ok.injEq] at hv
  rw [← hv]
  simp

/-- With the name bound to the function instead, a replay that returns has asked the policy for a selection in
every round, updated it exactly in the rounds where the selection at the logged position is the logged action
(with the logged reward, before the next selection), and returns the selections as a one-hot distribution over
the actions up to the largest logged one. Missing: the code itself raises, see `C77_always_raises`. -/
theorem C77_updates_on_matches_partial (g : ReplayLog K n d) (hn : 0 < n) (hp : ∀ i, 0 < g.pscore i) (p : S)
    {x : Arr3 K} {q : S × List (PolicyCall K)}
    (h : runReplay .function (recording pol) (p, []) g.args = .ok (x, q)) :
    ∃ (sels : List (List ℤ)) (A L : ℕ) (v : Fin sels.length → Fin A → Fin L → K),
      sels.length = n ∧
      q.2 = ((List.finRange n).zip sels).flatMap (fun y => g.calls pol.kind y.1 y.2) ∧
      x = ⟨sels.length, A, L, v⟩ ∧ (∀ i, g.action i < A) ∧ (∃ i, g.action i + 1 = A) ∧
      ∀ i : Fin sels.length, (sels.get i).length = L ∧
        ∀ (l : Fin L) (a : Fin A), ∃ z, (sels.get i)[(l : ℕ)]? = some z ∧
          v i a l = if wrapIdx A z = some a then 1 else 0 := by
  unfold runReplay at h
  rw [g.rounds hn hp] at h
  simp only [py_bind_ok] at h
  obtain ⟨-, -, h⟩ := py_bind_eq_ok.1 h
  obtain ⟨s, hs, h⟩ := py_bind_eq_ok.1 h
  obtain ⟨y, hy, h⟩ := py_bind_eq_ok.1 h
  simp only [py_pure, Except.ok.injEq, Prod.mk.injEq] at h
  obtain ⟨rfl, rfl⟩ := h
  rw [List.ofFn_eq_map] at hs
  obtain ⟨sels, h1, h2, h3⟩ := replay_fold g (List.finRange n) hs
  simp only [List.nil_append] at h2 h3
  rw [h2] at hy
  obtain ⟨L, v, h4, h5⟩ := replayDist_ok hy
  have hmax : ∀ (l : List ℕ) (a : ℕ), (∀ b ∈ l, b ≤ l.foldl max a) ∧ a ≤ l.foldl max a ∧
      (l.foldl max a = a ∨ l.foldl max a ∈ l) := by
    intro l
    induction l with
    | nil => intro a; simp
    | cons c l ih =>
        intro a
        obtain ⟨k1, k2, k3⟩ := ih (max a c)
        rw [List.foldl_cons]
        refine ⟨?_, by omega, ?_⟩
        · intro b hb
          rcases List.mem_cons.1 hb with rfl | hb
          · omega
          · exact k1 b hb
        · rcases k3 with k3 | k3
          · rcases le_total a c with hac | hac
            · right; rw [k3, max_eq_right hac]; simp
            · left; rw [k3, max_eq_left hac]
          · exact .inr (List.mem_cons_of_mem _ k3)
  have hacts : (List.ofFn g.round).map (fun r => r.action.toNat) = List.ofFn g.action := by
    rw [List.map_ofFn]
    congr 1
  obtain ⟨m1, m2, m3⟩ := hmax (List.ofFn g.action) 0
  refine ⟨sels, _, L, v, by simpa using h1, h3, h4, ?_, ?_, fun i => ⟨(h5 i).1, fun l a => ?_⟩⟩
  · intro i
    unfold replayActions
    rw [hacts]
    have := m1 (g.action i) (List.mem_ofFn.2 ⟨i, rfl⟩)
    omega
  · unfold replayActions
    rw [hacts]
    rcases m3 with m3 | m3
    · refine ⟨⟨0, hn⟩, ?_⟩
      have := m1 (g.action ⟨0, hn⟩) (List.mem_ofFn.2 ⟨_, rfl⟩)
      omega
    · obtain ⟨i, hi⟩ := List.mem_ofFn.1 m3
      exact ⟨i, by rw [hi]⟩
  · obtain ⟨z, hz, -, hv⟩ := (h5 i).2 l a
    exact ⟨z, hz, hv⟩

/-- A context-free policy that always returns both actions, best average first, and keeps reward totals. -/
def demoReplayPolicy : SimPolicy (ℚ × ℚ) ℚ where
  kind := .contextFree
  select s _ := .ok (if s.1 < s.2 then [1, 0] else [0, 1], s)
  update s _ a r := .ok (if a = 0 then (s.1 + r, s.2) else (s.1, s.2 + r))

/-- A log with two positions. -/
def demoReplayLog : ReplayLog ℚ 3 1 where
  context := fun _ _ => 1
  action := ![1, 1, 0]
  reward := ![2, 5, 7]
  position := some ![1, 1, 1]
  pscore := fun _ => 1 / 2

/-- The hypotheses of both theorems hold: the log passes validation, and with the function the replay returns
(rounds 0 and 2 match). A policy that selects an action that is nowhere in the log makes it raise. -/
example : (∀ i, 0 < demoReplayLog.pscore i) ∧
    (runReplay .function (recording demoReplayPolicy) ((0, 0), []) demoReplayLog.args).map
      (fun r => (r.2.1, r.1.n, r.1.A, r.1.L)) = .ok ((7, 2), 3, 2, 2) ∧
    (runReplay .function { demoReplayPolicy with select := fun s _ => .ok ([2, 1], s) } (0, 0)
      demoReplayLog.args).map (fun r => r.2) = .error .indexError ∧
    (runReplay .module_ demoReplayPolicy (0, 0) demoReplayLog.args).map (fun r => r.2) = .error .typeError := by
  refine ⟨by decide +kernel, by decide +kernel, by decide +kernel, by decide +kernel⟩

/-! ### `calc_ground_truth_policy_value` -/

theorem TruthLog.check (g : TruthLog K n d A) (hn : 0 < n) :
    checkBanditFeedbackInputs
      { context := g.args.context, action := g.args.action, reward := g.args.reward
        expectedReward := g.args.expectedReward, position := g.args.position } = .ok () := by
  rw [C10_accept_iff]
  refine ⟨n, List.ofFn fun i => ((g.action i : ℕ) : ℤ), ⟨⟨_, rfl, rfl⟩, ⟨rfl, by simp, by simp; omega, ?_⟩,
    .inr ⟨_, rfl, by simp⟩, .inr ⟨_, rfl, rfl, ?_⟩, .inl rfl, ?_, .inl rfl⟩⟩
  · intro z hz
    obtain ⟨i, rfl⟩ := List.mem_ofFn.1 hz
    omega
  · intro z hz
    obtain ⟨i, rfl⟩ := List.mem_ofFn.1 hz
    have := (g.action i).isLt
    simp only
    omega
  · simp only [TruthLog.args]
    cases g.position with
    | none => exact .inl rfl
    | some q =>
        refine .inr ⟨_, rfl, by simp, by simp; omega, ?_⟩
        intro z hz
        obtain ⟨i, rfl⟩ := List.mem_ofFn.1 hz
        omega

/-- The rounds of a log. -/
def TruthLog.round (g : TruthLog K n d A) (pos : Fin n → ℕ) (i : Fin n) : TruthRound K where
  position := pos i
  context := List.ofFn (g.context i)
  expected := List.ofFn (g.expected i)

theorem TruthLog.rounds (g : TruthLog K n d A) (hn : 0 < n) {pos : Fin n → ℕ} (hp : g.position = some pos) :
    truthRounds g.args = .ok (some ((List.finRange n).map (g.round pos))) := by
  unfold truthRounds
  rw [g.check hn]
  have e1 : checkArray2 g.args.context = .ok ⟨n, d, g.context⟩ := rfl
  have e3 : g.args.position = .int (List.ofFn fun i => (pos i : ℤ)) := by simp [TruthLog.args, hp]
  have e4 : g.args.expectedReward = .arr ⟨n, A, g.expected⟩ := rfl
  simp only [py_bind_ok, e1, e3, e4, py_pure]
  rw [← List.ofFn_eq_map]
  congr 3
  funext i
  simp [TruthLog.round, List.getD_eq_getElem?_getD]

theorem TruthLog.rounds_none (g : TruthLog K n d A) (hn : 0 < n) (hp : g.position = none) :
    truthRounds g.args = .ok none := by
  unfold truthRounds
  rw [g.check hn]
  have e1 : checkArray2 g.args.context = .ok ⟨n, d, g.context⟩ := rfl
  have e3 : g.args.position = .none := by simp [TruthLog.args, hp]
  simp only [py_bind_ok, e1, e3, py_pure]

/-- Omitted positions pass validation, but the first simulation raises TypeError. -/
theorem C78_position_none_raises {G : Type} (pol : SimPolicy S K) (sampler : G → List K → ℤ → K × G)
    (g : TruthLog K n d A) (hn : 0 < n) (hp : g.position = none) (nSim : ℕ) (hs : 0 < nSim) (p : S) (r : G) :
    calcGroundTruth pol sampler g.args nSim p r = .error .typeError := by
  unfold calcGroundTruth
  rw [g.rounds_none hn hp]
  simp [raiseIf_pos, hs]

theorem truthRound_plays {G : Type} (sampler : G → List K → ℤ → K × G) (g : TruthLog K n d A) {pos : Fin n → ℕ}
    {i : Fin n} {s s' : S × G × K} (h : truthRound pol sampler s (g.round pos i) = .ok s') :
    ∃ l p₁ z a r, pol.select s.1 (seen pol.kind (rowArg (g.context i))) = .ok (l, p₁) ∧
      l[pos i]? = some z ∧ wrapIdx A z = some a ∧
      sampler s.2.1 (List.ofFn (g.context i)) z = (r, s'.2.1) ∧
      pol.update p₁ (seen pol.kind (rowArg (g.context i))) z r = .ok s'.1 ∧
      s'.2.2 = s.2.2 + g.expected i a := by
  unfold truthRound at h
  obtain ⟨q, hq, h⟩ := py_bind_eq_ok.1 h
  obtain ⟨z, hz, h⟩ := py_bind_eq_ok.1 h
  obtain ⟨e, he, h⟩ := py_bind_eq_ok.1 h
  obtain ⟨p₂, hp₂, h⟩ := py_bind_eq_ok.1 h
  simp only [py_pure, Except.ok.injEq] at h
  subst h
  have hz' : q.1[pos i]? = some z := (npIndex_natCast _ _ _).1 hz
  have hk : pol.kind ≠ .offline := by
    intro hk
    unfold replaySelect at hq
    rw [hk] at hq
    simp at hq
  have hsel : pol.select s.1 (seen pol.kind (rowArg (g.context i))) = .ok (q.1, q.2) := by
    unfold replaySelect at hq
    simp only [TruthLog.round, rowContext_ofFn] at hq
    cases hk' : pol.kind with
    | offline => exact absurd hk' hk
    | contextFree => rw [hk'] at hq; simpa [seen] using hq
    | contextual => rw [hk'] at hq; simpa [seen] using hq
  have hupd : pol.update q.2 (seen pol.kind (rowArg (g.context i))) z
      (sampler s.2.1 (List.ofFn (g.context i)) z).1 = .ok p₂ := by
    unfold replayUpdate at hp₂
    simp only [TruthLog.round, rowContext_ofFn] at hp₂
    cases hk' : pol.kind with
    | offline => exact absurd hk' hk
    | contextFree => rw [hk'] at hp₂; simpa [seen] using hp₂
    | contextual => rw [hk'] at hp₂; simpa [seen] using hp₂
  have hexp : ∃ a, wrapIdx A z = some a ∧ e = g.expected i a := by
    unfold npIndex at he
    simp only [TruthLog.round] at he
    have hl : (List.ofFn (g.expected i)).length = A := List.length_ofFn
    split at he
    · rename_i j hj
      simp only [Except.ok.injEq] at he
      refine ⟨Fin.cast hl j, ?_, ?_⟩
      · unfold wrapIdx at hj ⊢
        simp only [hl] at hj
        split at hj
        · rename_i hc
          rw [dif_pos hc]
          simp only [Option.some.injEq] at hj ⊢
          rw [← hj]; rfl
        · rename_i hc
          rw [dif_neg hc]
          split at hj
          · rename_i hc'
            rw [dif_pos hc']
            simp only [Option.some.injEq] at hj ⊢
            rw [← hj]
            ext
            simp
          · simp at hj
      · rw [← he, List.get_ofFn]
    · simp at he
  obtain ⟨a, ha, rfl⟩ := hexp
  exact ⟨q.1, q.2, z, a, _, hsel, hz', ha, rfl, hupd, rfl⟩

theorem truth_fold {G : Type} (sampler : G → List K → ℤ → K × G) (g : TruthLog K n d A) {pos : Fin n → ℕ}
    (is : List (Fin n)) :
    ∀ {s s' : S × G × K}, (is.map (g.round pos)).foldlM (truthRound pol sampler) s = .ok s' →
      ∃ acts : List (Fin A), Plays pol sampler g pos is s.1 s.2.1 acts s'.1 s'.2.1 ∧
        acts.length = is.length ∧
        s'.2.2 = s.2.2 + ((is.zip acts).map fun x => g.expected x.1 x.2).sum := by
  induction is with
  | nil =>
      intro s s' h
      simp only [List.map_nil, List.foldlM_nil, py_pure, Except.ok.injEq] at h
      subst h
      exact ⟨[], .nil, rfl, by simp⟩
  | cons i is ih =>
      intro s s' h
      rw [List.map_cons, List.foldlM_cons] at h
      obtain ⟨u, hu, h⟩ := py_bind_eq_ok.1 h
      obtain ⟨l, p₁, z, a, r, h1, h2, h3, h4, h5, h6⟩ := truthRound_plays sampler g hu
      obtain ⟨acts, h7, h8, h9⟩ := ih h
      refine ⟨a :: acts, .cons h1 h2 h3 h4 h5 h7, by simp [h8], ?_⟩
      rw [h9, h6]
      simp [add_assoc]

theorem truth_sims {G : Type} (sampler : G → List K → ℤ → K × G) (g : TruthLog K n d A) {pos : Fin n → ℕ} (p : S)
    (m : ℕ) : ∀ {s t : G × K},
      (List.replicate m ()).foldlM
        (fun s _ => truthSim pol sampler ((List.finRange n).map (g.round pos)) p s) s = .ok t →
      ∃ sims : List (List (Fin A)), sims.length = m ∧ (∀ acts ∈ sims, acts.length = n) ∧
        Simulations pol sampler g pos p s.1 sims ∧
        t.2 = s.2 + (sims.map fun acts =>
          (((List.finRange n).zip acts).map fun x => g.expected x.1 x.2).sum).sum := by
  induction m with
  | zero =>
      intro s t h
      simp only [List.replicate_zero, List.foldlM_nil, py_pure, Except.ok.injEq] at h
      subst h
      exact ⟨[], rfl, by simp, .nil, by simp⟩
  | succ m ih =>
      intro s t h
      rw [List.replicate_succ, List.foldlM_cons] at h
      obtain ⟨u, hu, h⟩ := py_bind_eq_ok.1 h
      unfold truthSim at hu
      obtain ⟨v, hv, hu⟩ := py_bind_eq_ok.1 hu
      simp only [py_pure, Except.ok.injEq] at hu
      obtain ⟨acts, h1, h2, h3⟩ := truth_fold sampler g (List.finRange n) hv
      obtain ⟨sims, h4, h5, h6, h7⟩ := ih h
      refine ⟨acts :: sims, by simp [h4], ?_, .cons h1 (by rw [← hu] at h6; exact h6), ?_⟩
      · intro a ha
        rcases List.mem_cons.1 ha with rfl | ha
        · simpa using h2
        · exact h5 a ha
      · rw [h7, ← hu]
        simp only [h3, List.map_cons, List.sum_cons]
        ring

/-- The result is the average of the expected rewards of the actions taken, over all simulations and rounds.
Every simulation starts from the policy as it was passed in. -/
theorem C78_average {G : Type} (sampler : G → List K → ℤ → K × G) (g : TruthLog K n d A) (hn : 0 < n)
    {pos : Fin n → ℕ} (hp : g.position = some pos) (nSim : ℕ) (p : S) (r : G) {v : K}
    (h : calcGroundTruth pol sampler g.args nSim p r = .ok v) :
    0 < nSim ∧ ∃ sims : List (List (Fin A)), sims.length = nSim ∧ (∀ acts ∈ sims, acts.length = n) ∧
      Simulations pol sampler g pos p r sims ∧
      v = (sims.map fun acts =>
        (((List.finRange n).zip acts).map fun x => g.expected x.1 x.2).sum).sum / (nSim * n) := by
  unfold calcGroundTruth at h
  rw [g.rounds hn hp] at h
  simp only [py_bind_ok] at h
  obtain ⟨t, ht, h⟩ := py_bind_eq_ok.1 h
  obtain ⟨⟨⟩, h1, h⟩ := py_bind_eq_ok.1 h
  obtain ⟨⟨⟩, h2, h⟩ := py_bind_eq_ok.1 h
  simp only [py_pure, Except.ok.injEq] at h
  simp only [raiseIf_ok, decide_eq_false_iff_not] at h1
  obtain ⟨sims, h4, h5, h6, h7⟩ := truth_sims sampler g p nSim ht
  refine ⟨by omega, sims, h4, h5, h6, ?_⟩
  rw [← h, h7]
  simp [TruthLog.args]

theorem sum_bounds {α : Type} (l : List α) (f : α → K) (lo hi : K) (h : ∀ x ∈ l, lo ≤ f x ∧ f x ≤ hi) :
    l.length * lo ≤ (l.map f).sum ∧ (l.map f).sum ≤ l.length * hi := by
  induction l with
  | nil => simp
  | cons x l ih =>
      obtain ⟨h1, h2⟩ := ih fun y hy => h y (by simp [hy])
      obtain ⟨h3, h4⟩ := h x (by simp)
      simp only [List.length_cons, List.map_cons, List.sum_cons, Nat.cast_succ]
      constructor <;> linarith

/-- Hence it lies within the range of the expected rewards. -/
theorem C78_range {G : Type} (sampler : G → List K → ℤ → K × G) (g : TruthLog K n d A) (hn : 0 < n)
    {pos : Fin n → ℕ} (hp : g.position = some pos) (nSim : ℕ) (p : S) (r : G) {v : K}
    (h : calcGroundTruth pol sampler g.args nSim p r = .ok v) (lo hi : K)
    (hb : ∀ i a, lo ≤ g.expected i a ∧ g.expected i a ≤ hi) : lo ≤ v ∧ v ≤ hi := by
  obtain ⟨hs, sims, h1, h2, -, h3⟩ := C78_average sampler g hn hp nSim p r h
  have hpos : (0 : K) < nSim * n := by
    have h1 : (0 : K) < nSim := by exact_mod_cast hs
    have h2 : (0 : K) < n := by exact_mod_cast hn
    exact mul_pos h1 h2
  have hin : ∀ acts ∈ sims, (n : K) * lo ≤ (((List.finRange n).zip acts).map fun x => g.expected x.1 x.2).sum ∧
      (((List.finRange n).zip acts).map fun x => g.expected x.1 x.2).sum ≤ (n : K) * hi := by
    intro acts ha
    have := sum_bounds ((List.finRange n).zip acts) (fun x => g.expected x.1 x.2) lo hi fun x _ => hb _ _
    rw [List.length_zip, h2 acts ha, List.length_finRange, min_self] at this
    exact this
  obtain ⟨k1, k2⟩ := sum_bounds sims _ _ _ hin
  rw [h1] at k1 k2
  rw [h3, le_div_iff₀ hpos, div_le_iff₀ hpos]
  constructor <;> nlinarith

/-- All simulations reuse the random state of the policy: if the reward sampler is deterministic, further
simulations repeat the first one and do not change the result. -/
theorem C78_simulations_repeat (f : List K → ℤ → K) (g : TruthLog K n d A) (hn : 0 < n)
    {pos : Fin n → ℕ} (hp : g.position = some pos) (nSim : ℕ) (hs : 0 < nSim) (p : S) :
    calcGroundTruth pol (fun (_ : Unit) c a => (f c a, ())) g.args nSim p () =
      calcGroundTruth pol (fun (_ : Unit) c a => (f c a, ())) g.args 1 p () := by
  unfold calcGroundTruth
  rw [g.rounds hn hp]
  simp only [py_bind_ok]
  set sampler : Unit → List K → ℤ → K × Unit := fun _ c a => (f c a, ()) with hsam
  set rounds := (List.finRange n).map (g.round pos) with hr
  have hacc : ∀ (rs : List (TruthRound K)) (q : S) (c : K),
      rs.foldlM (truthRound pol sampler) (q, (), c) =
        (rs.foldlM (truthRound pol sampler) (q, (), 0)).map fun t => (t.1, t.2.1, c + t.2.2) := by
    intro rs
    induction rs with
    | nil => intro q c; simp [Except.map]
    | cons x rs ih =>
        intro q c
        have hx : ∀ c' : K, truthRound pol sampler (q, (), c') x =
            (truthRound pol sampler (q, (), 0) x).map fun t => (t.1, t.2.1, c' + t.2.2) := by
          intro c'
          unfold truthRound
          cases replaySelect pol x.context q with
          | error _ => rfl
          | ok y =>
              simp only [py_bind_ok]
              cases npIndex y.1 x.position with
              | error _ => rfl
              | ok a =>
                  simp only [py_bind_ok]
                  cases npIndex x.expected a with
                  | error _ => rfl
                  | ok e =>
                      simp only [py_bind_ok]
                      cases replayUpdate pol x.context a (sampler () x.context a).1 y.2 with
                      | error _ => rfl
                      | ok z => simp [Except.map]
        rw [List.foldlM_cons, List.foldlM_cons, hx c]
        cases truthRound pol sampler (q, (), 0) x with
        | error _ => rfl
        | ok t =>
            obtain ⟨t1, t2, t3⟩ := t
            simp only [Except.map, py_bind_ok]
            rw [ih t1 (c + t3), ih t1 t3]
            cases rs.foldlM (truthRound pol sampler) (t1, (), 0) with
            | error _ => rfl
            | ok u => simp [Except.map, add_assoc]
  have hsim : ∀ c : K, truthSim pol sampler rounds p ((), c) =
      (truthSim pol sampler rounds p ((), 0)).map fun t => ((), c + t.2) := by
    intro c
    unfold truthSim
    simp only
    rw [hacc rounds p c]
    cases rounds.foldlM (truthRound pol sampler) (p, (), 0) with
    | error _ => rfl
    | ok u => rfl
  have hone : ∀ (m : ℕ) (c : K), (List.replicate m ()).foldlM
      (fun s _ => truthSim pol sampler rounds p s) ((), c) =
      if m = 0 then .ok ((), c) else
        (truthSim pol sampler rounds p ((), 0)).map fun t => ((), c + (m : K) * t.2) := by
    intro m
    induction m with
    | zero => intro c; simp
    | succ m ih =>
        intro c
        rw [List.replicate_succ, List.foldlM_cons, hsim c, if_neg (by omega)]
        cases hc : truthSim pol sampler rounds p ((), 0) with
        | error _ => rfl
        | ok t =>
            simp only [Except.map, py_bind_ok]
            rw [ih]
            by_cases hm : m = 0
            · subst hm; simp
            · rw [if_neg hm, hc]
              simp only [Except.map, Except.ok.injEq, Prod.mk.injEq, true_and]
              push_cast
              ring
  rw [hone nSim 0, hone 1 0, if_neg (by omega), if_neg (by omega)]
  cases truthSim pol sampler rounds p ((), 0) with
  | error _ => rfl
  | ok t =>
      simp only [Except.map, py_bind_ok]
      have h1 : (raiseIf (decide (nSim = 0)) .zeroDivisionError : Py Unit) = .ok () :=
        raiseIf_neg (decide_eq_false (by omega)) _
      have h2 : (raiseIf (decide ((1 : ℕ) = 0)) .zeroDivisionError : Py Unit) = .ok () := raiseIf_neg (by simp) _
      have h3 : (raiseIf (decide (g.args.nRounds = 0)) .nonFinite : Py Unit) = .ok () :=
        raiseIf_neg (decide_eq_false (show n ≠ 0 by omega)) _
      rw [h1, h2, h3]
      simp only [py_bind_ok, py_pure, Except.ok.injEq]
      have hK : (nSim : K) ≠ 0 := by exact_mod_cast (by omega : nSim ≠ 0)
      have hN : (g.args.nRounds : K) ≠ 0 := by
        have : g.args.nRounds ≠ 0 := show n ≠ 0 by omega
        exact_mod_cast this
      push_cast
      rw [zero_add, zero_add, div_eq_div_iff (mul_ne_zero hK hN) (mul_ne_zero one_ne_zero hN)]
      ring

/-- A log with two positions and a policy that prefers the action with more reward. -/
def demoTruthLog : TruthLog ℚ 3 1 2 where
  context := fun _ _ => 1
  action := ![0, 1, 0]
  reward := ![0, 0, 0]
  position := some ![0, 1, 0]
  expected := ![![1 / 2, 1], ![1 / 4, 3], ![0, 5]]

/-- The hypotheses hold for it: two simulations with a random state that counts the draws. -/
example : (calcGroundTruth demoReplayPolicy (fun (g : ℕ) _ _ => ((g : ℚ), g + 1)) demoTruthLog.args 2 (0, 0) 0) =
    .ok (17 / 6) ∧ (calcGroundTruth demoReplayPolicy (fun (g : ℕ) _ _ => ((g : ℚ), g + 1)) demoTruthLog.args 0
      (0, 0) 0) = .error .zeroDivisionError := by
  refine ⟨by decide +kernel, by decide +kernel⟩

end

end Obp
