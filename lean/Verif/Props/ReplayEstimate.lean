import Verif.Props.ReplayFaithful
import Verif.Props.Replay
import Verif.Props.EstimatorLaws
import Verif.Lemmas.Prob

set_option linter.unusedSectionVars false

/-! # C184: the replay estimate of a learning policy -/

namespace Obp

variable {K : Type} [Field K] [LinearOrder K] [IsStrictOrderedRing K] {X M D : Type} [Fintype X] [Fintype D] {A : ℕ}

/-- the policy that also remembers how often it was updated and the total reward it was given -/
def DrawPolicy.counting (π : DrawPolicy K M D A) : DrawPolicy K (M × ℕ × K) D A where
  kind := π.kind
  sel := fun m => π.sel m.1
  upd := fun m c a r => (π.upd m.1 c a r, m.2.1 + 1, m.2.2 + r)

/-- rounds of a log in which the policy selects the logged action, and their total reward -/
def replayScore (π : DrawPolicy K M D A) (E : RoundLaw K X A) (m : M) : List (X × Fin A × D) → ℕ × K
  | [] => (0, 0)
  | (x, a, d) :: w =>
    if a = π.sel m (drawContext π.kind (E.context x)) d then
      ((replayScore π E (learnRound π E m x d) w).1 + 1, E.reward x a + (replayScore π E (learnRound π E m x d) w).2)
    else replayScore π E m w

theorem learnRound_counting (π : DrawPolicy K M D A) (E : RoundLaw K X A) (m : M) (c : ℕ) (t : K) (x : X) (d : D) :
    learnRound π.counting E (m, c, t) x d =
      (learnRound π E m x d, c + 1, t + E.reward x (π.sel m (drawContext π.kind (E.context x)) d)) := rfl

theorem replayMemory_counting (π : DrawPolicy K M D A) (E : RoundLaw K X A) :
    ∀ (w : List (X × Fin A × D)) (m : M) (c : ℕ) (t : K), replayMemory π.counting E (m, c, t) w =
      (replayMemory π E m w, c + (replayScore π E m w).1, t + (replayScore π E m w).2)
  | [], m, c, t => by simp [replayMemory, replayScore]
  | (x, a, d) :: w, m, c, t => by
    have hs : π.counting.sel (m, c, t) (drawContext π.counting.kind (E.context x)) d =
        π.sel m (drawContext π.kind (E.context x)) d := rfl
    simp only [replayMemory, replayScore, hs]
    by_cases h : a = π.sel m (drawContext π.kind (E.context x)) d
    · simp only [if_pos h, learnRound_counting, replayMemory_counting π E w]
      rw [← h]
      refine Prod.ext rfl (Prod.ext ?_ ?_)
      · show c + 1 + _ = c + (_ + 1); omega
      · show t + _ + _ = t + (_ + _); ring
    · simp only [if_neg h, replayMemory_counting π E w]

theorem onlineMemory_counting (π : DrawPolicy K M D A) (E : RoundLaw K X A) :
    ∀ (w : List (X × D)) (m : M) (c : ℕ) (t : K), onlineMemory π.counting E (m, c, t) w =
      (onlineMemory π E m w, c + w.length, t + onlineTotal π E m w)
  | [], m, c, t => by simp [onlineMemory, onlineTotal]
  | (x, d) :: w, m, c, t => by
    simp only [onlineMemory, learnRound_counting, onlineMemory_counting π E w, onlineTotal, List.length_cons]
    refine Prod.ext rfl (Prod.ext ?_ ?_)
    · show c + 1 + _ = c + (_ + 1); omega
    · show t + _ + _ = t + (_ + _); ring

theorem replaySelected_length (π : DrawPolicy K M D A) (E : RoundLaw K X A) :
    ∀ (w : List (X × Fin A × D)) (m : M), (replaySelected π E m w).length = w.length
  | [], _ => rfl
  | (x, a, d) :: w, m => by simp only [replaySelected, List.length_cons, replaySelected_length π E w]

/-- the score is the sum over the rounds whose selection is the logged action -/
theorem replayScore_eq (π : DrawPolicy K M D A) (E : RoundLaw K X A) :
    ∀ (w : List (X × Fin A × D)) (m : M), replayScore π E m w =
      ((((w.zip (replaySelected π E m w)).filter fun p => decide (p.1.2.1 = p.2))).length,
        (((w.zip (replaySelected π E m w)).filter fun p => decide (p.1.2.1 = p.2)).map
          fun p => E.reward p.1.1 p.1.2.1).sum)
  | [], _ => rfl
  | (x, a, d) :: w, m => by
    simp only [replayScore, replaySelected, List.zip_cons_cons, List.filter_cons]
    by_cases h : a = π.sel m (drawContext π.kind (E.context x)) d
    · simp only [if_pos h, decide_eq_true h, if_true, List.length_cons, List.map_cons, List.sum_cons,
        replayScore_eq π E w]
    · simp only [if_neg h, decide_eq_false h, Bool.false_eq_true, if_false, replayScore_eq π E w]

theorem zip_filter_sum {O : Type} {n : ℕ} (w : Fin n → O) (s : Fin n → Fin A) (q : O → Fin A) (f : O → K) :
    (((((List.ofFn w).zip (List.ofFn s)).filter fun p => decide (q p.1 = p.2))).length,
      ((((List.ofFn w).zip (List.ofFn s)).filter fun p => decide (q p.1 = p.2)).map fun p => f p.1).sum) =
    ((Finset.univ.filter fun i => q (w i) = s i).card, ∑ i with q (w i) = s i, f (w i)) := by
  have hz : (List.ofFn w).zip (List.ofFn s) = (List.finRange n).map fun i => (w i, s i) := by
    apply List.ext_getElem <;> simp
  rw [hz, List.filter_map, List.length_map, List.map_map]
  refine Prod.ext ?_ ?_
  · dsimp only
    rw [← List.countP_eq_length_filter]
    simp only [Function.comp_def]
    rw [Finset.card_filter, ← List.sum_ofFn, List.ofFn_eq_map]
    generalize List.finRange n = l
    induction l with
    | nil => rfl
    | cons i l ih =>
      rw [List.countP_cons, ih, List.map_cons, List.sum_cons]
      by_cases h : q (w i) = s i <;> simp [h, add_comm]
  · dsimp only
    rw [Finset.sum_filter, ← List.sum_ofFn, List.ofFn_eq_map]
    simp only [Function.comp_def]
    generalize List.finRange n = l
    induction l with
    | nil => rfl
    | cons i l ih =>
      rw [List.filter_cons]
      by_cases h : q (w i) = s i <;> simp [h, ih]

/-- the table of selections -/
theorem replayDist_single : ∀ (sels : List (List ℤ)) (n : ℕ) (hn : sels.length = n) (_ : 0 < n) (s : Fin n → Fin A),
    (∀ i : Fin n, sels[i.val]'(by omega) = [((s i).val : ℤ)]) →
    ∃ v : Fin n → Fin A → Fin 1 → K, replayDist A sels = .ok ⟨n, A, 1, v⟩ ∧ ∀ i a l, v i a l = if a = s i then 1 else 0 := by
  rintro sels n rfl h0 s hs
  obtain ⟨x, xs, rfl⟩ : ∃ x xs, sels = x :: xs := List.exists_cons_of_length_pos h0
  obtain ⟨y, rfl⟩ : ∃ y, x = [y] := ⟨_, hs ⟨0, h0⟩⟩
  obtain ⟨v, h1, h2, -⟩ := C02_convert_onehot (K := K) (A := A) (L := 1) fun i _ => s i
  refine ⟨v, ?_, fun i a l => h2 i a l⟩
  unfold replayDist
  dsimp only
  rw [raiseIf_neg, py_bind_ok]
  · have hc : (fun (i : Fin ([y] :: xs).length) (l : Fin 1) =>
        (([y] :: xs).get i).getD l 0) = fun i _ => ((s i : ℕ) : ℤ) := by
      funext i l
      have := hs i
      rw [List.get_eq_getElem, this]
      have : l = 0 := Subsingleton.elim _ _
      subst this
      rfl
    have h3 := h1
    rw [← hc] at h3
    refine (congrArg (fun r => r >>= _) h3).trans rfl
  · rw [List.any_eq_false]
    intro r hr
    obtain ⟨i, hi, rfl⟩ := List.getElem_of_mem hr
    rw [hs ⟨i, hi⟩]
    simp

theorem replayActions_eq {X D : Type} (E : RoundLaw K X A) {n : ℕ} (w : Fin n → X × Fin A × D)
    (hl : ∃ i, (w i).2.1.val + 1 = A) :
    replayActions (List.ofFn fun i => E.logged (w i).1 (w i).2.1) = A := by
  have hb : ∀ (l : List ℕ) (a b : ℕ), a ≤ b → (∀ c ∈ l, c ≤ b) → l.foldl max a ≤ b := by
    intro l
    induction l with
    | nil => intro a b h _; exact h
    | cons c l ih =>
      intro a b h hl
      exact ih _ _ (max_le h (hl c (by simp))) fun c hc => hl c (by simp [hc])
  have hm : ∀ (l : List ℕ) (a : ℕ), a ≤ l.foldl max a ∧ ∀ c ∈ l, c ≤ l.foldl max a := by
    intro l
    induction l with
    | nil => intro a; simp
    | cons c l ih =>
      intro a
      obtain ⟨h1, h2⟩ := ih (max a c)
      refine ⟨le_trans (le_max_left _ _) h1, fun b hb => ?_⟩
      rcases List.mem_cons.1 hb with rfl | hb
      · exact le_trans (le_max_right _ _) h1
      · exact h2 b hb
  obtain ⟨i, hi⟩ := hl
  unfold replayActions
  rw [List.map_ofFn]
  have h1 := hb (List.ofFn ((fun r : LogRound K => r.action.toNat) ∘ fun i => E.logged (w i).1 (w i).2.1)) 0 (A - 1)
    (by omega) (by
      intro c hc
      obtain ⟨j, rfl⟩ := List.mem_ofFn.1 hc
      have := (w j).2.1.isLt
      show (((w j).2.1.val : ℤ)).toNat ≤ A - 1
      omega)
  have h2 := (hm (List.ofFn ((fun r : LogRound K => r.action.toNat) ∘ fun i => E.logged (w i).1 (w i).2.1)) 0).2
    (w i).2.1.val (List.mem_ofFn.2 ⟨i, by simp [RoundLaw.logged]⟩)
  omega

/-- selections of a replay, by round -/
def replaySel (π : DrawPolicy K M D A) (E : RoundLaw K X A) (m : M) {n : ℕ} (w : Fin n → X × Fin A × D) (i : Fin n) : Fin A :=
  (replaySelected π E m (List.ofFn w))[i.val]'(by rw [replaySelected_length, List.length_ofFn]; exact i.isLt)

theorem replaySel_ofFn (π : DrawPolicy K M D A) (E : RoundLaw K X A) (m : M) {n : ℕ} (w : Fin n → X × Fin A × D) :
    replaySelected π E m (List.ofFn w) = List.ofFn (replaySel π E m w) := by
  apply List.ext_getElem
  · simp [replaySelected_length]
  · intro j h1 h2
    simp [replaySel]

theorem replayScore_sel (π : DrawPolicy K M D A) (E : RoundLaw K X A) (m : M) {n : ℕ} (w : Fin n → X × Fin A × D) :
    replayScore π E m (List.ofFn w) = ((replayMatches (replaySel π E m w) w).card,
      ∑ i ∈ replayMatches (replaySel π E m w) w, E.reward (w i).1 (w i).2.1) := by
  have hscore := replayScore_eq π E (List.ofFn w) m
  rw [replaySel_ofFn, zip_filter_sum w (replaySel π E m w) (fun o => o.2.1) fun o => E.reward o.1 o.2.1] at hscore
  exact hscore

/-- **C184.** Evaluating a policy that learns, by `run_bandit_replay` and `ReplayMethod`, from `n` rounds whose actions were
logged uniformly at random in a stationary environment. The loop of `run_bandit_replay` records the selections `sel w`. Whenever
the last action occurs in the log, `run_bandit_replay` (with the name `tqdm` bound to the function) returns the indicators of
`sel w`, and `ReplayMethod` on the log with this table returns the average reward of the rounds in which the selection is the
logged action. The number of these rounds and their average reward are jointly distributed as `k` and the average reward of `k`
rounds played online, with `k` binomial. -/
theorem C184_replay_estimate_partial {π : DrawPolicy K M D A} (hk : π.kind ≠ .offline) (E : RoundLaw K X A) {d : ℕ}
    (hd : ∀ x, (E.context x).length = d) (hE : ∑ x, E.prob x = 1) (q : D → K) (hq : ∑ d, q d = 1) (hA : 0 < A) (m : M)
    (n : ℕ) :
    ∃ (sel : (Fin n → X × Fin A × D) → Fin n → Fin A) (total : ∀ k, (Fin k → X × D) → K),
      (∀ w, ∃ s, (List.ofFn fun i => E.logged (w i).1 (w i).2.1).foldlM (replayRound π.object)
        { policy := (m, List.ofFn fun i => (w i).2.2) } = .ok s ∧ s.selected = List.ofFn fun i => [((sel w i).val : ℤ)]) ∧
      (∀ w, (∃ i, (w i).2.1.val + 1 = A) → ∃ v p,
        runReplay .function π.object (m, List.ofFn fun i => (w i).2.2) (E.replayLog d w).args = .ok (⟨n, A, 1, v⟩, p) ∧
        (∀ i a l, v i a l = if a = sel w i then 1 else 0) ∧
        ∀ lam est, (Estimator.mk .rm lam est).estimatePolicyValue (E.evalLog w v).args = .ok (E.matchedMean (sel w) w)) ∧
      (∀ k w, ∃ s, simRun π.object (m, List.ofFn fun i => (w i).2) (simSteps (List.ofFn fun i : Fin k => E.online (w i).1)) =
        .ok s ∧ s.total = total k w) ∧
      ∀ f : ℕ → K → K, expect (fun _ => fun o => E.prob o.1 * (1 / A) * q o.2.2)
          (fun w => f (replayMatches (sel w) w).card (E.matchedMean (sel w) w)) =
        ∑ k ∈ Finset.range (n + 1), (n.choose k : K) * (1 / A) ^ k * (1 - 1 / A) ^ (n - k) *
          expect (fun _ => fun o => E.prob o.1 * q o.2) (fun w => f k (total k w / k)) := by
  have hA' : (A : K) ≠ 0 := by exact_mod_cast hA.ne'
  have hlp : ∀ w : Fin n → X × Fin A × D, (List.ofFn fun i => E.logged (w i).1 (w i).2.1).foldlM (replayRound π.object)
      { policy := (m, List.ofFn fun i => (w i).2.2) } = .ok ⟨(replayMemory π E m (List.ofFn w), []),
        List.ofFn fun i => [((replaySel π E m w i).val : ℤ)]⟩ := by
    intro w
    have hloop := replayLoop_draw hk E (List.ofFn w) m []
    rw [List.map_ofFn, List.map_ofFn, replaySel_ofFn, List.map_ofFn] at hloop
    exact hloop
  refine ⟨fun w => replaySel π E m w, fun k w => onlineTotal π E m (List.ofFn w), fun w => ⟨_, hlp w, rfl⟩, ?_, ?_, ?_⟩
  · intro w hl
    have hn : 0 < n := by obtain ⟨i, -⟩ := hl; exact i.pos
    have hp : ∀ i, 0 < (E.replayLog d w).pscore i := fun i => by
      show (0 : K) < 1 / A
      positivity
    have hround : (E.replayLog d w).round = fun i => E.logged (w i).1 (w i).2.1 := by
      funext i
      have : List.ofFn (fun j : Fin d => (E.context (w i).1).getD j 0) = E.context (w i).1 := by
        apply List.ext_getElem
        · simp [hd]
        · intro j h1 h2
          simp [List.getD_eq_getElem?_getD, List.getElem?_eq_getElem h2]
      simp only [ReplayLog.round, RoundLaw.replayLog, RoundLaw.logged, ReplayLog.pos, this]
      rfl
    obtain ⟨v, hv1, hv2⟩ := replayDist_single (K := K) (A := A)
      (List.ofFn fun i => [((replaySel π E m w i).val : ℤ)]) n (by simp) hn (replaySel π E m w) (by simp)
    refine ⟨v, (replayMemory π E m (List.ofFn w), []), ?_, hv2, ?_⟩
    · unfold runReplay
      rw [ReplayLog.rounds _ hn hp, py_bind_ok, raiseIf_neg (by decide), py_bind_ok, hround]
      refine (congrArg (fun r => r >>= _) (hlp w)).trans ?_
      rw [py_bind_ok]
      dsimp only
      rw [replayActions_eq E w hl, hv1]
      rfl
    · intro lam est
      have hvalid : (E.evalLog w v).Valid := by
        refine ⟨hn, fun i => hp i, fun i => one_pos, fun i => zero_le_one, fun i l => ?_⟩
        have : ∑ a, (E.evalLog w v).piE i a l = 1 := by
          show ∑ a, v i a l = 1
          simp [hv2]
        rw [this]
        exact closeToOne_one
      have hf : (Finset.univ.filter (E.evalLog w v).matched) = replayMatches (replaySel π E m w) w := by
        refine Finset.filter_congr fun i _ => ?_
        show v i (w i).2.1 0 = 1 ↔ _
        rw [hv2]
        split <;> simp_all
      by_cases hm : ∃ i, (E.evalLog w v).matched i
      · rw [C19_rm_matched_mean hvalid lam est hm, hf]
        rfl
      · rw [C19_rm_no_match hvalid lam est (by simpa using hm)]
        have h0 : replayMatches (replaySel π E m w) w = ∅ := by
          rw [← hf, Finset.filter_eq_empty_iff]
          exact fun i _ hi => hm ⟨i, hi⟩
        simp only [RoundLaw.matchedMean]
        rw [h0]
        simp
  · intro k w
    obtain ⟨s, h1, -, h2⟩ := simRun_draw hk E (List.ofFn w) m (simInit (m, (List.ofFn w).map fun o => o.2)) rfl
    rw [List.map_ofFn, List.map_ofFn] at h1
    exact ⟨s, h1, by rw [h2]; simp [simInit]⟩
  · intro f
    have h := replay_mixture π.counting E hE q hq hA' (m, 0, 0) n fun s => f s.2.1 (s.2.2 / (s.2.1 : K))
    simp only [replayMemory_counting, onlineMemory_counting, zero_add, List.length_ofFn, replayScore_sel] at h
    exact h

/-- Given that `k` rounds match, the replay estimate has the expectation of the average reward of `k` rounds played online. -/
theorem C184_conditional_unbiased_partial {π : DrawPolicy K M D A} (hk : π.kind ≠ .offline) (E : RoundLaw K X A) {d : ℕ}
    (hd : ∀ x, (E.context x).length = d) (hE : ∑ x, E.prob x = 1) (q : D → K) (hq : ∑ d, q d = 1) (hA : 0 < A) (m : M)
    (n k : ℕ) (hkn : k ≤ n) :
    ∃ (sel : (Fin n → X × Fin A × D) → Fin n → Fin A) (total : (Fin k → X × D) → K),
      (∀ w, ∃ s, (List.ofFn fun i => E.logged (w i).1 (w i).2.1).foldlM (replayRound π.object)
        { policy := (m, List.ofFn fun i => (w i).2.2) } = .ok s ∧ s.selected = List.ofFn fun i => [((sel w i).val : ℤ)]) ∧
      (∀ w, (∃ i, (w i).2.1.val + 1 = A) → ∃ v p,
        runReplay .function π.object (m, List.ofFn fun i => (w i).2.2) (E.replayLog d w).args = .ok (⟨n, A, 1, v⟩, p) ∧
        (∀ i a l, v i a l = if a = sel w i then 1 else 0) ∧
        ∀ lam est, (Estimator.mk .rm lam est).estimatePolicyValue (E.evalLog w v).args = .ok (E.matchedMean (sel w) w)) ∧
      (∀ w, ∃ s, simRun π.object (m, List.ofFn fun i => (w i).2) (simSteps (List.ofFn fun i : Fin k => E.online (w i).1)) =
        .ok s ∧ s.total = total w) ∧
      expect (fun _ => fun o => E.prob o.1 * (1 / A) * q o.2.2)
          (fun w => if (replayMatches (sel w) w).card = k then E.matchedMean (sel w) w else 0) =
        expect (fun _ => fun o => E.prob o.1 * (1 / A) * q o.2.2)
          (fun w => if (replayMatches (sel w) w).card = k then 1 else 0) *
        expect (fun _ => fun o => E.prob o.1 * q o.2) (fun w => total w / k) := by
  obtain ⟨sel, total, h0, h1, h2, h3⟩ := C184_replay_estimate_partial hk E hd hE q hq hA m n
  refine ⟨sel, total k, h0, h1, h2 k, ?_⟩
  have ha := h3 fun j e => if j = k then e else 0
  have hb := h3 fun j e => if j = k then 1 else 0
  have hs : ∑ o : X × D, E.prob o.1 * q o.2 = 1 := by
    rw [Fintype.sum_prod_type]
    simp only [← Finset.mul_sum, hq, mul_one, hE]
  have hsum : ∀ g : ℕ → K → K, (∀ j ≠ k, ∀ e, g j e = 0) →
      (∑ j ∈ Finset.range (n + 1), (n.choose j : K) * (1 / A) ^ j * (1 - 1 / A) ^ (n - j) *
        expect (fun _ => fun o => E.prob o.1 * q o.2) (fun w => g j (total j w / j))) =
      (n.choose k : K) * (1 / A) ^ k * (1 - 1 / A) ^ (n - k) *
        expect (fun _ => fun o => E.prob o.1 * q o.2) (fun w => g k (total k w / k)) := by
    intro g hg
    refine Finset.sum_eq_single_of_mem k (by simp; omega) fun j _ hj => ?_
    simp [hg j hj, expect]
  have ha' := ha.trans (hsum (fun j e => if j = k then e else 0) fun j hj e => if_neg hj)
  have hb' := hb.trans (hsum (fun j e => if j = k then 1 else 0) fun j hj e => if_neg hj)
  rw [ha', hb']
  simp only [if_true]
  have h1' : expect (fun _ : Fin k => fun o : X × D => E.prob o.1 * q o.2) (fun _ => (1 : K)) = 1 := by
    unfold expect
    simp only [mul_one]
    exact sum_jointProb fun _ => hs
  rw [h1']
  ring

/-! ### An example -/

/-- `exReplayPolicy` replayed over three rounds of `exReplayLaw`: given two matches, the estimate has the expectation of the
average reward of two rounds online. -/
example : ∃ (sel : (Fin 3 → Bool × Fin 2 × Bool) → Fin 3 → Fin 2) (total : (Fin 2 → Bool × Bool) → ℚ),
    (∀ w, ∃ s, (List.ofFn fun i => exReplayLaw.logged (w i).1 (w i).2.1).foldlM
      (replayRound exReplayPolicy.object) { policy := ((0, 0), List.ofFn fun i => (w i).2.2) } = .ok s ∧
      s.selected = List.ofFn fun i => [((sel w i).val : ℤ)]) ∧
    (∀ w, (∃ i, (w i).2.1.val + 1 = 2) → ∃ v p,
      runReplay .function exReplayPolicy.object ((0, 0), List.ofFn fun i => (w i).2.2) (exReplayLaw.replayLog 1 w).args =
        .ok (⟨3, 2, 1, v⟩, p) ∧
      (∀ i a l, v i a l = if a = sel w i then 1 else 0) ∧
      ∀ lam est, (Estimator.mk .rm lam est).estimatePolicyValue (exReplayLaw.evalLog w v).args =
        .ok (exReplayLaw.matchedMean (sel w) w)) ∧
    (∀ w, ∃ s, simRun exReplayPolicy.object ((0, 0), List.ofFn fun i => (w i).2)
      (simSteps (List.ofFn fun i : Fin 2 => exReplayLaw.online (w i).1)) = .ok s ∧ s.total = total w) ∧
    expect (fun _ => fun o => exReplayLaw.prob o.1 * (1 / (2 : ℕ)) * (1 / 2))
        (fun w => if (replayMatches (sel w) w).card = 2 then exReplayLaw.matchedMean (sel w) w else 0) =
      expect (fun _ => fun o => exReplayLaw.prob o.1 * (1 / (2 : ℕ)) * (1 / 2))
        (fun w => if (replayMatches (sel w) w).card = 2 then 1 else 0) *
      expect (fun _ => fun o => exReplayLaw.prob o.1 * (1 / 2)) (fun w => total w / (2 : ℕ)) :=
  C184_conditional_unbiased_partial (π := exReplayPolicy) (by decide) exReplayLaw (fun x => rfl) (by decide +kernel)
    (fun _ => 1 / 2) (by decide +kernel) (by decide) (0, 0) 3 2 (by decide)

end Obp
