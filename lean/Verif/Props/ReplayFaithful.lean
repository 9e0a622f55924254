import Verif.Spec.ReplayWorld
import Mathlib.Algebra.BigOperators.Fin
import Mathlib.Algebra.Module.LinearMap.End
import Mathlib.Algebra.Algebra.Basic
import Mathlib.Data.Nat.Choose.Sum
import Mathlib.Tactic.Ring
import Mathlib.Tactic.FieldSimp
import Mathlib.Tactic.NormNum

set_option linter.unusedSectionVars false

/-! # C168: replaying a uniform log is playing online for a random number of rounds -/

namespace Obp

variable {K : Type} [Field K] [LinearOrder K] {X M D : Type} [Fintype X] [Fintype D] {A : ℕ}

/-- the context as the policy gets it -/
def drawContext (k : PolicyKind) (xs : List K) : Option (Arg2 K) :=
  if k = .contextual then some (rowContext xs) else none

/-- the memory after a round in which the policy learns from its own selection -/
def learnRound (π : DrawPolicy K M D A) (E : RoundLaw K X A) (m : M) (x : X) (d : D) : M :=
  let c := drawContext π.kind (E.context x)
  π.upd m c (π.sel m c d) (E.reward x (π.sel m c d))

/-- the memory after rounds of a log -/
def replayMemory (π : DrawPolicy K M D A) (E : RoundLaw K X A) (m : M) : List (X × Fin A × D) → M
  | [] => m
  | (x, a, d) :: w =>
    replayMemory π E (if a = π.sel m (drawContext π.kind (E.context x)) d then learnRound π E m x d else m) w

/-- the memory after rounds online -/
def onlineMemory (π : DrawPolicy K M D A) (E : RoundLaw K X A) (m : M) : List (X × D) → M
  | [] => m
  | (x, d) :: w => onlineMemory π E (learnRound π E m x d) w

/-- the selections during a replay -/
def replaySelected (π : DrawPolicy K M D A) (E : RoundLaw K X A) (m : M) : List (X × Fin A × D) → List (Fin A)
  | [] => []
  | (x, a, d) :: w => π.sel m (drawContext π.kind (E.context x)) d ::
    replaySelected π E (if a = π.sel m (drawContext π.kind (E.context x)) d then learnRound π E m x d else m) w

/-- the total reward during rounds online -/
def onlineTotal (π : DrawPolicy K M D A) (E : RoundLaw K X A) (m : M) : List (X × D) → K
  | [] => 0
  | (x, d) :: w => E.reward x (π.sel m (drawContext π.kind (E.context x)) d) + onlineTotal π E (learnRound π E m x d) w

theorem wrapIdx_fin {n : ℕ} (a : Fin n) : wrapIdx n (a.val : ℤ) = some a := by simp [wrapIdx]

theorem replayRound_draw {π : DrawPolicy K M D A} (hk : π.kind ≠ .offline) (E : RoundLaw K X A) (m : M) (x : X) (a : Fin A)
    (d : D) (ds : List D) (sel : List (List ℤ)) :
    replayRound π.object ⟨(m, d :: ds), sel⟩ (E.logged x a) =
      .ok ⟨((if a = π.sel m (drawContext π.kind (E.context x)) d then learnRound π E m x d else m), ds),
        sel ++ [[((π.sel m (drawContext π.kind (E.context x)) d).val : ℤ)]]⟩ := by
  have hsel : replaySelect π.object (E.context x) (m, d :: ds) =
      .ok ([((π.sel m (drawContext π.kind (E.context x)) d).val : ℤ)], (m, ds)) := by
    rcases hkk : π.kind with _ | _ | _
    · simp [replaySelect, DrawPolicy.object, hkk, drawContext]
    · simp [replaySelect, DrawPolicy.object, hkk, drawContext]
    · exact absurd hkk hk
  have hsel' : replaySelect π.object (E.logged x a).context (m, d :: ds) =
      .ok ([((π.sel m (drawContext π.kind (E.context x)) d).val : ℤ)], (m, ds)) := hsel
  have hidx' : ∀ z : ℤ, npIndex [z] (E.logged x a).position = .ok z := fun z => rfl
  by_cases h : a = π.sel m (drawContext π.kind (E.context x)) d
  · have hupd : replayUpdate π.object (E.context x) (a.val : ℤ) (E.reward x a) (m, ds) = .ok (learnRound π E m x d, ds) := by
      rcases hkk : π.kind with _ | _ | _
      · simp [replayUpdate, DrawPolicy.object, hkk, learnRound, drawContext, wrapIdx_fin, h]
      · simp [replayUpdate, DrawPolicy.object, hkk, learnRound, drawContext, wrapIdx_fin, h]
      · exact absurd hkk hk
    have hupd' : replayUpdate π.object (E.logged x a).context (E.logged x a).action (E.logged x a).reward (m, ds) =
        .ok (learnRound π E m x d, ds) := hupd
    have hm : (E.logged x a).action = ((π.sel m (drawContext π.kind (E.context x)) d).val : ℤ) := by rw [← h]; rfl
    simp only [replayRound, hsel', hidx', bind, Except.bind]
    rw [if_pos hm, hupd', if_pos h]
    rfl
  · have hm : (E.logged x a).action ≠ ((π.sel m (drawContext π.kind (E.context x)) d).val : ℤ) := fun e =>
      h (Fin.ext (Int.ofNat.inj e))
    simp only [replayRound, hsel', hidx', bind, Except.bind]
    rw [if_neg hm, if_neg h]
    rfl

theorem replayLoop_draw {π : DrawPolicy K M D A} (hk : π.kind ≠ .offline) (E : RoundLaw K X A) :
    ∀ (w : List (X × Fin A × D)) (m : M) (sel : List (List ℤ)),
      (w.map fun o => E.logged o.1 o.2.1).foldlM (replayRound π.object) ⟨(m, w.map fun o => o.2.2), sel⟩ =
        .ok ⟨(replayMemory π E m w, []), sel ++ (replaySelected π E m w).map fun a => [(a.val : ℤ)]⟩
  | [], m, sel => by simp [replaySelected, replayMemory, pure, Except.pure]
  | (x, a, d) :: w, m, sel => by
    have h := replayRound_draw hk E m x a d (w.map fun o => o.2.2) sel
    have h' := replayLoop_draw hk E w
      (if a = π.sel m (drawContext π.kind (E.context x)) d then learnRound π E m x d else m)
      (sel ++ [[((π.sel m (drawContext π.kind (E.context x)) d).val : ℤ)]])
    simp only [List.map_cons, List.foldlM_cons, h, bind, Except.bind]
    refine h'.trans ?_
    simp [replaySelected, replayMemory]

theorem simStep_draw {π : DrawPolicy K M D A} (hk : π.kind ≠ .offline) (E : RoundLaw K X A) (x : X) (d : D) (ds : List D)
    (m : M) (s : SimState (M × List D) K) (hs : s.policy = (m, d :: ds)) :
    ∃ s', simStep π.object (E.online x) s = .ok s' ∧ s'.policy = (learnRound π E m x d, ds) ∧
      s'.total = s.total + E.reward x (π.sel m (drawContext π.kind (E.context x)) d) := by
  have hsel : simSelect π.object (.vec (E.context x)) (m, d :: ds) =
      .ok (((π.sel m (drawContext π.kind (E.context x)) d).val : ℤ), (m, ds)) := by
    rcases hkk : π.kind with _ | _ | _
    · simp [simSelect, DrawPolicy.object, hkk, drawContext, bind, Except.bind, pure, Except.pure]
    · simp [simSelect, DrawPolicy.object, hkk, drawContext, bind, Except.bind, pure, Except.pure, SimContext.expand,
        rowContext]
    · exact absurd hkk hk
  set a := π.sel m (drawContext π.kind (E.context x)) d with ha
  have hidx : npIndex (List.ofFn (E.reward x)) (a.val : ℤ) = .ok (E.reward x a) := by
    unfold npIndex
    simp [wrapIdx]
  have hupd : simUpdate π.object (.vec (E.context x)) (a.val : ℤ) (E.reward x a) (m, ds) = .ok (learnRound π E m x d, ds) := by
    rcases hkk : π.kind with _ | _ | _
    · simp [simUpdate, DrawPolicy.object, hkk, learnRound, drawContext, wrapIdx_fin, ha]
    · simp [simUpdate, DrawPolicy.object, hkk, learnRound, drawContext, wrapIdx_fin, ha, SimContext.expand, rowContext]
    · exact absurd hkk hk
  refine ⟨{ s with
    policy := (learnRound π E m x d, ds)
    contexts := s.contexts ++ [.vec (E.context x)]
    groundTruth := s.groundTruth ++ [List.ofFn (E.reward x)]
    selected := s.selected ++ [(a.val : ℤ)]
    obtained := s.obtained ++ [E.reward x a]
    total := s.total + E.reward x a
    played := s.played + 1 }, ?_, rfl, rfl⟩
  simp only [simStep, RoundLaw.online, hs, hsel, bind, Except.bind, hidx, simRoundUpdate, hupd, pure, Except.pure]

theorem simRun_draw {π : DrawPolicy K M D A} (hk : π.kind ≠ .offline) (E : RoundLaw K X A) :
    ∀ (w : List (X × D)) (m : M) (s : SimState (M × List D) K), s.policy = (m, w.map fun o => o.2) →
      ∃ s', (simSteps (w.map fun o => E.online o.1)).foldlM (simOp π.object) s = .ok s' ∧
        s'.policy = (onlineMemory π E m w, []) ∧ s'.total = s.total + onlineTotal π E m w
  | [], m, s, hs => ⟨s, rfl, hs, by simp [onlineTotal]⟩
  | (x, d) :: w, m, s, hs => by
    obtain ⟨s1, h1, h2, ht⟩ := simStep_draw hk E x d (w.map fun o : X × D => o.2) m s hs
    obtain ⟨s2, h3, h4, ht2⟩ := simRun_draw hk E w _ s1 h2
    refine ⟨s2, ?_, h4, by rw [ht2, ht, onlineTotal, add_assoc]⟩
    simp only [List.map_cons, simSteps, List.foldlM_cons, simOp, h1, bind, Except.bind]
    exact h3

/-- the expectation of a quantity after one more round of learning -/
def learnOp (π : DrawPolicy K M D A) (E : RoundLaw K X A) (q : D → K) : Module.End K (M → K) where
  toFun := fun f m => ∑ x, ∑ d, E.prob x * q d * f (learnRound π E m x d)
  map_add' := by
    intro f g
    funext m
    simp only [Pi.add_apply, mul_add, Finset.sum_add_distrib]
  map_smul' := by
    intro c f
    funext m
    simp only [Pi.smul_apply, smul_eq_mul, RingHom.id_apply, Finset.mul_sum]
    exact Finset.sum_congr rfl fun x _ => Finset.sum_congr rfl fun d _ => by ring

theorem expect_succ {O : Type} [Fintype O] (p : O → K) (n : ℕ) (F : List O → K) :
    expect (fun _ : Fin (n + 1) => p) (fun w => F (List.ofFn w)) =
      ∑ o, p o * expect (fun _ : Fin n => p) (fun w => F (o :: List.ofFn w)) := by
  unfold expect jointProb
  rw [← (Fin.consEquiv fun _ : Fin (n + 1) => O).sum_comp, Fintype.sum_prod_type]
  refine Finset.sum_congr rfl fun o _ => ?_
  rw [Finset.mul_sum]
  refine Finset.sum_congr rfl fun w _ => ?_
  simp only [Fin.consEquiv, Equiv.coe_fn_mk, Fin.prod_univ_succ, Fin.cons_zero, Fin.cons_succ, List.ofFn_succ]
  ring

theorem expect_zero_rounds {O : Type} [Fintype O] (p : O → K) (F : List O → K) :
    expect (fun _ : Fin 0 => p) (fun w => F (List.ofFn w)) = F [] := by
  simp [expect, jointProb]

theorem online_expect (π : DrawPolicy K M D A) (E : RoundLaw K X A) (q : D → K) (f : M → K) :
    ∀ (k : ℕ) (m : M), expect (fun _ : Fin k => fun o : X × D => E.prob o.1 * q o.2)
      (fun w => f (onlineMemory π E m (List.ofFn w))) = (learnOp π E q ^ k) f m
  | 0, m => by
    rw [expect_zero_rounds _ (fun l => f (onlineMemory π E m l))]
    simp [onlineMemory]
  | k + 1, m => by
    rw [expect_succ _ k (fun l => f (onlineMemory π E m l)), pow_succ']
    show _ = learnOp π E q ((learnOp π E q ^ k) f) m
    simp only [learnOp, LinearMap.coe_mk, AddHom.coe_mk]
    rw [Fintype.sum_prod_type]
    refine Finset.sum_congr rfl fun x _ => Finset.sum_congr rfl fun d _ => ?_
    rw [← learnOp, ← online_expect π E q f k]
    rfl

theorem replay_expect (π : DrawPolicy K M D A) (E : RoundLaw K X A) (hE : ∑ x, E.prob x = 1) (q : D → K)
    (hq : ∑ d, q d = 1) (hA : (A : K) ≠ 0) (f : M → K) :
    ∀ (n : ℕ) (m : M), expect (fun _ : Fin n => fun o : X × Fin A × D => E.prob o.1 * (1 / A) * q o.2.2)
      (fun w => f (replayMemory π E m (List.ofFn w))) =
        (((1 / A : K) • learnOp π E q + (1 - 1 / A : K) • (1 : Module.End K (M → K))) ^ n) f m
  | 0, m => by
    rw [expect_zero_rounds _ (fun l => f (replayMemory π E m l))]
    simp [replayMemory]
  | n + 1, m => by
    rw [expect_succ _ n (fun l => f (replayMemory π E m l)), pow_succ']
    set R := ((1 / A : K) • learnOp π E q + (1 - 1 / A : K) • (1 : Module.End K (M → K))) with hR
    show _ = R ((R ^ n) f) m
    have ih := replay_expect π E hE q hq hA f n
    simp only [replayMemory, ih]
    rw [← hR]
    set g := (R ^ n) f with hg
    have hval : R g m = (1 / A : K) * (∑ x, ∑ d, E.prob x * q d * g (learnRound π E m x d)) + (1 - 1 / A : K) * g m := by
      rw [hR]; rfl
    rw [hval, Fintype.sum_prod_type]
    have hround : ∀ x, ∑ y : Fin A × D, E.prob x * (1 / A) * q y.2 *
        g (if y.1 = π.sel m (drawContext π.kind (E.context x)) y.2 then learnRound π E m x y.2 else m) =
        ∑ d, E.prob x * q d * ((1 / A) * g (learnRound π E m x d) + (1 - 1 / A) * g m) := by
      intro x
      rw [Fintype.sum_prod_type, Finset.sum_comm]
      refine Finset.sum_congr rfl fun d _ => ?_
      set a := π.sel m (drawContext π.kind (E.context x)) d
      have h1 : ∀ b : Fin A, E.prob x * (1 / A) * q d * g (if b = a then learnRound π E m x d else m) =
          (if b = a then E.prob x * (1 / A) * q d * (g (learnRound π E m x d) - g m) else 0) +
            E.prob x * (1 / A) * q d * g m := by
        intro b
        split <;> ring
      refine (Finset.sum_congr rfl fun b _ => h1 b).trans ?_
      simp only [Finset.sum_add_distrib, Finset.sum_ite_eq', Finset.mem_univ, if_true, Finset.sum_const,
        Finset.card_univ, Fintype.card_fin, nsmul_eq_mul]
      field_simp
      ring
    have htot : ∑ x, ∑ d, E.prob x * q d = 1 := by
      simp only [← Finset.mul_sum, hq, mul_one, hE]
    calc _ = ∑ x, ∑ d, E.prob x * q d * ((1 / A) * g (learnRound π E m x d) + (1 - 1 / A) * g m) :=
          Finset.sum_congr rfl fun x _ => hround x
      _ = (1 / A : K) * (∑ x, ∑ d, E.prob x * q d * g (learnRound π E m x d)) +
          (1 - 1 / A : K) * g m * ∑ x, ∑ d, E.prob x * q d := by
          simp only [Finset.mul_sum, ← Finset.sum_add_distrib]
          exact Finset.sum_congr rfl fun x _ => Finset.sum_congr rfl fun d _ => by ring
      _ = _ := by rw [htot, mul_one]

/-- binomial mixture of rounds played online -/
theorem replay_mixture (π : DrawPolicy K M D A) (E : RoundLaw K X A) (hE : ∑ x, E.prob x = 1) (q : D → K)
    (hq : ∑ d, q d = 1) (hA : (A : K) ≠ 0) (m : M) (n : ℕ) (f : M → K) :
    expect (fun _ => fun o => E.prob o.1 * (1 / A) * q o.2.2)
        (fun w : Fin n → X × Fin A × D => f (replayMemory π E m (List.ofFn w))) =
      ∑ k ∈ Finset.range (n + 1), (n.choose k : K) * (1 / A) ^ k * (1 - 1 / A) ^ (n - k) *
        expect (fun _ => fun o => E.prob o.1 * q o.2) (fun w : Fin k → X × D => f (onlineMemory π E m (List.ofFn w))) := by
  rw [replay_expect π E hE q hq hA f n m]
  simp only [online_expect π E q f]
  set O := learnOp π E q
  have hcomm : Commute ((1 / A : K) • O) ((1 - 1 / A : K) • (1 : Module.End K (M → K))) :=
    ((Commute.one_right O).smul_left _).smul_right _
  rw [hcomm.add_pow]
  rw [LinearMap.sum_apply, Finset.sum_apply]
  refine Finset.sum_congr rfl fun k _ => ?_
  rw [smul_pow, smul_pow, one_pow]
  simp only [Module.End.mul_apply, LinearMap.smul_apply, Module.End.one_apply, Module.End.natCast_apply, map_smul,
    Pi.smul_apply, smul_eq_mul, nsmul_eq_mul]
  have hc : (O ^ k) (((n.choose k : ℕ) : M → K) * f) = (n.choose k : K) • (O ^ k) f := by
    rw [← map_smul]
    congr 1
  rw [hc, Pi.smul_apply, smul_eq_mul]
  ring

/-- **C168.** Replay over a log of `n` rounds whose actions were logged uniformly at random, compared with playing online in the
environment that produced the log, for any policy that selects one action: the loop does not fail, and the expectation of any
quantity of the policy's memory after the replay is its expectation after `k` rounds online, with `k` distributed as the number of
matches, binomial with probability `1 / A`. (The memory may include everything the policy has been given.) Missing: the
function itself does not get to the loop (C77), and the table of selections at the end is not covered. -/
theorem C168_replay_online_partial {π : DrawPolicy K M D A} (hk : π.kind ≠ .offline) (E : RoundLaw K X A)
    (hE : ∑ x, E.prob x = 1) (q : D → K) (hq : ∑ d, q d = 1) (hA : (A : K) ≠ 0) (m : M) (n : ℕ) :
    ∃ (replayed : (Fin n → X × Fin A × D) → M) (played : ∀ k, (Fin k → X × D) → M),
      (∀ w, ∃ s, (List.ofFn fun i => E.logged (w i).1 (w i).2.1).foldlM (replayRound π.object)
        { policy := (m, List.ofFn fun i => (w i).2.2) } = .ok s ∧ s.policy.1 = replayed w) ∧
      (∀ k w, ∃ s, simRun π.object (m, List.ofFn fun i => (w i).2) (simSteps (List.ofFn fun i : Fin k => E.online (w i).1)) =
        .ok s ∧ s.policy.1 = played k w) ∧
      ∀ f : M → K, expect (fun _ => fun o => E.prob o.1 * (1 / A) * q o.2.2) (fun w => f (replayed w)) =
        ∑ k ∈ Finset.range (n + 1), (n.choose k : K) * (1 / A) ^ k * (1 - 1 / A) ^ (n - k) *
          expect (fun _ => fun o => E.prob o.1 * q o.2) (fun w => f (played k w)) := by
  refine ⟨fun w => replayMemory π E m (List.ofFn w), fun k w => onlineMemory π E m (List.ofFn w), ?_, ?_, ?_⟩
  · intro w
    have h := replayLoop_draw hk E (List.ofFn w) m []
    rw [List.map_ofFn, List.map_ofFn] at h
    exact ⟨_, h, rfl⟩
  · intro k w
    obtain ⟨s, h1, h2, -⟩ := simRun_draw hk E (List.ofFn w) m (simInit (m, (List.ofFn w).map fun o => o.2)) rfl
    rw [List.map_ofFn, List.map_ofFn] at h1
    exact ⟨s, h1, by rw [h2]⟩
  · intro f
    exact replay_mixture π E hE q hq hA m n f

/-! ### An example -/

/-- two actions; the second one wins with probability 3/4, and the context tells whether it does -/
def exReplayLaw : RoundLaw ℚ Bool 2 where
  prob := fun x => if x then 3 / 4 else 1 / 4
  context := fun x => [if x then 1 else 0]
  reward := fun x a => if a = 1 then (if x then 1 else 0) else 1 / 2

/-- follows the last win, or else a fair coin; remembers the last action and the total reward -/
def exReplayPolicy : DrawPolicy ℚ (Fin 2 × ℚ) Bool 2 where
  kind := .contextual
  sel := fun m _ d => if d then m.1 else 0
  upd := fun m _ a r => (if 1 ≤ r then a else m.1 + 1, m.2 + r)

/-- The expected total reward of a replay over three rounds is a mixture of the expected total rewards of zero to three rounds
online. -/
example : ∃ (replayed : (Fin 3 → Bool × Fin 2 × Bool) → Fin 2 × ℚ) (played : ∀ k, (Fin k → Bool × Bool) → Fin 2 × ℚ),
    (∀ w, ∃ s, (List.ofFn fun i => exReplayLaw.logged (w i).1 (w i).2.1).foldlM (replayRound exReplayPolicy.object)
      { policy := ((0, 0), List.ofFn fun i => (w i).2.2) } = .ok s ∧ s.policy.1 = replayed w) ∧
    (∀ k w, ∃ s, simRun exReplayPolicy.object ((0, 0), List.ofFn fun i => (w i).2)
      (simSteps (List.ofFn fun i : Fin k => exReplayLaw.online (w i).1)) = .ok s ∧ s.policy.1 = played k w) ∧
    ∀ f : Fin 2 × ℚ → ℚ, expect (fun _ => fun o => exReplayLaw.prob o.1 * (1 / (2 : ℕ)) * (1 / 2)) (fun w => f (replayed w)) =
      ∑ k ∈ Finset.range (3 + 1), (Nat.choose 3 k : ℚ) * (1 / (2 : ℕ)) ^ k * (1 - 1 / (2 : ℕ)) ^ (3 - k) *
        expect (fun _ => fun o => exReplayLaw.prob o.1 * (1 / 2)) (fun w => f (played k w)) :=
  C168_replay_online_partial (π := exReplayPolicy) (by decide) exReplayLaw (by decide +kernel) (fun _ => 1 / 2) (by decide +kernel)
    (by norm_num) (0, 0) 3

end Obp
