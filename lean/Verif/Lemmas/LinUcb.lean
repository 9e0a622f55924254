import Verif.Spec.LinearWorld
import Verif.Lemmas.Elliptic
import Verif.Lemmas.BanditPlay

set_option linter.unusedSectionVars false

/-! # The actions `LinUCB` takes in `BanditPolicySimulator`, as a recursion, and the sum of its bonuses -/

namespace Obp
open Matrix

variable {n d : ℕ} {R : Type}

/-- the upper confidence bound of an action, given its data -/
noncomputable def ucbScore (ε : ℝ) (D : List ((Fin d → ℝ) × ℝ)) (x : Fin d → ℝ) : ℝ :=
  x ⬝ᵥ ((gram D)⁻¹ *ᵥ moment D) + ε * √(quad D x)

/-- the action played for context `x` after the observations `h` -/
noncomputable def ucbPick (hn : 0 < n) (argsort : List ℝ → List ℕ) (L : ℕ) (ε : ℝ)
    (h : List (ℤ × (Fin d → ℝ) × ℝ)) (x : Fin d → ℝ) : Fin n :=
  frontAction hn (topRanking argsort (List.ofFn fun a : Fin n => ucbScore ε (dataOf h a) x) L)

/-- the observations after `T` rounds -/
noncomputable def ucbHist (hn : 0 < n) (argsort : List ℝ → List ℕ) (L b : ℕ) (ε : ℝ) (x : ℕ → Fin d → ℝ)
    (r : ℕ → Fin n → ℝ) : ℕ → List (ℤ × (Fin d → ℝ) × ℝ)
  | 0 => []
  | T + 1 =>
    let h := ucbHist hn argsort L b ε x r T
    let a := ucbPick hn argsort L ε (completed b h) (x T)
    h ++ [((a.val : ℤ), x T, r T a)]

/-- the action of round `t` -/
noncomputable def ucbAction (hn : 0 < n) (argsort : List ℝ → List ℕ) (L b : ℕ) (ε : ℝ) (x : ℕ → Fin d → ℝ)
    (r : ℕ → Fin n → ℝ) (t : ℕ) : Fin n :=
  ucbPick hn argsort L ε (completed b (ucbHist hn argsort L b ε x r t)) (x t)

theorem contextRows_vec (y : Fin d → ℝ) :
    contextRows d (⟨1, (List.ofFn y).length, fun _ j => (List.ofFn y).get j⟩ : Arr2 ℝ) = some [y] := by
  unfold contextRows
  rw [dif_pos (by simp)]
  simp

/-- The front action of a top ranking has the largest score. -/
theorem front_best (hn : 0 < n) {argsort : List ℝ → List ℕ} (ha : IsArgsort argsort) {L : ℕ} (hL0 : 0 < L) (hL : L ≤ n)
    (score : Fin n → ℝ) (a : Fin n) :
    score a ≤ score (frontAction hn (topRanking argsort (List.ofFn score) L)) := by
  have htop := topRanking_isTop ha score hL
  obtain ⟨rest, hrest⟩ := frontAction_spec hn hL0 htop.toIsRanking
  set f := frontAction hn (topRanking argsort (List.ofFn score) L) with hf
  by_cases hm : a.val ∈ topRanking argsort (List.ofFn score) L
  · rw [hrest] at hm
    rcases List.mem_cons.1 hm with h | h
    · exact (congrArg score (Fin.ext h)).le
    · have hd := htop.descending
      rw [hrest] at hd
      exact (List.pairwise_cons.1 hd).1 a.val h f.isLt a.isLt
  · exact htop.best f.val (by rw [hrest]; simp) f.isLt a hm

section
variable {cfg : CfConfig} (hn : 0 < cfg.nActions) (hL0 : 0 < cfg.lenList) (hL : cfg.lenList ≤ cfg.nActions)
  {argsort : List ℝ → List ℕ} (ha : IsArgsort argsort) (ops : GaussRng R) (ε : ℝ) (x : ℕ → Fin d → ℝ)
  (r : ℕ → Fin cfg.nActions → ℝ)

include hL0 hL ha in
/-- The simulator after `T` rounds. -/
theorem simRun_ucb (T : ℕ) :
    ∃ s, simRun (linPolicy ops argsort cfg (.ucb ε)) (LinState.init ops.toRng cfg.nActions d)
        (simSteps (linRounds x r T)) = .ok s ∧
      LinInv cfg.batchSize (ucbHist hn argsort cfg.lenList cfg.batchSize ε x r T) s.policy ∧
      s.selected = (List.range T).map (fun t => ((ucbAction hn argsort cfg.lenList cfg.batchSize ε x r t).val : ℤ)) ∧
      s.total = ∑ t ∈ Finset.range T, r t (ucbAction hn argsort cfg.lenList cfg.batchSize ε x r t) := by
  induction T with
  | zero =>
    exact ⟨simInit (LinState.init ops.toRng cfg.nActions d), rfl, linInv_init ops.toRng _ _ _, rfl, by simp [simInit]⟩
  | succ T ih =>
    obtain ⟨s, h1, hi, h3, h4⟩ := ih
    set act := ucbAction hn argsort cfg.lenList cfg.batchSize ε x r T with hact
    set h := ucbHist hn argsort cfg.lenList cfg.batchSize ε x r T with hh
    have hscore : ∀ a, x T ⬝ᵥ s.policy.theta a + ε * s.policy.bonus (x T) a =
        ucbScore ε (dataOf (completed cfg.batchSize h) a) (x T) := by
      intro a
      unfold ucbScore LinState.theta LinState.bonus quad
      rw [eq_gram_inv (hi.inv a), hi.b a]
    have hrank := topRanking_isTop ha (fun a : Fin cfg.nActions => ucbScore ε (dataOf (completed cfg.batchSize h) a) (x T)) hL
    obtain ⟨rest, hrest⟩ := frontAction_spec hn hL0 hrank.toIsRanking
    have hno : ¬ ∃ a, x T ⬝ᵥ (s.policy.aInv a *ᵥ x T) < 0 := fun ⟨a, h⟩ =>
      absurd h (not_lt.2 (inv_quad_nonneg (hi.inv a) (x T)))
    have hsel : (linPolicy ops argsort cfg (.ucb ε)).select s.policy (some (SimContext.vec (List.ofFn (x T))).expand) =
        .ok ((topRanking argsort (List.ofFn fun a : Fin cfg.nActions => ucbScore ε (dataOf (completed cfg.batchSize h) a) (x T))
          cfg.lenList).map fun (a : ℕ) => (a : ℤ), { s.policy with thetaHat := s.policy.theta }) := by
      simp only [linPolicy, SimContext.expand, contextRows_vec, LinClass.select, linUcbSelect]
      have hno' : ¬ ∃ a, x T ⬝ᵥ (LinState.aInv { s.policy with thetaHat := s.policy.theta } a *ᵥ x T) < 0 := hno
      rw [if_neg hno]
      have : (fun a => x T ⬝ᵥ s.policy.theta a +
          ε * LinState.bonus { s.policy with thetaHat := s.policy.theta } (x T) a) =
          fun a : Fin cfg.nActions => ucbScore ε (dataOf (completed cfg.batchSize h) a) (x T) := funext hscore
      simp only [this]
    have hsim : simSelect (linPolicy ops argsort cfg (.ucb ε)) (.vec (List.ofFn (x T))) s.policy =
        .ok ((act.val : ℤ), { s.policy with thetaHat := s.policy.theta }) := by
      have hk : (linPolicy (d := d) ops argsort cfg (.ucb ε)).kind = .contextual := rfl
      simp only [simSelect, hk, hsel]
      rw [hrest]
      rfl
    have hidx : npIndex (List.ofFn (r T)) (act.val : ℤ) = .ok (r T act) := by
      unfold npIndex
      simp [wrapIdx]
    have hi' : LinInv cfg.batchSize h { s.policy with thetaHat := s.policy.theta } :=
      ⟨hi.nTrial, hi.invTemp, hi.bTemp, hi.inv, hi.b⟩
    obtain ⟨hok, hinv⟩ := hi'.update (z := (act.val : ℤ)) (r T act) (x T) (by have := act.isLt; omega)
      (by have := act.isLt; omega)
    have hupd : (linPolicy ops argsort cfg (.ucb ε)).update { s.policy with thetaHat := s.policy.theta }
        (some (SimContext.vec (List.ofFn (x T))).expand) (act.val : ℤ) (r T act) =
        .ok (LinState.updateParams cfg.batchSize { s.policy with thetaHat := s.policy.theta } (act.val : ℤ) (r T act)
          (x T)).2 := by
      simp only [linPolicy, SimContext.expand, contextRows_vec]
      revert hok
      rcases LinState.updateParams cfg.batchSize { s.policy with thetaHat := s.policy.theta } (act.val : ℤ) (r T act)
          (x T) with ⟨o, p⟩
      rintro rfl
      rfl
    have hk : (linPolicy (d := d) ops argsort cfg (.ucb ε)).kind = .contextual := rfl
    have hstep : simStep (linPolicy ops argsort cfg (.ucb ε)) ⟨.vec (List.ofFn (x T)), List.ofFn (r T), none⟩ s =
        .ok { s with
          policy := (LinState.updateParams cfg.batchSize { s.policy with thetaHat := s.policy.theta } (act.val : ℤ)
            (r T act) (x T)).2
          contexts := s.contexts ++ [.vec (List.ofFn (x T))]
          groundTruth := s.groundTruth ++ [List.ofFn (r T)]
          selected := s.selected ++ [(act.val : ℤ)]
          obtained := s.obtained ++ [r T act]
          total := s.total + r T act
          played := s.played + 1 } := by
      simp only [simStep, hsim, bind, Except.bind, simRoundUpdate, simUpdate, hk, hidx, hupd, pure, Except.pure]
    have hlast : simRun (linPolicy ops argsort cfg (.ucb ε)) (LinState.init ops.toRng cfg.nActions d)
        (simSteps (linRounds x r (T + 1))) =
        simStep (linPolicy ops argsort cfg (.ucb ε)) ⟨.vec (List.ofFn (x T)), List.ofFn (r T), none⟩ s := by
      simp only [simRun, simSteps, linRounds, List.range_succ, List.map_append, List.foldlM_append] at h1 ⊢
      rw [h1]
      simp only [bind, Except.bind, List.map_cons, List.map_nil, List.foldlM_cons, List.foldlM_nil, simOp, pure, Except.pure]
      cases simStep (linPolicy ops argsort cfg (.ucb ε)) ⟨.vec (List.ofFn (x T)), List.ofFn (r T), none⟩ s <;> rfl
    rw [hstep] at hlast
    refine ⟨_, hlast, hinv, ?_, ?_⟩
    · simp only [h3, List.range_succ, List.map_append, List.map_cons, List.map_nil]
      rfl
    · simp only [h4, Finset.sum_range_succ]
      rfl

end

end Obp
