import Verif.Spec.Policy
import Verif.Lemmas.Numpy
import Mathlib.Tactic.Ring
import Mathlib.Tactic.Linarith

/-! # Lemmas on rankings and on the context-free policies -/

set_option linter.unusedSectionVars false

namespace Obp

theorem topRanking_isRanking {K : Type} [Field K] [LinearOrder K] {argsort : List K → List ℕ}
    (h : IsArgsort argsort) (scores : List K) {L : ℕ} (hL : L ≤ scores.length) :
    IsRanking scores.length L (topRanking argsort scores L) := by
  obtain ⟨hp, -⟩ := h scores
  have hlen : (argsort scores).length = scores.length := by rw [hp.length_eq, List.length_range]
  refine ⟨?_, ?_, ?_⟩
  · simp [topRanking, hlen, hL]
  · exact (List.nodup_reverse.2 (hp.nodup_iff.2 List.nodup_range)).sublist (List.take_sublist _ _)
  · intro a ha
    have := List.mem_reverse.1 (List.mem_of_mem_take ha)
    exact List.mem_range.1 (hp.mem_iff.1 this)

theorem topRanking_isTop {K : Type} [Field K] [LinearOrder K] {argsort : List K → List ℕ}
    (h : IsArgsort argsort) {n : ℕ} (score : Fin n → K) {L : ℕ} (hL : L ≤ n) :
    IsTopRanking score L (topRanking argsort (List.ofFn score) L) := by
  have hr := topRanking_isRanking h (List.ofFn score) (L := L) (by simpa using hL)
  rw [List.length_ofFn] at hr
  obtain ⟨hp, hs⟩ := h (List.ofFn score)
  have hget : ∀ i (hi : i < n), (List.ofFn score)[i]? = some (score ⟨i, hi⟩) := by
    intro i hi; simp [hi]
  have hrev : (argsort (List.ofFn score)).reverse.Pairwise fun i j =>
      ∀ (hi : i < n) (hj : j < n), score ⟨j, hj⟩ ≤ score ⟨i, hi⟩ := by
    rw [List.pairwise_reverse]
    refine hs.imp ?_
    intro i j hij hi hj
    exact hij _ _ (hget i hj) (hget j hi)
  refine ⟨hr, hrev.sublist (List.take_sublist _ _), ?_⟩
  intro i hi hin a ha
  have hmem : a.val ∈ (argsort (List.ofFn score)).reverse := by
    rw [List.mem_reverse, hp.mem_iff]; simp
  rw [← List.take_append_drop L (argsort (List.ofFn score)).reverse] at hmem hrev
  have hd := (List.mem_append.1 hmem).resolve_left ha
  exact (List.pairwise_append.1 hrev).2.2 i hi a.val hd hin a.isLt

/-! ### `completed` -/

theorem completed_of_dvd {α : Type} {b : ℕ} (h : List α) (hd : h.length % b = 0) :
    completed b h = h := by
  unfold completed
  rw [Nat.mul_div_cancel' (Nat.dvd_of_mod_eq_zero hd), List.take_length]

theorem completed_append_of_not_dvd {α : Type} {b : ℕ} (h : List α) (x : α)
    (hd : (h.length + 1) % b ≠ 0) : completed b (h ++ [x]) = completed b h := by
  unfold completed
  have hdiv : (h.length + 1) / b = h.length / b := by
    rw [Nat.succ_div, if_neg fun hdvd => hd (Nat.mod_eq_zero_of_dvd hdvd), Nat.add_zero]
  rw [List.length_append, List.length_singleton, hdiv, List.take_append_of_le_length (Nat.mul_div_le _ _)]

theorem completed_prefix {α : Type} (b : ℕ) (h : List α) : completed b h <+: h := List.take_prefix _ _

/-! ### counting -/

variable {K : Type} [Field K] [LinearOrder K] {R : Type}

theorem wrapIdx_names {n : ℕ} {z : ℤ} {a : Fin n} (h : wrapIdx n z = some a) : Names z a := by
  unfold wrapIdx at h
  split at h
  · next hc =>
    obtain rfl := Option.some.inj h
    left; simp; omega
  · split at h
    · next hc =>
      obtain rfl := Option.some.inj h
      right; simp; omega
    · cases h

theorem Names.unique {n : ℕ} {z : ℤ} {a b : Fin n} (ha : Names z a) (hb : Names z b) : a = b := by
  have := a.isLt; have := b.isLt
  unfold Names at ha hb
  ext; omega

theorem wrapIdx_isSome {n : ℕ} {z : ℤ} (h1 : -n ≤ z) (h2 : z < n) : ∃ a, wrapIdx n z = some a := by
  unfold wrapIdx
  split
  · exact ⟨_, rfl⟩
  · split
    · exact ⟨_, rfl⟩
    · omega

theorem wrapIdx_none {n : ℕ} {z : ℤ} (h : z < -n ∨ n ≤ z) : wrapIdx n z = none := by
  unfold wrapIdx
  split
  · omega
  · split
    · omega
    · rfl

theorem timesSeen_append {n : ℕ} (h : List (ℤ × K)) (p : ℤ × K) (b : Fin n) :
    timesSeen (h ++ [p]) b = timesSeen h b + if Names p.1 b then 1 else 0 := by
  simp [timesSeen, List.countP_append, List.countP_cons]

theorem rewardsOf_append {n : ℕ} (h : List (ℤ × K)) (p : ℤ × K) (b : Fin n) :
    (rewardsOf (h ++ [p]) b).sum = (rewardsOf h b).sum + if Names p.1 b then p.2 else 0 := by
  by_cases hb : Names p.1 b <;> simp [rewardsOf, hb]

/-- The invariant of the context-free policies. -/
structure CfInv (b : ℕ) {n : ℕ} (h : List (ℤ × K)) (s : CfState R K n) : Prop where
  nTrial : s.nTrial = h.length
  temp : ∀ a, s.actionCountsTemp a = timesSeen h a
  rtemp : ∀ a, s.rewardCountsTemp a = (rewardsOf h a).sum
  counts : ∀ a, s.actionCounts a = timesSeen (completed b h) a
  rewards : ∀ a, s.rewardCounts a = (rewardsOf (completed b h) a).sum

theorem cfInv_init (ops : Rng R K) (b n : ℕ) : CfInv b [] (CfState.init ops n) := by
  constructor <;> intros <;> simp [CfState.init, timesSeen, rewardsOf, completed]

theorem CfInv.update {b n : ℕ} {h : List (ℤ × K)} {s : CfState R K n} (hi : CfInv b h s) {z : ℤ}
    (r : K) (h1 : -n ≤ z) (h2 : z < n) : CfInv b (h ++ [(z, r)]) (s.updateParams b z r).2 := by
  obtain ⟨a, ha⟩ := wrapIdx_isSome h1 h2
  have hn := wrapIdx_names ha
  have htemp : ∀ c, Function.update s.actionCountsTemp a (s.actionCountsTemp a + 1) c =
      timesSeen (h ++ [(z, r)]) c := by
    intro c
    rw [timesSeen_append]
    by_cases hc : c = a
    · subst hc
      rw [Function.update_self, hi.temp, if_pos hn]
    · rw [Function.update_of_ne hc, hi.temp, if_neg fun h' => hc (Names.unique h' hn)]
      rfl
  have hrtemp : ∀ c, Function.update s.rewardCountsTemp a (s.rewardCountsTemp a + r) c =
      (rewardsOf (h ++ [(z, r)]) c).sum := by
    intro c
    rw [rewardsOf_append]
    by_cases hc : c = a
    · subst hc
      rw [Function.update_self, hi.rtemp, if_pos hn]
    · rw [Function.update_of_ne hc, hi.rtemp, if_neg fun h' => hc (Names.unique h' hn), add_zero]
  unfold CfState.updateParams
  simp only [ha]
  split
  · next hd =>
    rw [hi.nTrial] at hd
    have hc : completed b (h ++ [(z, r)]) = h ++ [(z, r)] := completed_of_dvd _ (by simpa using hd)
    refine ⟨by simp [hi.nTrial], htemp, hrtemp, ?_, ?_⟩
    · rw [hc]; exact htemp
    · rw [hc]; exact hrtemp
  · next hd =>
    rw [hi.nTrial] at hd
    refine ⟨by simp [hi.nTrial], htemp, hrtemp, ?_, ?_⟩
    · rw [completed_append_of_not_dvd _ _ hd]; exact hi.counts
    · rw [completed_append_of_not_dvd _ _ hd]; exact hi.rewards

theorem CfInv.congr {b n : ℕ} {h : List (ℤ × K)} {s t : CfState R K n} (hi : CfInv b h s)
    (e1 : t.nTrial = s.nTrial) (e2 : t.actionCounts = s.actionCounts)
    (e3 : t.actionCountsTemp = s.actionCountsTemp) (e4 : t.rewardCounts = s.rewardCounts)
    (e5 : t.rewardCountsTemp = s.rewardCountsTemp) : CfInv b h t :=
  ⟨e1 ▸ hi.nTrial, e3 ▸ hi.temp, e5 ▸ hi.rtemp, e2 ▸ hi.counts, e4 ▸ hi.rewards⟩

theorem select_state (ops : Rng R K) (argsort : List K → List ℕ) (L : ℕ) {n : ℕ} (c : CfClass K n)
    (s : CfState R K n) : ∃ r, (c.select ops argsort L s).2 = { s with rng := r } := by
  cases c with
  | egreedy e =>
    simp only [CfClass.select, egreedySelect]
    split
    · exact ⟨_, rfl⟩
    · exact ⟨_, rfl⟩
  | bts al be =>
    simp only [CfClass.select, btsSelect]
    split
    · exact ⟨_, rfl⟩
    · exact ⟨s.rng, rfl⟩

theorem cfInv_run (ops : Rng R K) (argsort : List K → List ℕ) (cfg : CfConfig)
    (c : CfClass K cfg.nActions) (calls : List (CfCall K))
    (hz : ∀ p ∈ observations calls, -(cfg.nActions : ℤ) ≤ p.1 ∧ p.1 < cfg.nActions) :
    CfInv cfg.batchSize (observations calls) (c.run ops argsort cfg calls) := by
  induction calls using List.reverseRecOn with
  | nil => exact cfInv_init ops _ _
  | append_singleton calls call ih =>
    have hobs : observations (calls ++ [call]) = match call with
      | .update z r => observations calls ++ [(z, r)]
      | .select => observations calls
      | .reset => [] := by
      unfold observations
      rw [List.foldl_append]
      cases call <;> rfl
    have hrun : c.run ops argsort cfg (calls ++ [call]) =
        c.step ops argsort cfg (c.run ops argsort cfg calls) call := by
      simp only [CfClass.run, List.foldl_append, List.foldl_cons, List.foldl_nil]
    rw [hrun, hobs]
    rw [hobs] at hz
    cases call with
    | update z r =>
      have ih := ih fun p hp => hz p (List.mem_append_left _ hp)
      obtain ⟨h1, h2⟩ := hz (z, r) (by simp)
      exact ih.update r h1 h2
    | select =>
      have ih := ih hz
      obtain ⟨r, hr⟩ := select_state ops argsort cfg.lenList c (c.run ops argsort cfg calls)
      show CfInv _ _ (c.select ops argsort cfg.lenList _).2
      rw [hr]
      exact ih.congr rfl rfl rfl rfl rfl
    | reset => exact cfInv_init ops _ _

theorem mkCfConfig_ok {n L b : ℤ} {cfg : CfConfig} (h : mkCfConfig n L b = .ok cfg) :
    2 ≤ cfg.nActions ∧ 1 ≤ cfg.lenList ∧ cfg.lenList ≤ cfg.nActions ∧ 1 ≤ cfg.batchSize := by
  simp only [mkCfConfig, py_bind_eq_ok, exists_unit, raiseIf_ok] at h
  obtain ⟨h1, h2, h3, h4⟩ := h
  obtain rfl := Except.ok.inj h4
  simp only [Bool.or_eq_false_iff, decide_eq_false_iff_not] at h1 h2 h3
  dsimp only
  omega

end Obp
