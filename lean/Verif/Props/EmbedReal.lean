import Verif.Props.Synthetic
import Mathlib.Data.Rat.Floor

set_option linter.unusedSectionVars false

/-! # Action embeddings and the Open Bandit Dataset -/

namespace Obp

section embed
variable {K : Type} [Field K] [LinearOrder K] [IsStrictOrderedRing K]

/-- **C106.** The `expected_reward` of an action is the expectation, over embeddings drawn independently per dimension
from the action's category distributions, of the mean reward given the embedding. -/
theorem C106_expected_reward {E D : ℕ} (w : Fin D → K) (q : Fin E → Fin D → K) (p : Fin D → Fin E → K)
    (hp : ∀ d, IsDist (p d)) :
    expect p (fun emb => embedFactualReward w q emb) = embedExpectedReward w q (fun e d => p d e) := by
  unfold embedFactualReward embedExpectedReward
  rw [expect_sum]
  refine Finset.sum_congr rfl fun d _ => ?_
  rw [expect_single (fun d => (hp d).sum_one) d (fun e => w d * q e d)]
  unfold expect1
  rw [Finset.sum_mul]
  exact Finset.sum_congr rfl fun e _ => by ring

/-- **C106.** The mean rewards stay in the range of the category rewards, so binary rewards have a valid probability. -/
theorem C106_factual_range {E D : ℕ} {w : Fin D → K} (hw : IsDist w) (q : Fin E → Fin D → K) (lo hi : K)
    (hq : ∀ e d, lo ≤ q e d ∧ q e d ≤ hi) (emb : Fin D → Fin E) :
    lo ≤ embedFactualReward w q emb ∧ embedFactualReward w q emb ≤ hi := by
  unfold embedFactualReward
  constructor
  · calc lo = ∑ d, w d * lo := by rw [← Finset.sum_mul, hw.sum_one, one_mul]
      _ ≤ _ := Finset.sum_le_sum fun d _ => mul_le_mul_of_nonneg_left (hq _ _).1 (hw.nonneg d)
  · calc _ ≤ ∑ d, w d * hi := Finset.sum_le_sum fun d _ => mul_le_mul_of_nonneg_left (hq _ _).2 (hw.nonneg d)
      _ = hi := by rw [← Finset.sum_mul, hw.sum_one, one_mul]

/-- **C106.** If at most `n_irrelevant_cat_dim` dimensions are unobserved, the mean reward depends on the embedding only
through its observed part: there is no direct effect of the action, as the marginalised estimators require. -/
theorem C106_no_direct_effect {E D nIrr nUn : ℕ} (h : nUn ≤ nIrr) (dir : ℕ → K) (q : Fin E → Fin (D + 1) → K)
    (emb emb' : Fin (D + 1) → Fin E) (hobs : observedEmbed nUn emb = observedEmbed nUn emb') :
    embedFactualReward (catDimImportance D nIrr dir) q emb = embedFactualReward (catDimImportance D nIrr dir) q emb' := by
  unfold embedFactualReward
  refine Finset.sum_congr rfl fun d _ => ?_
  unfold catDimImportance
  split
  · simp
  · next hd =>
    have hlt : nUn + 1 ≤ (d : ℕ) := by omega
    have he : emb d = emb' d := by
      have := congrArg (fun l => l[(d : ℕ) - (nUn + 1)]?) hobs
      unfold observedEmbed at this
      simp only [List.getElem?_drop, List.getElem?_ofFn] at this
      have hd' : nUn + 1 + ((d : ℕ) - (nUn + 1)) = d := by omega
      rw [hd'] at this
      simp only [d.isLt, dif_pos, Option.some.injEq] at this
      exact Fin.ext this
    rw [he]

/-- **C106, limit.** With more unobserved than irrelevant dimensions two embeddings with the same observed part can have
different mean rewards. -/
theorem C106_direct_effect :
    observedEmbed 1 (![0, 0, 0] : Fin 3 → Fin 2) = observedEmbed 1 (![0, 1, 0] : Fin 3 → Fin 2) ∧
      embedFactualReward (catDimImportance 2 0 fun _ => (1 / 2 : ℚ)) (fun e _ => (e : ℚ)) (![0, 0, 0] : Fin 3 → Fin 2) ≠
      embedFactualReward (catDimImportance 2 0 fun _ => (1 / 2 : ℚ)) (fun e _ => (e : ℚ)) (![0, 1, 0] : Fin 3 → Fin 2) := by
  decide +kernel

example : observedEmbed 0 (![1, 0, 1] : Fin 3 → Fin 2) = observedEmbed 0 (![0, 0, 1] : Fin 3 → Fin 2) ∧
    (![1, 0, 1] : Fin 3 → Fin 2) ≠ ![0, 0, 1] := by decide +kernel

/-- **C106.** For all category distributions, logged actions and draws, the embedding of a round is the category whose
probability interval for the logged action contains the round's draw. -/
theorem C106_embedding_sampled {n A E : ℕ} (pEA : Fin A → Fin E → K) (hp : ∀ a, IsDist (pEA a)) (act : Fin n → Fin A)
    (u : Fin n → K) (hu : ∀ i, 0 ≤ u i ∧ u i < 1) :
    ∃ emb : Fin n → Fin E,
      sampleEmbed (List.ofFn fun a => List.ofFn (pEA a)) (List.ofFn fun i => (act i : ℕ)) (List.ofFn u) =
        .ok (List.ofFn fun i => (emb i : ℕ)) ∧
      ∀ i, 0 < pEA (act i) (emb i) ∧ (∑ b with b < emb i, pEA (act i) b) ≤ u i ∧
        u i < (∑ b with b < emb i, pEA (act i) b) + pEA (act i) (emb i) := by
  obtain ⟨emb, hemb, hprop⟩ := C01_sample_action_fast (p := fun i => pEA (act i)) (fun i => hp (act i)) hu
  refine ⟨emb, ?_, hprop⟩
  unfold sampleEmbed
  have : takeAt (List.ofFn fun a => List.ofFn (pEA a)) (List.ofFn fun i => (act i : ℕ)) =
      .ok (List.ofFn fun i => List.ofFn (pEA (act i))) := by
    unfold takeAt
    refine mapM_ofFn_ok fun i => ?_
    rw [List.getElem?_ofFn, dif_pos (act i).isLt]
  rw [this, py_bind_ok, hemb]

/-- **C106, failure.** The actions are drawn from a generator with seed `random_state` and dimension `d` of the
embeddings from one with seed `d`. If the two are equal the draws are the same, so for an action-independent category
distribution equal to the behaviour policy the embedding always equals the action, although the two should be
independent. -/
theorem C106_shared_seed {n A : ℕ} (p : Fin A → K) (hp : IsDist p) (u : Fin n → K) (hu : ∀ i, 0 ≤ u i ∧ u i < 1) :
    ∃ act : Fin n → Fin A,
      sampleActionFast (List.ofFn fun _ : Fin n => List.ofFn p) (List.ofFn u) = .ok (List.ofFn fun i => (act i : ℕ)) ∧
      sampleEmbed (List.ofFn fun _ : Fin A => List.ofFn p) (List.ofFn fun i => (act i : ℕ)) (List.ofFn u) =
        .ok (List.ofFn fun i => (act i : ℕ)) := by
  obtain ⟨act, hact, -⟩ := C01_sample_action_fast (p := fun _ : Fin n => p) (fun _ => hp) hu
  refine ⟨act, hact, ?_⟩
  unfold sampleEmbed
  have : takeAt (List.ofFn fun _ : Fin A => List.ofFn p) (List.ofFn fun i => (act i : ℕ)) =
      .ok (List.ofFn fun _ : Fin n => List.ofFn p) := by
    unfold takeAt
    refine mapM_ofFn_ok fun i => ?_
    rw [List.getElem?_ofFn, dif_pos (act i).isLt]
  rw [this, py_bind_ok, hact]

end embed

section real
variable {K C : Type} [Field K] [LinearOrder K] [IsStrictOrderedRing K] [FloorRing K]

/-- All columns of a log have the same length. -/
structure ObdLog.Rect (log : ObdLog K C) (n : ℕ) : Prop where
  action : log.action.length = n
  position : log.position.length = n
  reward : log.reward.length = n
  pscore : log.pscore.length = n
  context : log.context.length = n

theorem checkTestSize_ok {t : K} (h0 : 0 ≤ t) (h1 : t ≤ 1) : checkTestSize (.flt t) = .ok t := by
  unfold checkTestSize
  dsimp only
  rw [raiseIf_neg (by simpa using h0), py_bind_ok, raiseIf_neg (by simpa using h1), py_bind_ok, py_pure]

theorem checkTestSize_bad {t : K} (h : t < 0 ∨ 1 < t) : checkTestSize (.flt t) = .error .valueError := by
  unfold checkTestSize
  dsimp only
  by_cases h0 : t < 0
  · rw [raiseIf_pos (by simpa using h0)]
    rfl
  · rw [raiseIf_neg (by simpa using h0), py_bind_ok, raiseIf_pos (by simpa [h0] using h)]
    rfl

theorem checkIntBetween_int_bad {lo hi z : ℤ} (h : z < lo ∨ hi < z) :
    checkIntBetween (K := K) lo hi (.int z) = .error .valueError := by
  unfold checkIntBetween checkIntBetween.bound
  dsimp only
  by_cases h0 : z < lo
  · rw [raiseIf_pos (decide_eq_true h0)]
    rfl
  · rw [raiseIf_neg (decide_eq_false h0), py_bind_ok, raiseIf_pos (decide_eq_true (h.resolve_left h0))]
    rfl

theorem obdActions_ok {log : ObdLog K C} (h : log.action ≠ []) :
    ∃ m, obdActions log = .ok (m + 1) ∧ m ∈ log.action ∧ ∀ a ∈ log.action, a ≤ m := by
  obtain ⟨m, hm, h1, h2⟩ := npMax_of_ne h
  refine ⟨m, by unfold obdActions; rw [hm, py_bind_ok, py_pure], ?_, (h2 m).1 le_rfl⟩
  by_contra hmem
  refine lt_irrefl m ((h1 m).2 fun x hx => lt_of_le_of_ne ((h2 m).1 le_rfl x hx) ?_)
  rintro rfl
  exact hmem hx

/-- **C89.** For every non-empty log and every `test_size` in [0, 1]: in every column train followed by test is the log,
in order; the training part has `k = ⌊n (1 - test_size)⌋` rounds and the test part the rest, as `n_rounds` says in both;
both report the number of actions of the whole log. -/
theorem C89_split (log : ObdLog K C) {n : ℕ} (hr : log.Rect n) (hn : 0 < n) (t : K) (h0 : 0 ≤ t) (h1 : t ≤ 1) :
    ∃ (tr te : ObdFeedback K C) (k m : ℕ), obdSplit log (.flt t) = .ok (tr, te) ∧
      (k : K) ≤ n * (1 - t) ∧ (n : K) * (1 - t) < k + 1 ∧ k ≤ n ∧
      tr.nRounds = k ∧ te.nRounds = n - k ∧ tr.cols.Rect k ∧ te.cols.Rect (n - k) ∧
      tr.cols.action ++ te.cols.action = log.action ∧ tr.cols.position ++ te.cols.position = log.position ∧
      tr.cols.reward ++ te.cols.reward = log.reward ∧ tr.cols.pscore ++ te.cols.pscore = log.pscore ∧
      tr.cols.context ++ te.cols.context = log.context ∧
      tr.nActions = m + 1 ∧ te.nActions = m + 1 ∧ m ∈ log.action ∧ ∀ a ∈ log.action, a ≤ m := by
  obtain ⟨m, hm, hm1, hm2⟩ := obdActions_ok (log := log) (by
    intro h
    have := hr.action
    rw [h] at this
    simp at this
    omega)
  have hx : (0 : K) ≤ (n : K) * (1 - t) := mul_nonneg (Nat.cast_nonneg n) (by linarith)
  have hf0 : 0 ≤ ⌊(n : K) * (1 - t)⌋ := Int.floor_nonneg.2 hx
  have hcast : ((⌊(n : K) * (1 - t)⌋.toNat : ℕ) : K) = ((⌊(n : K) * (1 - t)⌋ : ℤ) : K) := by
    have : ((⌊(n : K) * (1 - t)⌋.toNat : ℕ) : ℤ) = ⌊(n : K) * (1 - t)⌋ := Int.toNat_of_nonneg hf0
    exact_mod_cast congrArg (fun z : ℤ => (z : K)) this
  have hle : ⌊(n : K) * (1 - t)⌋.toNat ≤ n := by
    have : ((⌊(n : K) * (1 - t)⌋.toNat : ℕ) : K) ≤ n := by
      rw [hcast]
      refine (Int.floor_le _).trans ?_
      exact mul_le_of_le_one_right (Nat.cast_nonneg n) (by linarith)
    exact_mod_cast this
  refine ⟨⟨⌊(n : K) * (1 - t)⌋.toNat, m + 1, log.rows (List.take ⌊(n : K) * (1 - t)⌋.toNat)⟩,
    ⟨n - ⌊(n : K) * (1 - t)⌋.toNat, m + 1, log.rows (List.drop ⌊(n : K) * (1 - t)⌋.toNat)⟩,
    ⌊(n : K) * (1 - t)⌋.toNat, m, ?_, ?_, ?_, hle, rfl, ?_, ?_, ?_, ?_, ?_, ?_, ?_, ?_, rfl, rfl, hm1, hm2⟩
  · unfold obdSplit
    rw [checkTestSize_ok h0 h1, py_bind_ok]
    dsimp only
    rw [hm, py_bind_ok, py_pure, hr.action]
  · rw [hcast]
    exact Int.floor_le _
  · rw [hcast]
    exact Int.lt_floor_add_one _
  · rfl
  · constructor <;> simp only [ObdLog.rows, List.length_take, hr.action, hr.position, hr.reward, hr.pscore, hr.context] <;>
      omega
  · constructor <;> simp only [ObdLog.rows, List.length_drop, hr.action, hr.position, hr.reward, hr.pscore, hr.context]
  all_goals exact List.take_append_drop _ _

/-- **C89.** A `test_size` outside [0, 1] is refused with ValueError and one that is no float (an int, say) with
TypeError. -/
theorem C89_test_size_refused (log : ObdLog K C) :
    (∀ t : K, t < 0 ∨ 1 < t → obdSplit log (.flt t) = .error .valueError) ∧
    (∀ z : ℤ, obdSplit log (.int z) = .error .typeError) ∧ obdSplit log .other = .error .typeError := by
  refine ⟨fun t ht => ?_, fun z => rfl, rfl⟩
  unfold obdSplit
  rw [checkTestSize_bad ht]
  rfl

/-- **C89.** The on-policy value estimate with a split is the mean of the rewards that follow the training part;
without a split it is the mean of all rewards. -/
theorem C89_on_policy_value (log : ObdLog K C) {n : ℕ} (hr : log.Rect n) (hn : 0 < n) (t : K) (h0 : 0 < t) (h1 : t ≤ 1) :
    ∃ k : ℕ, k < n ∧ (k : K) ≤ n * (1 - t) ∧ (n : K) * (1 - t) < k + 1 ∧
      obdOnPolicyValue log (.flt t) true = .ok ((log.reward.drop k).sum / ((n - k : ℕ) : K)) ∧
      obdOnPolicyValue log (.flt t) false = .ok (log.reward.sum / n) := by
  obtain ⟨tr, te, k, m, hs, hk1, hk2, hk, -, -, htr, hte, -, -, hrew, -, -, -, -, hm1, -⟩ := C89_split log hr hn t h0.le h1
  have hn' : (0 : K) < n := by exact_mod_cast hn
  have hlt : k < n := by
    have : (k : K) < n := lt_of_le_of_lt hk1 (mul_lt_of_lt_one_right hn' (by linarith))
    exact_mod_cast this
  have hte' : te.cols.reward = log.reward.drop k := by
    rw [← hrew, List.drop_left' htr.reward]
  have hmean : ∀ xs : List K, xs.length ≠ 0 → npMean xs = .ok (xs.sum / (xs.length : K)) := by
    intro xs hx
    unfold npMean
    rw [if_neg]
    intro h
    exact hx (by simp [h])
  refine ⟨k, hlt, hk1, hk2, ?_, ?_⟩
  · unfold obdOnPolicyValue
    rw [if_pos rfl, hs, py_bind_ok, py_pure, py_bind_ok]
    dsimp only
    rw [hmean _ (by rw [hte.reward]; omega), hte.reward, hte']
  · unfold obdOnPolicyValue obdWhole
    obtain ⟨m, hm, -⟩ := obdActions_ok (log := log) (by
      intro h
      have := hr.action
      rw [h] at this
      simp at this
      omega)
    rw [if_neg (by simp), hm, py_bind_ok, py_pure, py_bind_ok]
    dsimp only
    rw [hmean _ (by rw [hr.reward]; omega), hr.reward]

/-- **C89, limit.** With `test_size = 0.0`, which is accepted, the test part is empty and the on-policy value is nan. -/
theorem C89_empty_test (log : ObdLog K C) {n : ℕ} (hr : log.Rect n) (hn : 0 < n) :
    obdOnPolicyValue log (.flt 0) true = .error .nonFinite := by
  obtain ⟨tr, te, k, m, hs, hk1, hk2, hk, -, -, -, hte, -⟩ := C89_split log hr hn 0 le_rfl zero_le_one
  have : k = n := by
    rw [sub_zero, mul_one] at hk2
    have : n < k + 1 := by exact_mod_cast hk2
    omega
  unfold obdOnPolicyValue
  rw [if_pos rfl, hs, py_bind_ok, py_pure, py_bind_ok]
  dsimp only
  have he : te.cols.reward = [] := List.length_eq_zero_iff.1 (by rw [hte.reward]; omega)
  rw [he]
  rfl

example : obdSplit (⟨[0, 1, 2, 1, 0], [0, 1, 2, 0, 1], [0, 1, 0, 0, 1], [1, 1, 1, 1, 1], [7, 8, 9, 10, 11]⟩ : ObdLog ℚ ℕ)
    (.flt (3 / 10)) =
    .ok (⟨3, 3, ⟨[0, 1, 2], [0, 1, 2], [0, 1, 0], [1, 1, 1], [7, 8, 9]⟩⟩,
      ⟨2, 3, ⟨[1, 0], [0, 1], [0, 1], [1, 1], [10, 11]⟩⟩) := by decide +kernel

theorem pickRows_getElem {α : Type} (idx : List ℕ) (xs : List α) (h : ∀ i ∈ idx, i < xs.length) :
    (pickRows idx xs).length = idx.length ∧ ∀ j r : ℕ, idx[j]? = some r → (pickRows idx xs)[j]? = xs[r]? := by
  have hm : pickRows idx xs = idx.pmap (fun i hi => xs[i]'hi) h := by
    unfold pickRows
    induction idx with
    | nil => rfl
    | cons i idx ih =>
        have hi : i < xs.length := h i (by simp)
        rw [List.filterMap_cons, List.getElem?_eq_getElem hi, ih fun j hj => h j (by simp [hj])]
        rfl
  rw [hm]
  refine ⟨List.length_pmap, fun j r hj => ?_⟩
  obtain ⟨hj', rfl⟩ := List.getElem?_eq_some_iff.1 hj
  rw [List.getElem?_eq_getElem (by simpa using hj'), List.getElem_pmap,
    List.getElem?_eq_getElem (h _ (List.getElem_mem _))]

/-- **C107.** A bootstrap sample consists of rounds of the log: for every valid request and every draw of row numbers,
each round of the sample is some round of the log with all its columns together, from the training part when the log
is split by time. -/
theorem C107_bootstrap_rounds (log : ObdLog K C) {n : ℕ} (hr : log.Rect n) (hn : 0 < n) (t : K) (h0 : 0 ≤ t)
    (h1 : t ≤ 1) (timeSplit : Bool) (choice : ℕ → ℕ → List ℕ) (hc : ∀ N s, (choice N s).length = s)
    (hc' : ∀ N s, ∀ i ∈ choice N s, i < N) (size : Option ℕ)
    (hsize : ∀ s, size = some s → (s : K) ≤ if timeSplit then (n : K) * (1 - t) else n) :
    ∃ (fb : ObdFeedback K C) (N : ℕ), obdBootstrap log (.flt t) timeSplit (size.map fun s : ℕ => PyScalar.int (s : ℤ)) choice = .ok fb ∧
      (N : K) ≤ (if timeSplit then (n : K) * (1 - t) else n) ∧ (if timeSplit then (n : K) * (1 - t) else n) < N + 1 ∧
      fb.nRounds = size.getD N ∧ fb.cols.Rect (size.getD N) ∧
      ∀ j < size.getD N, ∃ r < N, fb.cols.action[j]? = log.action[r]? ∧ fb.cols.position[j]? = log.position[r]? ∧
        fb.cols.reward[j]? = log.reward[r]? ∧ fb.cols.pscore[j]? = log.pscore[r]? ∧
        fb.cols.context[j]? = log.context[r]? := by
  -- the rounds to choose from
  obtain ⟨base, N, hbase, hN1, hN2, hNn, hbN, hbr, hcols⟩ : ∃ (base : ObdFeedback K C) (N : ℕ),
      obdBase log (.flt t) timeSplit = .ok base ∧
      (N : K) ≤ (if timeSplit then (n : K) * (1 - t) else n) ∧ (if timeSplit then (n : K) * (1 - t) else n) < N + 1 ∧
      N ≤ n ∧ base.nRounds = N ∧ base.cols.Rect N ∧ ∀ r < N, base.cols.action[r]? = log.action[r]? ∧
        base.cols.position[r]? = log.position[r]? ∧ base.cols.reward[r]? = log.reward[r]? ∧
        base.cols.pscore[r]? = log.pscore[r]? ∧ base.cols.context[r]? = log.context[r]? := by
    cases timeSplit with
    | true =>
        obtain ⟨tr, te, k, m, hs, hk1, hk2, hk, hn1, -, htr, -, e1, e2, e3, e4, e5, -⟩ := C89_split log hr hn t h0 h1
        refine ⟨tr, k, by unfold obdBase; rw [hs, py_bind_ok, py_pure], by simpa using hk1, by simpa using hk2, hk, hn1, htr,
          fun r hrk => ?_⟩
        rw [← e1, ← e2, ← e3, ← e4, ← e5]
        refine ⟨?_, ?_, ?_, ?_, ?_⟩
        · rw [List.getElem?_append_left (by rw [htr.action]; exact hrk)]
        · rw [List.getElem?_append_left (by rw [htr.position]; exact hrk)]
        · rw [List.getElem?_append_left (by rw [htr.reward]; exact hrk)]
        · rw [List.getElem?_append_left (by rw [htr.pscore]; exact hrk)]
        · rw [List.getElem?_append_left (by rw [htr.context]; exact hrk)]
    | false =>
        obtain ⟨m, hm, -⟩ := obdActions_ok (log := log) (by
          intro h
          have := hr.action
          rw [h] at this
          simp at this
          omega)
        refine ⟨⟨n, m + 1, log⟩, n, ?_, by simp, by simp, le_rfl, rfl, hr, fun r _ => ⟨rfl, rfl, rfl, rfl, rfl⟩⟩
        unfold obdBase obdWhole
        rw [hm, py_bind_ok, py_pure, hr.action]
  have hsz : ∀ s, size = some s → s ≤ N := fun s hs => by
    have : (s : K) < N + 1 := lt_of_le_of_lt (hsize s hs) hN2
    have : s < N + 1 := by exact_mod_cast this
    omega
  refine ⟨⟨size.getD N, base.nActions, base.cols.rows (pickRows (choice N (size.getD N)))⟩, N, ?_, hN1, hN2, rfl, ?_, ?_⟩
  · unfold obdBootstrap
    rw [hbase, py_bind_ok]
    have hb : bootstrapSize N (size.map fun s : ℕ => (PyScalar.int (s : ℤ) : PyScalar K)) = .ok (size.getD N) := by
      cases size with
      | none => rfl
      | some s =>
          unfold bootstrapSize
          dsimp only [Option.map_some]
          rw [checkIntBetween_int (by omega) (by have := hsz s rfl; omega), py_bind_ok, py_pure, Int.toNat_natCast]
          rfl
    rw [hbN, hb, py_bind_ok, py_pure]
  · have hlt := hc' N (size.getD N)
    refine ⟨?_, ?_, ?_, ?_, ?_⟩
    · simp only [ObdLog.rows]; rw [(pickRows_getElem _ _ (by rw [hbr.action]; exact hlt)).1, hc]
    · simp only [ObdLog.rows]; rw [(pickRows_getElem _ _ (by rw [hbr.position]; exact hlt)).1, hc]
    · simp only [ObdLog.rows]; rw [(pickRows_getElem _ _ (by rw [hbr.reward]; exact hlt)).1, hc]
    · simp only [ObdLog.rows]; rw [(pickRows_getElem _ _ (by rw [hbr.pscore]; exact hlt)).1, hc]
    · simp only [ObdLog.rows]; rw [(pickRows_getElem _ _ (by rw [hbr.context]; exact hlt)).1, hc]
  · intro j hj
    have hlt := hc' N (size.getD N)
    have hjl : j < (choice N (size.getD N)).length := by rw [hc]; exact hj
    refine ⟨(choice N (size.getD N))[j], hlt _ (List.getElem_mem _), ?_⟩
    have hje := List.getElem?_eq_getElem hjl
    obtain ⟨c1, c2, c3, c4, c5⟩ := hcols _ (hlt _ (List.getElem_mem hjl))
    refine ⟨?_, ?_, ?_, ?_, ?_⟩
    · rw [← c1]; exact (pickRows_getElem _ _ (by rw [hbr.action]; exact hlt)).2 _ _ hje
    · rw [← c2]; exact (pickRows_getElem _ _ (by rw [hbr.position]; exact hlt)).2 _ _ hje
    · rw [← c3]; exact (pickRows_getElem _ _ (by rw [hbr.reward]; exact hlt)).2 _ _ hje
    · rw [← c4]; exact (pickRows_getElem _ _ (by rw [hbr.pscore]; exact hlt)).2 _ _ hje
    · rw [← c5]; exact (pickRows_getElem _ _ (by rw [hbr.context]; exact hlt)).2 _ _ hje

/-- **C107.** More samples than rounds, or a negative number, are refused with ValueError. -/
theorem C107_sample_size_refused (log : ObdLog K C) {n : ℕ} (hr : log.Rect n) (hn : 0 < n) (z : ℤ)
    (hz : z < 0 ∨ (n : ℤ) < z) (choice : ℕ → ℕ → List ℕ) (t : PyScalar K) :
    obdBootstrap log t false (some (.int z)) choice = .error .valueError := by
  obtain ⟨m, hm, -⟩ := obdActions_ok (log := log) (by
    intro h
    have := hr.action
    rw [h] at this
    simp at this
    omega)
  unfold obdBootstrap obdBase obdWhole
  dsimp only
  rw [hm, py_bind_ok, py_pure, py_bind_ok]
  unfold bootstrapSize
  dsimp only
  rw [hr.action, checkIntBetween_int_bad (by simpa using hz)]
  rfl

example : obdBootstrap (⟨[0, 1, 2], [0, 1, 2], [0, 1, 0], [1, 1, 1], [7, 8, 9]⟩ : ObdLog ℚ ℕ) (.flt (3 / 10)) false none
    (fun _ s => List.replicate s 2) =
    .ok ⟨3, 3, ⟨[2, 2, 2], [2, 2, 2], [0, 0, 0], [1, 1, 1], [9, 9, 9]⟩⟩ := by decide +kernel

end real

end Obp
