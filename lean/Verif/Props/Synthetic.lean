import Verif.Lemmas.Dataset
import Verif.Lemmas.Prob
import Verif.Props.Utils

set_option linter.unusedSectionVars false

/-! # `SyntheticBanditDataset` and its relatives -/

namespace Obp

section softmax

theorem softmax_list {xs : List ℝ} (h : xs ≠ []) :
    softmaxWith Real.exp xs = .ok (xs.map fun x => Real.exp x / (xs.map Real.exp).sum) := by
  obtain ⟨m, hm⟩ : ∃ m, xs.length = m + 1 := ⟨xs.length - 1, by
    have := List.length_pos_iff.2 h; omega⟩
  obtain ⟨f, rfl⟩ : ∃ f : Fin (m + 1) → ℝ, xs = List.ofFn f := by
    refine ⟨fun i => xs[(i : ℕ)]'(by omega), ?_⟩
    apply List.ext_getElem
    · rw [List.length_ofFn, hm]
    · intro i h1 h2
      rw [List.getElem_ofFn]
  rw [C06_softmax_value, List.map_ofFn, List.map_ofFn, List.sum_ofFn]
  rfl

theorem softmax_row {A : ℕ} (hA : 0 < A) (x : Fin A → ℝ) :
    softmaxWith Real.exp (List.ofFn x) = .ok (List.ofFn fun a => Real.exp (x a) / ∑ b, Real.exp (x b)) := by
  obtain ⟨m, rfl⟩ : ∃ m, A = m + 1 := ⟨A - 1, by omega⟩
  exact C06_softmax_value x

theorem softmax_isDist {A : ℕ} (hA : 0 < A) (x : Fin A → ℝ) :
    IsDist fun a => Real.exp (x a) / ∑ b, Real.exp (x b) := by
  have hs : 0 < ∑ b, Real.exp (x b) := Finset.sum_pos (fun b _ => Real.exp_pos _) ⟨⟨0, hA⟩, by simp⟩
  refine ⟨fun a => (div_pos (Real.exp_pos _) hs).le, ?_⟩
  rw [← Finset.sum_div, div_self hs.ne']

/-- The supported actions of a round, as actions. -/
theorem supported_list {A : ℕ} {order : List ℕ} (ho : order.Perm (List.range A)) (s : ℕ) (hs : s ≤ A) :
    ∃ sl : List (Fin A), sl.Nodup ∧ sl.length = s ∧ order.reverse.take s = sl.map Fin.val := by
  have hp : order.reverse.Perm (List.range A) := (List.reverse_perm _).trans ho
  have hlt : ∀ x ∈ order.reverse.take s, x < A := fun x hx =>
    List.mem_range.1 (hp.mem_iff.1 (List.mem_of_mem_take hx))
  have hnd : (order.reverse.take s).Nodup := (hp.nodup_iff.2 List.nodup_range).sublist (List.take_sublist _ _)
  have hmap : order.reverse.take s = ((order.reverse.take s).pmap (fun x h => (⟨x, h⟩ : Fin A)) hlt).map
      Fin.val := by
    rw [List.map_pmap]
    simp
  refine ⟨(order.reverse.take s).pmap (fun x h => ⟨x, h⟩) hlt, ?_, ?_, hmap⟩
  · refine List.Nodup.of_map Fin.val ?_
    rw [← hmap]
    exact hnd
  · rw [List.length_pmap, List.length_take, hp.length_eq, List.length_range]
    omega

theorem scatter_fin {A : ℕ} (sl : List (Fin A)) (hnd : sl.Nodup) (g : Fin A → ℝ) :
    scatter (List.replicate A 0) (sl.map Fin.val) (sl.map g) =
      List.ofFn fun a => if a ∈ sl then g a else 0 := by
  apply List.ext_getElem?
  intro j
  by_cases hj : j < A
  · have hr : (List.ofFn fun a => if a ∈ sl then g a else 0)[j]? =
        some (if (⟨j, hj⟩ : Fin A) ∈ sl then g ⟨j, hj⟩ else 0) := by
      rw [List.getElem?_ofFn]
      simp [hj]
    rw [hr]
    by_cases hm : (⟨j, hj⟩ : Fin A) ∈ sl
    · obtain ⟨k, hk, hke⟩ := List.getElem_of_mem hm
      have := scatter_getElem?_mem (sl.map Fin.val) (List.replicate A (0 : ℝ)) (sl.map g)
        (hnd.map Fin.val_injective) (by simp) (by simp) k (by simpa using hk) (by simpa using hk)
      simp only [List.getElem_map, hke] at this
      rw [this, if_pos hm]
    · rw [scatter_getElem?_notMem, if_neg hm]
      · simp [hj]
      · simp only [List.mem_map, not_exists, not_and]
        rintro a ha rfl
        exact hm ha
  · rw [List.getElem?_eq_none (by rw [scatter_length]; simp; omega), List.getElem?_eq_none (by simp; omega)]

/-- One row of the behaviour policy: the softmax over some set of `A - nDeficient` actions. -/
theorem syntheticBehaviorRow_spec {A : ℕ} (beta : ℝ) {nDef : ℕ} (hd : nDef < A) (l : Fin A → ℝ) {order : List ℕ}
    (ho : order.Perm (List.range A)) :
    ∃ (p : Fin A → ℝ) (supp : Finset (Fin A)), syntheticBehaviorRow beta nDef (List.ofFn l) order = .ok (List.ofFn p) ∧
      supp.card = A - nDef ∧ IsDist p ∧ (∀ a, a ∈ supp ↔ 0 < p a) ∧
      ∀ a ∈ supp, p a = Real.exp (beta * l a) / ∑ b ∈ supp, Real.exp (beta * l b) := by
  by_cases hz : 0 < nDef
  · obtain ⟨sl, hnd, hlen, hsl⟩ := supported_list ho (A - nDef) (Nat.sub_le _ _)
    have hne : sl ≠ [] := by
      rintro rfl
      simp at hlen
      omega
    have hcard : sl.toFinset.card = A - nDef := by rw [List.toFinset_card_of_nodup hnd, hlen]
    have hS : 0 < ∑ b ∈ sl.toFinset, Real.exp (beta * l b) := by
      refine Finset.sum_pos (fun b _ => Real.exp_pos _) ?_
      obtain ⟨a, ha⟩ := List.exists_mem_of_ne_nil _ hne
      exact ⟨a, by simpa using ha⟩
    refine ⟨fun a => if a ∈ sl then Real.exp (beta * l a) / ∑ b ∈ sl.toFinset, Real.exp (beta * l b) else 0,
      sl.toFinset, ?_, hcard, ⟨fun a => ?_, ?_⟩, fun a => ?_, fun a ha => ?_⟩
    · unfold syntheticBehaviorRow
      rw [if_pos hz]
      simp only [List.length_ofFn, hsl]
      have htake : takeAt (List.ofFn l) (sl.map Fin.val) = .ok (sl.map l) := by
        unfold takeAt
        rw [mapM_ok_iff, List.forall₂_map_right_iff, List.forall₂_map_left_iff, List.forall₂_same]
        intro a _
        have : (List.ofFn l)[(a : ℕ)]? = some (l a) := by simp
        rw [this]
      rw [htake, py_bind_ok, softmax_list (by simpa using hne), py_bind_ok, py_pure]
      rw [List.map_map, List.map_map, List.map_map]
      rw [← scatter_fin sl hnd]
      congr 3
      funext a
      simp only [Function.comp]
      rw [List.sum_toFinset _ hnd, List.map_map]
      rfl
    · split
      · exact (div_pos (Real.exp_pos _) hS).le
      · exact le_rfl
    · have : ∀ a, (if a ∈ sl then Real.exp (beta * l a) / ∑ b ∈ sl.toFinset, Real.exp (beta * l b) else 0) =
          (if a ∈ sl.toFinset then Real.exp (beta * l a) else 0) / ∑ b ∈ sl.toFinset, Real.exp (beta * l b) := by
        intro a
        by_cases ha : a ∈ sl <;> simp [ha]
      simp only [this]
      rw [← Finset.sum_div, Finset.sum_ite_mem, Finset.univ_inter, div_self hS.ne']
    · rw [List.mem_toFinset]
      constructor
      · intro ha
        dsimp only
        rw [if_pos ha]
        exact div_pos (Real.exp_pos _) hS
      · intro ha
        by_contra hn
        dsimp only at ha
        rw [if_neg hn] at ha
        exact lt_irrefl _ ha
    · rw [List.mem_toFinset] at ha
      simp only [if_pos ha]
  · have hz' : nDef = 0 := by omega
    have hA : 0 < A := by omega
    have hS : 0 < ∑ b, Real.exp (beta * l b) := Finset.sum_pos (fun b _ => Real.exp_pos _) ⟨⟨0, hA⟩, by simp⟩
    refine ⟨fun a => Real.exp (beta * l a) / ∑ b, Real.exp (beta * l b), Finset.univ, ?_, ?_,
      softmax_isDist hA fun a => beta * l a, fun a => ?_, fun a _ => rfl⟩
    · unfold syntheticBehaviorRow
      rw [if_neg hz, List.map_ofFn]
      exact softmax_row hA _
    · simp [hz']
    · exact ⟨fun _ => div_pos (Real.exp_pos _) hS, fun _ => Finset.mem_univ _⟩

end softmax

/-- **C80.** For all logits, all `beta`, all numbers of deficient actions below `n_actions`, all noise orders and draws:
every row of the behaviour policy is a distribution, the softmax over `n_actions - n_deficient_actions` supported
actions; the propensity is the positive probability of the logged action, so only supported actions are logged. The
logits are those of the behaviour policy function if there is one, else the expected rewards. -/
theorem C80_feedback {n A : ℕ} (beta : ℝ) {nDef : ℕ} (hd : nDef < A) (q : Fin n → Fin A → ℝ)
    (behavior : Option (Fin n → Fin A → ℝ)) (orders : Fin n → List ℕ)
    (ho : ∀ i, (orders i).Perm (List.range A)) (u : Fin n → ℝ) (hu : ∀ i, 0 ≤ u i ∧ u i < 1) :
    ∃ (fb : SyntheticFeedback) (pi : Fin n → Fin A → ℝ) (act : Fin n → Fin A) (supp : Fin n → Finset (Fin A)),
      syntheticFeedback beta nDef (List.ofFn fun i => List.ofFn (q i))
        (behavior.map fun l => List.ofFn fun i => List.ofFn (l i)) (List.ofFn orders) (List.ofFn u) = .ok fb ∧
      fb.piB = List.ofFn (fun i => List.ofFn (pi i)) ∧ fb.action = List.ofFn (fun i => (act i : ℕ)) ∧
      fb.pscore = List.ofFn (fun i => pi i (act i)) ∧ fb.expectedReward = List.ofFn (fun i => List.ofFn (q i)) ∧
      (∀ i, IsDist (pi i)) ∧ (∀ i, 0 < pi i (act i)) ∧ (∀ i, act i ∈ supp i) ∧
      (∀ i, (supp i).card = A - nDef) ∧ (∀ i a, a ∉ supp i → pi i a = 0) ∧
      (∀ i, ∀ a ∈ supp i, pi i a = Real.exp (beta * behavior.getD q i a) /
        ∑ b ∈ supp i, Real.exp (beta * behavior.getD q i b)) ∧
      ∀ i, (∑ b with b < act i, pi i b) ≤ u i ∧ u i < (∑ b with b < act i, pi i b) + pi i (act i) := by
  have hrow := fun i => syntheticBehaviorRow_spec beta hd (behavior.getD q i) (ho i)
  choose pi supp hpi hcard hdist hsupp hval using hrow
  obtain ⟨act, hact, hprop⟩ := C01_sample_action_fast hdist hu
  refine ⟨⟨List.ofFn fun i => (act i : ℕ), List.ofFn fun i => List.ofFn (q i), List.ofFn fun i => List.ofFn (pi i),
    List.ofFn fun i => pi i (act i)⟩, pi, act, supp, ?_, rfl, rfl, rfl, rfl, hdist, fun i => (hprop i).1,
    fun i => (hsupp i _).2 (hprop i).1, hcard, fun i a ha => ?_, hval, fun i => (hprop i).2⟩
  · unfold syntheticFeedback
    have hlog : (behavior.map fun l => List.ofFn fun i => List.ofFn (l i)).getD (List.ofFn fun i => List.ofFn (q i)) =
        List.ofFn fun i => List.ofFn (behavior.getD q i) := by
      cases behavior <;> rfl
    dsimp only
    rw [hlog, zip_ofFn, mapM_ofFn_ok (y := fun i => List.ofFn (pi i)) hpi, py_bind_ok, hact, py_bind_ok,
      gather_ofFn pi act, py_bind_ok, py_pure]
  · exact le_antisymm (not_lt.1 fun h => ha ((hsupp i a).2 h)) ((hdist i).nonneg a)

/-- Four actions of which one is removed. -/
example : (1 : ℕ) < 4 ∧ ([3, 1, 0, 2] : List ℕ).Perm (List.range 4) := ⟨by norm_num, by decide⟩

/-! ### repeated batches -/

section fresh
variable {C : Type}

/-- **C104, failure.** Without reward and behaviour policy functions all batches of the same size log the same actions
with the same propensities, whatever the contexts: later calls bring no new information. -/
theorem C104_batches_repeat (cfg : SyntheticConfig C) (hr : cfg.rewardFunction = none)
    (hb : cfg.behaviorFunction = none) (hd : cfg.nDeficient = 0) (ctx ctx' : List C) (hlen : ctx.length = ctx'.length)
    (orders orders' : List (List ℕ)) (ho : orders.length = ctx.length) (ho' : orders'.length = ctx'.length) :
    cfg.batch ctx orders = cfg.batch ctx' orders' := by
  unfold SyntheticConfig.batch SyntheticConfig.expectedReward
  rw [hr, hb, hd, hlen]
  unfold syntheticFeedback
  dsimp only [Option.map_none, Option.getD_none]
  have key : ∀ (os : List (List ℕ)), os.length = ctx'.length →
      ((List.replicate ctx'.length (firstDraws cfg.stream cfg.nActions)).zip os).mapM
        (fun p => syntheticBehaviorRow cfg.beta 0 p.1 p.2) =
      (List.replicate ctx'.length (firstDraws cfg.stream cfg.nActions)).mapM
        (fun p => syntheticBehaviorRow cfg.beta 0 p []) := by
    intro os hos
    rw [← hos]
    clear hos ho ho'
    induction os with
    | nil => rfl
    | cons o os ih =>
        rw [List.length_cons, List.replicate_succ, List.zip_cons_cons, List.mapM_cons, List.mapM_cons, ih]
        have : syntheticBehaviorRow cfg.beta 0 (firstDraws cfg.stream cfg.nActions) o =
            syntheticBehaviorRow cfg.beta 0 (firstDraws cfg.stream cfg.nActions) [] := by
          unfold syntheticBehaviorRow
          rw [if_neg (lt_irrefl 0), if_neg (lt_irrefl 0)]
        dsimp only
        rw [this]
  rw [key orders (by omega), key orders' ho']

/-- **C104, failure.** In such a dataset the draw that selects the action of round `i < n_actions` is the expected
reward of action `i`: the logged actions are not drawn independently of the rewards. -/
theorem C104_draws_are_rewards (cfg : SyntheticConfig C) (hr : cfg.rewardFunction = none)
    (hb : cfg.behaviorFunction = none) (hd : cfg.nDeficient = 0) (hA : 0 < cfg.nActions)
    (hs : ∀ i, 0 ≤ cfg.stream i ∧ cfg.stream i < 1) (ctx : List C) :
    ∃ (fb : SyntheticFeedback) (p : Fin cfg.nActions → ℝ) (act : Fin ctx.length → Fin cfg.nActions),
      cfg.batch ctx (List.replicate ctx.length (List.range cfg.nActions)) = .ok fb ∧
      fb.action = List.ofFn (fun i => (act i : ℕ)) ∧
      fb.expectedReward = List.replicate ctx.length (List.ofFn fun a : Fin cfg.nActions => cfg.stream a) ∧
      IsDist p ∧
      ∀ (i : Fin ctx.length) (row : List ℝ) (r : ℝ),
        fb.expectedReward[(i : ℕ)]? = some row → row[(i : ℕ)]? = some r →
        (∑ b with b < act i, p b) ≤ r ∧ r < (∑ b with b < act i, p b) + p (act i) := by
  have hq : List.replicate ctx.length (firstDraws cfg.stream cfg.nActions) =
      List.ofFn fun _ : Fin ctx.length => List.ofFn fun a : Fin cfg.nActions => cfg.stream a := by
    apply List.ext_getElem
    · simp
    · intro i h1 h2
      simp only [List.getElem_replicate, List.getElem_ofFn]
      unfold firstDraws
      apply List.ext_getElem <;> simp
  have hord : List.replicate ctx.length (List.range cfg.nActions) =
      List.ofFn fun _ : Fin ctx.length => List.range cfg.nActions := by
    apply List.ext_getElem <;> simp
  have hdraw : firstDraws cfg.stream ctx.length = List.ofFn fun i : Fin ctx.length => cfg.stream i := by
    unfold firstDraws
    apply List.ext_getElem <;> simp
  obtain ⟨fb, pi, act, supp, hfb, -, hact, -, her, hdist, -, -, hcard, -, hval, hint⟩ :=
    C80_feedback (n := ctx.length) (A := cfg.nActions) cfg.beta (nDef := 0) hA
      (fun _ a => cfg.stream a) none (fun _ => List.range cfg.nActions) (fun _ => List.Perm.refl _)
      (fun i => cfg.stream i) (fun i => hs i)
  have hsupp : ∀ i, supp i = Finset.univ := fun i => by
    rw [← Finset.card_eq_iff_eq_univ, hcard, Fintype.card_fin, Nat.sub_zero]
  refine ⟨fb, fun a => Real.exp (cfg.beta * cfg.stream a) / ∑ b : Fin cfg.nActions, Real.exp (cfg.beta * cfg.stream b),
    act, ?_, hact, ?_, softmax_isDist hA _, ?_⟩
  · unfold SyntheticConfig.batch SyntheticConfig.expectedReward
    rw [hr, hb, hd]
    dsimp only
    rw [hq, hord, hdraw]
    exact hfb
  · rw [her]
    apply List.ext_getElem <;> simp
  · intro i row r hrow hr'
    have hpi : ∀ a, pi i a =
        Real.exp (cfg.beta * cfg.stream a) / ∑ b : Fin cfg.nActions, Real.exp (cfg.beta * cfg.stream b) := fun a => by
      have := hval i a (by rw [hsupp]; exact Finset.mem_univ a)
      rw [hsupp] at this
      exact this
    rw [her] at hrow
    rw [List.getElem?_ofFn] at hrow
    simp only [i.isLt, dif_pos, Option.some.injEq] at hrow
    subst hrow
    rw [List.getElem?_ofFn] at hr'
    have h : (i : ℕ) < cfg.nActions := by
      by_contra h
      rw [dif_neg h] at hr'
      simp at hr'
    simp only [h, dif_pos, Option.some.injEq] at hr'
    subst hr'
    simp only [← hpi]
    exact hint i

end fresh

/-! ### ground truth -/

section truth
variable {K : Type} [Field K] [LinearOrder K] [IsStrictOrderedRing K]

/-- **C84.** The value of any weights whose rows do not sum to zero: the mean over rounds of the weighted average at
position 0. -/
theorem C84_weighted_value {n A L : ℕ} (hn : 0 < n) (hL : 0 < L) (q : Fin n → Fin A → K)
    (w : Fin n → Fin A → Fin L → K) (hw : ∀ i, ∑ a, w i a ⟨0, hL⟩ ≠ 0) :
    datasetGroundTruth (.arr ⟨n, A, q⟩) (.arr ⟨n, A, L, w⟩) =
      .ok ((∑ i, (∑ a, q i a * w i a ⟨0, hL⟩) / ∑ a, w i a ⟨0, hL⟩) / n) := by
  unfold datasetGroundTruth checkArray2 checkArray3
  rw [py_bind_ok, py_bind_ok, raiseIf_neg (by simp), py_bind_ok, raiseIf_neg (by simp), py_bind_ok, dif_pos hL,
    npAverageRows_ofFn q (fun i a => w i a ⟨0, hL⟩) hw, py_bind_ok, npMean_ofFn hn]

/-- **C84.** For a policy it is the exact policy value: the mean over rounds of the expectation of the expected reward
under the policy. -/
theorem C84_policy_value {n A L : ℕ} (hn : 0 < n) (hL : 0 < L) (q : Fin n → Fin A → K)
    (w : Fin n → Fin A → Fin L → K) (hw : ∀ i, IsDist fun a => w i a ⟨0, hL⟩) :
    datasetGroundTruth (.arr ⟨n, A, q⟩) (.arr ⟨n, A, L, w⟩) =
      .ok ((∑ i, expect1 (fun a => w i a ⟨0, hL⟩) (q i)) / n) := by
  rw [C84_weighted_value hn hL q w fun i => by rw [(hw i).sum_one]; exact one_ne_zero]
  congr 2
  refine Finset.sum_congr rfl fun i _ => ?_
  rw [(hw i).sum_one, div_one]
  unfold expect1
  exact Finset.sum_congr rfl fun a _ => mul_comm _ _

/-- **C84.** It lies in the range of the expected rewards. -/
theorem C84_range {n A L : ℕ} (hn : 0 < n) (hL : 0 < L) (q : Fin n → Fin A → K)
    (w : Fin n → Fin A → Fin L → K) (hw : ∀ i, IsDist fun a => w i a ⟨0, hL⟩) (lo hi : K)
    (hq : ∀ i a, lo ≤ q i a ∧ q i a ≤ hi) :
    ∃ v, datasetGroundTruth (.arr ⟨n, A, q⟩) (.arr ⟨n, A, L, w⟩) = .ok v ∧ lo ≤ v ∧ v ≤ hi := by
  have hn' : (0 : K) < n := by exact_mod_cast hn
  have hlo : ∀ i, lo ≤ expect1 (fun a => w i a ⟨0, hL⟩) (q i) := fun i => by
    calc lo = ∑ a, w i a ⟨0, hL⟩ * lo := by rw [← Finset.sum_mul, (hw i).sum_one, one_mul]
      _ ≤ _ := Finset.sum_le_sum fun a _ => mul_le_mul_of_nonneg_left (hq i a).1 ((hw i).nonneg a)
  have hhi : ∀ i, expect1 (fun a => w i a ⟨0, hL⟩) (q i) ≤ hi := fun i => by
    calc _ ≤ ∑ a, w i a ⟨0, hL⟩ * hi :=
          Finset.sum_le_sum fun a _ => mul_le_mul_of_nonneg_left (hq i a).2 ((hw i).nonneg a)
      _ = hi := by rw [← Finset.sum_mul, (hw i).sum_one, one_mul]
  refine ⟨_, C84_policy_value hn hL q w hw, ?_, ?_⟩
  · rw [le_div_iff₀ hn']
    calc lo * n = ∑ _i : Fin n, lo := by simp [mul_comm]
      _ ≤ _ := Finset.sum_le_sum fun i _ => hlo i
  · rw [div_le_iff₀ hn']
    calc _ ≤ ∑ _i : Fin n, hi := Finset.sum_le_sum fun i _ => hhi i
      _ = hi * n := by simp [mul_comm]

/-- **C84.** It is linear in the expected rewards. -/
theorem C84_linear {n A L : ℕ} (hn : 0 < n) (hL : 0 < L) (q q' : Fin n → Fin A → K) (c c' : K)
    (w : Fin n → Fin A → Fin L → K) (hw : ∀ i, IsDist fun a => w i a ⟨0, hL⟩) :
    ∃ v v', datasetGroundTruth (.arr ⟨n, A, q⟩) (.arr ⟨n, A, L, w⟩) = .ok v ∧
      datasetGroundTruth (.arr ⟨n, A, q'⟩) (.arr ⟨n, A, L, w⟩) = .ok v' ∧
      datasetGroundTruth (.arr ⟨n, A, fun i a => c * q i a + c' * q' i a⟩) (.arr ⟨n, A, L, w⟩) =
        .ok (c * v + c' * v') := by
  refine ⟨_, _, C84_policy_value hn hL q w hw, C84_policy_value hn hL q' w hw, ?_⟩
  rw [C84_policy_value hn hL _ w hw]
  congr 1
  rw [mul_div_assoc', mul_div_assoc', ← add_div, Finset.mul_sum, Finset.mul_sum, ← Finset.sum_add_distrib]
  congr 1
  refine Finset.sum_congr rfl fun i _ => ?_
  unfold expect1
  rw [Finset.mul_sum, Finset.mul_sum, ← Finset.sum_add_distrib]
  exact Finset.sum_congr rfl fun a _ => by ring

/-- **C84.** For a deterministic policy it is the mean expected reward of the chosen actions. -/
theorem C84_deterministic {n A : ℕ} (hn : 0 < n) (q : Fin n → Fin A → K) (act : Fin n → Fin A) :
    datasetGroundTruth (.arr ⟨n, A, q⟩) (.arr ⟨n, A, 1, fun i a _ => if a = act i then 1 else 0⟩) =
      .ok ((∑ i, q i (act i)) / n) := by
  rw [C84_policy_value hn one_pos q _ fun i => ⟨fun a => by split <;> simp, by simp⟩]
  congr 2
  refine Finset.sum_congr rfl fun i _ => ?_
  simp [expect1]

/-- **C84.** Arrays of different numbers of rounds or actions are refused with ValueError, as is an argument of a wrong
kind or dimension. -/
theorem C84_shape_refused (q : Arr2 K) (w : Arr3 K) (h : q.n ≠ w.n ∨ q.d ≠ w.A) :
    datasetGroundTruth (.arr q) (.arr w) = .error .valueError := by
  unfold datasetGroundTruth checkArray2 checkArray3
  rw [py_bind_ok, py_bind_ok]
  by_cases h1 : q.n = w.n
  · rw [raiseIf_neg (by simp [h1]), py_bind_ok, raiseIf_pos (by simpa using h.resolve_left (fun h' => h' h1))]
    rfl
  · rw [raiseIf_pos (by simpa using h1)]
    rfl

/-- **C84, limit.** A row of weights that sums to zero raises ZeroDivisionError. -/
theorem C84_zero_weights {n A L : ℕ} (hL : 0 < L) (q : Fin n → Fin A → K)
    (w : Fin n → Fin A → Fin L → K) (i : Fin n) (hw : ∑ a, w i a ⟨0, hL⟩ = 0) :
    datasetGroundTruth (.arr ⟨n, A, q⟩) (.arr ⟨n, A, L, w⟩) = .error .zeroDivisionError := by
  unfold datasetGroundTruth checkArray2 checkArray3
  rw [py_bind_ok, py_bind_ok, raiseIf_neg (by simp), py_bind_ok, raiseIf_neg (by simp), py_bind_ok, dif_pos hL]
  unfold npAverageRows
  rw [zip_ofFn, mapM_error_of (e := .zeroDivisionError)]
  · rfl
  · intro x _
    unfold npAverage
    split
    · exact .inr rfl
    · exact .inl ⟨_, rfl⟩
  · refine ⟨_, List.mem_ofFn.2 ⟨i, rfl⟩, ?_⟩
    unfold npAverage
    rw [List.sum_ofFn, if_pos hw]

example : datasetGroundTruth (.arr ⟨2, 2, ![![1, 0], ![1 / 2, 1]]⟩)
    (.arr ⟨2, 2, 1, fun i a _ => ![![1 / 4, 3 / 4], ![1 / 2, 1 / 2]] i a⟩) = .ok (1 / 2 : ℚ) := by decide +kernel

/-! ### standardisation -/

/-- **C109.** The logits of the behaviour policy functions have mean zero, and their mean square is `degree` squared when
`std` is the standard deviation and not zero. -/
theorem C109_logits_standardized {n : ℕ} (hn : 0 < n) (degree : ℕ) (x : Fin n → K) (std : K) (hs : std ≠ 0)
    (hstd : std ^ 2 = (∑ i, (x i - (∑ j, x j) / n) ^ 2) / n) :
    ∃ z : Fin n → K, standardizeLogits degree std (List.ofFn x) = .ok (List.ofFn z) ∧ (∑ i, z i) = 0 ∧
      (∑ i, z i ^ 2) / n = degree ^ 2 := by
  have hn' : (n : K) ≠ 0 := by exact_mod_cast hn.ne'
  refine ⟨fun i => degree * (x i - (∑ j, x j) / n) / std, ?_, ?_, ?_⟩
  · unfold standardizeLogits
    rw [npMean_ofFn hn, py_bind_ok]
    exact mapM_ofFn_ok fun i => npDiv_ok hs
  · rw [← Finset.sum_div, ← Finset.mul_sum, Finset.sum_sub_distrib]
    simp only [Finset.sum_const, Finset.card_univ, Fintype.card_fin, nsmul_eq_mul]
    rw [mul_div_cancel₀ _ hn', sub_self, mul_zero, zero_div]
  · have : ∀ i, (degree * (x i - (∑ j, x j) / n) / std) ^ 2 =
        degree ^ 2 / std ^ 2 * (x i - (∑ j, x j) / n) ^ 2 := fun i => by
      rw [div_pow, mul_pow]; ring
    simp only [this]
    rw [← Finset.mul_sum, mul_div_assoc, ← hstd]
    field_simp

/-- **C108, failure.** With `z_score` the expected rewards are only shifted by `mean / std`: the mean of the result is
`degree (mean - mean / std)` and the spread is unchanged, so unless the mean is zero or the standard deviation is one
the mean is not zero. -/
theorem C108_z_score_mean {n : ℕ} (hn : 0 < n) (degree : ℕ) (x : Fin n → K) (std : K) (hs : std ≠ 0) :
    ∃ z : Fin n → K, zScoreRewards degree true std (List.ofFn x) = .ok (List.ofFn z) ∧
      (∑ i, z i) / n = degree * ((∑ i, x i) / n - (∑ i, x i) / n / std) ∧
      (∀ i j, z i - z j = degree * (x i - x j)) ∧
      (0 < degree → std ≠ 1 → (∑ i, x i) ≠ 0 → (∑ i, z i) ≠ 0) := by
  have hn' : (n : K) ≠ 0 := by exact_mod_cast hn.ne'
  have hmean : (∑ i, (degree : K) * (x i - (∑ j, x j) / n / std)) / n =
      degree * ((∑ i, x i) / n - (∑ i, x i) / n / std) := by
    rw [← Finset.mul_sum, Finset.sum_sub_distrib]
    simp only [Finset.sum_const, Finset.card_univ, Fintype.card_fin, nsmul_eq_mul]
    field_simp
  refine ⟨fun i => degree * (x i - (∑ j, x j) / n / std), ?_, hmean, fun i j => by ring, ?_⟩
  · unfold zScoreRewards
    rw [if_pos rfl, npMean_ofFn hn, py_bind_ok, npDiv_ok hs, py_bind_ok, py_pure, List.map_ofFn]
    rfl
  · intro hdeg h1 hx h0
    rw [h0, zero_div] at hmean
    have hdeg' : (degree : K) ≠ 0 := by exact_mod_cast hdeg.ne'
    have h2 : (∑ i, x i) / n - (∑ i, x i) / n / std = 0 := by
      rcases mul_eq_zero.1 hmean.symm with h | h
      · exact absurd h hdeg'
      · exact h
    have h3 : (∑ i, x i) / (n : K) ≠ 0 := div_ne_zero hx hn'
    have h4 : (∑ i, x i) / (n : K) * (std - 1) = 0 := by
      field_simp at h2 ⊢
      linear_combination h2
    rcases mul_eq_zero.1 h4 with h | h
    · exact h3 h
    · exact h1 (by linear_combination h)

/-- **C108, failure.** The rewards `1` and `5` (mean 3, standard deviation 2) become `-1/2` and `7/2`. -/
theorem C108_z_score_witness :
    zScoreRewards 1 true 2 [(1 : ℚ), 5] = .ok [-1 / 2, 7 / 2] ∧ ((1 : ℚ) + 5) / 2 = 3 ∧
      (2 : ℚ) ^ 2 = ((1 - 3) ^ 2 + (5 - 3) ^ 2) / 2 := by
  refine ⟨by decide +kernel, by norm_num, by norm_num⟩

/-- **C108, failure.** Constant rewards give nan. -/
theorem C108_constant_rewards (degree : ℕ) (flat : List K) (h : flat ≠ []) :
    zScoreRewards degree true 0 flat = .error .nonFinite := by
  unfold zScoreRewards npMean
  rw [if_pos rfl, if_neg (by simpa using h), py_bind_ok, npDiv_zero]
  rfl

/-- **C108.** If the mean is zero, or `z_score` is off, the rewards are just scaled. -/
theorem C108_zero_mean_partial {n : ℕ} (hn : 0 < n) (degree : ℕ) (x : Fin n → K) (std : K) (hs : std ≠ 0)
    (hx : ∑ i, x i = 0) :
    zScoreRewards degree true std (List.ofFn x) = .ok (List.ofFn fun i => degree * x i) ∧
    zScoreRewards degree false std (List.ofFn x) = .ok (List.ofFn fun i => degree * x i) := by
  constructor
  · unfold zScoreRewards
    rw [if_pos rfl, npMean_ofFn hn, py_bind_ok, npDiv_ok hs, py_bind_ok, py_pure, List.map_ofFn, hx]
    simp [Function.comp_def]
  · unfold zScoreRewards
    rw [if_neg (by simp), py_pure, List.map_ofFn]
    rfl

end truth

end Obp
