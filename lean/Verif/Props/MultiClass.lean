import Verif.Lemmas.Dataset
import Verif.Props.Utils

set_option linter.unusedSectionVars false

/-! # `MultiClassToBanditReduction` -/

namespace Obp

section
variable {K : Type} [Field K] [LinearOrder K] [IsStrictOrderedRing K]

/-- The constructor on labels `0..k-1` that all occur. -/
theorem mkMultiClass_fin {n k : ℕ} (y : Fin n → Fin k) (hy : Function.Surjective y)
    {alpha : K} (h0 : 0 ≤ alpha) (h1 : alpha < 1) {nDef : ℕ} (hd : nDef < k) :
    mkMultiClass ⟨true, .flt alpha, .int nDef, true, .int (List.ofFn fun i => ((y i : ℕ) : ℤ))⟩ =
      .ok { nActions := k, alphaB := alpha, nDeficient := nDef, y := List.ofFn fun i => (y i : ℕ),
            yFull := List.ofFn fun i => List.ofFn fun a : Fin k => if a = y i then 1 else 0 } := by
  unfold mkMultiClass
  simp only [labels_card y hy]
  rw [raiseIf_neg (by simp), py_bind_ok, checkAlpha_none h0, py_bind_ok]
  rw [checkIntBetween_int (by omega) (by omega), py_bind_ok, raiseIf_neg (decide_eq_false (not_le.2 h1)), py_bind_ok,
    py_bind_ok]
  rw [mapM_ofFn_ok (y := fun i => List.ofFn fun a : Fin k => if a = y i then (1 : K) else 0)
    fun i => labelRow_fin (y i), py_bind_ok, py_pure]
  congr 2
  rw [List.map_ofFn]
  congr 1
  funext i
  exact labels_rank y hy i

theorem multiClassFeedback_spec {n m k : ℕ} (y : Fin n → Fin k) (hy : Function.Surjective y)
    {alpha : K} (h0 : 0 ≤ alpha) (h1 : alpha < 1) {nDef : ℕ} (hd : nDef < k)
    (ev : Fin m → Fin n) (preds : Fin m → Fin k) (orders : Fin m → List ℕ)
    (ho : ∀ i, (orders i).Perm (List.range k)) :
    ∃ (d : MultiClassData K) (e : MultiClassEval K) (pi : Fin m → Fin k → K) (gone : Fin m → Finset (Fin k)),
      mkMultiClass ⟨true, .flt alpha, .int nDef, true, .int (List.ofFn fun i => ((y i : ℕ) : ℤ))⟩ = .ok d ∧
      splitTrainEval d (List.ofFn fun j => (ev j : ℕ)) = .ok e ∧ e.yEv = List.ofFn (fun j => (y (ev j) : ℕ)) ∧
      (∀ i, IsDist (pi i)) ∧ (∀ i, (gone i).card = nDef) ∧ (∀ i a, a ∈ gone i ↔ pi i a = 0) ∧
      (∀ i a, a ∉ gone i → pi i a = (if a = preds i then alpha + (1 - alpha) / k else (1 - alpha) / k) /
        ∑ b with b ∉ gone i, (if b = preds i then alpha + (1 - alpha) / k else (1 - alpha) / k)) ∧
      ∀ u : Fin m → K, (∀ i, 0 ≤ u i ∧ u i < 1) → ∃ (fb : MultiClassFeedback K) (act : Fin m → Fin k),
        multiClassFeedback e (List.ofFn fun j => ((preds j : ℕ) : ℤ)) (List.ofFn orders) (List.ofFn u) = .ok fb ∧
        fb.piB = List.ofFn (fun i => List.ofFn (pi i)) ∧ fb.action = List.ofFn (fun i => (act i : ℕ)) ∧
        fb.reward = List.ofFn (fun i => if act i = y (ev i) then 1 else 0) ∧
        fb.pscore = List.ofFn (fun i => pi i (act i)) ∧ (∀ i, 0 < pi i (act i)) ∧
        ∀ i, (∑ b with b < act i, pi i b) ≤ u i ∧ u i < (∑ b with b < act i, pi i b) + pi i (act i) := by
  have hk : 0 < k := by omega
  have hk' : (0 : K) < k := by exact_mod_cast hk
  set base : Fin m → Fin k → K := fun i a => if a = preds i then alpha + (1 - alpha) / k else (1 - alpha) / k
    with hbase
  have hbpos : ∀ i a, 0 < base i a := by
    intro i a
    have h2 : 0 < (1 - alpha) / (k : K) := div_pos (by linarith) hk'
    simp only [hbase]
    split <;> linarith
  set gone : Fin m → Finset (Fin k) := fun i =>
    Finset.univ.filter fun a : Fin k => (a : ℕ) ∈ (orders i).reverse.take nDef with hgone
  have hcard : ∀ i, (gone i).card = nDef := by
    intro i
    have hp : (orders i).reverse.Perm (List.range k) := (List.reverse_perm _).trans (ho i)
    have hnd : ((orders i).reverse.take nDef).Nodup :=
      (hp.nodup_iff.2 List.nodup_range).sublist (List.take_sublist _ _)
    have hlen : ((orders i).reverse.take nDef).length = nDef := by
      rw [List.length_take, hp.length_eq, List.length_range]; omega
    have himg : (gone i).image (fun a : Fin k => (a : ℕ)) = ((orders i).reverse.take nDef).toFinset := by
      ext x
      simp only [hgone, Finset.mem_image, Finset.mem_filter, Finset.mem_univ, true_and, List.mem_toFinset]
      constructor
      · rintro ⟨a, ha, rfl⟩; exact ha
      · intro hx
        have : x < k := List.mem_range.1 (hp.mem_iff.1 (List.mem_of_mem_take hx))
        exact ⟨⟨x, this⟩, hx, rfl⟩
    rw [← Finset.card_image_of_injective (gone i) Fin.val_injective, himg,
      List.toFinset_card_of_nodup hnd, hlen]
  have hex : ∀ i, ∃ a, a ∉ gone i := by
    intro i
    by_contra hall
    push Not at hall
    have : gone i = Finset.univ := Finset.eq_univ_iff_forall.2 hall
    have hc := hcard i
    rw [this, Finset.card_univ, Fintype.card_fin] at hc
    omega
  have hS : ∀ i, 0 < ∑ b with b ∉ gone i, base i b := by
    intro i
    obtain ⟨a, ha⟩ := hex i
    exact Finset.sum_pos (fun b _ => hbpos i b) ⟨a, by simpa using ha⟩
  have hsum : ∀ i, (∑ a : Fin k, if (a : ℕ) ∈ (orders i).reverse.take nDef then 0 else base i a) =
      ∑ b with b ∉ gone i, base i b := by
    intro i
    rw [Finset.sum_filter]
    refine Finset.sum_congr rfl fun a _ => ?_
    by_cases ha : (a : ℕ) ∈ (orders i).reverse.take nDef <;> simp [hgone, ha]
  set pi : Fin m → Fin k → K := fun i a => if a ∈ gone i then 0 else base i a / ∑ b with b ∉ gone i, base i b
    with hpi
  have hbs : ∀ i, ∑ a, base i a = 1 := fun i => (predictionRow_dist alpha h0 h1.le (preds i)).sum_one
  have hrow : ∀ i, multiBehaviorRow k alpha nDef ((preds i : ℕ) : ℤ) (orders i) = .ok (List.ofFn (pi i)) := by
    intro i
    unfold multiBehaviorRow
    rw [predictionRow_fin, py_bind_ok]
    by_cases hz : 0 < nDef
    · rw [if_pos hz, dropActions_ofFn (base i) _ (by rw [hsum]; exact (hS i).ne')]
      rw [hsum]
      congr 2
      funext a
      by_cases ha : (a : ℕ) ∈ (orders i).reverse.take nDef <;> simp [hpi, hgone, ha]
    · rw [if_neg hz, py_pure]
      have hz' : nDef = 0 := by omega
      have hgi : gone i = ∅ := Finset.card_eq_zero.1 (by rw [hcard, hz'])
      have e1 : ∑ b with b ∉ gone i, base i b = 1 := by simp [hgi, hbs]
      congr 2
      funext a
      have hga : a ∉ gone i := by rw [hgi]; exact Finset.notMem_empty a
      change _ = (if a ∈ gone i then 0 else base i a / ∑ b with b ∉ gone i, base i b)
      rw [if_neg hga, e1, div_one]
  have hdist : ∀ i, IsDist (pi i) := by
    intro i
    refine ⟨fun a => ?_, ?_⟩
    · simp only [hpi]
      split
      · exact le_rfl
      · exact div_nonneg (hbpos i a).le (hS i).le
    · have : ∀ a, pi i a = (if a ∉ gone i then base i a else 0) / ∑ b with b ∉ gone i, base i b := by
        intro a
        simp only [hpi]
        by_cases ha : a ∈ gone i <;> simp [ha]
      simp only [this, ← Finset.sum_div, ← Finset.sum_filter]
      exact div_self (hS i).ne'
  refine ⟨_, ⟨k, alpha, nDef, List.ofFn fun j => (y (ev j) : ℕ),
      List.ofFn fun j => List.ofFn fun a : Fin k => if a = y (ev j) then 1 else 0⟩,
    pi, gone, mkMultiClass_fin y hy h0 h1 hd, ?_, rfl, hdist, hcard, ?_, ?_, fun u hu => ?_⟩
  · unfold splitTrainEval
    dsimp only
    rw [takeAt_ofFn (fun i => (y i : ℕ)) ev, py_bind_ok,
      takeAt_ofFn (fun i => List.ofFn fun a : Fin k => if a = y i then (1 : K) else 0) ev, py_bind_ok, py_pure]
  · intro i a
    simp only [hpi]
    constructor
    · intro ha; simp [ha]
    · intro ha
      by_contra hn
      rw [if_neg hn] at ha
      exact (div_pos (hbpos i a) (hS i)).ne' ha
  · intro i a ha
    simp only [hpi, if_neg ha, hbase]
  · obtain ⟨act, hact, hprop⟩ := C01_sample_action_fast hdist hu
    refine ⟨⟨List.ofFn fun i => (act i : ℕ), List.ofFn fun i => if act i = y (ev i) then 1 else 0,
      List.ofFn fun i => List.ofFn (pi i), List.ofFn fun i => pi i (act i)⟩, act, ?_, rfl, rfl, rfl, rfl,
      fun i => (hprop i).1, fun i => (hprop i).2⟩
    unfold multiClassFeedback
    dsimp only
    rw [zip_ofFn, mapM_ofFn_ok (y := fun i => List.ofFn (pi i)) fun i => hrow i, py_bind_ok, hact, py_bind_ok,
      gather_ofFn (fun i a => if a = y (ev i) then (1 : K) else 0) act, py_bind_ok, gather_ofFn pi act, py_bind_ok,
      py_pure]

/-- **C81.** Labels `0..k-1`, any base predictions, any `alpha_b` in `[0, 1)`, any number of deficient actions below
`k`, any evaluation split, any noise order and any draws: the call succeeds; every row of the behaviour policy is the
prediction-based distribution restricted to the actions that were not removed; rewards are one exactly on the true
class; the propensity is the positive probability of the logged action, so removed actions are never logged. -/
theorem C81_feedback {n m k : ℕ} (y : Fin n → Fin k) (hy : Function.Surjective y)
    {alpha : K} (h0 : 0 ≤ alpha) (h1 : alpha < 1) {nDef : ℕ} (hd : nDef < k)
    (ev : Fin m → Fin n) (preds : Fin m → Fin k) (orders : Fin m → List ℕ)
    (ho : ∀ i, (orders i).Perm (List.range k)) (u : Fin m → K) (hu : ∀ i, 0 ≤ u i ∧ u i < 1) :
    ∃ (d : MultiClassData K) (e : MultiClassEval K) (fb : MultiClassFeedback K) (pi : Fin m → Fin k → K)
      (act : Fin m → Fin k) (gone : Fin m → Finset (Fin k)),
      mkMultiClass ⟨true, .flt alpha, .int nDef, true, .int (List.ofFn fun i => ((y i : ℕ) : ℤ))⟩ = .ok d ∧
      splitTrainEval d (List.ofFn fun j => (ev j : ℕ)) = .ok e ∧
      multiClassFeedback e (List.ofFn fun j => ((preds j : ℕ) : ℤ)) (List.ofFn orders) (List.ofFn u) = .ok fb ∧
      fb.piB = List.ofFn (fun i => List.ofFn (pi i)) ∧ fb.action = List.ofFn (fun i => (act i : ℕ)) ∧
      fb.reward = List.ofFn (fun i => if act i = y (ev i) then 1 else 0) ∧
      fb.pscore = List.ofFn (fun i => pi i (act i)) ∧
      (∀ i, IsDist (pi i)) ∧ (∀ i, 0 < pi i (act i)) ∧ (∀ i, (gone i).card = nDef) ∧
      (∀ i a, a ∈ gone i ↔ pi i a = 0) ∧
      ∀ i a, a ∉ gone i → pi i a = (if a = preds i then alpha + (1 - alpha) / k else (1 - alpha) / k) /
        ∑ b with b ∉ gone i, (if b = preds i then alpha + (1 - alpha) / k else (1 - alpha) / k) := by
  obtain ⟨d, e, pi, gone, hd', he, -, hdist, hcard, hgone, hval, hfb⟩ := multiClassFeedback_spec y hy h0 h1 hd ev preds orders ho
  obtain ⟨fb, act, h1, h2, h3, h4, h5, h6, -⟩ := hfb u hu
  exact ⟨d, e, fb, pi, act, gone, hd', he, h1, h2, h3, h4, h5, hdist, h6, hcard, hgone, hval⟩

/-- **C81.** The evaluation policy for every `alpha_e` in `[0, 1]`: a distribution with probability
`alpha_e + (1 - alpha_e) / k` on the prediction and `(1 - alpha_e) / k` elsewhere. -/
theorem C81_eval_policy {m k : ℕ} (e : MultiClassEval K) (he : e.nActions = k) {alpha : K} (h0 : 0 ≤ alpha)
    (h1 : alpha ≤ 1) (preds : Fin m → Fin k) :
    ∃ pi : Fin m → Fin k → K,
      evalActionDist e true (.flt alpha) (List.ofFn fun j => ((preds j : ℕ) : ℤ)) =
        .ok (List.ofFn fun i => List.ofFn (pi i)) ∧
      (∀ i, IsDist (pi i)) ∧ (∀ i, pi i (preds i) = alpha + (1 - alpha) / k) ∧
      ∀ i a, a ≠ preds i → pi i a = (1 - alpha) / k := by
  refine ⟨fun i a => if a = preds i then alpha + (1 - alpha) / k else (1 - alpha) / k, ?_,
    fun i => predictionRow_dist alpha h0 h1 (preds i), fun i => by simp, fun i a ha => by simp [ha]⟩
  unfold evalActionDist
  rw [checkAlpha_one h0 h1, py_bind_ok, raiseIf_neg (by simp), py_bind_ok, he]
  exact mapM_ofFn_ok fun i => predictionRow_fin alpha (preds i)

/-- **C81.** An `alpha_e` outside `[0, 1]` is refused with ValueError. -/
theorem C81_alpha_refused (e : MultiClassEval K) (c : Bool) (alpha : K) (h : alpha < 0 ∨ 1 < alpha)
    (preds : List ℤ) : evalActionDist e c (.flt alpha) preds = .error .valueError := by
  unfold evalActionDist
  rw [checkAlpha_bad h]
  rfl

/-- **C81.** The ground-truth value is the mean, over rounds and positions, of the probability given to the true
class; with one position it is a number in `[0, 1]`. -/
theorem C81_ground_truth {m k L : ℕ} (hm : 0 < m) (hL : 0 < L) (e : MultiClassEval K) (y : Fin m → Fin k)
    (hy : e.yEv = List.ofFn fun i => (y i : ℕ)) (w : Fin m → Fin k → Fin L → K) :
    multiGroundTruth e (.arr ⟨m, k, L, w⟩) = .ok ((∑ i, ∑ l, w i (y i) l) / (m * L)) := by
  unfold multiGroundTruth checkArray3
  rw [py_bind_ok, raiseIf_neg (by simp [hy]), py_bind_ok]
  have hz : (List.finRange m).zip e.yEv = List.ofFn fun i => (i, (y i : ℕ)) := by
    rw [hy]
    apply List.ext_getElem <;> simp
  dsimp only
  rw [hz, mapM_ofFn_ok (y := fun i => List.ofFn (w i (y i))) fun i => by
    dsimp only; rw [dif_pos (y i).isLt], py_bind_ok]
  unfold npMean
  have hlen : (List.ofFn fun i => List.ofFn (w i (y i))).flatten.length = m * L := by
    simp [List.length_flatten, List.map_ofFn, Function.comp_def]
  have hsum : (List.ofFn fun i => List.ofFn (w i (y i))).flatten.sum = ∑ i, ∑ l, w i (y i) l := by
    simp [List.sum_flatten, List.map_ofFn, Function.comp_def, List.sum_ofFn]
  rw [hlen, hsum, if_neg (Nat.mul_pos hm hL).ne']
  push_cast
  rfl

theorem C81_ground_truth_range {m k : ℕ} (hm : 0 < m) (e : MultiClassEval K) (y : Fin m → Fin k)
    (hy : e.yEv = List.ofFn fun i => (y i : ℕ)) (w : Fin m → Fin k → K) (hw : ∀ i, IsDist (w i)) :
    ∃ v, multiGroundTruth e (.arr ⟨m, k, 1, fun i a _ => w i a⟩) = .ok v ∧ 0 ≤ v ∧ v ≤ 1 := by
  refine ⟨_, C81_ground_truth hm one_pos e y hy _, ?_, ?_⟩
  · refine div_nonneg (Finset.sum_nonneg fun i _ => Finset.sum_nonneg fun _ _ => (hw i).nonneg _) (by positivity)
  · have hm' : (0 : K) < m * (1 : ℕ) := by have : (0 : K) < m := by exact_mod_cast hm
                                           simpa using this
    rw [div_le_one hm']
    have : ∀ i, w i (y i) ≤ 1 := fun i => by
      rw [← (hw i).sum_one]
      exact Finset.single_le_sum (fun a _ => (hw i).nonneg a) (Finset.mem_univ _)
    calc (∑ i, ∑ _l : Fin 1, w i (y i)) = ∑ i, w i (y i) := by simp
      _ ≤ ∑ _i : Fin m, (1 : K) := Finset.sum_le_sum fun i _ => this i
      _ = m * (1 : ℕ) := by simp

/-! ### labels that are not `0..k-1` -/

/-- The arguments of a valid construction with integer labels `y`. -/
def labelArgs {n : ℕ} (alpha : K) (nDef : ℕ) (y : Fin n → ℤ) : MultiClassArgs K :=
  ⟨true, .flt alpha, .int nDef, true, .int (List.ofFn y)⟩

theorem mkMultiClass_labels {n : ℕ} (y : Fin n → ℤ) {alpha : K} (h0 : 0 ≤ alpha) (h1 : alpha < 1) {nDef : ℕ}
    (hd : nDef < (Finset.univ.image y).card) :
    mkMultiClass (labelArgs alpha nDef y) = (do
      let full ← (List.ofFn y).mapM (labelRow (Finset.univ.image y).card)
      pure { nActions := (Finset.univ.image y).card, alphaB := alpha, nDeficient := nDef,
             y := List.ofFn fun i => ((Finset.univ.image y).filter (· < y i)).card, yFull := full }) := by
  unfold mkMultiClass labelArgs
  simp only [npUnique_length_ofFn]
  rw [raiseIf_neg (by simp), py_bind_ok, checkAlpha_none h0, py_bind_ok]
  rw [checkIntBetween_int (by omega) (by omega), py_bind_ok, raiseIf_neg (decide_eq_false (not_le.2 h1)), py_bind_ok,
    py_bind_ok]
  rw [List.map_ofFn]
  simp only [Function.comp_def, denseRank_ofFn, Int.toNat_natCast]

/-- **C82, failure.** A label outside `-k..k-1`, where `k` is the number of distinct labels, makes the constructor
raise IndexError: for example the labels `1..k`. -/
theorem C82_index_error {n : ℕ} (y : Fin n → ℤ) {alpha : K} (h0 : 0 ≤ alpha) (h1 : alpha < 1) {nDef : ℕ}
    (hd : nDef < (Finset.univ.image y).card) (i : Fin n)
    (hi : y i < -((Finset.univ.image y).card : ℤ) ∨ ((Finset.univ.image y).card : ℤ) ≤ y i) :
    mkMultiClass (labelArgs alpha nDef y) = .error .indexError := by
  rw [mkMultiClass_labels y h0 h1 hd, mapM_error_of (e := .indexError)]
  · rfl
  · intro x _
    unfold labelRow
    split
    · exact .inr rfl
    · exact .inl ⟨_, rfl⟩
  · refine ⟨y i, by simp [List.mem_ofFn], ?_⟩
    unfold labelRow wrapIdx
    rw [dif_neg (by omega), dif_neg (by omega)]

/-- **C82, exactly when it works.** The object is constructed with the full feedback that has its one in the column of
the class iff every label equals its rank among the distinct labels, or that rank minus `k`. -/
theorem C82_faithful_iff_partial {n : ℕ} (y : Fin n → ℤ) {alpha : K} (h0 : 0 ≤ alpha) (h1 : alpha < 1) {nDef : ℕ}
    (hd : nDef < (Finset.univ.image y).card) :
    (∃ d, mkMultiClass (labelArgs alpha nDef y) = .ok d ∧
        d.y = List.ofFn (fun i => ((Finset.univ.image y).filter (· < y i)).card) ∧
        d.yFull = List.ofFn (fun i => List.ofFn fun a : Fin (Finset.univ.image y).card =>
          if (a : ℕ) = ((Finset.univ.image y).filter (· < y i)).card then (1 : K) else 0)) ↔
      ∀ i, y i = ((Finset.univ.image y).filter (· < y i)).card ∨
        y i = ((Finset.univ.image y).filter (· < y i)).card - ((Finset.univ.image y).card : ℤ) := by
  set k := (Finset.univ.image y).card with hk
  set r : Fin n → ℕ := fun i => ((Finset.univ.image y).filter (· < y i)).card with hr
  have hrk : ∀ i, r i < k := by
    intro i
    refine Finset.card_lt_card ?_
    rw [Finset.ssubset_iff_of_subset (Finset.filter_subset _ _)]
    exact ⟨y i, by simp, by simp⟩
  have hwrap : ∀ (z : ℤ) (c : Fin k), wrapIdx k z = some c ↔ z = (c : ℕ) ∨ z = (c : ℕ) - (k : ℤ) := by
    intro z c
    have := c.isLt
    unfold wrapIdx
    by_cases h1 : 0 ≤ z ∧ z < k
    · rw [dif_pos h1, Option.some.injEq, Fin.ext_iff]
      simp only
      omega
    · rw [dif_neg h1]
      by_cases h2 : z < 0 ∧ 0 ≤ z + k
      · rw [dif_pos h2, Option.some.injEq, Fin.ext_iff]
        simp only
        omega
      · rw [dif_neg h2]
        simp only [reduceCtorEq, false_iff]
        omega
  rw [mkMultiClass_labels y h0 h1 hd]
  constructor
  · rintro ⟨d, hok, -, hfull⟩ i
    obtain ⟨full, hf, hd'⟩ := py_bind_eq_ok.1 hok
    simp only [py_pure, Except.ok.injEq] at hd'
    subst hd'
    simp only at hfull
    subst hfull
    rw [mapM_ok_iff, List.forall₂_iff_get] at hf
    have hrow := hf.2 i (by simp) (by simp)
    simp only [List.get_eq_getElem, List.getElem_ofFn] at hrow
    unfold labelRow at hrow
    split at hrow
    · simp at hrow
    · rename_i c hc
      simp only [Except.ok.injEq] at hrow
      have hcell := congrFun (List.ofFn_injective hrow) c
      simp only [if_true] at hcell
      have : (c : ℕ) = r i := by
        by_contra hne
        rw [if_neg hne] at hcell
        exact one_ne_zero hcell
      have hc' := (hwrap _ _).1 hc
      rw [this] at hc'
      exact hc'
  · intro h
    refine ⟨⟨k, alpha, nDef, List.ofFn r,
      List.ofFn fun i => List.ofFn fun a : Fin k => if (a : ℕ) = r i then (1 : K) else 0⟩, ?_, rfl, rfl⟩
    rw [mapM_ofFn_ok (y := fun i => List.ofFn fun a : Fin k => if (a : ℕ) = r i then (1 : K) else 0), py_bind_ok,
      py_pure]
    intro i
    unfold labelRow
    rw [(hwrap (y i) ⟨r i, hrk i⟩).2 (h i)]
    dsimp only
    congr 2
    funext a
    by_cases ha : (a : ℕ) = r i <;> simp [ha, Fin.ext_iff]

/-- **C82.** In particular it works for labels `0..k-1` that all occur. -/
theorem C82_labels_from_zero_partial {n k : ℕ} (y : Fin n → Fin k) (hy : Function.Surjective y)
    {alpha : K} (h0 : 0 ≤ alpha) (h1 : alpha < 1) {nDef : ℕ} (hd : nDef < k) :
    ∃ d, mkMultiClass (labelArgs alpha nDef fun i => ((y i : ℕ) : ℤ)) = .ok d ∧ d.nActions = k ∧
      d.y = List.ofFn (fun i => (y i : ℕ)) ∧
      d.yFull = List.ofFn (fun i => List.ofFn fun a : Fin k => if a = y i then (1 : K) else 0) :=
  ⟨_, mkMultiClass_fin y hy h0 h1 hd, rfl, rfl, rfl⟩

/-- **C82, failure.** Float labels raise IndexError even if they are whole numbers. -/
theorem C82_float_labels {alpha : K} (h0 : 0 ≤ alpha) (h1 : alpha < 1) (xs : List K) {nDef : ℕ}
    (hd : nDef < xs.dedup.length) :
    mkMultiClass ⟨true, .flt alpha, .int nDef, true, .flt xs⟩ = .error .indexError := by
  unfold mkMultiClass
  dsimp only
  rw [raiseIf_neg (by simp), py_bind_ok, checkAlpha_none h0, py_bind_ok]
  rw [checkIntBetween_int (by omega) (by omega), py_bind_ok, raiseIf_neg (decide_eq_false (not_le.2 h1)), py_bind_ok,
    py_bind_ok]

end

/-- **C82, failure.** The labels `-1` and `1` are accepted but both classes get the one in column 1: a logged round of
class 0 whose action is class 0 is recorded with reward 0. -/
theorem C82_minus_one_one :
    ∃ (d : MultiClassData ℚ) (e : MultiClassEval ℚ) (fb : MultiClassFeedback ℚ),
      mkMultiClass (labelArgs (1 / 2) 0 ![-1, 1]) = .ok d ∧ splitTrainEval d [0, 1] = .ok e ∧
      multiClassFeedback e [0, 1] [[0, 1], [0, 1]] [1 / 2, 1 / 2] = .ok fb ∧
      e.yEv = [0, 1] ∧ fb.action = [0, 1] ∧ fb.reward = [0, 1] := by
  refine ⟨⟨2, 1 / 2, 0, [0, 1], [[0, 1], [0, 1]]⟩, ⟨2, 1 / 2, 0, [0, 1], [[0, 1], [0, 1]]⟩,
    ⟨[0, 1], [0, 1], [[3 / 4, 1 / 4], [1 / 4, 3 / 4]], [3 / 4, 3 / 4]⟩, ?_, ?_, ?_, rfl, rfl, rfl⟩ <;>
    decide +kernel

/-- The hypotheses of `C81_feedback` hold for three classes, five samples and one deficient action. -/
example : ∃ y : Fin 5 → Fin 3, Function.Surjective y ∧ (0 : ℚ) ≤ 1 / 2 ∧ (1 / 2 : ℚ) < 1 ∧ 1 < 3 ∧
    ([2, 0, 1] : List ℕ).Perm (List.range 3) :=
  ⟨![0, 1, 2, 1, 0], by decide, by norm_num, by norm_num, by norm_num, by decide⟩

/-- Labels `1..3` satisfy the hypotheses of `C82_index_error`. -/
example : ∃ i : Fin 3, ((Finset.univ.image (![1, 2, 3] : Fin 3 → ℤ)).card : ℤ) ≤ (![1, 2, 3] : Fin 3 → ℤ) i :=
  ⟨2, by decide⟩

end Obp
