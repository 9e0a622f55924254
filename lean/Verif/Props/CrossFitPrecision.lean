import Verif.Props.CrossFit
import Verif.Props.Variance

/-!
# C194: precision of doubly robust estimates with cross-fitted reward predictions
-/

set_option linter.unusedSectionVars false

namespace Obp
open Log

variable {K : Type} [Field K] [LinearOrder K] [IsStrictOrderedRing K]
variable {n A S L d e : ℕ} {M : Type}

/-! ### rounds of one fold -/

/-- What is logged in a round has no influence on the predictions for any round of the same fold. -/
theorem predictions_of_fold {g g' : RegLog K n A L d e} (hg : g.Valid) (hg' : g'.Valid) {i j : Fin n}
    (hag : AgreeExcept g g' j) {method : FitMethod} {k : ℕ} (hk : 2 ≤ k) {folds : ∀ n, Folds n}
    (hf : IsKFold k (folds n)) (hij : ∀ f ∈ folds n, i ∈ f.2 → j ∈ f.2) {lrn : Learner M K} (hl : lrn.Forgets) (ms ms' : Fin L → M)
    {q q' : List (Fin A → Fin L → K)}
    (h : (g.config method).fitPredict lrn g.args (.int k) folds ms = .ok q)
    (h' : (g'.config method).fitPredict lrn g'.args (.int k) folds ms' = .ok q') :
    q'[i.val]? = q[i.val]? := by
  obtain ⟨-, h1⟩ := C90_regression hg hk hf lrn ms h
  obtain ⟨-, h2⟩ := C90_regression hg' hk hf lrn ms' h'
  obtain ⟨f, hfm, hi, -, -, m0, m1, hfit, hq⟩ := h1 i
  obtain ⟨f', hfm', hi', -, -, m0', m1', hfit', hq'⟩ := h2 i
  obtain rfl := hf.unique hfm hfm' hi hi'
  rw [FittedOn_congr hag fun hj => (hf.train f hfm j).1 hj (hij f hfm hi)] at hfit'
  have : m1' = m1 := by
    funext p
    have a := hfit p
    have b := hfit' p
    rw [hl (m0' p) (m0 p)] at b
    rw [a] at b
    exact (Except.ok.inj b).symm
  rw [hq, hq', this]
  simp only [RegLog.feature, hag.context, hag.table]

/-- The rounds are divided into `k` groups, the test sets. -/
theorem IsKFold.groups {k : ℕ} {folds : Folds n} (hk : IsKFold k folds) :
    ∃ φ : Fin n → Fin k, ∀ i j, φ i = φ j → ∀ f ∈ folds, i ∈ f.2 → j ∈ f.2 := by
  have h : ∀ i, ∃ x : Fin k, i ∈ (folds[x.val]'(by rw [hk.length_eq]; exact x.isLt)).2 := by
    intro i
    obtain ⟨f, hf, hi⟩ := hk.exists i
    obtain ⟨x, hx, rfl⟩ := List.getElem_of_mem hf
    exact ⟨⟨x, by rwa [hk.length_eq] at hx⟩, hi⟩
  choose φ hφ using h
  refine ⟨φ, fun i j hij f hf hi => ?_⟩
  rw [hk.unique hf (List.getElem_mem _) hi (hφ i)]
  simp only [hij]
  exact hφ j

/-! ### sums of terms that average out given the other folds -/

theorem expect_mono {O : Type} [Fintype O] {p : Fin n → O → K} (hp : ∀ i o, 0 ≤ p i o) {f g : (Fin n → O) → K}
    (h : ∀ w, jointProb p w ≠ 0 → f w ≤ g w) : expect p f ≤ expect p g := by
  unfold expect
  refine Finset.sum_le_sum fun w _ => ?_
  by_cases hw : jointProb p w = 0
  · simp [hw]
  · exact mul_le_mul_of_nonneg_left (h w hw) (Finset.prod_nonneg fun i _ => hp i _)

theorem expect_const_mul {O : Type} [Fintype O] {p : Fin n → O → K} (c : K) (f : (Fin n → O) → K) :
    expect p (fun w => c * f w) = c * expect p f := by
  unfold expect
  rw [Finset.mul_sum]
  exact Finset.sum_congr rfl fun w _ => by ring

theorem jointProb_update {O : Type} [Fintype O] {p : Fin n → O → K} {w : Fin n → O} (hw : jointProb p w ≠ 0) {i : Fin n} {o : O}
    (ho : p i o ≠ 0) : jointProb p (Function.update w i o) ≠ 0 := by
  unfold jointProb
  refine Finset.prod_ne_zero_iff.2 fun j _ => ?_
  by_cases hj : j = i
  · subst hj
    rwa [Function.update_self]
  · rw [Function.update_of_ne hj]
    exact jointProb_ne_zero hw j

/-- Terms of the rounds, with expectation zero given the other rounds, that do not depend on the other rounds of the same group: the mean
square of their sum is at most the number of groups times the sum of their mean squares. -/
theorem expect_sq_groups {O : Type} [Fintype O] {p : Fin n → O → K} (hp0 : ∀ i o, 0 ≤ p i o) (hp : ∀ i, ∑ o, p i o = 1) {k : ℕ}
    (φ : Fin n → Fin k) (D : Fin n → (Fin n → O) → K)
    (h0 : ∀ i w, jointProb p w ≠ 0 → expect1 (p i) (fun o => D i (Function.update w i o)) = 0)
    (hloc : ∀ i j w o, jointProb p w ≠ 0 → p j o ≠ 0 → i ≠ j → φ i = φ j → D i (Function.update w j o) = D i w) :
    expect p (fun w => (∑ i, D i w) ^ 2) ≤ k * ∑ i, expect p fun w => D i w ^ 2 := by
  classical
  have hcross : ∀ i j, i ≠ j → φ i = φ j → expect p (fun w => D i w * D j w) = 0 := by
    intro i j hij hφ
    rw [expect_redraw hp i]
    have : ∀ w, jointProb p w ≠ 0 →
        expect1 (p i) (fun o => D i (Function.update w i o) * D j (Function.update w i o)) = 0 := by
      intro w hw
      rw [expect1_congr (g := fun o => D i (Function.update w i o) * D j w)
        fun o ho => by rw [hloc j i w o hw ho hij.symm hφ.symm], expect1_mul_const, h0 i w hw, zero_mul]
    rw [expect_congr this]
    simp [expect]
  have hsq : ∀ x : Fin k, expect p (fun w => (∑ i with φ i = x, D i w) ^ 2) = ∑ i with φ i = x, expect p fun w => D i w ^ 2 := by
    intro x
    have e : ∀ w, (∑ i with φ i = x, D i w) ^ 2 = ∑ i with φ i = x, ∑ j with φ j = x, D i w * D j w := fun w => by
      rw [sq, Finset.sum_mul_sum]
    simp only [e]
    rw [expect_sum]
    refine Finset.sum_congr rfl fun i hi => ?_
    rw [expect_sum, Finset.sum_eq_single i]
    · simp only [sq]
    · intro j hj hji
      exact hcross i j hji.symm ((Finset.mem_filter.1 hi).2.trans (Finset.mem_filter.1 hj).2.symm)
    · exact fun h => absurd hi h
  calc expect p (fun w => (∑ i, D i w) ^ 2)
      ≤ expect p (fun w => (k : K) * ∑ x : Fin k, (∑ i with φ i = x, D i w) ^ 2) := by
        refine expect_mono hp0 fun w _ => ?_
        rw [← Finset.sum_fiberwise Finset.univ φ]
        simpa using sq_sum_le_card_mul_sum_sq (s := (Finset.univ : Finset (Fin k))) (f := fun x => ∑ i with φ i = x, D i w)
    _ = k * ∑ x : Fin k, ∑ i with φ i = x, expect p fun w => D i w ^ 2 := by
        rw [expect_const_mul, expect_sum]
        simp only [hsq]
    _ = k * ∑ i, expect p fun w => D i w ^ 2 := by rw [Finset.sum_fiberwise]

/-! ### the terms of the doubly robust estimate -/

/-- How much one term of the doubly robust estimate changes when the predictions change by `g`. -/
def drShift (piB pi g : Fin A → K) (a : Fin A) : K := (∑ b, g b * pi b) - pi a / piB a * g a

/-- How much predictions that differ by `g` can matter: the mean square of the difference under the evaluation policy, weighted by
importance. -/
def shiftBound (piB pi g : Fin A → K) : K := ∑ a, pi a ^ 2 / piB a * g a ^ 2

theorem drShift_mean {P : Process K n A S} (hP : P.Valid) (i : Fin n) (pi g : Fin A → K) (hsupp : ∀ a, pi a ≠ 0 → P.piB i a ≠ 0) :
    expect1 (P.prob i) (fun o => pi o.1 / P.piB i o.1 * g o.1) = ∑ b, g b * pi b := by
  unfold expect1
  rw [Fintype.sum_prod_type]
  refine Finset.sum_congr rfl fun a _ => ?_
  simp only [Process.prob]
  have h2 : ∀ s, P.piB i a * P.law i a s * (pi a / P.piB i a * g a) = P.law i a s * (g a * pi a) := by
    intro s
    by_cases h0 : pi a = 0
    · simp [h0]
    · have := hsupp a h0
      field_simp
  simp only [h2, ← Finset.sum_mul, (hP.law_dist i a).sum_one, one_mul]

theorem drShift_zero {P : Process K n A S} (hP : P.Valid) (i : Fin n) (pi g : Fin A → K) (hsupp : ∀ a, pi a ≠ 0 → P.piB i a ≠ 0) :
    expect1 (P.prob i) (fun o => drShift (P.piB i) pi g o.1) = 0 := by
  unfold drShift
  rw [expect1_sub, expect1_const (Process.sum_prob hP i), drShift_mean hP i pi g hsupp, sub_self]

theorem drShift_sq {P : Process K n A S} (hP : P.Valid) (i : Fin n) (pi g : Fin A → K) (hsupp : ∀ a, pi a ≠ 0 → P.piB i a ≠ 0) :
    expect1 (P.prob i) (fun o => drShift (P.piB i) pi g o.1 ^ 2) ≤ shiftBound (P.piB i) pi g := by
  have h := variance1_le (Process.sum_prob hP i) (fun o => pi o.1 / P.piB i o.1 * g o.1)
  unfold variance1 at h
  rw [drShift_mean hP i pi g hsupp] at h
  have e1 : expect1 (P.prob i) (fun o => drShift (P.piB i) pi g o.1 ^ 2) =
      expect1 (P.prob i) (fun o => (pi o.1 / P.piB i o.1 * g o.1 - ∑ b, g b * pi b) ^ 2) :=
    congrArg _ (funext fun o => by unfold drShift; ring)
  rw [e1]
  refine h.trans (le_of_eq ?_)
  unfold expect1 shiftBound
  rw [Fintype.sum_prod_type]
  refine Finset.sum_congr rfl fun a _ => ?_
  simp only [Process.prob]
  have h2 : ∀ s, P.piB i a * P.law i a s * (pi a / P.piB i a * g a) ^ 2 = P.law i a s * (pi a ^ 2 / P.piB i a * g a ^ 2) := by
    intro s
    by_cases h0 : pi a = 0
    · simp [h0]
    · have := hsupp a h0
      field_simp
  simp only [h2, ← Finset.sum_mul, (hP.law_dist i a).sum_one, one_mul]

/-! ### the property -/

/-- **C194.** Cross-fitted predictions and fixed predictions `qbar`, whatever they are: the mean square of the difference between the two
doubly robust estimates is at most `k / n` times the average over the rounds of the expected, importance-weighted mean square of the
difference between the predictions. -/
theorem C194_close {P : Process K n A S} (hP : P.Valid) (hn : 0 < n) (pos : Fin n → Fin L) (piE : Fin n → Fin A → Fin L → K)
    (hE : ∀ i l, IsDist fun a => piE i a l) (hsupp : ∀ i a, piE i a (pos i) ≠ 0 → P.piB i a ≠ 0)
    (context : Fin n → Fin d → K) (table : Fin A → Fin e → K) {lrn : Learner M K} (hl : lrn.Forgets) (method : FitMethod) (ms : Fin L → M)
    {k : ℕ} (hk : 2 ≤ k) {folds : ∀ n, Folds n} (hf : IsKFold k (folds n)) {qhat : (Fin n → Fin A × Fin S) → List (Fin A → Fin L → K)}
    (hq : ∀ w, jointProb P.prob w ≠ 0 → ((P.regLog context table pos piE w).config method).fitPredict lrn
      (P.regLog context table pos piE w).args (.int k) folds ms = .ok (qhat w)) (qbar : Fin n → Fin A → Fin L → K) :
    ∃ v vbar, Estimates P.prob (P.drAfterFit lrn method (.int k) folds ms context table pos piE) v ∧
      Estimates P.prob (fun w => (Estimator.mk .dr .inf false).estimatePolicyValue (P.log w P.piB pos piE qbar).args) vbar ∧
      expect P.prob (fun w => (v w - vbar w) ^ 2) ≤ k / n * ((∑ i, expect P.prob fun w =>
        ∑ a, piE i a (pos i) ^ 2 / P.piB i a * (((qhat w).getD i fun _ _ => 0) a (pos i) - qbar i a (pos i)) ^ 2) / n) := by
  classical
  have hb : ∀ w, jointProb P.prob w ≠ 0 → ∀ i, 0 < P.piB i (w i).1 := fun w hw i =>
    lt_of_le_of_ne ((hP.piB_dist i).nonneg _) (left_ne_zero_of_mul (jointProb_ne_zero hw i)).symm
  have hp0 : ∀ i o, 0 ≤ P.prob i o := fun i o => mul_nonneg ((hP.piB_dist i).nonneg _) ((hP.law_dist i _).nonneg _)
  have hv : ∀ w, jointProb P.prob w ≠ 0 → (P.regLog context table pos piE w).Valid := fun w hw => ⟨hn, hb w hw⟩
  set G : (Fin n → Fin A × Fin S) → Fin n → Fin A → K :=
    fun w i a => ((qhat w).getD i fun _ _ => 0) a (pos i) - qbar i a (pos i) with hG
  have hloc : ∀ i j w o, jointProb P.prob w ≠ 0 → P.prob j o ≠ 0 → (∀ f ∈ folds n, i ∈ f.2 → j ∈ f.2) →
      G (Function.update w j o) i = G w i := by
    intro i j w o hw ho hij
    have hw' := jointProb_update hw ho
    have := predictions_of_fold (hv w hw) (hv _ hw') (i := i) (j := j) (method := method)
      ⟨rfl, rfl, fun l hl => by simp [Process.regLog, Function.update_of_ne hl]⟩ hk hf hij hl ms ms (hq w hw) (hq _ hw')
    simp only [hG, List.getD_eq_getElem?_getD, this]
  obtain ⟨φ, hφ⟩ := hf.groups
  set D : Fin n → (Fin n → Fin A × Fin S) → K :=
    fun i w => drShift (P.piB i) (fun a => piE i a (pos i)) (G w i) (w i).1 with hD
  have hn' : (0 : K) < n := by exact_mod_cast hn
  refine ⟨fun w => (∑ i, drTerm P pos piE (fun i => (qhat w).getD i fun _ _ => 0) i (w i)) / (n : K), _, fun w hw => ?_,
    dr_estimates hP hn pos piE qbar hE, ?_⟩
  · show ((P.regLog context table pos piE w).config method).fitPredict lrn (P.regLog context table pos piE w).args (.int k) folds ms >>=
      (fun q => (Estimator.mk .dr .inf false).estimatePolicyValue (P.log w P.piB pos piE fun i => q.getD i fun _ _ => 0).args) = _
    rw [hq w hw, py_bind_ok]
    exact dr_estimates hP hn pos piE (fun i => (qhat w).getD i fun _ _ => 0) hE w hw
  · have hdiff : ∀ w, ((∑ i, drTerm P pos piE (fun i => (qhat w).getD i fun _ _ => 0) i (w i)) / (n : K) -
        (∑ i, drTerm P pos piE qbar i (w i)) / (n : K)) ^ 2 = (∑ i, D i w) ^ 2 / (n : K) ^ 2 := by
      intro w
      rw [← sub_div, ← Finset.sum_sub_distrib, div_pow]
      congr 2
      refine Finset.sum_congr rfl fun i _ => ?_
      simp only [hD, hG, drShift, drTerm, sub_mul, Finset.sum_sub_distrib]
      ring
    simp only [hdiff]
    rw [expect_div]
    have hgr := expect_sq_groups hp0 (Process.sum_prob hP) φ D
      (fun i w hw => by
        rw [expect1_congr (g := fun o => drShift (P.piB i) (fun a => piE i a (pos i)) (G w i) o.1)]
        · exact drShift_zero hP i _ _ (hsupp i)
        · intro o ho
          simp only [hD, Function.update_self]
          rw [hloc i i w o hw ho fun _ _ h => h])
      (fun i j w o hw ho hij hφij => by
        simp only [hD, Function.update_of_ne hij]
        rw [hloc i j w o hw ho (hφ i j hφij)])
    have hterm : ∀ i, expect P.prob (fun w => D i w ^ 2) ≤
        expect P.prob fun w => shiftBound (P.piB i) (fun a => piE i a (pos i)) (G w i) := by
      intro i
      rw [expect_redraw (Process.sum_prob hP) i]
      refine expect_mono hp0 fun w hw => ?_
      rw [expect1_congr (g := fun o => drShift (P.piB i) (fun a => piE i a (pos i)) (G w i) o.1 ^ 2)]
      · exact drShift_sq hP i _ _ (hsupp i)
      · intro o ho
        simp only [hD, Function.update_self]
        rw [hloc i i w o hw ho fun _ _ h => h]
    have hk0 : (0 : K) ≤ k := Nat.cast_nonneg k
    calc expect P.prob (fun w => (∑ i, D i w) ^ 2) / (n : K) ^ 2
        ≤ (k * ∑ i, expect P.prob fun w => shiftBound (P.piB i) (fun a => piE i a (pos i)) (G w i)) / (n : K) ^ 2 := by
          gcongr
          exact hgr.trans (mul_le_mul_of_nonneg_left (Finset.sum_le_sum fun i _ => hterm i) hk0)
      _ = _ := by
          simp only [shiftBound, hG]
          field_simp

/-- **C194.** Hence the variance with cross-fitted predictions exceeds that with the fixed predictions `qbar` only little: by the factor
`1 + c` and by `1 + 1 / c` times the bound of `C194_close`, for every `c > 0`. -/
theorem C194_variance {P : Process K n A S} (hP : P.Valid) (hn : 0 < n) (pos : Fin n → Fin L) (piE : Fin n → Fin A → Fin L → K)
    (hE : ∀ i l, IsDist fun a => piE i a l) (hsupp : ∀ i a, piE i a (pos i) ≠ 0 → P.piB i a ≠ 0)
    (context : Fin n → Fin d → K) (table : Fin A → Fin e → K) {lrn : Learner M K} (hl : lrn.Forgets) (method : FitMethod) (ms : Fin L → M)
    {k : ℕ} (hk : 2 ≤ k) {folds : ∀ n, Folds n} (hf : IsKFold k (folds n)) {qhat : (Fin n → Fin A × Fin S) → List (Fin A → Fin L → K)}
    (hq : ∀ w, jointProb P.prob w ≠ 0 → ((P.regLog context table pos piE w).config method).fitPredict lrn
      (P.regLog context table pos piE w).args (.int k) folds ms = .ok (qhat w)) (qbar : Fin n → Fin A → Fin L → K) :
    ∃ v vbar, Estimates P.prob (P.drAfterFit lrn method (.int k) folds ms context table pos piE) v ∧
      Estimates P.prob (fun w => (Estimator.mk .dr .inf false).estimatePolicyValue (P.log w P.piB pos piE qbar).args) vbar ∧
      ∀ c, 0 < c → variance P.prob v ≤ (1 + c) * variance P.prob vbar + (1 + 1 / c) * (k / n * ((∑ i, expect P.prob fun w =>
        ∑ a, piE i a (pos i) ^ 2 / P.piB i a * (((qhat w).getD i fun _ _ => 0) a (pos i) - qbar i a (pos i)) ^ 2) / n)) := by
  have hp0 : ∀ i o, 0 ≤ P.prob i o := fun i o => mul_nonneg ((hP.piB_dist i).nonneg _) ((hP.law_dist i _).nonneg _)
  obtain ⟨v, vbar, hv, hvbar, hclose⟩ := C194_close hP hn pos piE hE hsupp context table hl method ms hk hf hq qbar
  obtain ⟨v', hv', hmean⟩ := C182_cross_fitted_dr hP hn pos piE hE hsupp context table hl method ms hk hf fun w hw => ⟨_, hq w hw⟩
  have h1 : expect P.prob v = P.policyValue fun i a => piE i a (pos i) := by
    rw [← hmean]
    exact expect_congr fun w hw => Except.ok.inj ((hv w hw).symm.trans (hv' w hw))
  have h2 : expect P.prob vbar = P.policyValue fun i a => piE i a (pos i) := by
    rw [← dr_out_of_sample hP pos piE hsupp (fun _ => qbar) fun _ _ _ _ _ _ => rfl]
    exact expect_congr fun w hw => Except.ok.inj ((hvbar w hw).symm.trans (dr_estimates hP hn pos piE qbar hE w hw))
  refine ⟨v, vbar, hv, hvbar, fun c hc => ?_⟩
  unfold variance
  rw [h1, h2]
  generalize P.policyValue (fun i a => piE i a (pos i)) = μ
  calc expect P.prob (fun w => (v w - μ) ^ 2)
      ≤ expect P.prob (fun w => (1 + c) * (vbar w - μ) ^ 2 + (1 + 1 / c) * (v w - vbar w) ^ 2) := by
        refine expect_mono hp0 fun w _ => ?_
        have hsq : 0 ≤ (c * (vbar w - μ) - (v w - vbar w)) ^ 2 / c := div_nonneg (sq_nonneg _) hc.le
        have e : (1 + c) * (vbar w - μ) ^ 2 + (1 + 1 / c) * (v w - vbar w) ^ 2 =
            (v w - μ) ^ 2 + (c * (vbar w - μ) - (v w - vbar w)) ^ 2 / c := by
          field_simp
          ring
        rw [e]
        exact le_add_of_nonneg_right hsq
    _ = (1 + c) * expect P.prob (fun w => (vbar w - μ) ^ 2) + (1 + 1 / c) * expect P.prob (fun w => (v w - vbar w) ^ 2) := by
        rw [expect_add, expect_const_mul, expect_const_mul]
    _ ≤ _ := by
        have : 0 < 1 / c := one_div_pos.2 hc
        gcongr

theorem le_sq_of_forall {x a b : ℝ} (ha : 0 ≤ a) (hb : 0 ≤ b) (h : ∀ c, 0 < c → x ≤ (1 + c) * a + (1 + 1 / c) * b) :
    √x ≤ √a + √b := by
  rw [Real.sqrt_le_left (by positivity)]
  rcases ha.eq_or_lt with rfl | ha
  · have : ∀ η > 0, x ≤ b + η := by
      intro η hη
      rcases hb.eq_or_lt with rfl | hb
      · have := h 1 one_pos
        simp at this
        linarith
      · have := h (b / η) (by positivity)
        have e : (1 + b / η) * 0 + (1 + 1 / (b / η)) * b = b + η := by field_simp; ring
        rwa [e] at this
    simpa [Real.sq_sqrt hb] using le_of_forall_pos_le_add this
  · rcases hb.eq_or_lt with rfl | hb
    · have : ∀ η > 0, x ≤ a + η := by
        intro η hη
        have := h (η / a) (by positivity)
        have e : (1 + η / a) * a + (1 + 1 / (η / a)) * 0 = a + η := by field_simp; ring
        rwa [e] at this
      simpa [Real.sq_sqrt ha.le] using le_of_forall_pos_le_add this
    · have hsa := Real.sqrt_pos.2 ha
      have hsb := Real.sqrt_pos.2 hb
      have h1 := h (√b / √a) (by positivity)
      have h2 := Real.sq_sqrt ha.le
      have h3 := Real.sq_sqrt hb.le
      generalize √a = s at *
      generalize √b = t at *
      subst h2 h3
      refine h1.trans (le_of_eq ?_)
      field_simp
      ring

/-- **C194.** Standard errors (over the real numbers): if `qbar` is the expected reward, whose predictions give the smallest variance of
all fixed ones, and importance weights are at most `W`, the standard error with cross-fitted predictions is at most the smallest possible one plus
the square root of `k W / n` times the root mean square error of the predictions under the evaluation policy. -/
theorem C194_standard_error {P : Process ℝ n A S} (hP : P.Valid) (hn : 0 < n) (pos : Fin n → Fin L) (piE : Fin n → Fin A → Fin L → ℝ)
    (hE : ∀ i l, IsDist fun a => piE i a l) {W : ℝ} (hW : ∀ i a, piE i a (pos i) ≤ W * P.piB i a)
    (context : Fin n → Fin d → ℝ) (table : Fin A → Fin e → ℝ) {lrn : Learner M ℝ} (hl : lrn.Forgets) (method : FitMethod) (ms : Fin L → M)
    {k : ℕ} (hk : 2 ≤ k) {folds : ∀ n, Folds n} (hf : IsKFold k (folds n)) {qhat : (Fin n → Fin A × Fin S) → List (Fin A → Fin L → ℝ)}
    (hq : ∀ w, jointProb P.prob w ≠ 0 → ((P.regLog context table pos piE w).config method).fitPredict lrn
      (P.regLog context table pos piE w).args (.int k) folds ms = .ok (qhat w)) (q' : Fin n → Fin A → Fin L → ℝ) :
    ∃ v v', Estimates P.prob (P.drAfterFit lrn method (.int k) folds ms context table pos piE) v ∧
      Estimates P.prob (fun w => (Estimator.mk .dr .inf false).estimatePolicyValue (P.log w P.piB pos piE q').args) v' ∧
      √(variance P.prob v) ≤ √(variance P.prob v') + √(k * W / n * ((∑ i, expect P.prob fun w =>
        ∑ a, piE i a (pos i) * (((qhat w).getD i fun _ _ => 0) a (pos i) - P.meanReward i a) ^ 2) / n)) := by
  have hp0 : ∀ i o, 0 ≤ P.prob i o := fun i o => mul_nonneg ((hP.piB_dist i).nonneg _) ((hP.law_dist i _).nonneg _)
  have hsupp : ∀ i a, piE i a (pos i) ≠ 0 → P.piB i a ≠ 0 := fun i a h h0 =>
    h (le_antisymm ((hW i a).trans_eq (by rw [h0, mul_zero])) ((hE i (pos i)).nonneg a))
  obtain ⟨v, vbar, hv, hvbar, hvar⟩ := C194_variance hP hn pos piE hE hsupp context table hl method ms hk hf hq
    fun i a _ => P.meanReward i a
  obtain ⟨u, v', hu, hv', hbest⟩ := C164_dr_best hP hn pos piE (fun i a _ => P.meanReward i a) q' hE fun _ _ => rfl
  have hle : variance P.prob vbar ≤ variance P.prob v' := by
    rwa [variance_estimates hvbar hu]
  have hW0 : 0 ≤ W := by
    have h1 := Finset.sum_le_sum fun a (_ : a ∈ Finset.univ) => hW ⟨0, hn⟩ a
    rw [(hE ⟨0, hn⟩ _).sum_one, ← Finset.mul_sum, (hP.piB_dist ⟨0, hn⟩).sum_one, mul_one] at h1
    exact zero_le_one.trans h1
  have hnn : ∀ f : (Fin n → Fin A × Fin S) → ℝ, (∀ w, 0 ≤ f w) → 0 ≤ expect P.prob f := fun f h =>
    Finset.sum_nonneg fun w _ => mul_nonneg (Finset.prod_nonneg fun i _ => hp0 i _) (h w)
  refine ⟨v, v', hv, hv', le_sq_of_forall (hnn _ fun w => sq_nonneg _) ?_ fun c hc => ?_⟩
  · refine mul_nonneg (by positivity) (div_nonneg (Finset.sum_nonneg fun i _ => hnn _ fun w => ?_) (by positivity))
    exact Finset.sum_nonneg fun a _ => mul_nonneg ((hE i _).nonneg a) (sq_nonneg _)
  · refine (hvar c hc).trans (add_le_add (by gcongr) (mul_le_mul_of_nonneg_left ?_ (by positivity)))
    have e : ∀ x : ℝ, k * W / n * (x / n) = k / n * (W * x / n) := fun x => by ring
    rw [e]
    refine mul_le_mul_of_nonneg_left (div_le_div_of_nonneg_right ?_ (by positivity)) (by positivity)
    rw [Finset.mul_sum]
    refine Finset.sum_le_sum fun i _ => ?_
    rw [← expect_const_mul]
    refine expect_mono hp0 fun w _ => ?_
    rw [Finset.mul_sum]
    refine Finset.sum_le_sum fun a _ => ?_
    rw [← mul_assoc]
    refine mul_le_mul_of_nonneg_right ?_ (sq_nonneg _)
    have h0 := (hE i (pos i)).nonneg a
    rcases eq_or_ne (P.piB i a) 0 with hz | hz
    · rw [hz, div_zero]
      exact mul_nonneg hW0 h0
    · have hpos := lt_of_le_of_ne ((hP.piB_dist i).nonneg a) hz.symm
      rw [div_le_iff₀ hpos]
      calc piE i a (pos i) ^ 2 = piE i a (pos i) * piE i a (pos i) := sq _
        _ ≤ piE i a (pos i) * (W * P.piB i a) := mul_le_mul_of_nonneg_left (hW i a) h0
        _ = W * piE i a (pos i) * P.piB i a := by ring

/-! ### an example -/

/-- Fitting succeeds in the example of C182. -/
theorem exFit_predictions : ∃ qhat : (Fin 2 → Fin 2 × Fin 1) → List (Fin 2 → Fin 1 → ℚ), ∀ w, jointProb exFitProcess.prob w ≠ 0 →
    ((exFitProcess.regLog (fun _ (_ : Fin 1) => 0) (fun a (b : Fin 2) => if a = b then 1 else 0) (fun _ => 0) exFitPiE w).config
      .normal).fitPredict meanLearner (exFitProcess.regLog (fun _ (_ : Fin 1) => 0) (fun a (b : Fin 2) => if a = b then 1 else 0)
        (fun _ => 0) exFitPiE w).args (.int (2 : ℕ)) exFolds (fun _ => 0) = .ok (qhat w) := by
  have h := C182_training_succeeds exFitProcess_valid (fun _ => 0) exFitPiE exFitPiE_dist (fun _ (_ : Fin 1) => 0)
    (fun a (b : Fin 2) => if a = b then 1 else 0) (lrn := meanLearner) (fun _ _ y _ => ⟨_, rfl⟩) .normal (fun _ => 0) (k := 2) le_rfl le_rfl
    (folds := exFolds) (by decide)
  choose! q hq using h
  exact ⟨q, hq⟩

example (qbar) := C194_close exFitProcess_valid two_pos (fun _ => 0) exFitPiE exFitPiE_dist (fun _ _ _ => by norm_num [exFitProcess])
  (fun _ (_ : Fin 1) => 0) (fun a (b : Fin 2) => if a = b then 1 else 0) meanLearner_forgets .normal (fun _ => 0) le_rfl exFolds_isKFold
  exFit_predictions.choose_spec qbar
example (qbar) := C194_variance exFitProcess_valid two_pos (fun _ => 0) exFitPiE exFitPiE_dist (fun _ _ _ => by norm_num [exFitProcess])
  (fun _ (_ : Fin 1) => 0) (fun a (b : Fin 2) => if a = b then 1 else 0) meanLearner_forgets .normal (fun _ => 0) le_rfl exFolds_isKFold
  exFit_predictions.choose_spec qbar

/-- The same process over the real numbers. -/
noncomputable def exFitReal : Process ℝ 2 2 1 where
  piB := fun _ _ => 1 / 2
  law := fun _ _ _ => 1
  val := fun _ a _ => a.val

theorem exFitReal_valid : exFitReal.Valid :=
  ⟨fun _ => ⟨fun _ => by norm_num [exFitReal], by norm_num [exFitReal, Fin.sum_univ_two]⟩,
    fun _ _ => ⟨fun _ => by norm_num [exFitReal], by norm_num [exFitReal]⟩⟩

/-- The evaluation policy that always takes action zero. -/
def exFitPiEReal : Fin 2 → Fin 2 → Fin 1 → ℝ := fun _ a _ => if a = 0 then 1 else 0

theorem exFitPiEReal_dist : ∀ i l, IsDist fun a => exFitPiEReal i a l :=
  fun i l => ⟨fun a => by unfold exFitPiEReal; split_ifs <;> norm_num, by simp [exFitPiEReal]⟩

/-- A base model that predicts the mean of the rewards it has been fitted on. -/
noncomputable def meanLearnerReal : Learner ℝ ℝ where
  fit := fun _ _ y _ => .ok (y.sum / y.length)
  predict := fun m _ => m

theorem exFitReal_predictions : ∃ qhat : (Fin 2 → Fin 2 × Fin 1) → List (Fin 2 → Fin 1 → ℝ), ∀ w, jointProb exFitReal.prob w ≠ 0 →
    ((exFitReal.regLog (fun _ (_ : Fin 1) => 0) (fun a (b : Fin 2) => if a = b then 1 else 0) (fun _ => 0) exFitPiEReal w).config
      .normal).fitPredict meanLearnerReal (exFitReal.regLog (fun _ (_ : Fin 1) => 0) (fun a (b : Fin 2) => if a = b then 1 else 0)
        (fun _ => 0) exFitPiEReal w).args (.int (2 : ℕ)) exFolds (fun _ => 0) = .ok (qhat w) := by
  have h := C182_training_succeeds exFitReal_valid (fun _ => 0) exFitPiEReal exFitPiEReal_dist (fun _ (_ : Fin 1) => 0)
    (fun a (b : Fin 2) => if a = b then 1 else 0) (lrn := meanLearnerReal) (fun _ _ y _ => ⟨_, rfl⟩) .normal (fun _ => 0) (k := 2) le_rfl
    le_rfl (folds := exFolds) (by decide)
  choose! q hq using h
  exact ⟨q, hq⟩

example (q') := C194_standard_error exFitReal_valid two_pos (fun _ => 0) exFitPiEReal exFitPiEReal_dist (W := 2)
  (fun _ a => by simp only [exFitPiEReal, exFitReal]; split_ifs <;> norm_num)
  (fun _ (_ : Fin 1) => 0) (fun a (b : Fin 2) => if a = b then 1 else 0) (lrn := meanLearnerReal) (fun _ _ _ _ _ => rfl) .normal (fun _ => 0)
  le_rfl exFolds_isKFold exFitReal_predictions.choose_spec q'

end Obp
