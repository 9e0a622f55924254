import Verif.Spec.SlateRegression
import Verif.Lemmas.Regression
import Verif.Props.SlateChecks

/-! # C92: `SlateRegressionModel` -/

set_option linter.unusedSectionVars false

namespace Obp

variable {K : Type} [Field K] [LinearOrder K] [IsStrictOrderedRing K] {M : Type} {n L A d : ℕ}

/-- the loop from the last position to the first, where the fit of a position may use the models of later
positions -/
theorem foldlM_update_back (f : Fin L → (Fin L → M) → M → Py M)
    (hf : ∀ p ms ms', (∀ q, p < q → ms q = ms' q) → f p ms = f p ms') (ms ms' : Fin L → M) :
    (List.finRange L).reverse.foldlM (fun ms p => do
        let m ← f p ms (ms p); pure (Function.update ms p m)) ms = (.ok ms' : Py _) ↔
      ∀ p, f p ms' (ms p) = .ok (ms' p) := by
  -- generalised: after the positions above `k` have been processed
  have key : ∀ (l : List (Fin L)) (ms0 : Fin L → M), l.Pairwise (fun a b => b < a) →
      (∀ q, q ∉ l → ∀ p ∈ l, p < q) →
      (l.foldlM (fun ms p => do
        let m ← f p ms (ms p); pure (Function.update ms p m)) ms0 = (.ok ms' : Py _) ↔
        (∀ p ∈ l, f p ms' (ms0 p) = .ok (ms' p)) ∧ ∀ p ∉ l, ms' p = ms0 p) := by
    intro l
    induction l with
    | nil =>
      intro ms0 _ _
      simp only [List.foldlM_nil, py_pure, Except.ok.injEq, List.not_mem_nil, false_imp_iff, implies_true,
        not_false_eq_true, true_and, forall_true_left]
      exact ⟨fun h => by simp [h], fun h => funext fun p => (h p).symm⟩
    | cons p l ih =>
      intro ms0 hl habove
      rw [List.pairwise_cons] at hl
      have hpl : p ∉ l := fun h => lt_irrefl _ (hl.1 p h)
      have habove' : ∀ q, q ∉ l → ∀ r ∈ l, r < q := by
        intro q hq r hr
        by_cases hqp : q = p
        · subst hqp; exact hl.1 r hr
        · exact habove q (by simp [hqp, hq]) r (List.mem_cons_of_mem _ hr)
      rw [List.foldlM_cons]
      -- the models used at `p` are those of later positions, which are final
      have hfin : (∀ q ∉ p :: l, ms' q = ms0 q) → f p ms0 = f p ms' := by
        intro h
        refine hf p _ _ fun q hq => (h q ?_).symm
        intro hmem
        rcases List.mem_cons.1 hmem with rfl | hmem
        · exact lt_irrefl _ hq
        · exact lt_asymm hq (hl.1 q hmem)
      cases hfp : f p ms0 (ms0 p) with
      | error err =>
        simp only [py_bind_error]
        constructor
        · rintro ⟨⟩
        · rintro ⟨h1, h2⟩
          have := h1 p List.mem_cons_self
          rw [← hfin h2, hfp] at this
          cases this
      | ok m =>
        change List.foldlM (fun ms p => do let m ← f p ms (ms p); pure (Function.update ms p m))
          (Function.update ms0 p m) l = _ ↔ _
        rw [ih _ hl.2 habove']
        constructor
        · rintro ⟨h1, h2⟩
          have h2' : ∀ q ∉ p :: l, ms' q = ms0 q := by
            intro q hq
            rw [List.mem_cons, not_or] at hq
            rw [h2 q hq.2, Function.update_of_ne hq.1]
          refine ⟨fun q hq => ?_, h2'⟩
          rcases List.mem_cons.1 hq with rfl | hq
          · rw [← hfin h2', hfp, h2 q hpl, Function.update_self]
          · have hne : q ≠ p := fun h => hpl (h ▸ hq)
            have := h1 q hq
            rwa [Function.update_of_ne hne] at this
        · rintro ⟨h1, h2⟩
          have hp := h1 p List.mem_cons_self
          rw [← hfin h2, hfp] at hp
          refine ⟨fun q hq => ?_, fun q hq => ?_⟩
          · have hne : q ≠ p := fun h => hpl (h ▸ hq)
            rw [Function.update_of_ne hne]
            exact h1 q (List.mem_cons_of_mem _ hq)
          · by_cases hqp : q = p
            · subst hqp; rw [Function.update_self]; exact (Except.ok.inj hp).symm
            · rw [Function.update_of_ne hqp]
              exact h2 q (by simp [hqp, hq])
  rw [key _ ms ?_ ?_]
  · simp
  · rw [List.pairwise_reverse]
    exact List.pairwise_lt_finRange L
  · intro q hq
    simp at hq

namespace SlateRegLog

/-- the validated row of a slate -/
def row (g : SlateRegLog K n L A d) (i : Fin n) : SlateRegRow K L A where
  x := List.ofFn (g.context i)
  action := fun l => g.action i l
  reward := g.reward i
  iw := fun l => g.evalPscore i l / g.pscore i l
  dist := g.dist i

theorem getD_flatten2 {α : Type} {N m : ℕ} (f : Fin N → Fin m → α) (i : Fin N) (b : Fin m) (x : α) :
    (flatten2 f).getD ((i : ℕ) * m + b) x = f i b := by
  rw [List.getD_eq_getElem?_getD, flatten2_getElem?]
  rfl

theorem mem_flatten2 {α : Type} {N m : ℕ} {f : Fin N → Fin m → α} {x : α} (h : x ∈ flatten2 f) :
    ∃ i b, f i b = x := by
  obtain ⟨j, rfl⟩ := List.mem_ofFn.1 h
  exact ⟨_, _, rfl⟩

theorem divModNat {N m : ℕ} (i : Fin N) (b : Fin m) (h : (i : ℕ) * m + b < N * m) :
    (⟨(i : ℕ) * m + b, h⟩ : Fin (N * m)).divNat = i ∧ (⟨(i : ℕ) * m + b, h⟩ : Fin (N * m)).modNat = b := by
  have hm : 0 < m := lt_of_le_of_lt (Nat.zero_le _) b.isLt
  constructor
  · ext; simp [Fin.divNat, Nat.mul_comm _ m, Nat.mul_add_div hm, Nat.div_eq_of_lt b.isLt]
  · ext; simp [Fin.modNat, Nat.mul_comm _ m, Nat.mod_eq_of_lt b.isLt]

theorem mul_add_lt {N m : ℕ} (i : Fin N) (b : Fin m) : (i : ℕ) * m + b < N * m := by
  have := i.isLt; have := b.isLt
  calc (i : ℕ) * m + b < (i : ℕ) * m + m := by omega
    _ = ((i : ℕ) + 1) * m := by ring
    _ ≤ N * m := Nat.mul_le_mul_right _ i.isLt

theorem prepare_ok {g : SlateRegLog K n L A d} (hg : g.Valid) :
    prepareSlateReg L A g.args = .ok (List.ofFn g.row) := by
  have hnL : 0 < n * L := Nat.mul_pos hg.rounds hg.positions
  have hps : ∀ (x : Fin n → Fin L → K), (∀ i l, 0 < x i l ∧ x i l ≤ 1) →
      (flatten2 x).any (fun p => decide (p ≤ 0) || decide (1 < p)) = false := by
    intro x hx
    rw [List.any_eq_false]
    intro p hp
    obtain ⟨i, l, rfl⟩ := mem_flatten2 hp
    simp [(hx i l).1, (hx i l).2]
  have hint : intInRange (K := K) (.int (flatten2 fun i l => ((g.action i l : ℕ) : ℤ))) A = .ok true := by
    rw [intInRange_ok_true]
    refine ⟨_, rfl, ?_, ?_⟩
    · intro h
      have := congrArg List.length h
      rw [flatten2_length, List.length_nil] at this
      omega
    · intro z hz
      obtain ⟨i, l, rfl⟩ := mem_flatten2 hz
      exact ⟨Int.natCast_nonneg _, by exact_mod_cast (g.action i l).isLt⟩
  have hsum : (List.range (n * L)).any (fun j =>
      !oneCloseTo (∑ b : Fin A, (flatten2 fun j : Fin (n * L) => g.dist j.divNat j.modNat).getD (j * A + b) 0)) =
        false := by
    rw [List.any_eq_false]
    intro j hj
    have hj' : j < n * L := by simpa using hj
    have : ∀ b : Fin A, (flatten2 fun j : Fin (n * L) => g.dist j.divNat j.modNat).getD (j * A + b) 0 =
        g.dist (⟨j, hj'⟩ : Fin (n * L)).divNat (⟨j, hj'⟩ : Fin (n * L)).modNat b := fun b =>
      getD_flatten2 (fun j : Fin (n * L) => g.dist j.divNat j.modNat) ⟨j, hj'⟩ b 0
    simp only [this, hg.dist, oneCloseTo]
    norm_num
  unfold prepareSlateReg
  simp only [args, checkArray2, checkArray1, Arg1.shape0, py_bind_ok, flatten2_length, and_self, hint, Arg1.vals, Arg1.ints]
  rw [raiseIf_neg (by simp), py_bind_ok, raiseIf_neg (by simp), py_bind_ok, raiseIf_neg (by simp), py_bind_ok,
    raiseIf_neg (hps _ hg.pscore), py_bind_ok, raiseIf_neg (hps _ hg.evalPscore), py_bind_ok,
    raiseIf_neg hsum, py_bind_ok, py_pure]
  congr 2
  funext i
  have hd : ∀ (l : Fin L) (b : Fin A), (flatten2 fun j : Fin (n * L) => g.dist j.divNat j.modNat).getD
      (((i : ℕ) * L + l) * A + b) 0 = g.dist i l b := by
    intro l b
    have := getD_flatten2 (fun j : Fin (n * L) => g.dist j.divNat j.modNat) ⟨(i : ℕ) * L + l, mul_add_lt i l⟩ b 0
    rw [(divModNat i l _).1, (divModNat i l _).2] at this
    exact this
  simp only [row, getD_flatten2, hd]
  congr 1

theorem finRange_filter_succ (p : Fin L) :
    (List.finRange L).filter (fun l => l.val < p.val + 1) =
      (List.finRange L).filter (fun l => l.val < p.val) ++ [p] := by
  have h1 : ∀ k, k ≤ L → (List.finRange L).filter (fun l => decide (l.val < k)) = (List.finRange L).take k := by
    intro k hk
    have hsplit : List.finRange L = (List.finRange L).take k ++ (List.finRange L).drop k :=
      (List.take_append_drop k _).symm
    conv_lhs => rw [hsplit]
    rw [List.filter_append, List.filter_eq_self.2, List.filter_eq_nil_iff.2, List.append_nil]
    · intro x hx
      obtain ⟨j, hj, rfl⟩ := List.mem_iff_getElem.1 hx
      simp
    · intro x hx
      obtain ⟨j, hj, rfl⟩ := List.mem_iff_getElem.1 hx
      simp at hj ⊢
      omega
  rw [h1 _ (by omega), h1 _ (by omega), List.take_add_one]
  simp

theorem feature_eq (g : SlateRegLog K n L A d) (i : Fin n) (p : Fin L) :
    (g.row i).x ++ (g.row i).prefix (p.val + 1) = g.feature i p := by
  unfold feature query SlateRegRow.prefix
  rw [finRange_filter_succ, List.map_append]
  rfl

theorem feature_append (g : SlateRegLog K n L A d) (i : Fin n) (p : Fin L) (b : ℕ) :
    g.query i (p.val + 1) b = g.feature i p ++ [(b : K)] := by
  unfold feature query
  rw [finRange_filter_succ, List.map_append]
  simp

end SlateRegLog

open SlateRegLog

/-- **C92.** On valid slates `fit` succeeds iff the base model's fits do, and then the model of every
position has been fitted on (context, actions up to the position) with target: reward at the position plus the
evaluation policy's expectation of the prediction that the fitted model of the next position makes for the
slate continued with each action (plus zero at the last position); with weights one or the cascade importance
weights. -/
theorem C92_fit {g : SlateRegLog K n L A d} (hg : g.Valid) (lrn : Learner M K) (useIw : Bool)
    (ms ms' : Fin L → M) :
    slateFit lrn useIw A g.args ms = .ok ms' ↔
      ∀ p : Fin L, lrn.fit (ms p)
        (List.ofFn fun i => g.feature i p)
        (List.ofFn fun i => g.reward i p +
          if h : p.val + 1 < L then
            ∑ b : Fin A, g.dist i ⟨p.val + 1, h⟩ b *
              lrn.predict (ms' ⟨p.val + 1, h⟩) (g.feature i p ++ [(b.val : K)])
          else 0)
        (some (List.ofFn fun i => g.weight useIw i p)) = .ok (ms' p) := by
  unfold slateFit
  rw [prepare_ok hg, py_bind_ok]
  unfold slateFitRows
  rw [foldlM_update_back (fun p ms m => lrn.fit m ((List.ofFn g.row).map fun r => r.x ++ r.prefix (p.val + 1))
    ((List.ofFn g.row).map fun r => slateTarget lrn ms r p)
    (some ((List.ofFn g.row).map fun r => if useIw then r.iw p else 1)))]
  · refine forall_congr' fun p => ?_
    simp only [List.map_ofFn]
    have e1 : ((fun r : SlateRegRow K L A => r.x ++ r.prefix (p.val + 1)) ∘ g.row) = fun i => g.feature i p :=
      funext fun i => g.feature_eq i p
    have e2 : ((fun r : SlateRegRow K L A => slateTarget lrn ms' r p) ∘ g.row) = fun i => g.reward i p +
          if h : p.val + 1 < L then
            ∑ b : Fin A, g.dist i ⟨p.val + 1, h⟩ b *
              lrn.predict (ms' ⟨p.val + 1, h⟩) (g.feature i p ++ [(b.val : K)])
          else 0 := by
      funext i
      simp only [Function.comp, slateTarget, ← List.append_assoc, feature_eq]
      rfl
    rw [e1, e2]
    rfl
  · intro p ms1 ms2 h
    funext m
    have : (fun r : SlateRegRow K L A => slateTarget lrn ms1 r p) = fun r => slateTarget lrn ms2 r p := by
      funext r
      unfold slateTarget
      by_cases hp : p.val + 1 < L
      · rw [dif_pos hp, dif_pos hp, h ⟨p.val + 1, hp⟩ (by simp [Fin.lt_def])]
      · rw [dif_neg hp, dif_neg hp]
    rw [this]

/-- **C92.** `fit_predict` with a learner that averages: if the evaluation policy at a position depends only on
the context and the preceding actions, and every action it can take after a logged prefix occurs in the logged
data after that prefix, then every prediction for features that occur in the data is exactly the expected
reward of the position and all later ones under the evaluation policy, with respect to the (weighted)
average rewards of the logged data. -/
theorem C92_exact {g : SlateRegLog K n L A d} (hg : g.Valid) {lrn : Learner M K} (hl : lrn.Averages)
    (useIw : Bool) (ms : Fin L → M) {q : List K} (h : slateFitPredict lrn useIw A g.args ms = .ok q)
    (pol : ℕ → List K → Fin A → K)
    (hpol : ∀ i (p : Fin L) (hp : p.val + 1 < L) b, g.dist i ⟨p.val + 1, hp⟩ b = pol (p.val + 1) (g.feature i p) b)
    (hcov : ∀ i (p : Fin L) (hp : p.val + 1 < L) (b : Fin A), g.dist i ⟨p.val + 1, hp⟩ b ≠ 0 →
      ∃ j, g.feature j ⟨p.val + 1, hp⟩ = g.feature i p ++ [(b.val : K)]) :
    q.length = n * L * A ∧
    ∀ (i : Fin n) (p : Fin L) (b : Fin A), (∃ j, g.feature j p = g.query i p b) →
      q[((i : ℕ) * L + p) * A + b]? = some (expectedRemaining
        (fun p f => if hp : p < L then g.meanReward useIw ⟨p, hp⟩ f else 0) pol (L - 1 - p) p (g.query i p b)) := by
  unfold slateFitPredict at h
  rw [py_bind_eq_ok] at h
  obtain ⟨ms', hfit, hq⟩ := h
  rw [C92_fit hg] at hfit
  have hw : ∀ i p, 0 < g.weight useIw i p := by
    intro i p
    unfold SlateRegLog.weight
    split
    · exact div_pos (hg.evalPscore i p).1 (hg.pscore i p).1
    · exact one_pos
  -- backward induction over positions
  have key : ∀ k (p : Fin L), L - 1 - p.val = k → ∀ f, (∃ j, g.feature j p = f) →
      lrn.predict (ms' p) f = expectedRemaining
        (fun p f => if hp : p < L then g.meanReward useIw ⟨p, hp⟩ f else 0) pol k p f := by
    intro k
    induction k with
    | zero =>
      rintro p hp f ⟨j, hj⟩
      have hlast : ¬ p.val + 1 < L := by omega
      have hpos : 0 < ∑ i with g.feature i p = f, g.weight useIw i p :=
        Finset.sum_pos (fun i _ => hw i p) ⟨j, by simpa using hj⟩
      have := hl n _ _ _ _ _ (hfit p) f hpos.ne'
      rw [this]
      simp only [dif_neg hlast, add_zero, expectedRemaining, dif_pos p.isLt]
      rfl
    | succ k ih =>
      rintro p hp f ⟨j, hj⟩
      have hnext : p.val + 1 < L := by omega
      have hpos : 0 < ∑ i with g.feature i p = f, g.weight useIw i p :=
        Finset.sum_pos (fun i _ => hw i p) ⟨j, by simpa using hj⟩
      have := hl n _ _ _ _ _ (hfit p) f hpos.ne'
      rw [this]
      simp only [dif_pos hnext, expectedRemaining, dif_pos p.isLt]
      -- the next-position value is the same for all slates with these features
      have hv : ∀ i, g.feature i p = f → ∑ b : Fin A, g.dist i ⟨p.val + 1, hnext⟩ b *
            lrn.predict (ms' ⟨p.val + 1, hnext⟩) (g.feature i p ++ [(b.val : K)]) =
          ∑ b, pol (p.val + 1) f b * expectedRemaining
            (fun p f => if hp : p < L then g.meanReward useIw ⟨p, hp⟩ f else 0) pol k (p.val + 1)
            (f ++ [(b.val : K)]) := by
        intro i hi
        refine Finset.sum_congr rfl fun b _ => ?_
        by_cases hb : g.dist i ⟨p.val + 1, hnext⟩ b = 0
        · have hb' := hpol i p hnext b
          rw [hi, hb] at hb'
          rw [hb, ← hb', zero_mul, zero_mul]
        · rw [hpol i p hnext b, hi, ih ⟨p.val + 1, hnext⟩ (by simp; omega)]
          rw [← hi]
          exact hcov i p hnext b hb
      set V := ∑ b, pol (p.val + 1) f b * expectedRemaining
            (fun p f => if hp : p < L then g.meanReward useIw ⟨p, hp⟩ f else 0) pol k (p.val + 1)
            (f ++ [(b.val : K)])
      have hnum : ∑ i with g.feature i p = f, g.weight useIw i p * (g.reward i p +
            ∑ b : Fin A, g.dist i ⟨p.val + 1, hnext⟩ b *
              lrn.predict (ms' ⟨p.val + 1, hnext⟩) (g.feature i p ++ [(b.val : K)])) =
          ∑ i with g.feature i p = f, g.weight useIw i p * g.reward i p +
            (∑ i with g.feature i p = f, g.weight useIw i p) * V := by
        rw [Finset.sum_mul, ← Finset.sum_add_distrib]
        refine Finset.sum_congr rfl fun i hi => ?_
        rw [hv i (by simpa using hi), mul_add]
      rw [hnum, add_div, mul_div_cancel_left₀ _ hpos.ne']
      rfl
  unfold slatePredict at hq
  simp only [args, checkArray2, checkArray1, Arg1.shape0, py_bind_ok, flatten2_length, Arg1.vals] at hq
  rw [raiseIf_neg (by simp), py_bind_ok, py_pure] at hq
  obtain rfl := Except.ok.inj hq
  refine ⟨List.length_ofFn, fun i p b hex => ?_⟩
  have hlt : ((i : ℕ) * L + p) * A + b < n * L * A :=
    mul_add_lt (⟨(i : ℕ) * L + p, mul_add_lt i p⟩ : Fin (n * L)) b
  rw [List.getElem?_ofFn, dif_pos hlt]
  have hdm := divModNat (⟨(i : ℕ) * L + p, mul_add_lt i p⟩ : Fin (n * L)) b hlt
  dsimp only at hdm ⊢
  rw [hdm.1, hdm.2, (divModNat i p _).1, (divModNat i p _).2]
  rw [← key _ p rfl _ hex]
  congr 2
  unfold query
  congr 2
  have hmap : (flatten2 fun i l => ((g.action i l : ℕ) : ℤ)).map (fun z : ℤ => (z : K)) =
      flatten2 fun i l => ((g.action i l : ℕ) : K) := by
    unfold flatten2
    rw [List.map_ofFn]
    congr 1
    funext j
    simp
  simp only [hmap, getD_flatten2]

/-! ### A learner that averages, and a concrete log -/

/-- stores the training data and predicts the weighted average of the targets with the same features -/
def avgLearner : Learner (List (List K × K × K)) K where
  fit := fun _ X y w => .ok (X.zip (y.zip (w.getD (List.replicate y.length 1))))
  predict := fun m f =>
    ((m.filter fun r => r.1 = f).map fun r => r.2.2 * r.2.1).sum / ((m.filter fun r => r.1 = f).map fun r => r.2.2).sum

theorem avgLearner_averages : (avgLearner (K := K)).Averages := by
  intro n X y w m m' h f hne
  simp only [avgLearner, Except.ok.injEq, Option.getD_some] at h
  subst h
  have hz : (List.ofFn X).zip ((List.ofFn y).zip (List.ofFn w)) = (List.finRange n).map fun i => (X i, y i, w i) := by
    rw [List.ofFn_eq_map, List.ofFn_eq_map, List.ofFn_eq_map, List.zip_map', List.zip_map']
  have hs : ∀ g : List K × K × K → K, ((((List.finRange n).map fun i => (X i, y i, w i)).filter fun r => r.1 = f).map g).sum =
      ∑ i with X i = f, g (X i, y i, w i) := by
    intro g
    rw [List.filter_map, List.map_map, Finset.sum_filter, ← List.sum_ofFn, List.ofFn_eq_map]
    induction (List.finRange n) with
    | nil => rfl
    | cons i l ih =>
      rw [List.filter_cons, List.map_cons, List.sum_cons, ← ih]
      by_cases hi : X i = f
      · simp [hi]
      · simp [hi]
  simp only [avgLearner, hz]
  rw [hs, hs]

/-- four slates of two positions with all pairs of two actions -/
def exSlateReg : SlateRegLog ℚ 4 2 2 1 where
  context := fun _ _ => 0
  action := fun i l => if l = 0 then i.divNat (n := 2) (m := 2) else i.modNat (n := 2) (m := 2)
  reward := fun i l => i.val + 2 * l.val
  pscore := fun _ _ => 1 / 2
  evalPscore := fun _ _ => 1 / 4
  dist := fun _ _ b => if b = 0 then 1 / 4 else 3 / 4

theorem exSlateReg_valid : exSlateReg.Valid where
  rounds := by decide
  positions := by decide
  pscore := fun _ _ => by norm_num [exSlateReg]
  evalPscore := fun _ _ => by norm_num [exSlateReg]
  dist := fun _ _ => by norm_num [exSlateReg, Fin.sum_univ_two]

example {q} (h : slateFitPredict avgLearner true 2 exSlateReg.args (fun _ => []) = .ok q) :=
  C92_exact exSlateReg_valid avgLearner_averages true _ h (fun _ _ b => if b = 0 then 1 / 4 else 3 / 4)
    (fun _ _ _ _ => rfl) (by
      intro i p hp b _
      have : p = 0 := by omega
      subst this
      refine ⟨finProdFinEquiv (i.divNat (n := 2) (m := 2), b), ?_⟩
      revert i b hp
      decide +kernel)
/-- first position, first action: mean reward `1/2`, then `1/4 · 2 + 3/4 · 3` -/
example : ((slateFitPredict avgLearner true 2 exSlateReg.args (fun _ : Fin 2 => [])).toOption.bind fun q => q[0]?) =
    some (1 / 2 + (1 / 4 * 2 + 3 / 4 * 3)) := by decide +kernel

end Obp
