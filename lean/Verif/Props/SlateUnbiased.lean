import Verif.Spec.SlateProcess
import Verif.Lemmas.Prob
import Verif.Props.Slate

/-! # C40, C41, C42: unbiasedness of the slate estimators -/

set_option linter.unusedSectionVars false

namespace Obp

variable {K : Type} [Field K] [LinearOrder K] [IsStrictOrderedRing K]

/-- Averaging over classes of an equivalence relation (tower property). -/
theorem tower {Ω : Type} [Fintype Ω] (R : Ω → Ω → Prop) [DecidableRel R] (hR : Equivalence R)
    (p g : Ω → K) (hg : ∀ c, g c ≠ 0 → (∑ b, if R b c then p b else 0) ≠ 0) :
    ∑ a, p a * ((∑ c, if R c a then g c else 0) / ∑ c, if R c a then p c else 0) = ∑ c, g c := by
  have hm : ∀ a c, R c a → (∑ b, if R b a then p b else 0) = ∑ b, if R b c then p b else 0 := by
    intro a c h
    refine Finset.sum_congr rfl fun b _ => ?_
    have : R b a ↔ R b c := ⟨fun h1 => hR.trans h1 (hR.symm h), fun h1 => hR.trans h1 h⟩
    simp only [this]
  calc ∑ a, p a * ((∑ c, if R c a then g c else 0) / ∑ c, if R c a then p c else 0)
      = ∑ a, ∑ c, if R a c then p a * (g c / ∑ b, if R b c then p b else 0) else 0 := by
        refine Finset.sum_congr rfl fun a _ => ?_
        rw [Finset.sum_div, Finset.mul_sum]
        refine Finset.sum_congr rfl fun c _ => ?_
        by_cases h : R c a
        · rw [if_pos h, if_pos (hR.symm h), hm a c h]
        · rw [if_neg h, if_neg (fun h' => h (hR.symm h'))]; simp
    _ = ∑ c, g c := by
        rw [Finset.sum_comm]
        refine Finset.sum_congr rfl fun c _ => ?_
        have : (∑ a, if R a c then p a * (g c / ∑ b, if R b c then p b else 0) else 0) =
            (∑ a, if R a c then p a else 0) * (g c / ∑ b, if R b c then p b else 0) := by
          rw [Finset.sum_mul]
          refine Finset.sum_congr rfl fun a _ => ?_
          split <;> simp
        rw [this]
        by_cases h0 : g c = 0
        · simp [h0]
        · exact mul_div_cancel₀ _ (hg c h0)

/-- Reweighting by the ratio of class probabilities evaluates the other distribution, for functions
that are constant on classes. -/
theorem reweight {Ω : Type} [Fintype Ω] (R : Ω → Ω → Prop) [DecidableRel R] (hR : Equivalence R)
    (pB pE f : Ω → K) (hf : ∀ a b, R a b → f a = f b)
    (hs : ∀ c, pE c ≠ 0 → (∑ b, if R b c then pB b else 0) ≠ 0) :
    ∑ a, pB a * (((∑ c, if R c a then pE c else 0) / ∑ c, if R c a then pB c else 0) * f a) =
      ∑ a, pE a * f a := by
  rw [← tower R hR pB (fun c => pE c * f c) fun c hc => hs c (left_ne_zero_of_mul hc)]
  refine Finset.sum_congr rfl fun a _ => ?_
  congr 1
  rw [div_mul_eq_mul_div, Finset.sum_mul]
  congr 1
  refine Finset.sum_congr rfl fun c _ => ?_
  by_cases h : R c a
  · rw [if_pos h, if_pos h, hf c a h]
  · simp [h]

variable {n L A S : ℕ}

theorem sum_grid (f : Fin n → Fin L → K) : ∑ j : Fin (n * L), f j.divNat j.modNat = ∑ i, ∑ l, f i l := by
  rw [← Fintype.sum_prod_type' f, ← Equiv.sum_comp finProdFinEquiv.symm]
  rfl

theorem grid_eq {j k : Fin (n * L)} (h1 : j.divNat = k.divNat) (h2 : j.modNat = k.modNat) : j = k := by
  apply finProdFinEquiv.symm.injective
  show (j.divNat, j.modNat) = (k.divNat, k.modNat)
  rw [h1, h2]

section class_probabilities
variable {pi : Fin n → (Fin L → Fin A) → K}

theorem class_le_one (h : ∀ i, IsDist (pi i)) (i : Fin n) (R : (Fin L → Fin A) → Prop) [DecidablePred R] :
    (∑ b, if R b then pi i b else 0) ≤ 1 := by
  rw [← (h i).sum_one]
  refine Finset.sum_le_sum fun b _ => ?_
  split
  · exact le_refl _
  · exact (h i).nonneg b

theorem class_nonneg (h : ∀ i, IsDist (pi i)) (i : Fin n) (R : (Fin L → Fin A) → Prop) [DecidablePred R] :
    0 ≤ ∑ b, if R b then pi i b else 0 :=
  Finset.sum_nonneg fun b _ => by
    split
    · exact (h i).nonneg b
    · exact le_refl _

theorem class_pos (h : ∀ i, IsDist (pi i)) {i : Fin n} {a : Fin L → Fin A} (ha : pi i a ≠ 0)
    (R : (Fin L → Fin A) → Prop) [DecidablePred R] (hR : R a) : 0 < ∑ b, if R b then pi i b else 0 := by
  have h0 : 0 < pi i a := lt_of_le_of_ne ((h i).nonneg a) ha.symm
  refine lt_of_lt_of_le h0 ?_
  have := Finset.single_le_sum (f := fun b => if R b then pi i b else 0) (s := Finset.univ)
    (fun b _ => by
      split
      · exact (h i).nonneg b
      · exact le_refl _) (Finset.mem_univ a)
  simpa [hR] using this

theorem class_mono (h : ∀ i, IsDist (pi i)) (i : Fin n) {R R' : (Fin L → Fin A) → Prop}
    [DecidablePred R] [DecidablePred R'] (hR : ∀ b, R b → R' b) :
    (∑ b, if R b then pi i b else 0) ≤ ∑ b, if R' b then pi i b else 0 := by
  refine Finset.sum_le_sum fun b _ => ?_
  by_cases h1 : R b
  · rw [if_pos h1, if_pos (hR b h1)]
  · rw [if_neg h1]
    split
    · exact (h i).nonneg b
    · exact le_refl _

end class_probabilities

namespace SlateProcess
variable {P : SlateProcess K n L A S}

theorem sum_prob (hP : P.Valid) (i : Fin n) : ∑ o, P.prob i o = 1 := by
  rw [Fintype.sum_prod_type]
  simp only [prob, ← Finset.mul_sum, (hP.law_dist i _).sum_one, mul_one]
  exact (hP.piB_dist i).sum_one

theorem log_unique (w) (pb pe : Fin n → (Fin L → Fin A) → Fin L → K) : (P.log w pb pe).UniquePositions :=
  fun _ _ h1 h2 => grid_eq (Fin.ext h1) (Fin.ext h2)

theorem log_numSlates (hL : 0 < L) (w) (pb pe : Fin n → (Fin L → Fin A) → Fin L → K) :
    (P.log w pb pe).numSlates = n := by
  unfold SlateLog.numSlates
  have : Finset.univ.image (P.log w pb pe).slate = Finset.range n := by
    ext s
    simp only [Finset.mem_image, Finset.mem_univ, true_and, Finset.mem_range]
    constructor
    · rintro ⟨j, rfl⟩; exact j.divNat.isLt
    · intro hs
      refine ⟨finProdFinEquiv (⟨s, hs⟩, ⟨0, hL⟩), ?_⟩
      have := Equiv.symm_apply_apply finProdFinEquiv ((⟨s, hs⟩, ⟨0, hL⟩) : Fin n × Fin L)
      exact congrArg (fun p : Fin n × Fin L => (p.1 : ℕ)) this
  rw [this, Finset.card_range]

theorem log_inRange {w : Fin n → (Fin L → Fin A) × Fin S} {pb pe : Fin n → (Fin L → Fin A) → Fin L → K}
    (h1 : ∀ i l, 0 < pb i (w i).1 l ∧ pb i (w i).1 l ≤ 1)
    (h2 : ∀ i a l, 0 ≤ pe i a l ∧ pe i a l ≤ 1) : (P.log w pb pe).InRange := fun j =>
  ⟨(h1 j.divNat j.modNat).1, (h1 j.divNat j.modNat).2, (h2 j.divNat _ j.modNat).1,
    (h2 j.divNat _ j.modNat).2⟩

/-- The common part: per-slot reweighting suffices for unbiasedness. -/
theorem expect_value (hP : P.Valid) (piE : Fin n → (Fin L → Fin A) → K)
    (wt : Fin n → (Fin L → Fin A) → Fin L → K)
    (h : ∀ i l, ∑ a, P.piB i a * (wt i a l * P.meanReward i a l) = ∑ a, piE i a * P.meanReward i a l) :
    expect P.prob (fun w => (∑ i, ∑ l, P.val i (w i).1 (w i).2 l * wt i (w i).1 l) / (n : K)) =
      P.policyValue piE := by
  rw [expect_avg (sum_prob hP) fun i o => ∑ l, P.val i o.1 o.2 l * wt i o.1 l]
  unfold policyValue
  congr 1
  refine Finset.sum_congr rfl fun i _ => ?_
  unfold expect1
  rw [Fintype.sum_prod_type]
  calc ∑ a, ∑ s, P.prob i (a, s) * ∑ l, P.val i a s l * wt i a l
      = ∑ a, ∑ l, P.piB i a * (wt i a l * P.meanReward i a l) := by
        refine Finset.sum_congr rfl fun a _ => ?_
        simp only [Finset.mul_sum, meanReward, prob]
        rw [Finset.sum_comm]
        refine Finset.sum_congr rfl fun l _ => Finset.sum_congr rfl fun s _ => ?_
        ring
    _ = ∑ a, piE i a * ∑ l, P.meanReward i a l := by
        rw [Finset.sum_comm]
        simp only [h]
        rw [Finset.sum_comm]
        simp only [Finset.mul_sum]

theorem value_of_log {k : SlateKind} (hk : k = .sips ∨ k = .iips ∨ k = .rips) (hL : 0 < L)
    {w : Fin n → (Fin L → Fin A) × Fin S} {pb pe : Fin n → (Fin L → Fin A) → Fin L → K}
    (h : k.Accepts (P.log w pb pe)) :
    k.estimatePolicyValue L (P.log w pb pe).args =
      .ok ((∑ i, ∑ l, P.val i (w i).1 (w i).2 l * (pe i (w i).1 l / pb i (w i).1 l)) / (n : K)) := by
  have hr : k.rowVals L (P.log w pb pe) =
      some fun i => (P.log w pb pe).reward i * (P.log w pb pe).weight i := by
    rcases hk with rfl | rfl | rfl <;> rfl
  rw [slateValue_eq k L h, hr, log_numSlates hL]
  refine congrArg Except.ok ?_
  rw [← sum_grid fun i l => P.val i (w i).1 (w i).2 l * (pe i (w i).1 l / pb i (w i).1 l)]
  rfl

theorem piB_ne {w : Fin n → (Fin L → Fin A) × Fin S} (hw : jointProb P.prob w ≠ 0) (i : Fin n) :
    P.piB i (w i).1 ≠ 0 := left_ne_zero_of_mul (jointProb_ne_zero hw i)

end SlateProcess

open SlateProcess

/-- **C40.** SIPS is unbiased for every reward structure: with the joint propensities recorded and
common support over whole slates, `estimate_policy_value` succeeds on every log of positive
probability and its expectation is the value of the evaluation policy. -/
theorem C40_sips_unbiased {P : SlateProcess K n L A S} (hP : P.Valid) (hn : 0 < n) (hL : 0 < L)
    (piE : Fin n → (Fin L → Fin A) → K) (hE : ∀ i, IsDist (piE i))
    (hsupp : ∀ i a, piE i a ≠ 0 → P.piB i a ≠ 0) :
    ∃ v : (Fin n → (Fin L → Fin A) × Fin S) → K,
      (∀ w, jointProb P.prob w ≠ 0 → SlateKind.sips.estimatePolicyValue L
        (P.log w (jointPscore P.piB) (jointPscore piE)).args = .ok (v w)) ∧
      expect P.prob v = P.policyValue piE := by
  have hle : ∀ {pi : Fin n → (Fin L → Fin A) → K}, (∀ i, IsDist (pi i)) → ∀ i a, pi i a ≤ 1 := by
    intro pi h i a
    rw [← (h i).sum_one]
    exact Finset.single_le_sum (fun b _ => (h i).nonneg b) (Finset.mem_univ a)
  refine ⟨_, fun w hw => value_of_log (by tauto) hL ⟨Nat.mul_pos hn hL, ?_, log_unique _ _ _, ?_, ?_⟩,
    expect_value hP piE (fun i a l => jointPscore piE i a l / jointPscore P.piB i a l) ?_⟩
  · exact log_inRange (fun i l => ⟨lt_of_le_of_ne ((hP.piB_dist i).nonneg _) (piB_ne hw i).symm,
      hle hP.piB_dist i _⟩) fun i a l => ⟨(hE i).nonneg _, hle hE i _⟩
  · intro j k h
    have : j.divNat = k.divNat := Fin.ext h
    simp only [SlateProcess.log, jointPscore, this]
  · intro j k h
    have : j.divNat = k.divNat := Fin.ext h
    simp only [SlateProcess.log, jointPscore, this]
  · intro i l
    refine Finset.sum_congr rfl fun a _ => ?_
    unfold jointPscore
    by_cases h0 : piE i a = 0
    · simp [h0]
    · have := hsupp i a h0
      field_simp

/-- **C41.** IIPS is unbiased when the expected reward of a slot depends only on the action at that
slot. Support is needed only for item-position pairs. -/
theorem C41_iips_unbiased {P : SlateProcess K n L A S} (hP : P.Valid) (hn : 0 < n) (hL : 0 < L)
    (piE : Fin n → (Fin L → Fin A) → K) (hE : ∀ i, IsDist (piE i))
    (hind : ∀ i l a b, a l = b l → P.meanReward i a l = P.meanReward i b l)
    (hsupp : ∀ i a l, piE i a ≠ 0 → itemPscore P.piB i a l ≠ 0) :
    ∃ v : (Fin n → (Fin L → Fin A) × Fin S) → K,
      (∀ w, jointProb P.prob w ≠ 0 → SlateKind.iips.estimatePolicyValue L
        (P.log w (itemPscore P.piB) (itemPscore piE)).args = .ok (v w)) ∧
      expect P.prob v = P.policyValue piE := by
  refine ⟨_, fun w hw => value_of_log (by tauto) hL ⟨Nat.mul_pos hn hL, ?_, log_unique _ _ _, trivial⟩,
    expect_value hP piE (fun i a l => itemPscore piE i a l / itemPscore P.piB i a l) ?_⟩
  · exact log_inRange (fun i l => ⟨class_pos hP.piB_dist (piB_ne hw i) _ rfl,
      class_le_one hP.piB_dist i _⟩) fun i a l => ⟨class_nonneg hE i _, class_le_one hE i _⟩
  · intro i l
    exact reweight (fun b a : Fin L → Fin A => b l = a l)
      ⟨fun _ => rfl, fun h => h.symm, fun h h' => h.trans h'⟩ (P.piB i) (piE i) _
      (fun a b h => hind i l a b h) (fun c hc => hsupp i c l hc)

/-- Agreement on the slots up to `l`. -/
theorem agree_le_equiv (l : Fin L) : Equivalence fun b a : Fin L → Fin A => ∀ m ≤ l, b m = a m :=
  ⟨fun _ _ _ => rfl, fun h m hm => (h m hm).symm, fun h h' m hm => (h m hm).trans (h' m hm)⟩

theorem agree_lt_equiv (l : Fin L) : Equivalence fun b a : Fin L → Fin A => ∀ m < l, b m = a m :=
  ⟨fun _ _ _ => rfl, fun h m hm => (h m hm).symm, fun h h' m hm => (h m hm).trans (h' m hm)⟩

theorem cascade_accepts {P : SlateProcess K n L A S} (hP : P.Valid) (hn : 0 < n) (hL : 0 < L)
    (piE : Fin n → (Fin L → Fin A) → K) (hE : ∀ i, IsDist (piE i))
    {w : Fin n → (Fin L → Fin A) × Fin S} (hw : jointProb P.prob w ≠ 0) :
    SlateKind.rips.Accepts (P.log w (cascadePscore P.piB) (cascadePscore piE)) := by
  have hmono : ∀ {pi : Fin n → (Fin L → Fin A) → K}, (∀ i, IsDist (pi i)) → ∀ j k : Fin (n * L),
      j.divNat = k.divNat → j.modNat < k.modNat →
      cascadePscore pi k.divNat (w k.divNat).1 k.modNat ≤
        cascadePscore pi j.divNat (w j.divNat).1 j.modNat := by
    intro pi h j k h1 h2
    rw [h1]
    exact class_mono h _ fun b hb m hm => hb m (hm.trans h2.le)
  refine ⟨Nat.mul_pos hn hL, ?_, log_unique _ _ _, ?_, ?_⟩
  · exact log_inRange (fun i l => ⟨class_pos hP.piB_dist (piB_ne hw i) _ fun _ _ => rfl,
      class_le_one hP.piB_dist i _⟩) fun i a l => ⟨class_nonneg hE i _, class_le_one hE i _⟩
  · intro j k h1 h2
    exact hmono hP.piB_dist j k (Fin.ext h1) h2
  · intro j k h1 h2
    exact hmono hE j k (Fin.ext h1) h2

/-- **C41.** RIPS is unbiased when the expected reward of a slot depends only on the actions at that
slot and above. Support is needed only for prefixes. -/
theorem C41_rips_unbiased {P : SlateProcess K n L A S} (hP : P.Valid) (hn : 0 < n) (hL : 0 < L)
    (piE : Fin n → (Fin L → Fin A) → K) (hE : ∀ i, IsDist (piE i))
    (hcas : ∀ i l a b, (∀ m ≤ l, a m = b m) → P.meanReward i a l = P.meanReward i b l)
    (hsupp : ∀ i a l, piE i a ≠ 0 → cascadePscore P.piB i a l ≠ 0) :
    ∃ v : (Fin n → (Fin L → Fin A) × Fin S) → K,
      (∀ w, jointProb P.prob w ≠ 0 → SlateKind.rips.estimatePolicyValue L
        (P.log w (cascadePscore P.piB) (cascadePscore piE)).args = .ok (v w)) ∧
      expect P.prob v = P.policyValue piE := by
  refine ⟨_, fun w hw => value_of_log (by tauto) hL (cascade_accepts hP hn hL piE hE hw),
    expect_value hP piE (fun i a l => cascadePscore piE i a l / cascadePscore P.piB i a l) ?_⟩
  intro i l
  exact reweight (fun b a : Fin L → Fin A => ∀ m ≤ l, b m = a m) (agree_le_equiv l) (P.piB i) (piE i) _
    (fun a b h => hcas i l a b h) (fun c hc => hsupp i c l hc)

/-! ### C42: the cascade doubly robust estimator -/

/-- The log with predictions `q i a l b` (reward of action `b` at slot `l` after the actions of `a`
above `l`) and evaluation probabilities `dist i a l b` of `b` at slot `l` after the actions above. -/
def SlateProcess.cascadeLog (P : SlateProcess K n L A S) (w : Fin n → (Fin L → Fin A) × Fin S)
    (pb pe : Fin n → (Fin L → Fin A) → Fin L → K)
    (q dist : Fin n → (Fin L → Fin A) → Fin L → Fin A → K) : CascadeLog K (n * L) A where
  toSlateLog := P.log w pb pe
  action j := (w j.divNat).1 j.modNat
  q j := q j.divNat (w j.divNat).1 j.modNat
  dist j := dist j.divNat (w j.divNat).1 j.modNat

theorem cascade_prev (pi : Fin n → (Fin L → Fin A) → K) (i : Fin n) (a : Fin L → Fin A) (l : ℕ)
    (hl : l + 1 < L) : cascadePscore pi i a ⟨l, by omega⟩ = prefixPscore pi i a ⟨l + 1, hl⟩ := by
  unfold cascadePscore prefixPscore
  refine Finset.sum_congr rfl fun b _ => ?_
  have : (∀ m ≤ (⟨l, by omega⟩ : Fin L), b m = a m) ↔ ∀ m < (⟨l + 1, hl⟩ : Fin L), b m = a m := by
    constructor
    · intro h m hm
      exact h m (by rw [Fin.lt_def] at hm; rw [Fin.le_def]; simp only at *; omega)
    · intro h m hm
      exact h m (by rw [Fin.le_def] at hm; rw [Fin.lt_def]; simp only at *; omega)
  simp only [this]

theorem prefix_zero {pi : Fin n → (Fin L → Fin A) → K} (h : ∀ i, IsDist (pi i)) (i : Fin n)
    (a : Fin L → Fin A) {l : Fin L} (hl : (l : ℕ) = 0) : prefixPscore pi i a l = 1 := by
  unfold prefixPscore
  rw [← (h i).sum_one]
  refine Finset.sum_congr rfl fun b _ => if_pos fun m hm => ?_
  rw [Fin.lt_def, hl] at hm
  exact absurd hm (Nat.not_lt_zero _)

theorem cascade_prevWeight {P : SlateProcess K n L A S} (hP : P.Valid)
    (piE : Fin n → (Fin L → Fin A) → K) (hE : ∀ i, IsDist (piE i))
    (w : Fin n → (Fin L → Fin A) × Fin S) (j : Fin (n * L)) :
    (P.log w (cascadePscore P.piB) (cascadePscore piE)).prevWeight L j =
      prefixPscore piE j.divNat (w j.divNat).1 j.modNat /
        prefixPscore P.piB j.divNat (w j.divNat).1 j.modNat := by
  have hL : 0 < L := by
    rcases Nat.eq_zero_or_pos L with h | h
    · have := j.isLt; simp [h] at this
    · exact h
  unfold SlateLog.prevWeight
  by_cases h0 : (j : ℕ) % L = 0
  · rw [if_pos h0, prefix_zero hE _ _ h0, prefix_zero hP.piB_dist _ _ h0, div_one]
  · rw [if_neg h0]
    obtain ⟨l, hl⟩ := Nat.exists_eq_succ_of_ne_zero h0
    have hlt : l + 1 < L := by have := Nat.mod_lt (j : ℕ) hL; omega
    have hdm := Nat.div_add_mod (j : ℕ) L
    have hd : ((j : ℕ) - 1) / L = (j : ℕ) / L := by
      have : (j : ℕ) - 1 = L * ((j : ℕ) / L) + l := by omega
      rw [this, Nat.mul_add_div hL, Nat.div_eq_of_lt (by omega : l < L), Nat.add_zero]
    have hm : ((j : ℕ) - 1) % L = l := by
      have : (j : ℕ) - 1 = L * ((j : ℕ) / L) + l := by omega
      rw [this, Nat.mul_add_mod, Nat.mod_eq_of_lt (by omega)]
    have hjlt : (j : ℕ) - 1 < n * L := by omega
    have e1 : (⟨(j : ℕ) - 1, hjlt⟩ : Fin (n * L)).divNat = j.divNat := Fin.ext hd
    have e2 : (⟨(j : ℕ) - 1, hjlt⟩ : Fin (n * L)).modNat = ⟨l, by omega⟩ := Fin.ext hm
    have e3 : j.modNat = ⟨l + 1, hlt⟩ := Fin.ext hl
    rw [e3, ← cascade_prev, ← cascade_prev]
    show cascadePscore piE _ _ _ / cascadePscore P.piB _ _ _ = _
    rw [e1, e2]

/-- Averaging predictions over the conditional evaluation distribution of a slot is averaging them over whole slates. -/
theorem cascade_tower (piE : Fin n → (Fin L → Fin A) → K) (hE : ∀ i, IsDist (piE i))
    (q dist : Fin n → (Fin L → Fin A) → Fin L → Fin A → K)
    (hq : ∀ i l a b, (∀ m < l, a m = b m) → q i a l = q i b l)
    (hcond : ∀ i a l b, prefixPscore piE i a l * dist i a l b = cascadePscore piE i (Function.update a l b) l)
    (i : Fin n) (l : Fin L) :
    ∑ a, piE i a * ∑ b, dist i a l b * q i a l b = ∑ a, piE i a * q i a l (a l) := by
  rw [← tower (fun b a : Fin L → Fin A => ∀ m < l, b m = a m) (agree_lt_equiv l) (piE i)
    (fun a => piE i a * q i a l (a l))
    (fun c hc => (class_pos hE (left_ne_zero_of_mul hc) _ fun _ _ => rfl).ne')]
  refine Finset.sum_congr rfl fun a _ => ?_
  by_cases h0 : piE i a = 0
  · simp [h0]
  have hp : prefixPscore piE i a l ≠ 0 := (class_pos hE h0 _ fun _ _ => rfl).ne'
  congr 1
  show _ = _ / prefixPscore piE i a l
  rw [eq_div_iff hp, Finset.sum_mul]
  have hb : ∀ b, dist i a l b * q i a l b * prefixPscore piE i a l =
      ∑ c, if (∀ m < l, c m = a m) ∧ c l = b then piE i c * q i c l (c l) else 0 := by
    intro b
    rw [show dist i a l b * q i a l b * prefixPscore piE i a l =
      (prefixPscore piE i a l * dist i a l b) * q i a l b by ring, hcond]
    unfold cascadePscore
    rw [Finset.sum_mul]
    refine Finset.sum_congr rfl fun c _ => ?_
    have hiff : (∀ m ≤ l, c m = Function.update a l b m) ↔
        (∀ m < l, c m = a m) ∧ c l = b := by
      constructor
      · intro h
        refine ⟨fun m hm => ?_, ?_⟩
        · have := h m hm.le; rwa [Function.update_of_ne hm.ne] at this
        · have := h l le_rfl; rwa [Function.update_self] at this
      · rintro ⟨h1, h2⟩ m hm
        rcases hm.eq_or_lt with rfl | hlt
        · rw [Function.update_self]; exact h2
        · rw [Function.update_of_ne hlt.ne]; exact h1 m hlt
    by_cases hc : (∀ m < l, c m = a m) ∧ c l = b
    · rw [if_pos (hiff.2 hc), if_pos hc, hq i l c a hc.1, hc.2]
    · rw [if_neg (fun h => hc (hiff.1 h)), if_neg hc, zero_mul]
  simp only [hb]
  rw [Finset.sum_comm]
  refine Finset.sum_congr rfl fun c _ => ?_
  by_cases hc : ∀ m < l, c m = a m
  · rw [if_pos hc, Finset.sum_eq_single (c l)]
    · rw [if_pos ⟨hc, rfl⟩]
    · intro b _ hbc; rw [if_neg (fun h => hbc h.2.symm)]
    · simp
  · rw [if_neg hc]
    exact Finset.sum_eq_zero fun b _ => if_neg fun h => hc h.1

/-- **C42.** On rows grouped by slate in position order, under the cascade assumption,
`SlateCascadeDoublyRobust` is unbiased for every reward prediction `q` that may depend on the
context, the slot, the candidate action and the actions logged above. `dist` must be the evaluation
policy's conditional distribution of the slot given the actions above. -/
theorem C42_cascade_dr_unbiased {P : SlateProcess K n L A S} (hP : P.Valid) (hn : 0 < n) (hL : 0 < L)
    (piE : Fin n → (Fin L → Fin A) → K) (hE : ∀ i, IsDist (piE i))
    (hcas : ∀ i l a b, (∀ m ≤ l, a m = b m) → P.meanReward i a l = P.meanReward i b l)
    (hsupp : ∀ i a, piE i a ≠ 0 → P.piB i a ≠ 0)
    (q dist : Fin n → (Fin L → Fin A) → Fin L → Fin A → K)
    (hq : ∀ i l a b, (∀ m < l, a m = b m) → q i a l = q i b l)
    (hdpre : ∀ i l a b, (∀ m < l, a m = b m) → dist i a l = dist i b l)
    (hd1 : ∀ i a l, IsDist (dist i a l))
    (hcond : ∀ i a l b, prefixPscore piE i a l * dist i a l b =
      cascadePscore piE i (Function.update a l b) l) :
    ∃ v : (Fin n → (Fin L → Fin A) × Fin S) → K,
      (∀ w, jointProb P.prob w ≠ 0 → cascadeDrValue L A
        (P.cascadeLog w (cascadePscore P.piB) (cascadePscore piE) q dist).args = .ok (v w)) ∧
      expect P.prob v = P.policyValue piE := by
  have hvalid : ∀ w, jointProb P.prob w ≠ 0 →
      (P.cascadeLog w (cascadePscore P.piB) (cascadePscore piE) q dist).Valid := fun w hw =>
    ⟨cascade_accepts hP hn hL piE hE hw, fun j => by
      have := (hd1 j.divNat (w j.divNat).1 j.modNat).sum_one
      simp only [SlateProcess.cascadeLog, this, sub_self, abs_zero]
      positivity⟩
  refine ⟨fun w => (∑ i, ∑ l,
    (cascadePscore piE i (w i).1 l / cascadePscore P.piB i (w i).1 l *
      (P.val i (w i).1 (w i).2 l - q i (w i).1 l ((w i).1 l)) +
    prefixPscore piE i (w i).1 l / prefixPscore P.piB i (w i).1 l *
      ∑ b, dist i (w i).1 l b * q i (w i).1 l b)) / (n : K), fun w hw => ?_, ?_⟩
  · have hns := log_numSlates (P := P) hL w (cascadePscore P.piB) (cascadePscore piE)
    have hns' : (P.cascadeLog w (cascadePscore P.piB) (cascadePscore piE) q dist).numSlates = n := hns
    rw [cascadeValue_eq hL (hvalid w hw) (by rw [hns']), hns']
    refine congrArg Except.ok ?_
    beta_reduce
    rw [← sum_grid fun i l => (cascadePscore piE i (w i).1 l / cascadePscore P.piB i (w i).1 l *
      (P.val i (w i).1 (w i).2 l - q i (w i).1 l ((w i).1 l)) +
    prefixPscore piE i (w i).1 l / prefixPscore P.piB i (w i).1 l *
      ∑ b, dist i (w i).1 l b * q i (w i).1 l b)]
    congr 1
    refine Finset.sum_congr rfl fun j _ => ?_
    unfold CascadeLog.rowVal
    rw [show (P.cascadeLog w (cascadePscore P.piB) (cascadePscore piE) q dist).toSlateLog =
      P.log w (cascadePscore P.piB) (cascadePscore piE) from rfl, cascade_prevWeight hP piE hE]
    rfl
  · rw [expect_avg (SlateProcess.sum_prob hP) fun i o => ∑ l,
      (cascadePscore piE i o.1 l / cascadePscore P.piB i o.1 l *
        (P.val i o.1 o.2 l - q i o.1 l (o.1 l)) +
      prefixPscore piE i o.1 l / prefixPscore P.piB i o.1 l * ∑ b, dist i o.1 l b * q i o.1 l b)]
    unfold policyValue
    congr 1
    refine Finset.sum_congr rfl fun i _ => ?_
    unfold expect1
    rw [Fintype.sum_prod_type]
    have hlaw : ∀ a, ∑ s, P.law i a s = 1 := fun a => (hP.law_dist i a).sum_one
    calc ∑ a, ∑ s, P.prob i (a, s) * ∑ l,
          (cascadePscore piE i a l / cascadePscore P.piB i a l * (P.val i a s l - q i a l (a l)) +
          prefixPscore piE i a l / prefixPscore P.piB i a l * ∑ b, dist i a l b * q i a l b)
        = ∑ l, ((∑ a, P.piB i a * (cascadePscore piE i a l / cascadePscore P.piB i a l *
              (P.meanReward i a l - q i a l (a l)))) +
            ∑ a, P.piB i a * (prefixPscore piE i a l / prefixPscore P.piB i a l *
              ∑ b, dist i a l b * q i a l b)) := by
          simp only [← Finset.sum_add_distrib]
          rw [Finset.sum_comm (s := (Finset.univ : Finset (Fin L)))]
          refine Finset.sum_congr rfl fun a _ => ?_
          simp only [Finset.mul_sum (s := (Finset.univ : Finset (Fin L)))]
          rw [Finset.sum_comm]
          refine Finset.sum_congr rfl fun l _ => ?_
          have hs : ∀ c d : K, ∑ s, P.prob i (a, s) * (c * (P.val i a s l - q i a l (a l)) + d) =
              P.piB i a * (c * (P.meanReward i a l - q i a l (a l))) + P.piB i a * d := by
            intro c d
            have h1 : ∀ s, P.prob i (a, s) * (c * (P.val i a s l - q i a l (a l)) + d) =
                P.piB i a * c * (P.law i a s * P.val i a s l) +
                  P.piB i a * (d - c * q i a l (a l)) * P.law i a s := by
              intro s; simp only [SlateProcess.prob]; ring
            simp only [h1, Finset.sum_add_distrib, ← Finset.mul_sum, hlaw, meanReward]
            ring
          exact hs _ _
      _ = ∑ l, ∑ a, piE i a * P.meanReward i a l := by
          refine Finset.sum_congr rfl fun l _ => ?_
          have hqa : ∀ a b : Fin L → Fin A, (∀ m ≤ l, a m = b m) → q i a l (a l) = q i b l (b l) := by
            intro a b h
            rw [hq i l a b fun m hm => h m hm.le, h l le_rfl]
          have h1 : ∑ a, P.piB i a * (cascadePscore piE i a l / cascadePscore P.piB i a l *
              (P.meanReward i a l - q i a l (a l))) =
              ∑ a, piE i a * (P.meanReward i a l - q i a l (a l)) :=
            reweight (fun b a : Fin L → Fin A => ∀ m ≤ l, b m = a m) (agree_le_equiv l) (P.piB i) (piE i)
              (fun a => P.meanReward i a l - q i a l (a l))
              (fun a b h => by
                show P.meanReward i a l - q i a l (a l) = P.meanReward i b l - q i b l (b l)
                rw [hcas i l a b h, hqa a b h])
              (fun c hc => (class_pos hP.piB_dist (hsupp i c hc) _ fun _ _ => rfl).ne')
          have h2 : ∑ a, P.piB i a * (prefixPscore piE i a l / prefixPscore P.piB i a l *
              ∑ b, dist i a l b * q i a l b) = ∑ a, piE i a * ∑ b, dist i a l b * q i a l b :=
            reweight (fun b a : Fin L → Fin A => ∀ m < l, b m = a m) (agree_lt_equiv l) (P.piB i) (piE i)
              (fun a => ∑ b, dist i a l b * q i a l b)
              (fun a b h => by
                show ∑ c, dist i a l c * q i a l c = ∑ c, dist i b l c * q i b l c
                rw [hdpre i l a b h, hq i l a b h])
              (fun c hc => (class_pos hP.piB_dist (hsupp i c hc) _ fun _ _ => rfl).ne')
          have h3 := cascade_tower piE hE q dist hq hcond i l
          rw [h1, h2, h3, ← Finset.sum_add_distrib]
          refine Finset.sum_congr rfl fun a _ => ?_
          ring
      _ = ∑ a, piE i a * ∑ l, P.meanReward i a l := by
          rw [Finset.sum_comm]
          simp only [Finset.mul_sum]

/-! ### Examples: one slate of two positions, two actions -/

/-- The reward of the second slot interacts with the first action. -/
def exSlateProcess : SlateProcess ℚ 1 2 2 2 where
  piB := fun _ a => ![![1 / 8, 3 / 8], ![1 / 3, 1 / 6]] (a 0) (a 1)
  law := fun _ a => ![![1 / 2, 1 / 2], ![1 / 5, 4 / 5]] (a 0)
  val := fun _ a s l => if l = 0 then a 0 + s else 2 * a 0 * a 1 + 1

/-- The same with slot rewards that depend on the slot's own action only. -/
def exSlateIndep : SlateProcess ℚ 1 2 2 2 where
  piB := exSlateProcess.piB
  law := fun _ _ => ![1 / 4, 3 / 4]
  val := fun _ a s l => 3 * a l + s + l

/-- Action 0 on top with probability 2/3; then 1 below 0, or uniform below 1. -/
def exSlateE : Fin 1 → (Fin 2 → Fin 2) → ℚ := fun _ a => ![![0, 2 / 3], ![1 / 6, 1 / 6]] (a 0) (a 1)

theorem exSlateProcess_valid : exSlateProcess.Valid where
  piB_dist := fun i => ⟨by revert i; decide +kernel, by revert i; decide +kernel⟩
  law_dist := fun i a => ⟨by revert i a; decide +kernel, by revert i a; decide +kernel⟩

theorem exSlateIndep_valid : exSlateIndep.Valid where
  piB_dist := exSlateProcess_valid.piB_dist
  law_dist := fun i a => ⟨by revert i a; decide +kernel, by revert i a; decide +kernel⟩

theorem exSlateE_dist (i : Fin 1) : IsDist (exSlateE i) :=
  ⟨by revert i; decide +kernel, by revert i; decide +kernel⟩

example := C40_sips_unbiased exSlateProcess_valid (by decide) (by decide) exSlateE exSlateE_dist
  (by decide +kernel)
example := C41_iips_unbiased exSlateIndep_valid (by decide) (by decide) exSlateE exSlateE_dist
  (by decide +kernel) (by decide +kernel)
example := C41_rips_unbiased exSlateProcess_valid (by decide) (by decide) exSlateE exSlateE_dist
  (by decide +kernel) (by decide +kernel)
example := C42_cascade_dr_unbiased exSlateProcess_valid (by decide) (by decide) exSlateE exSlateE_dist
  (by decide +kernel) (by decide +kernel) (fun _ a l b => if l = 0 then 5 + b else 7 * a 0 - b)
  (fun _ a l b => if l = 0 then ![2 / 3, 1 / 3] b else ![![0, 1], ![1 / 2, 1 / 2]] (a 0) b)
  (by decide +kernel) (by decide +kernel)
  (fun i a l => ⟨by revert i a l; decide +kernel, by revert i a l; decide +kernel⟩) (by decide +kernel)
/-- the value being estimated is not trivial -/
example : exSlateProcess.policyValue exSlateE = 34 / 15 := by decide +kernel

end Obp
