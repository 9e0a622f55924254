import Verif.Spec.SlateDraws
import Verif.Lemmas.Draws
import Verif.Props.SlatePolicy
import Verif.Props.SlateUnbiased

set_option linter.unusedSectionVars false

/-! # Lemmas about sampled slates: their distribution and the expectation of the slate estimates -/

namespace Obp
open MeasureTheory ProbabilityTheory

variable {Ω : Type} [MeasurableSpace Ω] {P : Measure Ω} [IsProbabilityMeasure P] {n A L : ℕ}

/-- Do the draws `u` select the slate `s`, position by position? -/
def SlatePicks (l : ℕ → ℝ) (fact : Bool) (A : ℕ) (s : List ℕ) (u : Fin L → ℝ) : Prop :=
  ∀ k : Fin L, ∀ hk : (k : ℕ) < s.length,
    (∑ b ∈ available fact (Finset.range A) s k with b < s[(k : ℕ)], Real.exp (l b)) /
        ∑ b ∈ available fact (Finset.range A) s k, Real.exp (l b) ≤ u k ∧
    u k < (∑ b ∈ available fact (Finset.range A) s k with b ≤ s[(k : ℕ)], Real.exp (l b)) /
        ∑ b ∈ available fact (Finset.range A) s k, Real.exp (l b)

theorem mem_available {fact : Bool} {s : List ℕ} (hs : s ∈ slates fact L (Finset.range A)) {k : ℕ} (hk : k < s.length) :
    s[k] ∈ available fact (Finset.range A) s k := by
  obtain ⟨-, hnd, hmem⟩ := mem_slates.1 hs
  unfold available
  cases fact with
  | true => exact hmem _ (List.getElem_mem hk)
  | false =>
      simp only [Bool.false_eq_true, if_false, Finset.mem_sdiff, List.mem_toFinset]
      refine ⟨hmem _ (List.getElem_mem hk), fun h => ?_⟩
      obtain ⟨j, hj, hjk⟩ := List.mem_take_iff_getElem.1 h
      have := (List.Nodup.getElem_inj_iff (hnd rfl)).1 hjk
      omega

theorem slateSampleRound_fst {uniform fact : Bool} {clip : Option ℝ} {logits us : List ℝ} {x : List ℕ × SlatePscores}
    (h : slateSampleRound A L uniform fact clip logits us = .ok x) :
    ∃ q, slateSample logits fact (List.range A) 1 us = .ok q ∧ x.1 = q.1 := by
  unfold slateSampleRound at h
  obtain ⟨q, hq, h⟩ := py_bind_eq_ok.1 h
  obtain ⟨item, -, h⟩ := py_bind_eq_ok.1 h
  exact ⟨q, hq, by rw [← Except.ok.inj h]⟩

/-- The slate sampled for given draws. -/
theorem slate_sampled {fact : Bool} (hA : 0 < A) (hL : fact = false → L ≤ A) (clip : Option ℝ) (l : ℕ → ℝ) {uniform : Bool}
    (huni : uniform = true → ∃ c, l = fun _ => c) (u : Fin L → ℝ) (hu : ∀ k, 0 ≤ u k ∧ u k < 1) :
    ∃ s ∈ slates fact L (Finset.range A), ∃ r,
      slateSampleRound A L uniform fact clip ((List.range A).map l) (List.ofFn u) = .ok (s, r) ∧
      slatePscores A L fact clip ((List.range A).map l) s = .ok r ∧
      ∀ s' ∈ slates fact L (Finset.range A), s' = s ↔ SlatePicks l fact A s' u := by
  have hrange : ∀ x ∈ List.ofFn u, 0 ≤ x ∧ x < 1 := by
    intro x hx
    obtain ⟨k, rfl⟩ := List.mem_ofFn.1 hx
    exact hu k
  obtain ⟨s, hs, r, h1, h2, h3⟩ := C113_sampled_slate hA fact hL clip l (List.ofFn u) (by simp) hrange
  refine ⟨s, hs, r, ?_, h2, fun s' hs' => (h3 s' hs').trans ?_⟩
  · cases uniform with
    | false => exact h1
    | true =>
        obtain ⟨c, rfl⟩ := huni rfl
        obtain ⟨s', hs', r', h1', h2', -⟩ := C113_uniform hA fact hL clip c (List.ofFn u) (by simp) hrange
        obtain ⟨q, hq, e⟩ := slateSampleRound_fst h1
        obtain ⟨q', hq', e'⟩ := slateSampleRound_fst h1'
        have hss : s' = s := by
          rw [hq] at hq'
          rw [show s' = q'.1 from e', show s = q.1 from e, Except.ok.inj hq']
        subst hss
        rw [h2] at h2'
        rw [h1', Except.ok.inj h2']
  · constructor
    · intro h k hk
      have := h k hk (by simp)
      simpa using this
    · intro h k hk hk'
      have hkL : k < L := by simpa using hk'
      have := h ⟨k, hkL⟩ hk
      simpa using this

theorem slatePicks_meas (l : ℕ → ℝ) (fact : Bool) (s : List ℕ) : MeasurableSet {u : Fin L → ℝ | SlatePicks l fact A s u} := by
  unfold SlatePicks
  have : ∀ (k : Fin L) (_hk : (k : ℕ) < s.length) (a b : ℝ), MeasurableSet {u : Fin L → ℝ | a ≤ u k ∧ u k < b} := fun k _ a b =>
    (measurableSet_le measurable_const (measurable_pi_apply k)).inter (measurableSet_lt (measurable_pi_apply k) measurable_const)
  simp only [Set.ofPred_forall]
  exact MeasurableSet.iInter fun k => MeasurableSet.iInter fun hk => this k hk _ _

/-- The probability that the draws select the slate. -/
theorem slatePicks_prob {U : Fin n → Fin L → Ω → ℝ} (hU : SlateDraws P U) (i : Fin n) (l : ℕ → ℝ) {fact : Bool} {s : List ℕ}
    (hs : s ∈ slates fact L (Finset.range A)) :
    P.real {ω | SlatePicks l fact A s fun k => U i k ω} = slateProb l fact A s := by
  have hlen := (mem_slates.1 hs).1
  subst hlen
  set w : ℕ → ℝ := fun a => Real.exp (l a)
  have hw : ∀ a, 0 < w a := fun a => Real.exp_pos _
  let S : Fin s.length → Finset ℕ := fun k => available fact (Finset.range A) s k
  let lo : Fin s.length → ℝ := fun k => (∑ b ∈ S k with b < s[(k : ℕ)], w b) / ∑ b ∈ S k, w b
  let hi : Fin s.length → ℝ := fun k => (∑ b ∈ S k with b ≤ s[(k : ℕ)], w b) / ∑ b ∈ S k, w b
  have hset : {ω | SlatePicks l fact A s fun k => U i k ω} = ⋂ k ∈ (Finset.univ : Finset (Fin s.length)),
      U i k ⁻¹' {x | lo k ≤ x ∧ x < hi k} := by
    ext ω
    simp only [Set.mem_ofPred_eq, Set.mem_iInter, Finset.mem_univ, true_implies, Set.mem_preimage]
    exact ⟨fun h k => h k k.2, fun h k _ => h k⟩
  have hmem : ∀ k : Fin s.length, s[(k : ℕ)] ∈ S k := fun k => mem_available hs k.2
  have hZ : ∀ k, 0 < ∑ b ∈ S k, w b := fun k => Finset.sum_pos (fun b _ => hw b) ⟨_, hmem k⟩
  have hsplit : ∀ k : Fin s.length, ∑ b ∈ S k with b ≤ s[(k : ℕ)], w b = (∑ b ∈ S k with b < s[(k : ℕ)], w b) + w s[(k : ℕ)] := fun k => by
    rw [show (S k).filter (fun b => b ≤ s[(k : ℕ)]) = insert s[(k : ℕ)] ((S k).filter fun b => b < s[(k : ℕ)]) by
      ext b
      simp only [Finset.mem_filter, Finset.mem_insert, le_iff_eq_or_lt]
      constructor
      · rintro ⟨h1, h | h⟩
        · exact .inl h
        · exact .inr ⟨h1, h⟩
      · rintro (h | ⟨h1, h⟩)
        · exact ⟨h ▸ hmem k, .inl h⟩
        · exact ⟨h1, .inr h⟩, Finset.sum_insert (by simp), add_comm]
  have hone : ∀ k, P.real (U i k ⁻¹' {x | lo k ≤ x ∧ x < hi k}) = w s[(k : ℕ)] / ∑ b ∈ S k, w b := fun k => by
    have := (hU.uniform i).interval k (a := lo k) (b := hi k) (div_nonneg (Finset.sum_nonneg fun b _ => (hw b).le) (hZ k).le)
      (by
        simp only [lo, hi, hsplit]
        gcongr
        linarith [hw s[(k : ℕ)]])
      (by
        simp only [hi]
        rw [div_le_one (hZ k)]
        exact Finset.sum_le_sum_of_subset_of_nonneg (Finset.filter_subset _ _) fun b _ _ => (hw b).le)
    have e : U i k ⁻¹' {x | lo k ≤ x ∧ x < hi k} = {ω | lo k ≤ U i k ω ∧ U i k ω < hi k} := rfl
    rw [e, this]
    simp only [lo, hi, hsplit]
    ring
  rw [hset, Measure.real, (hU.indep i).measure_inter_preimage_eq_mul Finset.univ (sets := fun k => {x | lo k ≤ x ∧ x < hi k})
    (fun k _ => (measurableSet_le measurable_const measurable_id).inter (measurableSet_lt measurable_id measurable_const)),
    ENNReal.toReal_prod]
  refine Finset.prod_congr rfl fun k _ => ?_
  exact hone k

open Classical in
/-- The expectation of a function of the sampled slate times a reward of that slate. -/
theorem slate_draw_expect {U : Fin n → Fin L → Ω → ℝ} (hU : SlateDraws P U) (i : Fin n) (l : ℕ → ℝ) {fact : Bool}
    {R : List ℕ → Ω → ℝ} (hi : ∀ s, Integrable (R s) P) (hind : ∀ s, IndepFun (fun ω k => U i k ω) (R s) P)
    {slate : Ω → List ℕ} (hmem : ∀ ω, slate ω ∈ slates fact L (Finset.range A))
    (hs : ∀ ω, ∀ s ∈ slates fact L (Finset.range A), s = slate ω ↔ SlatePicks l fact A s fun k => U i k ω) (h : List ℕ → ℝ) :
    Integrable (fun ω => h (slate ω) * R (slate ω) ω) P ∧
      ∫ ω, h (slate ω) * R (slate ω) ω ∂P =
        ∑ s ∈ slates fact L (Finset.range A), slateProb l fact A s * (h s * ∫ ω, R s ω ∂P) := by
  let T := slates fact L (Finset.range A)
  let V : Ω → Fin L → ℝ := fun ω k => U i k ω
  have hV : Measurable V := measurable_pi_lambda _ fun k => (hU.uniform i).meas k
  let I : List ℕ → (Fin L → ℝ) → ℝ := fun s u => if SlatePicks l fact A s u then 1 else 0
  have hset := fun s => slatePicks_meas (A := A) (L := L) l fact s
  have hIm : ∀ s, Measurable (I s) := fun s => Measurable.ite (hset s) measurable_const measurable_const
  have hI : ∀ s ∈ T, ∀ ω, I s (V ω) = if s = slate ω then 1 else 0 := fun s hsT ω => by
    simp only [I, V, ← hs ω s hsT]
  have hsum : (fun ω => h (slate ω) * R (slate ω) ω) = fun ω => ∑ s ∈ T, h s * (I s (V ω) * R s ω) := by
    funext ω
    rw [Finset.sum_eq_single_of_mem (slate ω) (hmem ω)]
    · rw [hI _ (hmem ω), if_pos rfl, one_mul]
    · intro b hb hne
      rw [hI _ hb, if_neg hne, zero_mul, mul_zero]
  have hindI : ∀ s, IndepFun (fun ω => I s (V ω)) (R s) P := fun s => (hind s).comp (hIm s) measurable_id
  have hIi : ∀ s, Integrable (fun ω => I s (V ω)) P := fun s => by
    refine Integrable.of_bound (((hIm s).comp hV).aestronglyMeasurable) 1 (ae_of_all _ fun ω => ?_)
    simp only [I]
    split_ifs <;> simp
  have hint : ∀ s, Integrable (fun ω => I s (V ω) * R s ω) P := fun s => IndepFun.integrable_mul (hindI s) (hIi s) (hi s)
  have hIv : ∀ s ∈ T, ∫ ω, I s (V ω) ∂P = slateProb l fact A s := fun s hsT => by
    rw [← slatePicks_prob hU i l hsT, ← integral_indicator_one (show MeasurableSet {ω | SlatePicks l fact A s (V ω)} from hV (hset s))]
    congr 1
  rw [hsum]
  refine ⟨integrable_finsetSum _ fun s _ => (hint s).const_mul _, ?_⟩
  rw [integral_finsetSum _ fun s _ => (hint s).const_mul _]
  refine Finset.sum_congr rfl fun s hsT => ?_
  rw [integral_const_mul, (hindI s).integral_fun_mul_eq_mul_integral (hIi s).aestronglyMeasurable (hi s).aestronglyMeasurable,
    hIv s hsT]
  ring

theorem flatten_grid {α : Type} (f : Fin n → Fin L → α) :
    (List.ofFn fun i => List.ofFn (f i)).flatten = List.ofFn fun j : Fin (n * L) => f j.divNat j.modNat := by
  rw [List.ofFn_mul]
  congr 2
  funext i
  congr 1
  funext j
  have hL : 0 < L := Nat.pos_of_ne_zero fun h => by subst h; exact j.elim0
  congr 1
  · ext
    simp only [Fin.coe_divNat]
    rw [add_comm, Nat.add_mul_div_right _ _ hL, Nat.div_eq_of_lt j.2, zero_add]
  · ext
    simp only [Fin.coe_modNat]
    rw [add_comm, Nat.add_mul_mod_self_right, Nat.mod_eq_of_lt j.2]

/-- The log of the slates `s` with the propensities `pb`, `pe`. -/
def gridLog (r : Fin n → Fin L → ℝ) (pb pe : Fin n → Fin L → ℝ) : SlateLog ℝ (n * L) where
  slate j := j.divNat
  pos j := j.modNat
  reward j := r j.divNat j.modNat
  ps j := pb j.divNat j.modNat
  eps j := pe j.divNat j.modNat

theorem gridLog_args (r pb pe : Fin n → Fin L → ℝ) :
    slateOpeArgs r (List.ofFn fun i => List.ofFn (pb i)).flatten (List.ofFn fun i => List.ofFn (pe i)).flatten = (gridLog r pb pe).args := by
  unfold slateOpeArgs SlateLog.args gridLog
  simp only [← flatten_grid]
  have h1 : (fun i : Fin n => List.replicate L ((i : ℕ) : ℤ)) = fun i : Fin n => List.ofFn fun _ : Fin L => ((i : ℕ) : ℤ) := by
    funext i
    exact (List.ofFn_const L _).symm
  have h2 : ((List.range L).map fun k : ℕ => (k : ℤ)) = List.ofFn fun k : Fin L => ((k : ℕ) : ℤ) := by
    refine List.ext_getElem (by simp) fun k h1 h2 => by simp
  rw [h1, h2, flatten_grid fun (i : Fin n) (_ : Fin L) => ((i : ℕ) : ℤ), flatten_grid fun (_ : Fin n) (k : Fin L) => ((k : ℕ) : ℤ)]

theorem gridLog_value {k : SlateKind} (hk : k = .sips ∨ k = .iips ∨ k = .rips) (hL : 0 < L) {r pb pe : Fin n → Fin L → ℝ}
    (h : k.Accepts (gridLog r pb pe)) :
    k.estimatePolicyValue L (gridLog r pb pe).args = .ok ((∑ i, ∑ l, r i l * (pe i l / pb i l)) / (n : ℝ)) := by
  have hr : k.rowVals L (gridLog r pb pe) = some fun i => (gridLog r pb pe).reward i * (gridLog r pb pe).weight i := by
    rcases hk with rfl | rfl | rfl <;> rfl
  have hnum : (gridLog r pb pe).numSlates = n := by
    unfold SlateLog.numSlates
    have : Finset.univ.image (gridLog r pb pe).slate = Finset.range n := by
      ext s
      simp only [Finset.mem_image, Finset.mem_univ, true_and, Finset.mem_range]
      constructor
      · rintro ⟨j, rfl⟩; exact j.divNat.isLt
      · intro hs
        refine ⟨finProdFinEquiv (⟨s, hs⟩, ⟨0, hL⟩), ?_⟩
        have := Equiv.symm_apply_apply finProdFinEquiv ((⟨s, hs⟩, ⟨0, hL⟩) : Fin n × Fin L)
        exact congrArg (fun p : Fin n × Fin L => (p.1 : ℕ)) this
    rw [this, Finset.card_range]
  rw [slateValue_eq k L h, hr, hnum]
  refine congrArg Except.ok ?_
  rw [← sum_grid fun i l => r i l * (pe i l / pb i l)]
  rfl

/-- The expectation of the estimates from sampled slates, for propensities `pb`, `pe` that depend on the slate. -/
theorem slate_pipeline {k : SlateKind} (hk : k = .sips ∨ k = .iips ∨ k = .rips) (hL0 : 0 < L) {fact : Bool}
    (lB lE : Fin n → ℕ → ℝ) {U : Fin n → Fin L → Ω → ℝ} (hU : SlateDraws P U) {m : Fin n → List ℕ → Fin L → ℝ}
    {R : Fin n → List ℕ → Fin L → Ω → ℝ} (hR : SlateRewardDraws P U m R) {slate : Ω → Fin n → List ℕ}
    (hmem : ∀ ω i, slate ω i ∈ slates fact L (Finset.range A))
    (hs : ∀ ω i, ∀ s ∈ slates fact L (Finset.range A), s = slate ω i ↔ SlatePicks (lB i) fact A s fun k => U i k ω)
    {pb pe : Fin n → List ℕ → Fin L → ℝ}
    (hacc : ∀ ω, k.Accepts (gridLog (fun i l => R i (slate ω i) l ω) (fun i => pb i (slate ω i)) fun i => pe i (slate ω i)))
    (hrew : ∀ i l, ∑ s ∈ slates fact L (Finset.range A), slateProb (lB i) fact A s * (pe i s l / pb i s l * m i s l) =
      ∑ s ∈ slates fact L (Finset.range A), slateProb (lE i) fact A s * m i s l) :
    ∃ v : Ω → ℝ,
      (∀ ω, k.estimatePolicyValue L (slateOpeArgs (fun i l => R i (slate ω i) l ω)
        (List.ofFn fun i => List.ofFn (pb i (slate ω i))).flatten (List.ofFn fun i => List.ofFn (pe i (slate ω i))).flatten) =
          .ok (v ω)) ∧
      Integrable v P ∧
      ∫ ω, v ω ∂P = (∑ i, ∑ s ∈ slates fact L (Finset.range A), slateProb (lE i) fact A s * ∑ l, m i s l) / n := by
  have hslot := fun i l => slate_draw_expect hU i (lB i) (fact := fact) (A := A) (R := fun s => R i s l) (fun s => hR.integrable i s l)
    (fun s => hR.indep i s l) (slate := fun ω => slate ω i) (fun ω => hmem ω i) (fun ω => hs ω i) fun s => pe i s l / pb i s l
  have hint : ∀ i l, Integrable (fun ω => R i (slate ω i) l ω * (pe i (slate ω i) l / pb i (slate ω i) l)) P := fun i l => by
    simp only [mul_comm (R _ _ _ _)]
    exact (hslot i l).1
  refine ⟨fun ω => (∑ i, ∑ l, R i (slate ω i) l ω * (pe i (slate ω i) l / pb i (slate ω i) l)) / n, fun ω => ?_,
    (integrable_finsetSum _ fun i _ => integrable_finsetSum _ fun l _ => hint i l).div_const _, ?_⟩
  · rw [gridLog_args (fun i l => R i (slate ω i) l ω) (fun i => pb i (slate ω i)) fun i => pe i (slate ω i),
      gridLog_value hk hL0 (hacc ω)]
  · rw [integral_div, integral_finsetSum _ fun i _ => integrable_finsetSum _ fun l _ => hint i l]
    congr 1
    refine Finset.sum_congr rfl fun i _ => ?_
    rw [integral_finsetSum _ fun l _ => hint i l]
    simp only [Finset.mul_sum]
    rw [Finset.sum_comm]
    refine Finset.sum_congr rfl fun l _ => ?_
    rw [← hrew i l]
    have := (hslot i l).2
    simp only [hR.mean] at this
    rw [← this]
    simp only [mul_comm]

end Obp
