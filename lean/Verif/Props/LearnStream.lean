import Verif.Spec.LearnStream
import Verif.Props.Confidence
import Verif.Props.Consistency
import Verif.Props.Offline

set_option linter.unusedSectionVars false

/-!
# Learning from a log generalises

C179: how good the policy learned by `IPWLearner` is on new contexts.
-/

namespace Obp
open MeasureTheory ProbabilityTheory Filter Topology LogStream

/-- Hoeffding's inequality for sample means, both sides. -/
theorem hoeffding_two_sided {Ω : Type} [MeasurableSpace Ω] {P : Measure Ω} [IsProbabilityMeasure P] {n : ℕ} (hn : 0 < n)
    {X : Fin n → Ω → ℝ} (hm : ∀ i, Measurable (X i)) (hind : iIndepFun X P) {B : ℝ}
    (hX : ∀ i ω, X i ω ∈ Set.Icc 0 B) {delta : ℝ} (h0 : 0 < delta) (h1 : delta ≤ 1) {μ : ℝ} (hμ : ∀ i, ∫ ω, X i ω ∂P = μ) :
    P.real {ω | B * √(Real.log (1 / delta) / (2 * n)) < |(∑ i, X i ω) / n - μ|} ≤ 2 * delta := by
  have hn' : (0 : ℝ) < n := by exact_mod_cast hn
  have key : ∀ (Y : Fin n → Ω → ℝ), (∀ i, Measurable (Y i)) → iIndepFun Y P → (∀ i ω, Y i ω ∈ Set.Icc 0 B) → ∀ ν : ℝ,
      (∀ i, ∫ ω, Y i ω ∂P = ν) → P.real {ω | B * √(Real.log (1 / delta) / (2 * n)) < (∑ i, Y i ω) / n - ν} ≤ delta := by
    intro Y hYm hYi hYb ν hν
    obtain ⟨lb, hlb, hp⟩ := C150_hoeffding_partial hn hYm hYi hYb h0 h1
    refine le_trans (measureReal_mono fun ω hω => ?_) hp
    have hne : (List.ofFn fun i => Y i ω) ≠ [] := by
      intro h
      have := congrArg List.length h
      rw [List.length_ofFn] at this
      simp at this
      omega
    have hv := C32_hoeffding_value (d := delta) (m := B) (xMax := some B) hne
      ⟨rfl, fun y hy => by obtain ⟨i, rfl⟩ := List.mem_ofFn.1 hy; exact (hYb i ω).2⟩ h0 h1
    rw [hlb ω] at hv
    have hv := Except.ok.inj hv
    rw [List.sum_ofFn, List.length_ofFn] at hv
    simp only [Set.mem_ofPred_eq, hν, Finset.sum_const, Finset.card_univ, Fintype.card_fin, nsmul_eq_mul] at hω ⊢
    rw [hv, mul_div_cancel_left₀ _ hn'.ne']
    linarith
  have hint : ∀ i, Integrable (X i) P := fun i =>
    Integrable.of_bound (hm i).aestronglyMeasurable B (ae_of_all _ fun ω => by
      rw [Real.norm_of_nonneg (hX i ω).1]; exact (hX i ω).2)
  have k1 := key X hm hind hX μ hμ
  have k2 := key (fun i ω => B - X i ω) (fun i => (hm i).const_sub B)
    (hind.comp (fun _ x => B - x) fun _ => measurable_id.const_sub B) (fun i ω => ⟨by linarith [(hX i ω).2], by linarith [(hX i ω).1]⟩)
    (B - μ) fun i => by
      rw [integral_sub (integrable_const B) (hint i), hμ i]
      simp
  refine (measureReal_mono ?_).trans ((measureReal_union_le _ _).trans ((add_le_add k1 k2).trans_eq (two_mul delta).symm))
  intro ω hω
  simp only [Set.mem_ofPred_eq, lt_abs, Set.mem_union] at hω ⊢
  refine hω.imp id fun h => h.trans_eq ?_
  rw [Finset.sum_sub_distrib]
  simp only [Finset.sum_const, Finset.card_univ, Fintype.card_fin, nsmul_eq_mul]
  field_simp
  ring

section
variable {Ω C M ι : Type} [MeasurableSpace Ω] [MeasurableSpace C] {A d : ℕ} {P : Measure Ω} [IsProbabilityMeasure P]
variable {s : LogStream Ω C A} {piB m : C → Fin A → ℝ} {feat : C → Fin d → ℝ} {rule : ι → List ℝ → Fin A}

theorem followRule_covers (hrm : ∀ j, Measurable fun c => rule j (List.ofFn (feat c)))
    (hsupp : ∀ j c, piB c (rule j (List.ofFn (feat c))) ≠ 0) (j : ι) :
    Covers piB (fun _ => (0 : Fin 1)) (followRule feat (rule j)) := by
  refine ⟨fun c l => ⟨fun a => ?_, ?_⟩, fun a => ?_, fun c a h => ?_⟩
  · unfold followRule pointMass
    split <;> norm_num
  · simp [followRule, pointMass]
  · exact (measurable_of_finite fun b : Fin A => (pointMass b a : ℝ)).comp (hrm j)
  · unfold followRule pointMass
    rw [if_neg]
    rintro rfl
    exact hsupp j c h

/-- Share of a round in the training accuracy of a rule. -/
noncomputable def ruleTerm (piB : C → Fin A → ℝ) (feat : C → Fin d → ℝ) (r : List ℝ → Fin A) (c : C) (a : Fin A) (y : ℝ) : ℝ :=
  if r (List.ofFn (feat c)) = a then y / piB c a else 0

theorem ruleTerm_eq (r : List ℝ → Fin A) (c : C) (a : Fin A) (y : ℝ) :
    ruleTerm piB feat r c a y = followRule feat r c a 0 / piB c a * y := by
  unfold ruleTerm followRule pointMass
  by_cases h : r (List.ofFn (feat c)) = a
  · rw [if_pos h, if_pos h.symm, one_div, inv_mul_eq_div]
  · rw [if_neg h, if_neg (Ne.symm h)]
    simp

/-- The fitted rule is at least as good on the log as every rule of the class. -/
theorem fitted_rule {clf : WClassifier M ℝ} (hopt : clf.OptimalIn (Set.range fun j x => ((rule j x : ℕ) : ℤ)))
    (hin : clf.StaysIn (Set.range fun j x => ((rule j x : ℕ) : ℤ))) {n : ℕ} (hn : 0 < n) {ω : Ω}
    (hp : ∀ i, 0 < piB (s.ctx i ω) (s.act i ω)) (hr : ∀ i, 0 ≤ s.rew i ω) {ms ms' : Fin 1 → M}
    (hfit : ipwLearnerFit clf ⟨A, 1⟩ (s.train piB feat n ω).args ms = .ok ms') :
    ∃ k, (∀ pol, PredictsPolicy clf ms' feat pol ↔ pol = followRule feat (rule k)) ∧
      ∀ j, Log.avg (fun i : Fin n => ruleTerm piB feat (rule j) (s.ctx i ω) (s.act i ω) (s.rew i ω)) ≤
        Log.avg fun i : Fin n => ruleTerm piB feat (rule k) (s.ctx i ω) (s.act i ω) (s.rew i ω) := by
  have hg : (s.train piB feat n ω).Valid := ⟨hn, fun i => hp i⟩
  have h := (C100_ipw_fit hg (fun i => hr i) (fun p => ⟨⟨0, hn⟩, Subsingleton.elim _ _⟩) clf ms ms').1 hfit 0
  obtain ⟨k, hk⟩ := hin _ _ _ _ _ h
  refine ⟨k, fun pol => ?_, fun j => ?_⟩
  · have hpred : ∀ c, ipwPredict clf ⟨A, 1⟩ ms' (.arr ⟨1, d, fun _ => feat c⟩) = .ok [followRule feat (rule k) c] := by
      intro c
      rw [C70_ipw clf ms' (fun _ : Fin 1 => feat c) (fun _ _ => rule k (List.ofFn (feat c))) fun i p => by
        obtain rfl : p = 0 := Subsingleton.elim _ _
        rw [← hk]]
      rfl
    constructor
    · intro hpol
      funext c
      have := (hpol c).symm.trans (hpred c)
      exact List.head_eq_of_cons_eq (Except.ok.inj this)
    · rintro rfl
      exact hpred
  · have := hopt _ _ _ _ _ h _ ⟨j, rfl⟩
    rw [← hk, weightCorrect_roundsAt, weightCorrect_roundsAt] at this
    have e : ∀ j, (∑ i : Fin n, if (s.train piB feat n ω).position i = 0 then
        (if ((rule j (List.ofFn ((s.train piB feat n ω).context i)) : ℕ) : ℤ) = (((s.train piB feat n ω).action i : ℕ) : ℤ) then
          (s.train piB feat n ω).reward i / (s.train piB feat n ω).pscore i else 0) else 0) =
        ∑ i : Fin n, ruleTerm piB feat (rule j) (s.ctx i ω) (s.act i ω) (s.rew i ω) := by
      intro j
      refine Finset.sum_congr rfl fun i _ => ?_
      rw [if_pos (Subsingleton.elim _ _)]
      unfold ruleTerm
      simp only [Nat.cast_inj, Fin.val_inj]
      rfl
    rw [e, e] at this
    exact div_le_div_of_nonneg_right this (Nat.cast_nonneg n)

/-- **C179.** Learning from finitely many rounds. Let rewards be in `[0, R]`, and the logging policy take the action of any of the
`k` rules with probability at least `1 / W`. If the classifier reaches the best weighted accuracy in the class and stays in it,
then, except with probability `delta`, the policy that `predict` follows has a value at most `R * W * sqrt (2 * log (2 * k / delta) / n)`
below the best policy of the class. -/
theorem C179_regret [Fintype ι] [Nonempty ι] (hs : s.LoggedBy P piB m) {R W : ℝ} (hR : ∀ i ω, s.rew i ω ∈ Set.Icc 0 R)
    (hrm : ∀ j, Measurable fun c => rule j (List.ofFn (feat c))) (hW : ∀ j c, 1 ≤ W * piB c (rule j (List.ofFn (feat c))))
    {clf : WClassifier M ℝ} (hopt : clf.OptimalIn (Set.range fun j x => ((rule j x : ℕ) : ℤ)))
    (hin : clf.StaysIn (Set.range fun j x => ((rule j x : ℕ) : ℤ))) (ms : Fin 1 → M) {n : ℕ} (hn : 0 < n) {delta : ℝ}
    (h0 : 0 < delta) (h1 : delta ≤ 1) :
    P.real {ω | ∃ ms' pol, ipwLearnerFit clf ⟨A, 1⟩ (s.train piB feat n ω).args ms = .ok ms' ∧ PredictsPolicy clf ms' feat pol ∧
      ∃ j, s.value P (fun _ => 0) pol m + R * W * √(2 * Real.log (2 * Fintype.card ι / delta) / n) <
        s.value P (fun _ => 0) (followRule feat (rule j)) m} ≤ delta := by
  have hk : (1 : ℝ) ≤ Fintype.card ι := by exact_mod_cast Fintype.card_pos
  have hn' : (0 : ℝ) < n := by exact_mod_cast hn
  obtain ⟨ω0⟩ : Nonempty Ω := P.nonempty_of_neZero
  have hR0 : 0 ≤ R := (hR 0 ω0).1.trans (hR 0 ω0).2
  have hb0 : ∀ j c, 0 < piB c (rule j (List.ofFn (feat c))) := fun j c =>
    lt_of_le_of_ne ((hs.piB_dist c).nonneg _) fun h => by have := hW j c; rw [← h] at this; linarith
  have hE : ∀ j, Covers piB (fun _ => (0 : Fin 1)) (followRule feat (rule j)) :=
    followRule_covers hrm fun j c => (hb0 j c).ne'
  have hfm : ∀ j, Measurable fun x : C × Fin A × ℝ => ruleTerm piB feat (rule j) x.1 x.2.1 x.2.2 := by
    intro j
    simp only [ruleTerm_eq]
    exact (hs.weightFn_meas (hE j)).mul (measurable_snd.comp measurable_snd)
  have hXb : ∀ j i ω, ruleTerm piB feat (rule j) (s.ctx i ω) (s.act i ω) (s.rew i ω) ∈ Set.Icc 0 (R * W) := by
    intro j i ω
    have h2 := hR i ω
    have hW0 : 0 ≤ W := by
      have h3 := hW j (s.ctx i ω)
      by_contra h
      nlinarith [hb0 j (s.ctx i ω)]
    unfold ruleTerm
    split
    · next h =>
      have hb := hb0 j (s.ctx i ω)
      have h3 := hW j (s.ctx i ω)
      rw [h] at hb h3
      refine ⟨div_nonneg h2.1 hb.le, ?_⟩
      rw [div_le_iff₀ hb]
      calc s.rew i ω ≤ R := h2.2
        _ ≤ R * (W * piB (s.ctx i ω) (s.act i ω)) := le_mul_of_one_le_right hR0 h3
        _ = _ := by ring
    · exact ⟨le_rfl, mul_nonneg hR0 hW0⟩
  have hXm : ∀ j i, Measurable fun ω => ruleTerm piB feat (rule j) (s.ctx i ω) (s.act i ω) (s.rew i ω) := fun j i =>
    (hfm j).comp ((hs.ctx_meas i).prodMk ((hs.act_meas i).prodMk (hs.rew_meas i)))
  have hmean : ∀ j i, ∫ ω, ruleTerm piB feat (rule j) (s.ctx i ω) (s.act i ω) (s.rew i ω) ∂P =
      s.value P (fun _ => 0) (followRule feat (rule j)) m := by
    intro j i
    have hi : Integrable (fun ω => s.weight piB (fun _ => 0) (followRule feat (rule j)) ω * s.rew 0 ω) P := by
      refine (Integrable.of_bound (hXm j 0).aestronglyMeasurable (R * W) (ae_of_all _ fun ω => ?_)).congr
        (ae_of_all _ fun ω => ruleTerm_eq _ _ _ _)
      rw [Real.norm_of_nonneg (hXb j 0 ω).1]
      exact (hXb j 0 ω).2
    rw [← (hs.weighted_reward (hE j) hi).2]
    exact (((hs.ident i).comp (hfm j)).integral_eq).trans (integral_congr_ae (ae_of_all _ fun ω => ruleTerm_eq _ _ _ _))
  set δ' := delta / (2 * Fintype.card ι) with hδ'
  have hd0 : 0 < δ' := by positivity
  have hd1 : δ' ≤ 1 := by
    rw [hδ', div_le_one (by positivity)]
    linarith
  set eps := R * W * √(Real.log (1 / δ') / (2 * n)) with heps
  have htail : ∀ j, P.real {ω | eps < |(∑ i : Fin n, ruleTerm piB feat (rule j) (s.ctx i ω) (s.act i ω) (s.rew i ω)) / n -
      s.value P (fun _ => 0) (followRule feat (rule j)) m|} ≤ 2 * δ' := fun j =>
    hoeffding_two_sided hn (fun i => hXm j i) ((hs.indep.comp (fun _ => _) fun _ => hfm j).precomp Fin.val_injective)
      (fun i ω => hXb j i ω) hd0 hd1 (fun i => hmean j i)
  have h2eps : R * W * √(2 * Real.log (2 * Fintype.card ι / delta) / n) = 2 * eps := by
    have e1 : 1 / δ' = 2 * Fintype.card ι / delta := by rw [hδ', one_div_div]
    have e2 : 2 * Real.log (2 * Fintype.card ι / delta) / n = 2 ^ 2 * (Real.log (1 / δ') / (2 * n)) := by
      rw [e1]
      field_simp
    rw [heps, e2, Real.sqrt_mul (by norm_num), Real.sqrt_sq (by norm_num)]
    ring
  have hnull : P.real {ω | ¬ ∀ i, 0 < piB (s.ctx i ω) (s.act i ω)} = 0 := by
    rw [measureReal_eq_zero_iff]
    exact ae_iff.1 hs.pscore_pos
  calc _ ≤ P.real ({ω | ¬ ∀ i, 0 < piB (s.ctx i ω) (s.act i ω)} ∪ ⋃ j, {ω | eps <
        |(∑ i : Fin n, ruleTerm piB feat (rule j) (s.ctx i ω) (s.act i ω) (s.rew i ω)) / n -
          s.value P (fun _ => 0) (followRule feat (rule j)) m|}) := by
        refine measureReal_mono fun ω hω => ?_
        obtain ⟨ms', pol, hfit, hpol, j, hj⟩ := hω
        by_contra hgood
        simp only [Set.mem_union, Set.mem_iUnion, Set.mem_ofPred_eq, not_or, not_not, not_exists, not_lt] at hgood
        obtain ⟨hp, hdev⟩ := hgood
        obtain ⟨k, hkp, hkb⟩ := fitted_rule hopt hin hn hp (fun i => (hR i ω).1) hfit
        rw [hkp] at hpol
        subst hpol
        have b1 := abs_le.1 (hdev j)
        have b2 := abs_le.1 (hdev k)
        have b3 := hkb j
        unfold Log.avg at b3
        rw [h2eps] at hj
        linarith [b1.1, b2.2]
    _ ≤ 0 + ∑ _j : ι, 2 * δ' := by
        refine (measureReal_union_le _ _).trans (add_le_add hnull.le ?_)
        exact (measureReal_iUnion_fintype_le _).trans (Finset.sum_le_sum fun j _ => htail j)
    _ = delta := by
        rw [zero_add, Finset.sum_const, Finset.card_univ, nsmul_eq_mul, hδ']
        field_simp

/-- **C179.** Learning from ever more rounds: the values of the learned policies tend to that of the best policy of the class. Rewards
need not be bounded and propensities may be arbitrarily small. -/
theorem C179_consistent [Finite ι] (hs : s.LoggedBy P piB m) (hR : ∀ i ω, 0 ≤ s.rew i ω)
    (hrm : ∀ j, Measurable fun c => rule j (List.ofFn (feat c))) (hsupp : ∀ j c, piB c (rule j (List.ofFn (feat c))) ≠ 0)
    (hi : ∀ j, Integrable (fun ω => s.weight piB (fun _ => 0) (followRule feat (rule j)) ω * s.rew 0 ω) P)
    {clf : WClassifier M ℝ} (hopt : clf.OptimalIn (Set.range fun j x => ((rule j x : ℕ) : ℤ)))
    (hin : clf.StaysIn (Set.range fun j x => ((rule j x : ℕ) : ℤ))) (ms : Fin 1 → M) :
    ∀ᵐ ω ∂P, ∀ eps > 0, ∀ᶠ n in atTop, ∀ ms' pol,
      ipwLearnerFit clf ⟨A, 1⟩ (s.train piB feat n ω).args ms = .ok ms' → PredictsPolicy clf ms' feat pol →
      (∃ k, pol = followRule feat (rule k)) ∧
      ∀ j, s.value P (fun _ => 0) (followRule feat (rule j)) m - eps ≤ s.value P (fun _ => 0) pol m := by
  have hE := followRule_covers hrm hsupp
  have hfm : ∀ j, Measurable fun x : C × Fin A × ℝ => ruleTerm piB feat (rule j) x.1 x.2.1 x.2.2 := by
    intro j
    simp only [ruleTerm_eq]
    exact (hs.weightFn_meas (hE j)).mul (measurable_snd.comp measurable_snd)
  have hll : ∀ j, ∀ᵐ ω ∂P, Tendsto (fun n : ℕ => Log.avg fun i : Fin n =>
      ruleTerm piB feat (rule j) (s.ctx i ω) (s.act i ω) (s.rew i ω)) atTop
      (𝓝 (s.value P (fun _ => 0) (followRule feat (rule j)) m)) := by
    intro j
    have := hs.lln (hfm j) ((hi j).congr (ae_of_all _ fun ω => (ruleTerm_eq _ _ _ _).symm))
    rw [integral_congr_ae (ae_of_all _ fun ω => ruleTerm_eq (piB := piB) (feat := feat) (rule j) (s.ctx 0 ω) (s.act 0 ω) (s.rew 0 ω))] at this
    have e := (hs.weighted_reward (hE j) (hi j)).2
    unfold weight at e
    rwa [e] at this
  filter_upwards [ae_all_iff.2 hll, hs.pscore_pos] with ω hω hp eps heps
  have hev : ∀ᶠ n in atTop, ∀ j, |Log.avg (fun i : Fin n =>
      ruleTerm piB feat (rule j) (s.ctx i ω) (s.act i ω) (s.rew i ω)) - s.value P (fun _ => 0) (followRule feat (rule j)) m| < eps / 2 :=
    eventually_all.2 fun j => by
      have := Metric.tendsto_nhds.1 (hω j) (eps / 2) (by positivity)
      simpa only [Real.dist_eq] using this
  filter_upwards [hev, eventually_gt_atTop 0] with n hn hpos ms' pol hfit hpol
  obtain ⟨k, hkp, hkb⟩ := fitted_rule hopt hin hpos hp (fun i => hR i ω) hfit
  rw [hkp] at hpol
  subst hpol
  refine ⟨⟨k, rfl⟩, fun j => ?_⟩
  have b1 := abs_lt.1 (hn j)
  have b2 := abs_lt.1 (hn k)
  linarith [hkb j, b1.1, b2.2]

/-- **C179.** Fitting fails only if the classifier fails, and a fitted classifier always predicts a policy. -/
theorem C179_predicts {clf : WClassifier M ℝ} (hopt : clf.OptimalIn (Set.range fun j x => ((rule j x : ℕ) : ℤ)))
    (hin : clf.StaysIn (Set.range fun j x => ((rule j x : ℕ) : ℤ))) (hs : s.LoggedBy P piB m) (hR : ∀ i ω, 0 ≤ s.rew i ω)
    (hok : ∀ m X y w, X ≠ [] → ∃ m', clf.fit m X y w = .ok m') (ms : Fin 1 → M) :
    ∀ᵐ ω ∂P, ∀ n > 0, ∃ (ms' : Fin 1 → M) (pol : C → Fin A → Fin 1 → ℝ), ipwLearnerFit clf ⟨A, 1⟩ (s.train piB feat n ω).args ms = .ok ms' ∧
      PredictsPolicy clf ms' feat pol := by
  filter_upwards [hs.pscore_pos] with ω hp n hn
  have hg : (s.train piB feat n ω).Valid := ⟨hn, fun i => hp i⟩
  have hne : ((s.train piB feat n ω).roundsAt (List.finRange n) 0).map (fun i => List.ofFn ((s.train piB feat n ω).context i)) ≠ [] := by
    rw [Ne, List.map_eq_nil_iff]
    refine List.ne_nil_of_mem (a := ⟨0, hn⟩) ?_
    simp [RegLog.roundsAt, LogStream.train]
  obtain ⟨m', hm'⟩ := hok (ms 0) _ (((s.train piB feat n ω).roundsAt (List.finRange n) 0).map fun i =>
    (((s.train piB feat n ω).action i : ℕ) : ℤ)) (((s.train piB feat n ω).roundsAt (List.finRange n) 0).map fun i =>
    (s.train piB feat n ω).reward i / (s.train piB feat n ω).pscore i) hne
  have hfit := (C100_ipw_fit hg (fun i => hR i ω) (fun p => ⟨⟨0, hn⟩, Subsingleton.elim _ _⟩) clf ms fun _ => m').2 fun p => by
    obtain rfl : p = 0 := Subsingleton.elim _ _
    exact hm'
  obtain ⟨k, hk, -⟩ := fitted_rule hopt hin hn hp (fun i => hR i ω) hfit
  exact ⟨_, _, hfit, (hk _).2 rfl⟩

end

/-! ### The hypotheses are met -/

/-- The context as one number. -/
def exFeat (c : Bool) (_ : Fin 1) : ℝ := if c then 1 else 0

/-- The rules: play action 0, play action 1, play the context. -/
noncomputable def exRule (j : Fin 3) (x : List ℝ) : Fin 2 := if j = 0 then 0 else if j = 1 then 1 else if x = [1] then 1 else 0

open Classical in
/-- A classifier that tries the three rules. -/
noncomputable def exRuleClf : WClassifier (Fin 3) ℝ where
  fit _ X y w := .ok (Finset.exists_max_image Finset.univ (fun j => weightCorrect X y w fun x => ((exRule j x : ℕ) : ℤ))
    Finset.univ_nonempty).choose
  predict j x := ((exRule j x : ℕ) : ℤ)
  proba _ _ := []

theorem exRuleClf_optimal : exRuleClf.OptimalIn (Set.range fun j x => ((exRule j x : ℕ) : ℤ)) := by
  rintro m X y w m' h rule ⟨j, rfl⟩
  obtain rfl := Except.ok.inj h
  exact (Finset.exists_max_image Finset.univ (fun j => weightCorrect X y w fun x => ((exRule j x : ℕ) : ℤ))
    Finset.univ_nonempty).choose_spec.2 j (Finset.mem_univ _)

theorem exRuleClf_stays : exRuleClf.StaysIn (Set.range fun j x => ((exRule j x : ℕ) : ℤ)) := fun _ _ _ _ m' _ => ⟨m', rfl⟩

/-- A thousand rounds of the coin stream. -/
example := C179_regret (R := 4) (W := 2) (feat := exFeat) exStream_logged (fun i ω => by
    change exReward (ω i) ∈ Set.Icc 0 4
    unfold exReward exMean
    generalize (ω i).2.1 = a
    fin_cases a <;> constructor <;> split <;> split <;> norm_num) (fun _ => measurable_of_finite _) (fun _ _ => by norm_num)
  exRuleClf_optimal exRuleClf_stays (fun _ => 0) (n := 1000) (by norm_num) (delta := 1 / 20) (by norm_num) (by norm_num)

example := C179_consistent (feat := exFeat) exStream_logged (fun i ω => by
    change 0 ≤ exReward (ω i)
    unfold exReward exMean
    generalize (ω i).2.1 = a
    fin_cases a <;> split <;> split <;> norm_num) (fun _ => measurable_of_finite _) (fun _ _ => by norm_num)
  (fun j => exStream_integrable fun c a => followRule exFeat (exRule j) c a 0 / (1 / 2)) exRuleClf_optimal exRuleClf_stays (fun _ => 0)

example := C179_predicts (feat := exFeat) exRuleClf_optimal exRuleClf_stays exStream_logged (fun i ω => by
    change 0 ≤ exReward (ω i)
    unfold exReward exMean
    generalize (ω i).2.1 = a
    fin_cases a <;> split <;> split <;> norm_num) (fun _ _ _ _ _ => ⟨_, rfl⟩) (fun _ => 0)

end Obp
