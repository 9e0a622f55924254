import Verif.Lemmas.SelfNormalized
import Verif.Lemmas.BanditAlmostSure

set_option linter.unusedSectionVars false

/-! # The confidence bounds of `LinUCB` hold with high probability -/

namespace Obp
open Matrix MeasureTheory ProbabilityTheory
open scoped ENNReal NNReal

variable {n d : ℕ}

theorem noiseOf_pickData (x : ℕ → Fin d → ℝ) (A : ℕ → Prop) (y : ℕ → ℝ) (θ : Fin d → ℝ) (t : ℕ) :
    noiseOf (pickData x A y t) θ = moment (pickData x A (fun s => y s - x s ⬝ᵥ θ) t) := by
  induction t with
  | zero => rfl
  | succ t ih =>
    by_cases ht : A t
    · rw [pickData_pos ht, pickData_pos ht, noiseOf_append, moment_append, ih]
    · rw [pickData_neg ht, pickData_neg ht, ih]

section
variable (hn : 0 < n) (argsort : List ℝ → List ℕ) (L b : ℕ) (ε : ℝ) (x : ℕ → Fin d → ℝ)

theorem dataOf_ucbHist (r : ℕ → Fin n → ℝ) (a : Fin n) (t : ℕ) :
    dataOf (ucbHist hn argsort L b ε x r t) a =
      pickData x (fun s => ucbAction hn argsort L b ε x r s = a) (fun s => r s a) t := by
  induction t with
  | zero => rfl
  | succ t ih =>
    rw [ucbHist_succ, dataOf_append]
    by_cases ht : ucbAction hn argsort L b ε x r t = a
    · rw [pickData_pos (A := fun s => ucbAction hn argsort L b ε x r s = a) ht, ih, if_pos (by rw [ht]; exact Or.inl rfl), ht]
    · rw [pickData_neg (A := fun s => ucbAction hn argsort L b ε x r s = a) ht, ih, if_neg]
      exact fun h' => ht (Names.unique (Or.inl rfl) h')

theorem ucbHist_take (r : ℕ → Fin n → ℝ) {s t : ℕ} (h : s ≤ t) :
    (ucbHist hn argsort L b ε x r t).take s = ucbHist hn argsort L b ε x r s := by
  induction t, h using Nat.le_induction with
  | base => exact List.take_of_length_le (ucbHist_length hn argsort L b ε x r s).le
  | succ t ht ih =>
    rw [ucbHist_succ, List.take_append_of_le_length (by rw [ucbHist_length]; exact ht), ih]

theorem completed_ucbHist (r : ℕ → Fin n → ℝ) (t : ℕ) :
    completed b (ucbHist hn argsort L b ε x r t) = ucbHist hn argsort L b ε x r (b * (t / b)) := by
  unfold completed
  rw [ucbHist_length, ucbHist_take]
  exact Nat.mul_div_le t b

variable {Ω : Type} [mΩ : MeasurableSpace Ω] {P : Measure Ω} (r : ℕ → Ω → Fin n → ℝ)

/-- what the rewards before round `t` tell -/
@[reducible] def rewardInfo (t : ℕ) : MeasurableSpace Ω := ⨆ s ∈ Set.Iio t, MeasurableSpace.comap (r s) inferInstance

theorem rewardInfo_mono : Monotone (rewardInfo r) := fun _ _ h => biSup_mono fun _ hs => lt_of_lt_of_le hs h

theorem measurable_rewardInfo {s t : ℕ} (h : s < t) : Measurable[rewardInfo r t] (r s) :=
  (comap_measurable (r s)).mono (le_iSup₂_of_le s h le_rfl) le_rfl

theorem rewardInfo_le (hr : ∀ t, Measurable (r t)) (t : ℕ) : rewardInfo r t ≤ mΩ := iSup₂_le fun s _ => (hr s).comap_le

theorem rewardInfo_indep (hr : ∀ t, Measurable (r t)) (hind : iIndepFun r P) (t : ℕ) :
    Indep (rewardInfo r t) (MeasurableSpace.comap (r t) inferInstance) P := by
  have h := indep_iSup_of_disjoint (fun s => (hr s).comap_le) hind.iIndep (S := Set.Iio t) (T := {t}) (by simp)
  rwa [iSup_singleton] at h

/-- The action of round `t` depends on the rewards before it. -/
theorem measurable_ucbAction (hm : ∀ l, MeasurableSet {x : Fin n → ℝ | argsort (List.ofFn x) = l}) (t : ℕ) :
    Measurable[rewardInfo r t] fun ω => ucbAction hn argsort L b ε x (fun s => r s ω) t := by
  induction t using Nat.strong_induction_on with
  | _ t ih =>
    have hle : b * (t / b) ≤ t := Nat.mul_div_le t b
    set k := b * (t / b) with hk
    have hact : ∀ a, ∀ s < k, MeasurableSet[rewardInfo r t]
        {ω | ucbAction hn argsort L b ε x (fun s => r s ω) s = a} := by
      intro a s hs
      have h1 := (ih s (hs.trans_le hle)).mono (rewardInfo_mono r (hs.trans_le hle).le) le_rfl
      exact h1 (measurableSet_singleton a)
    have hrew : ∀ a, ∀ s < k, Measurable[rewardInfo r t] (fun ω => r s ω a) := fun a s hs =>
      (measurable_pi_apply a).comp (measurable_rewardInfo r (hs.trans_le hle))
    set score : Ω → Fin n → ℝ := fun ω a => ucbScore ε (pickData x
      (fun s => ucbAction hn argsort L b ε x (fun s => r s ω) s = a) (fun s => r s ω a) k) (x t) with hscore
    have hsm : Measurable[rewardInfo r t] score := by
      refine @measurable_pi_lambda _ _ _ (rewardInfo r t) _ _ fun a => ?_
      have h1 := measurable_pickLin (m := rewardInfo r t) x (hact a) (hrew a) (x t)
      have h2 := measurable_pickQuad (m := rewardInfo r t) x (y := fun s ω => r s ω a) (hact a) (x t)
      exact h1.add (h2.sqrt.const_mul ε)
    have e : (fun ω => ucbAction hn argsort L b ε x (fun s => r s ω) t) =
        fun ω => frontAction hn (topRanking argsort (List.ofFn (score ω)) L) := by
      funext ω
      unfold ucbAction ucbPick
      rw [completed_ucbHist, ← hk]
      simp only [dataOf_ucbHist, hscore]
    rw [e]
    refine measurable_frontAction (m := rewardInfo r t) hn fun l => ?_
    have e : {ω | topRanking argsort (List.ofFn (score ω)) L = l} =
        ⋃ l' ∈ {l' : List ℕ | l'.reverse.take L = l}, score ⁻¹' {x | argsort (List.ofFn x) = l'} := by
      ext ω; simp [topRanking]
    rw [e]
    exact MeasurableSet.biUnion (Set.to_countable _) fun l' _ => hsm (hm l')

theorem adaptive_rewards {σ : ℝ≥0} {mean : ℕ → ℝ} (a : Fin n) (hr : ∀ t, Measurable (r t)) (hind : iIndepFun r P)
    (hsub : ∀ t, HasSubgaussianMGF (fun ω => r t ω a - mean t) (σ ^ 2) P) :
    Adaptive P (rewardInfo r) (fun t ω => r t ω a - mean t) σ where
  le := rewardInfo_le r hr
  mono := rewardInfo_mono r
  noise t := ((measurable_pi_apply a).comp (measurable_rewardInfo r t.lt_succ_self)).sub_const _
  indep t := by
    refine indep_of_indep_of_le_right (rewardInfo_indep r hr hind t) ?_
    have : Measurable[MeasurableSpace.comap (r t) inferInstance] fun ω => r t ω a - mean t :=
      ((measurable_pi_apply a).comp (comap_measurable (r t))).sub_const _
    exact this.comap_le
  sub := hsub

/-- With high probability all confidence bounds hold. -/
theorem ucb_confidence [IsProbabilityMeasure P] (hm : ∀ l, MeasurableSet {x : Fin n → ℝ | argsort (List.ofFn x) = l})
    {σ : ℝ≥0} (hσ : 0 < σ) {X δ : ℝ} (hX0 : 0 ≤ X) (hX : ∀ t, x t ⬝ᵥ x t ≤ X) (θ : Fin n → Fin d → ℝ)
    (hr : ∀ t, Measurable (r t)) (hind : iIndepFun r P)
    (hsub : ∀ t a, HasSubgaussianMGF (fun ω => r t ω a - x t ⬝ᵥ θ a) (σ ^ 2) P) (hδ : 0 < δ) (T : ℕ) :
    P {ω | ¬ ∀ t < T, ∀ a,
        √(quad (dataOf (completed b (ucbHist hn argsort L b ε x (fun s => r s ω) t)) a)
          (noiseOf (dataOf (completed b (ucbHist hn argsort L b ε x (fun s => r s ω) t)) a) (θ a))) ≤
        σ * √(d * Real.log (1 + T * X / d) + 2 * Real.log (n / δ))} ≤ ENNReal.ofReal δ := by
  have hn' : (0 : ℝ) < n := by exact_mod_cast hn
  have hδn : 0 < δ / n := div_pos hδ hn'
  set A : Fin n → ℕ → Ω → Prop := fun a s ω => ucbAction hn argsort L b ε x (fun s => r s ω) s = a with hAdef
  have hA : ∀ a t, MeasurableSet[rewardInfo r t] {ω | A a t ω} := fun a t =>
    (measurable_ucbAction hn argsort L b ε x r hm t) (measurableSet_singleton a)
  set bad : Fin n → Set Ω := fun a => {ω | ∃ s ≤ T, (σ : ℝ) ^ 2 *
    (Real.log (gram (pickData x (fun s => A a s ω) (fun s => r s ω a - x s ⬝ᵥ θ a) s)).det + 2 * Real.log (1 / (δ / n))) <
      quad (pickData x (fun s => A a s ω) (fun s => r s ω a - x s ⬝ᵥ θ a) s)
        (moment (pickData x (fun s => A a s ω) (fun s => r s ω a - x s ⬝ᵥ θ a) s))} with hbad
  have hPbad : ∀ a, P (bad a) ≤ ENNReal.ofReal (δ / n) := fun a =>
    (adaptive_rewards r a hr hind fun t => hsub t a).noise_bound hσ x (hA a) hδn T
  have hsubset : {ω | ¬ ∀ t < T, ∀ a,
        √(quad (dataOf (completed b (ucbHist hn argsort L b ε x (fun s => r s ω) t)) a)
          (noiseOf (dataOf (completed b (ucbHist hn argsort L b ε x (fun s => r s ω) t)) a) (θ a))) ≤
        σ * √(d * Real.log (1 + T * X / d) + 2 * Real.log (n / δ))} ⊆ ⋃ a, bad a := by
    intro ω hω
    by_contra hgood
    refine hω fun t ht a => ?_
    have hga : ω ∉ bad a := fun h' => hgood (Set.mem_iUnion.2 ⟨a, h'⟩)
    rw [completed_ucbHist, dataOf_ucbHist, noiseOf_pickData]
    set k := b * (t / b) with hk
    have hkT : k ≤ T := (Nat.mul_div_le t b).trans ht.le
    set D := pickData x (fun s => A a s ω) (fun s => r s ω a - x s ⬝ᵥ θ a) k with hD
    have hquad : quad (pickData x (fun s => ucbAction hn argsort L b ε x (fun s => r s ω) s = a) (fun s => r s ω a) k) (moment D)
        = quad D (moment D) := quad_congr (pickData_gram x _ _ fun _ _ => Iff.rfl) _
    have hle : quad D (moment D) ≤ (σ : ℝ) ^ 2 * (Real.log (gram D).det + 2 * Real.log (1 / (δ / n))) := by
      by_contra h'
      exact hga ⟨k, hkT, not_le.1 h'⟩
    have hlog : Real.log (gram D).det ≤ d * Real.log (1 + T * X / d) := by
      have hDe : gram D = gram (dataOf (ucbHist hn argsort L b ε x (fun s => r s ω) k) a) := by
        rw [dataOf_ucbHist]
        exact pickData_gram x _ _ fun _ _ => Iff.rfl
      rw [hDe]
      refine (log_det_gram_le (X := X) _ fun p hp => ?_).trans ?_
      · obtain ⟨z, hz⟩ := mem_dataOf hp
        obtain ⟨s, -, e⟩ := mem_ucbHist hn argsort L b ε x _ hz
        simp only [Prod.mk.injEq] at e
        rw [e.2]
        exact hX s
      · have : ((dataOf (ucbHist hn argsort L b ε x (fun s => r s ω) k) a).length : ℝ) ≤ T := by
          have := dataOf_length_le (ucbHist hn argsort L b ε x (fun s => r s ω) k) a
          rw [ucbHist_length] at this
          exact_mod_cast this.trans hkT
        gcongr
    have e : (1 : ℝ) / (δ / n) = n / δ := by rw [one_div_div]
    rw [e] at hle
    have h2 : quad D (moment D) ≤ (σ : ℝ) ^ 2 * (d * Real.log (1 + T * X / d) + 2 * Real.log (n / δ)) :=
      hle.trans (mul_le_mul_of_nonneg_left (by linarith) (by positivity))
    have h3 := Real.sqrt_le_sqrt h2
    rw [Real.sqrt_mul (by positivity), Real.sqrt_sq NNReal.zero_le_coe] at h3
    refine le_trans (le_of_eq ?_) h3
    exact congrArg Real.sqrt hquad
  refine (measure_mono hsubset).trans ((measure_iUnion_le _).trans ?_)
  rw [tsum_fintype]
  refine (Finset.sum_le_sum fun a _ => hPbad a).trans ?_
  rw [Finset.sum_const, Finset.card_univ, Fintype.card_fin, nsmul_eq_mul, ← ENNReal.ofReal_natCast,
    ← ENNReal.ofReal_mul (Nat.cast_nonneg n), mul_div_cancel₀ _ hn'.ne']

end

end Obp
