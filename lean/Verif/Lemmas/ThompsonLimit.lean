import Verif.Lemmas.BetaLaw
import Verif.Lemmas.BanditLimit
import Verif.Lemmas.AdaptedLaw

set_option linter.unusedSectionVars false

/-!
# Long-run behaviour of Thompson sampling along one sequence of draws

If each action is played about as often as its posterior probability of being drawn largest says, and the rewards of an action
that is played again and again average out, then actions that are not best are played in a vanishing share of the rounds.
-/

namespace Obp
open Filter Topology MeasureTheory ProbabilityTheory

/-- A sequence of natural numbers that never decreases is unbounded or constant in the end. -/
theorem mono_cases {f : ℕ → ℕ} (hf : Monotone f) : Tendsto f atTop atTop ∨ ∃ T₀, ∀ T ≥ T₀, f T = f T₀ := by
  by_cases h : ∃ M, ∀ T, f T ≤ M
  · right
    obtain ⟨M, hM⟩ := h
    -- the largest value
    have hfin : (Set.range f).Finite := (Set.finite_Iic M).subset (by rintro _ ⟨T, rfl⟩; exact hM T)
    obtain ⟨_, ⟨T₀, rfl⟩, hmax⟩ := Set.exists_max_image (Set.range f) id hfin ⟨f 0, 0, rfl⟩
    exact ⟨T₀, fun T hT => le_antisymm (hmax _ ⟨T, rfl⟩) (hf hT)⟩
  · left
    push Not at h
    refine tendsto_atTop.2 fun M => ?_
    obtain ⟨T₀, hT₀⟩ := h M
    exact eventually_atTop.2 ⟨T₀, fun T hT => hT₀.le.trans (hf hT)⟩

variable {n : ℕ} {act : ℕ → Fin n} {r : ℕ → Fin n → ℝ}

/-- the first parameter of the posterior of an action after `T` rounds -/
noncomputable def postA (act : ℕ → Fin n) (r : ℕ → Fin n → ℝ) (α : Fin n → ℝ) (T : ℕ) (a : Fin n) : ℝ :=
  playReward act r T a + α a

/-- the second parameter of the posterior of an action after `T` rounds -/
noncomputable def postB (act : ℕ → Fin n) (r : ℕ → Fin n → ℝ) (β : Fin n → ℝ) (T : ℕ) (a : Fin n) : ℝ :=
  ((playCount act T a : ℝ) - playReward act r T a) + β a

theorem playReward_bounds (hr : ∀ t a, r t a = 0 ∨ r t a = 1) (T : ℕ) (a : Fin n) :
    0 ≤ playReward act r T a ∧ playReward act r T a ≤ playCount act T a := by
  constructor
  · refine Finset.sum_nonneg fun t _ => ?_
    split
    · rcases hr t a with h | h <;> simp [h]
    · exact le_rfl
  · rw [playReward, playCount, Nat.cast_sum]
    refine Finset.sum_le_sum fun t _ => ?_
    split
    · rcases hr t a with h | h <;> simp [h]
    · simp

theorem postA_pos (hr : ∀ t a, r t a = 0 ∨ r t a = 1) {α : Fin n → ℝ} (hα : ∀ a, 0 < α a) (T : ℕ) (a : Fin n) :
    0 < postA act r α T a := by
  have := (playReward_bounds (act := act) hr T a).1
  have := hα a
  unfold postA; linarith

theorem postB_pos (hr : ∀ t a, r t a = 0 ∨ r t a = 1) {β : Fin n → ℝ} (hβ : ∀ a, 0 < β a) (T : ℕ) (a : Fin n) :
    0 < postB act r β T a := by
  have := (playReward_bounds (act := act) hr T a).2
  have := hβ a
  unfold postB; linarith

/-- Once an action is not played any more its rewards stay what they are. -/
theorem playReward_const {a : Fin n} {T₀ : ℕ} (h : ∀ T ≥ T₀, playCount act T a = playCount act T₀ a) :
    ∀ T ≥ T₀, ∀ y : ℕ → ℝ, (∑ t ∈ Finset.range T, if act t = a then y t else 0) =
      ∑ t ∈ Finset.range T₀, if act t = a then y t else 0 := by
  intro T hT y
  induction T, hT using Nat.le_induction with
  | base => rfl
  | succ T hT ih =>
    have h1 := h T hT
    have h2 := h (T + 1) (by omega)
    rw [playCount_succ, h1] at h2
    have h3 : act T ≠ a := by
      intro hc
      rw [if_pos hc] at h2
      omega
    rw [Finset.sum_range_succ, if_neg h3, add_zero, ih]

section
variable {μ α β : Fin n → ℝ} {b : ℕ} {q : ℕ → Fin n → ℝ}
  (hb : 0 < b) (hr : ∀ t a, r t a = 0 ∨ r t a = 1) (hα : ∀ a, 0 < α a) (hβ : ∀ a, 0 < β a)
  (hμ : ∀ a, 0 ≤ μ a ∧ μ a ≤ 1)
  (h1 : ∀ a, Tendsto (fun T : ℕ => (∑ t ∈ Finset.range T, ((if act t = a then 1 else 0) - q t a)) / (T : ℝ)) atTop (𝓝 0))
  (h2 : ∀ a, Tendsto (fun T => playCount act T a) atTop atTop → Tendsto (fun T =>
    (∑ t ∈ Finset.range T, if act t = a then r t a - μ a else 0) / (playCount act T a : ℝ)) atTop (𝓝 0))
  (h3 : ∀ t a x, (betaMeasure (postA act r α (b * (t / b)) a) (postB act r β (b * (t / b)) a)).real (Set.Ioi x) *
    ∏ j ∈ Finset.univ.erase a,
      (betaMeasure (postA act r α (b * (t / b)) j) (postB act r β (b * (t / b)) j)).real (Set.Iio x) ≤ q t a)
  (h4 : ∀ t a j x, a ≠ j →
    q t a ≤ (betaMeasure (postA act r α (b * (t / b)) a) (postB act r β (b * (t / b)) a)).real (Set.Ici x) +
      (betaMeasure (postA act r α (b * (t / b)) j) (postB act r β (b * (t / b)) j)).real (Set.Iic x))
  (hq : ∀ t a, 0 ≤ q t a)

theorem sum_reward_eq (μ : Fin n → ℝ) (T : ℕ) (a : Fin n) :
    playReward act r T a = (∑ t ∈ Finset.range T, if act t = a then r t a - μ a else 0) + μ a * (playCount act T a : ℝ) := by
  rw [playReward, playCount, Nat.cast_sum, Finset.mul_sum, ← Finset.sum_add_distrib]
  refine Finset.sum_congr rfl fun t _ => ?_
  split <;> simp

include h2 in
/-- The posterior mean of an action that is played again and again converges to its expected reward. -/
theorem postMean_tendsto {a : Fin n} (ha : Tendsto (fun T => playCount act T a) atTop atTop) :
    Tendsto (fun T => postA act r α T a + postB act r β T a) atTop atTop ∧
    Tendsto (fun T => postA act r α T a / (postA act r α T a + postB act r β T a)) atTop (𝓝 (μ a)) := by
  have hN : Tendsto (fun T => (playCount act T a : ℝ)) atTop atTop := tendsto_natCast_atTop_atTop.comp ha
  have hsum : ∀ T, postA act r α T a + postB act r β T a = (playCount act T a : ℝ) + (α a + β a) := by
    intro T; unfold postA postB; ring
  have hs : Tendsto (fun T => (playCount act T a : ℝ) + (α a + β a)) atTop atTop :=
    tendsto_atTop_add_const_right _ _ hN
  simp only [hsum]
  refine ⟨hs, ?_⟩
  have hr1 : Tendsto (fun T => playReward act r T a / (playCount act T a : ℝ)) atTop (𝓝 (μ a)) := by
    have := (h2 a ha).add_const (μ a)
    rw [zero_add] at this
    refine this.congr' ?_
    filter_upwards [hN.eventually_gt_atTop 0] with T hT
    rw [sum_reward_eq μ T a]
    field_simp
  have hA : Tendsto (fun T => α a / (playCount act T a : ℝ)) atTop (𝓝 0) := hN.const_div_atTop (α a)
  have hAB : Tendsto (fun T => (α a + β a) / (playCount act T a : ℝ)) atTop (𝓝 0) := hN.const_div_atTop (α a + β a)
  have h := (hr1.add hA).div (hAB.const_add 1) (by norm_num)
  rw [add_zero, add_zero, div_one] at h
  refine h.congr' ?_
  filter_upwards [hN.eventually_gt_atTop 0] with T hT
  unfold postA
  rw [Pi.div_apply]
  field_simp

include hb hr hα hβ hμ h1 h2 h3 hq in
/-- Some action with the largest expected reward is played again and again. -/
theorem exists_best_infinite {best : Fin n} (hbest : ∀ a, μ a ≤ μ best) :
    ∃ a, μ a = μ best ∧ Tendsto (fun T => playCount act T a) atTop atTop := by
  by_contra hno
  push Not at hno
  have hcase := fun a => mono_cases (playCount_mono act a)
  have hconst : ∀ a, ¬ Tendsto (fun T => playCount act T a) atTop atTop →
      ∃ A B, 0 < A ∧ 0 < B ∧ ∀ᶠ t in atTop, postA act r α (b * (t / b)) a = A ∧ postB act r β (b * (t / b)) a = B := by
    intro a ha
    obtain ⟨T₀, hT₀⟩ := (hcase a).resolve_left ha
    refine ⟨postA act r α T₀ a, postB act r β T₀ a, postA_pos hr hα _ _, postB_pos hr hβ _ _, ?_⟩
    filter_upwards [(tendsto_completed hb).eventually (eventually_ge_atTop T₀)] with t ht
    have e1 : playReward act r (b * (t / b)) a = playReward act r T₀ a := playReward_const hT₀ _ ht fun t => r t a
    have e2 := hT₀ _ ht
    exact ⟨by unfold postA; rw [e1], by unfold postB; rw [e1, e2]⟩
  -- a level above the means of the actions played again and again
  obtain ⟨x, hx0, hx1, hx⟩ : ∃ x, 0 < x ∧ x < 1 ∧ ∀ j, μ j < 1 → μ j < x := by
    have hne : (Finset.univ : Finset (Fin n)).Nonempty := ⟨best, Finset.mem_univ _⟩
    refine ⟨Finset.univ.sup' hne fun j => if μ j < 1 then (μ j + 1) / 2 else 1 / 2, ?_, ?_, ?_⟩
    · rw [Finset.lt_sup'_iff]
      refine ⟨best, Finset.mem_univ _, ?_⟩
      split
      · have := (hμ best).1; linarith
      · norm_num
    · rw [Finset.sup'_lt_iff]
      intro j _
      split
      · linarith
      · norm_num
    · intro j hj
      rw [Finset.lt_sup'_iff]
      exact ⟨j, Finset.mem_univ _, by rw [if_pos hj]; linarith⟩
  have hlow : ∀ j, ∃ c : ℝ, 0 < c ∧ Tendsto (fun t : ℕ =>
      (betaMeasure (postA act r α (b * (t / b)) j) (postB act r β (b * (t / b)) j)).real (Set.Iio x)) atTop (𝓝 c) := by
    intro j
    by_cases hj : Tendsto (fun T => playCount act T j) atTop atTop
    · have hlt : μ j < 1 := by
        refine lt_of_lt_of_le (lt_of_le_of_ne (hbest j) fun he => hno j he hj) (hμ best).2
      obtain ⟨hs, hm⟩ := postMean_tendsto (α := α) (β := β) h2 hj
      have h := (tendsto_beta_above (fun k => postA_pos hr hα k j) (fun k => postB_pos hr hβ k j) hs hm (hx j hlt)).comp
        (tendsto_completed hb)
      refine ⟨1, one_pos, ?_⟩
      have h' := h.const_sub 1
      rw [sub_zero] at h'
      refine h'.congr fun t => ?_
      have := isProbabilityMeasureBeta (postA_pos (act := act) hr hα (b * (t / b)) j)
        (postB_pos (act := act) hr hβ (b * (t / b)) j)
      show 1 - (betaMeasure _ _).real (Set.Ici x) = _
      rw [← probReal_compl_eq_one_sub measurableSet_Ici, Set.compl_Ici]
    · obtain ⟨A, B, hA, hB, hAB⟩ := hconst j hj
      refine ⟨(betaMeasure A B).real (Set.Iio x), betaMeasure_Iio_pos hA hB hx0 hx1.le, ?_⟩
      refine tendsto_const_nhds.congr' ?_
      filter_upwards [hAB] with t ht
      rw [ht.1, ht.2]
  choose c hc0 hc using hlow
  obtain ⟨A, B, hA, hB, hAB⟩ := hconst best (hno best rfl)
  have hd0 : 0 < (betaMeasure A B).real (Set.Ioi x) := betaMeasure_Ioi_pos hA hB hx0.le hx1
  have hd : Tendsto (fun t : ℕ => (betaMeasure (postA act r α (b * (t / b)) best)
      (postB act r β (b * (t / b)) best)).real (Set.Ioi x)) atTop (𝓝 ((betaMeasure A B).real (Set.Ioi x))) := by
    refine tendsto_const_nhds.congr' ?_
    filter_upwards [hAB] with t ht
    rw [ht.1, ht.2]
  have hprod := hd.mul (tendsto_finsetProd (Finset.univ.erase best) fun j _ => hc j)
  set C := (betaMeasure A B).real (Set.Ioi x) * ∏ j ∈ Finset.univ.erase best, c j with hC
  have hCpos : 0 < C := mul_pos hd0 (Finset.prod_pos fun j _ => hc0 j)
  have hces := hprod.cesaro
  have hsum := (h1 best).add hces
  rw [zero_add] at hsum
  have hN : ∀ᶠ T : ℕ in atTop, C / 2 * (T : ℝ) < (playCount act T best : ℝ) := by
    filter_upwards [hsum.eventually_const_lt (half_lt_self hCpos), eventually_gt_atTop 0] with T hT hT0
    have hT' : (0 : ℝ) < T := by exact_mod_cast hT0
    rw [inv_mul_eq_div, ← add_div, ← Finset.sum_add_distrib, lt_div_iff₀ hT'] at hT
    refine hT.trans_le ?_
    rw [playCount, Nat.cast_sum]
    refine Finset.sum_le_sum fun t _ => ?_
    have := h3 t best x
    push_cast
    linarith
  refine hno best rfl ?_
  have : Tendsto (fun T => (playCount act T best : ℝ)) atTop atTop :=
    tendsto_atTop_mono' _ (hN.mono fun T hT => hT.le)
      ((tendsto_natCast_atTop_atTop (R := ℝ)).const_mul_atTop (half_pos hCpos))
  exact tendsto_natCast_atTop_iff.1 this

include hb hr hα hβ hμ h1 h2 h3 h4 hq in
/-- Actions that are not best are played in a vanishing share of the rounds. -/
theorem thompson_share {best : Fin n} (hbest : ∀ a, μ a ≤ μ best) {a : Fin n} (ha : μ a < μ best) :
    Tendsto (fun T : ℕ => (playCount act T a : ℝ) / (T : ℝ)) atTop (𝓝 0) := by
  rcases mono_cases (playCount_mono act a) with hinf | ⟨T₀, hT₀⟩
  · obtain ⟨j, hj, hjinf⟩ := exists_best_infinite hb hr hα hβ hμ h1 h2 h3 hq hbest
    have hne : a ≠ j := by rintro rfl; linarith
    obtain ⟨hs, hm⟩ := postMean_tendsto (α := α) (β := β) h2 hinf
    obtain ⟨hs', hm'⟩ := postMean_tendsto (α := α) (β := β) h2 hjinf
    have hx1 : μ a < (μ a + μ best) / 2 := by linarith
    have hx2 : (μ a + μ best) / 2 < μ j := by rw [hj]; linarith
    have hu := ((tendsto_beta_above (fun k => postA_pos hr hα k a) (fun k => postB_pos hr hβ k a) hs hm hx1).comp
      (tendsto_completed hb)).add
      ((tendsto_beta_below (fun k => postA_pos hr hα k j) (fun k => postB_pos hr hβ k j) hs' hm' hx2).comp
      (tendsto_completed hb))
    rw [add_zero] at hu
    have hq0 : Tendsto (fun t => q t a) atTop (𝓝 0) :=
      squeeze_zero (fun t => hq t a) (fun t => h4 t a j _ hne) hu
    have hsum := (h1 a).add hq0.cesaro
    rw [zero_add] at hsum
    refine hsum.congr fun T => ?_
    rw [inv_mul_eq_div, ← add_div, ← Finset.sum_add_distrib, playCount, Nat.cast_sum]
    congr 1
    refine Finset.sum_congr rfl fun t _ => ?_
    split <;> simp
  · have : Tendsto (fun T : ℕ => (playCount act T₀ a : ℝ) / (T : ℝ)) atTop (𝓝 0) :=
      tendsto_const_div_atTop_nhds_zero_nat _
    refine this.congr' ?_
    filter_upwards [eventually_ge_atTop T₀] with T hT
    have := hT₀ T hT
    rw [this]

include hb hr hα hβ hμ h1 h2 h3 h4 hq in
/-- The average reward converges to the largest expected reward. -/
theorem thompson_total {best : Fin n} (hbest : ∀ a, μ a ≤ μ best) :
    Tendsto (fun T : ℕ => (∑ t ∈ Finset.range T, r t (act t)) / (T : ℝ)) atTop (𝓝 (μ best)) := by
  have hA : ∀ a, Tendsto (fun T : ℕ => (∑ t ∈ Finset.range T, if act t = a then r t a - μ a else 0) / (T : ℝ)) atTop
      (𝓝 0) := by
    intro a
    rcases mono_cases (playCount_mono act a) with hinf | ⟨T₀, hT₀⟩
    · have h := (h2 a hinf).abs
      rw [abs_zero] at h
      refine squeeze_zero_norm' ?_ h
      filter_upwards [hinf.eventually_gt_atTop 0] with T hT
      have hN : (0 : ℝ) < playCount act T a := by exact_mod_cast hT
      have hNT : (playCount act T a : ℝ) ≤ T := by exact_mod_cast playCount_le act T a
      have hT' : (0 : ℝ) < T := lt_of_lt_of_le hN hNT
      rw [Real.norm_eq_abs, abs_div, abs_div, abs_of_pos hT', abs_of_pos hN]
      exact div_le_div_of_nonneg_left (abs_nonneg _) hN hNT
    · have : Tendsto (fun T : ℕ => (∑ t ∈ Finset.range T₀, if act t = a then r t a - μ a else 0) / (T : ℝ)) atTop (𝓝 0) :=
        tendsto_const_div_atTop_nhds_zero_nat _
      refine this.congr' ?_
      filter_upwards [eventually_ge_atTop T₀] with T hT
      rw [playReward_const hT₀ T hT fun t => r t a - μ a]
  have hB : ∀ a, Tendsto (fun T : ℕ => (μ best - μ a) * ((playCount act T a : ℝ) / (T : ℝ))) atTop (𝓝 0) := by
    intro a
    rcases eq_or_lt_of_le (hbest a) with h | h
    · rw [h]; simp
    · simpa using (thompson_share hb hr hα hβ hμ h1 h2 h3 h4 hq hbest h).const_mul (μ best - μ a)
  have hall := ((tendsto_finsetSum (Finset.univ) fun a _ => hA a).sub
    (tendsto_finsetSum (Finset.univ) fun a _ => hB a)).add_const (μ best)
  simp only [Finset.sum_const_zero, sub_zero, zero_add] at hall
  refine hall.congr' ?_
  filter_upwards [eventually_gt_atTop 0] with T hT0
  have hT' : (T : ℝ) ≠ 0 := by exact_mod_cast hT0.ne'
  have e1 : ∑ t ∈ Finset.range T, r t (act t) =
      (∑ a, ∑ t ∈ Finset.range T, if act t = a then r t a - μ a else 0) + ∑ t ∈ Finset.range T, μ (act t) := by
    rw [Finset.sum_comm, ← Finset.sum_add_distrib]
    refine Finset.sum_congr rfl fun t _ => ?_
    simp
  have e2 : ∑ t ∈ Finset.range T, μ (act t) = μ best * T - ∑ a, (μ best - μ a) * (playCount act T a : ℝ) := by
    have : ∀ a, (μ best - μ a) * (playCount act T a : ℝ) = ∑ t ∈ Finset.range T, if act t = a then μ best - μ a else 0 := by
      intro a
      rw [playCount, Nat.cast_sum, Finset.mul_sum]
      exact Finset.sum_congr rfl fun t _ => by split <;> simp
    simp only [this]
    rw [Finset.sum_comm]
    simp
    ring
  rw [e1, e2, ← Finset.sum_div]
  simp only [← mul_div_assoc]
  rw [← Finset.sum_div]
  field_simp
  ring

end

end Obp
