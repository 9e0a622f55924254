import Verif.Lemmas.BanditPlay
import Verif.Lemmas.OrthogonalLaw
import Mathlib.Probability.Independence.Integration
import Mathlib.MeasureTheory.Constructions.BorelSpace.Metrizable

set_option linter.unusedSectionVars false

/-!
# Laws of large numbers for actions and rewards of a policy that looks at the past

`ℱ t` is what is known when the reward of round `t` is drawn.
-/

namespace Obp
open MeasureTheory ProbabilityTheory Filter Topology

variable {Ω : Type} [mΩ : MeasurableSpace Ω] {P : Measure Ω} [IsProbabilityMeasure P]

/-- A draw that averages to zero whatever it is used for averages to zero if the past decides what it is used for. -/
theorem integral_mul_select {𝒢 𝒩 : MeasurableSpace Ω} (h𝒢 : 𝒢 ≤ mΩ) (h𝒩 : 𝒩 ≤ mΩ) (hi : Indep 𝒢 𝒩 P) {ι : Type}
    {V : Ω → ι} {F : Finset ι} (hV : ∀ ω, V ω ∈ F) (hVm : ∀ v, MeasurableSet[𝒢] {ω | V ω = v}) {g : Ω → ℝ}
    (hg : Measurable[𝒢] g) {B C : ℝ} (hgb : ∀ ω, |g ω| ≤ B) {f : ι → Ω → ℝ} (hf : ∀ v, Measurable[𝒩] (f v))
    (hfb : ∀ v ω, |f v ω| ≤ C) (hz : ∀ v, ∫ ω, f v ω ∂P = 0) : ∫ ω, g ω * f (V ω) ω ∂P = 0 := by
  classical
  have e : ∀ ω, g ω * f (V ω) ω = ∑ v ∈ F, (g ω * if V ω = v then 1 else 0) * f v ω := by
    intro ω
    rw [Finset.sum_eq_single (V ω)]
    · simp
    · intro v _ hv; simp [Ne.symm hv]
    · intro h; exact absurd (hV ω) h
  have hgm : ∀ v, Measurable[𝒢] fun ω => g ω * if V ω = v then (1 : ℝ) else 0 := fun v =>
    hg.mul (Measurable.ite (hVm v) measurable_const measurable_const)
  simp only [e]
  rw [integral_finsetSum]
  · refine Finset.sum_eq_zero fun v _ => ?_
    have hind : IndepFun (fun ω => g ω * if V ω = v then (1 : ℝ) else 0) (f v) P := by
      rw [IndepFun_iff_Indep]
      exact indep_of_indep_of_le_left (indep_of_indep_of_le_right hi (hf v).comap_le) (hgm v).comap_le
    rw [hind.integral_fun_mul_eq_mul_integral ((hgm v).mono h𝒢 le_rfl).aestronglyMeasurable
      ((hf v).mono h𝒩 le_rfl).aestronglyMeasurable, hz v, mul_zero]
  · intro v _
    refine Integrable.of_bound (((hgm v).mono h𝒢 le_rfl).mul ((hf v).mono h𝒩 le_rfl)).aestronglyMeasurable (B * C)
      (Eventually.of_forall fun ω => ?_)
    rw [Real.norm_eq_abs, abs_mul]
    refine mul_le_mul ?_ (hfb v ω) (abs_nonneg _) ((abs_nonneg _).trans (hgb ω))
    split
    · simpa using hgb ω
    · simpa using (abs_nonneg _).trans (hgb ω)

/-- The number of plays never decreases. -/
theorem playCount_mono {n : ℕ} (act : ℕ → Fin n) (a : Fin n) : Monotone fun T => playCount act T a := by
  refine monotone_nat_of_le_succ fun T => ?_
  rw [playCount, playCount, Finset.sum_range_succ]
  exact Nat.le_add_right _ _

theorem playCount_succ {n : ℕ} (act : ℕ → Fin n) (T : ℕ) (a : Fin n) :
    playCount act (T + 1) a = playCount act T a + if act T = a then 1 else 0 := by
  rw [playCount, playCount, Finset.sum_range_succ]

theorem playCount_le {n : ℕ} (act : ℕ → Fin n) (T : ℕ) (a : Fin n) : playCount act T a ≤ T := by
  induction T with
  | zero => simp [playCount]
  | succ T ih => rw [playCount_succ]; split <;> omega

section
variable {n : ℕ} {act : ℕ → Ω → Fin n} {x : ℕ → Ω → ℝ} {ℱ : ℕ → MeasurableSpace Ω}

/-- the value observed with the `m`-th play of an action, if it happens before round `T` -/
noncomputable def playValue (act : ℕ → Fin n) (x : ℕ → ℝ) (a : Fin n) (m T : ℕ) : ℝ :=
  ∑ t ∈ Finset.range T, if playCount act t a = m ∧ act t = a then x t else 0

/-- the value observed with the `m`-th play of an action, if there is one -/
noncomputable def playValueLim (act : ℕ → Fin n) (x : ℕ → ℝ) (a : Fin n) (m : ℕ) : ℝ :=
  ∑' t, if playCount act t a = m ∧ act t = a then x t else 0

theorem play_unique {act : ℕ → Fin n} {a : Fin n} {m s t : ℕ} (hs : playCount act s a = m ∧ act s = a)
    (ht : playCount act t a = m ∧ act t = a) : s = t := by
  have key : ∀ s t, s < t → act s = a → playCount act s a < playCount act t a := by
    intro s t hst h
    have h1 := playCount_mono act a (Nat.succ_le_of_lt hst)
    have h2 := playCount_succ act s a
    rw [if_pos h] at h2
    simp only [Nat.succ_eq_add_one] at h1
    omega
  rcases lt_trichotomy s t with h | h | h
  · have := key s t h hs.2; omega
  · exact h
  · have := key t s h ht.2; omega

theorem playValue_hasSum (act : ℕ → Fin n) (x : ℕ → ℝ) (a : Fin n) (m : ℕ) :
    HasSum (fun t => if playCount act t a = m ∧ act t = a then x t else 0) (playValueLim act x a m) := by
  refine Summable.hasSum ?_
  by_cases h : ∃ t, playCount act t a = m ∧ act t = a
  · obtain ⟨t, ht⟩ := h
    refine (hasSum_single t fun s hs => if_neg fun hc => hs (play_unique hc ht)).summable
  · have : (fun t => if playCount act t a = m ∧ act t = a then x t else 0) = fun _ => 0 := by
      funext t
      exact if_neg fun hc => h ⟨t, hc⟩
    rw [this]
    exact summable_zero

theorem playValue_tendsto (act : ℕ → Fin n) (x : ℕ → ℝ) (a : Fin n) (m : ℕ) :
    Tendsto (playValue act x a m) atTop (𝓝 (playValueLim act x a m)) := (playValue_hasSum act x a m).tendsto_sum_nat

theorem playValueLim_eq {act : ℕ → Fin n} (x : ℕ → ℝ) {a : Fin n} {m t : ℕ} (h : playCount act t a = m ∧ act t = a) :
    playValueLim act x a m = x t := by
  rw [playValueLim, tsum_eq_single t fun s hs => if_neg fun hc => hs (play_unique hc h), if_pos h]

/-- Summing over the plays is summing over the rounds. -/
theorem sum_playValueLim (act : ℕ → Fin n) (x : ℕ → ℝ) (a : Fin n) (T : ℕ) :
    ∑ t ∈ Finset.range T, (if act t = a then x t else 0) =
      ∑ m ∈ Finset.range (playCount act T a), playValueLim act x a m := by
  induction T with
  | zero => simp [playCount]
  | succ T ih =>
    rw [Finset.sum_range_succ, ih, playCount_succ]
    by_cases h : act T = a
    · rw [if_pos h, if_pos h, Finset.sum_range_succ, playValueLim_eq x ⟨rfl, h⟩]
    · simp [h]

theorem playValue_le {act : ℕ → Fin n} {x : ℕ → ℝ} {B : ℝ} (hx : ∀ t, |x t| ≤ B) (a : Fin n) (m T : ℕ) :
    |playValue act x a m T| ≤ B := by
  have hB : 0 ≤ B := (abs_nonneg _).trans (hx 0)
  unfold playValue
  by_cases h : ∃ t ∈ Finset.range T, playCount act t a = m ∧ act t = a
  · obtain ⟨t, ht, htt⟩ := h
    rw [Finset.sum_eq_single t]
    · rw [if_pos htt]; exact hx t
    · intro s _ hs; exact if_neg fun hc => hs (play_unique hc htt)
    · intro h; exact absurd ht h
  · rw [Finset.sum_eq_zero]
    · simpa using hB
    · intro t ht
      exact if_neg fun hc => h ⟨t, ht, hc⟩

variable (hle : ∀ t, ℱ t ≤ mΩ) (hact : ∀ s t, s ≤ t → Measurable[ℱ t] (act s))
  (hx : ∀ s t, s < t → Measurable[ℱ t] (x s)) (hxm : ∀ t, Measurable (x t)) {B : ℝ} (hxb : ∀ t ω, |x t ω| ≤ B)
  (ho : ∀ t (g : Ω → ℝ) (C : ℝ), Measurable[ℱ t] g → (∀ ω, |g ω| ≤ C) → ∫ ω, g ω * x t ω ∂P = 0)

include hact in
theorem measurable_playCount (a : Fin n) (s t : ℕ) (hst : s ≤ t + 1) :
    Measurable[ℱ t] fun ω => playCount (fun i => act i ω) s a := by
  refine Finset.measurable_fun_sum _ fun i hi => ?_
  have h1 : i ≤ t := by have := Finset.mem_range.1 hi; omega
  exact Measurable.ite (hact i t h1 (measurableSet_singleton a)) measurable_const measurable_const

include hact in
theorem measurableSet_play (a : Fin n) (m s t : ℕ) (hst : s ≤ t) :
    MeasurableSet[ℱ t] {ω | playCount (fun i => act i ω) s a = m ∧ act s ω = a} := by
  have h1 := measurable_playCount hact a s t (by omega) (measurableSet_singleton m)
  have h2 := hact s t hst (measurableSet_singleton a)
  exact h1.inter h2

include hle hact hx hxm hxb ho in
/-- **Law of large numbers, play by play.** Averages over the plays of an action of what is drawn after the play go to zero, on
the event that the action is played infinitely often. -/
theorem ae_average_per_play (a : Fin n) :
    ∀ᵐ ω ∂P, Tendsto (fun T => playCount (fun i => act i ω) T a) atTop atTop →
      Tendsto (fun T => (∑ t ∈ Finset.range T, if act t ω = a then x t ω else 0) /
        (playCount (fun i => act i ω) T a : ℝ)) atTop (𝓝 0) := by
  have hB : 0 ≤ B := by
    have : Nonempty Ω := ⟨(nonempty_of_isProbabilityMeasure P).some⟩
    exact (abs_nonneg _).trans (hxb 0 this.some)
  have hset : ∀ m t, MeasurableSet {ω | playCount (fun i => act i ω) t a = m ∧ act t ω = a} := fun m t =>
    hle t _ (measurableSet_play hact a m t t le_rfl)
  have hvm : ∀ m T, Measurable fun ω => playValue (fun i => act i ω) (fun i => x i ω) a m T := fun m T =>
    Finset.measurable_fun_sum _ fun t _ => Measurable.ite (hset m t) (hxm t) measurable_const
  have hlm : ∀ m, Measurable fun ω => playValueLim (fun i => act i ω) (fun i => x i ω) a m := fun m =>
    measurable_of_tendsto_metrizable (fun T => hvm m T) (tendsto_pi_nhds.2 fun ω => playValue_tendsto _ _ a m)
  have hlb : ∀ m ω, |playValueLim (fun i => act i ω) (fun i => x i ω) a m| ≤ B := fun m ω =>
    le_of_tendsto (playValue_tendsto _ _ a m).abs (Eventually.of_forall fun T => playValue_le (fun t => hxb t ω) a m T)
  have hterm : ∀ m t ω, |if playCount (fun i => act i ω) t a = m ∧ act t ω = a then x t ω else 0| ≤ B := by
    intro m t ω
    split
    · exact hxb t ω
    · simpa using hB
  have horth : ∀ m m', m < m' → ∫ ω, playValueLim (fun i => act i ω) (fun i => x i ω) a m *
      playValueLim (fun i => act i ω) (fun i => x i ω) a m' ∂P = 0 := by
    intro m m' hmm
    have hT : ∀ T, ∫ ω, playValue (fun i => act i ω) (fun i => x i ω) a m T *
        playValue (fun i => act i ω) (fun i => x i ω) a m' T ∂P = 0 := by
      intro T
      simp only [playValue, Finset.sum_mul_sum]
      rw [integral_finsetSum]
      · refine Finset.sum_eq_zero fun s _ => ?_
        rw [integral_finsetSum]
        · refine Finset.sum_eq_zero fun t _ => ?_
          rcases lt_or_ge s t with hst | hst
          · have h := ho t (fun ω => (if playCount (fun i => act i ω) s a = m ∧ act s ω = a then x s ω else 0) *
              (if playCount (fun i => act i ω) t a = m' ∧ act t ω = a then 1 else 0)) B ?_ ?_
            · refine Eq.trans (integral_congr_ae (Eventually.of_forall fun ω => ?_)) h
              show _ * (if playCount (fun i => act i ω) t a = m' ∧ act t ω = a then x t ω else 0) =
                _ * (if playCount (fun i => act i ω) t a = m' ∧ act t ω = a then (1 : ℝ) else 0) * x t ω
              by_cases hc : playCount (fun i => act i ω) t a = m' ∧ act t ω = a
              · rw [if_pos hc, if_pos hc, mul_one]
              · rw [if_neg hc, if_neg hc, mul_zero, zero_mul]
            · exact Measurable.mul (Measurable.ite (measurableSet_play hact a m s t hst.le) (hx s t hst) measurable_const)
                (Measurable.ite (measurableSet_play hact a m' t t le_rfl) measurable_const measurable_const)
            · intro ω
              rw [abs_mul]
              refine (mul_le_mul (hterm m s ω) (?_ : _ ≤ (1 : ℝ)) (abs_nonneg _) hB).trans (by simp)
              split <;> simp
          · refine Eq.trans (integral_congr_ae (Eventually.of_forall fun ω => ?_)) (integral_zero Ω ℝ)
            show _ * _ = (0 : ℝ)
            by_cases hc : playCount (fun i => act i ω) s a = m ∧ act s ω = a
            · rw [if_neg (fun hc' : playCount (fun i => act i ω) t a = m' ∧ act t ω = a => ?_), mul_zero]
              have := playCount_mono (fun i => act i ω) a hst
              simp only at this
              omega
            · rw [if_neg hc, zero_mul]
        · intro t _
          refine Integrable.of_bound ((Measurable.ite (hset m s) (hxm s) measurable_const).mul
            (Measurable.ite (hset m' t) (hxm t) measurable_const)).aestronglyMeasurable (B * B)
            (Eventually.of_forall fun ω => ?_)
          rw [Real.norm_eq_abs, abs_mul]
          exact mul_le_mul (hterm m s ω) (hterm m' t ω) (abs_nonneg _) hB
      · intro s _
        refine integrable_finsetSum _ fun t _ => ?_
        refine Integrable.of_bound ((Measurable.ite (hset m s) (hxm s) measurable_const).mul
          (Measurable.ite (hset m' t) (hxm t) measurable_const)).aestronglyMeasurable (B * B)
          (Eventually.of_forall fun ω => ?_)
        rw [Real.norm_eq_abs, abs_mul]
        exact mul_le_mul (hterm m s ω) (hterm m' t ω) (abs_nonneg _) hB
    have hlim := tendsto_integral_of_dominated_convergence (μ := P)
      (F := fun T ω => playValue (fun i => act i ω) (fun i => x i ω) a m T *
        playValue (fun i => act i ω) (fun i => x i ω) a m' T)
      (f := fun ω => playValueLim (fun i => act i ω) (fun i => x i ω) a m *
        playValueLim (fun i => act i ω) (fun i => x i ω) a m') (fun _ => B * B)
      (fun T => ((hvm m T).mul (hvm m' T)).aestronglyMeasurable) (integrable_const _)
      (fun T => Eventually.of_forall fun ω => by
        rw [Real.norm_eq_abs, abs_mul]
        exact mul_le_mul (playValue_le (fun t => hxb t ω) a m T) (playValue_le (fun t => hxb t ω) a m' T)
          (abs_nonneg _) hB)
      (Eventually.of_forall fun ω => (playValue_tendsto _ _ a m).mul (playValue_tendsto _ _ a m'))
    simp only [hT] at hlim
    exact tendsto_nhds_unique hlim tendsto_const_nhds
  filter_upwards [ae_tendsto_average_zero hlm hlb horth] with ω hω hN
  have h := hω.comp hN
  refine h.congr fun T => ?_
  show _ / _ = _ / _
  rw [sum_playValueLim (fun i => act i ω) (fun i => x i ω) a T]

end

end Obp
