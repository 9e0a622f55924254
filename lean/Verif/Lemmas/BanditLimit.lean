import Verif.Lemmas.BanditPlay
import Mathlib.Analysis.Asymptotics.SpecificAsymptotics
import Mathlib.Analysis.SpecificLimits.Basic
import Mathlib.Order.Filter.AtTopBot.Basic

set_option linter.unusedSectionVars false

/-!
# Long-run behaviour of `EpsilonGreedy` along one sequence of draws

If the rewards observed with each action average out and random lists put each action in front often enough, then average
rewards converge to the means and exploitation ends up with the best actions.
-/

namespace Obp
open Filter Topology

variable {n : ℕ} (hn : 0 < n) {argsort : List ℝ → List ℕ} {L b : ℕ} {ε : ℝ} {u : ℕ → ℝ} {c : ℕ → List ℕ}
  {r : ℕ → Fin n → ℝ} {μ : Fin n → ℝ}

theorem frontAction_of_head {l : List ℕ} {a : Fin n} (h : l.head? = some a.val) : frontAction hn l = a := by
  simp [frontAction, h]

theorem head_frontAction (hL0 : 0 < L) {l : List ℕ} (h : IsRanking n L l) :
    l.head? = some (frontAction hn l).val := by
  obtain ⟨rest, hrest⟩ := frontAction_spec hn hL0 h
  generalize frontAction hn l = x at hrest
  rw [hrest, List.head?_cons]

/-- Exploring with a list puts its first action into play. -/
theorem playAction_explore {t : ℕ} {a : Fin n} (hu : u t ≤ ε) (h : (c t).head? = some a.val) :
    playAction hn argsort L b ε u c r t = a := by
  rw [playAction_eq, playList, if_neg (fun hc => absurd hc.1 (not_lt.2 hu))]
  exact frontAction_of_head hn h

/-- Exploiting takes an action with the largest average reward. -/
theorem playAction_exploit (ha : IsArgsort argsort) (hL0 : 0 < L) (hL : L ≤ n) {t : ℕ} (hu : ε < u t)
    (hN : ∀ a, 0 < playCount (playAction hn argsort L b ε u c r) (b * (t / b)) a) (a : Fin n) :
    playReward (playAction hn argsort L b ε u c r) r (b * (t / b)) a /
        (playCount (playAction hn argsort L b ε u c r) (b * (t / b)) a : ℝ) ≤
      playReward (playAction hn argsort L b ε u c r) r (b * (t / b)) (playAction hn argsort L b ε u c r t) /
        (playCount (playAction hn argsort L b ε u c r) (b * (t / b)) (playAction hn argsort L b ε u c r t) : ℝ) := by
  set act := playAction hn argsort L b ε u c r with hact
  set N := playCount act (b * (t / b))
  set S := playReward act r (b * (t / b))
  have he : act t = frontAction hn (topRanking argsort (List.ofFn fun a => S a / (N a : ℝ)) L) := by
    rw [hact, playAction_eq, playList, if_pos ⟨hu, hN⟩]
  have htop := topRanking_isTop ha (fun a => S a / (N a : ℝ)) hL
  obtain ⟨rest, hrest⟩ := frontAction_spec hn hL0 htop.toIsRanking
  rw [← he] at hrest
  by_cases hmem : a.val ∈ topRanking argsort (List.ofFn fun a => S a / (N a : ℝ)) L
  · rw [hrest, List.mem_cons] at hmem
    rcases hmem with h | h
    · have : a = act t := Fin.ext h
      rw [this]
    · have hp := htop.descending
      rw [hrest, List.pairwise_cons] at hp
      exact hp.1 a.val h (act t).2 a.2
  · exact htop.best (act t).val (by rw [hrest]; simp) (act t).2 a hmem

/-- the rounds before `T` in which an action was picked at random -/
noncomputable def exploreCount (ε : ℝ) (u : ℕ → ℝ) (c : ℕ → List ℕ) (T : ℕ) (a : Fin n) : ℝ :=
  ∑ t ∈ Finset.range T, if u t ≤ ε ∧ (c t).head? = some a.val then 1 else 0

theorem exploreCount_le (T : ℕ) (a : Fin n) :
    exploreCount ε u c T a ≤ (playCount (playAction hn argsort L b ε u c r) T a : ℝ) := by
  rw [exploreCount, playCount, Nat.cast_sum]
  refine Finset.sum_le_sum fun t _ => ?_
  split
  · rename_i h
    rw [if_pos (playAction_explore hn h.1 h.2)]
    simp
  · positivity

section
variable (hε : 0 < ε)
  (h1 : ∀ a, Tendsto (fun T : ℕ => (∑ t ∈ Finset.range T,
    if playAction hn argsort L b ε u c r t = a then r t a - μ a else 0) / (T : ℝ)) atTop (𝓝 0))
  (h2 : ∀ a : Fin n, Tendsto (fun T : ℕ => exploreCount ε u c T a / (T : ℝ)) atTop (𝓝 (ε / n)))

include hε h2 in
theorem playCount_lower (a : Fin n) :
    ∀ᶠ T : ℕ in atTop, (T : ℝ) * (ε / n / 2) < (playCount (playAction hn argsort L b ε u c r) T a : ℝ) := by
  have hpos : (0 : ℝ) < ε / n := div_pos hε (by exact_mod_cast hn)
  filter_upwards [(h2 a).eventually_const_lt (half_lt_self hpos), eventually_gt_atTop 0] with T hT hT0
  have hT' : (0 : ℝ) < T := by exact_mod_cast hT0
  rw [lt_div_iff₀ hT'] at hT
  have := exploreCount_le hn (argsort := argsort) (L := L) (b := b) (ε := ε) (u := u) (c := c) (r := r) T a
  linarith

include hε h1 h2 in
/-- The average reward observed with an action converges to its mean. -/
theorem playAverage_tendsto (a : Fin n) :
    Tendsto (fun T : ℕ => playReward (playAction hn argsort L b ε u c r) r T a /
      (playCount (playAction hn argsort L b ε u c r) T a : ℝ)) atTop (𝓝 (μ a)) := by
  set act := playAction hn argsort L b ε u c r
  have hpos : (0 : ℝ) < ε / n / 2 := half_pos (div_pos hε (by exact_mod_cast hn))
  rw [tendsto_iff_norm_sub_tendsto_zero]
  have h3 : Tendsto (fun T : ℕ => ‖(∑ t ∈ Finset.range T, if act t = a then r t a - μ a else 0) / (T : ℝ)‖ /
      (ε / n / 2)) atTop (𝓝 0) := by
    have := ((h1 a).norm).div_const (ε / n / 2)
    simpa using this
  refine squeeze_zero' (Eventually.of_forall fun T => norm_nonneg _) ?_ h3
  filter_upwards [playCount_lower hn (argsort := argsort) (L := L) (b := b) (r := r) hε h2 a, eventually_gt_atTop 0]
    with T hT hT0
  have hT' : (0 : ℝ) < T := by exact_mod_cast hT0
  have hN : (0 : ℝ) < playCount act T a := lt_trans (by positivity) hT
  have hsum : playReward act r T a = (∑ t ∈ Finset.range T, if act t = a then r t a - μ a else 0) +
      μ a * (playCount act T a : ℝ) := by
    rw [playReward, playCount, Nat.cast_sum, Finset.mul_sum, ← Finset.sum_add_distrib]
    refine Finset.sum_congr rfl fun t _ => ?_
    split <;> simp
  have e : playReward act r T a / (playCount act T a : ℝ) - μ a =
      (∑ t ∈ Finset.range T, if act t = a then r t a - μ a else 0) / (playCount act T a : ℝ) := by
    rw [hsum]; field_simp; ring
  rw [e, norm_div, norm_div, Real.norm_of_nonneg hN.le, Real.norm_of_nonneg hT'.le, div_div]
  exact div_le_div_of_nonneg_left (norm_nonneg _) (by positivity) hT.le

theorem tendsto_completed (hb : 0 < b) : Tendsto (fun T : ℕ => b * (T / b)) atTop atTop := by
  refine tendsto_atTop.2 fun k => ?_
  filter_upwards [eventually_ge_atTop (k + b)] with T hT
  have := Nat.div_add_mod T b
  have := Nat.mod_lt T hb
  omega

include hε h1 h2 in
/-- From some round on, exploitation takes only actions with the largest mean. -/
theorem playAction_best (ha : IsArgsort argsort) (hL0 : 0 < L) (hL : L ≤ n) (hb : 0 < b) :
    ∀ᶠ T : ℕ in atTop, ε < u T → ∀ a, μ a ≤ μ (playAction hn argsort L b ε u c r T) := by
  set act := playAction hn argsort L b ε u c r with hact
  have hcount : ∀ᶠ T : ℕ in atTop, ∀ a, 0 < playCount act (b * (T / b)) a := by
    refine eventually_all.2 fun a => (tendsto_completed hb).eventually (p := fun T => 0 < playCount act T a) ?_
    filter_upwards [playCount_lower hn (argsort := argsort) (L := L) (b := b) (r := r) hε h2 a] with T hT
    have hnn : (0 : ℝ) ≤ T * (ε / n / 2) := by positivity
    exact_mod_cast lt_of_le_of_lt hnn hT
  have hsep : ∀ᶠ T : ℕ in atTop, ∀ a a', μ a < μ a' →
      playReward act r (b * (T / b)) a / (playCount act (b * (T / b)) a : ℝ) <
        playReward act r (b * (T / b)) a' / (playCount act (b * (T / b)) a' : ℝ) := by
    refine eventually_all.2 fun a => eventually_all.2 fun a' => ?_
    by_cases h : μ a < μ a'
    · have ht := fun x => (playAverage_tendsto hn hε h1 h2 x).comp (tendsto_completed hb)
      filter_upwards [(ht a).eventually_lt (ht a') h] with T hT _ using hT
    · exact Eventually.of_forall fun T h' => absurd h' h
  filter_upwards [hcount, hsep] with T hT1 hT2 hu a
  by_contra hlt
  exact absurd (hT2 _ _ (not_le.1 hlt)) (not_lt.2 (playAction_exploit hn ha hL0 hL hu hT1 a))

include hε h1 h2 in
/-- The average reward converges to the best mean with weight `1 - ε` and the average mean with weight `ε`. -/
theorem playTotal_tendsto (ha : IsArgsort argsort) (hL0 : 0 < L) (hL : L ≤ n) (hb : 0 < b)
    (hc : ∀ t, IsRanking n L (c t)) {best : Fin n} (hbest : ∀ a, μ a ≤ μ best) :
    Tendsto (fun T : ℕ => (∑ t ∈ Finset.range T, r t (playAction hn argsort L b ε u c r t)) / (T : ℝ)) atTop
      (𝓝 ((1 - ε) * μ best + ε * ((∑ a, μ a) / n))) := by
  set act := playAction hn argsort L b ε u c r with hact
  set y : ℕ → ℝ := fun t => if u t ≤ ε then μ (frontAction hn (c t)) else μ best with hy
  have hn' : (n : ℝ) ≠ 0 := by exact_mod_cast hn.ne'
  -- the three parts of the total
  have hA : Tendsto (fun T : ℕ => ∑ a, (∑ t ∈ Finset.range T, if act t = a then r t a - μ a else 0) / (T : ℝ)) atTop
      (𝓝 (∑ _a : Fin n, 0)) := tendsto_finsetSum _ fun a _ => h1 a
  have hB : Tendsto (fun T : ℕ => ((T : ℝ)⁻¹) * ∑ t ∈ Finset.range T, (μ (act t) - y t)) atTop (𝓝 0) := by
    refine Filter.Tendsto.cesaro ?_
    refine tendsto_const_nhds.congr' ?_
    filter_upwards [playAction_best hn hε h1 h2 ha hL0 hL hb] with T hT
    rw [hy]
    by_cases h : u T ≤ ε
    · have : act T = frontAction hn (c T) := playAction_explore hn h (head_frontAction hn hL0 (hc T))
      simp [h, this]
    · have := hT (not_le.1 h)
      simp only [h, if_false]
      have e : μ (act T) = μ best := le_antisymm (hbest _) (this best)
      rw [e, sub_self]
  have hC : Tendsto (fun T : ℕ => (∑ t ∈ Finset.range T, y t) / (T : ℝ)) atTop
      (𝓝 ((1 - ε) * μ best + ε * ((∑ a, μ a) / n))) := by
    have hsum : Tendsto (fun T : ℕ => (∑ a, (μ a - μ best) * (exploreCount ε u c T a / (T : ℝ))) + μ best) atTop
        (𝓝 ((∑ a, (μ a - μ best) * (ε / n)) + μ best)) :=
      (tendsto_finsetSum _ fun a _ => (h2 a).const_mul _).add_const _
    have hlim : (∑ a, (μ a - μ best) * (ε / n)) + μ best = (1 - ε) * μ best + ε * ((∑ a, μ a) / n) := by
      rw [← Finset.sum_mul, Finset.sum_sub_distrib]
      simp only [Finset.sum_const, Finset.card_univ, Fintype.card_fin, nsmul_eq_mul]
      field_simp
      ring
    rw [hlim] at hsum
    refine hsum.congr' ?_
    filter_upwards [eventually_gt_atTop 0] with T hT0
    have hT' : (T : ℝ) ≠ 0 := by exact_mod_cast hT0.ne'
    have hyt : ∀ t, y t = (∑ a : Fin n, (μ a - μ best) * (if u t ≤ ε ∧ (c t).head? = some a.val then 1 else 0)) +
        μ best := by
      intro t
      have hhead : ∀ a : Fin n, (c t).head? = some a.val ↔ a = frontAction hn (c t) := by
        intro a
        rw [head_frontAction hn hL0 (hc t), Option.some.injEq]
        exact ⟨fun h => Fin.ext h.symm, fun h => by rw [h]⟩
      rw [hy]
      by_cases h : u t ≤ ε
      · simp [h, hhead]
      · simp [h]
    simp only [hyt, Finset.sum_add_distrib]
    rw [Finset.sum_comm]
    simp only [← Finset.mul_sum, exploreCount, Finset.sum_const, Finset.card_range, nsmul_eq_mul]
    rw [add_div, mul_div_cancel_left₀ _ hT', Finset.sum_div]
    simp only [mul_div_assoc]
  have hall := (hA.add hB).add hC
  simp only [Finset.sum_const_zero, zero_add] at hall
  refine hall.congr fun T => ?_
  have hr : ∀ t, r t (act t) = (∑ a, if act t = a then r t a - μ a else 0) + μ (act t) := by
    intro t; simp
  have hr' : ∑ t ∈ Finset.range T, r t (act t) =
      (∑ a, ∑ t ∈ Finset.range T, if act t = a then r t a - μ a else 0) + ∑ t ∈ Finset.range T, μ (act t) := by
    rw [Finset.sum_comm, ← Finset.sum_add_distrib]
    exact Finset.sum_congr rfl fun t _ => hr t
  rw [hr', Finset.sum_sub_distrib, ← Finset.sum_div]
  ring

end

end Obp
