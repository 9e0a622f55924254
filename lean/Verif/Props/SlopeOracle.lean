import Verif.Props.Tuning
import Mathlib.Tactic.IntervalCases

set_option linter.unusedSectionVars false

/-!
# Guarantee of the SLOPE selection

C149 (oracle inequality of `tuning_method="slope"`).
-/

namespace Obp
open Log

/-- Oracle inequality for the scan, in terms of the statistics. -/
theorem slopeSelect_oracle {argsort : List ℝ → List ℕ} (hsort : IsArgsort argsort) {stats : List (ℝ × ℝ)}
    (hne : stats ≠ []) (V : ℝ) (bias : ℕ → ℝ)
    (hb0 : ∀ i, 0 ≤ bias i) (hc0 : ∀ s ∈ stats, 0 ≤ s.2)
    (hmono : ∀ i j s t, stats[i]? = some s → stats[j]? = some t → t.2 ≤ s.2 → bias i ≤ bias j)
    (herr : ∀ i s, stats[i]? = some s → |s.1 - V| ≤ bias i + s.2) :
    ∃ i s, slopeSelect (√6 - 1) argsort stats = .ok i ∧ stats[i]? = some s ∧
      ∀ k t, stats[k]? = some t → |s.1 - V| ≤ (√6 + 3) * (bias k + t.2) := by
  obtain ⟨idx, m, hm, hperm, hpw, hsel, hcomp, hinc⟩ := C34_slope_rule (√6 - 1) hsort hne
  have h6 : (2 : ℝ) < √6 := by
    rw [show (2 : ℝ) = √4 by rw [show (4 : ℝ) = 2 ^ 2 by norm_num]; exact (Real.sqrt_sq (by norm_num)).symm]
    exact Real.sqrt_lt_sqrt (by norm_num) (by norm_num)
  have h66 : √6 * √6 = 6 := Real.mul_self_sqrt (by norm_num)
  have hget : ∀ (p : ℕ) (hp : p < idx.length), ∃ s, stats[idx[p]]? = some s := by
    intro p hp
    have hmem : idx[p] ∈ List.range stats.length := hperm.subset (List.getElem_mem hp)
    exact ⟨_, List.getElem?_eq_getElem (List.mem_range.1 hmem)⟩
  obtain ⟨s, hs⟩ := hget m hm
  refine ⟨idx[m], s, hsel, hs, fun k t hk => ?_⟩
  have hkl : k < stats.length := (List.getElem?_eq_some_iff.1 hk).1
  obtain ⟨p, hp, rfl⟩ := List.getElem_of_mem (hperm.symm.subset (List.mem_range.2 hkl))
  have ht0 := hc0 t (List.mem_of_getElem? hk)
  have hbk := hb0 idx[p]
  have order : ∀ (a b : ℕ) (ha : a < idx.length) (hb : b < idx.length), a ≤ b → ∀ u v, stats[idx[a]]? = some u →
      stats[idx[b]]? = some v → v.2 ≤ u.2 := by
    intro a b ha hb hab u v hu hv
    rcases hab.lt_or_eq with h | rfl
    · exact List.pairwise_iff_getElem.1 hpw a b ha hb h u v hu hv
    · rw [hu] at hv; cases hv; exact le_rfl
  by_cases hpm : p ≤ m
  · have hcd : s.2 ≤ t.2 := order p m hp hm hpm t s hk hs
    have hek := herr _ _ hk
    have hst : |t.1 - s.1| ≤ s.2 + (√6 - 1) * t.2 := by
      rcases hpm.lt_or_eq with h | rfl
      · exact hcomp m le_rfl p h s t (by rw [List.getElem?_eq_getElem hm]; exact hs)
          (by rw [List.getElem?_eq_getElem hp]; exact hk)
      · rw [hs] at hk; cases hk
        rw [sub_self, abs_zero]
        nlinarith
    have htri : |s.1 - V| ≤ |t.1 - s.1| + |t.1 - V| := by
      have := abs_sub_abs_le_abs_sub (s.1 - V) (t.1 - V)
      rw [show s.1 - V - (t.1 - V) = -(t.1 - s.1) by ring, abs_neg] at this
      linarith
    nlinarith
  · push Not at hpm
    have hm1 : m + 1 < idx.length := by omega
    obtain ⟨j, hj, u, v, hu, hv, hnc⟩ := hinc hm1
    have hj' : j < idx.length := by omega
    rw [List.getElem?_eq_getElem hm1, Option.bind_some] at hu
    rw [List.getElem?_eq_getElem hj', Option.bind_some] at hv
    unfold Compatible at hnc
    push Not at hnc
    have h1 := herr _ _ hu
    have h2 := herr _ _ hv
    have hvu : u.2 ≤ v.2 := order j (m + 1) hj' hm1 (by omega) v u hv hu
    have hvs : s.2 ≤ v.2 := order j m hj' hm hj v s hv hs
    have hus : u.2 ≤ s.2 := order m (m + 1) hm hm1 (by omega) s u hs hu
    have hbu : bias idx[j] ≤ bias idx[m + 1] := hmono _ _ v u hv hu hvu
    have hbs : bias idx[m] ≤ bias idx[m + 1] := hmono _ _ s u hs hu hus
    have hbp : bias idx[m + 1] ≤ bias idx[p] := hmono _ _ u t hu hk (order (m + 1) p hm1 hp hpm u t hu hk)
    have htri : |v.1 - u.1| ≤ |v.1 - V| + |u.1 - V| := by
      have := abs_sub (v.1 - V) (u.1 - V)
      rwa [show v.1 - V - (u.1 - V) = v.1 - u.1 by ring] at this
    have hes := herr _ _ hs
    have hs0 := hc0 s (List.mem_of_getElem? hs)
    -- 2 b > (√6 - 2) c
    have hkey : (√6 - 2) * s.2 ≤ 2 * bias idx[p] := by nlinarith
    have hmul : s.2 ≤ (√6 + 2) * bias idx[p] := by nlinarith
    nlinarith

/-- **C149.** SLOPE selects almost as well as an oracle. Let `V` be any number (the true value of the policy), and suppose that
every candidate's estimate is within `bias + width` of `V`, where `width` is the half-width that the code computes for the
candidate and biases go up as the widths go down (the assumption of the method). Then the estimate at the chosen
hyperparameter is within `√6 + 3` times the best `bias + width` among all candidates, although the biases are unknown to
the code. -/
theorem C149_slope_oracle {argsort : List ℝ → List ℕ} (hsort : IsArgsort argsort) {tq : ℝ → ℝ → ℝ} {t : Tuner}
    {r : RoundIn ℝ} (hne : t.lambdas ≠ []) (V : ℝ) (bias estimate width : Lam ℝ → ℝ)
    (hstat : ∀ l ∈ t.lambdas, t.slopeStat tq r l = .ok (estimate l, width l))
    (hb : ∀ l ∈ t.lambdas, 0 ≤ bias l ∧ 0 ≤ width l)
    (hmono : ∀ l ∈ t.lambdas, ∀ l' ∈ t.lambdas, width l' ≤ width l → bias l ≤ bias l')
    (herr : ∀ l ∈ t.lambdas, |estimate l - V| ≤ bias l + width l) :
    ∃ l ∈ t.lambdas, t.tuneSlope argsort tq r = .ok l ∧
      ∀ l' ∈ t.lambdas, |estimate l - V| ≤ (√6 + 3) * (bias l' + width l') := by
  have hm : t.lambdas.mapM (t.slopeStat tq r) = .ok (t.lambdas.map fun l => (estimate l, width l)) :=
    mapM_map_ok fun l hl => hstat l hl
  have hgl : ∀ (i : ℕ) (s : ℝ × ℝ), (t.lambdas.map fun l => (estimate l, width l))[i]? = some s →
      ∃ l, t.lambdas[i]? = some l ∧ l ∈ t.lambdas ∧ s = (estimate l, width l) := by
    intro i s h
    rw [List.getElem?_map] at h
    cases hl : t.lambdas[i]? with
    | none => rw [hl] at h; simp at h
    | some l =>
      rw [hl] at h
      simp only [Option.map_some, Option.some.injEq] at h
      exact ⟨l, rfl, List.mem_of_getElem? hl, h.symm⟩
  obtain ⟨i, s, h1, h2, h3⟩ := slopeSelect_oracle hsort (stats := t.lambdas.map fun l => (estimate l, width l))
    (by simpa using hne) V (fun i => ((t.lambdas[i]?).map bias).getD 0 ⊔ 0) (fun i => le_sup_right)
    (by
      intro s hs
      obtain ⟨l, hl, rfl⟩ := List.mem_map.1 hs
      exact (hb l hl).2)
    (by
      intro i j s u hi hj huv
      obtain ⟨l, e1, m1, rfl⟩ := hgl i s hi
      obtain ⟨l', e2, m2, rfl⟩ := hgl j u hj
      simp only [e1, e2, Option.map_some, Option.getD_some]
      exact sup_le_sup_right (hmono l m1 l' m2 huv) 0)
    (by
      intro i s hi
      obtain ⟨l, e1, m1, rfl⟩ := hgl i s hi
      simp only [e1, Option.map_some, Option.getD_some, sup_of_le_left (hb l m1).1]
      exact herr l m1)
  obtain ⟨l, e1, m1, rfl⟩ := hgl i s h2
  refine ⟨l, m1, ?_, fun l' hl' => ?_⟩
  · unfold Tuner.tuneSlope
    rw [hm, py_bind_ok, h1, py_bind_ok, e1]
    rfl
  · obtain ⟨k, hk, rfl⟩ := List.getElem_of_mem hl'
    have hk' : t.lambdas[k]? = some t.lambdas[k] := List.getElem?_eq_getElem hk
    have := h3 k (estimate t.lambdas[k], width t.lambdas[k]) (by rw [List.getElem?_map, hk']; rfl)
    simpa only [hk', Option.map_some, Option.getD_some, sup_of_le_left (hb _ hl').1] using this

/-- Three candidates with biases 0, 1, 20; the third is not compatible with the first one, and the second is chosen. Its error
is below the bound. -/
example : ∃ i s, slopeSelect (√6 - 1) (fun xs : List ℝ => (List.range xs.length).insertionSort
      fun i j => xs.getD i 0 ≤ xs.getD j 0) [(7, 5), (3, 2), (21, 1)] = .ok i ∧
    [((7 : ℝ), (5 : ℝ)), (3, 2), (21, 1)][i]? = some s ∧ |s.1 - 2| ≤ (√6 + 3) * 3 := by
  have hs : IsArgsort (fun xs : List ℝ => (List.range xs.length).insertionSort fun i j => xs.getD i 0 ≤ xs.getD j 0) := by
    intro xs
    refine ⟨List.perm_insertionSort _ _, ?_⟩
    have : Std.Total fun (i j : ℕ) => xs.getD i 0 ≤ xs.getD j 0 := ⟨fun i j => le_total _ _⟩
    have : IsTrans ℕ fun i j => xs.getD i 0 ≤ xs.getD j 0 := ⟨fun i j k => le_trans⟩
    refine (List.pairwise_insertionSort _ _).imp ?_
    intro i j hij x y hx hy
    rw [List.getD_eq_getElem?_getD, List.getD_eq_getElem?_getD, hx, hy] at hij
    exact hij
  obtain ⟨i, s, h1, h2, h3⟩ := slopeSelect_oracle hs (stats := [((7 : ℝ), (5 : ℝ)), (3, 2), (21, 1)]) (by simp) 2
    (fun i => if i = 0 then 0 else if i = 1 then 1 else 20) (by intro i; split_ifs <;> norm_num)
    (by intro s h; simp at h; rcases h with rfl | rfl | rfl <;> norm_num)
    (by
      intro i j s t hi hj hle
      have hi' := (List.getElem?_eq_some_iff.1 hi).1
      have hj' := (List.getElem?_eq_some_iff.1 hj).1
      simp only [List.length_cons, List.length_nil] at hi' hj'
      interval_cases i <;> interval_cases j <;> simp at hi hj <;> subst hi <;> subst hj <;>
        first | (norm_num; done) | (exfalso; norm_num at hle))
    (by
      intro i s hi
      have hi' := (List.getElem?_eq_some_iff.1 hi).1
      simp only [List.length_cons, List.length_nil] at hi'
      interval_cases i <;> simp at hi <;> subst hi <;> norm_num [abs_le])
  refine ⟨i, s, h1, h2, ?_⟩
  have := h3 1 (3, 2) rfl
  norm_num at this ⊢
  linarith

/-- **C149.** The same for `estimate_policy_value` of a tuned estimator (first call, `tuning_method="slope"`) on logged data: it
returns a value that is within `√6 + 3` times the best `bias + width` of `V`, `width` being the Student-t half-width of the
per-round values of the candidate. -/
theorem C149_tuned_value {argsort : List ℝ → List ℕ} (hsort : IsArgsort argsort) {tq : ℝ → ℝ → ℝ} {t : Tuner}
    (hk : t.kind.IsTunable) (hsg : t.est = true → t.kind ≠ .sgIpw ∧ t.kind ≠ .sgDr) (hne : t.lambdas ≠ [])
    (hmeth : t.method = .slope) (hbest : t.best = none) (hd : 0 ≤ t.delta ∧ t.delta ≤ 1)
    {n A L : ℕ} {g : Log ℝ n A L} (hg : g.Valid) (hn : 2 ≤ n)
    (htq : 0 < tq (n - 1) (1 - t.delta))
    {s : Lam ℝ → Fin n → ℝ} (hs : ∀ l ∈ t.lambdas, roundReward (t.base l) g = some (s l)) (V : ℝ) (bias : Lam ℝ → ℝ)
    (hb : ∀ l ∈ t.lambdas, 0 ≤ bias l)
    (hmono : ∀ l ∈ t.lambdas, ∀ l' ∈ t.lambdas, popVar (s l') ≤ popVar (s l) → bias l ≤ bias l')
    (herr : ∀ l ∈ t.lambdas, |avg (s l) - V| ≤ bias l + √(popVar (s l) / (n - 1)) * tq (n - 1) (1 - t.delta)) :
    ∃ v, (t.estimatePolicyValue argsort tq g.args).1 = .ok v ∧ ∀ l ∈ t.lambdas,
      |v - V| ≤ (√6 + 3) * (bias l + √(popVar (s l) / (n - 1)) * tq (n - 1) (1 - t.delta)) := by
  have hn1 : (0 : ℝ) < (n : ℝ) - 1 := by
    have : (2 : ℝ) ≤ n := by exact_mod_cast hn
    linarith
  have hpv : ∀ f : Fin n → ℝ, 0 ≤ popVar f := fun f => by
    unfold popVar avg
    positivity
  have hprep : ∀ l l', (t.base l).prepare g.args = (t.base l').prepare g.args := fun l l' => by
    obtain ⟨k, ls, m, ub, d, est, b⟩ := t; rfl
  obtain ⟨l₀, hl₀⟩ := List.exists_mem_of_ne_nil _ hne
  obtain ⟨r, hr⟩ : ∃ r, (t.base l₀).prepare g.args = .ok r := by
    have := rounds_eq hg (t.base l₀)
    rw [hs l₀ hl₀] at this
    cases h : (t.base l₀).prepare g.args with
    | ok r => exact ⟨r, rfl⟩
    | error e => rw [h, py_bind_error] at this; simp [roundOutcome] at this
  have hstat : ∀ l ∈ t.lambdas, t.slopeStat tq r l =
      .ok (avg (s l), √(popVar (s l) / (n - 1)) * tq (n - 1) (1 - t.delta)) ∧
      (t.base l).estimatePolicyValue g.args = .ok (avg (s l)) := fun l hl =>
    C34_slope_statistics hg hn tq hd ((hprep l l₀).trans hr) (hs l hl)
  obtain ⟨l, hl, h1, h2⟩ := C149_slope_oracle hsort hne V bias (fun l => avg (s l))
    (fun l => √(popVar (s l) / (n - 1)) * tq (n - 1) (1 - t.delta)) (fun l hl => (hstat l hl).1)
    (fun l hl => ⟨hb l hl, mul_nonneg (Real.sqrt_nonneg _) htq.le⟩)
    (fun l hl l' hl' hle => hmono l hl l' hl' (by
      have h3 := le_of_mul_le_mul_right hle htq
      rw [Real.sqrt_le_sqrt_iff (div_nonneg (hpv _) hn1.le)] at h3
      exact (div_le_div_iff_of_pos_right hn1).1 h3)) herr
  refine ⟨avg (s l), ?_, h2⟩
  have hx : g.args.NonemptyDist := by
    intro x hx
    simp only [args, Arg3.arr.injEq] at hx
    subst hx
    exact ⟨by simp only; omega, (g.position ⟨0, by omega⟩).pos⟩
  rw [C36_first_call_partial hk hx hsg ((hprep .inf l₀).trans hr) hbest (l := l) (by
    unfold Tuner.tune
    rw [hmeth]
    exact h1)]
  exact (hstat l hl).2

end Obp
