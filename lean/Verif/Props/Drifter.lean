import Verif.Spec.Simulator
import Verif.Lemmas.Numpy
import Mathlib.Algebra.Order.Field.Basic
import Mathlib.Algebra.Order.Archimedean.Basic
import Mathlib.Tactic.Ring
import Mathlib.Tactic.Linarith

set_option linter.unusedSectionVars false

/-! # `CoefficientDrifter` and `ExponentialDelaySampler` -/

namespace Obp

section
variable {K ι : Type} [Field K] [LinearOrder K] [IsStrictOrderedRing K] {c : DrifterConfig K ι}

theorem transitionSteps_full (period available : ℕ) :
    transitionSteps period available available = (List.range available).map fun k => k + 1 + period - available := by
  unfold transitionSteps
  simp only [lt_irrefl, if_false]
  by_cases h : period ≤ available
  · rw [if_pos h]
    apply List.ext_getElem
    · simp; omega
    · intro i h1 h2
      simp only [List.getElem_append, List.length_replicate, List.getElem_replicate, List.getElem_map,
        List.getElem_range]
      split <;> omega
  · rw [if_neg h]
    apply List.ext_getElem
    · simp; omega
    · intro i h1 h2
      simp only [List.getElem_drop, List.getElem_map, List.getElem_range]
      omega

theorem transitionSteps_eq (period : ℕ) {available rounds : ℕ} (h : rounds ≤ available) :
    transitionSteps period available rounds =
      (List.range rounds).map fun k => (available - rounds) + k + 1 + period - available := by
  by_cases he : rounds = available
  · subst he
    rw [transitionSteps_full]
    simp
  · have hf := transitionSteps_full period available
    unfold transitionSteps at hf ⊢
    simp only [lt_irrefl, if_false] at hf
    simp only [if_pos (lt_of_le_of_ne h he), hf]
    apply List.ext_getElem
    · simp; omega
    · intro i h1 h2
      simp only [List.getElem_drop, List.getElem_map, List.getElem_range]

theorem drifterWeights_length (c : DrifterConfig K ι) (s : DrifterState K ι) {rounds : ℕ}
    (h : rounds ≤ s.available) : (drifterWeights c s rounds).length = rounds := by
  unfold drifterWeights
  rw [transitionSteps_eq _ h]
  cases c.transition <;> simp

theorem drifterWeights_mem (hf : c.FlipsValid) (s : DrifterState K ι) {rounds : ℕ} (h : rounds ≤ s.available)
    {w : K} (hw : w ∈ drifterWeights c s rounds) : 0 ≤ w ∧ w ≤ 1 := by
  unfold drifterWeights at hw
  rw [transitionSteps_eq _ h] at hw
  cases ht : c.transition with
  | linear =>
      rw [ht] at hw
      simp only [List.map_map, List.mem_map, List.mem_range, Function.comp] at hw
      obtain ⟨k, hk, rfl⟩ := hw
      have hpos : (0 : K) < (c.period : K) + 1 := by positivity
      have hle : s.available - rounds + k + 1 + c.period - s.available ≤ c.period + 1 := by omega
      have hle' : ((s.available - rounds + k + 1 + c.period - s.available : ℕ) : K) ≤ (c.period : K) + 1 := by
        exact_mod_cast hle
      exact ⟨div_nonneg (Nat.cast_nonneg _) hpos.le, (div_le_one hpos).2 hle'⟩
  | weightedSampled =>
      rw [ht] at hw
      simp only [List.mem_map] at hw
      obtain ⟨x, -, rfl⟩ := hw
      rcases hf s.flipped x.2 x.1 with h | h <;> rw [h] <;> norm_num

/-- All coefficients held are drawn coefficients. -/
structure DrifterInv (c : DrifterConfig K ι) (s : DrifterState K ι) : Prop where
  base : s.base = c.sample 0
  current : ∃ k, s.current = c.sample k
  next : ∃ k, s.next = c.sample k
  le : s.available ≤ c.interval
  pos : 0 < c.interval → 0 < s.available

theorem drifterInit_inv (c : DrifterConfig K ι) : DrifterInv c (drifterInit c) :=
  ⟨rfl, ⟨0, rfl⟩, ⟨1, rfl⟩, le_rfl, id⟩

theorem drifterRows_state (c : DrifterConfig K ι) (s : DrifterState K ι) (r : ℕ) :
    (drifterRows c s r).2.base = s.base ∧ (drifterRows c s r).2.current = s.current ∧
      (drifterRows c s r).2.next = s.next ∧ (drifterRows c s r).2.available = s.available := by
  unfold drifterRows
  split <;> exact ⟨rfl, rfl, rfl, rfl⟩

theorem drifterUpdate_inv {s : DrifterState K ι} (h : DrifterInv c s) (r : ℕ) :
    DrifterInv c { drifterUpdate c (drifterRows c s r).2 with available := c.interval } := by
  obtain ⟨h1, h2, h3, h4⟩ := drifterRows_state c s r
  unfold drifterUpdate
  split
  · exact ⟨h1.trans h.base, by simpa [h3] using h.next, by simpa [h2] using h.current, le_rfl, id⟩
  · exact ⟨h1.trans h.base, by simpa [h3] using h.next, ⟨_, rfl⟩, le_rfl, id⟩

/-- What a row has to look like. -/
def ConvexRow (c : DrifterConfig K ι) (row : ι → K) : Prop :=
  ∃ (i j : ℕ) (w : K), 0 ≤ w ∧ w ≤ 1 ∧ ∀ x, row x = c.baseWeight * c.sample 0 x +
    (1 - c.baseWeight) * ((1 - w) * c.sample i x + w * c.sample j x)

theorem drifterRows_convex (hf : c.FlipsValid) {s : DrifterState K ι} (h : DrifterInv c s) {r : ℕ}
    (hr : r ≤ s.available) : ∀ row ∈ (drifterRows c s r).1, ConvexRow c row := by
  intro row hrow
  unfold drifterRows at hrow
  simp only [List.mem_map] at hrow
  obtain ⟨w, hw, rfl⟩ := hrow
  obtain ⟨h0, h1⟩ := drifterWeights_mem hf s hr hw
  obtain ⟨i, hi⟩ := h.current
  obtain ⟨j, hj⟩ := h.next
  refine ⟨i, j, w, h0, h1, fun x => ?_⟩
  unfold weightedCoef
  rw [h.base, hi, hj]
  ring

theorem drifterLoop_spec (hf : c.FlipsValid) (fuel : ℕ) : ∀ (n : ℕ) {s s' : DrifterState K ι}
    {rows : List (ι → K)}, DrifterInv c s → drifterLoop c fuel n s = some (rows, s') →
      rows.length = n ∧ DrifterInv c s' ∧ ∀ row ∈ rows, ConvexRow c row := by
  induction fuel with
  | zero =>
      intro n s s' rows hs h
      cases n with
      | zero =>
          simp only [drifterLoop, Option.some.injEq, Prod.mk.injEq] at h
          obtain ⟨rfl, rfl⟩ := h
          exact ⟨rfl, hs, by simp⟩
      | succ n => simp [drifterLoop] at h
  | succ fuel ih =>
      intro n s s' rows hs h
      cases n with
      | zero =>
          simp only [drifterLoop, Option.some.injEq, Prod.mk.injEq] at h
          obtain ⟨rfl, rfl⟩ := h
          exact ⟨rfl, hs, by simp⟩
      | succ n =>
          unfold drifterLoop at h
          by_cases hle : s.available ≤ n + 1
          · rw [if_pos hle] at h
            dsimp only at h
            split at h
            · rename_i rest t heq
              simp only [Option.some.injEq, Prod.mk.injEq] at h
              obtain ⟨rfl, rfl⟩ := h
              obtain ⟨k1, k2, k3⟩ := ih _ (drifterUpdate_inv hs _) heq
              refine ⟨?_, k2, ?_⟩
              · rw [List.length_append, k1]
                have : (drifterRows c s s.available).1.length = s.available := by
                  unfold drifterRows; simp [drifterWeights_length c s le_rfl]
                omega
              · intro row hrow
                rcases List.mem_append.1 hrow with hr | hr
                · exact drifterRows_convex hf hs le_rfl row hr
                · exact k3 row hr
            · simp at h
          · rw [if_neg hle] at h
            simp only [Option.some.injEq, Prod.mk.injEq] at h
            obtain ⟨rfl, rfl⟩ := h
            obtain ⟨h1, h2, h3, h4⟩ := drifterRows_state c s (n + 1)
            have hlt : n + 1 < s.available := by omega
            refine ⟨?_, ⟨h1.trans hs.base, ?_, ?_, ?_, ?_⟩, drifterRows_convex hf hs hlt.le⟩
            · unfold drifterRows; simp [drifterWeights_length c s hlt.le]
            · simpa [h2] using hs.current
            · simpa [h3] using hs.next
            · have := hs.le; simp only; omega
            · intro _; simp only; omega

theorem drifterLoop_mono (c : DrifterConfig K ι) (fuel : ℕ) : ∀ (n : ℕ) (s : DrifterState K ι)
    (r : List (ι → K) × DrifterState K ι), drifterLoop c fuel n s = some r →
      ∀ more, drifterLoop c (fuel + more) n s = some r := by
  induction fuel with
  | zero =>
      intro n s r h more
      cases n with
      | zero =>
          cases more with
          | zero => exact h
          | succ m => simpa [drifterLoop] using h
      | succ n => simp [drifterLoop] at h
  | succ fuel ih =>
      intro n s r h more
      cases n with
      | zero => rw [show fuel + 1 + more = (fuel + more) + 1 by omega]; simpa [drifterLoop] using h
      | succ n =>
          rw [show fuel + 1 + more = (fuel + more) + 1 by omega]
          unfold drifterLoop at h ⊢
          by_cases hle : s.available ≤ n + 1
          · rw [if_pos hle] at h ⊢
            dsimp only at h ⊢
            split at h
            · rename_i rest t heq
              rw [ih _ _ _ heq more]
              exact h
            · simp at h
          · rw [if_neg hle] at h ⊢
            exact h

theorem drifterLoop_terminates (hi : 0 < c.interval) (n : ℕ) : ∀ {s : DrifterState K ι}, 0 < s.available →
    ∃ r, drifterLoop c n n s = some r := by
  induction n using Nat.strong_induction_on with
  | _ n ih =>
      intro s hs
      cases n with
      | zero => exact ⟨_, rfl⟩
      | succ n =>
          unfold drifterLoop
          by_cases hle : s.available ≤ n + 1
          · rw [if_pos hle]
            dsimp only
            obtain ⟨r, hr⟩ := ih (n + 1 - s.available) (by omega)
              (s := { drifterUpdate c (drifterRows c s s.available).2 with available := c.interval }) hi
            have := drifterLoop_mono c _ _ _ r hr (n - (n + 1 - s.available))
            rw [show n + 1 - s.available + (n - (n + 1 - s.available)) = n by omega] at this
            rw [this]
            exact ⟨_, rfl⟩
          · rw [if_neg hle]
            exact ⟨_, rfl⟩

theorem coefReturns_iff {s s' : DrifterState K ι} {n : ℕ} {rows : List (ι → K)} :
    CoefReturns c s n rows s' ↔ 0 < n ∧ ∃ fuel, drifterLoop c fuel n s = some (rows, s') := by
  unfold CoefReturns getCoefficients
  constructor
  · rintro ⟨fuel, h⟩
    rw [Option.map_eq_some_iff] at h
    obtain ⟨r, hr, h⟩ := h
    by_cases hn : n = 0
    · rw [if_pos hn] at h; simp at h
    · rw [if_neg hn] at h
      simp only [Except.ok.injEq] at h
      subst h
      exact ⟨by omega, fuel, hr⟩
  · rintro ⟨hn, fuel, h⟩
    exact ⟨fuel, by rw [h]; simp [show n ≠ 0 by omega]⟩

theorem reach_inv (hf : c.FlipsValid) {s : DrifterState K ι} (h : DrifterReach c s) : DrifterInv c s := by
  induction h with
  | init => exact drifterInit_inv c
  | call _ r ih =>
      obtain ⟨-, fuel, hr⟩ := coefReturns_iff.1 r
      exact (drifterLoop_spec hf fuel _ ih hr).2.1

/-- For every positive drift interval, every request of at least one round returns, after any earlier requests. -/
theorem C79_terminates (hf : c.FlipsValid) (hi : 0 < c.interval) {s : DrifterState K ι} (h : DrifterReach c s)
    (n : ℕ) (hn : 0 < n) : ∃ rows s', CoefReturns c s n rows s' := by
  obtain ⟨⟨rows, s'⟩, hr⟩ := drifterLoop_terminates hi n ((reach_inv hf h).pos hi)
  exact ⟨rows, s', coefReturns_iff.2 ⟨hn, n, hr⟩⟩

/-- What is returned has one row per requested round. -/
theorem C79_row_count (hf : c.FlipsValid) {s s' : DrifterState K ι} (h : DrifterReach c s) {n : ℕ}
    {rows : List (ι → K)} (r : CoefReturns c s n rows s') : rows.length = n := by
  obtain ⟨-, fuel, hr⟩ := coefReturns_iff.1 r
  exact (drifterLoop_spec hf fuel n (reach_inv hf h) hr).1

/-- Every row is the base coefficients mixed (with the base weight) with a convex combination of two drawn
coefficient vectors. -/
theorem C79_rows_convex (hf : c.FlipsValid) {s s' : DrifterState K ι} (h : DrifterReach c s) {n : ℕ}
    {rows : List (ι → K)} (r : CoefReturns c s n rows s') :
    ∀ row ∈ rows, ∃ (i j : ℕ) (w : K), 0 ≤ w ∧ w ≤ 1 ∧ ∀ x, row x = c.baseWeight * c.sample 0 x +
      (1 - c.baseWeight) * ((1 - w) * c.sample i x + w * c.sample j x) := by
  obtain ⟨-, fuel, hr⟩ := coefReturns_iff.1 r
  exact (drifterLoop_spec hf fuel n (reach_inv hf h) hr).2.2

/-- So with a base weight between zero and one the rows stay in the range of the drawn coefficients. -/
theorem C79_rows_range (hf : c.FlipsValid) {s s' : DrifterState K ι} (h : DrifterReach c s) {n : ℕ}
    {rows : List (ι → K)} (r : CoefReturns c s n rows s') (hb : 0 ≤ c.baseWeight ∧ c.baseWeight ≤ 1)
    (lo hi : K) (hl : ∀ k x, lo ≤ c.sample k x ∧ c.sample k x ≤ hi) :
    ∀ row ∈ rows, ∀ x, lo ≤ row x ∧ row x ≤ hi := by
  intro row hrow x
  obtain ⟨i, j, w, h0, h1, he⟩ := C79_rows_convex hf h r row hrow
  rw [he x]
  obtain ⟨a1, a2⟩ := hl 0 x
  obtain ⟨b1, b2⟩ := hl i x
  obtain ⟨c1, c2⟩ := hl j x
  have m1 : lo ≤ (1 - w) * c.sample i x + w * c.sample j x := by nlinarith
  have m2 : (1 - w) * c.sample i x + w * c.sample j x ≤ hi := by nlinarith
  constructor <;> nlinarith [hb.1, hb.2]

/-- A request for no rounds raises ValueError. -/
theorem C79_zero_rounds (c : DrifterConfig K ι) (s : DrifterState K ι) (fuel : ℕ) :
    getCoefficients c fuel 0 s = some (.error .valueError) := by
  unfold getCoefficients
  cases fuel <;> simp [drifterLoop]

/-- With a drift interval of zero no request of at least one round ever returns. -/
theorem C79_zero_interval_diverges (hi : c.interval = 0) (n : ℕ) (hn : 0 < n) (fuel : ℕ) :
    getCoefficients c fuel n (drifterInit c) = none := by
  have key : ∀ (fuel : ℕ) (s : DrifterState K ι), s.available = 0 → drifterLoop c fuel n s = none := by
    intro fuel
    induction fuel with
    | zero =>
        intro s _
        obtain ⟨m, rfl⟩ : ∃ m, n = m + 1 := ⟨n - 1, by omega⟩
        simp [drifterLoop]
    | succ fuel ih =>
        intro s hs
        obtain ⟨m, rfl⟩ : ∃ m, n = m + 1 := ⟨n - 1, by omega⟩
        unfold drifterLoop
        rw [if_pos (by omega)]
        dsimp only
        rw [hs, Nat.sub_zero, ih _ hi]
  unfold getCoefficients
  rw [key fuel _ hi]
  rfl

theorem drifterLoop_unique {s : DrifterState K ι} {n f1 f2 : ℕ} {r1 r2 : List (ι → K) × DrifterState K ι}
    (h1 : drifterLoop c f1 n s = some r1) (h2 : drifterLoop c f2 n s = some r2) : r1 = r2 := by
  have e1 := drifterLoop_mono c f1 n s r1 h1 f2
  have e2 := drifterLoop_mono c f2 n s r2 h2 f1
  rw [add_comm] at e2
  rw [e1] at e2
  exact Option.some.inj e2

/-- What a request returns is determined. -/
theorem coefReturns_unique {s s1 s2 : DrifterState K ι} {n : ℕ} {r1 r2 : List (ι → K)}
    (h1 : CoefReturns c s n r1 s1) (h2 : CoefReturns c s n r2 s2) : r1 = r2 ∧ s1 = s2 := by
  obtain ⟨-, f1, h1⟩ := coefReturns_iff.1 h1
  obtain ⟨-, f2, h2⟩ := coefReturns_iff.1 h2
  have := drifterLoop_unique h1 h2
  exact ⟨congrArg Prod.fst this, congrArg Prod.snd this⟩

/-- Rows of consecutive parts of an interval concatenate. -/
def Splittable (c : DrifterConfig K ι) : Prop :=
  ∀ (s : DrifterState K ι) (a b : ℕ), a + b ≤ s.available →
    (drifterRows c s (a + b)).1 =
      (drifterRows c s a).1 ++ (drifterRows c { (drifterRows c s a).2 with available := s.available - a } b).1 ∧
    (drifterRows c s (a + b)).2 =
      { (drifterRows c { (drifterRows c s a).2 with available := s.available - a } b).2 with
        available := s.available }

theorem drifterLoop_step_ge {s : DrifterState K ι} {n fuel : ℕ} (h : s.available ≤ n + 1)
    {rest : List (ι → K)} {t : DrifterState K ι}
    (e : drifterLoop c fuel (n + 1 - s.available)
      { drifterUpdate c (drifterRows c s s.available).2 with available := c.interval } = some (rest, t)) :
    drifterLoop c (fuel + 1) (n + 1) s = some ((drifterRows c s s.available).1 ++ rest, t) := by
  unfold drifterLoop
  rw [if_pos h]
  dsimp only
  rw [e]

theorem drifterLoop_split (hc : Splittable c) (hlin : c.transition = .linear) (f1 : ℕ) : ∀ (n m f2 : ℕ)
    {s s1 s2 : DrifterState K ι} {r1 r2 : List (ι → K)},
    drifterLoop c f1 n s = some (r1, s1) → drifterLoop c f2 m s1 = some (r2, s2) →
      ∃ f, drifterLoop c f (n + m) s = some (r1 ++ r2, s2) := by
  have hstate : ∀ (s : DrifterState K ι) r, (drifterRows c s r).2 = s := by
    intro s r
    unfold drifterRows
    simp [hlin]
  induction f1 with
  | zero =>
      intro n m f2 s s1 s2 r1 r2 h1 h2
      cases n with
      | zero =>
          simp only [drifterLoop, Option.some.injEq, Prod.mk.injEq] at h1
          obtain ⟨rfl, rfl⟩ := h1
          exact ⟨f2, by simpa using h2⟩
      | succ n => simp [drifterLoop] at h1
  | succ f1 ih =>
      intro n m f2 s s1 s2 r1 r2 h1 h2
      cases n with
      | zero =>
          simp only [drifterLoop, Option.some.injEq, Prod.mk.injEq] at h1
          obtain ⟨rfl, rfl⟩ := h1
          exact ⟨f2, by simpa using h2⟩
      | succ n =>
          unfold drifterLoop at h1
          by_cases hle : s.available ≤ n + 1
          · rw [if_pos hle] at h1
            dsimp only at h1
            split at h1
            · rename_i rest t heq
              simp only [Option.some.injEq, Prod.mk.injEq] at h1
              obtain ⟨rfl, rfl⟩ := h1
              obtain ⟨f, hf⟩ := ih _ m f2 heq h2
              refine ⟨f + 1, ?_⟩
              rw [show n + 1 + m = (n + m) + 1 by omega, List.append_assoc]
              refine drifterLoop_step_ge (by omega) ?_
              rw [show n + m + 1 - s.available = n + 1 - s.available + m by omega]
              exact hf
            · simp at h1
          · rw [if_neg hle] at h1
            simp only [Option.some.injEq, Prod.mk.injEq] at h1
            obtain ⟨rfl, rfl⟩ := h1
            cases m with
            | zero =>
                have h2' : r2 = [] ∧ s2 = { (drifterRows c s (n + 1)).2 with
                    available := s.available - (n + 1) } := by
                  cases f2 <;> simp only [drifterLoop, Option.some.injEq, Prod.mk.injEq] at h2 <;>
                    exact ⟨h2.1.symm, h2.2.symm⟩
                obtain ⟨rfl, rfl⟩ := h2'
                refine ⟨1, ?_⟩
                unfold drifterLoop
                rw [if_neg hle, List.append_nil]
            | succ m =>
                cases f2 with
                | zero => simp [drifterLoop] at h2
                | succ f2 =>
                    unfold drifterLoop at h2
                    simp only at h2
                    by_cases hle2 : s.available - (n + 1) ≤ m + 1
                    · rw [if_pos hle2] at h2
                      split at h2
                      · rename_i rest t heq
                        simp only [Option.some.injEq, Prod.mk.injEq] at h2
                        obtain ⟨rfl, rfl⟩ := h2
                        obtain ⟨e1, e2⟩ := hc s (n + 1) (s.available - (n + 1)) (by omega)
                        rw [show n + 1 + (s.available - (n + 1)) = s.available by omega] at e1
                        refine ⟨f2 + 1, ?_⟩
                        rw [← List.append_assoc, ← e1]
                        rw [show n + 1 + (m + 1) = (n + m + 1) + 1 by omega]
                        refine drifterLoop_step_ge (by omega) ?_
                        rw [show n + m + 1 + 1 - s.available = m + 1 - (s.available - (n + 1)) by omega]
                        rw [← heq]
                        congr 1
                        simp only [hstate]
                        unfold drifterUpdate
                        split <;> rfl
                      · simp at h2
                    · rw [if_neg hle2] at h2
                      simp only [Option.some.injEq, Prod.mk.injEq] at h2
                      obtain ⟨rfl, rfl⟩ := h2
                      obtain ⟨e1, e2⟩ := hc s (n + 1) (m + 1) (by omega)
                      refine ⟨1, ?_⟩
                      rw [show n + 1 + (m + 1) = (n + m + 1) + 1 by omega]
                      unfold drifterLoop
                      rw [if_neg (by omega)]
                      simp only
                      rw [show n + m + 1 + 1 = n + 1 + (m + 1) by omega, e1]
                      simp only [hstate]
                      congr 3
                      omega

/-- Without a transition period (abrupt drift), asking in pieces gives the same rows as asking at once. Missing:
this fails with a transition period, see `C79_split_differs`. -/
theorem C79_split_partial (hp : c.period = 0) (hlin : c.transition = .linear) {s s1 s2 : DrifterState K ι} {n m : ℕ}
    {r1 r2 : List (ι → K)} (h1 : CoefReturns c s n r1 s1) (h2 : CoefReturns c s1 m r2 s2) :
    CoefReturns c s (n + m) (r1 ++ r2) s2 := by
  obtain ⟨hn, f1, h1⟩ := coefReturns_iff.1 h1
  obtain ⟨hm, f2, h2⟩ := coefReturns_iff.1 h2
  have hw : ∀ (s : DrifterState K ι) (r : ℕ), r ≤ s.available → drifterWeights c s r = List.replicate r 0 := by
    intro s r hr
    unfold drifterWeights
    rw [transitionSteps_eq _ hr, hlin, hp]
    apply List.ext_getElem
    · simp
    · intro i h1 h2
      simp only [List.getElem_map, List.getElem_range, List.getElem_replicate]
      rw [List.length_map, List.length_map, List.length_range] at h1
      have : s.available - r + i + 1 + 0 - s.available = 0 := by omega
      simp [this]
  have hc : Splittable c := by
    intro s a b hab
    have hstate : ∀ (s : DrifterState K ι) r, (drifterRows c s r).2 = s := by
      intro s r
      unfold drifterRows
      simp [hlin]
    refine ⟨?_, ?_⟩
    · simp only [hstate]
      unfold drifterRows
      simp only
      rw [hw s _ hab, hw s a (by omega), hw _ b (by simp only; omega)]
      rw [List.replicate_add, List.map_append]
    · simp only [hstate]
  obtain ⟨f, hf⟩ := drifterLoop_split hc hlin f1 n m f2 h1 h2
  exact coefReturns_iff.2 ⟨by omega, f, hf⟩

/-- Asking in pieces that end where a drift interval ends also gives the same rows. -/
theorem C79_split_at_boundary_partial {s s1 s2 : DrifterState K ι} (k : ℕ) {m : ℕ}
    {r1 r2 : List (ι → K)} (hs : 0 < s.available) (hi : 0 < c.interval)
    (h1 : CoefReturns c s (s.available + k * c.interval) r1 s1) (h2 : CoefReturns c s1 m r2 s2) :
    CoefReturns c s (s.available + k * c.interval + m) (r1 ++ r2) s2 := by
  obtain ⟨hn, f1, h1⟩ := coefReturns_iff.1 h1
  obtain ⟨hm, f2, h2⟩ := coefReturns_iff.1 h2
  have key : ∀ (k f1 : ℕ) {s : DrifterState K ι} {r1 : List (ι → K)}, 0 < s.available →
      drifterLoop c f1 (s.available + k * c.interval) s = some (r1, s1) →
      ∃ f, drifterLoop c f (s.available + k * c.interval + m) s = some (r1 ++ r2, s2) := by
    intro k
    induction k with
    | zero =>
        intro f1 s r1 hs h1
        rw [Nat.zero_mul, Nat.add_zero] at h1 ⊢
        obtain ⟨a, ha⟩ : ∃ a, s.available = a + 1 := ⟨s.available - 1, by omega⟩
        cases f1 with
        | zero => rw [ha] at h1; simp [drifterLoop] at h1
        | succ f1 =>
            rw [ha] at h1
            unfold drifterLoop at h1
            rw [if_pos (by omega)] at h1
            dsimp only at h1
            rw [show a + 1 - s.available = 0 by omega] at h1
            have h0 : ∀ t : DrifterState K ι, drifterLoop c f1 0 t = some ([], t) := by
              intro t; cases f1 <;> rfl
            rw [h0] at h1
            simp only [List.append_nil, Option.some.injEq, Prod.mk.injEq] at h1
            obtain ⟨rfl, rfl⟩ := h1
            refine ⟨f2 + 1, ?_⟩
            rw [show s.available + m = (a + m) + 1 by omega]
            refine drifterLoop_step_ge (by omega) ?_
            rw [show a + m + 1 - s.available = m by omega]
            exact h2
    | succ k ih =>
        intro f1 s r1 hs h1
        have hmul : (k + 1) * c.interval = c.interval + k * c.interval := by ring
        rw [hmul] at h1 ⊢
        cases f1 with
        | zero =>
            rw [show s.available + (c.interval + k * c.interval) =
              (s.available + (c.interval + k * c.interval) - 1) + 1 by omega] at h1
            simp [drifterLoop] at h1
        | succ f1 =>
            rw [show s.available + (c.interval + k * c.interval) =
              (s.available + (c.interval + k * c.interval) - 1) + 1 by omega] at h1
            unfold drifterLoop at h1
            rw [if_pos (by omega)] at h1
            dsimp only at h1
            rw [show s.available + (c.interval + k * c.interval) - 1 + 1 - s.available =
              c.interval + k * c.interval by omega] at h1
            split at h1
            · rename_i rest t heq
              simp only [Option.some.injEq, Prod.mk.injEq] at h1
              obtain ⟨rfl, rfl⟩ := h1
              obtain ⟨f, hf⟩ := ih f1
                (s := { drifterUpdate c (drifterRows c s s.available).2 with available := c.interval }) hi heq
              refine ⟨f + 1, ?_⟩
              rw [show s.available + (c.interval + k * c.interval) + m =
                (s.available + (c.interval + k * c.interval) + m - 1) + 1 by omega, List.append_assoc]
              refine drifterLoop_step_ge (by omega) ?_
              rw [show s.available + (c.interval + k * c.interval) + m - 1 + 1 - s.available =
                c.interval + k * c.interval + m by omega]
              exact hf
            · simp at h1
  obtain ⟨f, hf⟩ := key k f1 hs h1
  exact coefReturns_iff.2 ⟨by omega, f, hf⟩

/-- Within a full interval the weights follow the documented schedule: the `period` last rounds move linearly from
the current to the next coefficients. -/
theorem C79_schedule (hlin : c.transition = .linear) (hi : 0 < c.interval) {s s' : DrifterState K ι}
    (hs : s.available = c.interval) {rows : List (ι → K)} (r : CoefReturns c s c.interval rows s') :
    rows = (List.range c.interval).map fun o => fun x =>
      c.baseWeight * s.base x + (1 - c.baseWeight) *
        ((1 - ((o + 1 + c.period - c.interval : ℕ) : K) / (c.period + 1)) * s.current x +
          ((o + 1 + c.period - c.interval : ℕ) : K) / (c.period + 1) * s.next x) := by
  obtain ⟨-, f, h⟩ := coefReturns_iff.1 r
  obtain ⟨a, ha⟩ : ∃ a, c.interval = a + 1 := ⟨c.interval - 1, by omega⟩
  cases f with
  | zero => rw [ha] at h; simp [drifterLoop] at h
  | succ f =>
      have hg : drifterLoop c (f + 1) c.interval s = some ((drifterRows c s s.available).1 ++ [],
          { drifterUpdate c (drifterRows c s s.available).2 with available := c.interval }) := by
        have e := drifterLoop_step_ge (c := c) (s := s) (n := a) (fuel := f) (by omega) (rest := [])
          (t := { drifterUpdate c (drifterRows c s s.available).2 with available := c.interval })
          (by rw [show a + 1 - s.available = 0 by omega]; cases f <;> rfl)
        rw [← ha] at e
        exact e
      rw [hg] at h
      simp only [List.append_nil, Option.some.injEq, Prod.mk.injEq] at h
      rw [← h.1]
      unfold drifterRows drifterWeights
      rw [hs, transitionSteps_full, hlin]
      simp only [List.map_map]
      refine List.map_congr_left fun o _ => ?_
      funext x
      simp only [Function.comp, weightedCoef]
      ring

/-- The drifter of the counterexample: an interval of four rounds whose last two are a transition. -/
def demoDrifter : DrifterConfig ℚ Unit where
  interval := 4
  period := 2
  transition := .linear
  seasonal := false
  baseWeight := 0
  sample := fun k _ => k
  flip := fun _ _ _ => 0

/-- With a transition period, asking for two rounds twice gives the transition twice, while asking for four rounds
gives two constant rounds and then the transition. -/
theorem C79_split_differs :
    ∃ (s1 s2 s3 : DrifterState ℚ Unit) (r1 r2 r3 : List (Unit → ℚ)),
      CoefReturns demoDrifter (drifterInit demoDrifter) 2 r1 s1 ∧ CoefReturns demoDrifter s1 2 r2 s2 ∧
      CoefReturns demoDrifter (drifterInit demoDrifter) 4 r3 s3 ∧
      (r1 ++ r2).map (fun f => f ()) = [1 / 3, 2 / 3, 1 / 3, 2 / 3] ∧
      r3.map (fun f => f ()) = [0, 0, 1 / 3, 2 / 3] := by
  refine ⟨_, _, _, _, _, _, ⟨4, rfl⟩, ⟨4, rfl⟩, ⟨4, rfl⟩, by decide +kernel, by decide +kernel⟩

/-- The hypotheses of the theorems above hold for it. -/
example : demoDrifter.FlipsValid ∧ 0 < demoDrifter.interval ∧ DrifterReach demoDrifter (drifterInit demoDrifter) ∧
    (0 ≤ demoDrifter.baseWeight ∧ demoDrifter.baseWeight ≤ 1) :=
  ⟨fun _ _ _ => .inl rfl, by decide, .init, by decide +kernel, by decide +kernel⟩

/-- A drifter without a transition period, for `C79_split_partial`. -/
example : ∃ s1 s2 r1 r2, CoefReturns { demoDrifter with period := 0 } (drifterInit demoDrifter) 3 r1 s1 ∧
    CoefReturns { demoDrifter with period := 0 } s1 2 r2 s2 ∧
    (r1 ++ r2).map (fun f => f ()) = [0, 0, 0, 0, 1] := by
  refine ⟨_, _, _, _, ⟨4, rfl⟩, ⟨4, rfl⟩, by decide +kernel⟩

end

/-! ### delays -/

section
variable {K : Type} [Field K] [LinearOrder K] [IsStrictOrderedRing K] [FloorRing K]

/-- Delays drawn per round: one row per round and one column per action, the same non-negative integer for all
actions of a round. -/
theorem C94_delays_per_round (nActions : ℕ) (draws : List K) (h : ∀ x ∈ draws, 0 ≤ x) :
    (delayPerRound nActions draws).length = draws.length ∧
      ∀ row ∈ delayPerRound nActions draws, ∃ d : ℕ, row = List.replicate nActions (d : K) := by
  refine ⟨by simp [delayPerRound], fun row hrow => ?_⟩
  simp only [delayPerRound, List.mem_map] at hrow
  obtain ⟨x, hx, rfl⟩ := hrow
  have h0 : 0 ≤ ⌈x⌉ := Int.ceil_nonneg (h x hx)
  obtain ⟨d, hd⟩ := Int.eq_ofNat_of_zero_le h0
  exact ⟨d, by rw [hd]; simp⟩

/-- Delays weighted by expected reward: with scales that numpy accepts and non-negative standard draws, the result
has the shape of `expected_rewards` and non-negative integer entries, each the rounded-up draw scaled by
`min_scale + (1 - reward) (max_scale - min_scale)`. -/
theorem C94_delays_weighted (minScale maxScale : K) (n A : ℕ) (expected draws : Fin n → Fin A → K)
    (hd : ∀ i a, 0 ≤ draws i a) {out : List (List K)}
    (h : delayWeighted minScale maxScale (List.ofFn fun i => List.ofFn (expected i))
      (List.ofFn fun i => List.ofFn (draws i)) = .ok out) :
    ∃ d : Fin n → Fin A → ℕ, out = List.ofFn (fun i => List.ofFn fun a => (d i a : K)) ∧
      ∀ i a, (d i a : ℤ) = ⌈(minScale + (1 - expected i a) * (maxScale - minScale)) * draws i a⌉ := by
  unfold delayWeighted at h
  obtain ⟨⟨⟩, hr, h⟩ := py_bind_eq_ok.1 h
  simp only [py_pure, Except.ok.injEq] at h
  have hscale : delayScale minScale maxScale (List.ofFn fun i => List.ofFn (expected i)) =
      List.ofFn fun i => List.ofFn fun a => minScale + (1 - expected i a) * (maxScale - minScale) := by
    unfold delayScale
    rw [List.map_ofFn]
    congr 1
    funext i
    simp only [Function.comp, List.map_ofFn]
    rfl
  rw [hscale] at hr h
  have hpos : ∀ i a, 0 ≤ minScale + (1 - expected i a) * (maxScale - minScale) := by
    intro i a
    by_contra hneg
    have : (List.ofFn fun i => List.ofFn fun a => minScale + (1 - expected i a) * (maxScale - minScale)).any
        (fun row => row.any fun x => decide (x < 0)) = true := by
      rw [List.any_eq_true]
      refine ⟨_, List.mem_ofFn.2 ⟨i, rfl⟩, ?_⟩
      rw [List.any_eq_true]
      exact ⟨_, List.mem_ofFn.2 ⟨a, rfl⟩, by simpa using hneg⟩
    rw [raiseIf_pos this] at hr
    simp at hr
  have hnn : ∀ i a, ∃ k : ℕ, (k : ℤ) =
      ⌈(minScale + (1 - expected i a) * (maxScale - minScale)) * draws i a⌉ := fun i a => by
    obtain ⟨k, hk⟩ := Int.eq_ofNat_of_zero_le (Int.ceil_nonneg (mul_nonneg (hpos i a) (hd i a)))
    exact ⟨k, hk.symm⟩
  choose d hdd using hnn
  refine ⟨d, ?_, hdd⟩
  rw [← h]
  apply List.ext_getElem
  · simp
  · intro i h1 h2
    simp only [List.getElem_zipWith, List.getElem_ofFn]
    apply List.ext_getElem
    · simp
    · intro j h3 h4
      simp only [List.getElem_zipWith, List.getElem_ofFn]
      rw [← hdd]
      simp

/-- Rewards in `[0, 1]` and ordered non-negative scales are accepted; the scale then lies between the two. -/
theorem C94_scale_between (minScale maxScale e : K) (h0 : 0 ≤ e) (h1 : e ≤ 1) (hs : minScale ≤ maxScale) :
    minScale ≤ minScale + (1 - e) * (maxScale - minScale) ∧
      minScale + (1 - e) * (maxScale - minScale) ≤ maxScale := by
  constructor <;> nlinarith

/-- Larger expected rewards never give longer scales. -/
theorem C94_scale_antitone (minScale maxScale e e' : K) (h : e ≤ e') (hs : minScale ≤ maxScale) :
    minScale + (1 - e') * (maxScale - minScale) ≤ minScale + (1 - e) * (maxScale - minScale) := by
  nlinarith

example : delayPerRound 2 [(3 / 2 : ℚ), 0, 7] = [[2, 2], [0, 0], [7, 7]] := by decide +kernel

example : delayWeighted (10 : ℚ) 100 [[1, 0], [1 / 2, 1]] [[1 / 3, 2], [0, 1]] = .ok [[4, 200], [0, 10]] := by
  decide +kernel

end

end Obp
