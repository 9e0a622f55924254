import Verif.Props.Synthetic
import Mathlib.Data.Rat.Floor

set_option linter.unusedSectionVars false

/-! # `SyntheticMultiLoggersBanditDataset`: strata and average policy -/

namespace Obp

section sizes
variable {K : Type} [Field K] [LinearOrder K] [IsStrictOrderedRing K] [FloorRing K]

theorem roundHalfEven_close (x : K) : |(roundHalfEven x : K) - x| ≤ 1 / 2 := by
  unfold roundHalfEven
  have h0 := Int.fract_nonneg x
  have h1 := Int.fract_lt_one x
  have hx : x = ⌊x⌋ + Int.fract x := (Int.floor_add_fract x).symm
  rw [abs_le]
  split
  · constructor <;> linarith
  · split
    · push_cast
      constructor <;> linarith
    · split
      · constructor <;> linarith
      · push_cast
        constructor <;> linarith

theorem roundHalfEven_int (z : ℤ) : roundHalfEven (z : K) = z := by
  unfold roundHalfEven
  simp

theorem le_roundHalfEven {x : K} {z : ℤ} (h : (z : K) ≤ x) : z ≤ roundHalfEven x := by
  have := (abs_le.1 (roundHalfEven_close x)).1
  have h2 : (z : K) < (roundHalfEven x + 1 : ℤ) := by push_cast; linarith
  have := Int.cast_lt.1 h2
  omega

theorem roundHalfEven_le {x : K} {z : ℤ} (h : x ≤ (z : K)) : roundHalfEven x ≤ z := by
  have := (abs_le.1 (roundHalfEven_close x)).2
  have h2 : ((roundHalfEven x : ℤ) : K) < (z + 1 : ℤ) := by push_cast; linarith
  have := Int.cast_lt.1 h2
  omega

theorem strataSizes_ofFn (n : ℕ) {m : ℕ} (rho : Fin (m + 1) → K) :
    strataSizes n (List.ofFn rho) = .ok (List.ofFn fun k : Fin (m + 1) =>
      if k = Fin.last m then (n : ℤ) - ∑ j : Fin m, roundHalfEven ((n : K) * rho j.castSucc)
      else roundHalfEven ((n : K) * rho k)) := by
  unfold strataSizes
  simp only [List.map_ofFn, Function.comp_def]
  have hsplit : (List.ofFn fun k : Fin (m + 1) => roundHalfEven ((n : K) * rho k)) =
      (List.ofFn fun j : Fin m => roundHalfEven ((n : K) * rho j.castSucc)) ++
        [roundHalfEven ((n : K) * rho (Fin.last m))] := by
    rw [List.ofFn_succ', List.concat_eq_append]
  rw [hsplit]
  simp only [List.getLast?_append, List.getLast?_singleton, Option.some_or, List.dropLast_concat, List.sum_append,
    List.sum_ofFn, List.sum_singleton]
  rw [List.ofFn_succ', List.concat_eq_append]
  congr 3
  · funext j
    rw [if_neg (Fin.castSucc_lt_last j).ne]
  · rw [if_pos rfl]
    ring

/-- **C83.** For all proportions, one size per logger; the sizes add up to the number of rounds. Every size but the last
is the proportion of the rounds rounded to nearest, and for proportions that add up to one the last is off by at most
half a round per other logger. -/
theorem C83_sizes (n : ℕ) {m : ℕ} (rho : Fin (m + 1) → K) (hsum : ∑ k, rho k = 1) :
    ∃ s : Fin (m + 1) → ℤ, strataSizes n (List.ofFn rho) = .ok (List.ofFn s) ∧ (∑ k, s k) = n ∧
      (∀ j : Fin m, |(s j.castSucc : K) - n * rho j.castSucc| ≤ 1 / 2) ∧
      |(s (Fin.last m) : K) - n * rho (Fin.last m)| ≤ m / 2 := by
  refine ⟨_, strataSizes_ofFn n rho, ?_, fun j => ?_, ?_⟩
  · rw [Fin.sum_univ_castSucc, if_pos rfl]
    have : ∀ j : Fin m, (if j.castSucc = Fin.last m then (n : ℤ) - ∑ j : Fin m, roundHalfEven ((n : K) * rho j.castSucc)
      else roundHalfEven ((n : K) * rho j.castSucc)) = roundHalfEven ((n : K) * rho j.castSucc) := fun j => by
      rw [if_neg (Fin.castSucc_lt_last j).ne]
    simp only [this]
    ring
  · rw [if_neg (Fin.castSucc_lt_last j).ne]
    exact roundHalfEven_close _
  · rw [if_pos rfl]
    rw [Fin.sum_univ_castSucc] at hsum
    have hlast : rho (Fin.last m) = 1 - ∑ j : Fin m, rho j.castSucc := by linarith
    have he : (((n : ℤ) - ∑ j : Fin m, roundHalfEven ((n : K) * rho j.castSucc) : ℤ) : K) - n * rho (Fin.last m) =
        -∑ j : Fin m, ((roundHalfEven ((n : K) * rho j.castSucc) : K) - n * rho j.castSucc) := by
      rw [hlast, Finset.sum_sub_distrib, ← Finset.mul_sum]
      push_cast
      ring
    rw [he, abs_neg]
    calc _ ≤ ∑ j : Fin m, |(roundHalfEven ((n : K) * rho j.castSucc) : K) - n * rho j.castSucc| :=
          Finset.abs_sum_le_sum_abs _ _
      _ ≤ ∑ _j : Fin m, (1 / 2 : K) := Finset.sum_le_sum fun j _ => roundHalfEven_close _
      _ = m / 2 := by simp; ring

/-- **C83.** When every proportion of the rounds is a whole number the sizes are exactly proportional. -/
theorem C83_exact_sizes_partial (n : ℕ) {m : ℕ} (rho : Fin (m + 1) → K) (hsum : ∑ k, rho k = 1) (s : Fin (m + 1) → ℕ)
    (hs : ∀ k, (n : K) * rho k = s k) : strataSizes n (List.ofFn rho) = .ok (List.ofFn fun k => (s k : ℤ)) := by
  rw [strataSizes_ofFn]
  have hr : ∀ k, roundHalfEven ((n : K) * rho k) = s k := fun k => by
    rw [hs k]
    exact_mod_cast roundHalfEven_int (K := K) (s k : ℤ)
  have ht : (∑ k, (s k : ℤ)) = n := by
    have : ((∑ k, (s k : ℤ) : ℤ) : K) = ((n : ℤ) : K) := by
      push_cast
      rw [← Finset.sum_congr rfl fun k _ => hs k, ← Finset.mul_sum, hsum, mul_one]
    exact_mod_cast this
  congr 2
  funext k
  simp only [hr]
  split
  · next h =>
    subst h
    rw [Fin.sum_univ_castSucc] at ht
    omega
  · rfl

theorem stratumIdx_spec {m : ℕ} (s : Fin m → ℤ) (hs : ∀ k, 0 ≤ s k) :
    ∃ strat : List ℕ, stratumIdx (List.ofFn s) = .ok strat ∧ (strat.length : ℤ) = ∑ k, s k ∧
      (∀ k : Fin m, (strat.count (k : ℕ) : ℤ) = s k) ∧ (∀ x ∈ strat, x < m) ∧ strat.Pairwise (· ≤ ·) := by
  refine ⟨((List.ofFn s).mapIdx fun k s => List.replicate s.toNat k).flatten, ?_, ?_, fun k => ?_, ?_, ?_⟩
  · unfold stratumIdx
    rw [raiseIf_neg, py_bind_ok, py_pure]
    rw [List.any_eq_false]
    intro x hx
    obtain ⟨k, rfl⟩ := List.mem_ofFn.1 hx
    simpa using hs k
  · rw [mapIdx_ofFn_fin, List.length_flatten, List.map_ofFn, List.sum_ofFn]
    push_cast
    refine Finset.sum_congr rfl fun k _ => ?_
    simp [hs k]
  · rw [mapIdx_ofFn_fin, List.count_flatten, List.map_ofFn, List.sum_ofFn]
    push_cast
    have : ∀ j : Fin m, ((List.count (k : ℕ) ∘ fun i : Fin m => List.replicate (s i).toNat (i : ℕ)) j) =
        if j = k then (s k).toNat else 0 := fun j => by
      simp only [Function.comp, List.count_replicate]
      by_cases hj : j = k
      · subst hj; simp
      · have : (j : ℕ) ≠ k := fun h => hj (Fin.ext h)
        simp [hj, this]
    simp only [this]
    simp [hs k]
  · intro x hx
    rw [mapIdx_ofFn_fin, List.mem_flatten] at hx
    obtain ⟨l, hl, hx⟩ := hx
    obtain ⟨k, rfl⟩ := List.mem_ofFn.1 hl
    rw [(List.mem_replicate.1 hx).2]
    exact k.isLt
  · rw [mapIdx_ofFn_fin, List.pairwise_flatten]
    constructor
    · intro l hl
      obtain ⟨k, rfl⟩ := List.mem_ofFn.1 hl
      exact List.pairwise_replicate.2 (.inr le_rfl)
    · rw [List.pairwise_ofFn]
      intro i j hij x hx y hy
      rw [(List.mem_replicate.1 hx).2, (List.mem_replicate.1 hy).2]
      exact hij.le

/-- **C83.** If the last logger is due at least half a round per other logger (or there are at most two loggers), the
rounds are partitioned: every round gets a logger, logger `k` gets `s k` consecutive rounds, in the order of the
loggers. Missing from the full claim: the sizes are not negative for all proportions, see the failure below. -/
theorem C83_partition_partial (n : ℕ) {m : ℕ} (rho : Fin (m + 1) → K) (hsum : ∑ k, rho k = 1) (h0 : ∀ k, 0 ≤ rho k)
    (hlast : (m : K) / 2 ≤ n * rho (Fin.last m) ∨ m ≤ 1) :
    ∃ (s : Fin (m + 1) → ℤ) (strat : List ℕ), strataSizes n (List.ofFn rho) = .ok (List.ofFn s) ∧ (∀ k, 0 ≤ s k) ∧
      stratumIdx (List.ofFn s) = .ok strat ∧ strat.length = n ∧ (∀ k : Fin (m + 1), (strat.count (k : ℕ) : ℤ) = s k) ∧
      (∀ x ∈ strat, x < m + 1) ∧ strat.Pairwise (· ≤ ·) := by
  obtain ⟨s, hs, htot, hclose, hl⟩ := C83_sizes n rho hsum
  have hpos : ∀ k, 0 ≤ s k := by
    intro k
    refine Fin.lastCases ?_ (fun j => ?_) k
    · rcases hlast with h | h
      · have := (abs_le.1 hl).1
        have h2 : ((0 : ℤ) : K) ≤ (s (Fin.last m) : K) := by push_cast; linarith
        exact Int.cast_le.1 h2
      · have he := strataSizes_ofFn n rho
        rw [hs] at he
        have he' := List.ofFn_injective (Except.ok.inj he)
        rw [he']
        dsimp only
        rw [if_pos rfl]
        rcases Nat.le_one_iff_eq_zero_or_eq_one.1 h with rfl | rfl
        · simp
        · have hle : rho (Fin.castSucc (0 : Fin 1)) ≤ 1 := by
            rw [Fin.sum_univ_castSucc] at hsum
            have := h0 (Fin.last 1)
            rw [Fin.sum_univ_one] at hsum
            linarith
          have : roundHalfEven ((n : K) * rho (Fin.castSucc (0 : Fin 1))) ≤ (n : ℤ) := by
            apply roundHalfEven_le
            push_cast
            exact mul_le_of_le_one_right (Nat.cast_nonneg n) hle
          simpa using this
    · have he := strataSizes_ofFn n rho
      rw [hs] at he
      have he' := List.ofFn_injective (Except.ok.inj he)
      rw [he']
      dsimp only
      rw [if_neg (Fin.castSucc_lt_last j).ne]
      exact le_roundHalfEven (by push_cast; exact mul_nonneg (Nat.cast_nonneg n) (h0 _))
  obtain ⟨strat, h1, h2, h3, h4, h5⟩ := stratumIdx_spec s hpos
  exact ⟨s, strat, hs, hpos, h1, by rw [htot] at h2; exact_mod_cast h2, h3, h4, h5⟩

/-- **C83, failure.** Three rounds for three loggers of proportions one half, one half and zero: the sizes are 2, 2 and
-1 and the call raises ValueError. -/
theorem C83_negative_size : strataSizes 3 [(1 / 2 : ℚ), 1 / 2, 0] = .ok [2, 2, -1] ∧
    stratumIdx [2, 2, -1] = .error .valueError := by
  constructor <;> decide +kernel

/-- **C83, failure.** The same with every logger due some rounds. -/
theorem C83_negative_size_positive_rhos :
    strataSizes 5 [(3 / 10 : ℚ), 3 / 10, 3 / 10, 1 / 10] = .ok [2, 2, 2, -1] := by
  decide +kernel

/-- Seven rounds for three loggers. -/
example : strataSizes 7 [(1 / 4 : ℚ), 1 / 4, 1 / 2] = .ok [2, 2, 3] ∧
    stratumIdx [2, 2, 3] = .ok [0, 0, 1, 1, 2, 2, 2] ∧ ((2 : ℕ) : ℚ) / 2 ≤ (7 : ℕ) * (1 / 2) := by
  refine ⟨by decide +kernel, by decide +kernel, by norm_num⟩

/-- **C83.** The proportions given by the user are rescaled to add up to one. -/
theorem C83_normalized {m : ℕ} (r : Fin m → K) (hr : ∑ k, r k ≠ 0) :
    ∃ rho : Fin m → K, normalizeRhos (List.ofFn r) = .ok (List.ofFn rho) ∧ (∑ k, rho k) = 1 ∧
      ∀ k, rho k = r k / ∑ j, r j := by
  refine ⟨fun k => r k / ∑ j, r j, ?_, ?_, fun k => rfl⟩
  · unfold normalizeRhos
    rw [List.sum_ofFn]
    exact mapM_ofFn_ok fun i => npDiv_ok hr
  · rw [← Finset.sum_div, div_self hr]

end sizes

/-! ### policies -/

theorem averagePolicyRow_spec {m A : ℕ} (hA : 0 < A) (betas rhos : Fin m → ℝ) (l : Fin A → ℝ) :
    averagePolicyRow (List.ofFn betas) (List.ofFn rhos) (List.ofFn l) = .ok (List.ofFn fun a =>
      ∑ k, rhos k * (Real.exp (betas k * l a) / ∑ b, Real.exp (betas k * l b))) := by
  have key : ∀ (m : ℕ) (betas rhos : Fin m → ℝ) (acc : Fin A → ℝ),
      (List.zip (List.ofFn betas) (List.ofFn rhos)).foldlM (fun acc p => do
        let row ← softmaxWith Real.exp ((List.ofFn l).map (p.1 * ·))
        pure (List.zipWith (fun a x => a + p.2 * x) acc row)) (List.ofFn acc) =
      (.ok (List.ofFn fun a => acc a +
        ∑ k, rhos k * (Real.exp (betas k * l a) / ∑ b, Real.exp (betas k * l b))) : Py (List ℝ)) := by
    intro m
    induction m with
    | zero => intro betas rhos acc; simp
    | succ m ih =>
        intro betas rhos acc
        rw [List.ofFn_succ, List.ofFn_succ, List.zip_cons_cons, List.foldlM_cons]
        dsimp only
        rw [List.map_ofFn]
        simp only [Function.comp_def]
        rw [softmax_row hA, py_bind_ok, py_pure, py_bind_ok]
        have hz : List.zipWith (fun a x => a + rhos 0 * x) (List.ofFn acc)
            (List.ofFn fun a => Real.exp (betas 0 * l a) / ∑ b, Real.exp (betas 0 * l b)) =
            List.ofFn fun a => acc a + rhos 0 * (Real.exp (betas 0 * l a) / ∑ b, Real.exp (betas 0 * l b)) := by
          apply List.ext_getElem <;> simp
        rw [hz, ih]
        congr 2
        funext a
        rw [Fin.sum_univ_succ]
        ring
  unfold averagePolicyRow
  have h0 : List.replicate (List.ofFn l).length (0 : ℝ) = List.ofFn fun _ : Fin A => 0 := by
    apply List.ext_getElem <;> simp
  rw [h0, key]
  simp

/-- A mixture of distributions is a distribution. -/
theorem mixture_isDist {m A : ℕ} {rho : Fin m → ℝ} (hr : IsDist rho) {p : Fin m → Fin A → ℝ} (hp : ∀ k, IsDist (p k)) :
    IsDist fun a => ∑ k, rho k * p k a := by
  refine ⟨fun a => Finset.sum_nonneg fun k _ => mul_nonneg (hr.nonneg k) ((hp k).nonneg a), ?_⟩
  rw [Finset.sum_comm]
  simp only [← Finset.mul_sum, (hp _).sum_one, mul_one]
  exact hr.sum_one

/-- The probability that a softmax at temperature `b` gives to action `a`. -/
noncomputable def softProb {A : ℕ} (b : ℝ) (l : Fin A → ℝ) (a : Fin A) : ℝ := Real.exp (b * l a) / ∑ c, Real.exp (b * l c)

theorem multiLoggerFeedback_spec {n A m : ℕ} (hA : 0 < A) (beta : ℝ) (betas rhos : Fin (m + 1) → ℝ) (hr : IsDist rhos)
    (s : Fin (m + 1) → ℤ) (hs : strataSizes n (List.ofFn rhos) = .ok (List.ofFn s)) (hs0 : ∀ k, 0 ≤ s k)
    (orders : Fin n → List ℕ) :
    ∃ strat : Fin n → Fin (m + 1), (∀ k, ((Finset.univ.filter fun i => strat i = k).card : ℤ) = s k) ∧
      ∀ q : Fin n → Fin A → ℝ, (∀ i, IsDist (softProb (betas (strat i)) (q i))) ∧
      (∀ i a, 0 < ∑ k, rhos k * softProb (betas k) (q i) a) ∧
      ∀ u : Fin n → ℝ, (∀ i, 0 ≤ u i ∧ u i < 1) → ∃ act : Fin n → Fin A,
        multiLoggerFeedback beta (List.ofFn betas) (List.ofFn rhos) 0 (List.ofFn fun i => List.ofFn (q i))
          (List.ofFn orders) (List.ofFn u) =
          .ok ⟨List.ofFn fun i => (act i : ℕ), List.ofFn fun i => (strat i : ℕ),
            List.ofFn fun i => List.ofFn (softProb (betas (strat i)) (q i)),
            List.ofFn fun i => List.ofFn fun a => ∑ k, rhos k * softProb (betas k) (q i) a,
            List.ofFn fun i => softProb (betas (strat i)) (q i) (act i),
            List.ofFn fun i => ∑ k, rhos k * softProb (betas k) (q i) (act i)⟩ ∧
        (∀ i, 0 < softProb (betas (strat i)) (q i) (act i)) ∧
        ∀ i, (∑ b with b < act i, softProb (betas (strat i)) (q i) b) ≤ u i ∧
          u i < (∑ b with b < act i, softProb (betas (strat i)) (q i) b) + softProb (betas (strat i)) (q i) (act i) := by
  obtain ⟨strat, hst, hlen, hcount, hlt, -⟩ := stratumIdx_spec s hs0
  have hsum : (∑ k, s k) = n := by
    obtain ⟨s', h1, h2, -⟩ := C83_sizes n rhos hr.sum_one
    rw [hs] at h1
    rw [List.ofFn_injective (Except.ok.inj h1), h2]
  have hlen' : strat.length = n := by rw [hsum] at hlen; exact_mod_cast hlen
  obtain ⟨S, hS'⟩ : ∃ S : Fin n → Fin (m + 1), strat = List.ofFn fun i => (S i : ℕ) := by
    refine ⟨fun i => ⟨strat[(i : ℕ)]'(by omega), hlt _ (List.getElem_mem _)⟩, ?_⟩
    apply List.ext_getElem <;> simp [hlen']
  clear hlt hlen hlen'
  subst hS'
  refine ⟨S, fun k => ?_, fun q => ?_⟩
  · rw [← hcount k]
    congr 1
    rw [List.count_eq_countP, List.countP_eq_length_filter]
    have hf : (List.ofFn fun i => (S i : ℕ)) = (List.finRange n).map fun i => (S i : ℕ) := by
      rw [List.ofFn_eq_map]
    rw [hf, List.filter_map, List.length_map]
    have hnd : ((List.finRange n).filter ((fun x => x == (k : ℕ)) ∘ fun i => (S i : ℕ))).Nodup :=
      (List.nodup_finRange _).filter _
    rw [← List.toFinset_card_of_nodup hnd]
    congr 1
    ext i
    simp [Fin.ext_iff]
  · have hdist : ∀ i, IsDist fun a => Real.exp (betas (S i) * q i a) / ∑ b, Real.exp (betas (S i) * q i b) :=
      fun i => softmax_isDist hA _
    have havgpos : ∀ i a, 0 < ∑ k, rhos k * (Real.exp (betas k * q i a) / ∑ b, Real.exp (betas k * q i b)) := by
      intro i a
      obtain ⟨k, hk⟩ : ∃ k, 0 < rhos k := by
        by_contra h
        push Not at h
        have := hr.sum_one
        rw [Finset.sum_eq_zero fun k _ => le_antisymm (h k) (hr.nonneg k)] at this
        exact zero_ne_one this
      refine Finset.sum_pos' (fun j _ => mul_nonneg (hr.nonneg j) ((softmax_isDist hA fun a => betas j * q i a).nonneg a))
        ⟨k, Finset.mem_univ k, mul_pos hk (div_pos (Real.exp_pos _)
          (Finset.sum_pos (fun b _ => Real.exp_pos _) ⟨a, Finset.mem_univ a⟩))⟩
    refine ⟨hdist, havgpos, fun u hu => ?_⟩
    obtain ⟨act, hact, hprop⟩ := C01_sample_action_fast hdist hu
    refine ⟨act, ?_, fun i => (hprop i).1, fun i => (hprop i).2⟩
    unfold multiLoggerFeedback
    rw [List.length_ofFn, hs, py_bind_ok, hst, py_bind_ok]
    rw [zip_ofFn, zip_ofFn]
    rw [mapM_ofFn_ok (y := fun i => List.ofFn fun a =>
      Real.exp (betas (S i) * q i a) / ∑ b, Real.exp (betas (S i) * q i b)), py_bind_ok, hact, py_bind_ok]
    · rw [mapM_ofFn_ok (y := fun i => List.ofFn fun a =>
        ∑ k, rhos k * (Real.exp (betas k * q i a) / ∑ b, Real.exp (betas k * q i b)))
        (fun i => averagePolicyRow_spec hA betas rhos (q i)), py_bind_ok,
        gather_ofFn (fun i a => Real.exp (betas (S i) * q i a) / ∑ b, Real.exp (betas (S i) * q i b)) act, py_bind_ok,
        gather_ofFn (fun i a => ∑ k, rhos k * (Real.exp (betas k * q i a) / ∑ b, Real.exp (betas k * q i b))) act,
        py_bind_ok, py_pure]
      rfl
    · intro i
      unfold multiLoggerRow
      rw [if_neg (lt_irrefl 0)]
      have : (List.ofFn betas)[((S i : Fin (m + 1)) : ℕ)]? = some (betas (S i)) := by
        rw [List.getElem?_ofFn, dif_pos (S i).isLt]
      dsimp only
      rw [this]
      dsimp only
      rw [List.map_ofFn]
      exact softmax_row hA _

/-- **C105.** For all logits, temperatures and proportions with non-negative stratum sizes, and all draws: without
deficient actions the rows of `pi_b` are the softmax at the temperature of the logger of the round, `pi_b_avg` is the
mixture of the softmaxes of all loggers in the given proportions, both are distributions, and the propensities are the
positive probabilities of the logged action under the two. -/
theorem C105_feedback {n A m : ℕ} (hA : 0 < A) (beta : ℝ) (betas rhos : Fin (m + 1) → ℝ) (hr : IsDist rhos)
    (s : Fin (m + 1) → ℤ) (hs : strataSizes n (List.ofFn rhos) = .ok (List.ofFn s)) (hs0 : ∀ k, 0 ≤ s k)
    (q : Fin n → Fin A → ℝ) (orders : Fin n → List ℕ) (u : Fin n → ℝ) (hu : ∀ i, 0 ≤ u i ∧ u i < 1) :
    ∃ (fb : MultiLoggerFeedback) (strat : Fin n → Fin (m + 1)) (pi avg : Fin n → Fin A → ℝ) (act : Fin n → Fin A),
      multiLoggerFeedback beta (List.ofFn betas) (List.ofFn rhos) 0 (List.ofFn fun i => List.ofFn (q i))
        (List.ofFn orders) (List.ofFn u) = .ok fb ∧
      fb.stratum = List.ofFn (fun i => (strat i : ℕ)) ∧ fb.action = List.ofFn (fun i => (act i : ℕ)) ∧
      fb.piB = List.ofFn (fun i => List.ofFn (pi i)) ∧ fb.piBAvg = List.ofFn (fun i => List.ofFn (avg i)) ∧
      fb.pscore = List.ofFn (fun i => pi i (act i)) ∧ fb.pscoreAvg = List.ofFn (fun i => avg i (act i)) ∧
      (∀ k, ((Finset.univ.filter fun i => strat i = k).card : ℤ) = s k) ∧
      (∀ i a, pi i a = Real.exp (betas (strat i) * q i a) / ∑ b, Real.exp (betas (strat i) * q i b)) ∧
      (∀ i a, avg i a = ∑ k, rhos k * (Real.exp (betas k * q i a) / ∑ b, Real.exp (betas k * q i b))) ∧
      (∀ i, IsDist (pi i)) ∧ (∀ i, IsDist (avg i)) ∧ (∀ i, 0 < pi i (act i)) ∧ (∀ i, 0 < avg i (act i)) ∧
      ∀ i, (∑ b with b < act i, pi i b) ≤ u i ∧ u i < (∑ b with b < act i, pi i b) + pi i (act i) := by
  obtain ⟨strat, hc, h⟩ := multiLoggerFeedback_spec hA beta betas rhos hr s hs hs0 orders
  obtain ⟨hd, hav, h⟩ := h q
  obtain ⟨act, hok, hpos, hprop⟩ := h u hu
  exact ⟨_, strat, _, _, act, hok, rfl, rfl, rfl, rfl, rfl, rfl, hc, fun i a => rfl, fun i a => rfl, hd,
    fun i => mixture_isDist hr fun k => softmax_isDist hA _, hpos, fun i => hav i _, hprop⟩

/-- **C105.** When the proportions of the rounds are whole numbers, `pi_b_avg` is the average of the loggers' policies
over the rounds: at any logits, the mean over the rounds of the policy of the round's logger. -/
theorem C105_average_over_rounds_partial {n A m : ℕ} (hn : 0 < n) (betas rhos : Fin m → ℝ) (strat : Fin n → Fin m)
    (hexact : ∀ k, ((Finset.univ.filter fun i => strat i = k).card : ℝ) = n * rhos k) (l : Fin A → ℝ) (a : Fin A) :
    (∑ i, Real.exp (betas (strat i) * l a) / ∑ b, Real.exp (betas (strat i) * l b)) / n =
      ∑ k, rhos k * (Real.exp (betas k * l a) / ∑ b, Real.exp (betas k * l b)) := by
  have hn' : (n : ℝ) ≠ 0 := by exact_mod_cast hn.ne'
  rw [← Finset.sum_fiberwise (s := Finset.univ) (g := strat)]
  have : ∀ k, (∑ i with strat i = k, Real.exp (betas (strat i) * l a) / ∑ b, Real.exp (betas (strat i) * l b)) =
      n * rhos k * (Real.exp (betas k * l a) / ∑ b, Real.exp (betas k * l b)) := fun k => by
    rw [← hexact k]
    rw [Finset.sum_congr rfl fun i hi => by rw [(Finset.mem_filter.1 hi).2]]
    rw [Finset.sum_const, nsmul_eq_mul]
  simp only [this]
  rw [Finset.sum_div]
  refine Finset.sum_congr rfl fun k _ => ?_
  field_simp

/-- **C105, failure.** With deficient actions the loggers' temperatures are ignored: the behaviour policy, the logged
actions and their propensities are the same for all `betas`. -/
theorem C105_deficient_ignores_betas {beta : ℝ} {betas betas' rhos : List ℝ} {nDef : ℕ} (hd : 0 < nDef)
    {q : List (List ℝ)} {orders : List (List ℕ)} {us : List ℝ} {fb fb' : MultiLoggerFeedback}
    (h : multiLoggerFeedback beta betas rhos nDef q orders us = .ok fb)
    (h' : multiLoggerFeedback beta betas' rhos nDef q orders us = .ok fb') :
    fb.action = fb'.action ∧ fb.piB = fb'.piB ∧ fb.pscore = fb'.pscore := by
  unfold multiLoggerFeedback at h h'
  rw [py_bind_eq_ok] at h h'
  obtain ⟨s, hs, h⟩ := h
  obtain ⟨s', hs', h'⟩ := h'
  obtain rfl := Except.ok.inj (hs.symm.trans hs')
  rw [py_bind_eq_ok] at h h'
  obtain ⟨t, ht, h⟩ := h
  obtain ⟨t', ht', h'⟩ := h'
  obtain rfl := Except.ok.inj (ht.symm.trans ht')
  rw [py_bind_eq_ok] at h h'
  obtain ⟨p, hp, h⟩ := h
  obtain ⟨p', hp', h'⟩ := h'
  have hrow : ∀ x : (List ℝ × ℕ) × List ℕ, multiLoggerRow beta betas nDef x.1.1 x.1.2 x.2 =
      multiLoggerRow beta betas' nDef x.1.1 x.1.2 x.2 := fun x => by
    unfold multiLoggerRow
    rw [if_pos hd, if_pos hd]
  simp only [hrow] at hp
  obtain rfl := Except.ok.inj (hp.symm.trans hp')
  rw [py_bind_eq_ok] at h h'
  obtain ⟨c, hc, h⟩ := h
  obtain ⟨c', hc', h'⟩ := h'
  obtain rfl := Except.ok.inj (hc.symm.trans hc')
  rw [py_bind_eq_ok] at h h'
  obtain ⟨v, hv, h⟩ := h
  obtain ⟨v', hv', h'⟩ := h'
  rw [py_bind_eq_ok] at h h'
  obtain ⟨w, hw, h⟩ := h
  obtain ⟨w', hw', h'⟩ := h'
  obtain rfl := Except.ok.inj (hw.symm.trans hw')
  rw [py_bind_eq_ok] at h h'
  obtain ⟨x, -, h⟩ := h
  obtain ⟨x', -, h'⟩ := h'
  rw [py_pure] at h h'
  rw [← Except.ok.inj h, ← Except.ok.inj h']
  exact ⟨rfl, rfl, rfl⟩

/-- **C105, failure.** With deficient actions the average policy gives every action a positive probability although the
behaviour policy of the round gives some action probability zero: it is not an average of the logging policies. -/
theorem C105_deficient_average_positive {A m nDef : ℕ} (hd : 0 < nDef) (hA : nDef < A) (beta : ℝ)
    (betas rhos : Fin m → ℝ) (hr : IsDist rhos) (l : Fin A → ℝ) {order : List ℕ} (ho : order.Perm (List.range A))
    (k : ℕ) :
    ∃ p avg : Fin A → ℝ, multiLoggerRow beta (List.ofFn betas) nDef (List.ofFn l) k order = .ok (List.ofFn p) ∧
      averagePolicyRow (List.ofFn betas) (List.ofFn rhos) (List.ofFn l) = .ok (List.ofFn avg) ∧
      ∃ a, p a = 0 ∧ 0 < avg a := by
  obtain ⟨p, supp, hp, hcard, hdist, hsupp, -⟩ := syntheticBehaviorRow_spec beta hA l ho
  refine ⟨p, _, ?_, averagePolicyRow_spec (by omega) betas rhos l, ?_⟩
  · unfold multiLoggerRow
    rw [if_pos hd, hp]
  · obtain ⟨a, ha⟩ : ∃ a, a ∉ supp := by
      by_contra h
      push Not at h
      have : supp = Finset.univ := Finset.eq_univ_of_forall h
      rw [this, Finset.card_univ, Fintype.card_fin] at hcard
      omega
    refine ⟨a, le_antisymm (not_lt.1 fun h => ha ((hsupp a).2 h)) (hdist.nonneg a), ?_⟩
    obtain ⟨j, hj⟩ : ∃ j, 0 < rhos j := by
      by_contra h
      push Not at h
      have := hr.sum_one
      rw [Finset.sum_eq_zero fun k _ => le_antisymm (h k) (hr.nonneg k)] at this
      exact zero_ne_one this
    exact Finset.sum_pos' (fun i _ => mul_nonneg (hr.nonneg i)
      ((softmax_isDist (by omega) fun a => betas i * l a).nonneg a))
      ⟨j, Finset.mem_univ j, mul_pos hj (div_pos (Real.exp_pos _)
        (Finset.sum_pos (fun b _ => Real.exp_pos _) ⟨a, Finset.mem_univ a⟩))⟩

/-- Two loggers with equal shares of four rounds. -/
example : IsDist (![1 / 2, 1 / 2] : Fin 2 → ℝ) ∧ ∀ k, (4 : ℕ) * (![1 / 2, 1 / 2] : Fin 2 → ℝ) k = (2 : ℕ) := by
  refine ⟨⟨fun o => ?_, ?_⟩, fun k => ?_⟩
  · match o with
    | 0 => norm_num
    | 1 => norm_num
  · rw [Fin.sum_univ_two]; norm_num
  · match k with
    | 0 => norm_num
    | 1 => norm_num

end Obp
