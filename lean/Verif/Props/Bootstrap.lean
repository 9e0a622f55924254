import Verif.Spec.Bootstrap
import Verif.Lemmas.Bootstrap

/-!
# C03, C04, C05: `estimate_confidence_interval_by_bootstrap`

The resampling draws are universally quantified, so the statements hold for every random state.
-/

set_option linter.unusedSectionVars false

namespace Obp

section ci
variable {K : Type} [Field K] [LinearOrder K] [IsStrictOrderedRing K] [FloorRing K]

theorem boot_eq {samples : List K} {nBoot : ℕ} {draws : List (List ℕ)} (hs : samples ≠ [])
    (hd : ValidDraws samples.length nBoot draws) :
    draws.mapM (fun idx => npMean (resample samples idx)) =
      .ok (draws.map (resampledMean samples)) := by
  apply mapM_map_ok
  intro idx hi
  obtain ⟨hl, hj⟩ := hd.2 idx hi
  have hlen := resample_length hj
  have hpos := List.length_pos_of_ne_nil hs
  rw [npMean, if_neg (by omega), hlen]
  simp only [resampledMean]
  congr 3
  unfold resample
  clear hl hi hlen
  induction idx with
  | nil => rfl
  | cons j idx ih =>
    have hj0 := hj j (by simp)
    rw [List.filterMap_cons, List.getElem?_eq_getElem hj0]
    simp only [List.map_cons]
    rw [ih fun k hk => hj k (by simp [hk])]
    simp [List.getD, List.getElem?_eq_getElem hj0]

theorem bootstrapCI_eq {samples : List K} {nBoot : ℕ} {draws : List (List ℕ)} (hs : samples ≠ [])
    {alpha : K} (h0 : 0 ≤ alpha) (h1 : alpha ≤ 1) (hb : 1 ≤ nBoot)
    (hd : ValidDraws samples.length nBoot draws) :
    ∃ m, npMean (draws.map (resampledMean samples)) = .ok m ∧
      bootstrapCI samples (ciCall alpha nBoot) draws = .ok
        ⟨m, interp (sortedSeq (draws.map (resampledMean samples))) (alpha / 2 * ((nBoot : K) - 1)),
          interp (sortedSeq (draws.map (resampledMean samples)))
            ((1 - alpha / 2) * ((nBoot : K) - 1))⟩ := by
  have hne : draws.map (resampledMean samples) ≠ [] := by
    have := hd.1
    intro h
    rw [List.map_eq_nil_iff] at h
    subst h
    simp at this; omega
  have hlen : (draws.map (resampledMean samples)).length = nBoot := by simp [hd.1]
  obtain ⟨m, hm, -⟩ := npMean_map_affine hne 0 0
  refine ⟨m, hm, ?_⟩
  unfold bootstrapCI ciCall
  simp only [checkConfidenceIntervalArguments]
  rw [raiseIf_neg (by simp), raiseIf_neg (by simpa using h0), raiseIf_neg (by simpa using h1),
    raiseIf_neg (by simp; omega), raiseIf_neg (by simpa using hs)]
  simp only [py_bind_ok, boot_eq hs hd]
  rw [show 100 * (alpha / 2) / 100 = alpha / 2 by ring,
    show 100 * (1 - alpha / 2) / 100 = 1 - alpha / 2 by ring,
    percentile_eq hne (by linarith) (by linarith), percentile_eq hne (by linarith) (by linarith)]
  simp only [py_bind_ok, hm, hlen, py_pure]

/-- **C03.** The call succeeds; the lower bound is at most the upper bound and mean and bounds stay
within any range that contains all samples. -/
theorem C03_ci_ordered_in_range {samples : List K} {nBoot : ℕ} {draws : List (List ℕ)}
    (hs : samples ≠ []) {alpha : K} (h0 : 0 ≤ alpha) (h1 : alpha ≤ 1) (hb : 1 ≤ nBoot)
    (hd : ValidDraws samples.length nBoot draws) :
    ∃ o, bootstrapCI samples (ciCall alpha nBoot) draws = .ok o ∧ o.lower ≤ o.upper ∧
      ∀ lo hi, (∀ x ∈ samples, lo ≤ x ∧ x ≤ hi) →
        lo ≤ o.lower ∧ o.upper ≤ hi ∧ lo ≤ o.mean ∧ o.mean ≤ hi := by
  obtain ⟨m, hm, hci⟩ := bootstrapCI_eq hs h0 h1 hb hd
  have hne : draws.map (resampledMean samples) ≠ [] := by
    intro h
    rw [h] at hm; simp [npMean] at hm
  have hB : (0 : K) ≤ (nBoot : K) - 1 := by
    have : (1 : K) ≤ nBoot := by exact_mod_cast hb
    linarith
  refine ⟨_, hci, ?_, ?_⟩
  · exact interp_mono (sortedSeq_mono hne) (by positivity)
      (mul_le_mul_of_nonneg_right (by linarith) hB)
  · intro lo hi hx
    have hboot : ∀ x ∈ draws.map (resampledMean samples), lo ≤ x ∧ x ≤ hi := by
      intro y hy
      obtain ⟨idx, hidx, rfl⟩ := List.mem_map.1 hy
      obtain ⟨hl, hj⟩ := hd.2 idx hidx
      have hlp := List.length_pos_of_ne_nil hs
      have hmm : idx.map (fun j => samples.getD j 0) ≠ [] := by
        intro h; rw [List.map_eq_nil_iff] at h; subst h; simp at hl; omega
      obtain ⟨m', hm', hb1, hb2⟩ := npMean_bounds (lo := lo) (hi := hi) hmm (by
        intro z hz
        obtain ⟨j, hjm, rfl⟩ := List.mem_map.1 hz
        have := hj j hjm
        simp only [List.getD, List.getElem?_eq_getElem this, Option.getD_some]
        exact hx _ (List.getElem_mem this))
      have : m' = resampledMean samples idx := by
        rw [npMean, if_neg (by simp only [List.length_map, hl]; omega)] at hm'
        simp only [Except.ok.injEq, List.length_map] at hm'
        rw [← hm']; rfl
      rw [← this]; exact ⟨hb1, hb2⟩
    obtain ⟨m', hm', hb1, hb2⟩ := npMean_bounds hne hboot
    rw [hm] at hm'; cases hm'
    have hseq : ∀ j, lo ≤ sortedSeq _ j ∧ sortedSeq _ j ≤ hi := fun j =>
      hboot _ (sortedSeq_mem hne j)
    exact ⟨(hseq _).1.trans (interp_ge (sortedSeq_mono hne) (by positivity)),
      (interp_le (sortedSeq_mono hne)).trans (hseq _).2, hb1, hb2⟩

/-- **C03.** On a constant array mean and both bounds are that constant. -/
theorem C03_ci_constant {samples : List K} {nBoot : ℕ} {draws : List (List ℕ)}
    (hs : samples ≠ []) {alpha : K} (h0 : 0 ≤ alpha) (h1 : alpha ≤ 1) (hb : 1 ≤ nBoot)
    (hd : ValidDraws samples.length nBoot draws) (c : K) (hc : ∀ x ∈ samples, x = c) :
    bootstrapCI samples (ciCall alpha nBoot) draws = .ok ⟨c, c, c⟩ := by
  obtain ⟨o, ho, hlu, hr⟩ := C03_ci_ordered_in_range hs h0 h1 hb hd
  obtain ⟨h2, h3, h4, h5⟩ := hr c c fun x hx => by simp [hc x hx]
  rw [ho]
  obtain ⟨m, l, u⟩ := o
  simp only at *
  have e1 : m = c := le_antisymm h5 h4
  have e2 : l = c := le_antisymm (hlu.trans h3) h2
  have e3 : u = c := le_antisymm h3 (h2.trans hlu)
  rw [e1, e2, e3]

/-- **C03.** The reported mean is the mean of the resampled means. -/
theorem C03_ci_mean {samples : List K} {nBoot : ℕ} {draws : List (List ℕ)}
    (hs : samples ≠ []) {alpha : K} (h0 : 0 ≤ alpha) (h1 : alpha ≤ 1) (hb : 1 ≤ nBoot)
    (hd : ValidDraws samples.length nBoot draws) :
    ∃ o, bootstrapCI samples (ciCall alpha nBoot) draws = .ok o ∧
      o.mean = (draws.map (resampledMean samples)).sum / (nBoot : K) := by
  obtain ⟨m, hm, hci⟩ := bootstrapCI_eq hs h0 h1 hb hd
  refine ⟨_, hci, ?_⟩
  rw [npMean, if_neg (by simp [hd.1]; omega)] at hm
  simp only [Except.ok.injEq, List.length_map, hd.1] at hm
  exact hm.symm

/-! How many resampled means lie below a percentile. -/

theorem countP_sorted (xs : List K) (p : K → Bool) :
    (xs.insertionSort (· ≤ ·)).countP p = xs.countP p :=
  (List.perm_insertionSort _ _).countP_eq _

theorem count_le_of_sorted {xs : List K} (hx : xs ≠ []) {j : ℕ} (hj : j ≤ xs.length - 1) {y : K}
    (h : sortedSeq xs j ≤ y) : j + 1 ≤ xs.countP fun x => decide (x ≤ y) := by
  have hlp := List.length_pos_of_ne_nil hx
  rw [← countP_sorted]
  have hsub := (List.take_sublist (j + 1) (xs.insertionSort (· ≤ ·))).countP_le
    (p := fun x => decide (x ≤ y))
  refine le_trans ?_ hsub
  rw [List.countP_eq_length.2]
  · simp; omega
  · intro a ha
    obtain ⟨k, hk, rfl⟩ := List.mem_take_iff_getElem.1 ha
    rw [List.length_insertionSort] at hk
    have h1 := sorted_getElem? hx (j := k) (by omega)
    rw [List.getElem?_eq_getElem (by rw [List.length_insertionSort]; omega)] at h1
    simp only [Option.some.injEq] at h1
    rw [h1, decide_eq_true_eq]
    exact (sortedSeq_mono hx (by omega)).trans h

theorem count_lt_of_sorted {xs : List K} (hx : xs ≠ []) {j : ℕ} {y : K}
    (h : y ≤ sortedSeq xs j) : (xs.countP fun x => decide (x < y)) ≤ j := by
  have hlp := List.length_pos_of_ne_nil hx
  rw [← countP_sorted]
  conv_lhs => rw [← List.take_append_drop j (xs.insertionSort (· ≤ ·))]
  rw [List.countP_append]
  have h2 : ((xs.insertionSort (· ≤ ·)).drop j).countP (fun x => decide (x < y)) = 0 := by
    rw [List.countP_eq_zero]
    intro a ha
    obtain ⟨k, hk, rfl⟩ := List.mem_drop_iff_getElem.1 ha
    rw [List.length_insertionSort] at hk
    have h1 := sorted_getElem? hx (j := j + k) (by omega)
    rw [List.getElem?_eq_getElem (by rw [List.length_insertionSort]; omega)] at h1
    simp only [Option.some.injEq] at h1
    rw [h1, decide_eq_true_eq, not_lt]
    exact h.trans (sortedSeq_mono hx (by omega))
  rw [h2, add_zero]
  exact (List.countP_le_length).trans (by simp)

/-- **C03.** The bounds are the `alpha/2` and `1 - alpha/2` quantiles of the resampled means: with
`B` resamples, more than `(alpha/2)(B-1)` of them are at most the lower bound and at most
`(alpha/2)(B-1) + 1` are below it; likewise for the upper bound with `1 - alpha/2`. -/
theorem C03_ci_quantiles {samples : List K} {nBoot : ℕ} {draws : List (List ℕ)}
    (hs : samples ≠ []) {alpha : K} (h0 : 0 ≤ alpha) (h1 : alpha ≤ 1) (hb : 1 ≤ nBoot)
    (hd : ValidDraws samples.length nBoot draws) :
    ∃ o, bootstrapCI samples (ciCall alpha nBoot) draws = .ok o ∧
      let below y := ((draws.countP fun idx => decide (resampledMean samples idx < y) : ℕ) : K)
      let upTo y := ((draws.countP fun idx => decide (resampledMean samples idx ≤ y) : ℕ) : K)
      alpha / 2 * ((nBoot : K) - 1) < upTo o.lower ∧
      below o.lower ≤ alpha / 2 * ((nBoot : K) - 1) + 1 ∧
      (1 - alpha / 2) * ((nBoot : K) - 1) < upTo o.upper ∧
      below o.upper ≤ (1 - alpha / 2) * ((nBoot : K) - 1) + 1 := by
  obtain ⟨m, hm, hci⟩ := bootstrapCI_eq hs h0 h1 hb hd
  have hne : draws.map (resampledMean samples) ≠ [] := by
    intro h
    rw [h] at hm; simp [npMean] at hm
  have hB : (0 : K) ≤ (nBoot : K) - 1 := by
    have : (1 : K) ≤ nBoot := by exact_mod_cast hb
    linarith
  have hlen : (draws.map (resampledMean samples)).length = nBoot := by simp [hd.1]
  have hcast : ((nBoot - 1 : ℕ) : K) = (nBoot : K) - 1 := by rw [Nat.cast_sub hb]; simp
  have key : ∀ p : K, 0 ≤ p → p ≤ 1 →
      p * ((nBoot : K) - 1) < ((draws.countP fun idx => decide (resampledMean samples idx ≤
        interp (sortedSeq (draws.map (resampledMean samples))) (p * ((nBoot : K) - 1))) : ℕ) : K) ∧
      ((draws.countP fun idx => decide (resampledMean samples idx <
        interp (sortedSeq (draws.map (resampledMean samples))) (p * ((nBoot : K) - 1))) : ℕ) : K) ≤
        p * ((nBoot : K) - 1) + 1 := by
    intro p hp0 hp1
    have hpos : 0 ≤ p * ((nBoot : K) - 1) := mul_nonneg hp0 hB
    have hfl : ⌊p * ((nBoot : K) - 1)⌋₊ ≤ nBoot - 1 := by
      rw [← hcast]
      calc ⌊p * ((nBoot - 1 : ℕ) : K)⌋₊ ≤ ⌊((nBoot - 1 : ℕ) : K)⌋₊ :=
            Nat.floor_le_floor (by rw [hcast]; nlinarith)
        _ = nBoot - 1 := Nat.floor_natCast _
    constructor
    · have := count_le_of_sorted hne (by rw [hlen]; exact hfl)
        (interp_ge (sortedSeq_mono hne) hpos)
      rw [List.countP_map] at this
      have h2 : ((⌊p * ((nBoot : K) - 1)⌋₊ + 1 : ℕ) : K) ≤ _ := Nat.cast_le.2 this
      refine lt_of_lt_of_le (Nat.lt_floor_add_one _) ?_
      push_cast at h2
      exact h2
    · have := count_lt_of_sorted hne (interp_le (sortedSeq_mono hne) (pos := p * ((nBoot : K) - 1)))
      rw [List.countP_map] at this
      have h2 := (Nat.cast_le (α := K)).2 this
      push_cast at h2
      have h3 := Nat.floor_le hpos
      refine le_trans h2 ?_
      linarith
  exact ⟨_, hci, (key _ (by linarith) (by linarith)).1, (key _ (by linarith) (by linarith)).2,
    (key _ (by linarith) (by linarith)).1, (key _ (by linarith) (by linarith)).2⟩

/-- **C04.** With the same draws a smaller `alpha` gives a wider interval. -/
theorem C04_ci_nested {samples : List K} {nBoot : ℕ} {draws : List (List ℕ)}
    (hs : samples ≠ []) {alpha alpha' : K} (h0 : 0 ≤ alpha) (h1 : alpha ≤ alpha')
    (h2 : alpha' ≤ 1) (hb : 1 ≤ nBoot) (hd : ValidDraws samples.length nBoot draws) :
    ∃ o o', bootstrapCI samples (ciCall alpha nBoot) draws = .ok o ∧
      bootstrapCI samples (ciCall alpha' nBoot) draws = .ok o' ∧
      o.lower ≤ o'.lower ∧ o'.upper ≤ o.upper ∧ o.mean = o'.mean := by
  obtain ⟨m, hm, hci⟩ := bootstrapCI_eq hs h0 (h1.trans h2) hb hd
  obtain ⟨m', hm', hci'⟩ := bootstrapCI_eq hs (h0.trans h1) h2 hb hd
  have hne : draws.map (resampledMean samples) ≠ [] := by
    intro h
    rw [h] at hm; simp [npMean] at hm
  have hB : (0 : K) ≤ (nBoot : K) - 1 := by
    have : (1 : K) ≤ nBoot := by exact_mod_cast hb
    linarith
  refine ⟨_, _, hci, hci', ?_, ?_, ?_⟩
  · exact interp_mono (sortedSeq_mono hne) (by positivity)
      (mul_le_mul_of_nonneg_right (by linarith) hB)
  · exact interp_mono (sortedSeq_mono hne) (mul_nonneg (by linarith) hB)
      (mul_le_mul_of_nonneg_right (by linarith) hB)
  · rw [hm] at hm'; simpa using hm'

/-- **C04.** Affine equivariance: `x ↦ c * x + d` with `c >= 0` on the samples moves mean and both
bounds the same way. -/
theorem C04_ci_equivariant {samples : List K} {nBoot : ℕ} {draws : List (List ℕ)}
    (hs : samples ≠ []) {alpha : K} (h0 : 0 ≤ alpha) (h1 : alpha ≤ 1) (hb : 1 ≤ nBoot)
    (hd : ValidDraws samples.length nBoot draws) {c : K} (hc : 0 ≤ c) (d : K) :
    ∃ o, bootstrapCI samples (ciCall alpha nBoot) draws = .ok o ∧
      bootstrapCI (samples.map fun x => c * x + d) (ciCall alpha nBoot) draws =
        .ok ⟨c * o.mean + d, c * o.lower + d, c * o.upper + d⟩ := by
  obtain ⟨m, hm, hci⟩ := bootstrapCI_eq hs h0 h1 hb hd
  have hne : draws.map (resampledMean samples) ≠ [] := by
    intro h
    rw [h] at hm; simp [npMean] at hm
  obtain ⟨m', hm', hci'⟩ := bootstrapCI_eq (samples := samples.map fun x => c * x + d)
    (by simpa using hs) h0 h1 hb (by simpa using hd)
  have hmap : draws.map (resampledMean (samples.map fun x => c * x + d)) =
      (draws.map (resampledMean samples)).map fun x => c * x + d := by
    rw [List.map_map]
    refine List.map_congr_left fun idx hi => ?_
    obtain ⟨hl, hj⟩ := hd.2 idx hi
    have hlp := List.length_pos_of_ne_nil hs
    have hmm : idx.map (fun j => samples.getD j 0) ≠ [] := by
      intro h; rw [List.map_eq_nil_iff] at h; subst h; simp at hl; omega
    obtain ⟨a, ha, ha'⟩ := npMean_map_affine hmm c d
    rw [npMean, if_neg (by simp only [List.length_map, hl]; omega)] at ha ha'
    simp only [Except.ok.injEq, List.length_map] at ha ha'
    simp only [Function.comp, resampledMean]
    rw [ha, ← ha', List.map_map]
    congr 2
    refine List.map_congr_left fun j hjm => ?_
    have := hj j hjm
    simp [List.getD, List.getElem?_eq_getElem this]
  refine ⟨_, hci, ?_⟩
  rw [hci']
  have hmono : Monotone fun x : K => c * x + d := fun x y h => by
    have := mul_le_mul_of_nonneg_left h hc
    simpa using this
  have hseq : sortedSeq (draws.map (resampledMean (samples.map fun x => c * x + d))) =
      fun j => c * sortedSeq (draws.map (resampledMean samples)) j + d := by
    funext j
    rw [hmap, sortedSeq_map hmono hne]
  obtain ⟨a, ha, ha'⟩ := npMean_map_affine hne c d
  rw [hm] at ha; cases ha
  rw [hmap, ha'] at hm'
  rw [hseq, interp_affine, interp_affine]
  simp only [Except.ok.injEq] at hm'
  rw [hm']

/-- a run: three samples, two resamples, alpha = 1/2 -/
example : ValidDraws ([1, 2, 6] : List ℚ).length 2 [[0, 0, 2], [1, 1, 1]] := by
  refine ⟨rfl, ?_⟩
  simp

example : (bootstrapCI ([1, 2, 6] : List ℚ) (ciCall (1 / 2) 2) [[0, 0, 2], [1, 1, 1]]).toOption.map
    (fun o => (o.mean, o.lower, o.upper)) = some (7 / 3, 13 / 6, 5 / 2) := by decide +kernel

end ci

/-! ### C05: argument checking -/

section check
variable {K : Type} [Field K] [LinearOrder K]

/-- **C05 (partial).** For `alpha` not nan the arguments are accepted exactly when `alpha` is a
float in `[0, 1]`, `n_bootstrap_samples` is an int that is at least 1 (Python's `True` counts as
the int 1) and the seed is acceptable. Missing: nan is accepted as well, see
`C05_nan_accepted`. -/
theorem C05_accept_iff_partial (seedOk : Bool) (alpha nBoot : PyScalar K) (hnan : alpha ≠ .nan) :
    checkConfidenceIntervalArguments seedOk alpha nBoot = .ok () ↔
      seedOk = true ∧ (∃ a, alpha = .flt a ∧ 0 ≤ a ∧ a ≤ 1) ∧
      ((∃ z : ℤ, nBoot = .int z ∧ 1 ≤ z) ∨ nBoot = .bool true) := by
  cases seedOk
  · simp [checkConfidenceIntervalArguments, raiseIf]
  · cases alpha with
    | nan => exact absurd rfl hnan
    | flt a =>
      cases nBoot <;>
        simp [checkConfidenceIntervalArguments, py_bind_eq_ok, and_assoc]
    | _ => simp [checkConfidenceIntervalArguments, raiseIf]

/-- **C05 (partial).** What is raised for `alpha` not nan and an acceptable seed: TypeError exactly
for a wrong type, ValueError for a number out of range (`alpha` is examined first). -/
theorem C05_error_kind_partial (alpha nBoot : PyScalar K) :
    (∀ b : Bool, checkConfidenceIntervalArguments true (.bool b : PyScalar K) nBoot =
      .error .typeError) ∧
    (∀ z : ℤ, checkConfidenceIntervalArguments true (.int z : PyScalar K) nBoot =
      .error .typeError) ∧
    checkConfidenceIntervalArguments true (.other : PyScalar K) nBoot = .error .typeError ∧
    (∀ a : K, (a < 0 ∨ 1 < a) → checkConfidenceIntervalArguments true (.flt a) nBoot =
      .error .valueError) ∧
    checkConfidenceIntervalArguments true (.inf : PyScalar K) nBoot = .error .valueError ∧
    checkConfidenceIntervalArguments true (.negInf : PyScalar K) nBoot = .error .valueError ∧
    (∀ a : K, 0 ≤ a → a ≤ 1 → ∀ z : ℤ, z < 1 →
      checkConfidenceIntervalArguments true (.flt a) (.int z) = .error .valueError) ∧
    (∀ a : K, 0 ≤ a → a ≤ 1 →
      checkConfidenceIntervalArguments true (.flt a) (.bool false) = .error .valueError) ∧
    (∀ a : K, 0 ≤ a → a ≤ 1 → (∀ z, nBoot ≠ .int z) → (∀ b, nBoot ≠ .bool b) →
      checkConfidenceIntervalArguments true (.flt a) nBoot = .error .typeError) ∧
    checkConfidenceIntervalArguments false alpha nBoot = .error .valueError := by
  refine ⟨fun b => rfl, fun z => rfl, rfl, ?_, rfl, rfl, ?_, ?_, ?_, rfl⟩
  · intro a ha
    simp only [checkConfidenceIntervalArguments]
    by_cases h0 : a < 0
    · simp [raiseIf, h0]
    · have h1 : 1 < a := ha.resolve_left h0
      simp [raiseIf, h0, h1]
  · intro a h0 h1 z hz
    simp [checkConfidenceIntervalArguments, raiseIf, not_lt.2 h0, not_lt.2 h1, hz]
  · intro a h0 h1
    simp [checkConfidenceIntervalArguments, raiseIf, not_lt.2 h0, not_lt.2 h1]
  · intro a h0 h1 hz hb
    cases nBoot with
    | int z => exact absurd rfl (hz z)
    | bool b => exact absurd rfl (hb b)
    | _ => simp [checkConfidenceIntervalArguments, raiseIf, not_lt.2 h0, not_lt.2 h1]

/-- **C05, negation.** `alpha = float("nan")` passes the check (the comparisons of `check_scalar`
are false for nan), contrary to the documented range. -/
theorem C05_nan_accepted :
    checkConfidenceIntervalArguments true (.nan : PyScalar K) (.int 100) = .ok () := rfl

/-- **C05.** The interval function itself nevertheless raises ValueError on nan, in
`np.percentile`. -/
theorem C05_nan_interval_raises [IsStrictOrderedRing K] [FloorRing K] {samples : List K}
    (hs : samples ≠ []) {nBoot : ℕ} (hb : 1 ≤ nBoot) {draws : List (List ℕ)}
    (hd : ValidDraws samples.length nBoot draws) :
    bootstrapCI samples ⟨.nan, .int nBoot, true⟩ draws = .error .valueError := by
  unfold bootstrapCI
  simp only [checkConfidenceIntervalArguments]
  rw [raiseIf_neg (by simp), raiseIf_neg (by simp; omega), raiseIf_neg (by simpa using hs)]
  simp only [py_bind_ok, boot_eq hs hd]

example : checkConfidenceIntervalArguments true (.flt (1 / 20 : ℚ)) (.int 10000) = .ok () := by
  rw [C05_accept_iff_partial _ _ _ (by simp)]
  refine ⟨rfl, ⟨_, rfl, ?_, ?_⟩, Or.inl ⟨_, rfl, ?_⟩⟩ <;> norm_num

end check

end Obp
