import Verif.Lemmas.TruncNormal
import Verif.Props.Utils

set_option linter.unusedSectionVars false

/-! # C126, C127: sampled rewards and the expected rewards reported beside them -/

namespace Obp
open MeasureTheory

theorem rewardLaw_continuous {std : ℝ} (hs : 0 < std) (m : ℝ) :
    rewardLaw false std m = .ok (.truncnorm ((0 - m) / std) ((10 ^ 10 - m) / std) m std) := by
  simp only [rewardLaw, Bool.false_eq_true, if_false, npDiv_ok hs.ne']
  rfl

theorem reportedReward_continuous {std : ℝ} (hs : 0 < std) (m : ℝ) :
    reportedReward false std m = .ok (truncMean ((0 - m) / std) ((10 ^ 10 - m) / std) m std) := by
  simp only [reportedReward, Bool.false_eq_true, if_false, npDiv_ok hs.ne']
  rfl

theorem reward_bounds_lt {std : ℝ} (hs : 0 < std) (m : ℝ) : (0 - m) / std < (10 ^ 10 - m) / std := by
  gcongr; norm_num

theorem rewardLaw_continuous_mean {std : ℝ} (hs : 0 < std) {m : ℝ} {l : RewardLaw} (h : rewardLaw false std m = .ok l) :
    l.mean = truncMean ((0 - m) / std) ((10 ^ 10 - m) / std) m std := by
  rw [rewardLaw_continuous hs] at h
  cases h
  exact truncnorm_mean (reward_bounds_lt hs m) hs

/-- **C126.** Binary rewards: sampling succeeds exactly if the expected reward is a probability (otherwise it raises
ValueError); it is reported unchanged, and the logged reward is one with that probability and zero otherwise. -/
theorem C126_binary (std p : ℝ) :
    (0 ≤ p ∧ p ≤ 1 → ∃ l, batchReward true std p = .ok (p, l) ∧ l.mean = p ∧
      (l.expect fun x => if x = 1 then 1 else 0) = p ∧ (l.expect fun x => if x = 0 then 1 else 0) = 1 - p) ∧
    (¬ (0 ≤ p ∧ p ≤ 1) → batchReward true std p = .error .valueError) := by
  constructor
  · intro h
    refine ⟨.bernoulli p, ?_, ?_, ?_, ?_⟩
    · simp only [batchReward, reportedReward, rewardLaw, if_true, py_bind_ok, if_pos h]; rfl
    · simp [RewardLaw.mean, RewardLaw.expect]
    · simp [RewardLaw.expect]
    · simp [RewardLaw.expect]
  · intro h
    simp only [batchReward, reportedReward, rewardLaw, if_true, py_bind_ok, if_neg h]; rfl

example : ∃ l, batchReward true 1 (1 / 4) = .ok (1 / 4, l) ∧ l.mean = 1 / 4 := by
  obtain ⟨l, h, h', _⟩ := (C126_binary 1 (1 / 4)).1 (by norm_num)
  exact ⟨l, h, h'⟩

/-- **C126.** Continuous rewards: a reward has a density (total mass one) and lies in [0, 1e10] almost surely. -/
theorem C126_support {std : ℝ} (hs : 0 < std) {m : ℝ} {l : RewardLaw} (h : rewardLaw false std m = .ok l) :
    l.expect (fun _ => 1) = 1 ∧ l.expect (fun x => if x < 0 ∨ 10 ^ 10 < x then 1 else 0) = 0 := by
  rw [rewardLaw_continuous hs] at h
  cases h
  constructor
  · simp only [RewardLaw.expect, one_mul]
    exact truncnorm_total (reward_bounds_lt hs m) hs
  · simp only [RewardLaw.expect]
    rw [← integral_zero ℝ ℝ]
    congr 1
    funext x
    split
    · rename_i hx
      rw [truncPdf_eq, if_neg, mul_zero]
      rintro ⟨h1, h2⟩
      rw [div_le_div_iff_of_pos_right hs] at h1 h2
      rcases hx with hx | hx <;> linarith
    · simp

example : (RewardLaw.truncnorm ((0 - 2) / 1) ((10 ^ 10 - 2) / 1) 2 1).expect (fun _ => 1) = 1 :=
  (C126_support one_pos (rewardLaw_continuous one_pos 2)).1

/-- **C126.** The expected reward reported with a batch is the mean of a reward sampled by `sample_reward` from the same
context and action, and lies strictly between the bounds. (Full property: it is also the mean of the rewards logged in the
batch. That is false, see `C126_batch_mean_differs`.) -/
theorem C126_sample_reward_partial {std : ℝ} (hs : 0 < std) (m : ℝ) :
    ∃ r l, reportedReward false std m = .ok r ∧ directReward false std m = .ok l ∧ l.mean = r ∧ 0 < r ∧ r < 10 ^ 10 := by
  refine ⟨_, _, reportedReward_continuous hs m, rewardLaw_continuous hs m,
    rewardLaw_continuous_mean hs (rewardLaw_continuous hs m), ?_, ?_⟩
  · exact truncMean_gt_lo (by norm_num) hs
  · exact truncMean_lt_hi (by norm_num) hs

example : ∃ r l, reportedReward false 1 2 = .ok r ∧ directReward false 1 2 = .ok l ∧ l.mean = r ∧ 0 < r ∧ r < 10 ^ 10 :=
  C126_sample_reward_partial one_pos 2

/-- **C126, disagreement.** For continuous rewards, the rewards logged in a batch never have the expected reward that the
batch reports (except if it is exactly the midpoint of the bounds): the reward is drawn from a distribution truncated around
the already corrected mean, so its mean is strictly larger than the reported one when the reward function's value is below
5e9, strictly smaller when above. -/
theorem C126_batch_mean_differs {std : ℝ} (hs : 0 < std) (m : ℝ) :
    ∃ r l, batchReward false std m = .ok (r, l) ∧
      (m < 5 * 10 ^ 9 → r < l.mean) ∧ (5 * 10 ^ 9 < m → l.mean < r) := by
  set r := truncMean ((0 - m) / std) ((10 ^ 10 - m) / std) m std with hr
  refine ⟨r, .truncnorm ((0 - r) / std) ((10 ^ 10 - r) / std) r std, ?_, ?_, ?_⟩
  · simp only [batchReward, reportedReward_continuous hs, py_bind_ok, rewardLaw_continuous hs]
    rfl
  · intro hm
    rw [rewardLaw_continuous_mean hs (rewardLaw_continuous hs r), truncMean_gt_iff (by norm_num) hs]
    exact truncMean_lt_mid (by norm_num) hs (by linarith)
  · intro hm
    rw [rewardLaw_continuous_mean hs (rewardLaw_continuous hs r), truncMean_lt_iff (by norm_num) hs]
    exact truncMean_gt_mid (by norm_num) hs (by linarith)

example : ∃ r l, batchReward false 1 0 = .ok (r, l) ∧ r < l.mean := by
  obtain ⟨r, l, h, h1, _⟩ := C126_batch_mean_differs one_pos 0
  exact ⟨r, l, h, h1 (by norm_num)⟩

/-- **C126, disagreement.** `reward_std = 0` is accepted by the constructor, but continuous rewards then divide by zero:
neither the batch nor `sample_reward` yields a number. -/
theorem C126_zero_std (m : ℝ) : batchReward false 0 m = .error .nonFinite ∧ directReward false 0 m = .error .nonFinite := by
  constructor
  · simp only [batchReward, reportedReward, Bool.false_eq_true, if_false, npDiv_zero]; rfl
  · simp only [directReward, rewardLaw, Bool.false_eq_true, if_false, npDiv_zero]; rfl

/-- **C126, disagreement.** Slates with continuous rewards: the expected reward of a position reported with a batch (the one
that the ground truth is computed from) is not the mean of its logged reward, which is strictly larger when below 5e9. -/
theorem C126_slate_mean_differs {std : ℝ} (hs : 0 < std) (w m : ℝ) :
    ∃ r l, slateBatchReward std w m = .ok (r, l) ∧ r = m * w ∧
      (r < 5 * 10 ^ 9 → r < l.mean) ∧ (5 * 10 ^ 9 < r → l.mean < r) ∧ (r = 5 * 10 ^ 9 → l.mean = r) := by
  refine ⟨m * w, _, by simp only [slateBatchReward, rewardLaw_continuous hs]; rfl, rfl, ?_, ?_, ?_⟩
  · intro h
    rw [rewardLaw_continuous_mean hs (rewardLaw_continuous hs _), truncMean_gt_iff (by norm_num) hs]
    linarith
  · intro h
    rw [rewardLaw_continuous_mean hs (rewardLaw_continuous hs _), truncMean_lt_iff (by norm_num) hs]
    linarith
  · intro h
    rw [rewardLaw_continuous_mean hs (rewardLaw_continuous hs _)]
    refine le_antisymm (not_lt.1 ?_) (not_lt.1 ?_)
    · rw [truncMean_gt_iff (by norm_num) hs]; rw [h]; norm_num
    · rw [truncMean_lt_iff (by norm_num) hs]; rw [h]; norm_num

example : ∃ r l, slateBatchReward 1 (1 / 2) 3 = .ok (r, l) ∧ r = 3 * (1 / 2) ∧ r < l.mean := by
  obtain ⟨r, l, h, hr, h1, _⟩ := C126_slate_mean_differs one_pos (1 / 2) 3
  exact ⟨r, l, h, hr, h1 (by rw [hr]; norm_num)⟩

/-! ## One generator seed for actions and rewards -/

theorem sharedSeedRound_eq {A : ℕ} {p q : Fin A → ℝ} {std : ℝ} (hs : 0 < std) {u : ℝ} {a : Fin A}
    (h : sampleActionRow (List.ofFn p) u = .ok (a : ℕ)) :
    sharedSeedRound std (List.ofFn p) (List.ofFn q) u
      = .ok ((a : ℕ), truncRvs ((0 - q a) / std) ((10 ^ 10 - q a) / std) (q a) std u) := by
  simp only [sharedSeedRound, h, py_bind_ok]
  have : (List.ofFn q)[(a : ℕ)]? = some (q a) := by simp
  simp only [this, npDiv_ok hs.ne', py_bind_ok]
  rfl

theorem sampleActionRow_exists {A : ℕ} {p : Fin A → ℝ} (hp : IsDist p) {u : ℝ} (h0 : 0 ≤ u) (h1 : u < 1) :
    ∃ a : Fin A, sampleActionRow (List.ofFn p) u = .ok (a : ℕ) := by
  have hr : ∃ a, sampleActionRow (List.ofFn p) u = .ok a := by
    unfold sampleActionRow argmaxBool
    split
    · rename_i h
      have : A = 0 := by simpa [cumsumFrom_length] using congrArg List.length h
      subst this
      have := hp.sum_one
      simp at this
    · split <;> exact ⟨_, rfl⟩
  obtain ⟨a, ha⟩ := hr
  have := (sampleActionRow_iff (by simpa [List.mem_ofFn] using hp.nonneg) h0
    (by rw [List.sum_ofFn, hp.sum_one]; exact h1) a).1 ha
  exact ⟨⟨a, by simpa using this.1⟩, ha⟩

/-- **C127.** Each round of a batch with continuous rewards has an action of the behaviour policy's support and a reward in
[0, 1e10]. (Full property: among the rounds with a given context and action, the logged rewards average to the mean reward of
that action. That is false, see `C127_first_action`.) -/
theorem C127_round_partial {A : ℕ} {p q : Fin A → ℝ} (hp : IsDist p) {std : ℝ} (hs : 0 < std) {u : ℝ} (h0 : 0 ≤ u)
    (h1 : u < 1) :
    ∃ (a : Fin A) (r : ℝ), sharedSeedRound std (List.ofFn p) (List.ofFn q) u = .ok ((a : ℕ), r) ∧ 0 < p a ∧
      0 ≤ r ∧ r ≤ 10 ^ 10 := by
  obtain ⟨a, ha⟩ := sampleActionRow_exists hp h0 h1
  have hint := (C01_row_interval hp h0 h1 a).1 ha
  refine ⟨a, _, sharedSeedRound_eq hs ha, by linarith, ?_⟩
  obtain ⟨z, hz1, hz2, hz⟩ := exists_cdf (reward_bounds_lt hs (q a)) h0 h1.le
  rw [truncRvs, ← hz, truncPpf_cdf (reward_bounds_lt hs (q a)) hz1 hz2]
  rw [div_le_iff₀ hs] at hz1
  rw [le_div_iff₀ hs] at hz2
  constructor <;> linarith

/-- What the rounds with one action contribute to the expected logged reward. -/
theorem sharedSeed_integral {A : ℕ} {p q : Fin A → ℝ} (hp : IsDist p) {std : ℝ} (hs : 0 < std) {draw : ℝ → ℕ × ℝ}
    (hdraw : ∀ u, 0 ≤ u → u < 1 → sharedSeedRound std (List.ofFn p) (List.ofFn q) u = .ok (draw u)) (a : Fin A) :
    ∫ u in Set.Ico (0:ℝ) 1, (if (draw u).1 = a then (draw u).2 else 0)
      = ∫ u in Set.Icc (∑ b with b < a, p b) ((∑ b with b < a, p b) + p a),
          truncRvs ((0 - q a) / std) ((10 ^ 10 - q a) / std) (q a) std u := by
  set F := ∑ b with b < a, p b with hF
  set Q := fun u => truncRvs ((0 - q a) / std) ((10 ^ 10 - q a) / std) (q a) std u with hQ
  have hF0 : 0 ≤ F := Finset.sum_nonneg fun b _ => hp.nonneg b
  have hF1 : F + p a ≤ 1 := by
    rw [← hp.sum_one, hF, add_comm, ← Finset.sum_insert (s := Finset.univ.filter fun b => b < a) (by simp)]
    exact Finset.sum_le_sum_of_subset_of_nonneg (Finset.subset_univ _) fun b _ _ => hp.nonneg b
  have h1 : ∫ u in Set.Ico (0:ℝ) 1, (if (draw u).1 = a then (draw u).2 else 0)
      = ∫ u in Set.Ico (0:ℝ) 1, (Set.Ico F (F + p a)).indicator Q u := by
    refine setIntegral_congr_fun measurableSet_Ico fun u hu => ?_
    obtain ⟨b, hb⟩ := sampleActionRow_exists hp hu.1 hu.2
    have hd := hdraw u hu.1 hu.2
    rw [sharedSeedRound_eq hs hb] at hd
    have hd' := (Except.ok.inj hd).symm
    by_cases hba : b = a
    · subst hba
      have := (C01_row_interval hp hu.1 hu.2 b).1 hb
      simp only [hd', Set.indicator, if_pos (show u ∈ Set.Ico F (F + p b) from this), if_true, hQ]
    · have : u ∉ Set.Ico F (F + p a) := fun hm => by
        have h' := (C01_row_interval hp hu.1 hu.2 a).2 hm
        rw [hb] at h'
        exact hba (Fin.ext (Except.ok.inj h'))
      simp only [hd', Set.indicator, if_neg this]
      rw [if_neg]
      intro h
      exact hba (Fin.ext h)
  rw [h1, setIntegral_indicator measurableSet_Ico, integral_Icc_eq_integral_Ico]
  congr 2
  ext u
  simp only [Set.mem_inter_iff, Set.mem_Ico]
  constructor
  · exact fun h => h.2
  · exact fun h => ⟨⟨hF0.trans h.1, h.2.trans_le hF1⟩, h⟩

/-- **C127, disagreement.** The action and the reward of a round are computed from the same uniform number. Averaged over
that number, the rounds in which the first action is logged contribute strictly less than its probability times the mean of
its reward distribution: the logged rewards of the first action are biased downwards, although context and action are
given. -/
theorem C127_first_action {A : ℕ} {p q : Fin (A + 1) → ℝ} (hp : IsDist p) (h0 : 0 < p 0) (h1 : p 0 < 1) {std : ℝ}
    (hs : 0 < std) {l : RewardLaw} (hl : rewardLaw false std (q 0) = .ok l) {draw : ℝ → ℕ × ℝ}
    (hdraw : ∀ u, 0 ≤ u → u < 1 → sharedSeedRound std (List.ofFn p) (List.ofFn q) u = .ok (draw u)) :
    ∫ u in Set.Ico (0:ℝ) 1, (if (draw u).1 = 0 then (draw u).2 else 0) < p 0 * l.mean := by
  have h := sharedSeed_integral hp hs hdraw 0
  have hF : ∑ b with b < (0 : Fin (A + 1)), p b = 0 := by
    rw [Finset.filter_false_of_mem (by simp), Finset.sum_empty]
  rw [hF, zero_add] at h
  rw [rewardLaw_continuous_mean hs hl]
  exact h.trans_lt (truncRvs_lower (reward_bounds_lt hs _) hs h0 h1)

/-- **C127, disagreement.** The logged rewards of the last action are biased upwards. -/
theorem C127_last_action {A : ℕ} {p q : Fin (A + 1) → ℝ} (hp : IsDist p) (h0 : 0 < p (Fin.last A)) (h1 : p (Fin.last A) < 1)
    {std : ℝ} (hs : 0 < std) {l : RewardLaw} (hl : rewardLaw false std (q (Fin.last A)) = .ok l) {draw : ℝ → ℕ × ℝ}
    (hdraw : ∀ u, 0 ≤ u → u < 1 → sharedSeedRound std (List.ofFn p) (List.ofFn q) u = .ok (draw u)) :
    p (Fin.last A) * l.mean < ∫ u in Set.Ico (0:ℝ) 1, (if (draw u).1 = A then (draw u).2 else 0) := by
  have h := sharedSeed_integral hp hs hdraw (Fin.last A)
  have hF : ∑ b with b < Fin.last A, p b = 1 - p (Fin.last A) := by
    have h2 : (Finset.univ.filter fun b => b < Fin.last A) = Finset.univ.erase (Fin.last A) := by
      ext b
      simp [Fin.lt_last_iff_ne_last]
    rw [h2, ← hp.sum_one, ← Finset.add_sum_erase _ _ (Finset.mem_univ (Fin.last A))]
    ring
  rw [hF, sub_add_cancel] at h
  rw [rewardLaw_continuous_mean hs hl]
  have hu := truncRvs_upper (loc := q (Fin.last A)) (reward_bounds_lt hs (q (Fin.last A))) hs
    (c := 1 - p (Fin.last A)) (by linarith) (by linarith)
  rw [sub_sub_cancel] at hu
  exact hu.trans_eq h.symm

/-- **C127, disagreement.** Hence inverse propensity weighting is biased on such data: for the policy that always takes the
first action, the expectation of the round's weighted reward is strictly below the action's mean reward. -/
theorem C127_ipw_biased {A : ℕ} {p q : Fin (A + 1) → ℝ} (hp : IsDist p) (h0 : 0 < p 0) (h1 : p 0 < 1) {std : ℝ}
    (hs : 0 < std) {l : RewardLaw} (hl : rewardLaw false std (q 0) = .ok l) {draw : ℝ → ℕ × ℝ}
    (hdraw : ∀ u, 0 ≤ u → u < 1 → sharedSeedRound std (List.ofFn p) (List.ofFn q) u = .ok (draw u)) :
    ∫ u in Set.Ico (0:ℝ) 1, (if (draw u).1 = 0 then 1 / p 0 else 0) * (draw u).2 < l.mean := by
  have h := C127_first_action hp h0 h1 hs hl hdraw
  have he : ∀ u, (if (draw u).1 = 0 then 1 / p 0 else 0) * (draw u).2
      = 1 / p 0 * (if (draw u).1 = 0 then (draw u).2 else 0) := fun u => by split <;> simp
  simp only [he]
  rw [MeasureTheory.integral_const_mul, one_div, inv_mul_lt_iff₀ h0]
  exact h

/-- Two equally likely actions with reward parameter 1 and 2: the hypotheses above are met. -/
example : ∃ draw : ℝ → ℕ × ℝ,
    (∀ u, 0 ≤ u → u < 1 → sharedSeedRound 1 (List.ofFn ![(1:ℝ) / 2, 1 / 2]) (List.ofFn ![(1:ℝ), 2]) u = .ok (draw u)) ∧
    ∫ u in Set.Ico (0:ℝ) 1, (if (draw u).1 = 0 then (draw u).2 else 0)
      < 1 / 2 * (RewardLaw.truncnorm ((0 - 1) / 1) ((10 ^ 10 - 1) / 1) 1 1).mean := by
  have hp : IsDist ![(1:ℝ) / 2, 1 / 2] :=
    ⟨fun i => by fin_cases i <;> simp, by simp [Fin.sum_univ_two]; norm_num⟩
  have hex : ∀ u : ℝ, ∃ d : ℕ × ℝ, 0 ≤ u → u < 1 →
      sharedSeedRound 1 (List.ofFn ![(1:ℝ) / 2, 1 / 2]) (List.ofFn ![(1:ℝ), 2]) u = .ok d := fun u => by
    by_cases h : 0 ≤ u ∧ u < 1
    · obtain ⟨a, r, h', _⟩ := C127_round_partial (q := ![(1:ℝ), 2]) hp one_pos h.1 h.2
      exact ⟨_, fun _ _ => h'⟩
    · exact ⟨(0, 0), fun h0 h1 => absurd ⟨h0, h1⟩ h⟩
  choose draw hdraw using hex
  refine ⟨draw, hdraw, ?_⟩
  exact C127_first_action (p := ![(1:ℝ) / 2, 1 / 2]) (q := ![(1:ℝ), 2]) hp (by norm_num) (by norm_num) one_pos
    (rewardLaw_continuous one_pos 1) hdraw

/-- **C127, disagreement.** Slates with continuous rewards: all positions of a round use the same uniform number, so the
rewards of a round always move together, and positions with equal expected reward always get the same reward. -/
theorem C127_slate_comonotone {L : ℕ} (m : Fin L → ℝ) {u v : ℝ} (h0 : 0 ≤ u) (huv : u < v) (h1 : v ≤ 1) :
    ∃ r r' : Fin L → ℝ, slateSharedSeedRound (List.ofFn m) u = List.ofFn r ∧
      slateSharedSeedRound (List.ofFn m) v = List.ofFn r' ∧ (∀ l, r l < r' l) ∧ ∀ l k, m l = m k → r l = r k := by
  refine ⟨fun l => truncRvs ((0 - m l) / 1) ((10 ^ 10 - m l) / 1) (m l) 1 u,
    fun l => truncRvs ((0 - m l) / 1) ((10 ^ 10 - m l) / 1) (m l) 1 v, ?_, ?_, fun l => ?_, fun l k h => ?_⟩
  · simp only [slateSharedSeedRound, List.map_ofFn]; rfl
  · simp only [slateSharedSeedRound, List.map_ofFn]; rfl
  · exact truncRvs_mono (reward_bounds_lt one_pos _) one_pos h0 huv h1
  · simp only [h]

example : ∃ r r' : Fin 2 → ℝ, slateSharedSeedRound (List.ofFn ![(1:ℝ), 3]) (1 / 4) = List.ofFn r ∧
    slateSharedSeedRound (List.ofFn ![(1:ℝ), 3]) (3 / 4) = List.ofFn r' ∧ ∀ l, r l < r' l := by
  obtain ⟨r, r', h1, h2, h3, _⟩ := C127_slate_comonotone ![(1:ℝ), 3] (u := 1 / 4) (v := 3 / 4) (by norm_num) (by norm_num)
    (by norm_num)
  exact ⟨r, r', h1, h2, h3⟩

end Obp
