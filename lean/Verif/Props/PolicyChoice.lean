import Verif.Spec.PolicyChoice
import Verif.Props.Tails
import Verif.Props.TailsBias

set_option linter.unusedSectionVars false

/-!
# Choosing the policy with the largest estimate

C195: candidate policies are evaluated on one and the same log, and the one with the largest estimate is deployed. The estimates of
different candidates depend on each other, and the largest one is the most likely to be too large.
-/

namespace Obp
open MeasureTheory ProbabilityTheory Filter Topology Log

/-- If no estimate misses by its tolerance, then the choice is good. -/
theorem choosesWell_of_misses {J : Type} {r : J → Py ℝ} {V tol : J → ℝ} (h : ∀ i, ¬ Misses (r i) (V i) (tol i)) :
    ChoosesWell r V tol := by
  have h' : ∀ i, ∃ x, r i = .ok x ∧ |x - V i| < tol i := fun i => not_not.1 (h i)
  choose x hx using h'
  refine ⟨x, fun i => (hx i).1, fun j hj i => ?_⟩
  have h1 := abs_lt.1 (hx i).2
  have h2 := abs_lt.1 (hx j).2
  have h3 := hj i
  linarith

/-- **C195.** Any estimators, also of slates, continuous actions or several loggers, and a different one for each candidate: the
probabilities of large errors (C189, C190) add up. -/
theorem C195_from_errors {Ω J : Type} [MeasurableSpace Ω] [Fintype J] {P : Measure Ω} [IsProbabilityMeasure P] {r : J → Ω → Py ℝ}
    {V tol : J → ℝ} {b : J → ℝ} (h : ∀ i, P.real {ω | Misses (r i ω) (V i) (tol i)} ≤ b i) :
    P.real {ω | ¬ ChoosesWell (fun i => r i ω) V tol} ≤ ∑ i, b i := by
  refine (measureReal_mono (s₂ := ⋃ i, {ω | Misses (r i ω) (V i) (tol i)}) fun ω hω => ?_).trans
    ((measureReal_iUnion_fintype_le _).trans (Finset.sum_le_sum fun i _ => h i))
  by_contra hc
  simp only [Set.mem_iUnion, Set.mem_ofPred_eq, not_exists] at hc hω
  exact hω (choosesWell_of_misses hc)

open LogStream

variable {Ω C J : Type} [MeasurableSpace Ω] [MeasurableSpace C] [Fintype J] {A L : ℕ} {P : Measure Ω} [IsProbabilityMeasure P]
variable {s : LogStream Ω C A} {piB m : C → Fin A → ℝ} {pos : C → Fin L} {piE q : J → C → Fin A → Fin L → ℝ}

/-- **C195.** Inverse propensity weighting, rewards in `[0, R]`, weights of all candidates at most `W`. -/
theorem C195_ipw (hs : s.LoggedBy P piB m) (hE : ∀ i, Covers piB pos (piE i)) {lam : Lam ℝ} (hl : ∀ i, NotClipped lam piB pos (piE i))
    {R W : ℝ} (hR : ∀ ω, s.rew 0 ω ∈ Set.Icc 0 R) (hW : ∀ i c a, piE i c a (pos c) / piB c a ≤ W) {n : ℕ} (hn : 0 < n) {t : ℝ}
    (ht : 0 ≤ t) :
    P.real {ω | ¬ ChoosesWell
      (fun i => (⟨.ipw, lam, false⟩ : Estimator ℝ).estimatePolicyValue (s.log piB pos (piE i) (q i) n ω).args)
      (fun i => s.value P pos (piE i) m) fun _ => t} ≤ 2 * Fintype.card J * Real.exp (-(2 * n * t ^ 2 / (W * R) ^ 2)) := by
  refine (C195_from_errors fun i => C189_ipw_bounded (q := q i) hs (hE i) (hl i) hR (hW i) hn ht).trans_eq ?_
  rw [Finset.sum_const, Finset.card_univ, nsmul_eq_mul]
  ring

/-- **C195.** Self-normalised inverse propensity weighting: only the spread of the rewards matters. -/
theorem C195_snipw (hs : s.LoggedBy P piB m) (hE : ∀ i, Covers piB pos (piE i)) (lam : Lam ℝ) {lo hi W : ℝ}
    (hR : ∀ᵐ ω ∂P, s.rew 0 ω ∈ Set.Icc lo hi) (hW : ∀ i c a, piE i c a (pos c) / piB c a ≤ W) {n : ℕ} (hn : 0 < n) {t : ℝ}
    (ht : 0 ≤ t) (ht' : t ≤ hi - lo) :
    P.real {ω | ¬ ChoosesWell
      (fun i => (⟨.snipw, lam, false⟩ : Estimator ℝ).estimatePolicyValue (s.log piB pos (piE i) (q i) n ω).args)
      (fun i => s.value P pos (piE i) m) fun _ => t} ≤
      2 * Fintype.card J * Real.exp (-(2 * n * t ^ 2 / (W * (hi - lo)) ^ 2)) := by
  refine (C195_from_errors fun i => C189_snipw (q := q i) hs (hE i) lam hR (hW i) hn ht ht').trans_eq ?_
  rw [Finset.sum_const, Finset.card_univ, nsmul_eq_mul]
  ring

/-- **C195.** Doubly robust estimates, one reward model per candidate, right or wrong. The bound of each candidate uses the range of
its own terms. -/
theorem C195_dr (hs : s.LoggedBy P piB m) (hE : ∀ i, Covers piB pos (piE i)) (hi : ∀ i, Integrable (s.ipwTerm piB pos (piE i) 0) P)
    (hq : ∀ i a, Measurable fun c => q i c a (pos c))
    (hqi : ∀ i a, Integrable (fun ω => piE i (s.ctx 0 ω) a (pos (s.ctx 0 ω)) * q i (s.ctx 0 ω) a (pos (s.ctx 0 ω))) P)
    {k : Kind} {lam : Lam ℝ} (hk : ∀ i, k = .dr ∧ NotClipped lam piB pos (piE i) ∨ (k = .switchDr ∨ k = .drOs) ∧ lam = .inf)
    {a b : J → ℝ} (hb : ∀ i, ∀ᵐ ω ∂P, s.drTerm piB pos (piE i) (q i) 0 ω ∈ Set.Icc (a i) (b i)) {n : ℕ} (hn : 0 < n) {t : ℝ}
    (ht : 0 ≤ t) :
    P.real {ω | ¬ ChoosesWell
      (fun i => (⟨k, lam, false⟩ : Estimator ℝ).estimatePolicyValue (s.log piB pos (piE i) (q i) n ω).args)
      (fun i => s.value P pos (piE i) m) fun _ => t} ≤ ∑ i, 2 * Real.exp (-(2 * n * t ^ 2 / (b i - a i) ^ 2)) :=
  C195_from_errors fun i => C189_dr (q := q i) hs (hE i) (hi i) (hq i) (hqi i) (hk i) (hb i) hn ht

/-- **C195.** Estimators with a finite hyperparameter (clipped, switching, shrunk, sub-Gaussian), whatever the weights and even if some
candidates choose actions that are never logged. Nothing but the probability that the hyperparameter takes from a candidate is
lost: a candidate with little of it is beaten only by candidates that lose a lot. -/
theorem C195_biased (hs : s.LoggedBy P piB m) (hE : ∀ i, IsPolicy pos (piE i)) {k : Kind} (hk : k.HasBias) {l R : ℝ} (hl : 0 < l)
    (hl1 : k = .sgIpw ∨ k = .sgDr → l < 1) (hq : ∀ i a, Measurable fun c => q i c a (pos c))
    (hR : ∀ᵐ ω ∂P, s.rew 0 ω ∈ Set.Icc 0 R) (hqR : ∀ i c a, q i c a (pos c) ∈ Set.Icc 0 R) (hmR : ∀ c a, m c a ∈ Set.Icc 0 R)
    {n : ℕ} (hn : 0 < n) {t : ℝ} (ht : 0 ≤ t) :
    P.real {ω | ¬ ChoosesWell
      (fun i => (⟨k, .fin l, false⟩ : Estimator ℝ).estimatePolicyValue (s.log piB pos (piE i) (q i) n ω).args)
      (fun i => s.value P pos (piE i) m) fun i => R * s.lost P piB pos (piE i) k l + t} ≤
      2 * Fintype.card J * Real.exp (-(2 * n * t ^ 2 / (k.spread l * R) ^ 2)) := by
  refine (C195_from_errors fun i => C190_error (q := q i) hs (hE i) hk hl hl1 (hq i) hR (hqR i) hmR hn ht).trans_eq ?_
  rw [Finset.sum_const, Finset.card_univ, nsmul_eq_mul]
  ring

/-- **C195.** How many rounds are enough: the number of candidates only enters through its logarithm. -/
theorem C195_sample_size [Nonempty J] (hs : s.LoggedBy P piB m) (hE : ∀ i, Covers piB pos (piE i)) {lam : Lam ℝ}
    (hl : ∀ i, NotClipped lam piB pos (piE i)) {R W : ℝ} (hR : ∀ ω, s.rew 0 ω ∈ Set.Icc 0 R)
    (hW : ∀ i c a, piE i c a (pos c) / piB c a ≤ W) {delta eps : ℝ} (hd : 0 < delta) (he : 0 < eps) (hWR : 0 < W * R) {n : ℕ}
    (hn : 0 < n) (hbig : 2 * (W * R) ^ 2 * Real.log (2 * Fintype.card J / delta) / eps ^ 2 ≤ n) :
    P.real {ω | ¬ ∃ x : J → ℝ,
      (∀ i, (⟨.ipw, lam, false⟩ : Estimator ℝ).estimatePolicyValue (s.log piB pos (piE i) (q i) n ω).args = .ok (x i)) ∧
      ∀ j, (∀ i, x i ≤ x j) → ∀ i, s.value P pos (piE i) m < s.value P pos (piE j) m + eps} ≤ delta := by
  have hJ : (0 : ℝ) < Fintype.card J := by exact_mod_cast Fintype.card_pos
  have key : 2 * Fintype.card J * Real.exp (-(2 * n * (eps / 2) ^ 2 / (W * R) ^ 2)) ≤ delta := by
    have h1 : Real.log (2 * Fintype.card J / delta) ≤ 2 * n * (eps / 2) ^ 2 / (W * R) ^ 2 := by
      rw [le_div_iff₀ (by positivity)]
      rw [div_le_iff₀ (by positivity)] at hbig
      linarith
    have h2 := Real.exp_le_exp.2 (neg_le_neg h1)
    rw [Real.exp_neg (Real.log _), Real.exp_log (by positivity), inv_div, le_div_iff₀ (by positivity)] at h2
    linarith
  have h := (C195_ipw (q := q) hs hE hl hR hW hn (half_pos he).le).trans key
  simpa only [ChoosesWell, add_halves] using h

/-- **C195.** Consistent estimates: from some number of rounds on, whichever candidate has the largest estimate is a best one. -/
theorem C195_eventually {e : J → Estimator ℝ}
    (h : ∀ i, ∀ᵐ ω ∂P, EstimatesTendTo (e i) (fun n => s.log piB pos (piE i) (q i) n ω) (s.value P pos (piE i) m)) :
    ∀ᵐ ω ∂P, ∀ᶠ n in atTop, ∃ x : J → ℝ, (∀ i, (e i).estimatePolicyValue (s.log piB pos (piE i) (q i) n ω).args = .ok (x i)) ∧
      ∀ j, (∀ i, x i ≤ x j) → ∀ i, s.value P pos (piE i) m ≤ s.value P pos (piE j) m := by
  filter_upwards [ae_all_iff.2 h] with ω hω
  choose x hx hl using hω
  have hlt : ∀ i j, s.value P pos (piE j) m < s.value P pos (piE i) m → ∀ᶠ n in atTop, x j n < x i n := fun i j hij =>
    (hl j).eventually_lt (hl i) hij
  have hlt' : ∀ᶠ n in atTop, ∀ i j, s.value P pos (piE j) m < s.value P pos (piE i) m → x j n < x i n :=
    eventually_all.2 fun i => eventually_all.2 fun j => by
      by_cases hij : s.value P pos (piE j) m < s.value P pos (piE i) m
      · exact (hlt i j hij).mono fun _ h _ => h
      · exact Eventually.of_forall fun _ h => absurd h hij
  filter_upwards [eventually_all.2 hx, hlt'] with n h1 h2
  refine ⟨fun i => x i n, h1, fun j hj i => ?_⟩
  by_contra hc
  exact absurd (h2 i j (not_le.1 hc)) (not_lt.2 (hj i))

/-- **C195.** Unbounded rewards and weights included, for inverse propensity weighting and its self-normalised version. -/
theorem C195_eventually_ipw (hs : s.LoggedBy P piB m) (hE : ∀ i, Covers piB pos (piE i))
    (hi : ∀ i, Integrable (fun ω => s.weight piB pos (piE i) ω * s.rew 0 ω) P) {lam : Lam ℝ} (k : Kind)
    (hk : k = .ipw ∧ (∀ i, NotClipped lam piB pos (piE i)) ∨ k = .snipw) :
    ∀ᵐ ω ∂P, ∀ᶠ n in atTop, ∃ x : J → ℝ,
      (∀ i, (⟨k, lam, false⟩ : Estimator ℝ).estimatePolicyValue (s.log piB pos (piE i) (q i) n ω).args = .ok (x i)) ∧
      ∀ j, (∀ i, x i ≤ x j) → ∀ i, s.value P pos (piE i) m ≤ s.value P pos (piE j) m := by
  refine C195_eventually (e := fun _ => ⟨k, lam, false⟩) fun i => ?_
  rcases hk with ⟨rfl, hl⟩ | rfl
  · exact C151_ipw hs (hE i) (hi i) (hl i)
  · exact C151_snipw hs (hE i) (hi i) lam

/-- **C195.** Doubly robust estimates; each candidate may come with its own reward model. -/
theorem C195_eventually_dr (hs : s.LoggedBy P piB m) (hE : ∀ i, Covers piB pos (piE i))
    (hi : ∀ i, Integrable (fun ω => s.weight piB pos (piE i) ω * s.rew 0 ω) P) (hq : ∀ i a, Measurable fun c => q i c a (pos c))
    (hqi : ∀ i a, Integrable (fun ω => piE i (s.ctx 0 ω) a (pos (s.ctx 0 ω)) * q i (s.ctx 0 ω) a (pos (s.ctx 0 ω))) P)
    {k : Kind} {lam : Lam ℝ} (hk : ∀ i, k = .dr ∧ NotClipped lam piB pos (piE i) ∨ (k = .switchDr ∨ k = .drOs) ∧ lam = .inf) :
    ∀ᵐ ω ∂P, ∀ᶠ n in atTop, ∃ x : J → ℝ,
      (∀ i, (⟨k, lam, false⟩ : Estimator ℝ).estimatePolicyValue (s.log piB pos (piE i) (q i) n ω).args = .ok (x i)) ∧
      ∀ j, (∀ i, x i ≤ x j) → ∀ i, s.value P pos (piE i) m ≤ s.value P pos (piE j) m :=
  C195_eventually (e := fun _ => ⟨k, lam, false⟩) fun i => C151_dr hs (hE i) (hi i) (hq i) (hqi i) (hk i)

/-! ### Cases -/

/-- Two candidates: one that favours the better action of each context, and its opposite. -/
noncomputable def exCandidates (b : Bool) (c : Bool) (a : Fin 2) (l : Fin 1) : ℝ := if b then exEval c a l else exEval (!c) a l

theorem exCandidates_covers (b : Bool) : Covers (fun _ _ => 1 / 2) (fun _ : Bool => (0 : Fin 1)) (exCandidates b) := by
  refine ⟨fun c l => ⟨fun a => ?_, ?_⟩, fun a => measurable_of_finite _, fun c a h => by norm_num at h⟩
  · unfold exCandidates exEval
    split <;> split <;> norm_num
  · cases b <;> cases c <;> simp [exCandidates, exEval, Fin.sum_univ_two] <;> norm_num

theorem exCandidates_value (b : Bool) :
    exStream.value (Measure.infinitePi fun _ : ℕ => exRoundLaw) (fun _ => (0 : Fin 1)) (exCandidates b) exMean =
      if b then 19 / 8 else 17 / 8 := by
  have := exStream_integral fun o => ∑ a, exCandidates b o.1 a 0 * exMean o.1 a
  refine Eq.trans this ?_
  simp only [Fintype.sum_prod_type, Fintype.sum_bool, Fin.sum_univ_two]
  cases b <;> norm_num [exCandidates, exEval, exMean]

theorem exReward_mem (o : ExRound) : exReward o ∈ Set.Icc 0 4 := by
  unfold exReward exMean
  generalize o.2.1 = a
  fin_cases a <;> constructor <;> split <;> split <;> norm_num

theorem exCandidates_weight (b c : Bool) (a : Fin 2) : exCandidates b c a 0 / (1 / 2) ≤ 3 / 2 := by
  unfold exCandidates exEval
  split <;> split <;> norm_num

/-- 5760 rounds tell the two candidates apart: with probability 19/20, the larger estimate is the one of the better candidate. -/
example : (Measure.infinitePi fun _ : ℕ => exRoundLaw).real {ω | ¬ ∃ x : Bool → ℝ,
      (∀ b, (⟨.ipw, .inf, false⟩ : Estimator ℝ).estimatePolicyValue
        (exStream.log (fun _ _ => 1 / 2) (fun _ => (0 : Fin 1)) (exCandidates b) (fun _ _ _ => 0) 5760 ω).args = .ok (x b)) ∧
      x false < x true} ≤ 1 / 20 := by
  have h := C195_sample_size (q := fun _ _ _ _ => 0) (R := 4) (W := 3 / 2) (delta := 1 / 20) (eps := 1 / 4) (n := 5760) (lam := .inf)
    exStream_logged exCandidates_covers (fun _ l h => by cases h) (fun ω => exReward_mem (ω 0)) (fun b c a => exCandidates_weight b c a)
    (by norm_num) (by norm_num) (by norm_num) (by norm_num) ?_
  · refine (measureReal_mono fun ω hω => ?_).trans h
    simp only [Set.mem_ofPred_eq] at hω ⊢
    rintro ⟨x, hx, hj⟩
    refine hω ⟨x, hx, ?_⟩
    by_contra hc
    have := hj false (fun b => by cases b; exacts [le_rfl, not_lt.1 hc]) true
    rw [exCandidates_value, exCandidates_value] at this
    norm_num at this
  · have h1 : Real.log 80 ≤ 5 := by
      rw [Real.log_le_iff_le_exp (by norm_num), show (5 : ℝ) = (5 : ℕ) * 1 by norm_num, Real.exp_nat_mul]
      refine le_trans (by norm_num : (80 : ℝ) ≤ 2.5 ^ 5) (pow_le_pow_left₀ (by norm_num) ?_ 5)
      linarith [Real.exp_one_gt_d9]
    norm_num
    linarith

/-- Self-normalised estimates, and doubly robust ones with reward models that predict 7 for one candidate and 1 for the other. -/
example {n : ℕ} (hn : 0 < n) {t : ℝ} (ht : 0 ≤ t) (ht' : t ≤ 4) :
    (Measure.infinitePi fun _ : ℕ => exRoundLaw).real {ω | ¬ ChoosesWell
      (fun b => (⟨.snipw, .inf, false⟩ : Estimator ℝ).estimatePolicyValue
        (exStream.log (fun _ _ => 1 / 2) (fun _ => (0 : Fin 1)) (exCandidates b) (fun _ _ _ => 0) n ω).args)
      (fun b => if b then 19 / 8 else 17 / 8) fun _ => t} ≤ 2 * 2 * Real.exp (-(2 * n * t ^ 2 / (3 / 2 * 4) ^ 2)) ∧
    (Measure.infinitePi fun _ : ℕ => exRoundLaw).real {ω | ¬ ChoosesWell
      (fun b => (⟨.dr, .inf, false⟩ : Estimator ℝ).estimatePolicyValue
        (exStream.log (fun _ _ => 1 / 2) (fun _ => (0 : Fin 1)) (exCandidates b) (fun _ _ _ => if b then 7 else 1) n ω).args)
      (fun b => if b then 19 / 8 else 17 / 8) fun _ => t} ≤
      ∑ b : Bool, 2 * Real.exp (-(2 * n * t ^ 2 / ((if b then 7 else 11 / 2) - (if b then -7 / 2 else -1 / 2)) ^ 2)) := by
  constructor
  · have h := C195_snipw (q := fun _ _ _ _ => 0) (lo := 0) (hi := 4) (W := 3 / 2) exStream_logged exCandidates_covers .inf
      (ae_of_all _ fun ω => exReward_mem (ω 0)) (fun b c a => exCandidates_weight b c a) hn ht (by linarith)
    simpa only [exCandidates_value, Fintype.card_bool, Nat.cast_ofNat, sub_zero] using h
  · have h := C195_dr (q := fun b _ _ _ => if b then 7 else 1) (k := .dr) (lam := .inf) exStream_logged exCandidates_covers
      (fun b => (exStream_memLp fun o => exReward o * (exCandidates b o.1 o.2.1 0 / (1 / 2))).integrable one_le_two)
      (fun _ _ => measurable_const)
      (fun b a => (exStream_memLp fun o => exCandidates b o.1 a 0 * if b then 7 else 1).integrable one_le_two)
      (fun _ => .inl ⟨rfl, fun l h => by cases h⟩) (a := fun b => if b then -7 / 2 else -1 / 2)
      (b := fun b => if b then 7 else 11 / 2) (fun b => ae_of_all _ fun ω => ?_) hn ht
    · simpa only [exCandidates_value] using h
    · change (∑ a, exCandidates b (ω 0).1 a 0 * (if b then 7 else 1)) + exCandidates b (ω 0).1 (ω 0).2.1 0 / (1 / 2) *
        (exReward (ω 0) - if b then 7 else 1) ∈ _
      obtain ⟨c, a, r⟩ := ω 0
      cases b <;> cases c <;> cases r <;> fin_cases a <;>
        norm_num [exCandidates, exEval, exReward, exMean, Fin.sum_univ_two]

/-- Different estimators for the two candidates. -/
example {n : ℕ} (hn : 0 < n) {t : ℝ} (ht : 0 ≤ t) (ht' : t ≤ 4) :
    (Measure.infinitePi fun _ : ℕ => exRoundLaw).real {ω | ¬ ChoosesWell
      (fun b => (⟨if b then .ipw else .snipw, .inf, false⟩ : Estimator ℝ).estimatePolicyValue
        (exStream.log (fun _ _ => 1 / 2) (fun _ => (0 : Fin 1)) (exCandidates b) (fun _ _ _ => 0) n ω).args)
      (fun b => if b then 19 / 8 else 17 / 8) fun _ => t} ≤ ∑ _b : Bool, 2 * Real.exp (-(2 * n * t ^ 2 / (3 / 2 * 4) ^ 2)) := by
  refine C195_from_errors fun b => ?_
  rw [← exCandidates_value]
  cases b
  · have h := C189_snipw (q := fun _ _ _ => 0) (lo := 0) (hi := 4) (W := 3 / 2) exStream_logged (exCandidates_covers false) .inf
      (ae_of_all _ fun ω => exReward_mem (ω 0)) (fun c a => exCandidates_weight false c a) hn ht (by linarith)
    rwa [sub_zero] at h
  · exact C189_ipw_bounded (q := fun _ _ _ => 0) (R := 4) (W := 3 / 2) exStream_logged (exCandidates_covers true)
      (fun l h => by cases h) (fun ω => exReward_mem (ω 0)) (fun c a => exCandidates_weight true c a) hn ht

/-- Switching at 1 takes the whole weight of the favoured actions from both candidates and relies on the predictions there. -/
example {n : ℕ} (hn : 0 < n) {t : ℝ} (ht : 0 ≤ t) : (Measure.infinitePi fun _ : ℕ => exRoundLaw).real {ω | ¬ ChoosesWell
      (fun b => (⟨.switchDr, .fin 1, false⟩ : Estimator ℝ).estimatePolicyValue
        (exStream.log (fun _ _ => 1 / 2) (fun _ => (0 : Fin 1)) (exCandidates b) (fun _ _ _ => 2) n ω).args)
      (fun b => if b then 19 / 8 else 17 / 8)
      fun b => 4 * exStream.lost (Measure.infinitePi fun _ : ℕ => exRoundLaw) (fun _ _ => 1 / 2) (fun _ => (0 : Fin 1)) (exCandidates b)
        .switchDr 1 + t} ≤ 2 * 2 * Real.exp (-(2 * n * t ^ 2 / (Kind.switchDr.spread 1 * 4) ^ 2)) := by
  have h := C195_biased (q := fun _ _ _ _ => 2) (k := .switchDr) (l := 1) (R := 4) exStream_logged
    (fun b => ⟨(exCandidates_covers b).dist, (exCandidates_covers b).meas⟩) (by simp [Kind.HasBias]) one_pos (by simp)
    (fun _ _ => measurable_const) (ae_of_all _ fun ω => exReward_mem (ω 0)) (fun _ _ _ => by constructor <;> norm_num)
    (fun c a => by unfold exMean; fin_cases a <;> constructor <;> split <;> norm_num) hn ht
  simpa only [exCandidates_value, Fintype.card_bool, Nat.cast_ofNat] using h

/-- Almost surely, the better candidate is found in the end, also with a wrong reward model. -/
example : ∀ᵐ ω ∂(Measure.infinitePi fun _ : ℕ => exRoundLaw), ∀ᶠ n in atTop, ∃ x : Bool → ℝ,
      (∀ b, (⟨.dr, .inf, false⟩ : Estimator ℝ).estimatePolicyValue
        (exStream.log (fun _ _ => 1 / 2) (fun _ => (0 : Fin 1)) (exCandidates b) (fun _ _ _ => 7) n ω).args = .ok (x b)) ∧
      x false < x true := by
  have h := C195_eventually_dr (J := Bool) (q := fun _ _ _ _ => 7) (k := .dr) (lam := .inf) exStream_logged exCandidates_covers
    (fun b => (exStream_memLp fun o => exCandidates b o.1 o.2.1 0 / (1 / 2) * exReward o).integrable one_le_two)
    (fun _ _ => measurable_const)
    (fun b a => (exStream_memLp fun o => exCandidates b o.1 a 0 * 7).integrable one_le_two)
    (fun _ => .inl ⟨rfl, fun l h => by cases h⟩)
  filter_upwards [h] with ω hω
  filter_upwards [hω] with n
  rintro ⟨x, hx, hj⟩
  refine ⟨x, hx, ?_⟩
  by_contra hc
  have := hj false (fun b => by cases b; exacts [le_rfl, not_lt.1 hc]) true
  rw [exCandidates_value, exCandidates_value] at this
  norm_num at this

end Obp
