import Verif.Lemmas.MeanSquares
import Verif.Spec.TunedConsistency
import Verif.Props.Consistency
import Verif.Props.SlopeOracle
import Verif.Props.Mse
import Verif.Props.AsymptoticNormality

set_option linter.unusedSectionVars false

/-!
# Consistency of the tuned estimators

C177: the data-driven choice of the hyperparameter does not spoil consistency.
-/

namespace Obp
open MeasureTheory ProbabilityTheory Filter Topology Log

variable {n A L : ℕ}

/-- The part of a round's value that does not depend on the weight. -/
noncomputable def baseValue (k : Kind) (g : Log ℝ n A L) (i : Fin n) : ℝ :=
  match k with
  | .ipw | .sgIpw => 0
  | _ => g.modelValue i

theorem round_shrunk {e : Estimator ℝ} (hk : e.kind.IsTunable) {g : Log ℝ n A L} {s : Fin n → ℝ}
    (hs : roundReward e g = some s) (i : Fin n) :
    s i = baseValue e.kind g i + shrunkWeight e (g.weight e.useEstimatedPscore i) * weighted e.kind g i := by
  obtain ⟨k, lam, est⟩ := e
  rcases hk with rfl | rfl | rfl | rfl | rfl | rfl
  · simp only [roundReward, Option.some.injEq] at hs
    subst hs
    simp [baseValue, shrunkWeight, weighted, mul_comm]
  · simp only [roundReward, Option.some.injEq] at hs
    subst hs
    simp [baseValue, shrunkWeight, weighted]
  · simp only [roundReward, Option.some.injEq] at hs
    subst hs
    cases lam with
    | inf => simp [baseValue, shrunkWeight, weighted, Lam.geB]
    | fin l => simp [baseValue, shrunkWeight, weighted, Lam.geB]
  · cases lam with
    | inf =>
      simp only [roundReward, Option.some.injEq] at hs
      subst hs
      simp [baseValue, shrunkWeight, weighted]
    | fin l =>
      simp only [roundReward] at hs
      split at hs
      · simp at hs
      · simp only [Option.some.injEq] at hs
        subst hs
        simp [baseValue, shrunkWeight, weighted]
  all_goals
    cases lam with
    | inf => simp [roundReward] at hs
    | fin l =>
      simp only [roundReward] at hs
      split at hs
      · simp at hs
      · simp only [Option.some.injEq] at hs
        subst hs
        simp [baseValue, shrunkWeight, weighted]

theorem plain_round {k : Kind} (hk : k.IsTunable) (est : Bool) (g : Log ℝ n A L) :
    roundReward ⟨k.plain, .inf, est⟩ g = some fun i => baseValue k g i + g.weight est i * weighted k g i := by
  rcases hk with rfl | rfl | rfl | rfl | rfl | rfl <;>
    simp [Kind.plain, roundReward, baseValue, weighted, Lam.clip, mul_comm]

/-- The distance between the estimate at a hyperparameter and the estimate with unmodified weights is what the tuning code
computes as bias. -/
theorem biasEstimate_eq {e : Estimator ℝ} (hk : e.kind.IsTunable) {g : Log ℝ n A L} (hg : g.Valid) {s : Fin n → ℝ}
    (hs : roundReward e g = some s) {u : ℝ}
    (hu : (Estimator.mk e.kind.plain .inf e.useEstimatedPscore).estimatePolicyValue g.args = .ok u) :
    biasEstimate e g = |avg s - u| := by
  rw [value_roundReward hg, plain_round hk] at hu
  simp only [Except.ok.injEq] at hu
  rw [← hu, ← avg_sub, biasEstimate, ← abs_neg]
  congr 1
  rw [← neg_one_mul, ← avg_mul_left]
  refine avg_congr fun i => ?_
  rw [round_shrunk hk hs]
  ring

theorem prepare_of_round {e : Estimator ℝ} {g : Log ℝ n A L} (hg : g.Valid) {s : Fin n → ℝ}
    (hs : roundReward e g = some s) : ∃ r, e.prepare g.args = .ok r := by
  have := rounds_eq hg e
  rw [hs] at this
  cases h : e.prepare g.args with
  | ok r => exact ⟨r, rfl⟩
  | error e => rw [h, py_bind_error] at this; simp [roundOutcome] at this

theorem args_nonemptyDist {g : Log ℝ n A L} (hg : g.Valid) : g.args.NonemptyDist := by
  intro x hx
  simp only [args, Arg3.arr.injEq] at hx
  subst hx
  exact ⟨by simpa using hg.nonempty, (g.position ⟨0, hg.nonempty⟩).pos⟩

/-- **C177.** Any log, `tuning_method="mse"`, first call. The value `v` that the tuned estimator returns is the estimate at one
of the candidates. Its squared distance to the estimate `u` with unmodified weights is at most the score of every candidate:
the variance of the candidate's rounds over `n`, plus the square of the distance between the candidate's estimate and `u` (plus
the width of the bias bound, if that is used). -/
theorem C177_mse_near_unmodified {argsort : List ℝ → List ℕ} {tq : ℝ → ℝ → ℝ} {t : Tuner}
    (hk : t.kind.IsTunable) (hsg : t.est = true → t.kind ≠ .sgIpw ∧ t.kind ≠ .sgDr) (hne : t.lambdas ≠ [])
    (hmeth : t.method = .mse) (hbest : t.best = none) (hd : 0 < t.delta ∧ t.delta ≤ 1)
    {g : Log ℝ n A L} (hg : g.Valid) (hnn : g.NonnegPolicy)
    {s : Lam ℝ → Fin n → ℝ} (hs : ∀ l ∈ t.lambdas, roundReward (t.base l) g = some (s l)) {u M : ℝ}
    (hu : (Estimator.mk t.kind.plain .inf t.est).estimatePolicyValue g.args = .ok u)
    (hM : IsGreatest (Set.range (g.weight t.est)) M) :
    ∃ v, (t.estimatePolicyValue argsort tq g.args).1 = .ok v ∧
      (∃ l ∈ t.lambdas, (t.base l).estimatePolicyValue g.args = .ok v) ∧
      ∀ l ∈ t.lambdas, (v - u) ^ 2 ≤
        popVar (s l) / n + (|avg (s l) - u| + biasWidth (g.weight t.est) t.useUB t.delta M) ^ 2 := by
  have hprep : ∀ l l', (t.base l).prepare g.args = (t.base l').prepare g.args := fun l l' => by
    obtain ⟨k, ls, m, ub, d, est, b⟩ := t; rfl
  obtain ⟨l₀, hl₀⟩ := List.exists_mem_of_ne_nil _ hne
  obtain ⟨r, hr⟩ := prepare_of_round hg (hs l₀ hl₀)
  have hbt : ∀ l ∈ t.lambdas, biasTerm (t.base l) g t.useUB t.delta M =
      |avg (s l) - u| + biasWidth (g.weight t.est) t.useUB t.delta M := by
    intro l hl
    have hb := biasEstimate_eq (e := t.base l) hk hg (hs l hl) hu
    unfold biasTerm biasWidth
    rw [hb]
    split
    · exact add_assoc _ _ _
    · exact (add_zero _).symm
  have hscore : ∀ l ∈ t.lambdas, (Estimator.mk t.kind l t.est).mseScore r t.useUB t.delta =
      .ok (popVar (s l) / n + (|avg (s l) - u| + biasWidth (g.weight t.est) t.useUB t.delta M) ^ 2) := by
    intro l hl
    rw [← hbt l hl]
    exact C31_mse_value (e := t.base l) hg hk (hs l hl) ((hprep l l₀).trans hr) hM hd.1 hd.2 t.useUB
  obtain ⟨l, pre, post, h1, h2, h3, -⟩ := C33_mse_minimiser t r hne hscore
  have hl : l ∈ t.lambdas := by rw [h2]; simp
  have hval : (t.base l).estimatePolicyValue g.args = .ok (avg (s l)) := by
    rw [value_roundReward hg, hs l hl]
  refine ⟨avg (s l), ?_, ⟨l, hl, hval⟩, fun l' hl' => le_trans ?_ (h3 l' hl')⟩
  · rw [C36_first_call_partial hk (args_nonemptyDist hg) hsg ((hprep .inf l₀).trans hr) hbest (l := l) (by
      unfold Tuner.tune
      rw [hmeth]
      exact h1)]
    exact hval
  · have hw : 0 ≤ biasWidth (g.weight t.est) t.useUB t.delta M := by
      unfold biasWidth
      split
      · have hM0 : 0 ≤ M := by
          obtain ⟨i, rfl⟩ := hM.1
          exact div_nonneg (hnn _ _ _) (usedPscore_pos hg _ i).le
        have := log_two_div_nonneg one_le_two hd.1 hd.2
        positivity
      · exact le_rfl
    have h5 : (avg (s l) - u) ^ 2 ≤ (|avg (s l) - u| + biasWidth (g.weight t.est) t.useUB t.delta M) ^ 2 := by
      rw [← sq_abs]
      have := abs_nonneg (avg (s l) - u)
      gcongr
      linarith
    have h6 : 0 ≤ popVar (s l) / n := div_nonneg (popVar_nonneg _) (Nat.cast_nonneg n)
    linarith

/-! ### Growing logs -/

theorem round_allowed {t : Tuner} (hk : t.kind.IsTunable) {l : Lam ℝ} (hl : AllowedLam t.kind l) {g : Log ℝ n A L}
    (hw : ∀ i, 0 ≤ g.weight t.est i) : roundReward (t.base l) g = some fun i =>
      baseValue t.kind g i + shrunkWeight (t.base l) (g.weight t.est i) * weighted t.kind g i := by
  suffices h : ∃ s, roundReward (t.base l) g = some s by
    obtain ⟨s, hs⟩ := h
    rw [hs]
    congr 1
    funext i
    exact round_shrunk (e := t.base l) hk hs i
  obtain ⟨k, ls, m, ub, d, est, b⟩ := t
  rcases hk with rfl | rfl | rfl | rfl | rfl | rfl
  · exact ⟨_, rfl⟩
  · exact ⟨_, rfl⟩
  · exact ⟨_, rfl⟩
  · cases l with
    | inf => exact ⟨_, rfl⟩
    | fin l =>
      refine ⟨_, if_neg ?_⟩
      rintro ⟨i, hi⟩
      have := hl.2.1 rfl
      nlinarith [sq_nonneg (g.weight est i)]
  all_goals
    cases l with
    | inf => simp [AllowedLam] at hl
    | fin l =>
      refine ⟨_, if_neg ?_⟩
      rintro ⟨i, hi⟩
      have h1 := hl.2.2 (by simp)
      have h2 := mul_nonneg hl.1 (hw i)
      simp only [Tuner.base] at h2 hi
      linarith

theorem shrunk_le {e : Estimator ℝ} (hl : AllowedLam e.kind e.lam) :
    ∃ C, 0 ≤ C ∧ ∀ w, 0 ≤ w → |shrunkWeight e w| ≤ C * w := by
  obtain ⟨k, lam, est⟩ := e
  have hclip : ∀ l : Lam ℝ, AllowedLam k l → ∀ w, 0 ≤ w → |l.clip w| ≤ 1 * w := by
    intro l hl w hw
    cases l with
    | inf => simp [Lam.clip, abs_of_nonneg hw]
    | fin l =>
      have : 0 ≤ min w l := le_min hw hl.1
      simp only [Lam.clip, abs_of_nonneg this, one_mul]
      exact min_le_left _ _
  have hid : ∀ w : ℝ, 0 ≤ w → |w| ≤ 1 * w := fun w hw => by rw [abs_of_nonneg hw, one_mul]
  have hsg : ∀ l : ℝ, 0 ≤ l → l < 1 → ∃ C, 0 ≤ C ∧ ∀ w, 0 ≤ w → |w / (1 - l + l * w)| ≤ C * w := by
    intro l h0 h1
    have hp : 0 < 1 - l := by linarith
    refine ⟨1 / (1 - l), by positivity, fun w hw => ?_⟩
    have : 0 ≤ l * w := mul_nonneg h0 hw
    rw [abs_of_nonneg (by positivity), div_mul_eq_mul_div, one_mul]
    gcongr
    linarith
  cases lam with
  | inf =>
    refine ⟨1, one_pos.le, fun w hw => ?_⟩
    cases k <;> simp only [shrunkWeight] <;> exact hid w hw
  | fin l =>
    cases k
    case sgIpw => exact hsg l hl.1 (hl.2.2 (Or.inl rfl))
    case sgDr => exact hsg l hl.1 (hl.2.2 (Or.inr rfl))
    all_goals
      refine ⟨1, one_pos.le, fun w hw => ?_⟩
      simp only [shrunkWeight]
    case switchDr =>
      split
      · exact hid w hw
      · simpa using hw
    case drOs =>
      have h0 := hl.2.1 rfl
      rw [abs_of_nonneg (by positivity), one_mul, div_le_iff₀ (by positivity)]
      nlinarith [pow_nonneg hw 3]
    all_goals first | exact hid w hw | exact hclip _ hl w hw

theorem popVar_eq (hn : 0 < n) (s : Fin n → ℝ) : popVar s = avg (fun i => s i ^ 2) - avg s ^ 2 := by
  unfold popVar
  have e1 : (fun i => (s i - avg s) ^ 2) = fun i => s i ^ 2 - (2 * avg s * s i - avg s ^ 2) := by
    funext i
    ring
  rw [e1, avg_sub, avg_sub, avg_mul_left, avg_const hn]
  ring

theorem popVar_le (s : Fin n → ℝ) : popVar s ≤ avg fun i => s i ^ 2 := by
  rcases Nat.eq_zero_or_pos n with rfl | hn
  · simp [popVar, avg]
  · rw [popVar_eq hn]
    linarith [sq_nonneg (avg s)]

section path
variable {t : Tuner} {g : ∀ n, Log ℝ n A L} {w y : ℕ → ℝ}

/-- What the limit statements need from one run of the experiment. -/
structure GoodPath (t : Tuner) (g : ∀ n, Log ℝ n A L) (w y : ℕ → ℝ) : Prop where
  valid : ∀ n, 0 < n → (g n).Valid
  nonneg : ∀ n, (g n).NonnegPolicy
  weight : ∀ n i, (g n).weight t.est i = w i
  weight_nonneg : ∀ i, 0 ≤ w i
  weight_mean : ∃ c, Tendsto (fun n => avg fun i : Fin n => w i) atTop (𝓝 c)
  size : ∀ n i, |baseValue t.kind (g n) i| + |w i * weighted t.kind (g n) i| ≤ y i
  size_mean : ∃ c, Tendsto (fun n => avg fun i : Fin n => y i) atTop (𝓝 c)

/-- The rounds of a candidate. -/
noncomputable def candRound (t : Tuner) (l : Lam ℝ) (g : Log ℝ n A L) (i : Fin n) : ℝ :=
  baseValue t.kind g i + shrunkWeight (t.base l) (g.weight t.est i) * weighted t.kind g i

theorem GoodPath.round (h : GoodPath t g w y) (hk : t.kind.IsTunable) {l : Lam ℝ} (hl : AllowedLam t.kind l) (n : ℕ) :
    roundReward (t.base l) (g n) = some (candRound t l (g n)) :=
  round_allowed hk hl fun i => by rw [h.weight]; exact h.weight_nonneg i

theorem GoodPath.size_nonneg (h : GoodPath t g w y) (i : ℕ) : 0 ≤ y i :=
  le_trans (by positivity) (h.size (i + 1) ⟨i, by omega⟩)

theorem GoodPath.variance (h : GoodPath t g w y) {l : Lam ℝ} (hl : AllowedLam t.kind l) :
    Tendsto (fun n => popVar (candRound t l (g n)) / n) atTop (𝓝 0) := by
  obtain ⟨C, hC, hbound⟩ := shrunk_le (e := t.base l) hl
  obtain ⟨c, hc⟩ := h.size_mean
  have h1 := (tendsto_mean_squares h.size_nonneg hc).const_mul ((1 + C) ^ 2)
  rw [mul_zero] at h1
  refine squeeze_zero (fun n => div_nonneg (popVar_nonneg _) (Nat.cast_nonneg n)) (fun n => ?_) h1
  rw [mul_div_assoc', ← avg_mul_left]
  gcongr
  refine (popVar_le _).trans (avg_mono fun i => ?_)
  rw [← mul_pow, ← sq_abs]
  have hsz := h.size n i
  have h0 := h.weight_nonneg i
  have hb := hbound (w i) h0
  gcongr
  calc |candRound t l (g n) i| ≤ |baseValue t.kind (g n) i| +
        |shrunkWeight (t.base l) ((g n).weight t.est i) * weighted t.kind (g n) i| := abs_add_le _ _
    _ ≤ |baseValue t.kind (g n) i| + C * |w i * weighted t.kind (g n) i| := by
        rw [h.weight, abs_mul, abs_mul, abs_of_nonneg h0, ← mul_assoc]
        gcongr
    _ ≤ (1 + C) * y i := by
        have h2 := abs_nonneg (baseValue t.kind (g n) i)
        have h3 := abs_nonneg (w i * weighted t.kind (g n) i)
        nlinarith

theorem GoodPath.width (h : GoodPath t g w y) (hd : 0 < t.delta ∧ t.delta ≤ 1) {M : ℕ → ℝ}
    (hM : ∀ n, 0 < n → IsGreatest (Set.range ((g n).weight t.est)) (M n)) :
    Tendsto (fun n => biasWidth ((g n).weight t.est) t.useUB t.delta (M n)) atTop (𝓝 0) := by
  unfold biasWidth
  split
  swap
  · exact tendsto_const_nhds
  obtain ⟨c, hc⟩ := h.weight_mean
  have hlog := log_two_div_nonneg one_le_two hd.1 hd.2
  have h1 : Tendsto (fun n : ℕ => √(2 * avg (fun i => (g n).weight t.est i ^ 2) * Real.log (2 / t.delta) / n)) atTop (𝓝 0) := by
    have h2 := ((tendsto_mean_squares h.weight_nonneg hc).const_mul (2 * Real.log (2 / t.delta))).sqrt
    rw [mul_zero, Real.sqrt_zero] at h2
    refine h2.congr fun n => ?_
    congr 1
    simp only [h.weight]
    ring
  have h3 : Tendsto (fun n : ℕ => M n / n) atTop (𝓝 0) := by
    refine Metric.tendsto_atTop.2 fun ε hε => ?_
    obtain ⟨N, hN⟩ := eventually_atTop.1 ((eventually_le_of_avg h.weight_nonneg hc (half_pos hε)).and (eventually_gt_atTop 0))
    refine ⟨N, fun n hn => ?_⟩
    obtain ⟨h4, h5⟩ := hN n hn
    obtain ⟨i, hi⟩ := (hM n h5).1
    rw [h.weight] at hi
    have hn' : (0 : ℝ) < n := by exact_mod_cast h5
    rw [Real.dist_eq, sub_zero, ← hi, abs_of_nonneg (div_nonneg (h.weight_nonneg i) hn'.le), div_lt_iff₀ hn']
    have := h4 i
    have := mul_pos hε hn'
    linarith
  have h6 := h1.add (h3.const_mul (2 * Real.log (2 / t.delta) / 3))
  rw [mul_zero, add_zero] at h6
  refine h6.congr fun n => ?_
  congr 1
  ring

/-- The limit statement on one run of the experiment. -/
theorem GoodPath.within (h : GoodPath t g w y) {argsort : List ℝ → List ℕ} {tq : ℝ → ℝ → ℝ} (hk : t.kind.IsTunable)
    (hsg : t.est = true → t.kind ≠ .sgIpw ∧ t.kind ≠ .sgDr)
    (hmeth : t.method = .mse) (hbest : t.best = none) (hd : 0 < t.delta ∧ t.delta ≤ 1)
    (hal : ∀ l ∈ t.lambdas, AllowedLam t.kind l) {V : ℝ}
    (hV : EstimatesTendTo ⟨t.kind.plain, .inf, t.est⟩ g V) {l : Lam ℝ} (hl : l ∈ t.lambdas) {v : ℝ}
    (hv : EstimatesTendTo (t.base l) g v) : TunedWithin argsort tq t g V |v - V| := by
  have hne : t.lambdas ≠ [] := List.ne_nil_of_mem hl
  obtain ⟨u, hu, hul⟩ := hV
  obtain ⟨z, hz, hzl⟩ := hv
  have hex : ∀ n, 0 < n → ∃ M, IsGreatest (Set.range ((g n).weight t.est)) M := fun n hn => exists_greatest hn _
  choose! M hM using hex
  have hscore : Tendsto (fun n => √(popVar (candRound t l (g n)) / n +
      (|z n - u n| + biasWidth ((g n).weight t.est) t.useUB t.delta (M n)) ^ 2) + |u n - V|) atTop (𝓝 |v - V|) := by
    have h1 := (((h.variance (hal l hl)).add ((((hzl.sub hul).abs).add (h.width hd hM)).pow 2)).sqrt).add
      ((hul.sub_const V).abs)
    rw [zero_add, add_zero, Real.sqrt_sq (abs_nonneg _), sub_self, abs_zero, add_zero] at h1
    exact h1
  have hrun : ∀ᶠ n in atTop, ∃ x, (t.estimatePolicyValue argsort tq (g n).args).1 = .ok x ∧
      |x - V| ≤ √(popVar (candRound t l (g n)) / n +
      (|z n - u n| + biasWidth ((g n).weight t.est) t.useUB t.delta (M n)) ^ 2) + |u n - V| := by
    filter_upwards [hu, hz, eventually_gt_atTop 0] with n hun hzn hn
    obtain ⟨x, h1, -, h2⟩ := C177_mse_near_unmodified (argsort := argsort) (tq := tq) hk hsg hne hmeth hbest hd (h.valid n hn)
      (h.nonneg n) (fun l hl => h.round hk (hal l hl) n) hun (hM n hn)
    refine ⟨x, h1, ?_⟩
    have h3 := h2 l hl
    have h4 : avg (candRound t l (g n)) = z n := by
      rw [value_roundReward (h.valid n hn), h.round hk (hal l hl) n] at hzn
      simpa using hzn
    rw [h4] at h3
    have h5 := Real.abs_le_sqrt h3
    calc |x - V| = |(x - u n) + (u n - V)| := by ring_nf
      _ ≤ _ := (abs_add_le _ _).trans (by linarith)
  obtain ⟨N, hN⟩ := eventually_atTop.1 hrun
  have hx : ∀ n, ∃ x, N ≤ n → (t.estimatePolicyValue argsort tq (g n).args).1 = .ok x ∧
      |x - V| ≤ √(popVar (candRound t l (g n)) / n +
      (|z n - u n| + biasWidth ((g n).weight t.est) t.useUB t.delta (M n)) ^ 2) + |u n - V| := fun n => by
    by_cases hn : N ≤ n
    · obtain ⟨x, hx⟩ := hN n hn
      exact ⟨x, fun _ => hx⟩
    · exact ⟨0, fun h => absurd h hn⟩
  choose x hx using hx
  refine ⟨x, eventually_atTop.2 ⟨N, fun n hn => (hx n hn).1⟩, fun ε hε => ?_⟩
  filter_upwards [eventually_ge_atTop N, hscore.eventually (ge_mem_nhds (lt_add_of_pos_right _ hε))] with n hn h6
  exact (hx n hn).2.trans h6

theorem TunedWithin.tendsto {argsort : List ℝ → List ℕ} {tq : ℝ → ℝ → ℝ} {V : ℝ} (h : TunedWithin argsort tq t g V 0) :
    TunedTendTo argsort tq t g V := by
  obtain ⟨x, h1, h2⟩ := h
  refine ⟨x, h1, Metric.tendsto_atTop.2 fun ε hε => ?_⟩
  obtain ⟨N, hN⟩ := eventually_atTop.1 (h2 (ε / 2) (half_pos hε))
  refine ⟨N, fun n hn => ?_⟩
  rw [Real.dist_eq]
  have := hN n hn
  linarith

theorem GoodPath.estimates (h : GoodPath t g w y) (hk : t.kind.IsTunable) {l : Lam ℝ} (hl : AllowedLam t.kind l) {v : ℝ}
    (hv : Tendsto (fun n => avg (candRound t l (g n))) atTop (𝓝 v)) : EstimatesTendTo (t.base l) g v :=
  LogStream.tendsto_of_rounds h.valid (Eventually.of_forall fun n => h.round hk hl n) hv

/-- SLOPE on one run of the experiment. -/
theorem GoodPath.slope (h : GoodPath t g w y) {argsort : List ℝ → List ℕ} (hsort : IsArgsort argsort) {tq : ℝ → ℝ → ℝ}
    (hk : t.kind.IsTunable) (hsg : t.est = true → t.kind ≠ .sgIpw ∧ t.kind ≠ .sgDr)
    (hmeth : t.method = .slope) (hbest : t.best = none) (hd : 0 ≤ t.delta ∧ t.delta ≤ 1) {B : ℝ}
    (htq : ∀ᶠ n : ℕ in atTop, 0 < tq (n - 1) (1 - t.delta) ∧ tq (n - 1) (1 - t.delta) ≤ B)
    (hal : ∀ l ∈ t.lambdas, AllowedLam t.kind l) {l₀ : Lam ℝ} (hl₀ : l₀ ∈ t.lambdas)
    (hvar : ∀ l ∈ t.lambdas, l ≠ l₀ → ∀ᶠ n in atTop, popVar (candRound t l (g n)) < popVar (candRound t l₀ (g n))) {v : ℝ}
    (hv : EstimatesTendTo (t.base l₀) g v) : TunedTendTo argsort tq t g v := by
  classical
  obtain ⟨z, hz, hzl⟩ := hv
  have hvar' : ∀ᶠ n in atTop, ∀ l ∈ t.lambdas.toFinset, l ≠ l₀ →
      popVar (candRound t l (g n)) < popVar (candRound t l₀ (g n)) := by
    rw [eventually_all_finset]
    intro l hl
    by_cases hne : l = l₀
    · exact Eventually.of_forall fun n h => absurd hne h
    · filter_upwards [hvar l (List.mem_toFinset.1 hl) hne] with n hn _ using hn
  have hrun : ∀ᶠ n : ℕ in atTop, ∃ x, (t.estimatePolicyValue argsort tq (g n).args).1 = .ok x ∧
      |x - z n| ≤ (√6 + 3) * (√(popVar (candRound t l₀ (g n)) / n * 2) * B) := by
    filter_upwards [hz, hvar', htq, eventually_ge_atTop 2] with n hzn hvn htn hn
    have hpos : 0 < n := by omega
    have hz' : avg (candRound t l₀ (g n)) = z n := by
      rw [value_roundReward (h.valid n hpos), h.round hk (hal l₀ hl₀) n] at hzn
      simpa using hzn
    set D : ℝ := ∑ l ∈ t.lambdas.toFinset, |avg (candRound t l (g n)) - z n| with hD
    have hD0 : 0 ≤ D := Finset.sum_nonneg fun _ _ => abs_nonneg _
    obtain ⟨x, h1, h2⟩ := C149_tuned_value hsort hk hsg (List.ne_nil_of_mem hl₀) hmeth hbest hd (h.valid n hpos) hn htn.1
      (fun l hl => h.round hk (hal l hl) n) (z n) (fun l => if l = l₀ then 0 else D)
      (fun l _ => by split <;> simp [hD0]) (fun l hl l' hl' hle => by
        by_cases e1 : l = l₀
        · rw [if_pos e1]
          split <;> simp [hD0]
        · rw [if_neg e1]
          by_cases e2 : l' = l₀
          · subst e2
            exact absurd hle (not_le.2 (hvn l (List.mem_toFinset.2 hl) e1))
          · rw [if_neg e2]) (fun l hl => by
        have hw : 0 ≤ √(popVar (candRound t l (g n)) / (n - 1)) * tq (n - 1) (1 - t.delta) :=
          mul_nonneg (Real.sqrt_nonneg _) htn.1.le
        by_cases e1 : l = l₀
        · subst e1
          rw [if_pos rfl, hz', sub_self, abs_zero]
          linarith
        · rw [if_neg e1]
          have : |avg (candRound t l (g n)) - z n| ≤ D :=
            Finset.single_le_sum (f := fun l => |avg (candRound t l (g n)) - z n|) (fun _ _ => abs_nonneg _)
              (List.mem_toFinset.2 hl)
          linarith)
    refine ⟨x, h1, (h2 l₀ hl₀).trans ?_⟩
    rw [if_pos rfl, zero_add]
    have hn2 : (2 : ℝ) ≤ n := by exact_mod_cast hn
    have hpv := popVar_nonneg (candRound t l₀ (g n))
    have h3 : popVar (candRound t l₀ (g n)) / (n - 1) ≤ popVar (candRound t l₀ (g n)) / n * 2 := by
      rw [div_mul_eq_mul_div, div_le_div_iff₀ (by linarith) (by linarith)]
      nlinarith
    exact mul_le_mul_of_nonneg_left (mul_le_mul (Real.sqrt_le_sqrt h3) htn.2 htn.1.le (Real.sqrt_nonneg _))
      (by positivity)
  obtain ⟨N, hN⟩ := eventually_atTop.1 hrun
  have hx : ∀ n, ∃ x, N ≤ n → (t.estimatePolicyValue argsort tq (g n).args).1 = .ok x ∧
      |x - z n| ≤ (√6 + 3) * (√(popVar (candRound t l₀ (g n)) / n * 2) * B) := fun n => by
    by_cases hn : N ≤ n
    · obtain ⟨x, hx⟩ := hN n hn
      exact ⟨x, fun _ => hx⟩
    · exact ⟨0, fun h => absurd h hn⟩
  choose x hx using hx
  refine ⟨x, eventually_atTop.2 ⟨N, fun n hn => (hx n hn).1⟩, ?_⟩
  have h1 := ((((h.variance (hal l₀ hl₀)).mul_const 2).sqrt).mul_const B).const_mul (√6 + 3)
  rw [zero_mul, Real.sqrt_zero, zero_mul, mul_zero] at h1
  have h2 : Tendsto (fun n => x n - z n) atTop (𝓝 0) := by
    refine squeeze_zero_norm' ?_ h1
    filter_upwards [eventually_ge_atTop N] with n hn
    exact (hx n hn).2
  have h3 := h2.add hzl
  rw [zero_add] at h3
  exact h3.congr fun n => by ring

end path

theorem shrunk_meas (e : Estimator ℝ) : Measurable (shrunkWeight e) := by
  obtain ⟨k, lam, est⟩ := e
  have hclip : ∀ l : Lam ℝ, Measurable l.clip := by
    intro l
    cases l with
    | inf => exact measurable_id
    | fin l => exact measurable_id.min measurable_const
  have hos : ∀ l : ℝ, Measurable fun w : ℝ => l * w / (w ^ 2 + l) := fun l => by fun_prop
  have hsg : ∀ l : ℝ, Measurable fun w : ℝ => w / (1 - l + l * w) := fun l => by fun_prop
  have hsw : ∀ l : ℝ, Measurable fun w : ℝ => if w ≤ l then w else 0 := fun l =>
    Measurable.ite measurableSet_Iic measurable_id measurable_const
  cases lam with
  | inf => cases k <;> exact measurable_id
  | fin l =>
    cases k <;> first | exact hclip (.fin l) | exact hsw l | exact hos l | exact hsg l | exact measurable_id

namespace LogStream
variable {Ω C : Type} [MeasurableSpace Ω] [MeasurableSpace C] {P : Measure Ω} [IsProbabilityMeasure P]
variable {s : LogStream Ω C A} {piB m : C → Fin A → ℝ} {pos : C → Fin L} {piE q : C → Fin A → Fin L → ℝ}

/-- The value of a round as a function of context, action and reward. -/
noncomputable def tunedFn (piB : C → Fin A → ℝ) (pos : C → Fin L) (piE q : C → Fin A → Fin L → ℝ) (k : Kind) (l : Lam ℝ)
    (x : C × Fin A × ℝ) : ℝ :=
  match k with
  | .ipw | .sgIpw => shrunkWeight ⟨k, l, false⟩ (piE x.1 x.2.1 (pos x.1) / piB x.1 x.2.1) * x.2.2
  | _ => (∑ a, piE x.1 a (pos x.1) * q x.1 a (pos x.1)) +
      shrunkWeight ⟨k, l, false⟩ (piE x.1 x.2.1 (pos x.1) / piB x.1 x.2.1) * (x.2.2 - q x.1 x.2.1 (pos x.1))

theorem tunedTerm_fn (k : Kind) (l : Lam ℝ) (i : ℕ) (ω : Ω) :
    s.tunedTerm piB pos piE q k l i ω = tunedFn piB pos piE q k l (s.ctx i ω, s.act i ω, s.rew i ω) := by
  cases k <;> rfl

theorem tunedTerm_round (hE : Covers piB pos piE) {t : Tuner} (hest : t.est = false) (hk : t.kind.IsTunable) (l : Lam ℝ) (n : ℕ)
    (ω : Ω) (i : Fin n) : candRound t l (s.log piB pos piE q n ω) i = s.tunedTerm piB pos piE q t.kind l i ω := by
  obtain ⟨k, ls, me, ub, d, est, b⟩ := t
  simp only at hest
  subst hest
  have hmv := log_modelValue (s := s) (q := q) hE n ω i
  rcases hk with rfl | rfl | rfl | rfl | rfl | rfl <;>
    simp only [candRound, baseValue, weighted, tunedTerm, hmv, zero_add, Tuner.base] <;> rfl

theorem plain_cases {k : Kind} (hk : k.IsTunable) : (k = .ipw ∨ k = .sgIpw) ∧ k.plain = .ipw ∨
    (k = .dr ∨ k = .switchDr ∨ k = .drOs ∨ k = .sgDr) ∧ k.plain = .dr := by
  rcases hk with rfl | rfl | rfl | rfl | rfl | rfl <;> simp [Kind.plain]

theorem LoggedBy.tunedFn_meas (hs : s.LoggedBy P piB m) (hE : Covers piB pos piE) {k : Kind} (hk : k.IsTunable)
    (hq : s.ModelOk pos piE q P k) (l : Lam ℝ) : Measurable (tunedFn piB pos piE q k l) := by
  have hw := (shrunk_meas ⟨k, l, false⟩).comp (hs.weightFn_meas hE)
  have hr : Measurable fun x : C × Fin A × ℝ => x.2.2 := measurable_snd.comp measurable_snd
  rcases plain_cases hk with ⟨h, -⟩ | ⟨h, hp⟩
  · rcases h with rfl | rfl <;> exact hw.mul hr
  · obtain ⟨h1, -⟩ := hq hp
    have hqm : Measurable fun x : C × Fin A => q x.1 x.2 (pos x.1) := measurable_from_prod_countable_left h1
    have h2 : Measurable fun x : C × Fin A × ℝ => ∑ a, piE x.1 a (pos x.1) * q x.1 a (pos x.1) :=
      (Finset.measurable_fun_sum _ fun a _ => (hE.meas a).mul (h1 a)).comp measurable_fst
    have h3 := h2.add (hw.mul (hr.sub (hqm.comp (measurable_fst.prodMk (measurable_fst.comp measurable_snd)))))
    rcases h with rfl | rfl | rfl | rfl <;> exact h3

/-- A bound on what is averaged. -/
noncomputable def sizeFn (piB : C → Fin A → ℝ) (pos : C → Fin L) (piE q : C → Fin A → Fin L → ℝ) (k : Kind)
    (x : C × Fin A × ℝ) : ℝ :=
  match k.plain with
  | .ipw => |piE x.1 x.2.1 (pos x.1) / piB x.1 x.2.1 * x.2.2|
  | _ => |∑ a, piE x.1 a (pos x.1) * q x.1 a (pos x.1)| +
      |piE x.1 x.2.1 (pos x.1) / piB x.1 x.2.1 * (x.2.2 - q x.1 x.2.1 (pos x.1))|

theorem LoggedBy.sizeFn_int (hs : s.LoggedBy P piB m) (hE : Covers piB pos piE)
    (hi : Integrable (fun ω => s.weight piB pos piE ω * s.rew 0 ω) P) {k : Kind} (hk : k.IsTunable)
    (hq : s.ModelOk pos piE q P k) : Measurable (sizeFn piB pos piE q k) ∧
      Integrable (fun ω => sizeFn piB pos piE q k (s.ctx 0 ω, s.act 0 ω, s.rew 0 ω)) P := by
  have hw := hs.weightFn_meas hE
  have hr : Measurable fun x : C × Fin A × ℝ => x.2.2 := measurable_snd.comp measurable_snd
  rcases plain_cases hk with ⟨-, hp⟩ | ⟨-, hp⟩
  · refine ⟨?_, ?_⟩
    · unfold sizeFn
      rw [hp]
      exact (hw.mul hr).norm
    · unfold sizeFn
      rw [hp]
      exact hi.abs
  · obtain ⟨h1, h4⟩ := hq hp
    have hqm : Measurable fun x : C × Fin A => q x.1 x.2 (pos x.1) := measurable_from_prod_countable_left h1
    have h2 : Measurable fun x : C × Fin A × ℝ => ∑ a, piE x.1 a (pos x.1) * q x.1 a (pos x.1) :=
      (Finset.measurable_fun_sum _ fun a _ => (hE.meas a).mul (h1 a)).comp measurable_fst
    have h3 := hw.mul (hr.sub (hqm.comp (measurable_fst.prodMk (measurable_fst.comp measurable_snd))))
    refine ⟨?_, ?_⟩
    · unfold sizeFn
      rw [hp]
      exact h2.norm.add h3.norm
    · unfold sizeFn
      rw [hp]
      have h5 := (hs.weighted hE (h := fun c a => q c a (pos c)) h1 h4).1
      have h6 : Integrable (fun ω => ∑ a, piE (s.ctx 0 ω) a (pos (s.ctx 0 ω)) * q (s.ctx 0 ω) a (pos (s.ctx 0 ω))) P :=
        integrable_finsetSum _ fun a _ => h4 a
      refine h6.abs.add ((hi.sub h5).abs.congr (ae_of_all _ fun ω => ?_))
      simp only [Pi.sub_apply, LogStream.weight]
      rw [mul_sub]

theorem LoggedBy.goodPath (hs : s.LoggedBy P piB m) (hE : Covers piB pos piE)
    (hi : Integrable (fun ω => s.weight piB pos piE ω * s.rew 0 ω) P) {t : Tuner} (hest : t.est = false) (hk : t.kind.IsTunable)
    (hq : s.ModelOk pos piE q P t.kind) :
    ∀ᵐ ω ∂P, GoodPath t (fun n => s.log piB pos piE q n ω)
      (fun i => piE (s.ctx i ω) (s.act i ω) (pos (s.ctx i ω)) / piB (s.ctx i ω) (s.act i ω))
      (fun i => sizeFn piB pos piE q t.kind (s.ctx i ω, s.act i ω, s.rew i ω)) := by
  obtain ⟨h1, h2⟩ := hs.sizeFn_int hE hi hk hq
  filter_upwards [hs.log_valid (q := q) hE, hs.lln_weight (q := q) hE,
    hs.lln (f := fun c a r => sizeFn piB pos piE q t.kind (c, a, r)) h1 h2, hs.pscore_pos] with ω hv hw hz hp
  refine ⟨hv, fun n i a l => (hE.dist _ _).nonneg _, fun n i => by rw [hest]; rfl,
    fun i => div_nonneg ((hE.dist _ _).nonneg _) (hp i).le, ⟨1, hw⟩, fun n i => ?_, ⟨_, hz⟩⟩
  have hmv := log_modelValue (s := s) (q := q) hE n ω i
  rcases plain_cases hk with ⟨h, hpl⟩ | ⟨h, hpl⟩
  · simp only [sizeFn, hpl]
    rcases h with h | h <;> simp only [baseValue, Obp.weighted, h, abs_zero, zero_add] <;> exact le_rfl
  · simp only [sizeFn, hpl]
    rcases h with h | h | h | h <;> simp only [baseValue, Obp.weighted, h, hmv] <;> exact le_rfl

theorem LoggedBy.tuned_lln (hs : s.LoggedBy P piB m) (hE : Covers piB pos piE)
    (hi : Integrable (fun ω => s.weight piB pos piE ω * s.rew 0 ω) P) {t : Tuner} (hest : t.est = false) (hk : t.kind.IsTunable)
    (hq : s.ModelOk pos piE q P t.kind) {l : Lam ℝ} (hl : AllowedLam t.kind l) :
    ∀ᵐ ω ∂P, Tendsto (fun n => avg (candRound t l (s.log piB pos piE q n ω))) atTop
      (𝓝 (∫ ω, s.tunedTerm piB pos piE q t.kind l 0 ω ∂P)) := by
  have hint : Integrable (fun ω => tunedFn piB pos piE q t.kind l (s.ctx 0 ω, s.act 0 ω, s.rew 0 ω)) P := by
    obtain ⟨h1, h2⟩ := hs.sizeFn_int hE hi hk hq
    obtain ⟨B, hB, hb⟩ := shrunk_le (e := t.base l) hl
    have hm : Measurable fun ω => (s.ctx 0 ω, s.act 0 ω, s.rew 0 ω) :=
      (hs.ctx_meas 0).prodMk ((hs.act_meas 0).prodMk (hs.rew_meas 0))
    refine (h2.const_mul (1 + B)).mono' ((hs.tunedFn_meas hE hk hq l).comp hm).aestronglyMeasurable ?_
    filter_upwards [hs.goodPath hE hi hest hk hq] with ω hg
    have h3 := tunedTerm_round (s := s) (q := q) hE hest hk l 1 ω 0
    have h4 := hg.size 1 0
    have h5 := hb _ (hg.weight_nonneg 0)
    have h6 := hg.weight 1 0
    rw [tunedTerm_fn] at h3
    simp only [Fin.isValue, Fin.val_zero] at h3 h4 h5 h6
    rw [← h3, Real.norm_eq_abs]
    refine (abs_add_le _ _).trans ?_
    rw [h6, abs_mul]
    rw [abs_mul, abs_of_nonneg (hg.weight_nonneg 0)] at h4
    have h7 := mul_le_mul_of_nonneg_right h5 (abs_nonneg (Obp.weighted t.kind (s.log piB pos piE q 1 ω) 0))
    have h8 := abs_nonneg (baseValue t.kind (s.log piB pos piE q 1 ω) 0)
    have h9 := mul_nonneg (hg.weight_nonneg 0) (abs_nonneg (Obp.weighted t.kind (s.log piB pos piE q 1 ω) 0))
    nlinarith
  filter_upwards [hs.lln (f := fun c a r => tunedFn piB pos piE q t.kind l (c, a, r)) (hs.tunedFn_meas hE hk hq l) hint]
    with ω hω
  simp only [tunedTerm_fn]
  refine hω.congr fun n => avg_congr fun i => ?_
  rw [tunedTerm_round hE hest hk, tunedTerm_fn]

theorem LoggedBy.plain_tends (hs : s.LoggedBy P piB m) (hE : Covers piB pos piE)
    (hi : Integrable (fun ω => s.weight piB pos piE ω * s.rew 0 ω) P) {k : Kind} (hk : k.IsTunable)
    (hq : s.ModelOk pos piE q P k) :
    ∀ᵐ ω ∂P, EstimatesTendTo ⟨k.plain, .inf, false⟩ (fun n => s.log piB pos piE q n ω) (s.value P pos piE m) := by
  rcases plain_cases hk with ⟨-, hp⟩ | ⟨-, hp⟩
  · rw [hp]
    exact C151_ipw hs hE hi (fun l h => by cases h)
  · rw [hp]
    obtain ⟨h1, h2⟩ := hq hp
    exact C151_dr hs hE hi h1 h2 (Or.inl ⟨rfl, fun l h => by cases h⟩)

end LogStream

open LogStream
variable {Ω C : Type} [MeasurableSpace Ω] [MeasurableSpace C] {P : Measure Ω} [IsProbabilityMeasure P]
variable {s : LogStream Ω C A} {piB m : C → Fin A → ℝ} {pos : C → Fin L} {piE q : C → Fin A → Fin L → ℝ}

/-- **C177.** `tuning_method="mse"`, any bandit data. With probability one, the estimates at every candidate tend to a limit, and
the distance between what a new tuned estimator returns and the value of the evaluation policy is, in the limit, at most that
of the best candidate. -/
theorem C177_mse (hs : s.LoggedBy P piB m) (hE : Covers piB pos piE)
    (hi : Integrable (fun ω => s.weight piB pos piE ω * s.rew 0 ω) P) {t : Tuner} (hk : t.kind.IsTunable)
    (hq : s.ModelOk pos piE q P t.kind) (hest : t.est = false) (hmeth : t.method = .mse) (hbest : t.best = none)
    (hd : 0 < t.delta ∧ t.delta ≤ 1) (hal : ∀ l ∈ t.lambdas, AllowedLam t.kind l) (argsort : List ℝ → List ℕ)
    (tq : ℝ → ℝ → ℝ) :
    ∀ᵐ ω ∂P, ∀ l ∈ t.lambdas,
      EstimatesTendTo (t.base l) (fun n => s.log piB pos piE q n ω) (∫ ω, s.tunedTerm piB pos piE q t.kind l 0 ω ∂P) ∧
      TunedWithin argsort tq t (fun n => s.log piB pos piE q n ω) (s.value P pos piE m)
        |∫ ω, s.tunedTerm piB pos piE q t.kind l 0 ω ∂P - s.value P pos piE m| := by
  classical
  have hall : ∀ᵐ ω ∂P, ∀ l ∈ t.lambdas.toFinset,
      Tendsto (fun n => avg (candRound t l (s.log piB pos piE q n ω))) atTop
        (𝓝 (∫ ω, s.tunedTerm piB pos piE q t.kind l 0 ω ∂P)) := by
    rw [Finset.eventually_all]
    exact fun l hl => hs.tuned_lln hE hi hest hk hq (hal l (List.mem_toFinset.1 hl))
  filter_upwards [hall, hs.goodPath hE hi hest hk hq, hs.plain_tends hE hi hk hq] with ω h1 h2 h3 l hl
  have h4 := h2.estimates hk (hal l hl) (h1 l (List.mem_toFinset.2 hl))
  refine ⟨h4, h2.within hk (fun h => ?_) hmeth hbest hd hal ?_ hl h4⟩
  · rw [hest] at h
    cases h
  · rw [hest]
    exact h3

/-- **C177.** Consistency: if one of the candidates leaves the weights as they are (infinite; at least every weight when
clipping or switching; 0 for the sub-Gaussian classes), what the tuned estimator returns tends to the value of the evaluation
policy. -/
theorem C177_mse_consistent (hs : s.LoggedBy P piB m) (hE : Covers piB pos piE)
    (hi : Integrable (fun ω => s.weight piB pos piE ω * s.rew 0 ω) P) {t : Tuner} (hk : t.kind.IsTunable)
    (hq : s.ModelOk pos piE q P t.kind) (hest : t.est = false) (hmeth : t.method = .mse) (hbest : t.best = none)
    (hd : 0 < t.delta ∧ t.delta ≤ 1) (hal : ∀ l ∈ t.lambdas, AllowedLam t.kind l) {l : Lam ℝ} (hl : l ∈ t.lambdas)
    (hid : ∀ c a, shrunkWeight ⟨t.kind, l, false⟩ (piE c a (pos c) / piB c a) = piE c a (pos c) / piB c a)
    (argsort : List ℝ → List ℕ) (tq : ℝ → ℝ → ℝ) :
    ∀ᵐ ω ∂P, TunedTendTo argsort tq t (fun n => s.log piB pos piE q n ω) (s.value P pos piE m) := by
  filter_upwards [hs.goodPath hE hi hest hk hq, hs.plain_tends hE hi hk hq] with ω h2 h3
  refine TunedWithin.tendsto ?_
  have h4 : EstimatesTendTo (t.base l) (fun n => s.log piB pos piE q n ω) (s.value P pos piE m) := by
    obtain ⟨x, hx, hxl⟩ := h3
    refine ⟨x, ?_, hxl⟩
    filter_upwards [hx, eventually_gt_atTop 0] with n hn hpos
    rw [value_roundReward (h2.valid n hpos), plain_round hk] at hn
    rw [value_roundReward (h2.valid n hpos), h2.round hk (hal l hl)]
    rw [← hn]
    refine congrArg (fun f => Except.ok (avg f)) ?_
    funext i
    unfold candRound
    rw [hest]
    have : shrunkWeight (t.base l) ((s.log piB pos piE q n ω).weight false i) = (s.log piB pos piE q n ω).weight false i := by
      unfold Tuner.base
      rw [hest]
      exact hid _ _
    rw [this]
  have h5 := h2.within (argsort := argsort) (tq := tq) hk (fun h => by rw [hest] at h; cases h) hmeth hbest hd hal
    (by rw [hest]; exact h3) hl h4
  rwa [sub_self, abs_zero] at h5

/-- **C177.** `tuning_method="slope"`: if one candidate has the strictly largest variance per round, what the tuned estimator
returns tends to the limit of the estimates at that candidate; so the result is consistent if that candidate is. `tq` gives the
quantiles of Student's t distribution, which are bounded. -/
theorem C177_slope_partial (hs : s.LoggedBy P piB m) (hE : Covers piB pos piE)
    (hi : Integrable (fun ω => s.weight piB pos piE ω * s.rew 0 ω) P) {t : Tuner} (hk : t.kind.IsTunable)
    (hq : s.ModelOk pos piE q P t.kind) (hest : t.est = false) (hmeth : t.method = .slope) (hbest : t.best = none)
    (hd : 0 ≤ t.delta ∧ t.delta ≤ 1) (hal : ∀ l ∈ t.lambdas, AllowedLam t.kind l)
    {argsort : List ℝ → List ℕ} (hsort : IsArgsort argsort) {tq : ℝ → ℝ → ℝ} {B : ℝ}
    (htq : ∀ᶠ n : ℕ in atTop, 0 < tq (n - 1) (1 - t.delta) ∧ tq (n - 1) (1 - t.delta) ≤ B)
    (h2 : ∀ l ∈ t.lambdas, MemLp (s.tunedTerm piB pos piE q t.kind l 0) 2 P) {l₀ : Lam ℝ} (hl₀ : l₀ ∈ t.lambdas)
    (hvar : ∀ l ∈ t.lambdas, l ≠ l₀ →
      Var[s.tunedTerm piB pos piE q t.kind l 0; P] < Var[s.tunedTerm piB pos piE q t.kind l₀ 0; P]) :
    ∀ᵐ ω ∂P, TunedTendTo argsort tq t (fun n => s.log piB pos piE q n ω)
      (∫ ω, s.tunedTerm piB pos piE q t.kind l₀ 0 ω ∂P) := by
  classical
  have hpv : ∀ l ∈ t.lambdas, ∀ᵐ ω ∂P, Tendsto (fun n => popVar (candRound t l (s.log piB pos piE q n ω))) atTop
      (𝓝 (Var[s.tunedTerm piB pos piE q t.kind l 0; P])) := by
    intro l hl
    have hmeas := hs.tunedFn_meas hE hk hq l
    have hsq : Integrable (fun ω => tunedFn piB pos piE q t.kind l (s.ctx 0 ω, s.act 0 ω, s.rew 0 ω) ^ 2) P := by
      refine (h2 l hl).integrable_sq.congr (ae_of_all _ fun ω => ?_)
      simp only [tunedTerm_fn]
    filter_upwards [hs.tuned_lln hE hi hest hk hq (hal l hl),
      hs.lln (f := fun c a r => tunedFn piB pos piE q t.kind l (c, a, r) ^ 2) (hmeas.pow_const 2) hsq] with ω g1 g2
    rw [variance_eq_sub (h2 l hl)]
    have h3 := g2.sub (g1.pow 2)
    have h4 : (∫ ω, tunedFn piB pos piE q t.kind l (s.ctx 0 ω, s.act 0 ω, s.rew 0 ω) ^ 2 ∂P) =
        ∫ ω, (s.tunedTerm piB pos piE q t.kind l 0 ^ 2) ω ∂P := by
      refine integral_congr_ae (ae_of_all _ fun ω => ?_)
      simp only [Pi.pow_apply, tunedTerm_fn]
    rw [h4] at h3
    refine h3.congr' ?_
    filter_upwards [eventually_gt_atTop 0] with n hn
    rw [popVar_eq hn]
    congr 1
    refine avg_congr fun i => ?_
    rw [tunedTerm_round hE hest hk, tunedTerm_fn]
  have hall : ∀ᵐ ω ∂P, ∀ l ∈ t.lambdas.toFinset, Tendsto (fun n => popVar (candRound t l (s.log piB pos piE q n ω))) atTop
      (𝓝 (Var[s.tunedTerm piB pos piE q t.kind l 0; P])) := by
    rw [Finset.eventually_all]
    exact fun l hl => hpv l (List.mem_toFinset.1 hl)
  filter_upwards [hall, hs.goodPath hE hi hest hk hq, hs.tuned_lln hE hi hest hk hq (hal l₀ hl₀)] with ω g1 g2 g3
  refine g2.slope hsort hk (fun h => by rw [hest] at h; cases h) hmeth hbest hd htq hal hl₀ (fun l hl hne => ?_)
    (g2.estimates hk (hal l₀ hl₀) g3)
  exact (g1 l (List.mem_toFinset.2 hl)).eventually_lt (g1 l₀ (List.mem_toFinset.2 hl₀)) (hvar l hl hne)

/-! ### The hypotheses are met -/

/-- Clipped at 1, plain, or clipped at 1/2; the upper bound of the bias is used. -/
example (argsort : List ℝ → List ℕ) (tq : ℝ → ℝ → ℝ) : ∀ᵐ ω ∂(Measure.infinitePi fun _ : ℕ => exRoundLaw),
    TunedTendTo argsort tq ⟨.ipw, [.inf, .fin 1, .fin (1 / 2)], .mse, true, 1 / 20, false, none⟩
      (fun n => exStream.log (fun _ _ => 1 / 2) (fun _ => (0 : Fin 1)) exEval (fun _ _ _ => 0) n ω) (19 / 8) := by
  rw [← exStream_value]
  refine C177_mse_consistent exStream_logged exEval_covers (exStream_integrable fun c a => exEval c a 0 / (1 / 2))
    (Or.inl rfl) (fun h => by cases h) rfl rfl rfl (by norm_num) (fun l hl => ?_) (l := .inf) (by simp) (fun c a => rfl) _ _
  simp only [List.mem_cons, List.not_mem_nil, or_false] at hl
  rcases hl with rfl | rfl | rfl <;> simp [AllowedLam]

/-- Sub-Gaussian doubly robust with a wrong reward model. -/
example (argsort : List ℝ → List ℕ) (tq : ℝ → ℝ → ℝ) : ∀ᵐ ω ∂(Measure.infinitePi fun _ : ℕ => exRoundLaw),
    TunedTendTo argsort tq ⟨.sgDr, [.fin 0, .fin (1 / 2)], .mse, false, 1 / 20, false, none⟩
      (fun n => exStream.log (fun _ _ => 1 / 2) (fun _ => (0 : Fin 1)) exEval (fun _ _ _ => 7) n ω) (19 / 8) := by
  rw [← exStream_value]
  refine C177_mse_consistent exStream_logged exEval_covers (exStream_integrable fun c a => exEval c a 0 / (1 / 2))
    (by simp [Kind.IsTunable]) (fun _ => ⟨fun _ => measurable_const, fun a =>
      (exStream_memLp fun o => exEval o.1 a 0 * 7).integrable one_le_two⟩) rfl rfl rfl (by norm_num) (fun l hl => ?_)
    (l := .fin 0) (by simp) (fun c a => by simp [shrunkWeight]) _ _
  simp only [List.mem_cons, List.not_mem_nil, or_false] at hl
  rcases hl with rfl | rfl <;> refine ⟨by norm_num, fun h => (by cases h), fun _ => by norm_num⟩

/-- SLOPE: without clipping the variance is largest. -/
example {argsort : List ℝ → List ℕ} (hsort : IsArgsort argsort) {tq : ℝ → ℝ → ℝ} {B : ℝ}
    (htq : ∀ᶠ n : ℕ in atTop, 0 < tq (n - 1) (1 - 1 / 20) ∧ tq (n - 1) (1 - 1 / 20) ≤ B) :
    ∀ᵐ ω ∂(Measure.infinitePi fun _ : ℕ => exRoundLaw),
    TunedTendTo argsort tq ⟨.ipw, [.inf, .fin 1], .slope, true, 1 / 20, false, none⟩
      (fun n => exStream.log (fun _ _ => 1 / 2) (fun _ => (0 : Fin 1)) exEval (fun _ _ _ => 0) n ω) (19 / 8) := by
  have hval : ∫ ω, exStream.tunedTerm (fun _ _ => 1 / 2) (fun _ => (0 : Fin 1)) exEval (fun _ _ _ => 0) .ipw .inf 0 ω
      ∂(Measure.infinitePi fun _ : ℕ => exRoundLaw) = 19 / 8 := by
    refine (exStream_integral fun o => exEval o.1 o.2.1 0 / (1 / 2) * exReward o).trans ?_
    simp only [Fintype.sum_prod_type, Fintype.sum_bool, Fin.sum_univ_two]
    norm_num [exEval, exMean, exReward]
  have h := C177_slope_partial (q := fun _ _ _ => 0) (t := ⟨.ipw, [.inf, .fin 1], .slope, true, 1 / 20, false, none⟩)
    exStream_logged exEval_covers (exStream_integrable fun c a => exEval c a 0 / (1 / 2))
    (Or.inl rfl) (fun h => by cases h) rfl rfl rfl (by norm_num) (fun l hl => by
      simp only [List.mem_cons, List.not_mem_nil, or_false] at hl
      rcases hl with rfl | rfl <;> simp [AllowedLam]) hsort htq
    (fun l _ => exStream_memLp fun o => shrunkWeight ⟨.ipw, l, false⟩ (exEval o.1 o.2.1 0 / (1 / 2)) * exReward o)
    (l₀ := .inf) (by simp) (fun l hl hne => by
      simp only [List.mem_cons, List.not_mem_nil, or_false] at hl
      obtain rfl : l = .fin 1 := hl.resolve_left hne
      refine lt_of_eq_of_lt (exStream_variance fun o => min (exEval o.1 o.2.1 0 / (1 / 2)) 1 * exReward o)
        (lt_of_lt_of_eq ?_ (exStream_variance fun o => exEval o.1 o.2.1 0 / (1 / 2) * exReward o).symm)
      simp only [Fintype.sum_prod_type, Fintype.sum_bool, Fin.sum_univ_two]
      norm_num [exEval, exMean, exReward])
  simp only at h
  rw [hval] at h
  exact h

/-! ### SLOPE is not consistent in general -/

/-- Rewards of the counterexample: 1 for the first action and 3 for the second, without noise. -/
def slopeReward (o : ExRound) : ℝ := if o.2.1 = 0 then 1 else 3

/-- Evaluation policy of the counterexample: the first action three times out of four. -/
noncomputable def slopeEval (_ : Bool) (a : Fin 2) (_ : Fin 1) : ℝ := if a = 0 then 3 / 4 else 1 / 4

theorem slopeEval_covers : LogStream.Covers (fun _ _ => 1 / 2) (fun _ : Bool => (0 : Fin 1)) slopeEval := by
  refine ⟨fun c l => ⟨fun a => ?_, ?_⟩, fun a => measurable_of_finite _, fun c a h => by norm_num at h⟩
  · unfold slopeEval
    split <;> norm_num
  · simp [slopeEval, Fin.sum_univ_two]
    norm_num

/-- **C177** fails for SLOPE. Plain inverse propensity weighting is among the candidates and its estimates tend to the value
3/2 of the evaluation policy (they even have no variance), but SLOPE starts from the candidate with the larger variance, here
the clipped one, and what it returns tends to 5/4. -/
theorem not_C177_slope {argsort : List ℝ → List ℕ} (hsort : IsArgsort argsort) {tq : ℝ → ℝ → ℝ} {B : ℝ}
    (htq : ∀ᶠ n : ℕ in atTop, 0 < tq (n - 1) (1 - 1 / 20) ∧ tq (n - 1) (1 - 1 / 20) ≤ B) :
    (coinStream slopeReward).value (Measure.infinitePi fun _ : ℕ => exRoundLaw) (fun _ => (0 : Fin 1)) slopeEval
      (coinMean slopeReward) = 3 / 2 ∧
    ∀ᵐ ω ∂(Measure.infinitePi fun _ : ℕ => exRoundLaw),
      EstimatesTendTo ⟨.ipw, .inf, false⟩ (fun n => (coinStream slopeReward).log (fun _ _ => 1 / 2) (fun _ => (0 : Fin 1))
        slopeEval (fun _ _ _ => 0) n ω) (3 / 2) ∧
      TunedTendTo argsort tq ⟨.ipw, [.inf, .fin 1], .slope, true, 1 / 20, false, none⟩
        (fun n => (coinStream slopeReward).log (fun _ _ => 1 / 2) (fun _ => (0 : Fin 1)) slopeEval (fun _ _ _ => 0) n ω)
        (5 / 4) := by
  have hV : (coinStream slopeReward).value (Measure.infinitePi fun _ : ℕ => exRoundLaw) (fun _ => (0 : Fin 1)) slopeEval
      (coinMean slopeReward) = 3 / 2 := by
    refine (exStream_integral fun o => ∑ a, slopeEval o.1 a 0 * coinMean slopeReward o.1 a).trans ?_
    simp only [Fintype.sum_prod_type, Fintype.sum_bool, Fin.sum_univ_two]
    norm_num [slopeEval, coinMean, slopeReward]
  have hi : Integrable (fun ω => (coinStream slopeReward).weight (fun _ _ => 1 / 2) (fun _ => (0 : Fin 1)) slopeEval ω *
      (coinStream slopeReward).rew 0 ω) (Measure.infinitePi fun _ : ℕ => exRoundLaw) :=
    (exStream_memLp fun o => slopeEval o.1 o.2.1 0 / (1 / 2) * slopeReward o).integrable one_le_two
  have hval : ∫ ω, (coinStream slopeReward).tunedTerm (fun _ _ => 1 / 2) (fun _ => (0 : Fin 1)) slopeEval (fun _ _ _ => 0) .ipw
      (.fin 1) 0 ω ∂(Measure.infinitePi fun _ : ℕ => exRoundLaw) = 5 / 4 := by
    refine (exStream_integral fun o => min (slopeEval o.1 o.2.1 0 / (1 / 2)) 1 * slopeReward o).trans ?_
    simp only [Fintype.sum_prod_type, Fintype.sum_bool, Fin.sum_univ_two]
    norm_num [slopeEval, slopeReward]
  refine ⟨hV, ?_⟩
  have h1 := C151_ipw (q := fun _ _ _ => 0) (coinStream_logged slopeReward) slopeEval_covers hi (lam := .inf)
    (fun l h => by cases h)
  rw [hV] at h1
  have h2 := C177_slope_partial (q := fun _ _ _ => 0) (t := ⟨.ipw, [.inf, .fin 1], .slope, true, 1 / 20, false, none⟩)
    (coinStream_logged slopeReward) slopeEval_covers hi
    (Or.inl rfl) (fun h => by cases h) rfl rfl rfl (by norm_num) (fun l hl => by
      simp only [List.mem_cons, List.not_mem_nil, or_false] at hl
      rcases hl with rfl | rfl <;> simp [AllowedLam]) hsort htq
    (fun l _ => exStream_memLp fun o => shrunkWeight ⟨.ipw, l, false⟩ (slopeEval o.1 o.2.1 0 / (1 / 2)) * slopeReward o)
    (l₀ := .fin 1) (by simp) (fun l hl hne => by
      simp only [List.mem_cons, List.not_mem_nil, or_false] at hl
      obtain rfl : l = .inf := hl.resolve_right hne
      refine lt_of_eq_of_lt (exStream_variance fun o => slopeEval o.1 o.2.1 0 / (1 / 2) * slopeReward o)
        (lt_of_lt_of_eq ?_ (exStream_variance fun o => min (slopeEval o.1 o.2.1 0 / (1 / 2)) 1 * slopeReward o).symm)
      simp only [Fintype.sum_prod_type, Fintype.sum_bool, Fin.sum_univ_two]
      norm_num [slopeEval, slopeReward])
  simp only at h2
  rw [hval] at h2
  filter_upwards [h1, h2] with ω a b using ⟨a, b⟩

end Obp
