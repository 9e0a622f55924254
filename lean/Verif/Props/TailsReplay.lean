import Verif.Props.Tails

set_option linter.unusedSectionVars false

/-!
# Large errors of the replay method and of the direct method

C189, continued.
-/

namespace Obp
open MeasureTheory ProbabilityTheory Filter Topology Log LogStream

variable {Ω C : Type} [MeasurableSpace Ω] [MeasurableSpace C] {A L : ℕ} {P : Measure Ω} [IsProbabilityMeasure P]
variable {s : LogStream Ω C A} {piB m : C → Fin A → ℝ} {pos : C → Fin L} {piE q : C → Fin A → Fin L → ℝ}

/-- **C189.** The replay method, for a deterministic evaluation policy and logging uniformly at random: rewards in `[lo, hi]`. The
chance that no round matches is included. -/
theorem C189_replay (hs : s.LoggedBy P piB m) (hE : Covers piB pos piE) (hB : ∀ c a, piB c a = 1 / A) {d : C → Fin A}
    (hd : ∀ c a, piE c a (pos c) = if a = d c then 1 else 0) (lam : Lam ℝ) {lo hi : ℝ}
    (hR : ∀ᵐ ω ∂P, s.rew 0 ω ∈ Set.Icc lo hi) {n : ℕ} (hn : 0 < n) {t : ℝ} (ht : 0 ≤ t) (ht' : t ≤ hi - lo) :
    P.real {ω | Misses ((⟨.rm, lam, false⟩ : Estimator ℝ).estimatePolicyValue (s.log piB pos piE q n ω).args)
      (s.value P pos piE m) t} ≤ 2 * Real.exp (-(2 * n * t ^ 2 / (A * (hi - lo)) ^ 2)) := by
  have hA : (0 : ℝ) < A := by
    obtain ⟨ω⟩ : Nonempty Ω := P.nonempty_of_neZero
    have := (s.act 0 ω).pos
    exact_mod_cast this
  have hwt : ∀ ω (i : Fin n), (s.log piB pos piE q n ω).weight false i =
      A * (if (s.log piB pos piE q n ω).matched i then 1 else 0) := by
    intro ω i
    simp only [log, Log.weight, Log.matched, hB, hd, Bool.false_eq_true, if_false]
    by_cases h : s.act i ω = d (s.ctx i ω) <;> simp [h]
  refine le_trans ?_ (C189_snipw (q := q) hs hE lam hR (W := A) (fun c a => ?_) hn ht ht')
  · refine ENNReal.toReal_mono (measure_ne_top _ _) (measure_mono_ae ?_)
    filter_upwards [hs.log_valid (q := q) hE] with ω hv hm
    have hv := hv n hn
    have hwavg : avg ((s.log piB pos piE q n ω).weight false) =
        A * avg fun i => if (s.log piB pos piE q n ω).matched i then (1 : ℝ) else 0 := by
      simp only [avg, hwt, ← Finset.mul_sum, mul_div_assoc]
    by_cases hw : avg ((s.log piB pos piE q n ω).weight false) = 0
    · change Misses _ _ _
      rw [value_snipw_nonFinite hv lam false hw]
      rintro ⟨x, hx, -⟩
      exact absurd hx (by simp)
    · have hex : ∃ i, (s.log piB pos piE q n ω).matched i := by
        by_contra hno
        push Not at hno
        apply hw
        rw [hwavg]
        simp [avg, hno]
      change Misses _ _ _ at hm
      change Misses _ _ _
      rw [value_rm hv lam false hex] at hm
      rw [value_snipw hv lam false hw]
      convert hm using 2
      refine congrArg avg (funext fun i => ?_)
      rw [hwavg, hwt]
      rw [mul_left_comm, mul_div_mul_left _ _ hA.ne', mul_comm]
  · rw [hB, hd]
    split <;> simp [hA.le]

/-- **C189.** The direct method, around the value that the reward model ascribes to the evaluation policy: mean predictions of a
context in `[a, b]`. -/
theorem C189_dm (hs : s.LoggedBy P piB m) (hE : Covers piB pos piE) (hq : ∀ a, Measurable fun c => q c a (pos c)) (lam : Lam ℝ)
    {a b : ℝ} (hb : ∀ᵐ ω ∂P, ∑ a, piE (s.ctx 0 ω) a (pos (s.ctx 0 ω)) * q (s.ctx 0 ω) a (pos (s.ctx 0 ω)) ∈ Set.Icc a b)
    {n : ℕ} (hn : 0 < n) {t : ℝ} (ht : 0 ≤ t) :
    P.real {ω | Misses ((⟨.dm, lam, false⟩ : Estimator ℝ).estimatePolicyValue (s.log piB pos piE q n ω).args)
      (s.value P pos piE fun c a => q c a (pos c)) t} ≤ 2 * Real.exp (-(2 * n * t ^ 2 / (b - a) ^ 2)) := by
  refine misses_mean hs.iid (F := fun x => ∑ a, piE x.1 a (pos x.1) * q x.1 a (pos x.1))
    (Finset.measurable_sum _ fun a _ => ((hE.meas a).mul (hq a)).comp measurable_fst) hb rfl hn ht ?_
  filter_upwards [hs.log_valid (q := q) hE] with ω hv
  rw [value_dm (hv n hn), ← avg_meanTo]
  refine congrArg Except.ok (congrArg avg (funext fun i => ?_))
  have h1 : ∑ a, piE (s.ctx i ω) a (pos (s.ctx i ω)) = 1 := (hE.dist _ _).sum_one
  change (∑ a, q (s.ctx i ω) a (pos (s.ctx i ω)) * piE (s.ctx i ω) a (pos (s.ctx i ω))) /
    (∑ a, piE (s.ctx i ω) a (pos (s.ctx i ω))) = _
  rw [h1, div_one]
  exact Finset.sum_congr rfl fun a _ => mul_comm _ _

/-! ### The hypotheses are met -/

/-- A deterministic policy in the example: one action in each of the two contexts. -/
example {n : ℕ} (hn : 0 < n) {t : ℝ} (ht : 0 ≤ t) (ht' : t ≤ 4) :
    (Measure.infinitePi fun _ : ℕ => exRoundLaw).real {ω | Misses ((⟨.rm, .inf, false⟩ : Estimator ℝ).estimatePolicyValue
      (exStream.log (fun _ _ => 1 / 2) (fun _ => (0 : Fin 1)) (fun c a _ => if a = (if c then 1 else 0) then 1 else 0)
        (fun _ _ _ => 0) n ω).args)
      (exStream.value (Measure.infinitePi fun _ : ℕ => exRoundLaw) (fun _ => (0 : Fin 1))
        (fun c a _ => if a = (if c then 1 else 0) then 1 else 0) exMean) t} ≤
      2 * Real.exp (-(2 * n * t ^ 2 / ((2 : ℕ) * (4 - 0)) ^ 2)) := by
  refine C189_replay exStream_logged ⟨fun c l => ?_, fun a => measurable_of_finite _, fun c a h => ?_⟩ (fun c a => by norm_num)
    (d := fun c => if c then 1 else 0) (fun c a => rfl) .inf (ae_of_all _ fun ω => ?_) hn ht (by linarith)
  · refine ⟨fun a => ?_, ?_⟩
    · split <;> split <;> norm_num
    · cases c <;> simp
  · norm_num at h
  · change exReward (ω 0) ∈ Set.Icc 0 4
    generalize ω 0 = o
    obtain ⟨c, a, b⟩ := o
    cases c <;> cases b <;> fin_cases a <;> norm_num [exReward, exMean]

/-- Predictions that are wrong: 1 for the first action and 3 for the second. -/
example {n : ℕ} (hn : 0 < n) {t : ℝ} (ht : 0 ≤ t) :
    (Measure.infinitePi fun _ : ℕ => exRoundLaw).real {ω | Misses ((⟨.dm, .inf, false⟩ : Estimator ℝ).estimatePolicyValue
      (exStream.log (fun _ _ => 1 / 2) (fun _ => (0 : Fin 1)) exEval (fun _ a _ => if a = 0 then 1 else 3) n ω).args)
      (exStream.value (Measure.infinitePi fun _ : ℕ => exRoundLaw) (fun _ => (0 : Fin 1)) exEval
        (fun _ a => if a = 0 then 1 else 3)) t} ≤ 2 * Real.exp (-(2 * n * t ^ 2 / (3 - 1) ^ 2)) := by
  refine C189_dm exStream_logged exEval_covers (fun _ => measurable_const) .inf (ae_of_all _ fun ω => ?_) hn ht
  change ∑ a, exEval (ω 0).1 a 0 * (if a = 0 then 1 else 3) ∈ Set.Icc 1 3
  generalize ω 0 = o
  obtain ⟨c, a, b⟩ := o
  cases c <;> norm_num [exEval, Fin.sum_univ_two]

end Obp
