import Verif.Spec.Continuous
import Verif.Props.Kernels
import Verif.Props.Bootstrap
import Verif.Lemmas.Avg
import Verif.Lemmas.Accept
import Mathlib.MeasureTheory.Measure.Haar.NormedSpace
import Mathlib.MeasureTheory.Measure.Lebesgue.Integral

/-! # C39, C95, C96: estimators for continuous actions -/

set_option linter.unusedSectionVars false

namespace Obp
open Log MeasureTheory

variable {n : ℕ}

/-! ### C95: what is accepted -/

/-- **C95.** The kernelised estimators accept a call iff all arrays they use are one-dimensional and
equally long and the propensities are positive. -/
theorem C95_continuous_accept_iff (k : ContKind) (a : ContArgs) :
    k.check a = .ok () ↔ ∃ n, a.evalAction.IsVec n ∧ a.action.IsVec n ∧ a.reward.IsVec n ∧
      a.pscore.IsVec n ∧ (k = .dr → a.regModel.IsVec n) ∧ ∀ p ∈ a.pscore.vals, 0 < p := by
  have notNone : ∀ {x : Arg1 ℝ} {m : ℕ}, x.IsVec m → x.isNone = false := by
    rintro x m (⟨xs, rfl, -⟩ | ⟨xs, rfl, -⟩) <;> rfl
  have hsh : ∀ {x : Arg1 ℝ} {m l : ℕ}, x.IsVec m → x.shape0 = .ok l → l = m := by
    intro x m l h h'
    rw [shape0_ok.2 (isVec_leading h)] at h'
    exact (Except.ok.inj h').symm
  have hl : ∀ {x : Arg1 ℝ} {m : ℕ}, x.IsVec m → x.shape0 = .ok m := fun h => shape0_ok.2 (isVec_leading h)
  have core : ∀ b : ContArgs, b.reward.isNone = false → b.pscore.isNone = false →
      (checkContinuousOpeInputs b = .ok () ↔ ∃ n, b.evalAction.IsVec n ∧ b.action.IsVec n ∧
        b.reward.IsVec n ∧ b.pscore.IsVec n ∧ (b.regModel.isNone ∨ b.regModel.IsVec n) ∧
        ∀ p ∈ b.pscore.vals, 0 < p) := by
    intro b hr0 hp0
    unfold checkContinuousOpeInputs contCheckReg contCheckAction contCheckPscore
    simp only [hr0, hp0, Bool.and_false, Bool.false_eq_true, if_false]
    constructor
    · intro h
      simp only [py_bind_eq_ok, exists_unit, raiseIf_ok, decide_eq_false_iff_not, not_not] at h
      obtain ⟨h1, h2, ⟨h3, h4, x1, hx1, x2, hx2, e1, x3, hx3, e2⟩, h5, y1, hy1, y2, hy2, y3, hy3, ⟨e3, e4⟩, hpos⟩ := h
      obtain ⟨me, he⟩ := checkArray1_ok.1 h1
      obtain ⟨ma, ha⟩ := checkArray1_ok.1 h3
      obtain ⟨mr, hr⟩ := checkArray1_ok.1 h4
      obtain ⟨mp, hp⟩ := checkArray1_ok.1 h5
      have := hsh ha hx1; have := hsh hr hx2; have := hsh he hx3; have := hsh ha hy1
      have := hsh hr hy2; have := hsh hp hy3
      subst_vars
      refine ⟨_, he, ha, hr, hp, ?_, fun p hp => by
        rw [List.any_eq_false] at hpos; simpa using hpos p hp⟩
      by_cases hq0 : b.regModel.isNone = true
      · exact Or.inl hq0
      · rw [if_neg hq0] at h2
        simp only [py_bind_eq_ok, exists_unit, raiseIf_ok, decide_eq_false_iff_not, not_not] at h2
        obtain ⟨h0, z1, hz1, z2, hz2, e⟩ := h2
        obtain ⟨mq, hq⟩ := checkArray1_ok.1 h0
        have := hsh hq hz1; have := hsh he hz2
        subst_vars
        exact Or.inr hq
    · rintro ⟨n, he, ha, hr, hp, hq, hpos⟩
      have hany : (b.pscore.vals.any fun p => decide (p ≤ 0)) = false := by
        rw [List.any_eq_false]; intro p hp; simpa using hpos p hp
      have hca : ∀ {x : Arg1 ℝ}, x.IsVec n → checkArray1 x = .ok () := fun h => checkArray1_ok.2 ⟨n, h⟩
      rcases hq with hq | hq
      · simp [hca, hl he, hl ha, hl hr, hl hp, he, ha, hr, hp, hany, raiseIf, hq]
      · simp [hca, hl he, hl ha, hl hr, hl hp, hl hq, he, ha, hr, hp, hq, hany, notNone hq, raiseIf]
  have core' : ∀ b : ContArgs, contCheckCommon b = .ok () ↔ ∃ n, b.evalAction.IsVec n ∧ b.action.IsVec n ∧
        b.reward.IsVec n ∧ b.pscore.IsVec n ∧ (b.regModel.isNone ∨ b.regModel.IsVec n) ∧
        ∀ p ∈ b.pscore.vals, 0 < p := by
    intro b
    unfold contCheckCommon
    simp only [py_bind_eq_ok, exists_unit]
    constructor
    · rintro ⟨h1, -, h3, h⟩
      obtain ⟨_, hr⟩ := checkArray1_ok.1 h1
      obtain ⟨_, hp⟩ := checkArray1_ok.1 h3
      exact (core b (notNone hr) (notNone hp)).1 h
    · intro h
      obtain ⟨n, he, ha, hr, hp, -⟩ := id h
      exact ⟨checkArray1_ok.2 ⟨_, hr⟩, checkArray1_ok.2 ⟨_, ha⟩, checkArray1_ok.2 ⟨_, hp⟩,
        (core b (notNone hr) (notNone hp)).2 h⟩
  have other : ContKind.check .ipw a = .ok () ↔ ∃ n, a.evalAction.IsVec n ∧ a.action.IsVec n ∧
      a.reward.IsVec n ∧ a.pscore.IsVec n ∧ ∀ p ∈ a.pscore.vals, 0 < p := by
    refine (core' { a with regModel := .none }).trans ?_
    simp [Arg1.isNone]
  cases k
  · simpa using other
  · have : ContKind.check .snipw a = ContKind.check .ipw a := rfl
    rw [this]
    simpa using other
  · simp only [ContKind.check, py_bind_eq_ok, exists_unit, true_implies]
    rw [core' a]
    constructor
    · rintro ⟨h0, n, he, ha, hr, hp, hq, hpos⟩
      obtain ⟨m, hq'⟩ := checkArray1_ok.1 h0
      refine ⟨n, he, ha, hr, hp, ?_, hpos⟩
      rcases hq with hq | hq
      · rw [notNone hq'] at hq; cases hq
      · exact hq
    · rintro ⟨n, he, ha, hr, hp, hq, hpos⟩
      exact ⟨checkArray1_ok.2 ⟨_, hq⟩, n, he, ha, hr, hp, Or.inr hq, hpos⟩

/-- **C95.** Rejection is always ValueError. -/
theorem C95_continuous_error_kind (k : ContKind) (a : ContArgs) {err : PyErr}
    (h : k.check a = .error err) : err = .valueError := by
  refine (?_ : OnlyVE (k.check a)) err h
  have key : ∀ b : ContArgs, OnlyVE (contCheckCommon b) := by
    intro b
    unfold contCheckCommon
    refine .bind (onlyVE_checkArray1 _) fun _ h1 => .bind (onlyVE_checkArray1 _) fun _ h2 =>
      .bind (onlyVE_checkArray1 _) fun _ h3 => ?_
    obtain ⟨mr, hr⟩ := checkArray1_ok.1 h1
    obtain ⟨ma, ha⟩ := checkArray1_ok.1 h2
    obtain ⟨mp, hp⟩ := checkArray1_ok.1 h3
    unfold checkContinuousOpeInputs contCheckReg contCheckAction contCheckPscore
    refine .bind (onlyVE_checkArray1 _) fun _ h4 => ?_
    obtain ⟨me, he⟩ := checkArray1_ok.1 h4
    refine .bind ?_ fun _ _ => .bind ?_ fun _ _ => ?_
    · split
      · exact .ok _
      · refine .bind (onlyVE_checkArray1 _) fun _ h5 => ?_
        obtain ⟨mq, hq⟩ := checkArray1_ok.1 h5
        exact .bind (onlyVE_shape0 (isVec_leading hq)) fun _ _ =>
          .bind (onlyVE_shape0 (isVec_leading he)) fun _ _ => .raiseIf _
    · split
      · exact .ok _
      · exact .bind (onlyVE_checkArray1 _) fun _ _ => .bind (onlyVE_checkArray1 _) fun _ _ =>
          .bind (onlyVE_shape0 (isVec_leading ha)) fun _ _ =>
          .bind (onlyVE_shape0 (isVec_leading hr)) fun _ _ => .bind (.raiseIf _) fun _ _ =>
          .bind (onlyVE_shape0 (isVec_leading he)) fun _ _ => .raiseIf _
    · split
      · exact .ok _
      · exact .bind (onlyVE_checkArray1 _) fun _ _ =>
          .bind (onlyVE_shape0 (isVec_leading ha)) fun _ _ =>
          .bind (onlyVE_shape0 (isVec_leading hr)) fun _ _ =>
          .bind (onlyVE_shape0 (isVec_leading hp)) fun _ _ => .bind (.raiseIf _) fun _ _ => .raiseIf _
  cases k
  · exact key { a with regModel := .none }
  · exact key { a with regModel := .none }
  · exact .bind (onlyVE_checkArray1 _) fun _ _ => key a

/-- **C95.** Integer-typed actions are accepted by the validation but then raise TypeError (in-place
division of an integer array), for every kernel and bandwidth. -/
theorem C95_integer_actions_raise (k : ContKind) (ker : Kernel) (h : Bandwidth) {a : ContArgs}
    {e b : List ℤ} (he : a.evalAction = .int e) (hb : a.action = .int b) (hc : k.check a = .ok ()) :
    k.estimatePolicyValue ker h a = .error .typeError := by
  unfold ContKind.estimatePolicyValue ContKind.round kernelArg
  rw [hc, he, hb]
  rfl

/-! ### Closed forms -/

theorem contLog_accepted {g : ContLog n} (h : g.Valid) (k : ContKind) : k.check g.args = .ok () :=
  (C95_continuous_accept_iff k g.args).2 ⟨n, Or.inr ⟨_, rfl, by simp⟩, Or.inr ⟨_, rfl, by simp⟩,
    Or.inr ⟨_, rfl, by simp⟩, Or.inr ⟨_, rfl, by simp⟩, fun _ => Or.inr ⟨_, rfl, by simp⟩, by
      intro p hp
      obtain ⟨i, rfl⟩ := List.mem_ofFn.1 hp
      exact h.pscore_pos i⟩

theorem kernelArg_eq (g : ContLog n) {h : ℝ} (hh : h ≠ 0) :
    kernelArg (.fin h) g.args = .ok (List.ofFn fun i => (g.evalAction i - g.action i) / h) := by
  show (do let d ← bop (· - ·) (List.ofFn g.evalAction) (List.ofFn g.action); d.mapM _) = _
  rw [bop_ofFn, py_bind_ok]
  exact mapM_ofFn_ok fun i => npDiv_ok hh

/-- The per-round estimate of the kernelised estimators. -/
noncomputable def ContLog.roundReward (g : ContLog n) (k : ContKind) (ker : Kernel) (h : ℝ) (i : Fin n) : ℝ :=
  match k with
  | .ipw => g.reward i * g.weight ker.fn h i / h
  | .snipw => g.reward i * g.weight ker.fn h i / avg (g.weight ker.fn h)
  | .dr => (g.reward i - g.q i) * g.weight ker.fn h i / h + g.q i

theorem contRound_eq {g : ContLog n} (hg : g.Valid) (k : ContKind) (ker : Kernel) {h : ℝ} (hh : h ≠ 0)
    (hw : k = .snipw → avg (g.weight ker.fn h) ≠ 0) :
    k.round ker (.fin h) g.args = .ok (List.ofFn (g.roundReward k ker h)) := by
  have hp := fun i => (hg.pscore_pos i).ne'
  unfold ContKind.round
  rw [kernelArg_eq g hh, py_bind_ok]
  cases k
  · simp only [List.map_ofFn, ContLog.args, Arg1.vals, bop_ofFn, py_bind_ok]
    rw [bopM_ofFn_ok _ _ _ _ fun i => npDiv_ok (hp i), py_bind_ok]
    rw [mapM_ofFn_ok (f := (Bandwidth.fin h).div) fun i => npDiv_ok hh]
    congr 2; funext i
    simp only [ContLog.roundReward, ContLog.weight, Function.comp_apply]
    ring
  · simp only [List.map_ofFn, ContLog.args, Arg1.vals, bop_ofFn, py_bind_ok]
    rw [bopM_ofFn_ok _ _ _ _ fun i => npDiv_ok (hp i), py_bind_ok,
      bopM_ofFn_ok _ _ _ _ fun i => npDiv_ok (hp i), py_bind_ok, npMean_ofFn hg.nonempty, py_bind_ok]
    refine (mapM_ofFn_ok (f := fun x => npDiv x (avg (g.weight ker.fn h))) fun i =>
      npDiv_ok (hw rfl)).trans ?_
    congr 2; funext i
    simp only [ContLog.roundReward, ContLog.weight, Function.comp_apply]
    ring
  · simp only [List.map_ofFn, ContLog.args, Arg1.vals, bop_ofFn, py_bind_ok]
    rw [bopM_ofFn_ok _ _ _ _ fun i => npDiv_ok (hp i), py_bind_ok,
      mapM_ofFn_ok (f := (Bandwidth.fin h).div) fun i => npDiv_ok hh, py_bind_ok, bop_ofFn]
    congr 2; funext i
    simp only [ContLog.roundReward, ContLog.weight, Function.comp_apply]
    ring

theorem contValue_eq {g : ContLog n} (hg : g.Valid) (k : ContKind) (ker : Kernel) {h : ℝ} (hh : h ≠ 0)
    (hw : k = .snipw → avg (g.weight ker.fn h) ≠ 0) :
    k.estimatePolicyValue ker (.fin h) g.args = .ok (avg (g.roundReward k ker h)) := by
  unfold ContKind.estimatePolicyValue
  rw [contLog_accepted hg k, py_bind_ok, contRound_eq hg k ker hh hw, py_bind_ok,
    npMean_ofFn hg.nonempty]
  rfl

/-! ### C39 -/

/-- **C39.** `KernelizedDoublyRobust` with `q_hat = 0` equals
`KernelizedInverseProbabilityWeighting`. -/
theorem C39_dr_zero_q {g : ContLog n} (hg : g.Valid) (ker : Kernel) {h : ℝ} (hh : h ≠ 0)
    (hq : ∀ i, g.q i = 0) :
    ContKind.dr.estimatePolicyValue ker (.fin h) g.args =
      ContKind.ipw.estimatePolicyValue ker (.fin h) g.args := by
  rw [contValue_eq hg .dr ker hh (by simp), contValue_eq hg .ipw ker hh (by simp)]
  refine congrArg Except.ok (avg_congr fun i => ?_)
  simp [ContLog.roundReward, hq]

/-- **C39.** With `q_hat` equal to the rewards it returns their mean. -/
theorem C39_dr_exact_q {g : ContLog n} (hg : g.Valid) (ker : Kernel) {h : ℝ} (hh : h ≠ 0)
    (hq : ∀ i, g.q i = g.reward i) :
    ContKind.dr.estimatePolicyValue ker (.fin h) g.args = .ok (avg g.q) := by
  rw [contValue_eq hg .dr ker hh (by simp)]
  refine congrArg Except.ok (avg_congr fun i => ?_)
  simp [ContLog.roundReward, hq]

/-- The estimate of `KernelizedDoublyRobust` in closed form: mean of `q_hat` plus the kernel-weighted
residuals. -/
theorem C39_dr_value {g : ContLog n} (hg : g.Valid) (ker : Kernel) {h : ℝ} (hh : h ≠ 0) :
    ContKind.dr.estimatePolicyValue ker (.fin h) g.args =
      .ok (avg g.q + avg (fun i => ker.fn ((g.evalAction i - g.action i) / h) *
        (g.reward i - g.q i) / (h * g.pscore i))) := by
  rw [contValue_eq hg .dr ker hh (by simp), ← avg_add]
  refine congrArg Except.ok (avg_congr fun i => ?_)
  simp only [ContLog.roundReward, ContLog.weight]
  have := (hg.pscore_pos i).ne'
  field_simp
  ring

/-- **C39.** `KernelizedInverseProbabilityWeighting` in closed form. -/
theorem C39_ipw_value {g : ContLog n} (hg : g.Valid) (ker : Kernel) {h : ℝ} (hh : h ≠ 0) :
    ContKind.ipw.estimatePolicyValue ker (.fin h) g.args =
      .ok (avg (fun i => ker.fn ((g.evalAction i - g.action i) / h) * g.reward i /
        (h * g.pscore i))) := by
  rw [contValue_eq hg .ipw ker hh (by simp)]
  refine congrArg Except.ok (avg_congr fun i => ?_)
  simp only [ContLog.roundReward, ContLog.weight]
  have := (hg.pscore_pos i).ne'
  field_simp

theorem contWeight_nonneg {g : ContLog n} (hg : g.Valid) (ker : Kernel) (h : ℝ) (i : Fin n) :
    0 ≤ g.weight ker.fn h i := div_nonneg (C38_nonneg ker _) (hg.pscore_pos i).le

theorem contAvg_ne {g : ContLog n} (hg : g.Valid) (ker : Kernel) (h : ℝ)
    (hpos : ∃ i, 0 < ker.fn ((g.evalAction i - g.action i) / h)) : avg (g.weight ker.fn h) ≠ 0 := by
  obtain ⟨i, hi⟩ := hpos
  rw [Ne, avg_eq_zero_iff hg.nonempty, Finset.sum_eq_zero_iff_of_nonneg fun i _ => contWeight_nonneg hg ker h i]
  intro h0
  exact (div_pos hi (hg.pscore_pos i)).ne' (h0 i (Finset.mem_univ i))

/-- **C39.** `KernelizedSelfNormalizedInverseProbabilityWeighting` is the kernel-weighted average of
the rewards; it lies in the range of the rewards with positive kernel weight. -/
theorem C39_snipw_in_range {g : ContLog n} (hg : g.Valid) (ker : Kernel) {h : ℝ} (hh : h ≠ 0)
    (hpos : ∃ i, 0 < ker.fn ((g.evalAction i - g.action i) / h)) {lo hi : ℝ}
    (hr : ∀ i, 0 < ker.fn ((g.evalAction i - g.action i) / h) → lo ≤ g.reward i ∧ g.reward i ≤ hi) :
    ∃ v, ContKind.snipw.estimatePolicyValue ker (.fin h) g.args = .ok v ∧ lo ≤ v ∧ v ≤ hi ∧
      v = (∑ i, g.reward i * g.weight ker.fn h i) / ∑ i, g.weight ker.fn h i := by
  have hw := contAvg_ne hg ker h hpos
  refine ⟨_, contValue_eq hg .snipw ker hh fun _ => hw, ?_⟩
  have e : avg (g.roundReward .snipw ker h) =
      (∑ i, g.reward i * g.weight ker.fn h i) / ∑ i, g.weight ker.fn h i := by
    rw [← avg_ratio hg.nonempty g.reward (g.weight ker.fn h) hw]
    rfl
  rw [e]
  obtain ⟨h1, h2⟩ := weightedAvg_bounds g.reward (g.weight ker.fn h) (contWeight_nonneg hg ker h)
    (fun h0 => hw ((avg_eq_zero_iff hg.nonempty _).2 h0)) (lo := lo) (hi := hi) fun i hi => hr i (by
      by_contra hc
      have h0 : ker.fn ((g.evalAction i - g.action i) / h) = 0 :=
        le_antisymm (not_lt.1 hc) (C38_nonneg ker _)
      simp [ContLog.weight, h0] at hi)
  exact ⟨h1, h2, rfl⟩

/-- **C39.** Adding `c` to every reward adds `c` to the self-normalised estimate. -/
theorem C39_snipw_shift {g : ContLog n} (hg : g.Valid) (ker : Kernel) {h : ℝ} (hh : h ≠ 0)
    (hpos : ∃ i, 0 < ker.fn ((g.evalAction i - g.action i) / h)) (c : ℝ) :
    ∃ v, ContKind.snipw.estimatePolicyValue ker (.fin h) g.args = .ok v ∧
      ContKind.snipw.estimatePolicyValue ker (.fin h)
        { g with reward := fun i => g.reward i + c }.args = .ok (v + c) := by
  have hw := contAvg_ne hg ker h hpos
  have hg' : ({ g with reward := fun i => g.reward i + c } : ContLog n).Valid := ⟨hg.nonempty, hg.pscore_pos⟩
  refine ⟨_, contValue_eq hg .snipw ker hh fun _ => hw, ?_⟩
  rw [contValue_eq hg' .snipw ker hh fun _ => hw]
  refine congrArg Except.ok ?_
  have : ∀ i, ({ g with reward := fun i => g.reward i + c } : ContLog n).roundReward .snipw ker h i =
      g.roundReward .snipw ker h i + c * (g.weight ker.fn h i / avg (g.weight ker.fn h)) := by
    intro i
    show (g.reward i + c) * g.weight ker.fn h i / avg (g.weight ker.fn h) = _
    simp only [ContLog.roundReward]
    ring
  rw [avg_congr this, avg_add, avg_mul_left, avg_div, div_self hw, mul_one]

/-- **C39.** If every kernel weight is zero the self-normalised estimate is not finite. -/
theorem C39_snipw_no_overlap {g : ContLog n} (hg : g.Valid) (ker : Kernel) {h : ℝ} (hh : h ≠ 0)
    (h0 : ∀ i, ker.fn ((g.evalAction i - g.action i) / h) = 0) :
    ContKind.snipw.estimatePolicyValue ker (.fin h) g.args = .error .nonFinite := by
  have hp := fun i => (hg.pscore_pos i).ne'
  unfold ContKind.estimatePolicyValue ContKind.round
  rw [contLog_accepted hg, py_bind_ok, kernelArg_eq g hh, py_bind_ok]
  simp only [List.map_ofFn, ContLog.args, Arg1.vals, bop_ofFn, py_bind_ok, Function.comp_def, h0]
  rw [bopM_ofFn_ok _ _ _ _ fun i => npDiv_ok (hp i), py_bind_ok,
    bopM_ofFn_ok _ _ _ _ fun i => npDiv_ok (hp i), py_bind_ok, npMean_ofFn hg.nonempty, py_bind_ok]
  simp only [zero_div, Finset.sum_const_zero]
  rw [mapM_error_of (e := .nonFinite)]
  · rfl
  · exact fun x _ => Or.inr (npDiv_zero _)
  · exact ⟨_, List.mem_ofFn.2 ⟨⟨0, hg.nonempty⟩, rfl⟩, npDiv_zero _⟩

/-- **C39.** Bandwidth zero is accepted by the constructor, but no estimate is finite. -/
theorem C39_zero_bandwidth {g : ContLog n} (hg : g.Valid) (k : ContKind) (ker : Kernel) :
    k.estimatePolicyValue ker (.fin 0) g.args = .error .nonFinite := by
  unfold ContKind.estimatePolicyValue ContKind.round
  have : kernelArg (.fin 0) g.args = .error .nonFinite := by
    show (do let d ← bop (· - ·) (List.ofFn g.evalAction) (List.ofFn g.action); d.mapM _) = _
    rw [bop_ofFn, py_bind_ok]
    refine mapM_error_of (fun x _ => Or.inr (npDiv_zero _)) ?_
    exact ⟨_, List.mem_ofFn.2 ⟨⟨0, hg.nonempty⟩, rfl⟩, npDiv_zero _⟩
  rw [contLog_accepted hg, py_bind_ok, this]
  rfl

/-- **C39.** `estimate_interval` bootstraps per-round values whose mean is the estimate. -/
theorem C39_interval (k : ContKind) (ker : Kernel) {g : ContLog n} (hg : g.Valid) {h : ℝ} (hh : h ≠ 0)
    (hw : k = .snipw → ∃ i, 0 < ker.fn ((g.evalAction i - g.action i) / h)) :
    ∃ s : Fin n → ℝ, k.estimatePolicyValue ker (.fin h) g.args = .ok (avg s) ∧
      ∀ (alpha : ℝ) (nBoot : ℕ) (draws : List (List ℕ)), 0 ≤ alpha → alpha ≤ 1 → 1 ≤ nBoot →
        ValidDraws n nBoot draws →
        ∃ o, k.estimateInterval ker (.fin h) g.args (ciCall alpha nBoot) draws = .ok o ∧
          o.lower ≤ o.upper ∧ ∀ lo hi, (∀ i, lo ≤ s i ∧ s i ≤ hi) →
            lo ≤ o.lower ∧ o.upper ≤ hi ∧ lo ≤ o.mean ∧ o.mean ≤ hi := by
  have hw' : k = .snipw → avg (g.weight ker.fn h) ≠ 0 := fun hk => contAvg_ne hg ker h (hw hk)
  refine ⟨_, contValue_eq hg k ker hh hw', fun alpha nBoot draws h0 h1 hb hd => ?_⟩
  have hne : List.ofFn (g.roundReward k ker h) ≠ [] := by
    have := hg.nonempty
    intro h'; have := congrArg List.length h'; simp at this; omega
  obtain ⟨o, ho, hlu, hr⟩ := C03_ci_ordered_in_range hne h0 h1 hb
    (by rwa [List.length_ofFn] : ValidDraws (List.ofFn (g.roundReward k ker h)).length nBoot draws)
  refine ⟨o, ?_, hlu, fun lo hi hs => hr lo hi fun x hx => ?_⟩
  · unfold ContKind.estimateInterval
    rw [contLog_accepted hg, py_bind_ok, contRound_eq hg k ker hh hw', py_bind_ok]
    exact ho
  · obtain ⟨i, rfl⟩ := List.mem_ofFn.1 hx; exact hs i

/-! ### C96: what the kernelised IPW estimator estimates -/

/-- One round: evaluation action `e`, logged action `x` with density `p x` and reward `m x`. -/
def oneRound (e : ℝ) (p m : ℝ → ℝ) (x : ℝ) : ContLog 1 := ⟨fun _ => e, fun _ => x, fun _ => m x, fun _ => p x, 0⟩

/-- **C96.** The expectation of the kernelised IPW estimate of a round, when the logged action has
the positive density `p` recorded as propensity and expected reward `m`, is the kernel-smoothed
expected reward around the evaluation action `e`. -/
theorem C96_kipw_expectation (ker : Kernel) {h : ℝ} (hh : 0 < h) (e : ℝ) (p m : ℝ → ℝ)
    (hp : ∀ x, 0 < p x) :
    ∃ v : ℝ → ℝ, (∀ x, ContKind.ipw.estimatePolicyValue ker (.fin h) (oneRound e p m x).args = .ok (v x)) ∧
      ∫ x, p x * v x = ∫ u, ker.fn u * m (e - h * u) := by
  refine ⟨fun x => ker.fn ((e - x) / h) * m x / (h * p x), fun x => ?_, ?_⟩
  · rw [C39_ipw_value ⟨one_pos, fun _ => hp x⟩ ker hh.ne']
    refine congrArg Except.ok ?_
    simp [avg, oneRound]
  · have h1 : (fun x => p x * (ker.fn ((e - x) / h) * m x / (h * p x))) =
        fun x => (fun u => ker.fn u * m (e - h * u)) ((e - x) / h) / h := by
      funext x
      have := (hp x).ne'
      have hx : e - h * ((e - x) / h) = x := by field_simp; ring
      simp only [hx]
      field_simp
    rw [h1, MeasureTheory.integral_div,
      integral_sub_left_eq_self (fun t => (fun u => ker.fn u * m (e - h * u)) (t / h)) volume e,
      Measure.integral_comp_div (fun u => ker.fn u * m (e - h * u)) h, abs_of_pos hh, smul_eq_mul]
    field_simp

/-- **C96.** The same for rewards that are random given the action: `r x ω` is the reward of action `x` when
chance is `ω`, and `m x` its mean. -/
theorem C96_kipw_random_reward {Ω : Type} [MeasurableSpace Ω] (ν : Measure Ω) (ker : Kernel) {h : ℝ}
    (hh : 0 < h) (e : ℝ) (p : ℝ → ℝ) (hp : ∀ x, 0 < p x) (r : ℝ → Ω → ℝ) (m : ℝ → ℝ)
    (hm : ∀ x, ∫ ω, r x ω ∂ν = m x) :
    ∃ v : ℝ → Ω → ℝ, (∀ x ω, ContKind.ipw.estimatePolicyValue ker (.fin h)
        (oneRound e p (fun x => r x ω) x).args = .ok (v x ω)) ∧
      ∫ x, p x * ∫ ω, v x ω ∂ν = ∫ u, ker.fn u * m (e - h * u) := by
  refine ⟨fun x ω => ker.fn ((e - x) / h) * r x ω / (h * p x), fun x ω => ?_, ?_⟩
  · rw [C39_ipw_value ⟨one_pos, fun _ => hp x⟩ ker hh.ne']
    refine congrArg Except.ok ?_
    simp [avg, oneRound]
  · obtain ⟨v, hv, he⟩ := C96_kipw_expectation ker hh e p m hp
    rw [← he]
    refine integral_congr_ae (Filter.Eventually.of_forall fun x => ?_)
    have h1 := hv x
    rw [C39_ipw_value ⟨one_pos, fun _ => hp x⟩ ker hh.ne'] at h1
    have h2 := Except.ok.inj h1
    simp only [avg, oneRound, Finset.univ_unique, Finset.sum_singleton, Nat.cast_one, div_one] at h2
    dsimp only
    rw [← h2, integral_div, integral_const_mul, hm]

theorem kernel_integrable (k : Kernel) : Integrable k.fn := by
  by_contra hc
  have := C38_integral k
  rw [integral_undef hc] at this
  exact zero_ne_one this

/-- **C96.** If the expected reward does not depend on the action the expectation is exact. -/
theorem C96_kipw_constant (ker : Kernel) {h : ℝ} (hh : 0 < h) (e c : ℝ) (p : ℝ → ℝ) (hp : ∀ x, 0 < p x) :
    ∃ v : ℝ → ℝ,
      (∀ x, ContKind.ipw.estimatePolicyValue ker (.fin h) (oneRound e p (fun _ => c) x).args = .ok (v x)) ∧
      ∫ x, p x * v x = c := by
  obtain ⟨v, h1, h2⟩ := C96_kipw_expectation ker hh e p (fun _ => c) hp
  refine ⟨v, h1, h2.trans ?_⟩
  rw [MeasureTheory.integral_mul_const, C38_integral, one_mul]

/-- **C96.** For the compactly supported kernels the bias is at most `C * h` when the expected reward
is continuous and changes by at most `C` per unit around `e`: it vanishes with the bandwidth. -/
theorem C96_kipw_bias (ker : Kernel) (hk : ker ≠ .gaussian) {h : ℝ} (hh : 0 < h) (e : ℝ) (p m : ℝ → ℝ)
    (hp : ∀ x, 0 < p x) (hm : Continuous m) {C : ℝ} (hC : ∀ x, |m x - m e| ≤ C * |x - e|) :
    ∃ v : ℝ → ℝ, (∀ x, ContKind.ipw.estimatePolicyValue ker (.fin h) (oneRound e p m x).args = .ok (v x)) ∧
      |(∫ x, p x * v x) - m e| ≤ C * h := by
  obtain ⟨v, h1, h2⟩ := C96_kipw_expectation ker hh e p m hp
  refine ⟨v, h1, ?_⟩
  have hC0 : 0 ≤ C := by
    have := (abs_nonneg _).trans (hC (e + 1))
    simpa using this
  have hki := kernel_integrable ker
  have hb : ∀ u, |ker.fn u * (m (e - h * u) - m e)| ≤ ker.fn u * (C * h) := by
    intro u
    rw [abs_mul, abs_of_nonneg (C38_nonneg ker u)]
    by_cases hu : 1 ≤ |u|
    · rw [C38_support hk hu]; simp
    · refine mul_le_mul_of_nonneg_left ((hC _).trans ?_) (C38_nonneg ker u)
      refine mul_le_mul_of_nonneg_left ?_ hC0
      rw [show e - h * u - e = -(h * u) by ring, abs_neg, abs_mul, abs_of_pos hh]
      nlinarith [not_le.1 hu]
  have hint : Integrable fun u => ker.fn u * (m (e - h * u) - m e) := by
    refine Integrable.mono' (hki.mul_const (C * h)) ?_ (Filter.Eventually.of_forall fun u => ?_)
    · refine hki.aestronglyMeasurable.mul (Continuous.aestronglyMeasurable ?_)
      fun_prop
    · rw [Real.norm_eq_abs]; exact hb u
  have e1 : (∫ x, p x * v x) - m e = ∫ u, ker.fn u * (m (e - h * u) - m e) := by
    rw [h2]
    have hme : m e = ∫ u, ker.fn u * m e := by
      rw [MeasureTheory.integral_mul_const, C38_integral, one_mul]
    conv_lhs => rw [hme]
    rw [← MeasureTheory.integral_sub]
    · refine integral_congr_ae (Filter.Eventually.of_forall fun u => ?_)
      show ker.fn u * m (e - h * u) - ker.fn u * m e = _
      ring
    · have := hint.add (hki.mul_const (m e))
      refine this.congr (Filter.Eventually.of_forall fun u => ?_)
      show ker.fn u * (m (e - h * u) - m e) + ker.fn u * m e = _
      ring
    · exact hki.mul_const _
  rw [e1]
  calc |∫ u, ker.fn u * (m (e - h * u) - m e)| ≤ ∫ u, |ker.fn u * (m (e - h * u) - m e)| :=
        abs_integral_le_integral_abs
    _ ≤ ∫ u, ker.fn u * (C * h) := integral_mono hint.abs (hki.mul_const _) hb
    _ = C * h := by rw [MeasureTheory.integral_mul_const, C38_integral, one_mul]

/-! ### Examples -/

/-- Two rounds; with bandwidth 1 the second is outside the kernel's support. -/
noncomputable def exCont : ContLog 2 where
  evalAction := ![0, 1]
  action := ![0, 5]
  reward := ![2, 7]
  pscore := ![1 / 2, 3]
  q := ![1, 1]

theorem exCont_valid : exCont.Valid where
  nonempty := by decide
  pscore_pos := fun i => by fin_cases i <;> norm_num [exCont]

theorem exCont_pos (ker : Kernel) : ∃ i, 0 < ker.fn ((exCont.evalAction i - exCont.action i) / 1) :=
  ⟨0, C38_pos ker (Or.inr (by simp [exCont]))⟩

example (ker : Kernel) := C39_dr_zero_q (g := { exCont with q := fun _ => 0 })
  ⟨exCont_valid.nonempty, exCont_valid.pscore_pos⟩ ker one_ne_zero (fun _ => rfl)
example (ker : Kernel) := C39_dr_exact_q (g := { exCont with q := exCont.reward })
  ⟨exCont_valid.nonempty, exCont_valid.pscore_pos⟩ ker one_ne_zero (fun _ => rfl)
example (ker : Kernel) := C39_snipw_in_range exCont_valid ker one_ne_zero (exCont_pos ker) (lo := 2) (hi := 7)
  (fun i _ => by fin_cases i <;> norm_num [exCont])
example (ker : Kernel) := C39_snipw_shift exCont_valid ker one_ne_zero (exCont_pos ker) 3
/-- the estimate with the Epanechnikov kernel is `3/4 * 2 / (1/2) / 2 = 3/2` -/
example : ContKind.ipw.estimatePolicyValue .epanechnikov (.fin 1) exCont.args = .ok (3 / 2) := by
  rw [C39_ipw_value exCont_valid .epanechnikov one_ne_zero]
  refine congrArg Except.ok ?_
  have h1 : Kernel.epanechnikov.fn (-4) = 0 := C38_support (by decide) (by norm_num [abs_of_neg])
  have h0 : Kernel.epanechnikov.fn 0 = 3 / 4 := by
    simp only [Kernel.fn, epanechnikovKernel]; rw [clip1_of_mem (by simp)]; norm_num
  simp only [avg, Fin.sum_univ_two, exCont, Matrix.cons_val_zero, Matrix.cons_val_one, sub_zero, div_one,
    show (1 : ℝ) - 5 = -4 by norm_num, h0, h1]
  norm_num
example := C96_kipw_random_reward (MeasureTheory.volume.restrict (Set.Icc (0 : ℝ) 1)) .triangular (h := 1 / 10)
  (by norm_num) 2 (fun x => Real.exp (-x ^ 2)) (fun x => Real.exp_pos _) (fun x ω => 2 * x * ω) (fun x => x)
  (fun x => by
    rw [integral_const_mul, MeasureTheory.integral_Icc_eq_integral_Ioc,
      ← intervalIntegral.integral_of_le (zero_le_one' ℝ), integral_id]
    ring)

example := C96_kipw_bias .triangular (by decide) (h := 1 / 10) (by norm_num) 2 (fun x => Real.exp (-x ^ 2))
  (fun x => 3 * x) (fun x => Real.exp_pos _) (by fun_prop) (C := 3)
  (fun x => by rw [← mul_sub, abs_mul]; norm_num [abs_of_pos])

end Obp
