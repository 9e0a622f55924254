import Verif.Lemmas.Accept
import Verif.Props.EstimatorValues
import Verif.Model.Utils

/-!
# C08-C10: the input validators of `obp/utils.py` and what acceptance guarantees
-/

set_option linter.unusedSectionVars false

namespace Obp
open Log

variable {K : Type} [Field K] [LinearOrder K]

/-! ### C08: `check_ope_inputs` -/

/-- **C08.** `check_ope_inputs` returns normally exactly on well-formed inputs
(`OpeArgs.WellFormed`, `Spec/Inputs.lean`). -/
theorem C08_accept_iff {args : OpeArgs K} {x : Arr3 K} (hq : args.regModel.WF) :
    checkOpeInputs args = .ok x ↔ args.WellFormed x := checkOpeInputs_ok hq

/-- **C08, exception class (partial).** If the optional arguments are arrays when given, `pscore`
comes with `action`/`reward` and `estimated_importance_weights` with `action`, everything that is
not accepted raises ValueError. Missing: the remaining cases raise AttributeError, see
`C08_attribute_error`. -/
theorem C08_error_kind_partial {args : OpeArgs K} (hq : args.regModel ≠ .notArray)
    (hp : args.pscore ≠ .notArray)
    (hw : args.estIw = .none ∨ ∃ k l, args.action.Leading k ∧ args.estIw.Leading l)
    (ha : args.pscore = .none ∨ args.action ≠ .none ∨ args.reward ≠ .none) :
    (∃ x, checkOpeInputs args = .ok x) ∨ checkOpeInputs args = .error .valueError := by
  cases h : checkOpeInputs args with
  | ok x => exact Or.inl ⟨x, rfl⟩
  | error e => rw [onlyVE_checkOpeInputs hq hp hw ha e h]; exact Or.inr rfl

/-- **C08, disagreement.** A `pscore` vector without `action` and `reward`, or a `pscore` that is
not an array, raises AttributeError instead of ValueError. -/
theorem C08_attribute_error [IsStrictOrderedRing K] (p : Arg1 K)
    (h : (∃ k, p.IsVec k) ∨ p = .notArray) :
    checkOpeInputs { actionDist := .arr ⟨1, 1, 1, fun _ _ _ => 1⟩, pscore := p } =
      .error .attributeError := by
  have h1 : distSumsToOne (⟨1, 1, 1, fun _ _ _ => (1 : K)⟩ : Arr3 K) = true := by
    rw [distSumsToOne_iff]; intro i l; simp; positivity
  rcases h with ⟨k, ⟨xs, rfl, -⟩ | ⟨xs, rfl, -⟩⟩ | rfl <;>
    simp [checkOpeInputs, checkArray3, h1, raiseIf, checkPosition, Arg1.isNone, checkRegModel,
      Arg3.isNone, checkEstIw, checkActionReward, checkPscore, Arg1.shape0]

example := C08_accept_iff (K := ℚ)
  (args := { actionDist := .arr ⟨2, 2, 1, fun _ _ _ => 1 / 2⟩, action := .int [0, 1],
             reward := .flt [1, 0], pscore := .flt [1 / 2, 1] })
  (x := ⟨2, 2, 1, fun _ _ _ => 1 / 2⟩) trivial

/-! ### C09: accepted inputs never fail during indexing -/

/-- `action_dist` has at least one round and one position, and (when the class looks at actions) as
many rounds as there are logged actions. -/
def EstArgs.Aligned (k : Kind) (a : EstArgs K) : Prop :=
  ∃ x : Arr3 K, a.actionDist = .arr x ∧ 0 < x.n ∧ 0 < x.L ∧
    (k ≠ .dm → ∀ m, a.action.IsVec m → m = x.n)

section
variable [IsStrictOrderedRing K]

/-- Rejections of the validation stage of an estimator are ValueErrors, for all raw arguments. -/
theorem C09_rejections_are_value_errors (e : Estimator K) (a : EstArgs K) {err : PyErr}
    (h : e.prepare a = .error err) : err = .valueError := by
  have hpos : ∀ {x : Arr3 K} {args : OpeArgs K}, args.regModel.WF → checkOpeInputs args = .ok x →
      OnlyVE (positionOrZeros x args.position) := by
    intro x args hq hx
    rcases ((checkOpeInputs_ok hq).1 hx).position with ⟨h, -⟩ | ⟨xs, h, -⟩ <;> rw [h] <;>
      simp only [positionOrZeros, Arg1.isNone, if_true, Arg1.ints] <;> exact .ok _
  have hact : ∀ {x : Arr3 K} {args : OpeArgs K}, args.regModel.WF → args.action ≠ .none →
      checkOpeInputs args = .ok x → OnlyVE (args.action.ints) := by
    intro x args hq hne hx
    rcases ((checkOpeInputs_ok hq).1 hx).action with ⟨h, -⟩ | ⟨k, ⟨xs, h, -⟩, -⟩
    · exact absurd h hne
    · rw [h]; exact .ok _
  have hne : ∀ {b : Arg1 K}, checkArray1 b = .ok () → b ≠ .none := by
    rintro b hb rfl; simp [checkArray1] at hb
  have hna : ∀ {b : Arg1 K}, checkArray1 b = .ok () → b ≠ .notArray := by
    rintro b hb rfl; simp [checkArray1] at hb
  have hld : ∀ {b : Arg1 K}, checkArray1 b = .ok () → ∃ k, b.Leading k := by
    intro b hb; obtain ⟨k, hk⟩ := checkArray1_ok.1 hb; exact ⟨k, isVec_leading hk⟩
  have hch : ∀ est, OnlyVE (choosePscore est a) := by
    intro est; unfold choosePscore
    split <;> exact .bind (onlyVE_checkArray1 _) fun _ _ => .ok _
  have hch' : ∀ est p, choosePscore est a = .ok p → checkArray1 p = .ok () := by
    intro est p hp
    unfold choosePscore at hp
    split at hp <;> simp only [py_bind_eq_ok, exists_unit, py_pure, Except.ok.injEq] at hp <;>
      (obtain ⟨h1, rfl⟩ := hp; exact h1)
  have hipw : ∀ est, OnlyVE (ipwPrepare est a) := by
    intro est
    unfold ipwPrepare
    exact .bind (onlyVE_checkArray1 _) fun _ hr => .bind (onlyVE_checkArray1 _) fun _ ha =>
      .bind (hch est) fun p hp => .bind (onlyVE_checkOpeInputs (by simp) (hna (hch' est p hp))
        (Or.inl rfl) (Or.inr (Or.inl (hne ha)))) fun x hx =>
      .bind (hpos (by trivial) hx) fun _ _ => .bind (hact (by trivial) (hne ha) hx) fun _ _ => .ok _
  have hdr : ∀ est, OnlyVE (drPrepare est a) := by
    intro est
    unfold drPrepare
    refine .bind (onlyVE_checkArray3 _) fun q hq => .bind (onlyVE_checkArray1 _) fun _ hr =>
      .bind (onlyVE_checkArray1 _) fun _ ha => .bind (hch est) fun p hp => ?_
    have hq' := checkArray3_ok.1 hq
    have hwf : (a.regModel).WF := by rw [hq']; trivial
    exact .bind (onlyVE_checkOpeInputs (by simp [hq']) (hna (hch' est p hp))
        (Or.inl rfl) (Or.inr (Or.inl (hne ha)))) fun x hx =>
      .bind (hpos hwf hx) fun _ _ => .bind (hact hwf (hne ha) hx) fun _ _ => .ok _
  have hrm : OnlyVE (rmPrepare a) := by
    unfold rmPrepare
    exact .bind (onlyVE_checkArray1 _) fun _ hr => .bind (onlyVE_checkArray1 _) fun _ ha =>
      .bind (onlyVE_checkOpeInputs (by simp) (by simp) (Or.inl rfl) (Or.inl rfl)) fun x hx =>
      .bind (hpos (by trivial) hx) fun _ _ => .bind (hact (by trivial) (hne ha) hx) fun _ _ => .ok _
  have hdm : OnlyVE (dmPrepare a) := by
    unfold dmPrepare
    refine .bind (onlyVE_checkArray3 _) fun q hq => ?_
    have hq' := checkArray3_ok.1 hq
    have hwf : (a.regModel).WF := by rw [hq']; trivial
    exact .bind (onlyVE_checkOpeInputs (by simp [hq']) (by simp) (Or.inl rfl) (Or.inl rfl))
      fun x hx => .bind (hpos hwf hx) fun _ _ => .ok _
  have hbi : OnlyVE (bIpwPrepare a) := by
    unfold bIpwPrepare
    refine .bind (onlyVE_checkArray1 _) fun _ hr => .bind (onlyVE_checkArray1 _) fun _ ha =>
      .bind (onlyVE_checkArray1 _) fun _ hw => ?_
    obtain ⟨k, hk⟩ := hld ha
    obtain ⟨l, hl⟩ := hld hw
    exact .bind (onlyVE_checkOpeInputs (by simp) (by simp) (Or.inr ⟨k, l, hk, hl⟩) (Or.inl rfl))
      fun x hx => .bind (hpos (by trivial) hx) fun _ _ => .bind (hact (by trivial) (hne ha) hx) fun _ _ =>
        .ok _
  obtain ⟨k, lam, est⟩ := e
  cases k <;> first
    | exact hrm _ h
    | exact hdm _ h
    | exact hbi _ h
    | exact hipw est _ h
    | exact hdr est _ h

/-- Accepted, aligned arguments are those of a typed log, so every theorem about logs applies to
them. -/
theorem C09_accepted_is_log (e : Estimator K) {a : EstArgs K} {r : RoundIn K}
    (hal : a.Aligned e.kind) (h : e.prepare a = .ok r) :
    ∃ (n A L : ℕ) (g : Log K n A L), g.Valid ∧ e.prepare g.args = .ok r := by
  obtain ⟨⟨n, A, L, v⟩, hd, hn, hL, hlen⟩ := hal
  simp only at hn hL hlen
  obtain ⟨kd, lam, est⟩ := e
  -- a bundle of typed columns for the classes that look at actions
  have core : ∀ {args : OpeArgs K} {x : Arr3 K} {pos act : List ℤ}, args.regModel.WF →
      args.actionDist = a.actionDist → args.action = a.action → args.position = a.position →
      args.reward = a.reward → checkArray1 a.action = .ok () → kd ≠ .dm →
      checkOpeInputs args = .ok x → positionOrZeros x a.position = .ok pos →
      a.action.ints = .ok act →
      x = ⟨n, A, L, v⟩ ∧ a.action.IsVec n ∧ (∃ f : Fin n → Fin L, pos = List.ofFn fun i => ((f i : ℕ) : ℤ)) ∧
      (∃ f : Fin n → Fin A, act = List.ofFn fun i => ((f i : ℕ) : ℤ)) ∧ a.reward.IsVec n ∧
      ∀ i l, closeToOne (∑ b, v i b l) = true := by
    intro args x pos act hwf h1 h2 h3 h4 hca hk hx hp ha
    have W := (checkOpeInputs_ok hwf).1 hx
    have hx' : x = ⟨n, A, L, v⟩ := by
      have := W.dist; rw [h1, hd] at this; simpa using this.symm
    subst hx'
    obtain ⟨m, hm⟩ := checkArray1_ok.1 hca
    have hmn := hlen hk m hm
    subst hmn
    refine ⟨rfl, hm, ?_, ?_, ?_, fun i l => by simpa [closeToOne] using W.dist_sum i l⟩
    · obtain ⟨f, hf⟩ := positionOrZeros_ofFn (x := ⟨m, A, L, v⟩) hL (h3 ▸ W.position)
      rw [hf] at hp; exact ⟨f, by simpa using hp.symm⟩
    · rcases W.action with ⟨h5, -⟩ | ⟨k, h5, h6⟩
      · rw [h2] at h5; rw [h5] at hm; simp [Arg1.IsVec] at hm
      · rw [h2] at h5
        obtain ⟨f, hf⟩ := isIndexVec_ofFn h5
        have hkm : k = m := by
          rw [hf] at hm; simpa [Arg1.IsVec] using hm
        subst hkm
        rw [hf] at ha
        exact ⟨f, by simpa [Arg1.ints] using ha.symm⟩
    · rcases W.action with ⟨h5, -⟩ | ⟨k, ⟨xs, h5, h7, -⟩, h6⟩
      · rw [h2] at h5; rw [h5] at hm; simp [Arg1.IsVec] at hm
      · rw [h2] at h5; rw [h4] at h6
        have hkm : k = m := by
          rw [h5] at hm; simp [Arg1.IsVec] at hm; omega
        exact hkm ▸ h6
  have psv : ∀ {p : Arg1 K} {args : OpeArgs K} {x : Arr3 K}, args.regModel.WF → args.pscore = p →
      args.action = a.action → a.action.IsVec n → checkArray1 p = .ok () →
      checkOpeInputs args = .ok x → ∃ f : Fin n → K, p.vals = List.ofFn f ∧ ∀ i, 0 < f i := by
    intro p args x hwf h1 h2 ha hp hx
    have W := (checkOpeInputs_ok hwf).1 hx
    rcases W.pscore with h3 | ⟨⟨k, h3, -, h4⟩, h5⟩
    · rw [h1] at h3; rw [h3] at hp; simp [checkArray1] at hp
    · rw [h2] at h3
      have := isVec_unique (isVec_leading ha) h3
      subst this
      rw [h1] at h4 h5
      obtain ⟨f, hf⟩ := isVec_vals h4
      exact ⟨f, hf, fun i => h5 _ (by rw [hf]; exact List.mem_ofFn.2 ⟨i, rfl⟩)⟩
  have chp : ∀ p, choosePscore est a = .ok p → checkArray1 p = .ok () := by
    intro p hp
    unfold choosePscore at hp
    split at hp <;> simp only [py_bind_eq_ok, exists_unit, py_pure, Except.ok.injEq] at hp <;>
      (obtain ⟨h1, rfl⟩ := hp; exact h1)
  have hipw : kd ≠ .dm → ipwPrepare est a = .ok r →
      ∃ (n A L : ℕ) (g : Log K n A L), g.Valid ∧ ipwPrepare est g.args = .ok r := by
    intro hk h
    simp only [ipwPrepare, py_bind_eq_ok, exists_unit, py_pure, Except.ok.injEq] at h
    obtain ⟨hr, ha, p, hp, x, hx, pos, hpos, act, hact, rfl⟩ := h
    obtain ⟨rfl, hm, ⟨fp, rfl⟩, ⟨fa, rfl⟩, hrv, hs⟩ :=
      core (by trivial) rfl rfl rfl rfl ha hk hx hpos hact
    obtain ⟨fr, hfr⟩ := isVec_vals hrv
    obtain ⟨fs, hfs, hfs0⟩ := psv (by trivial) rfl rfl hm (chp p hp) hx
    let g : Log K n A L := ⟨fa, fr, fs, fs, fp, v, fun _ _ _ => 0, fun _ => 0⟩
    have hg : g.Valid := ⟨hn, hfs0, hfs0, fun _ => le_rfl, hs⟩
    refine ⟨n, A, L, g, hg, ?_⟩
    rw [ipwPrepare_eq hg]
    simp [roundIn, g, hfr, hfs]
  have hdr : kd ≠ .dm → drPrepare est a = .ok r →
      ∃ (n A L : ℕ) (g : Log K n A L), g.Valid ∧ drPrepare est g.args = .ok r := by
    intro hk h
    simp only [drPrepare, py_bind_eq_ok, exists_unit, py_pure, Except.ok.injEq] at h
    obtain ⟨q, hq, hr, ha, p, hp, x, hx, pos, hpos, act, hact, rfl⟩ := h
    have hq' := checkArray3_ok.1 hq
    have hwf : a.regModel.WF := by rw [hq']; trivial
    obtain ⟨rfl, hm, ⟨fp, rfl⟩, ⟨fa, rfl⟩, hrv, hs⟩ :=
      core hwf rfl rfl rfl rfl ha hk hx hpos hact
    obtain ⟨fr, hfr⟩ := isVec_vals hrv
    obtain ⟨fs, hfs, hfs0⟩ := psv hwf rfl rfl hm (chp p hp) hx
    have W := (checkOpeInputs_ok hwf).1 hx
    rcases W.regModel with h1 | ⟨⟨n', A', L', qv⟩, h1, h2, h3, h4⟩
    · simp only at h1; rw [hq'] at h1; simp at h1
    simp only at h1 h2 h3 h4
    rw [hq'] at h1
    simp only [Arg3.arr.injEq] at h1
    subst h2 h3 h4 h1
    let g : Log K n' A' L' := ⟨fa, fr, fs, fs, fp, v, qv, fun _ => 0⟩
    have hg : g.Valid := ⟨hn, hfs0, hfs0, fun _ => le_rfl, hs⟩
    refine ⟨n', A', L', g, hg, ?_⟩
    rw [drPrepare_eq hg]
    simp [roundIn, g, hfr, hfs]
  cases kd
  case ipw => exact hipw (by simp) h
  case snipw => exact hipw (by simp) h
  case sgIpw => exact hipw (by simp) h
  case dr => exact hdr (by simp) h
  case sndr => exact hdr (by simp) h
  case switchDr => exact hdr (by simp) h
  case drOs => exact hdr (by simp) h
  case sgDr => exact hdr (by simp) h
  case rm =>
    simp only [Estimator.prepare, rmPrepare, py_bind_eq_ok, exists_unit, py_pure,
      Except.ok.injEq] at h
    obtain ⟨hr, ha, x, hx, pos, hpos, act, hact, rfl⟩ := h
    obtain ⟨rfl, hm, ⟨fp, rfl⟩, ⟨fa, rfl⟩, hrv, hs⟩ :=
      core (by trivial) rfl rfl rfl rfl ha (by simp) hx hpos hact
    obtain ⟨fr, hfr⟩ := isVec_vals hrv
    let g : Log K n A L := ⟨fa, fr, fun _ => 1, fun _ => 1, fp, v, fun _ _ _ => 0, fun _ => 0⟩
    have hg : g.Valid := ⟨hn, fun _ => one_pos, fun _ => one_pos, fun _ => le_rfl, hs⟩
    refine ⟨n, A, L, g, hg, ?_⟩
    simp only [Estimator.prepare]
    rw [rmPrepare_eq hg false]
    simp [roundIn, g, hfr]
  case bIpw =>
    simp only [Estimator.prepare, bIpwPrepare, py_bind_eq_ok, exists_unit, py_pure,
      Except.ok.injEq] at h
    obtain ⟨hr, ha, hw, x, hx, pos, hpos, act, hact, rfl⟩ := h
    obtain ⟨rfl, hm, ⟨fp, rfl⟩, ⟨fa, rfl⟩, hrv, hs⟩ :=
      core (by trivial) rfl rfl rfl rfl ha (by simp) hx hpos hact
    obtain ⟨fr, hfr⟩ := isVec_vals hrv
    have W := (checkOpeInputs_ok (by trivial)).1 hx
    rcases W.estIw with h1 | ⟨⟨k, h1, h2⟩, h3⟩
    · simp only at h1; rw [h1] at hw; simp [checkArray1] at hw
    simp only at h1 h2 h3
    have := isVec_unique (isVec_leading hm) h1
    subst this
    obtain ⟨fw, hfw⟩ := isVec_vals (isVec_of_checkArray1 hw h2)
    let g : Log K n A L := ⟨fa, fr, fun _ => 1, fun _ => 1, fp, v, fun _ _ _ => 0, fw⟩
    have hg : g.Valid := ⟨hn, fun _ => one_pos, fun _ => one_pos,
      fun i => h3 _ (by rw [hfw]; exact List.mem_ofFn.2 ⟨i, rfl⟩), hs⟩
    refine ⟨n, A, L, g, hg, ?_⟩
    simp only [Estimator.prepare]
    rw [bIpwPrepare_eq hg false]
    simp [roundIn, g, hfr, hfw]
  case dm =>
    simp only [Estimator.prepare, dmPrepare, py_bind_eq_ok, py_pure, Except.ok.injEq] at h
    obtain ⟨q, hq, x, hx, pos, hpos, rfl⟩ := h
    have hq' := checkArray3_ok.1 hq
    have hwf : a.regModel.WF := by rw [hq']; trivial
    have W := (checkOpeInputs_ok (args := { actionDist := a.actionDist, regModel := a.regModel, position := a.position }) hwf).1 hx
    have hx' : x = ⟨n, A, L, v⟩ := by
      have := W.dist; simp only at this; rw [hd] at this; simpa using this.symm
    subst hx'
    have hs : ∀ i l, closeToOne (∑ b, v i b l) = true := fun i l => by
      simpa [closeToOne] using W.dist_sum i l
    obtain ⟨fp, hf⟩ := positionOrZeros_ofFn (x := ⟨n, A, L, v⟩) hL W.position
    simp only at hf
    rw [hf] at hpos
    simp only [Except.ok.injEq] at hpos
    subst hpos
    rcases W.regModel with h1 | ⟨⟨n', A', L', qv⟩, h1, h2, h3, h4⟩
    · simp only at h1; rw [hq'] at h1; simp at h1
    simp only at h1 h2 h3 h4
    rw [hq'] at h1
    simp only [Arg3.arr.injEq] at h1
    subst h2 h3 h4 h1
    have hA : 0 < A' := by
      rcases Nat.eq_zero_or_pos A' with h0 | h0
      · subst h0
        have := hs ⟨0, hn⟩ ⟨0, hL⟩
        simp only [closeToOne, Finset.univ_eq_empty, Finset.sum_empty, zero_sub, abs_neg, abs_one,
          decide_eq_true_eq] at this
        norm_num at this
      · exact h0
    let g : Log K n' A' L' :=
      ⟨fun _ => ⟨0, hA⟩, fun _ => 0, fun _ => 1, fun _ => 1, fp, v, qv, fun _ => 0⟩
    have hg : g.Valid := ⟨hn, fun _ => one_pos, fun _ => one_pos, fun _ => le_rfl, hs⟩
    refine ⟨n', A', L', g, hg, ?_⟩
    simp only [Estimator.prepare]
    rw [dmPrepare_eq hg false]
    simp [roundIn, g]

/-- **C09 (partial).** On aligned arguments `estimate_policy_value` returns a finite or non-finite
float or raises ValueError; no IndexError, broadcasting error or ZeroDivisionError escapes.
Missing: unaligned arguments, where the claim is false (`C09_length_mismatch_index_error`). -/
theorem C09_no_index_error_partial (e : Estimator K) {a : EstArgs K} (hal : a.Aligned e.kind)
    {err : PyErr} (h : e.estimatePolicyValue a = .error err) :
    err = .nonFinite ∨ (err = .valueError ∧ e.prepare a = .error .valueError) := by
  cases hp : e.prepare a with
  | error e' =>
    have he := C09_rejections_are_value_errors e a hp
    subst he
    refine Or.inr ⟨?_, rfl⟩
    rw [Estimator.estimatePolicyValue, hp] at h
    simpa using h.symm
  | ok r =>
    left
    obtain ⟨n, A, L, g, hg, hr⟩ := C09_accepted_is_log e hal hp
    have h1 : e.estimatePolicyValue a = e.estimatePolicyValue g.args := by
      simp only [Estimator.estimatePolicyValue, hp, hr]
    rw [h1, value_eq_rounds, rounds_eq hg] at h
    cases hrr : roundReward e g with
    | none => rw [hrr] at h; simpa [roundOutcome] using h.symm
    | some f => rw [hrr] at h; simp [roundOutcome, npMean_avg hg] at h

end

/-- **C09, disagreement.** Two rounds in `action_dist`, three logged actions: the validators accept
and the indexing fails with IndexError. -/
theorem C09_length_mismatch_index_error :
    (Estimator.mk .ipw .inf false).estimatePolicyValue (K := ℚ)
      { reward := .flt [1, 1, 1], action := .int [0, 0, 0], pscore := .flt [1, 1, 1],
        actionDist := .arr ⟨2, 1, 1, fun _ _ _ => 1⟩ } = .error .indexError := by
  decide +kernel

/-- **C09, disagreement.** A single logged action with two rounds of `action_dist` is accepted and
silently broadcast: the second round of the evaluation policy is never looked at. -/
theorem C09_length_one_broadcast (p : ℚ) :
    (Estimator.mk .ipw .inf false).estimatePolicyValue (K := ℚ)
      { reward := .flt [1], action := .int [0], pscore := .flt [1 / 2],
        actionDist := .arr ⟨2, 2, 1, fun i a _ => if i = 0 then (if a = 0 then 1 / 4 else 3 / 4)
          else (if a = 0 then p else 1 - p)⟩ } = .ok (1 / 2) := by
  have hd : distSumsToOne (⟨2, 2, 1, fun i a _ => if i = 0 then (if a = 0 then 1 / 4 else 3 / 4)
          else (if a = 0 then p else 1 - p)⟩ : Arr3 ℚ) = true := by
    rw [distSumsToOne_iff]
    intro i l
    fin_cases i
    · simp [Fin.sum_univ_two]; norm_num
    · simp [Fin.sum_univ_two]; norm_num
  simp only [Estimator.estimatePolicyValue, Estimator.prepare, ipwPrepare, checkArray1,
    choosePscore, checkOpeInputs, checkArray3, hd, py_bind_ok, py_pure]
  simp [raiseIf, checkArray1, checkPosition, Arg1.isNone, checkRegModel, Arg3.isNone,
    checkEstIw, checkActionReward, checkPscore, Arg1.shape0, intInRange, npMin, npMax,
    positionOrZeros, Arg1.ints, Arg1.vals, Estimator.round, ipwRound, iwOf, fancy3, arange, bcastLen,
    bget, wrapIdx, bopM, bop, npDiv, npMean, Lam.clip, List.range_succ]
  norm_num

/-! ### C10: `check_bandit_feedback_inputs` -/

/-- Logged data as documented for `check_bandit_feedback_inputs` (`obp/utils.py:217-243`): `n`
rounds with actions `acts`. -/
structure BanditArgs.WellFormed (b : BanditArgs K) (n : ℕ) (acts : List ℤ) : Prop where
  context : ∃ c : Arr2 K, b.context = .arr c ∧ c.n = n
  action : b.action = .int acts ∧ acts.length = n ∧ acts ≠ [] ∧ ∀ z ∈ acts, 0 ≤ z
  reward : b.reward.IsVec n
  expectedReward : b.expectedReward = .none ∨
    ∃ m : Arr2 K, b.expectedReward = .arr m ∧ m.n = n ∧ ∀ z ∈ acts, z < m.d
  pscore : b.pscore = .none ∨ (b.pscore.IsVec n ∧ ∀ p ∈ b.pscore.vals, 0 < p)
  position : b.position = .none ∨
    ∃ ps : List ℤ, b.position = .int ps ∧ ps.length = n ∧ ps ≠ [] ∧ ∀ z ∈ ps, 0 ≤ z
  actionContext : b.actionContext = .none ∨
    ∃ m : Arr2 K, b.actionContext = .arr m ∧ ∀ z ∈ acts, z < m.n

theorem checkExpectedReward_ok {c0 a0 r0 : ℕ} {acts : List ℤ} {e : Arg2 K} :
    checkExpectedReward c0 a0 r0 (.int acts) e = .ok () ↔
      acts ≠ [] ∧ (∀ z ∈ acts, 0 ≤ z) ∧ (e = .none ∨
        ∃ m : Arr2 K, e = .arr m ∧ (c0 = a0 ∧ a0 = r0 ∧ r0 = m.n) ∧ ∀ z ∈ acts, z < m.d) := by
  have hb : ∀ {p : Py Bool}, (∃ b, p = .ok b ∧ (decide (b = false)) = false) ↔ p = .ok true := by
    intro p
    constructor
    · rintro ⟨b, h, hb⟩; cases b <;> simp_all
    · intro h; exact ⟨true, h, by simp⟩
  cases e with
  | none =>
    simp only [checkExpectedReward, py_bind_eq_ok, raiseIf_ok, hb, intNonneg_ok_true]
    simp
  | notArray => simp [checkExpectedReward, checkArray2]
  | nd s => simp [checkExpectedReward, checkArray2]
  | arr m =>
    simp only [checkExpectedReward, checkArray2, py_bind_ok, py_bind_eq_ok, exists_unit, raiseIf_ok,
      hb, intInRange_ok_true]
    simp only [decide_eq_false_iff_not, not_not, Arg1.int.injEq, ne_eq, exists_eq_left',
      Arg2.arr.injEq, reduceCtorEq, false_or]
    constructor
    · rintro ⟨h1, h2, h3⟩
      exact ⟨h2, fun z hz => (h3 z hz).1, h1, fun z hz => (h3 z hz).2⟩
    · rintro ⟨h2, h3, h1, h4⟩
      exact ⟨h1, h2, fun z hz => ⟨h3 z hz, h4 z hz⟩⟩

theorem checkActionContext_ok {acts : List ℤ} {e : Arg2 K} :
    checkActionContext (.int acts) e = .ok () ↔
      acts ≠ [] ∧ (∀ z ∈ acts, 0 ≤ z) ∧ (e = .none ∨
        ∃ m : Arr2 K, e = .arr m ∧ ∀ z ∈ acts, z < m.n) := by
  have hb : ∀ {p : Py Bool}, (∃ b, p = .ok b ∧ (decide (b = false)) = false) ↔ p = .ok true := by
    intro p
    constructor
    · rintro ⟨b, h, hb⟩; cases b <;> simp_all
    · intro h; exact ⟨true, h, by simp⟩
  cases e with
  | none =>
    simp only [checkActionContext, py_bind_eq_ok, raiseIf_ok, hb, intNonneg_ok_true]
    simp
  | notArray => simp [checkActionContext, checkArray2]
  | nd s => simp [checkActionContext, checkArray2]
  | arr m =>
    simp only [checkActionContext, checkArray2, py_bind_ok, py_bind_eq_ok, raiseIf_ok,
      hb, intInRange_ok_true]
    simp only [Arg1.int.injEq, ne_eq, exists_eq_left', Arg2.arr.injEq, reduceCtorEq, false_or]
    constructor
    · rintro ⟨h2, h3⟩
      exact ⟨h2, fun z hz => (h3 z hz).1, fun z hz => (h3 z hz).2⟩
    · rintro ⟨h2, h3, h4⟩
      exact ⟨h2, fun z hz => ⟨h3 z hz, h4 z hz⟩⟩

theorem checkBanditPscore_ok {c0 a0 r0 : ℕ} {p : Arg1 K} :
    checkBanditPscore c0 a0 r0 p = .ok () ↔
      p = .none ∨ ((c0 = a0 ∧ a0 = r0) ∧ p.IsVec r0 ∧ ∀ y ∈ p.vals, 0 < y) := by
  cases p with
  | none => simp [checkBanditPscore]
  | notArray => simp [checkBanditPscore, checkArray1, Arg1.IsVec]
  | nd s d => simp [checkBanditPscore, checkArray1, Arg1.IsVec]
  | int xs =>
    simp only [checkBanditPscore, checkArray1, Arg1.shape0, py_bind_ok, py_bind_eq_ok, exists_unit,
      raiseIf_ok]
    simp [Arg1.IsVec, and_assoc, eq_comm (a := r0)]
  | flt xs =>
    simp only [checkBanditPscore, checkArray1, Arg1.shape0, py_bind_ok, py_bind_eq_ok, exists_unit,
      raiseIf_ok]
    simp [Arg1.IsVec, and_assoc, eq_comm (a := r0)]

theorem checkBanditPosition_ok {c0 a0 r0 : ℕ} {p : Arg1 K} :
    checkBanditPosition c0 a0 r0 p = .ok () ↔ (c0 = a0 ∧ a0 = r0) ∧
      (p = .none ∨ ∃ ps : List ℤ, p = .int ps ∧ ps.length = r0 ∧ ps ≠ [] ∧ ∀ z ∈ ps, 0 ≤ z) := by
  cases p with
  | none => simp [checkBanditPosition]
  | notArray => simp [checkBanditPosition, checkArray1]
  | nd s d => simp [checkBanditPosition, checkArray1]
  | flt xs =>
    simp only [checkBanditPosition, checkArray1, py_bind_ok, Arg1.shape0, intNonneg, reduceCtorEq,
      false_and, exists_false, or_self, and_false, iff_false]
    intro h
    simp [py_bind_eq_ok] at h
  | int xs =>
    have hb : ∀ {p : Py Bool}, (∃ b, p = .ok b ∧ (decide (b = false)) = false) ↔ p = .ok true := by
      intro p
      constructor
      · rintro ⟨b, h, hb⟩; cases b <;> simp_all
      · intro h; exact ⟨true, h, by simp⟩
    simp only [checkBanditPosition, checkArray1, py_bind_ok, Arg1.shape0, py_bind_eq_ok, exists_unit,
      raiseIf_ok, hb, intNonneg_ok_true]
    simp only [decide_eq_false_iff_not, not_not, Arg1.int.injEq, exists_eq_left', reduceCtorEq,
      false_or, and_assoc, eq_comm (a := r0)]

/-- **C10.** `check_bandit_feedback_inputs` returns normally exactly on well-formed logged data. -/
theorem C10_accept_iff {b : BanditArgs K} :
    checkBanditFeedbackInputs b = .ok () ↔ ∃ n acts, b.WellFormed n acts := by
  obtain ⟨ctx, act, rew, er, pos, ps, ac⟩ := b
  simp only [checkBanditFeedbackInputs, py_bind_eq_ok, exists_unit, checkArray1_ok, shape0_ok]
  constructor
  · rintro ⟨c, hc, ⟨k, hk⟩, ⟨l, hl⟩, a0, ha0, r0, hr0, h1, h2, h3, h4⟩
    have e1 := isVec_unique (isVec_leading hk) ha0
    have e2 := isVec_unique (isVec_leading hl) hr0
    subst e1 e2
    rw [checkBanditPscore_ok] at h2
    rw [checkBanditPosition_ok] at h3
    obtain ⟨⟨e3, e4⟩, h3⟩ := h3
    have hci : ctx = .arr c := by cases ctx <;> simp_all [checkArray2]
    -- the action array must be an integer array
    have hint : ∃ acts, act = .int acts := by
      rcases hk with ⟨xs, rfl, -⟩ | ⟨xs, rfl, -⟩
      · exact ⟨xs, rfl⟩
      · cases ac <;> simp [checkActionContext, intNonneg, intInRange, checkArray2, raiseIf] at h4
    obtain ⟨acts, rfl⟩ := hint
    have hlen : acts.length = k := by simpa [Arg1.IsVec] using hk
    rw [checkExpectedReward_ok] at h1
    rw [checkActionContext_ok] at h4
    subst e4
    refine ⟨k, acts, ⟨c, hci, e3⟩, ⟨rfl, hlen, h1.1, h1.2.1⟩, hl, ?_, ?_, h3, h4.2.2⟩
    · rcases h1.2.2 with h | ⟨m, hm, hh, hz⟩
      · exact Or.inl h
      · exact Or.inr ⟨m, hm, hh.2.2.symm, hz⟩
    · rcases h2 with h | ⟨-, h⟩
      · exact Or.inl h
      · exact Or.inr h
  · rintro ⟨n, acts, ⟨c, hc, hcn⟩, ⟨ha, hlen, hne, h0⟩, hr, he, hp, hpos, hac⟩
    simp only at hc ha hr he hp hpos hac
    subst ha hcn hc
    have hv : (Arg1.int acts : Arg1 K).IsVec c.n := Or.inl ⟨acts, rfl, hlen⟩
    refine ⟨c, rfl, ⟨_, hv⟩, ⟨_, hr⟩, c.n, isVec_leading hv, c.n, isVec_leading hr, ?_, ?_, ?_, ?_⟩
    · rw [checkExpectedReward_ok]
      refine ⟨hne, h0, ?_⟩
      rcases he with h | ⟨m, hm, hmn, hz⟩
      · exact Or.inl h
      · exact Or.inr ⟨m, hm, ⟨rfl, rfl, hmn.symm⟩, hz⟩
    · rw [checkBanditPscore_ok]
      rcases hp with h | h
      · exact Or.inl h
      · exact Or.inr ⟨⟨rfl, rfl⟩, h⟩
    · rw [checkBanditPosition_ok]; exact ⟨⟨rfl, rfl⟩, hpos⟩
    · rw [checkActionContext_ok]; exact ⟨hne, h0, hac⟩

/-- **C10.** Everything else raises ValueError. -/
theorem C10_error_kind (b : BanditArgs K) {err : PyErr}
    (h : checkBanditFeedbackInputs b = .error err) : err = .valueError := by
  revert h; revert err
  change OnlyVE _
  unfold checkBanditFeedbackInputs
  refine .bind (onlyVE_checkArray2 _) fun c _ => .bind (onlyVE_checkArray1 _) fun _ ha =>
    .bind (onlyVE_checkArray1 _) fun _ hr => ?_
  obtain ⟨k, hk⟩ := checkArray1_ok.1 ha
  obtain ⟨l, hl⟩ := checkArray1_ok.1 hr
  refine .bind (onlyVE_shape0 (isVec_leading hk)) fun a0 _ =>
    .bind (onlyVE_shape0 (isVec_leading hl)) fun r0 _ => .bind ?_ fun _ _ => .bind ?_ fun _ _ =>
    .bind ?_ fun _ _ => ?_
  · unfold checkExpectedReward
    split
    · exact .bind (onlyVE_intNonneg _) fun _ _ => .raiseIf _
    · exact .bind (onlyVE_checkArray2 _) fun _ _ => .bind (.raiseIf _) fun _ _ =>
        .bind (onlyVE_intInRange _ _) fun _ _ => .raiseIf _
  · unfold checkBanditPscore
    split
    · exact .ok _
    · refine .bind (onlyVE_checkArray1 _) fun _ hp => ?_
      obtain ⟨m, hm⟩ := checkArray1_ok.1 hp
      exact .bind (onlyVE_shape0 (isVec_leading hm)) fun _ _ => .bind (.raiseIf _) fun _ _ =>
        .raiseIf _
  · unfold checkBanditPosition
    split
    · exact .raiseIf _
    · refine .bind (onlyVE_checkArray1 _) fun _ hp => ?_
      obtain ⟨m, hm⟩ := checkArray1_ok.1 hp
      exact .bind (onlyVE_shape0 (isVec_leading hm)) fun _ _ => .bind (.raiseIf _) fun _ _ =>
        .bind (onlyVE_intNonneg _) fun _ _ => .raiseIf _
  · unfold checkActionContext
    split
    · exact .bind (onlyVE_intNonneg _) fun _ _ => .raiseIf _
    · exact .bind (onlyVE_checkArray2 _) fun _ _ => .bind (onlyVE_intInRange _ _) fun _ _ =>
        .raiseIf _

example : ∃ n acts, (⟨.arr ⟨2, 1, fun _ _ => 0⟩, .int [0, 2], .flt [1, 0], .none, .int [1, 0],
    .flt [1 / 2, 1], .none⟩ : BanditArgs ℚ).WellFormed n acts :=
  ⟨2, [0, 2], ⟨_, rfl, rfl⟩, ⟨rfl, rfl, by simp, by simp⟩, Or.inr ⟨_, rfl, rfl⟩, Or.inl rfl,
    Or.inr ⟨Or.inr ⟨_, rfl, rfl⟩, by simp [Arg1.vals]⟩,
    Or.inr ⟨[1, 0], rfl, rfl, by simp, by simp⟩, Or.inl rfl⟩

example : exLog.args.Aligned .ipw := ⟨_, rfl, by simp, by simp, fun _ m h => by
  simpa [args, Arg1.IsVec, eq_comm] using h⟩

end Obp
