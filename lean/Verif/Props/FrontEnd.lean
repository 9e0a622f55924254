import Verif.Props.Meta

/-! # C140: which shapes the front ends accept -/

set_option linter.unusedSectionVars false

namespace Obp

variable {K : Type} [Field K] [LinearOrder K] [IsStrictOrderedRing K]

section generic
variable {α : Type} {absent : α} {isNone : α → Bool} {check : α → Py ℕ} {P : α → Prop}

theorem checkEntries_ok (hok : ∀ v, P v → ∃ k, check v = .ok k) {d : List (String × α)}
    (h : ∀ p ∈ d, P p.2) (s : Option ℕ) : ∃ s', checkEntries check d s = .ok s' := by
  induction d generalizing s with
  | nil => exact ⟨s, rfl⟩
  | cons p d ih =>
    obtain ⟨k, hk⟩ := hok _ (h p List.mem_cons_self)
    simp only [checkEntries, hk, py_bind_ok]
    exact ih (fun q hq => h q (List.mem_cons_of_mem _ hq)) _

theorem checkEntries_error (hok : ∀ v, P v → ∃ k, check v = .ok k)
    (herr : ∀ v, ¬ P v → check v = .error .valueError) {d : List (String × α)}
    (h : ¬ ∀ p ∈ d, P p.2) (s : Option ℕ) : checkEntries check d s = .error .valueError := by
  induction d generalizing s with
  | nil => exact absurd (by simp) h
  | cons p d ih =>
    by_cases hp : P p.2
    · obtain ⟨k, hk⟩ := hok _ hp
      simp only [checkEntries, hk, py_bind_ok]
      refine ih (fun hd => h fun q hq => ?_) _
      rcases List.mem_cons.1 hq with rfl | hq
      · exact hp
      · exact hd q hq
    · simp only [checkEntries, herr _ hp, py_bind_error]

theorem checkInput_ok (hn : ∀ v, isNone v = true ↔ v = absent)
    (hok : ∀ v, P v → ∃ k, check v = .ok k) {a : ArrOrDict α} (h : a.AllSupplied absent P)
    (s : Option ℕ) : ∃ s', checkInput isNone check a s = .ok s' := by
  cases a with
  | dict d => exact checkEntries_ok hok h s
  | one x =>
    by_cases hx : isNone x = true
    · exact ⟨s, by simp [checkInput, hx]⟩
    · obtain ⟨k, hk⟩ := hok x (h.resolve_left fun e => hx ((hn x).2 e))
      exact ⟨s, by simp [checkInput, hx, hk, py_bind_ok, py_pure]⟩

theorem checkInput_error (hn : ∀ v, isNone v = true ↔ v = absent)
    (hok : ∀ v, P v → ∃ k, check v = .ok k) (herr : ∀ v, ¬ P v → check v = .error .valueError)
    {a : ArrOrDict α} (h : ¬ a.AllSupplied absent P) (s : Option ℕ) :
    checkInput isNone check a s = .error .valueError := by
  cases a with
  | dict d => exact checkEntries_error hok herr h s
  | one x =>
    have hx : ¬ isNone x = true := fun e => h (Or.inl ((hn x).1 e))
    have hp : ¬ P x := fun e => h (Or.inr e)
    simp [checkInput, hx, herr x hp, py_bind_error]

end generic

theorem arg3_isNone_iff (v : Arg3 K) : v.isNone = true ↔ v = .none := by cases v <;> simp [Arg3.isNone]
theorem arg1_isNone_iff (v : Arg1 K) : v.isNone = true ↔ v = .none := by cases v <;> simp [Arg1.isNone]
theorem arg2_isNone_iff {α : Type} (v : Arg2 α) : v.isNone = true ↔ v = .none := by
  cases v <;> simp [Arg2.isNone]

theorem checkModel3_iff (x : Arr3 K) (v : Arg3 K) :
    (v.SameShape x → ∃ k, checkModel3 x v = .ok k) ∧
    (¬ v.SameShape x → checkModel3 x v = .error .valueError) := by
  constructor
  · rintro ⟨q, rfl, h⟩
    exact ⟨q.n, by simp [checkModel3, checkArray3, py_bind_ok, h, raiseIf, py_pure]⟩
  · intro h
    cases v with
    | arr q =>
      have : ¬ (q.n = x.n ∧ q.A = x.A ∧ q.L = x.L) := fun e => h ⟨q, rfl, e⟩
      simp only [checkModel3, checkArray3, py_bind_ok]
      rw [raiseIf_pos (decide_eq_true this)]; rfl
    | _ => rfl

theorem checkLen1_iff (n : ℕ) (v : Arg1 K) :
    (v.HasLen n → ∃ k, checkLen1 n v = .ok k) ∧ (¬ v.HasLen n → checkLen1 n v = .error .valueError) := by
  constructor
  · rintro (⟨xs, rfl, h⟩ | ⟨xs, rfl, h⟩) <;>
      exact ⟨n, by simp [checkLen1, checkArray1, Arg1.shape0, py_bind_ok, h, raiseIf, py_pure]⟩
  · intro h
    cases v with
    | int xs =>
      have : xs.length ≠ n := fun e => h (Or.inl ⟨xs, rfl, e⟩)
      simp only [checkLen1, checkArray1, Arg1.shape0, py_bind_ok]
      rw [raiseIf_pos (by simpa using this)]; rfl
    | flt xs =>
      have : xs.length ≠ n := fun e => h (Or.inr ⟨xs, rfl, e⟩)
      simp only [checkLen1, checkArray1, Arg1.shape0, py_bind_ok]
      rw [raiseIf_pos (by simpa using this)]; rfl
    | _ => rfl

theorem checkLen2_iff (n : ℕ) (v : Arg2 ℤ) :
    ((∃ y, v = .arr y ∧ y.n = n) → ∃ k, checkLen2 n v = .ok k) ∧
    (¬ (∃ y, v = .arr y ∧ y.n = n) → checkLen2 n v = .error .valueError) := by
  constructor
  · rintro ⟨y, rfl, h⟩
    exact ⟨n, by simp [checkLen2, checkEmbed, py_bind_ok, h, raiseIf, py_pure]⟩
  · intro h
    cases v with
    | arr y =>
      have : y.n ≠ n := fun e => h ⟨y, rfl, e⟩
      simp only [checkLen2, checkEmbed, py_bind_ok]
      rw [raiseIf_pos (by simpa using this)]; rfl
    | _ => rfl

theorem checkLen3_iff (n : ℕ) (v : Arg3 K) :
    ((∃ y, v = .arr y ∧ y.n = n) → ∃ k, checkLen3 n v = .ok k) ∧
    (¬ (∃ y, v = .arr y ∧ y.n = n) → checkLen3 n v = .error .valueError) := by
  constructor
  · rintro ⟨y, rfl, h⟩
    exact ⟨n, by simp [checkLen3, checkArray3, py_bind_ok, h, raiseIf, py_pure]⟩
  · intro h
    cases v with
    | arr y =>
      have : y.n ≠ n := fun e => h ⟨y, rfl, e⟩
      simp only [checkLen3, checkArray3, py_bind_ok]
      rw [raiseIf_pos (by simpa using this)]; rfl
    | _ => rfl

/-- `p_e_a` was given as a dict or not at all (for a single array see C56). -/
def MetaArgs.PeaNotArray (a : MetaArgs K) : Prop := a.pEA = .one .none ∨ ∃ d, a.pEA = .dict d

theorem checkMetaArgs_iff {a : MetaArgs K} (hp : a.PeaNotArray) :
    ((∃ x, a.WellShaped x) → checkMetaArgs a = .ok ()) ∧
    ((¬ ∃ x, a.WellShaped x) → checkMetaArgs a = .error .valueError) := by
  constructor
  · rintro ⟨x, h⟩
    obtain ⟨s1, h1⟩ := checkInput_ok arg3_isNone_iff (fun v => (checkModel3_iff x v).1) h.regModel none
    obtain ⟨s2, h2⟩ := checkInput_ok arg1_isNone_iff (fun v => (checkLen1_iff x.n v).1) h.estimatedPscore s1
    obtain ⟨s3, h3⟩ := checkInput_ok arg1_isNone_iff (fun v => (checkLen1_iff x.n v).1) h.estIw s2
    obtain ⟨s4, h4⟩ := checkInput_ok arg2_isNone_iff (fun v => (checkLen2_iff x.n v).1) h.embed s3
    obtain ⟨s5, h5⟩ := checkInput_ok arg3_isNone_iff (fun v => (checkLen3_iff x.n v).1) h.piB s4
    simp only [checkMetaArgs, h.actionDist, checkArray3, py_bind_ok, h1, h2, h3, h4, h5]
    rcases hp with e | ⟨d, e⟩
    · rw [e]; rfl
    · have := h.pEA
      rw [e] at this ⊢
      obtain ⟨s6, h6⟩ := checkEntries_ok (fun v => (checkLen3_iff x.A v).1) this s5
      simp only [checkPeaInput, h6, py_bind_ok, py_pure]
  · intro h
    cases hx : a.actionDist with
    | arr x =>
      simp only [checkMetaArgs, hx, checkArray3, py_bind_ok]
      by_cases c1 : a.regModel.AllSupplied .none (Arg3.SameShape x)
      swap
      · rw [checkInput_error arg3_isNone_iff (fun v => (checkModel3_iff x v).1)
          (fun v => (checkModel3_iff x v).2) c1]; rfl
      obtain ⟨s1, h1⟩ := checkInput_ok arg3_isNone_iff (fun v => (checkModel3_iff x v).1) c1 none
      simp only [h1, py_bind_ok]
      by_cases c2 : a.estimatedPscore.AllSupplied .none (Arg1.HasLen x.n)
      swap
      · rw [checkInput_error arg1_isNone_iff (fun v => (checkLen1_iff x.n v).1)
          (fun v => (checkLen1_iff x.n v).2) c2]; rfl
      obtain ⟨s2, h2⟩ := checkInput_ok arg1_isNone_iff (fun v => (checkLen1_iff x.n v).1) c2 s1
      simp only [h2, py_bind_ok]
      by_cases c3 : a.estIw.AllSupplied .none (Arg1.HasLen x.n)
      swap
      · rw [checkInput_error arg1_isNone_iff (fun v => (checkLen1_iff x.n v).1)
          (fun v => (checkLen1_iff x.n v).2) c3]; rfl
      obtain ⟨s3, h3⟩ := checkInput_ok arg1_isNone_iff (fun v => (checkLen1_iff x.n v).1) c3 s2
      simp only [h3, py_bind_ok]
      by_cases c4 : a.embed.AllSupplied .none fun e => ∃ y, e = .arr y ∧ y.n = x.n
      swap
      · rw [checkInput_error arg2_isNone_iff (fun v => (checkLen2_iff x.n v).1)
          (fun v => (checkLen2_iff x.n v).2) c4]; rfl
      obtain ⟨s4, h4⟩ := checkInput_ok arg2_isNone_iff (fun v => (checkLen2_iff x.n v).1) c4 s3
      simp only [h4, py_bind_ok]
      by_cases c5 : a.piB.AllSupplied .none fun p => ∃ y, p = .arr y ∧ y.n = x.n
      swap
      · rw [checkInput_error arg3_isNone_iff (fun v => (checkLen3_iff x.n v).1)
          (fun v => (checkLen3_iff x.n v).2) c5]; rfl
      obtain ⟨s5, h5⟩ := checkInput_ok arg3_isNone_iff (fun v => (checkLen3_iff x.n v).1) c5 s4
      simp only [h5, py_bind_ok]
      have c6 : ¬ a.pEA.AllSupplied .none fun p => ∃ y, p = .arr y ∧ y.n = x.A :=
        fun c6 => h ⟨x, hx, c1, c2, c3, c4, c5, c6⟩
      rcases hp with e | ⟨d, e⟩
      · exact absurd (by rw [e]; exact Or.inl rfl) c6
      · rw [e] at c6 ⊢
        simp only [checkPeaInput]
        rw [checkEntries_error (fun v => (checkLen3_iff x.A v).1) (fun v => (checkLen3_iff x.A v).2) c6]
        rfl
    | _ => simp only [checkMetaArgs, hx, checkArray3, py_bind_error]

/-- **C140.** `OffPolicyEvaluation` refuses misshapen arguments with a `ValueError` before running any
estimator, whichever of the four reports is asked for and whichever estimators are registered. -/
theorem C140_rejects (o : Ope (MetaIn K) K) (fb : Feedback K) {a : MetaArgs K} (hp : a.PeaNotArray)
    (h : ¬ ∃ x, a.WellShaped x) :
    o.values fb a = .error .valueError ∧
    (∀ c draws r, o.intervals fb a c draws ≠ .ok r) ∧
    (∀ metric V, metric = "se" ∨ metric = "relative-ee" ∧ V ≠ 0 →
      o.performance fb a metric (.flt V) = .error .valueError) ∧
    (∀ c draws, o.summarize fb a c draws = .error .valueError) := by
  have he := (checkMetaArgs_iff hp).2 h
  have hv : o.values fb a = .error .valueError := by
    simp only [Ope.values, he, py_bind_error]
    cases o.flag && a.regModel.isNone3 <;> rfl
  refine ⟨hv, fun c draws r hr => ?_, fun metric V hm => ?_, fun c draws => ?_⟩
  · simp only [Ope.intervals, he, py_bind_eq_ok, exists_unit] at hr
    exact absurd hr.2.2.1 (by simp)
  · have : checkMetric metric (.flt V) = .ok () := by
      rcases hm with rfl | ⟨rfl, hV⟩
      · simp [checkMetric, raiseIf]
      · simp [checkMetric, raiseIf, hV]
    simp only [Ope.performance, this, he, py_bind_ok, py_bind_error]
  · simp only [Ope.summarize, hv, py_bind_error]

/-- **C140.** Well-shaped arguments are passed on: if every estimator succeeds on what it is given
(and predictions are supplied when a DM/DR-type estimator is present), so does the front end. -/
theorem C140_accepts {fb : Feedback K} {ests : List (OpeObj (MetaIn K) K)} {o : Ope (MetaIn K) K}
    (ho : mkOpe fb ests = .ok o) {a : MetaArgs K} (hp : a.PeaNotArray) {x : Arr3 K}
    (h : a.WellShaped x) (hf : (∃ e ∈ ests, e.flagged = true) → a.regModel ≠ .one .none)
    (hv : ∀ e ∈ ests, ∀ i, Receives fb a e.name i → ∃ v, e.value i = .ok v) :
    ∃ d, o.values fb a = .ok d := by
  obtain ⟨hk, rfl⟩ := mkOpe_ok ho
  have hc := (checkMetaArgs_iff hp).1 ⟨x, h⟩
  have hflag : (ests.any (·.flagged) && a.regModel.isNone3) = false := by
    rw [Bool.and_eq_false_iff]
    by_cases hh : ∃ e ∈ ests, e.flagged = true
    · right
      have := hf hh
      cases hr : a.regModel with
      | dict d => rfl
      | one q =>
        rw [hr] at this
        cases q <;> first | rfl | exact absurd rfl this
    · left
      rw [List.any_eq_false]
      exact fun e he h' => hh ⟨e, he, h'⟩
  obtain ⟨d, hd⟩ := collect_total' (ests := ests)
    (f := fun name e => e.value (metaInput fb a name))
    (fun e he => hv e he.mem _ (metaInput_receives hk a e.name))
  exact ⟨d, by simp only [Ope.values, hflag, raiseIf_neg, py_bind_ok, hc]; exact hd⟩

theorem checkMultiMetaArgs_iff (a : MultiMetaArgs K) :
    ((∃ x, a.WellShaped x) → checkMultiMetaArgs a = .ok ()) ∧
    ((¬ ∃ x, a.WellShaped x) → checkMultiMetaArgs a = .error .valueError) := by
  constructor
  · rintro ⟨x, h⟩
    obtain ⟨s1, h1⟩ := checkInput_ok arg3_isNone_iff (fun v => (checkModel3_iff x v).1) h.regModel none
    obtain ⟨s2, h2⟩ := checkInput_ok arg1_isNone_iff (fun v => (checkLen1_iff x.n v).1) h.estimatedPscore none
    obtain ⟨s3, h3⟩ := checkInput_ok arg1_isNone_iff (fun v => (checkLen1_iff x.n v).1) h.estimatedPscoreAvg none
    simp only [checkMultiMetaArgs, h.actionDist, checkArray3, py_bind_ok, h1, h2, h3, py_pure]
  · intro h
    cases hx : a.actionDist with
    | arr x =>
      simp only [checkMultiMetaArgs, hx, checkArray3, py_bind_ok]
      by_cases c1 : a.regModel.AllSupplied .none (Arg3.SameShape x)
      swap
      · rw [checkInput_error arg3_isNone_iff (fun v => (checkModel3_iff x v).1)
          (fun v => (checkModel3_iff x v).2) c1]; rfl
      obtain ⟨s1, h1⟩ := checkInput_ok arg3_isNone_iff (fun v => (checkModel3_iff x v).1) c1 none
      simp only [h1, py_bind_ok]
      by_cases c2 : a.estimatedPscore.AllSupplied .none (Arg1.HasLen x.n)
      swap
      · rw [checkInput_error arg1_isNone_iff (fun v => (checkLen1_iff x.n v).1)
          (fun v => (checkLen1_iff x.n v).2) c2]; rfl
      obtain ⟨s2, h2⟩ := checkInput_ok arg1_isNone_iff (fun v => (checkLen1_iff x.n v).1) c2 none
      simp only [h2, py_bind_ok]
      have c3 : ¬ a.estimatedPscoreAvg.AllSupplied .none (Arg1.HasLen x.n) :=
        fun c3 => h ⟨x, hx, c1, c2, c3⟩
      rw [checkInput_error arg1_isNone_iff (fun v => (checkLen1_iff x.n v).1)
          (fun v => (checkLen1_iff x.n v).2) c3]; rfl
    | _ => simp only [checkMultiMetaArgs, hx, checkArray3, py_bind_error]

/-- **C140.** The multiple-logger front end refuses misshapen arguments. -/
theorem C140_multi_rejects (o : Ope (MultiArgs K) K) (fb : MultiFeedback K) {a : MultiMetaArgs K}
    (h : ¬ ∃ x, a.WellShaped x) :
    o.multiValues fb a = .error .valueError ∧
    (∀ metric V, metric = "se" ∨ metric = "relative-ee" ∧ V ≠ 0 →
      o.multiPerformance fb a metric (.flt V) = .error .valueError) := by
  have he := (checkMultiMetaArgs_iff a).2 h
  refine ⟨?_, fun metric V hm => ?_⟩
  · simp only [Ope.multiValues, he, py_bind_error]
    cases o.flag && a.regModel.isNone3 <;> rfl
  · have : checkMetric metric (.flt V) = .ok () := by
      rcases hm with rfl | ⟨rfl, hV⟩
      · simp [checkMetric, raiseIf]
      · simp [checkMetric, raiseIf, hV]
    simp only [Ope.multiPerformance, this, he, py_bind_ok, py_bind_error]

/-- **C140.** The multiple-logger front end passes well-shaped arguments on. -/
theorem C140_multi_accepts {fb : MultiFeedback K} {ests : List (OpeObj (MultiArgs K) K)}
    {o : Ope (MultiArgs K) K} (ho : mkMultiOpe fb ests = .ok o) {a : MultiMetaArgs K} {x : Arr3 K}
    (h : a.WellShaped x) (hf : (∃ e ∈ ests, e.flagged = true) → a.regModel ≠ .one .none)
    (hv : ∀ e ∈ ests, ∀ i, MultiReceives fb a e.name i → ∃ v, e.value i = .ok v) :
    ∃ d, o.multiValues fb a = .ok d := by
  obtain ⟨hk, rfl⟩ := mkMultiOpe_ok ho
  have hc := (checkMultiMetaArgs_iff a).1 ⟨x, h⟩
  have hflag : (ests.any (·.flagged) && a.regModel.isNone3) = false := by
    rw [Bool.and_eq_false_iff]
    by_cases hh : ∃ e ∈ ests, e.flagged = true
    · right
      have := hf hh
      cases hr : a.regModel with
      | dict d => rfl
      | one q =>
        rw [hr] at this
        cases q <;> first | rfl | exact absurd rfl this
    · left
      rw [List.any_eq_false]
      exact fun e he h' => hh ⟨e, he, h'⟩
  obtain ⟨d, hd⟩ := collect_total' (ests := ests)
    (f := fun name e => e.value (multiInput fb a name))
    (fun e he => hv e he.mem _ (multiInput_receives hk a e.name))
  exact ⟨d, by simp only [Ope.multiValues, hflag, raiseIf_neg, py_bind_ok, hc]; exact hd⟩

/-- **C140.** The continuous-action front end: the evaluation policy's actions must be
one-dimensional, and predictions must be one-dimensional with as many entries. -/
theorem C140_cont_rejects (o : Ope ContArgs ℝ) (fb : ContFeedback) {x : Arg1 ℝ}
    {reg : ArrOrDict (Arg1 ℝ)} (h : ¬ ∃ n, x.HasLen n ∧ reg.AllSupplied .none (Arg1.HasLen n)) :
    o.contValues fb x reg = .error .valueError := by
  have he : checkContMetaArgs x reg = .error .valueError := by
    have step : ∀ n, x.shape0 = .ok n → checkArray1 x = .ok () → x.HasLen n →
        checkContMetaArgs x reg = .error .valueError := by
      intro n h1 h2 h3
      simp only [checkContMetaArgs, h1, h2, py_bind_ok]
      rw [checkInput_error arg1_isNone_iff (fun v => (checkLen1_iff n v).1)
        (fun v => (checkLen1_iff n v).2) (fun hr => h ⟨n, h3, hr⟩)]
      rfl
    cases x with
    | int xs => exact step _ rfl rfl (Or.inl ⟨xs, rfl, rfl⟩)
    | flt xs => exact step _ rfl rfl (Or.inr ⟨xs, rfl, rfl⟩)
    | _ => rfl
  simp only [Ope.contValues, he, py_bind_error]
  cases o.flag && reg.isNone1 <;> rfl

/-- **C140.** The continuous-action front end passes well-shaped arguments on. -/
theorem C140_cont_accepts {fb : ContFeedback} {ests : List (OpeObj ContArgs ℝ)} {o : Ope ContArgs ℝ}
    (ho : mkContOpe fb ests = .ok o) {x : Arg1 ℝ} {reg : ArrOrDict (Arg1 ℝ)} {n : ℕ}
    (hx : x.HasLen n) (hr : reg.AllSupplied .none (Arg1.HasLen n))
    (hf : (∃ e ∈ ests, e.flagged = true) → reg ≠ .one .none)
    (hv : ∀ e ∈ ests, ∀ i, ContReceives fb x reg e.name i → ∃ v, e.value i = .ok v) :
    ∃ d, o.contValues fb x reg = .ok d := by
  obtain ⟨hk, rfl⟩ := mkContOpe_ok ho
  obtain ⟨s, hs⟩ := checkInput_ok arg1_isNone_iff (fun v => (checkLen1_iff n v).1) hr none
  have hc : checkContMetaArgs x reg = .ok () := by
    rcases hx with ⟨xs, rfl, rfl⟩ | ⟨xs, rfl, rfl⟩ <;>
      simp only [checkContMetaArgs, checkArray1, Arg1.shape0, py_bind_ok, hs, py_pure]
  have hflag : (ests.any (·.flagged) && reg.isNone1) = false := by
    rw [Bool.and_eq_false_iff]
    by_cases hh : ∃ e ∈ ests, e.flagged = true
    · right
      have := hf hh
      cases reg with
      | dict d => rfl
      | one q => cases q <;> first | rfl | exact absurd rfl this
    · left
      rw [List.any_eq_false]
      exact fun e he h' => hh ⟨e, he, h'⟩
  obtain ⟨d, hd⟩ := collect_total' (ests := ests)
    (f := fun name e => e.value (contInput fb x reg name))
    (fun e he => hv e he.mem _ (contInput_receives hk x reg e.name))
  exact ⟨d, by simp only [Ope.contValues, hflag, raiseIf_neg, py_bind_ok, hc]; exact hd⟩

/-! ### Cases -/

private def oneArr (n A L : ℕ) : Arr3 ℚ := ⟨n, A, L, fun _ _ _ => 1⟩

/-- Estimated propensities for three rounds where the distribution has two. -/
private def badLen : MetaArgs ℚ :=
  { actionDist := .arr (oneArr 2 1 1), estimatedPscore := .dict [("ipw", .flt [1, 1, 1])] }

/-- Predictions of the right shape under one name and propensities for everyone. -/
private def goodLen : MetaArgs ℚ :=
  { actionDist := .arr (oneArr 2 1 1), regModel := .dict [("dm", .arr (oneArr 2 1 1))],
    estimatedPscore := .one (.flt [1, 1]) }

example : badLen.PeaNotArray ∧ ¬ ∃ x, badLen.WellShaped x := by
  refine ⟨Or.inl rfl, ?_⟩
  rintro ⟨x, h⟩
  have hx : x = oneArr 2 1 1 := by simpa [badLen, eq_comm] using h.actionDist
  subst hx
  have := h.estimatedPscore ("ipw", .flt [1, 1, 1]) (by simp)
  rcases this with ⟨xs, h1, -⟩ | ⟨xs, h1, h2⟩
  · cases h1
  · cases h1; exact absurd h2 (by decide)

example : goodLen.PeaNotArray ∧ goodLen.WellShaped (oneArr 2 1 1) := by
  refine ⟨Or.inl rfl, rfl, ?_, Or.inr (Or.inr ⟨_, rfl, rfl⟩), Or.inl rfl, Or.inl rfl, Or.inl rfl, Or.inl rfl⟩
  intro p hp
  rcases List.mem_singleton.1 hp with rfl
  exact ⟨_, rfl, rfl, rfl, rfl⟩

/-- The hypothesis on the estimators of `C140_accepts` is met by one that reads its predictions. -/
example : ∃ (fb : Feedback ℚ) (e : OpeObj (MetaIn ℚ) ℚ) (o : Ope (MetaIn ℚ) ℚ),
    mkOpe fb [e] = .ok o ∧ (∀ i, Receives fb goodLen e.name i → ∃ v, e.value i = .ok v) ∧
      o.values fb goodLen = .ok [("dm", 1)] := by
  refine ⟨⟨some (.int [0, 0]), some (.int [0, 0]), some (.flt [1, 0]), some .none, none⟩,
    ⟨"dm", true, fun i => match i.regModel with | .arr _ => .ok 1 | _ => .error .valueError,
      fun _ _ _ => .error .valueError⟩, _, rfl, ?_, rfl⟩
  intro i hi
  have := hi.regModel
  obtain ⟨y, hy⟩ : ∃ y, i.regModel = .arr y := by
    generalize i.regModel = q at this
    cases this with
    | own hm => exact ⟨_, (Prod.mk.inj (List.mem_singleton.1 hm)).2⟩
    | missing hm => exact absurd (List.mem_singleton.2 rfl) (hm _)
  exact ⟨1, by simp only [hy]⟩

end Obp
