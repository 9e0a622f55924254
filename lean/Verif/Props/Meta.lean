import Verif.Lemmas.Meta
import Verif.Props.Slate
import Verif.Props.EstimatorValues

/-! # C54-C59, C97: the front ends -/

set_option linter.unusedSectionVars false

namespace Obp

variable {K : Type} [Field K] [LinearOrder K] [IsStrictOrderedRing K]

/-! ### C54, C55 -/

/-- **C54, C55.** `OffPolicyEvaluation.estimate_policy_values`: one entry per estimator name; the entry is
the value that the last estimator of that name computes from the logged data and the arguments that
are meant for it (arrays go to everyone, dict entries only to the estimator named by the key, and
`None` to estimators without a key). -/
theorem C54_values_report {fb : Feedback K} {ests : List (OpeObj (MetaIn K) K)} {o : Ope (MetaIn K) K}
    (ho : mkOpe fb ests = .ok o) {a : MetaArgs K} {d : List (String × K)} (hd : o.values fb a = .ok d) :
    Reports ests (fun e v => ∃ i, Receives fb a e.name i ∧ e.value i = .ok v) d := by
  obtain ⟨hk, rfl⟩ := mkOpe_ok ho
  simp only [Ope.values, py_bind_eq_ok, exists_unit] at hd
  exact (collect_reports hd.2.2).mono fun e v h => ⟨_, metaInput_receives hk a e.name, h⟩

/-- **C54.** The same for `estimate_intervals`. -/
theorem C54_intervals_report {fb : Feedback K} {ests : List (OpeObj (MetaIn K) K)}
    {o : Ope (MetaIn K) K} (ho : mkOpe fb ests = .ok o) {a : MetaArgs K} {c : CiArgs K}
    {draws : String → List (List ℕ)} {d : List (String × CiOut K)}
    (hd : o.intervals fb a c draws = .ok d) :
    Reports ests (fun e v => ∃ i, Receives fb a e.name i ∧ e.interval i c (draws e.name) = .ok v) d := by
  obtain ⟨hk, rfl⟩ := mkOpe_ok ho
  simp only [Ope.intervals, py_bind_eq_ok, exists_unit] at hd
  exact (collect_reports hd.2.2.2).mono fun e v h => ⟨_, metaInput_receives hk a e.name, h⟩

/-- **C54.** The front end adds no failures: on a typed log passed as arrays, for every list of
estimators of the eleven classes that all succeed on the log, the front end returns exactly their
values; with distinct names every estimator is the last of its name. -/
theorem C54_values_total [FloorRing K] {n A L : ℕ} {g : Log K n A L} (ctx : Arg2 K)
    (ests : List (String × Estimator K)) (hn : (ests.map (·.1)).Nodup) (val : Estimator K → K)
    (hv : ∀ p ∈ ests, p.2.estimatePolicyValue g.args = .ok (val p.2)) :
    ∃ o d, mkOpe (g.feedback ctx) (ests.map fun p => p.2.obj p.1) = .ok o ∧
      o.values (g.feedback ctx) g.metaArgs = .ok d ∧ (d.map (·.1)).Nodup ∧
      ∀ name v, (name, v) ∈ d ↔ ∃ p ∈ ests, p.1 = name ∧ v = val p.2 := by
  set objs := ests.map fun p => p.2.obj p.1 with hobjs
  have hlast : ∀ p ∈ ests, LastNamed objs (p.2.obj p.1) := by
    intro p hp
    obtain ⟨l1, l2, h12⟩ := List.append_of_mem hp
    refine ⟨l1.map fun p => p.2.obj p.1, l2.map fun p => p.2.obj p.1, by rw [hobjs, h12]; simp, ?_⟩
    intro e he
    obtain ⟨q, hq, rfl⟩ := List.mem_map.1 he
    rw [h12] at hn
    simp only [List.map_append, List.map_cons, List.nodup_append, List.nodup_cons] at hn
    intro hname
    exact hn.2.1.1 (List.mem_map.2 ⟨q, hq, hname⟩)
  have hmem : ∀ e, LastNamed objs e → ∃ p ∈ ests, e = p.2.obj p.1 := by
    intro e he
    obtain ⟨p, hp, rfl⟩ := List.mem_map.1 he.mem
    exact ⟨p, hp, rfl⟩
  obtain ⟨d, hd⟩ := collect_total' (ests := objs)
    (f := fun name e => e.value (metaInput (g.feedback ctx) g.metaArgs name)) (by
      intro e he
      obtain ⟨p, hp, rfl⟩ := hmem e he
      exact ⟨_, hv p hp⟩)
  have hr := collect_reports hd
  refine ⟨_, d, mkOpe_log g ctx objs, ?_, hr.keys_distinct, ?_⟩
  · have hflag : (objs.any (·.flagged) && g.metaArgs.regModel.isNone3) = false := Bool.and_false _
    simp only [Ope.values, hflag, raiseIf_neg, py_bind_ok, checkMetaArgs_log]
    exact hd
  · have entry : ∀ p ∈ ests, (p.1, val p.2) ∈ d := by
      intro p hp
      obtain ⟨v, h1, h2⟩ := hr.entries _ (hlast p hp)
      have : v = val p.2 := by
        have h3 : p.2.estimatePolicyValue g.args = .ok v := h2
        rw [hv p hp] at h3
        exact (Except.ok.inj h3).symm
      rw [← this]; exact h1
    intro name v
    constructor
    · intro hm
      obtain ⟨e, he, hname⟩ := (hr.keys name).1 (List.mem_map.2 ⟨_, hm, rfl⟩)
      obtain ⟨p, hp, rfl⟩ := List.mem_map.1 he
      refine ⟨p, hp, hname, ?_⟩
      have h2 := entry p hp
      have hname' : p.1 = name := hname
      rw [hname'] at h2
      have := List.inj_on_of_nodup_map hr.keys_distinct hm h2 rfl
      exact (Prod.mk.inj this).2
    · rintro ⟨p, hp, rfl, rfl⟩
      exact entry p hp

/-- **C54.** The multiple-logger front end. -/
theorem C54_multi_values_report {fb : MultiFeedback K} {ests : List (OpeObj (MultiArgs K) K)}
    {o : Ope (MultiArgs K) K} (ho : mkMultiOpe fb ests = .ok o) {a : MultiMetaArgs K}
    {d : List (String × K)} (hd : o.multiValues fb a = .ok d) :
    Reports ests (fun e v => ∃ i, MultiReceives fb a e.name i ∧ e.value i = .ok v) d := by
  obtain ⟨hk, rfl⟩ := mkMultiOpe_ok ho
  simp only [Ope.multiValues, py_bind_eq_ok, exists_unit] at hd
  exact (collect_reports hd.2.2).mono fun e v h => ⟨_, multiInput_receives hk a e.name, h⟩

/-- **C54.** The continuous-action front end. -/
theorem C54_cont_values_report {fb : ContFeedback} {ests : List (OpeObj ContArgs ℝ)}
    {o : Ope ContArgs ℝ} (ho : mkContOpe fb ests = .ok o) {x : Arg1 ℝ} {reg : ArrOrDict (Arg1 ℝ)}
    {d : List (String × ℝ)} (hd : o.contValues fb x reg = .ok d) :
    Reports ests (fun e v => ∃ i, ContReceives fb x reg e.name i ∧ e.value i = .ok v) d := by
  obtain ⟨hk, rfl⟩ := mkContOpe_ok ho
  simp only [Ope.contValues, py_bind_eq_ok, exists_unit] at hd
  exact (collect_reports hd.2.2).mono fun e v h => ⟨_, contInput_receives hk x reg e.name, h⟩

/-- The argument passed is determined: with distinct keys there is only one. -/
theorem Passed.unique {α : Type} {m : α} {name : String} {a : ArrOrDict α} {x y : α}
    (hk : ∀ d, a = .dict d → (d.map (·.1)).Nodup) (hx : Passed m name a x) (hy : Passed m name a y) :
    x = y := by
  cases hx with
  | everyone => cases hy; rfl
  | own h =>
    cases hy with
    | own h' =>
      have := List.inj_on_of_nodup_map (hk _ rfl) h h' rfl
      exact (Prod.mk.inj this).2
    | missing h' => exact absurd h (h' _)
  | missing h =>
    cases hy with
    | own h' => exact absurd h' (h _)
    | missing => rfl

/-- **C55.** Only its own entry: replacing the dict of reward models by another one that has the same
entry for an estimator does not change what is reported for that estimator. -/
theorem C55_only_own_entry {fb : Feedback K} {ests : List (OpeObj (MetaIn K) K)} {o : Ope (MetaIn K) K}
    (ho : mkOpe fb ests = .ok o) {a : MetaArgs K} {d1 d2 : List (String × Arg3 K)}
    {r1 r2 : List (String × K)}
    (h1 : o.values fb { a with regModel := .dict d1 } = .ok r1)
    (h2 : o.values fb { a with regModel := .dict d2 } = .ok r2)
    (hk1 : (d1.map (·.1)).Nodup)
    {name : String} (hsame : ∀ x, (name, x) ∈ d1 ↔ (name, x) ∈ d2) (v : K) :
    (name, v) ∈ r1 ↔ (name, v) ∈ r2 := by
  obtain ⟨hk, rfl⟩ := mkOpe_ok ho
  simp only [Ope.values, py_bind_eq_ok, exists_unit] at h1 h2
  have e1 := collect_reports h1.2.2
  have e2 := collect_reports h2.2.2
  have hpick : (ArrOrDict.dict d1).pick Arg3.none name = (ArrOrDict.dict d2).pick Arg3.none name := by
    have p1 := passed_pick Arg3.none (.dict d1) name
    have p2 := passed_pick Arg3.none (.dict d2) name
    refine Passed.unique (a := .dict d1) (fun d hd => by cases hd; exact hk1) p1 ?_
    revert p2
    generalize (ArrOrDict.dict d2).pick Arg3.none name = y
    intro p2
    cases p2 with
    | own h => exact .own ((hsame _).2 h)
    | missing h => exact .missing fun x hx => h x ((hsame x).1 hx)
  have hin : metaInput fb { a with regModel := .dict d1 } name =
      metaInput fb { a with regModel := .dict d2 } name := by
    unfold metaInput; dsimp only; rw [hpick]
  have one : ∀ {da db : List (String × Arg3 K)} {ra rb : List (String × K)},
      Reports ests (fun e v => e.value (metaInput fb { a with regModel := .dict da } e.name) = .ok v) ra →
      Reports ests (fun e v => e.value (metaInput fb { a with regModel := .dict db } e.name) = .ok v) rb →
      metaInput fb { a with regModel := .dict da } name = metaInput fb { a with regModel := .dict db } name →
      (name, v) ∈ ra → (name, v) ∈ rb := by
    intro da db ra rb ea eb hin hv
    obtain ⟨e0, he0, hn0⟩ := (ea.keys name).1 (List.mem_map.2 ⟨_, hv, rfl⟩)
    obtain ⟨e, he, hn⟩ := exists_lastNamed he0
    rw [hn0] at hn
    obtain ⟨va, ha, hva⟩ := ea.entries e he
    obtain ⟨vb, hb, hvb⟩ := eb.entries e he
    subst hn
    have : v = va := (Prod.mk.inj (List.inj_on_of_nodup_map ea.keys_distinct hv ha rfl)).2
    rw [hin, hvb] at hva
    rw [this, ← Except.ok.inj hva]
    exact hb
  exact ⟨one e1 e2 hin, one e2 e1 hin.symm⟩

/-- **C55.** What the dispatch says: an array reaches everyone; a dict entry reaches the estimator of
that name; an estimator without an entry gets `None`. -/
theorem C55_dispatch {fb : Feedback K} {a : MetaArgs K} {name : String} {i : MetaIn K}
    (h : Receives fb a name i) :
    (∀ q, a.regModel = .one q → i.regModel = q) ∧
    (∀ d, a.regModel = .dict d → (d.map (·.1)).Nodup →
      (∀ q, (name, q) ∈ d → i.regModel = q) ∧ (name ∉ d.map (·.1) → i.regModel = .none)) ∧
    (∀ q, a.estimatedPscore = .one q → i.estimatedPscore = q) ∧
    (∀ d, a.estimatedPscore = .dict d → (d.map (·.1)).Nodup →
      (∀ q, (name, q) ∈ d → i.estimatedPscore = q) ∧ (name ∉ d.map (·.1) → i.estimatedPscore = .none)) ∧
    (∀ q, a.estIw = .one q → i.estIw = q) ∧
    (∀ d, a.estIw = .dict d → (d.map (·.1)).Nodup →
      (∀ q, (name, q) ∈ d → i.estIw = q) ∧ (name ∉ d.map (·.1) → i.estIw = .none)) := by
  have key : ∀ {α : Type} {m : α} {a : ArrOrDict α} {x : α}, Passed m name a x →
      ∀ d, a = .dict d → (d.map (·.1)).Nodup →
        (∀ q, (name, q) ∈ d → x = q) ∧ (name ∉ d.map (·.1) → x = m) := by
    intro α m a x hp d hd hk
    subst hd
    constructor
    · intro q hq
      exact Passed.unique (fun d' hd' => by cases hd'; exact hk) hp (.own hq)
    · intro hn
      cases hp with
      | own hm => exact absurd (List.mem_map.2 ⟨_, hm, rfl⟩) hn
      | missing => rfl
  have all : ∀ {α : Type} {m : α} {a : ArrOrDict α} {x : α}, Passed m name a x →
      ∀ q, a = .one q → x = q := by
    intro α m a x hp q hq
    subst hq
    cases hp; rfl
  exact ⟨all h.regModel, key h.regModel, all h.estimatedPscore, key h.estimatedPscore,
    all h.estIw, key h.estIw⟩

/-! ### C56 -/

theorem checkEntries_n {α : Type} {check : α → Py ℕ} {n : ℕ}
    (hc : ∀ a k, check a = .ok k → k = n) {d : List (String × α)} {s r : Option ℕ}
    (h : checkEntries check d s = .ok r) : (d = [] ∧ r = s) ∨ (d ≠ [] ∧ r = some n) := by
  induction d generalizing s with
  | nil => exact Or.inl ⟨rfl, (Except.ok.inj h).symm⟩
  | cons p d ih =>
    simp only [checkEntries, py_bind_eq_ok] at h
    obtain ⟨k, hk, h⟩ := h
    refine Or.inr ⟨by simp, ?_⟩
    rcases ih h with ⟨-, rfl⟩ | ⟨-, rfl⟩
    · rw [hc _ _ hk]
    · rfl

/-- the call supplies no non-empty dict -/
def ArrOrDict.noEntries {α : Type} : ArrOrDict α → Prop
  | .one _ => True
  | .dict d => d = []

theorem checkInput_n {α : Type} {isNone : α → Bool} {check : α → Py ℕ} {n : ℕ}
    (hc : ∀ a k, check a = .ok k → k = n) {a : ArrOrDict α} {s r : Option ℕ}
    (h : checkInput isNone check a s = .ok r) :
    (a.noEntries ∧ r = s) ∨ (¬ a.noEntries ∧ r = some n) := by
  cases a with
  | dict d => exact checkEntries_n hc h
  | one x =>
    refine Or.inl ⟨trivial, ?_⟩
    simp only [checkInput] at h
    split at h
    · exact (Except.ok.inj h).symm
    · simp only [py_bind_eq_ok] at h
      obtain ⟨_, _, h⟩ := h
      exact (Except.ok.inj h).symm

theorem checkModel3_n {x : Arr3 K} (a : Arg3 K) (k : ℕ) (h : checkModel3 x a = .ok k) : k = x.n := by
  simp only [checkModel3, py_bind_eq_ok, exists_unit, raiseIf_ok, decide_eq_false_iff_not, not_not] at h
  obtain ⟨q, _, h1, h2⟩ := h
  exact (Except.ok.inj h2).symm.trans h1.1

theorem checkLen1_n {n : ℕ} (a : Arg1 K) (k : ℕ) (h : checkLen1 n a = .ok k) : k = n := by
  simp only [checkLen1, py_bind_eq_ok, exists_unit, raiseIf_ok, decide_eq_false_iff_not, not_not] at h
  obtain ⟨_, q, _, h1, h2⟩ := h
  exact (Except.ok.inj h2).symm.trans h1

theorem checkLen2_n {n : ℕ} (a : Arg2 ℤ) (k : ℕ) (h : checkLen2 n a = .ok k) : k = n := by
  simp only [checkLen2, py_bind_eq_ok, exists_unit, raiseIf_ok, decide_eq_false_iff_not, not_not] at h
  obtain ⟨q, _, h1, h2⟩ := h
  exact (Except.ok.inj h2).symm.trans h1

theorem checkLen3_n {n : ℕ} (a : Arg3 K) (k : ℕ) (h : checkLen3 n a = .ok k) : k = n := by
  simp only [checkLen3, py_bind_eq_ok, exists_unit, raiseIf_ok, decide_eq_false_iff_not, not_not] at h
  obtain ⟨q, _, h1, h2⟩ := h
  exact (Except.ok.inj h2).symm.trans h1

/-- The variable left behind by the loops before `p_e_a` is reached. -/
theorem checkMetaArgs_stale {a : MetaArgs K} {x : Arr3 K} (hx : a.actionDist = .arr x)
    (h : checkMetaArgs { a with pEA := .one .none } = .ok ()) :
    ∃ s, (∀ pea, checkMetaArgs { a with pEA := pea } = checkPeaInput x.A pea s) ∧
      ((a.regModel.noEntries ∧ a.estimatedPscore.noEntries ∧ a.estIw.noEntries ∧ a.embed.noEntries ∧
        a.piB.noEntries ∧ s = none) ∨
       (¬ (a.regModel.noEntries ∧ a.estimatedPscore.noEntries ∧ a.estIw.noEntries ∧ a.embed.noEntries ∧
        a.piB.noEntries) ∧ s = some x.n)) := by
  simp only [checkMetaArgs, hx, checkArray3, py_bind_ok] at h ⊢
  simp only [py_bind_eq_ok] at h
  obtain ⟨s1, h1, s2, h2, s3, h3, s4, h4, s5, h5, -⟩ := h
  refine ⟨s5, fun pea => by simp only [h1, h2, h3, h4, h5, py_bind_ok], ?_⟩
  have c1 := checkInput_n (checkModel3_n (x := x)) h1
  have c2 := checkInput_n (checkLen1_n (n := x.n)) h2
  have c3 := checkInput_n (checkLen1_n (n := x.n)) h3
  have c4 := checkInput_n (checkLen2_n (n := x.n)) h4
  have c5 := checkInput_n (checkLen3_n (n := x.n)) h5
  rcases c1 with ⟨c1, rfl⟩ | ⟨c1, rfl⟩ <;> rcases c2 with ⟨c2, rfl⟩ | ⟨c2, rfl⟩ <;>
    rcases c3 with ⟨c3, rfl⟩ | ⟨c3, rfl⟩ <;> rcases c4 with ⟨c4, rfl⟩ | ⟨c4, rfl⟩ <;>
    rcases c5 with ⟨c5, rfl⟩ | ⟨c5, rfl⟩ <;> simp [c1, c2, c3, c4, c5]

/-- **C56, negative part.** A call that works without `p_e_a`, and whose other model arguments contain
no dict with entries, raises UnboundLocalError as soon as a `p_e_a` array is added, whatever the
array and the estimators. -/
theorem C56_array_unbound {fb : Feedback K} {o : Ope (MetaIn K) K} {a : MetaArgs K} {x : Arr3 K}
    (hx : a.actionDist = .arr x) {d : List (String × K)}
    (hok : o.values fb { a with pEA := .one .none } = .ok d)
    (h1 : a.regModel.noEntries) (h2 : a.estimatedPscore.noEntries) (h3 : a.estIw.noEntries)
    (h4 : a.embed.noEntries) (h5 : a.piB.noEntries) (p : Arr3 K) :
    o.values fb { a with pEA := .one (.arr p) } = .error .unboundLocalError := by
  simp only [Ope.values, py_bind_eq_ok, exists_unit] at hok
  obtain ⟨hf, hc, -⟩ := hok
  obtain ⟨s, hs, ⟨-, -, -, -, -, rfl⟩ | ⟨hne, -⟩⟩ := checkMetaArgs_stale hx hc
  · simp only [Ope.values, hf, py_bind_ok, hs]
    rfl
  · exact absurd ⟨h1, h2, h3, h4, h5⟩ hne

/-- **C56, negative part.** If some other model argument is a dict with entries, the shape test is made
on the wrong variable: the call with a `p_e_a` array raises ValueError unless the number of rounds
happens to equal the number of actions, and then any array is accepted, whatever its shape. -/
theorem C56_array_stale {fb : Feedback K} {o : Ope (MetaIn K) K} {a : MetaArgs K} {x : Arr3 K}
    (hx : a.actionDist = .arr x) {d : List (String × K)}
    (hok : o.values fb { a with pEA := .one .none } = .ok d)
    (hne : ¬ (a.regModel.noEntries ∧ a.estimatedPscore.noEntries ∧ a.estIw.noEntries ∧
      a.embed.noEntries ∧ a.piB.noEntries)) (p : Arr3 K) :
    (x.n ≠ x.A → o.values fb { a with pEA := .one (.arr p) } = .error .valueError) ∧
    (x.n = x.A → checkMetaArgs { a with pEA := .one (.arr p) } = .ok ()) := by
  simp only [Ope.values, py_bind_eq_ok, exists_unit] at hok
  obtain ⟨hf, hc, -⟩ := hok
  obtain ⟨s, hs, ⟨h1, h2, h3, h4, h5, -⟩ | ⟨-, rfl⟩⟩ := checkMetaArgs_stale hx hc
  · exact absurd ⟨h1, h2, h3, h4, h5⟩ hne
  · constructor
    · intro hA
      simp only [Ope.values, hf, py_bind_ok, hs, checkPeaInput, Arg3.isNone, checkArray3,
        Bool.false_eq_true, if_false]
      rw [raiseIf_pos (by simpa using hA)]
      rfl
    · intro hA
      simp only [hs, checkPeaInput, Arg3.isNone, checkArray3, Bool.false_eq_true, if_false, py_bind_ok]
      rw [raiseIf_neg (by simpa using hA)]

/-- **C56.** As a dict, `p_e_a` works: a call that works without it also passes validation with a dict
of arrays that have one row per action, and each estimator receives its own entry (`C54_values_report`,
`Receives.pEA`). -/
theorem C56_dict_accepted_partial {a : MetaArgs K} {x : Arr3 K} (hx : a.actionDist = .arr x)
    (hc : checkMetaArgs { a with pEA := .one .none } = .ok ()) (d : List (String × Arr3 K))
    (hd : ∀ p ∈ d, p.2.n = x.A) :
    checkMetaArgs { a with pEA := .dict (d.map fun p => (p.1, .arr p.2)) } = .ok () := by
  obtain ⟨s, hs, -⟩ := checkMetaArgs_stale hx hc
  rw [hs]
  have : ∀ s, ∃ r, checkEntries (checkLen3 x.A) (d.map fun p => (p.1, Arg3.arr p.2)) s = .ok r := by
    clear hs
    induction d with
    | nil => intro s; exact ⟨s, rfl⟩
    | cons p d ih =>
      intro s
      obtain ⟨r, hr⟩ := ih (fun q hq => hd q (List.mem_cons_of_mem _ hq)) (some p.2.n)
      refine ⟨r, ?_⟩
      have : checkLen3 x.A (Arg3.arr p.2) = .ok p.2.n := by
        simp [checkLen3, checkArray3, hd p List.mem_cons_self, raiseIf]
      simp only [List.map_cons, checkEntries, this, py_bind_ok, hr]
  obtain ⟨r, hr⟩ := this s
  simp only [checkPeaInput, hr, py_bind_ok]
  rfl

/-! ### C57 -/

/-- the metric of an estimate `v` against the truth `V`, as documented -/
def IsMetric (metric : String) (V v m : K) : Prop :=
  (metric = "relative-ee" ∧ m = |v - V| / |V|) ∨ (metric = "se" ∧ m = (v - V) ^ 2)

theorem metricOf_spec {metric : String} {V v m : K} (hm : checkMetric metric (.flt V) = .ok ())
    (h : metricOf metric (.flt V) v = .ok m) :
    IsMetric metric V v m ∧ 0 ≤ m ∧ (m = 0 ↔ v = V) := by
  obtain ⟨h1, h2⟩ := checkMetric_ok hm
  rcases h1 with rfl | rfl
  · have hV := h2 V rfl rfl
    simp only [metricOf, if_true, npDiv_ok hV, py_bind_ok, py_pure] at h
    obtain rfl := Except.ok.inj h
    refine ⟨Or.inl ⟨rfl, abs_div _ _⟩, abs_nonneg _, ?_⟩
    rw [abs_eq_zero, div_eq_zero_iff, sub_eq_zero]
    exact ⟨fun h => h.resolve_right hV, Or.inl⟩
  · have : ("se" : String) ≠ "relative-ee" := by decide
    simp only [metricOf, this, if_false] at h
    obtain rfl := Except.ok.inj h
    refine ⟨Or.inr ⟨rfl, rfl⟩, sq_nonneg _, ?_⟩
    rw [sq_eq_zero_iff, sub_eq_zero]

/-- **C57.** `evaluate_performance_of_estimators` reports for each name the documented metric of that
estimator's value; it is non-negative, and zero exactly when the estimate equals the ground truth. -/
theorem C57_performance {fb : Feedback K} {ests : List (OpeObj (MetaIn K) K)} {o : Ope (MetaIn K) K}
    (ho : mkOpe fb ests = .ok o) {a : MetaArgs K} {metric : String} {V : K} {d : List (String × K)}
    (hd : o.performance fb a metric (.flt V) = .ok d) :
    Reports ests (fun e m => ∃ i v, Receives fb a e.name i ∧ e.value i = .ok v ∧
      IsMetric metric V v m ∧ 0 ≤ m ∧ (m = 0 ↔ v = V)) d := by
  obtain ⟨hk, rfl⟩ := mkOpe_ok ho
  simp only [Ope.performance, py_bind_eq_ok, exists_unit] at hd
  refine (collect_reports hd.2.2).mono fun e m h => ?_
  simp only [py_bind_eq_ok] at h
  obtain ⟨v, hv, hm⟩ := h
  exact ⟨_, v, metaInput_receives hk a e.name, hv, metricOf_spec hd.1 hm⟩

/-- **C57.** The same for several loggers. -/
theorem C57_multi_performance {fb : MultiFeedback K} {ests : List (OpeObj (MultiArgs K) K)}
    {o : Ope (MultiArgs K) K} (ho : mkMultiOpe fb ests = .ok o) {a : MultiMetaArgs K} {metric : String}
    {V : K} {d : List (String × K)} (hd : o.multiPerformance fb a metric (.flt V) = .ok d) :
    Reports ests (fun e m => ∃ i v, MultiReceives fb a e.name i ∧ e.value i = .ok v ∧
      IsMetric metric V v m ∧ 0 ≤ m ∧ (m = 0 ↔ v = V)) d := by
  obtain ⟨hk, rfl⟩ := mkMultiOpe_ok ho
  simp only [Ope.multiPerformance, py_bind_eq_ok, exists_unit] at hd
  refine (collect_reports hd.2.2).mono fun e m h => ?_
  simp only [py_bind_eq_ok] at h
  obtain ⟨v, hv, hm⟩ := h
  exact ⟨_, v, multiInput_receives hk a e.name, hv, metricOf_spec hd.1 hm⟩

/-- **C57.** The same for slates. -/
theorem C57_slate_performance {fb : SlateFeedback K} {ests : List (OpeObj (SlateIn K) K)}
    {o : Ope (SlateIn K) K} (ho : mkSlateOpe fb ests = .ok o) {a : SlateMetaArgs K} {metric : String}
    {V : K} {d : List (String × K)} (hd : o.slatePerformance fb a metric (.flt V) = .ok d) :
    Reports ests (fun e m => ∃ i v, SlateReceives fb a i ∧ e.value i = .ok v ∧
      IsMetric metric V v m ∧ 0 ≤ m ∧ (m = 0 ↔ v = V)) d := by
  obtain ⟨hk, rfl⟩ := mkSlateOpe_ok ho
  simp only [Ope.slatePerformance, py_bind_eq_ok, exists_unit] at hd
  refine (collect_reports hd.2.2).mono fun e m h => ?_
  simp only [py_bind_eq_ok] at h
  obtain ⟨v, hv, hm⟩ := h
  exact ⟨_, v, slateInput_receives hk a, hv, metricOf_spec hd.1 hm⟩

/-- **C57.** Zero ground truth with `relative-ee`, and any metric other than the two, raise ValueError
before anything is computed; a ground truth that is not a float raises TypeError. -/
theorem C57_errors (o : Ope (MetaIn K) K) (fb : Feedback K) (a : MetaArgs K) :
    o.performance fb a "relative-ee" (.flt 0) = .error .valueError ∧
    (∀ metric V, metric ≠ "relative-ee" → metric ≠ "se" →
      o.performance fb a metric (.flt V) = .error .valueError) ∧
    (∀ metric z, o.performance fb a metric (.int z) = .error .typeError) := by
  refine ⟨?_, fun metric V h1 h2 => ?_, fun _ _ => rfl⟩
  · have : checkMetric "relative-ee" (.flt (0 : K)) = .error .valueError := by
      simp [checkMetric, raiseIf]
    simp only [Ope.performance, this]; rfl
  · have : checkMetric metric (.flt V) = .error .valueError := by
      simp [checkMetric, raiseIf, h1, h2]
    simp only [Ope.performance, this]; rfl

/-- **C57.** With `se` or a non-zero ground truth, evaluation succeeds whenever all estimators do. -/
theorem C57_performance_total {fb : Feedback K} {ests : List (OpeObj (MetaIn K) K)}
    {o : Ope (MetaIn K) K} (ho : mkOpe fb ests = .ok o) {a : MetaArgs K} {d : List (String × K)}
    (hd : o.values fb a = .ok d) {metric : String} {V : K}
    (hm : metric = "se" ∨ metric = "relative-ee" ∧ V ≠ 0) :
    ∃ r, o.performance fb a metric (.flt V) = .ok r := by
  obtain ⟨hk, rfl⟩ := mkOpe_ok ho
  simp only [Ope.values, py_bind_eq_ok, exists_unit] at hd
  have hc : checkMetric metric (.flt V) = .ok () := by
    rcases hm with rfl | ⟨rfl, hV⟩
    · simp [checkMetric, raiseIf]
    · simp [checkMetric, raiseIf, hV]
  simp only [Ope.performance, hc, hd.2.1, py_bind_ok]
  refine collect_total fun p hp => ?_
  obtain ⟨v, hv, -⟩ := (collect_ok hd.2.2).2 p hp
  rw [hv, py_bind_ok]
  rcases hm with rfl | ⟨rfl, hV⟩
  · have : ("se" : String) ≠ "relative-ee" := by decide
    exact ⟨_, by simp only [metricOf, this, if_false]; rfl⟩
  · exact ⟨_, by simp only [metricOf, if_true, npDiv_ok hV, py_bind_ok]; rfl⟩

theorem forall₂_imp_mem {α β : Type} {R S : α → β → Prop} {l : List α} {l' : List β}
    (h : ∀ a b, a ∈ l → R a b → S a b) (hR : List.Forall₂ R l l') : List.Forall₂ S l l' := by
  induction hR with
  | nil => exact .nil
  | cons hr _ ih =>
    exact .cons (h _ _ List.mem_cons_self hr) (ih fun a b ha => h a b (List.mem_cons_of_mem _ ha))

/-- **C57.** `relative-ee` does not depend on the unit of reward: multiplying rewards, predictions and
the ground truth by a non-zero constant leaves the whole table unchanged, for every list of
estimators of the eleven classes and every valid log. -/
theorem C57_relative_unit_free [FloorRing K] {n A L : ℕ} {g : Log K n A L} (hg : g.Valid)
    (ctx : Arg2 K) (ests : List (String × Estimator K)) {o : Ope (MetaIn K) K}
    (ho : mkOpe (g.feedback ctx) (ests.map fun p => p.2.obj p.1) = .ok o) {V c : K} (hc : c ≠ 0)
    {d : List (String × K)} (hd : o.performance (g.feedback ctx) g.metaArgs "relative-ee" (.flt V) = .ok d) :
    o.performance ((g.scale c).feedback ctx) (g.scale c).metaArgs "relative-ee" (.flt (c * V)) = .ok d := by
  obtain ⟨hk, rfl⟩ := mkOpe_ok ho
  simp only [Ope.performance, py_bind_eq_ok, exists_unit] at hd
  obtain ⟨h1, -, hd⟩ := hd
  have hV := (checkMetric_ok h1).2 V rfl rfl
  have hc1 : checkMetric "relative-ee" (.flt (c * V)) = .ok () := by
    simp [checkMetric, raiseIf, hV, hc]
  simp only [Ope.performance, hc1, checkMetaArgs_log, py_bind_ok]
  unfold collect at hd ⊢
  rw [mapM_ok_iff] at hd ⊢
  refine forall₂_imp_mem ?_ hd
  intro p q hp hpq
  obtain ⟨x, e⟩ := p
  obtain ⟨rfl, he⟩ := (register_mem _ _ _).1 hp
  obtain ⟨pe, -, rfl⟩ := List.mem_map.1 he.mem
  simp only [py_bind_eq_ok] at hpq ⊢
  obtain ⟨m, ⟨v, hv, hm⟩, hq⟩ := hpq
  have hv' : pe.2.estimatePolicyValue g.args = .ok v := hv
  refine ⟨m, ⟨c * v, value_scale hg pe.2 c hv', ?_⟩, hq⟩
  simp only [metricOf, if_true, npDiv_ok hV, npDiv_ok (mul_ne_zero hc hV), py_bind_ok] at hm ⊢
  rw [← hm, ← mul_sub, mul_div_mul_left _ _ hc]

/-! ### C58 -/

/-- **C58.** If any estimator in the list is of the DM or DR classes and no reward model is given, the
call raises ValueError, whatever the estimators' methods would do. -/
theorem C58_missing_model {fb : Feedback K} {ests : List (OpeObj (MetaIn K) K)} {o : Ope (MetaIn K) K}
    (ho : mkOpe fb ests = .ok o) {e : OpeObj (MetaIn K) K} (he : e ∈ ests) (hf : e.flagged = true)
    {a : MetaArgs K} (ha : a.regModel = .one .none) :
    o.values fb a = .error .valueError ∧
      ∀ c draws, o.intervals fb a c draws = .error .valueError := by
  obtain ⟨hk, rfl⟩ := mkOpe_ok ho
  have hany : (ests.any (·.flagged) && a.regModel.isNone3) = true := by
    rw [ha, Bool.and_eq_true]
    exact ⟨List.any_eq_true.2 ⟨e, he, hf⟩, rfl⟩
  simp only [Ope.values, Ope.intervals, hany]
  exact ⟨rfl, fun _ _ => rfl⟩

/-- **C58.** The test recognises exactly those of the eleven classes that cannot do without a reward
model: a class is recognised iff calling it without one always raises ValueError. -/
theorem C58_flag_exact [FloorRing K] (e : Estimator K) (name : String) :
    (e.obj name).flagged = true ↔
      ∀ i : MetaIn K, i.regModel = .none → (e.obj name).value i = .error .valueError := by
  constructor
  · intro hf i hi
    obtain ⟨k, lam, est⟩ := e
    cases k <;> simp only [Estimator.obj, Kind.isDmOrDr, Bool.false_eq_true] at hf <;>
      simp only [Estimator.obj, Estimator.estimatePolicyValue, Estimator.prepare, dmPrepare, drPrepare,
        MetaIn.est, hi, checkArray3] <;> rfl
  · intro h
    by_contra hf
    let g : Log K 1 1 1 := ⟨fun _ => 0, fun _ => 1, fun _ => 1, fun _ => 1, fun _ => 0, fun _ _ _ => 1,
      fun _ _ _ => 0, fun _ => 1⟩
    have hg : g.Valid := ⟨by decide, fun _ => one_pos, fun _ => one_pos, fun _ => zero_le_one,
      fun _ _ => by simp [g, closeToOne_one]⟩
    let i : MetaIn K := { metaInput (g.feedback .none) g.metaArgs "" with regModel := .none }
    have h1 : e.estimatePolicyValue { g.args with regModel := .none } = .error .valueError := h i rfl
    have h2 : e.estimatePolicyValue { g.args with regModel := .none } = e.estimatePolicyValue g.args := by
      obtain ⟨k, lam, est⟩ := e
      cases k <;> simp only [Estimator.obj, Kind.isDmOrDr, not_true_eq_false] at hf <;> rfl
    rw [h2, value_roundReward hg] at h1
    cases hr : roundReward e g with
    | none => rw [hr] at h1; cases h1
    | some f => rw [hr] at h1; cases h1

/-- **C58.** A model-dependent tuned estimator without a reward model never yields a result … -/
theorem C58_tuned_never_ok (argsort : List ℝ → List ℕ) (tq : ℝ → ℝ → ℝ) (t : Tuner) (name : String)
    (ht : t.kind.isDmOrDr = true) {fb : Feedback ℝ} {ests : List (OpeObj (MetaIn ℝ) ℝ)}
    {o : Ope (MetaIn ℝ) ℝ} (ho : mkOpe fb ests = .ok o) (hl : LastNamed ests (t.obj argsort tq name))
    {a : MetaArgs ℝ} (ha : a.regModel = .one .none) (d : List (String × ℝ)) :
    o.values fb a ≠ .ok d := by
  intro hd
  obtain ⟨v, -, i, hi, hv⟩ := (C54_values_report ho hd).entries _ hl
  have hreg : i.regModel = .none := by
    have := hi.regModel; rw [ha] at this
    exact Passed.unique (a := .one .none) (fun _ h => by cases h) this (.everyone _)
  have hp : (t.base .inf).prepare i.est = .error .valueError := by
    cases hk : t.kind <;> rw [hk] at ht <;> simp only [Kind.isDmOrDr, Bool.false_eq_true] at ht <;>
      simp only [Estimator.prepare, Tuner.base, hk, dmPrepare, drPrepare, MetaIn.est, hreg, checkArray3] <;> rfl
  simp only [Tuner.obj, Tuner.estimatePolicyValue, hp] at hv
  cases hv

/-- **C58, negative part.** … but it is not rejected up front: the estimators listed before it are run
first. Whatever error the first one raises is what the caller sees; with the plain class in place
of the tuned one the caller would get ValueError (`C58_missing_model`). -/
theorem C58_tuned_not_up_front_partial (argsort : List ℝ → List ℕ) (tq : ℝ → ℝ → ℝ) (t : Tuner)
    (name : String) {fb : Feedback ℝ} {first : OpeObj (MetaIn ℝ) ℝ} {o : Ope (MetaIn ℝ) ℝ}
    (ho : mkOpe fb [first, t.obj argsort tq name] = .ok o) (hname : first.name ≠ name)
    (hf : first.flagged = false) {a : MetaArgs ℝ} (hc : checkMetaArgs a = .ok ())
    {err : PyErr} (herr : ∀ i, first.value i = .error err) :
    o.values fb a = .error err := by
  obtain ⟨hk, rfl⟩ := mkOpe_ok ho
  have hflag : ([first, t.obj argsort tq name].any (·.flagged) && a.regModel.isNone3) = false := by
    simp [hf, Tuner.obj]
  have hreg : register [first, t.obj argsort tq name] =
      [(first.name, first), (name, t.obj argsort tq name)] := by
    have h2 : (t.obj argsort tq name).name = name := rfl
    simp [register, dictSet, hname, h2]
  simp only [Ope.values, hflag, raiseIf_neg, py_bind_ok, hc, hreg, collect, List.mapM_cons, herr,
    py_bind_error]

/-- **C58, negative part.** `evaluate_performance_of_estimators` makes no such test: even plain DR/DM
estimators are only reached after those listed before them have been run. -/
theorem C58_performance_not_up_front {fb : Feedback K} {first e : OpeObj (MetaIn K) K}
    {o : Ope (MetaIn K) K} (ho : mkOpe fb [first, e] = .ok o) {a : MetaArgs K}
    (hname : first.name ≠ e.name) (hc : checkMetaArgs a = .ok ()) {err : PyErr}
    (herr : ∀ i, first.value i = .error err) (V : K) :
    o.performance fb a "se" (.flt V) = .error err := by
  obtain ⟨hk, rfl⟩ := mkOpe_ok ho
  have hreg : register [first, e] = [(first.name, first), (e.name, e)] := by
    simp [register, dictSet, hname]
  have hm : checkMetric "se" (.flt V) = .ok () := by simp [checkMetric, raiseIf]
  simp only [Ope.performance, hm, py_bind_ok, hc, hreg, collect, List.mapM_cons, herr, py_bind_error]

/-- **C58.** Several loggers: the three DR classes are recognised. -/
theorem C58_multi_missing_model [FloorRing K] {fb : MultiFeedback K}
    {ests : List (OpeObj (MultiArgs K) K)} {o : Ope (MultiArgs K) K} (ho : mkMultiOpe fb ests = .ok o)
    {e : MultiEstimator K} {name : String} (he : e.obj name ∈ ests)
    (hk : e.kind = .naiveDr ∨ e.kind = .balancedDr ∨ e.kind = .weightedDr)
    {a : MultiMetaArgs K} (ha : a.regModel = .one .none) :
    o.multiValues fb a = .error .valueError ∧
      ∀ c draws, o.multiIntervals fb a c draws = .error .valueError := by
  obtain ⟨-, rfl⟩ := mkMultiOpe_ok ho
  have hf : (e.obj name).flagged = true := by
    rcases hk with hk | hk | hk <;> simp [MultiEstimator.obj, hk, MultiKind.isDr]
  have hany : (ests.any (·.flagged) && a.regModel.isNone3) = true := by
    rw [ha, Bool.and_eq_true]
    exact ⟨List.any_eq_true.2 ⟨_, he, hf⟩, rfl⟩
  simp only [Ope.multiValues, Ope.multiIntervals, hany]
  exact ⟨rfl, fun _ _ => rfl⟩

/-- **C58.** Continuous actions: the DR class is recognised. -/
theorem C58_cont_missing_model {fb : ContFeedback} {ests : List (OpeObj ContArgs ℝ)}
    {o : Ope ContArgs ℝ} (ho : mkContOpe fb ests = .ok o) {ker : Kernel} {h : Bandwidth} {name : String}
    (he : ContKind.dr.obj ker h name ∈ ests) (x : Arg1 ℝ) :
    o.contValues fb x (.one .none) = .error .valueError := by
  obtain ⟨-, rfl⟩ := mkContOpe_ok ho
  have hany : (ests.any (·.flagged) && (ArrOrDict.one (Arg1.none : Arg1 ℝ)).isNone1) = true := by
    rw [Bool.and_eq_true]
    exact ⟨List.any_eq_true.2 ⟨_, he, by simp [ContKind.obj]⟩, rfl⟩
  simp only [Ope.contValues, hany]
  rfl

/-! ### C59 -/

/-- the logged propensities that a class needs -/
def SlateKind.ownLogged (k : SlateKind) (fb : SlateFeedback K) : Option (Arg1 K) :=
  match k with
  | .sips | .snSips => fb.pscore
  | .iips | .snIips => fb.pscoreItem
  | .rips | .snRips => fb.pscoreCascade

/-- the evaluation-policy propensities that a class needs -/
def SlateKind.ownEval (k : SlateKind) (a : SlateMetaArgs K) : Arg1 K :=
  match k with
  | .sips | .snSips => a.evalPscore
  | .iips | .snIips => a.evalItem
  | .rips | .snRips => a.evalCascade

/-- **C59.** One entry per name; every class gets its own logged and evaluation propensities. -/
theorem C59_each_own [FloorRing K] {fb : SlateFeedback K} {ests : List (OpeObj (SlateIn K) K)}
    {o : Ope (SlateIn K) K} (ho : mkSlateOpe fb ests = .ok o) {a : SlateMetaArgs K}
    {d : List (String × K)} (hd : o.slateValues fb a = .ok d) :
    Reports ests (fun e v => ∃ i, SlateReceives fb a i ∧ e.value i = .ok v) d ∧
    (∀ k lenList name, LastNamed ests (SlateKind.obj k lenList name) →
      ∃ v s r pos ps, (name, v) ∈ d ∧ fb.slateId = some s ∧ fb.reward = some r ∧
        fb.position = some pos ∧ k.ownLogged fb = some ps ∧
        k.estimatePolicyValue lenList ⟨s, r, pos, ps, k.ownEval a⟩ = .ok v) ∧
    (∀ lenList nU name, LastNamed ests (cascadeDrObj lenList nU name) →
      ∃ v s act r pos ps, (name, v) ∈ d ∧ fb.slateId = some s ∧ fb.action = some act ∧
        fb.reward = some r ∧ fb.position = some pos ∧ fb.pscoreCascade = some ps ∧
        cascadeDrValue lenList nU ⟨⟨s, r, pos, ps, a.evalCascade⟩, act, a.qHat, a.evalDist⟩ = .ok v) := by
  obtain ⟨hk, rfl⟩ := mkSlateOpe_ok ho
  simp only [Ope.slateValues, py_bind_eq_ok, exists_unit] at hd
  have hrep := collect_reports hd.2
  refine ⟨hrep.mono fun e v h => ⟨_, slateInput_receives hk a, h⟩, ?_, ?_⟩
  · intro k lenList name hl
    obtain ⟨v, hm, hv⟩ := hrep.entries _ hl
    obtain ⟨s, c, act, r, p, h1, h2, h3, h4, h5⟩ := hk
    refine ⟨v, s, r, p, ?_⟩
    simp only [SlateKind.obj, slateInput, h1, h3, h4, h5, Option.getD_some, py_bind_eq_ok] at hv
    obtain ⟨args, ha, hv⟩ := hv
    cases k <;> simp only [SlateKind.args, py_bind_eq_ok] at ha <;> obtain ⟨ps, hps, ha⟩ := ha <;>
      (unfold required at hps; split at hps <;> [skip; cases hps]) <;>
      cases hps <;> cases ha <;>
      exact ⟨ps, hm, h1, h4, h5, by assumption, hv⟩
  · intro lenList nU name hl
    obtain ⟨v, hm, hv⟩ := hrep.entries _ hl
    obtain ⟨s, c, act, r, p, h1, h2, h3, h4, h5⟩ := hk
    refine ⟨v, s, act, r, p, ?_⟩
    simp only [cascadeDrObj, slateInput, h1, h3, h4, h5, Option.getD_some, py_bind_eq_ok, SlateIn.cascade] at hv
    obtain ⟨args, ⟨ps, hps, ha⟩, hv⟩ := hv
    unfold required at hps
    split at hps
    · cases hps; cases ha
      exact ⟨ps, hm, h1, h3, h4, h5, by assumption, hv⟩
    · cases hps

/-- **C59.** No evaluation propensities at all: ValueError, for every list of estimators. -/
theorem C59_none_supplied (o : Ope (SlateIn K) K) (fb : SlateFeedback K) (dist q : Arg1 K) :
    o.slateValues fb { evalPscore := .none, evalItem := .none, evalCascade := .none, evalDist := dist, qHat := q } =
      .error .valueError := rfl

/-- **C59.** With a `SlateCascadeDoublyRobust` in the list, both the action distribution and the
predictions are required. -/
theorem C59_cascade_dr_needs [FloorRing K] {fb : SlateFeedback K} {ests : List (OpeObj (SlateIn K) K)}
    {o : Ope (SlateIn K) K} (ho : mkSlateOpe fb ests = .ok o) {lenList nU : ℕ} {name : String}
    (he : cascadeDrObj lenList nU name ∈ ests) {a : SlateMetaArgs K}
    (ha : a.evalDist = .none ∨ a.qHat = .none) : o.slateValues fb a = .error .valueError := by
  obtain ⟨-, rfl⟩ := mkSlateOpe_ok ho
  have hf : ests.any (·.flagged) = true := List.any_eq_true.2 ⟨_, he, rfl⟩
  have hc : checkSlateMetaArgs true a = .error .valueError := by
    unfold checkSlateMetaArgs
    cases h0 : (a.evalPscore.isNone && a.evalItem.isNone && a.evalCascade.isNone) with
    | true => rfl
    | false =>
      cases h1 : a.evalDist.isNone with
      | true => rfl
      | false =>
        rcases ha with ha | ha
        · rw [ha] at h1; cases h1
        · rw [ha]; rfl
  simp only [Ope.slateValues, hf, hc]
  rfl

/-- **C59.** An estimator whose evaluation propensities are missing, or whose logged propensities are
missing, is never silently skipped: the call fails. Alone in the list, it fails with TypeError for
a missing key. -/
theorem C59_missing_rejected [FloorRing K] {fb : SlateFeedback K} {ests : List (OpeObj (SlateIn K) K)}
    {o : Ope (SlateIn K) K} (ho : mkSlateOpe fb ests = .ok o) {k : SlateKind} {lenList : ℕ}
    {name : String} (hl : LastNamed ests (k.obj lenList name)) {a : SlateMetaArgs K}
    (hm : k.ownEval a = .none ∨ k.ownLogged fb = none) (d : List (String × K)) :
    o.slateValues fb a ≠ .ok d := by
  intro hd
  obtain ⟨v, s, r, pos, ps, -, -, -, -, hps, hv⟩ := (C59_each_own ho hd).2.1 k lenList name hl
  rcases hm with hm | hm
  · rw [hm] at hv
    have : ∀ rows, checkSlateOpeInputs (⟨s, r, pos, ps, .none⟩ : SlateArgs K) ≠ .ok rows := by
      intro rows h
      simp only [checkSlateOpeInputs, py_bind_eq_ok, exists_unit, checkArray1] at h
      obtain ⟨-, _, -, -, -, -, -, h, -⟩ := h
      cases h
    simp only [SlateKind.estimatePolicyValue, py_bind_eq_ok] at hv
    obtain ⟨rows, hr, -⟩ := hv
    cases k <;> simp only [SlateKind.check, checkSipsInputs, checkIipsInputs, checkRipsInputs,
      py_bind_eq_ok] at hr <;> obtain ⟨rows', h, -⟩ := hr <;> exact this _ h
  · rw [hm] at hps; cases hps

/-- **C59.** The behaviour-policy value used by `summarize_off_policy_estimates` is the total logged
reward per distinct slate; the relative value is the quotient, or nan if it is not positive. -/
theorem C59_relative_value {fb : SlateFeedback K} {o : Ope (SlateIn K) K} {a : SlateMetaArgs K}
    {c : CiArgs K} {draws : String → List (List ℕ)} {ids : List ℤ} {r : List K}
    (hs : fb.slateId = some (.int ids)) (hr : fb.reward = some (.flt r))
    {vs : List (String × K × Option K)} {cis : List (String × CiOut K)}
    (h : o.slateSummarize fb a c draws = .ok (vs, cis)) :
    ids ≠ [] ∧ o.slateIntervals fb a c draws = .ok cis ∧
      ∃ d, o.slateValues fb a = .ok d ∧ vs = d.map fun p =>
        (p.1, p.2, if r.sum / (ids.toFinset.card : K) ≤ 0 then none
          else some (p.2 / (r.sum / (ids.toFinset.card : K)))) := by
  simp only [Ope.slateSummarize, py_bind_eq_ok, hs, hr, Option.getD_some] at h
  obtain ⟨d, hd, ci, hci, ids', hids, m, hm, h⟩ := h
  obtain rfl : ids = ids' := Except.ok.inj hids
  obtain ⟨rfl, rfl⟩ := Prod.mk.inj (Except.ok.inj h)
  have hlen : (npUnique ids).length = ids.toFinset.card := by
    unfold npUnique
    rw [List.card_toFinset]; exact (List.perm_insertionSort _ _).length_eq
  rw [hlen] at hm
  have hne : (ids.toFinset.card : K) ≠ 0 := by
    intro h0
    rw [h0, npDiv_zero] at hm; cases hm
  rw [npDiv_ok hne] at hm
  obtain rfl := Except.ok.inj hm
  refine ⟨?_, hci, d, hd, rfl⟩
  rintro rfl
  simp at hne

/-! ### C97 -/

/-- **C97.** `summarize_off_policy_estimates` of `OffPolicyEvaluation`: the table holds the values of
`estimate_policy_values` and, beside each, its ratio to the average logged reward (nan if that
average is not positive); the second table is that of `estimate_intervals`. -/
theorem C97_summary {fb : Feedback K} {o : Ope (MetaIn K) K} {a : MetaArgs K}
    {c : CiArgs K} {draws : String → List (List ℕ)} {r : List K} (hr : fb.reward = some (.flt r))
    {vs : List (String × K × Option K)} {cis : List (String × CiOut K)}
    (h : o.summarize fb a c draws = .ok (vs, cis)) :
    r ≠ [] ∧ o.intervals fb a c draws = .ok cis ∧
      ∃ d, o.values fb a = .ok d ∧ vs = d.map fun p =>
        (p.1, p.2, if r.sum / (r.length : K) ≤ 0 then none else some (p.2 / (r.sum / (r.length : K)))) := by
  simp only [Ope.summarize, py_bind_eq_ok, hr, Option.getD_some, Arg1.vals] at h
  obtain ⟨d, hd, ci, hci, m, hm, h⟩ := h
  obtain ⟨rfl, rfl⟩ := Prod.mk.inj (Except.ok.inj h)
  have hne : r ≠ [] := by rintro rfl; simp [npMean] at hm
  unfold npMean at hm
  rw [if_neg (by simpa using hne)] at hm
  obtain rfl := Except.ok.inj hm
  exact ⟨hne, hci, d, hd, rfl⟩

/-! ### Examples -/

/-- three estimators -/
def exEsts : List (String × Estimator ℚ) :=
  [("a", ⟨.ipw, .inf, false⟩), ("b", ⟨.dr, .inf, false⟩), ("c", ⟨.dm, .inf, false⟩)]

def exVal (e : Estimator ℚ) : ℚ :=
  match roundReward e exLog with
  | some f => Log.avg f
  | none => 0

theorem exEsts_ok : ∀ p ∈ exEsts, p.2.estimatePolicyValue exLog.args = .ok (exVal p.2) := by
  intro p hp
  rw [value_roundReward exLog_valid]
  simp only [exEsts, List.mem_cons, List.not_mem_nil, or_false] at hp
  rcases hp with rfl | rfl | rfl <;> rfl

example := C54_values_total (g := exLog) (.none) exEsts (by decide) exVal exEsts_ok

/-- the front end succeeds on this log -/
theorem exOpe : ∃ o d, mkOpe (exLog.feedback .none) (exEsts.map fun p => p.2.obj p.1) = .ok o ∧
    o.values (exLog.feedback .none) exLog.metaArgs = .ok d := by
  obtain ⟨o, d, h1, h2, -⟩ := C54_values_total (g := exLog) (.none) exEsts (by decide) exVal exEsts_ok
  exact ⟨o, d, h1, h2⟩

example : ∃ o d, mkOpe (exLog.feedback .none) (exEsts.map fun p => p.2.obj p.1) = .ok o ∧
    o.performance (exLog.feedback .none) exLog.metaArgs "relative-ee" (.flt 2) = .ok d := by
  obtain ⟨o, d, h1, h2⟩ := exOpe
  obtain ⟨r, hr⟩ := C57_performance_total h1 h2 (metric := "relative-ee") (V := 2)
    (Or.inr ⟨rfl, by norm_num⟩)
  exact ⟨o, r, h1, hr⟩

example : ∃ o : Ope (MetaIn ℚ) ℚ, o.values (exLog.feedback .none)
    { exLog.metaArgs with pEA := .one (.arr ⟨2, 3, 1, fun _ _ _ => 1 / 3⟩) } = .error .unboundLocalError := by
  obtain ⟨o, d, h1, h2⟩ := exOpe
  exact ⟨o, C56_array_unbound (a := exLog.metaArgs) rfl h2 trivial trivial trivial trivial trivial _⟩

/-- duplicates: the last estimator of a name is the one reported -/
example (e1 e2 : OpeObj (MetaIn ℚ) ℚ) (h : e1.name = e2.name) :
    LastNamed [e1, e2] e2 ∧ register [e1, e2] = [(e2.name, e2)] := by
  refine ⟨⟨[e1], [], rfl, by simp⟩, ?_⟩
  simp [register, dictSet, h]

example := C58_missing_model (mkOpe_log exLog .none (exEsts.map fun p => p.2.obj p.1))
  (e := Estimator.obj ⟨.dr, .inf, false⟩ "b") (by simp [exEsts]) rfl
  (a := { exLog.metaArgs with regModel := .one .none }) rfl

/-- a slate log with all keys -/
def exSlateFb : SlateFeedback ℚ where
  slateId := some exSlate.args.slateId
  context := some .none
  action := some .none
  reward := some exSlate.args.reward
  position := some exSlate.args.position
  pscore := some exSlate.args.pscore
  pscoreItem := some exSlate.args.pscore
  pscoreCascade := some exSlate.args.pscore

/-- two estimators, each with its own pair, on this log -/
example : ∃ o d, mkSlateOpe exSlateFb [SlateKind.sips.obj 2 "s", SlateKind.rips.obj 2 "r"] = .ok o ∧
    o.slateValues exSlateFb { evalPscore := exSlate.args.evalPscore, evalCascade := exSlate.args.evalPscore } =
      .ok d := by
  obtain ⟨v, hv⟩ : ∃ v, SlateKind.sips.estimatePolicyValue 2 exSlate.args = .ok v :=
    ⟨_, (C44_ips_interval (by tauto) 2 (exSlate_accepts .sips)).1⟩
  obtain ⟨w, hw⟩ : ∃ v, SlateKind.rips.estimatePolicyValue 2 exSlate.args = .ok v :=
    ⟨_, (C44_ips_interval (by tauto) 2 (exSlate_accepts .rips)).1⟩
  have hv' : (SlateKind.sips.obj 2 "s").value (slateInput exSlateFb
    { evalPscore := exSlate.args.evalPscore, evalCascade := exSlate.args.evalPscore }) = .ok v := hv
  have hw' : (SlateKind.rips.obj 2 "r").value (slateInput exSlateFb
    { evalPscore := exSlate.args.evalPscore, evalCascade := exSlate.args.evalPscore }) = .ok w := hw
  refine ⟨_, [("s", v), ("r", w)], rfl, ?_⟩
  have hreg : register [SlateKind.sips.obj (K := ℚ) 2 "s", SlateKind.rips.obj 2 "r"] =
    [("s", SlateKind.sips.obj 2 "s"), ("r", SlateKind.rips.obj 2 "r")] := rfl
  show (do checkSlateMetaArgs false _; collect (register _) _) = _
  rw [hreg]
  simp only [collect, List.mapM_cons, hv', hw', List.mapM_nil]
  rfl

end Obp
