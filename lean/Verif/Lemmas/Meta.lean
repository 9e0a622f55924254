import Verif.Spec.Meta
import Verif.Spec.Rounds
import Verif.Lemmas.Rounds
import Verif.Lemmas.Avg

/-! # Lemmas for the front ends -/

set_option linter.unusedSectionVars false

namespace Obp

variable {K : Type} [Field K] [LinearOrder K] [IsStrictOrderedRing K]

section dict
variable {V : Type}

theorem dictSet_keys (d : List (String × V)) (k : String) (v : V) (x : String) :
    x ∈ (dictSet d k v).map (·.1) ↔ x = k ∨ x ∈ d.map (·.1) := by
  induction d with
  | nil => simp [dictSet]
  | cons p d ih =>
    obtain ⟨k', v'⟩ := p
    unfold dictSet
    split
    · rename_i h; subst h; simp
    · simp only [List.map_cons, List.mem_cons, ih]; tauto

theorem dictSet_nodup {d : List (String × V)} (h : (d.map (·.1)).Nodup) (k : String) (v : V) :
    ((dictSet d k v).map (·.1)).Nodup := by
  induction d with
  | nil => simp [dictSet]
  | cons p d ih =>
    obtain ⟨k', v'⟩ := p
    simp only [List.map_cons, List.nodup_cons] at h
    unfold dictSet
    split
    · rename_i hk; subst hk; simpa using h
    · rename_i hk
      simp only [List.map_cons, List.nodup_cons, dictSet_keys, not_or]
      exact ⟨⟨hk, h.1⟩, ih h.2⟩

theorem dictSet_mem {d : List (String × V)} (h : (d.map (·.1)).Nodup) (k : String) (v : V)
    (x : String) (y : V) :
    (x, y) ∈ dictSet d k v ↔ (x = k ∧ y = v) ∨ (x ≠ k ∧ (x, y) ∈ d) := by
  induction d with
  | nil => simp [dictSet]
  | cons p d ih =>
    obtain ⟨k', v'⟩ := p
    simp only [List.map_cons, List.nodup_cons] at h
    unfold dictSet
    split
    · rename_i hk; subst hk
      simp only [List.mem_cons, Prod.mk.injEq]
      constructor
      · rintro (⟨rfl, rfl⟩ | hm)
        · exact Or.inl ⟨rfl, rfl⟩
        · refine Or.inr ⟨?_, Or.inr hm⟩
          rintro rfl
          exact h.1 (List.mem_map.2 ⟨_, hm, rfl⟩)
      · rintro (⟨rfl, rfl⟩ | ⟨hn, (⟨rfl, _⟩ | hm)⟩)
        · exact Or.inl ⟨rfl, rfl⟩
        · exact absurd rfl hn
        · exact Or.inr hm
    · rename_i hk
      simp only [List.mem_cons, Prod.mk.injEq, ih h.2]
      constructor
      · rintro (⟨rfl, rfl⟩ | h | ⟨h1, h2⟩)
        · exact Or.inr ⟨hk, Or.inl ⟨rfl, rfl⟩⟩
        · exact Or.inl h
        · exact Or.inr ⟨h1, Or.inr h2⟩
      · rintro (h | ⟨h1, (h2 | h2)⟩)
        · exact Or.inr (Or.inl h)
        · exact Or.inl h2
        · exact Or.inr (Or.inr ⟨h1, h2⟩)

theorem dictGet_some {d : List (String × V)} {k : String} {v : V} (h : dictGet d k = some v) :
    (k, v) ∈ d := by
  induction d with
  | nil => cases h
  | cons p d ih =>
    obtain ⟨k', v'⟩ := p
    unfold dictGet at h
    split at h
    · rename_i hk; subst hk; cases h; exact List.mem_cons_self
    · exact List.mem_cons_of_mem _ (ih h)

theorem dictGet_none {d : List (String × V)} {k : String} (h : dictGet d k = none) (v : V) :
    (k, v) ∉ d := by
  induction d with
  | nil => simp
  | cons p d ih =>
    obtain ⟨k', v'⟩ := p
    unfold dictGet at h
    split at h
    · cases h
    · rename_i hk
      simp only [List.mem_cons, Prod.mk.injEq, not_or, not_and]
      exact ⟨fun e => absurd e.symm hk, ih h⟩

theorem passed_pick {α : Type} (dflt : α) (a : ArrOrDict α) (name : String) :
    Passed dflt name a (a.pick dflt name) := by
  cases a with
  | one x => exact .everyone x
  | dict d =>
    show Passed dflt name (.dict d) ((dictGet d name).getD dflt)
    cases h : dictGet d name with
    | some v => exact .own (dictGet_some h)
    | none => exact .missing (dictGet_none h)

end dict

section register
variable {I V : Type}

theorem LastNamed.mem {ests : List (OpeObj I K)} {e : OpeObj I K} (h : LastNamed ests e) : e ∈ ests := by
  obtain ⟨pre, post, rfl, -⟩ := h; simp

theorem register_append (ests : List (OpeObj I K)) (e : OpeObj I K) :
    register (ests ++ [e]) = dictSet (register ests) e.name e := by
  simp [register, List.foldl_append]

theorem register_nodup (ests : List (OpeObj I K)) : ((register ests).map (·.1)).Nodup := by
  induction ests using List.reverseRecOn with
  | nil => simp [register]
  | append_singleton ests e ih => rw [register_append]; exact dictSet_nodup ih _ _

theorem register_keys (ests : List (OpeObj I K)) (x : String) :
    x ∈ (register ests).map (·.1) ↔ ∃ e ∈ ests, e.name = x := by
  induction ests using List.reverseRecOn with
  | nil => simp [register]
  | append_singleton ests e ih =>
    rw [register_append, dictSet_keys, ih]
    simp only [List.mem_append, List.mem_singleton]
    constructor
    · rintro (rfl | ⟨e', h1, h2⟩)
      · exact ⟨e, Or.inr rfl, rfl⟩
      · exact ⟨e', Or.inl h1, h2⟩
    · rintro ⟨e', (h1 | rfl), h2⟩
      · exact Or.inr ⟨e', h1, h2⟩
      · exact Or.inl h2.symm

theorem lastNamed_append (ests : List (OpeObj I K)) (e x : OpeObj I K) :
    LastNamed (ests ++ [e]) x ↔ x = e ∨ (x.name ≠ e.name ∧ LastNamed ests x) := by
  constructor
  · rintro ⟨pre, post, h, hp⟩
    rcases List.eq_nil_or_concat post with rfl | ⟨post', y, rfl⟩
    · have := List.append_inj' h rfl
      exact Or.inl (List.singleton_inj.1 this.2).symm
    · have h' : ests ++ [e] = (pre ++ x :: post') ++ [y] := by rw [h]; simp
      have := List.append_inj' h' rfl
      have hy : y = e := (List.singleton_inj.1 this.2).symm
      subst hy
      refine Or.inr ⟨fun e => hp y (by simp) e.symm, pre, post', this.1, fun z hz => hp z (by simp [hz])⟩
  · rintro (rfl | ⟨h1, pre, post, rfl, hp⟩)
    · exact ⟨ests, [], by simp, by simp⟩
    · refine ⟨pre, post ++ [e], by simp, ?_⟩
      intro z hz
      rcases List.mem_append.1 hz with hz | hz
      · exact hp z hz
      · rw [List.mem_singleton.1 hz]; exact h1.symm

theorem register_mem (ests : List (OpeObj I K)) (x : String) (e : OpeObj I K) :
    (x, e) ∈ register ests ↔ x = e.name ∧ LastNamed ests e := by
  induction ests using List.reverseRecOn with
  | nil =>
    simp only [register, List.foldl_nil, List.not_mem_nil, false_iff, not_and]
    intro _ h; exact absurd h.mem (by simp)
  | append_singleton ests y ih =>
    rw [register_append, dictSet_mem (register_nodup ests), ih, lastNamed_append]
    constructor
    · rintro (⟨rfl, rfl⟩ | ⟨h1, rfl, h2⟩)
      · exact ⟨rfl, Or.inl rfl⟩
      · exact ⟨rfl, Or.inr ⟨h1, h2⟩⟩
    · rintro ⟨rfl, (rfl | ⟨h1, h2⟩)⟩
      · exact Or.inl ⟨rfl, rfl⟩
      · exact Or.inr ⟨h1, rfl, h2⟩

theorem collect_ok {reg : List (String × OpeObj I K)} {f : String → OpeObj I K → Py V}
    {d : List (String × V)} (h : collect reg f = .ok d) :
    d.map (·.1) = reg.map (·.1) ∧ ∀ p ∈ reg, ∃ v, f p.1 p.2 = .ok v ∧ (p.1, v) ∈ d := by
  unfold collect at h
  rw [mapM_ok_iff] at h
  induction h with
  | nil => simp
  | @cons p q reg d hpq _ ih =>
    simp only [py_bind_eq_ok] at hpq
    obtain ⟨v, hv, hq⟩ := hpq
    cases hq
    refine ⟨by simp [ih.1], ?_⟩
    intro p' hp'
    rcases List.mem_cons.1 hp' with rfl | hp'
    · exact ⟨v, hv, List.mem_cons_self⟩
    · obtain ⟨v', h1, h2⟩ := ih.2 p' hp'
      exact ⟨v', h1, List.mem_cons_of_mem _ h2⟩

theorem collect_total {reg : List (String × OpeObj I K)} {f : String → OpeObj I K → Py V}
    (h : ∀ p ∈ reg, ∃ v, f p.1 p.2 = .ok v) : ∃ d, collect reg f = .ok d := by
  unfold collect
  induction reg with
  | nil => exact ⟨[], rfl⟩
  | cons p reg ih =>
    obtain ⟨v, hv⟩ := h p List.mem_cons_self
    obtain ⟨d, hd⟩ := ih fun q hq => h q (List.mem_cons_of_mem _ hq)
    refine ⟨(p.1, v) :: d, ?_⟩
    rw [List.mapM_cons, hd]
    simp only [hv, py_bind_ok, py_pure]

theorem collect_reports {ests : List (OpeObj I K)} {f : String → OpeObj I K → Py V}
    {d : List (String × V)} (h : collect (register ests) f = .ok d) :
    Reports ests (fun e v => f e.name e = .ok v) d := by
  obtain ⟨h1, h2⟩ := collect_ok h
  refine ⟨by rw [h1]; exact register_nodup ests, fun x => by rw [h1]; exact register_keys ests x, ?_⟩
  intro e he
  obtain ⟨v, hv, hm⟩ := h2 (e.name, e) ((register_mem ests _ _).2 ⟨rfl, he⟩)
  exact ⟨v, hm, hv⟩

theorem collect_total' {ests : List (OpeObj I K)} {f : String → OpeObj I K → Py V}
    (h : ∀ e, LastNamed ests e → ∃ v, f e.name e = .ok v) : ∃ d, collect (register ests) f = .ok d :=
  collect_total fun p hp => by
    obtain ⟨x, e⟩ := p
    obtain ⟨rfl, he⟩ := (register_mem ests _ _).1 hp
    exact h e he

theorem Reports.mono {ests : List (OpeObj I K)} {P Q : OpeObj I K → V → Prop} {d : List (String × V)}
    (h : Reports ests P d) (hPQ : ∀ e v, P e v → Q e v) : Reports ests Q d :=
  ⟨h.keys_distinct, h.keys, fun e he => by
    obtain ⟨v, h1, h2⟩ := h.entries e he
    exact ⟨v, h1, hPQ e v h2⟩⟩

/-- every name in the list has a last bearer -/
theorem exists_lastNamed {ests : List (OpeObj I K)} {e : OpeObj I K} (he : e ∈ ests) :
    ∃ e', LastNamed ests e' ∧ e'.name = e.name := by
  have := (register_keys ests e.name).2 ⟨e, he, rfl⟩
  obtain ⟨⟨x, e'⟩, h1, h2⟩ := List.mem_map.1 this
  obtain ⟨rfl, h3⟩ := (register_mem ests _ _).1 h1
  exact ⟨e', h3, h2⟩

end register

theorem mkOpe_ok {fb : Feedback K} {ests : List (OpeObj (MetaIn K) K)} {o : Ope (MetaIn K) K}
    (h : mkOpe fb ests = .ok o) :
    (∃ a p r c, fb.action = some a ∧ fb.position = some p ∧ fb.reward = some r ∧ fb.context = some c) ∧
      o = ⟨register ests, ests.any (·.flagged)⟩ := by
  simp only [mkOpe, py_bind_eq_ok, exists_unit, raiseIf_ok] at h
  obtain ⟨h1, h2⟩ := h
  refine ⟨?_, (Except.ok.inj h2).symm⟩
  simp only [Bool.or_eq_false_iff, Option.isNone_eq_false_iff, Option.isSome_iff_exists] at h1
  obtain ⟨⟨⟨⟨a, ha⟩, p, hp⟩, r, hr⟩, c, hc⟩ := h1
  exact ⟨a, p, r, c, ha, hp, hr, hc⟩

theorem optGetD {α : Type} (o : Option α) (d : α) :
    o = some (o.getD d) ∨ o = none ∧ o.getD d = d := by
  cases o
  · exact Or.inr ⟨rfl, rfl⟩
  · exact Or.inl rfl

theorem metaInput_receives {fb : Feedback K}
    (h : ∃ a p r c, fb.action = some a ∧ fb.position = some p ∧ fb.reward = some r ∧ fb.context = some c)
    (a : MetaArgs K) (name : String) : Receives fb a name (metaInput fb a name) := by
  obtain ⟨a', p, r, c, h1, h2, h3, h4⟩ := h
  exact ⟨by simp [metaInput, h1], by simp [metaInput, h2], by simp [metaInput, h3],
    by simp [metaInput, h4], optGetD _ _, rfl, passed_pick _ _ _, passed_pick _ _ _, passed_pick _ _ _,
    passed_pick _ _ _, passed_pick _ _ _, passed_pick _ _ _⟩

theorem mkMultiOpe_ok {fb : MultiFeedback K} {ests : List (OpeObj (MultiArgs K) K)}
    {o : Ope (MultiArgs K) K} (h : mkMultiOpe fb ests = .ok o) :
    (∃ a p r, fb.action = some a ∧ fb.position = some p ∧ fb.reward = some r) ∧
      o = ⟨register ests, ests.any (·.flagged)⟩ := by
  simp only [mkMultiOpe, py_bind_eq_ok, exists_unit, raiseIf_ok] at h
  obtain ⟨h1, h2⟩ := h
  refine ⟨?_, (Except.ok.inj h2).symm⟩
  simp only [Bool.or_eq_false_iff, Option.isNone_eq_false_iff, Option.isSome_iff_exists] at h1
  obtain ⟨⟨⟨a, ha⟩, p, hp⟩, r, hr⟩ := h1
  exact ⟨a, p, r, ha, hp, hr⟩

theorem multiInput_receives {fb : MultiFeedback K}
    (h : ∃ a p r, fb.action = some a ∧ fb.position = some p ∧ fb.reward = some r)
    (a : MultiMetaArgs K) (name : String) : MultiReceives fb a name (multiInput fb a name) := by
  obtain ⟨a', p, r, h1, h2, h3⟩ := h
  exact ⟨by simp [multiInput, h1], by simp [multiInput, h2], by simp [multiInput, h3],
    optGetD _ _, optGetD _ _, optGetD _ _, rfl, passed_pick _ _ _, passed_pick _ _ _, passed_pick _ _ _⟩

theorem mkContOpe_ok {fb : ContFeedback} {ests : List (OpeObj ContArgs ℝ)} {o : Ope ContArgs ℝ}
    (h : mkContOpe fb ests = .ok o) :
    (∃ a r p, fb.action = some a ∧ fb.reward = some r ∧ fb.pscore = some p) ∧
      o = ⟨register ests, ests.any (·.flagged)⟩ := by
  simp only [mkContOpe, py_bind_eq_ok, exists_unit, raiseIf_ok] at h
  obtain ⟨h1, h2⟩ := h
  refine ⟨?_, (Except.ok.inj h2).symm⟩
  simp only [Bool.or_eq_false_iff, Option.isNone_eq_false_iff, Option.isSome_iff_exists] at h1
  obtain ⟨⟨⟨a, ha⟩, p, hp⟩, r, hr⟩ := h1
  exact ⟨a, p, r, ha, hp, hr⟩

theorem contInput_receives {fb : ContFeedback}
    (h : ∃ a r p, fb.action = some a ∧ fb.reward = some r ∧ fb.pscore = some p)
    (x : Arg1 ℝ) (reg : ArrOrDict (Arg1 ℝ)) (name : String) :
    ContReceives fb x reg name (contInput fb x reg name) := by
  obtain ⟨a', p, r, h1, h2, h3⟩ := h
  exact ⟨by simp [contInput, h1], by simp [contInput, h2], by simp [contInput, h3], rfl,
    passed_pick _ _ _⟩

theorem mkSlateOpe_ok {fb : SlateFeedback K} {ests : List (OpeObj (SlateIn K) K)}
    {o : Ope (SlateIn K) K} (h : mkSlateOpe fb ests = .ok o) :
    (∃ s c a r p, fb.slateId = some s ∧ fb.context = some c ∧ fb.action = some a ∧
      fb.reward = some r ∧ fb.position = some p) ∧ o = ⟨register ests, ests.any (·.flagged)⟩ := by
  simp only [mkSlateOpe, py_bind_eq_ok, exists_unit, raiseIf_ok] at h
  obtain ⟨h1, h2⟩ := h
  refine ⟨?_, (Except.ok.inj h2).symm⟩
  simp only [Bool.or_eq_false_iff, Option.isNone_eq_false_iff, Option.isSome_iff_exists] at h1
  obtain ⟨⟨⟨⟨⟨s, hs⟩, c, hc⟩, a, ha⟩, r, hr⟩, p, hp⟩ := h1
  exact ⟨s, c, a, r, p, hs, hc, ha, hr, hp⟩

theorem slateInput_receives {fb : SlateFeedback K}
    (h : ∃ s c a r p, fb.slateId = some s ∧ fb.context = some c ∧ fb.action = some a ∧
      fb.reward = some r ∧ fb.position = some p)
    (a : SlateMetaArgs K) : SlateReceives fb a (slateInput fb a) := by
  obtain ⟨s, c, a', r, p, h1, h2, h3, h4, h5⟩ := h
  exact ⟨by simp [slateInput, h1], by simp [slateInput, h3], by simp [slateInput, h4],
    by simp [slateInput, h5], ⟨rfl, rfl, rfl⟩, ⟨rfl, rfl, rfl⟩, ⟨rfl, rfl⟩⟩

theorem checkMetric_ok {metric : String} {gt : PyScalar K} (h : checkMetric metric gt = .ok ()) :
    (metric = "relative-ee" ∨ metric = "se") ∧ (∀ g, gt = .flt g → metric = "relative-ee" → g ≠ 0) := by
  unfold checkMetric at h
  cases gt <;> simp only [py_bind_eq_ok, exists_unit, raiseIf_ok, decide_eq_false_iff_not,
    not_not, not_and] at h
  case flt g => exact ⟨h.1, fun g' hg' hm => by cases hg'; exact h.2 hm⟩
  case bool => cases h
  case int => cases h
  case other => cases h
  all_goals exact ⟨h, fun _ hg => by cases hg⟩

open Log in
theorem avg_scale {n : ℕ} (c : K) (f : Fin n → K) : avg (fun i => c * f i) = c * avg f := avg_mul_left c f

open Log in
theorem roundReward_scale {n A L : ℕ} (e : Estimator K) (g : Log K n A L) (c : K) :
    roundReward e (g.scale c) = (roundReward e g).map fun f i => c * f i := by
  have hm : ∀ i, (g.scale c).modelValue i = c * g.modelValue i := by
    intro i
    simp only [modelValue, Log.scale, mul_assoc, ← Finset.mul_sum, mul_div_assoc]
  have hr : ∀ i, (g.scale c).residual i = c * g.residual i := by
    intro i; simp only [Log.residual, Log.scale]; ring
  have hw : (g.scale c).weight e.useEstimatedPscore = g.weight e.useEstimatedPscore := rfl
  have hrew : ∀ i, (g.scale c).reward i = c * g.reward i := fun _ => rfl
  have hmt : ∀ i, (g.scale c).matched i ↔ g.matched i := fun _ => Iff.rfl
  have hiw : (g.scale c).estIw = g.estIw := rfl
  obtain ⟨k, lam, est⟩ := e
  cases k <;> simp only [roundReward, hw, hrew, hiw, hr]
  case rm =>
    simp only [Option.map_some, Option.some.injEq]
    funext i
    by_cases hx : ∃ i, g.matched i
    · have hx' : ∃ i, (g.scale c).matched i := hx
      rw [if_pos hx, if_pos hx']
      show (if g.matched i then (1 : K) else 0) * (c * g.reward i) / _ = _
      rw [← mul_div_assoc]; congr 1; ring
    · have hx' : ¬ ∃ i, (g.scale c).matched i := hx
      rw [if_neg hx, if_neg hx', mul_zero]
  case ipw => simp only [Option.map_some, mul_assoc]
  case snipw => split <;> simp only [Option.map_some, Option.map_none, mul_assoc, mul_div_assoc]
  case dm => simp only [Option.map_some, Option.some.injEq]; funext i; exact hm i
  case dr =>
    simp only [Option.map_some, Option.some.injEq]; funext i; rw [hm]; ring
  case sndr =>
    split
    · rfl
    · simp only [Option.map_some, Option.some.injEq]; funext i; rw [hm]; ring
  case switchDr =>
    simp only [Option.map_some, Option.some.injEq]; funext i; rw [hm]; ring
  case drOs =>
    cases lam with
    | inf => simp only [Option.map_some, Option.some.injEq]; funext i; rw [hm]; ring
    | fin l =>
      dsimp only
      split
      · rfl
      · simp only [Option.map_some, Option.some.injEq]; funext i; rw [hm]; ring
  case sgIpw =>
    cases lam with
    | inf => rfl
    | fin l =>
      dsimp only
      split
      · rfl
      · simp only [Option.map_some, Option.some.injEq]; funext i; ring
  case sgDr =>
    cases lam with
    | inf => rfl
    | fin l =>
      dsimp only
      split
      · rfl
      · simp only [Option.map_some, Option.some.injEq]; funext i; rw [hm]; ring
  case bIpw =>
    split
    · rfl
    · simp only [Option.map_some, Option.some.injEq]; funext i; ring

open Log in
/-- The value of any of the eleven classes on a valid log. -/
theorem value_roundReward {n A L : ℕ} {g : Log K n A L} (h : g.Valid) (e : Estimator K) :
    e.estimatePolicyValue g.args = match roundReward e g with
      | some f => .ok (avg f)
      | none => .error .nonFinite := by
  rw [value_eq_rounds, rounds_eq h]
  cases roundReward e g with
  | none => rfl
  | some f => exact npMean_avg h f

theorem scale_valid {n A L : ℕ} {g : Log K n A L} (h : g.Valid) (c : K) : (g.scale c).Valid :=
  ⟨h.nonempty, h.pscore_pos, h.estPscore_pos, h.estIw_nonneg, h.sum_one⟩

/-- All estimators are equivariant: another unit of reward gives the same estimate in that unit. -/
theorem value_scale {n A L : ℕ} {g : Log K n A L} (h : g.Valid) (e : Estimator K) (c : K) {v : K}
    (hv : e.estimatePolicyValue g.args = .ok v) :
    e.estimatePolicyValue (g.scale c).args = .ok (c * v) := by
  rw [value_roundReward h] at hv
  rw [value_roundReward (scale_valid h c), roundReward_scale]
  cases hr : roundReward e g with
  | none => rw [hr] at hv; cases hv
  | some f =>
    rw [hr] at hv
    cases hv
    exact congrArg Except.ok (avg_scale c f)

theorem checkLen1_ofFn {n : ℕ} (f : Fin n → K) : checkLen1 n (.flt (List.ofFn f)) = .ok n := by
  simp [checkLen1, checkArray1, Arg1.shape0, raiseIf]

theorem checkMetaArgs_log {n A L : ℕ} (g : Log K n A L) : checkMetaArgs g.metaArgs = .ok () := by
  have e : checkModel3 (⟨n, A, L, g.piE⟩ : Arr3 K) (.arr ⟨n, A, L, g.q⟩) = .ok n := by
    simp [checkModel3, checkArray3, raiseIf]
  simp only [checkMetaArgs, Log.metaArgs, checkArray3, checkInput, Arg3.isNone, Arg1.isNone, Arg2.isNone,
    checkLen1_ofFn, e, py_bind_ok, checkPeaInput, if_true, py_pure, Bool.false_eq_true, if_false]

theorem metaInput_log {n A L : ℕ} (g : Log K n A L) (ctx : Arg2 K) (name : String) :
    (metaInput (g.feedback ctx) g.metaArgs name).est = g.args := rfl

theorem mkOpe_log {n A L : ℕ} (g : Log K n A L) (ctx : Arg2 K) (ests : List (OpeObj (MetaIn K) K)) :
    mkOpe (g.feedback ctx) ests = .ok ⟨register ests, ests.any (·.flagged)⟩ := rfl

end Obp
