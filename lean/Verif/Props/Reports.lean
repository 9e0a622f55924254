import Verif.Model.Reports
import Verif.Props.Meta

/-! # C141-C143: plots; C54, C57, C97 for the remaining front ends -/

set_option linter.unusedSectionVars false

namespace Obp

variable {K : Type} [Field K] [LinearOrder K] [IsStrictOrderedRing K]

/-! ### The numbers behind a bar -/

theorem rawVec_ok {a : Arg1 K} (h : checkArray1 a = .ok ()) : rawVec a = .ok a.vals := by
  cases a <;> first | rfl | cases h

theorem rawArr3_ok {a : Arg3 K} {x : Arr3 K} (h : checkArray3 a = .ok x) : rawArr3 a = .ok x := by
  cases a <;> first | (cases h; rfl) | cases h

theorem checkOpeInputs_dist {g : OpeArgs K} {x : Arr3 K} (h : checkOpeInputs g = .ok x) :
    checkArray3 g.actionDist = .ok x := by
  simp only [checkOpeInputs, py_bind_eq_ok] at h
  obtain ⟨y, hy, -, -, -, -, -, -, -, -, -, -, -, -, h⟩ := h
  rw [hy, Except.ok.inj h]

theorem rawPosition_ok {k : Kind} {x : Arr3 K} {p : Arg1 K} {pos : List ℤ}
    (h : positionOrZeros x p = .ok pos) (hp : p ≠ .none ∨ k.defaultsPosition = true) :
    rawPosition k x p = .ok pos := by
  unfold rawPosition
  unfold positionOrZeros at h
  split at h
  · rename_i hn
    have : p = .none := by cases p <;> first | rfl | cases hn
    rw [if_pos hn, if_pos (hp.resolve_left fun f => f this)]
    exact h
  · rename_i hn
    rw [if_neg hn]; exact h

/-- What `_estimate_round_rewards` computes from the keyword arguments is what the checked call
computes, if the class takes the logged propensities and sees positions it can use. -/
theorem rawRounds_eq {e : Estimator K} {a : EstArgs K} {r : RoundIn K} (hr : e.prepare a = .ok r)
    (hu : e.kind = .rm ∨ e.kind = .dm ∨ e.kind = .bIpw ∨ e.useEstimatedPscore = false)
    (hp : a.position ≠ .none ∨ e.kind.defaultsPosition = true) :
    e.rawRounds a = e.round r := by
  obtain ⟨k, lam, est⟩ := e
  have ipwCase : ∀ k : Kind, (k = .ipw ∨ k = .snipw ∨ k = .sgIpw) →
      (a.position ≠ .none ∨ k.defaultsPosition = true) → est = false →
      ipwPrepare est a = .ok r → k.rawIn a = .ok r := by
    intro k hk hk' he h
    subst he
    simp only [ipwPrepare, choosePscore, Bool.false_eq_true, if_false, py_bind_eq_ok, exists_unit,
      py_pure, Except.ok.injEq] at h
    obtain ⟨h1, h2, ps, ⟨h3, rfl⟩, x, h4, pos, h5, act, h6, rfl⟩ := h
    have e1 := rawArr3_ok (checkOpeInputs_dist h4)
    have e2 := rawPosition_ok h5 hk'
    rcases hk with rfl | rfl | rfl <;>
      simp only [Kind.rawIn, e1, e2, h6, rawVec_ok h1, rawVec_ok h3, py_bind_ok, py_pure]
  have drCase : ∀ k : Kind, (k = .dr ∨ k = .sndr ∨ k = .switchDr ∨ k = .drOs ∨ k = .sgDr) →
      (a.position ≠ .none ∨ k.defaultsPosition = true) → est = false →
      drPrepare est a = .ok r → k.rawIn a = .ok r := by
    intro k hk hk' he h
    subst he
    simp only [drPrepare, choosePscore, Bool.false_eq_true, if_false, py_bind_eq_ok, exists_unit,
      py_pure, Except.ok.injEq] at h
    obtain ⟨q, hq, h1, h2, ps, ⟨h3, rfl⟩, x, h4, pos, h5, act, h6, rfl⟩ := h
    have e1 := rawArr3_ok (checkOpeInputs_dist h4)
    have e2 := rawPosition_ok h5 hk'
    have e3 := rawArr3_ok hq
    rcases hk with rfl | rfl | rfl | rfl | rfl <;>
      simp only [Kind.rawIn, e1, e2, e3, h6, rawVec_ok h1, rawVec_ok h3, py_bind_ok, py_pure]
  simp only [Estimator.rawRounds]
  have est_of : ∀ k' : Kind, k = k' → k' ≠ .rm → k' ≠ .dm → k' ≠ .bIpw → est = false := by
    rintro k' rfl h1 h2 h3
    rcases hu with h | h | h | h
    · exact absurd h h1
    · exact absurd h h2
    · exact absurd h h3
    · exact h
  cases k <;> simp only [Estimator.prepare] at hr
  case rm =>
    simp only [rmPrepare, py_bind_eq_ok, exists_unit, py_pure, Except.ok.injEq] at hr
    obtain ⟨h1, h2, x, h4, pos, h5, act, h6, rfl⟩ := hr
    simp only [Kind.rawIn, rawArr3_ok (checkOpeInputs_dist h4), rawPosition_ok h5 hp, h6, rawVec_ok h1,
      py_bind_ok, py_pure]
  case dm =>
    simp only [dmPrepare, py_bind_eq_ok, py_pure, Except.ok.injEq] at hr
    obtain ⟨q, hq, x, h4, pos, h5, rfl⟩ := hr
    simp only [Kind.rawIn, rawArr3_ok (checkOpeInputs_dist h4), rawPosition_ok h5 hp, rawArr3_ok hq,
      py_bind_ok, py_pure]
  case bIpw =>
    simp only [bIpwPrepare, py_bind_eq_ok, exists_unit, py_pure, Except.ok.injEq] at hr
    obtain ⟨h1, h2, h3, x, h4, pos, h5, act, h6, rfl⟩ := hr
    simp only [Kind.rawIn, rawArr3_ok (checkOpeInputs_dist h4), rawPosition_ok h5 hp, rawVec_ok h1,
      rawVec_ok h3, py_bind_ok, py_pure]
    rfl
  case ipw => rw [ipwCase _ (by simp) hp (est_of _ rfl (by simp) (by simp) (by simp)) hr]; rfl
  case snipw => rw [ipwCase _ (by simp) hp (est_of _ rfl (by simp) (by simp) (by simp)) hr]; rfl
  case sgIpw => rw [ipwCase _ (by simp) hp (est_of _ rfl (by simp) (by simp) (by simp)) hr]; rfl
  case dr => rw [drCase _ (by simp) hp (est_of _ rfl (by simp) (by simp) (by simp)) hr]; rfl
  case sndr => rw [drCase _ (by simp) hp (est_of _ rfl (by simp) (by simp) (by simp)) hr]; rfl
  case switchDr => rw [drCase _ (by simp) hp (est_of _ rfl (by simp) (by simp) (by simp)) hr]; rfl
  case drOs => rw [drCase _ (by simp) hp (est_of _ rfl (by simp) (by simp) (by simp)) hr]; rfl
  case sgDr => rw [drCase _ (by simp) hp (est_of _ rfl (by simp) (by simp) (by simp)) hr]; rfl

theorem npMean_eq {xs : List K} {v : K} (h : npMean xs = .ok v) :
    xs ≠ [] ∧ v = xs.sum / (xs.length : K) := by
  have hne : xs ≠ [] := by rintro rfl; simp [npMean] at h
  unfold npMean at h
  rw [if_neg (by simpa using hne)] at h
  exact ⟨hne, (Except.ok.inj h).symm⟩

/-- **C141** (partial). Whenever one of the eleven classes reports an estimate, the numbers its bar is
drawn from average to that estimate, provided it weights by the logged propensities and either the
log has positions or the class is one of the six that default them. -/
theorem C141_bar_height_partial {e : Estimator K} {a : EstArgs K} {v : K}
    (hv : e.estimatePolicyValue a = .ok v)
    (hu : e.kind = .rm ∨ e.kind = .dm ∨ e.kind = .bIpw ∨ e.useEstimatedPscore = false)
    (hp : a.position ≠ .none ∨
      e.kind ∈ [Kind.rm, .ipw, .snipw, .dm, .dr, .bIpw]) :
    ∃ rr, e.rawRounds a = .ok rr ∧ rr ≠ [] ∧ v = rr.sum / (rr.length : K) := by
  simp only [Estimator.estimatePolicyValue, py_bind_eq_ok] at hv
  obtain ⟨r, hr, rr, hrr, hm⟩ := hv
  refine ⟨rr, ?_, npMean_eq hm⟩
  rw [rawRounds_eq hr hu (hp.imp id fun h => ?_), hrr]
  simp only [List.mem_cons, List.not_mem_nil, or_false] at h
  rcases h with h | h | h | h | h | h <;> rw [h] <;> rfl

/-- **C141.** Without positions in the log (as the synthetic datasets produce it) the five other classes
report estimates but cannot be plotted. -/
theorem C141_no_positions {e : Estimator K} {a : EstArgs K} (ha : a.position = .none)
    (hk : e.kind ∈ [Kind.sndr, .switchDr, .drOs, .sgIpw, .sgDr]) (rr : List K) :
    e.rawRounds a ≠ .ok rr := by
  intro h
  simp only [Estimator.rawRounds, Kind.rawIn, py_bind_eq_ok] at h
  obtain ⟨r, ⟨x, -, pos, hpos, -⟩, -⟩ := h
  have : e.kind.defaultsPosition = false := by
    simp only [List.mem_cons, List.not_mem_nil, or_false] at hk
    rcases hk with h | h | h | h | h <;> rw [h] <;> rfl
  rw [ha] at hpos
  simp [rawPosition, Arg1.isNone, this] at hpos

/-- **C141.** The plotted numbers ignore estimated propensities altogether. -/
theorem C141_estimated_ignored (e : Estimator K) (a : EstArgs K) (p : Arg1 K) :
    e.rawRounds { a with estimatedPscore := p } = e.rawRounds a := by
  obtain ⟨k, lam, est⟩ := e
  cases k <;> rfl

/-- **C141.** For the three continuous-action classes the bar always averages to the estimate. -/
theorem C141_cont_bar_height {k : ContKind} {ker : Kernel} {h : Bandwidth} {a : ContArgs} {v : ℝ}
    (hv : k.estimatePolicyValue ker h a = .ok v) :
    ∃ rr, k.rawRounds ker h a = .ok rr ∧ rr ≠ [] ∧ v = rr.sum / (rr.length : ℝ) := by
  simp only [ContKind.estimatePolicyValue, py_bind_eq_ok, exists_unit] at hv
  obtain ⟨hc, rr, hrr, hm⟩ := hv
  refine ⟨rr, ?_, npMean_eq hm⟩
  cases k
  all_goals
    simp only [ContKind.check, contCheckCommon, py_bind_eq_ok, exists_unit] at hc
  · simp only [ContKind.rawRounds, rawVec_ok hc.1, rawVec_ok hc.2.2.1, py_bind_ok]; exact hrr
  · simp only [ContKind.rawRounds, rawVec_ok hc.1, rawVec_ok hc.2.2.1, py_bind_ok]; exact hrr
  · simp only [ContKind.rawRounds, rawVec_ok hc.1, rawVec_ok hc.2.1, rawVec_ok hc.2.2.2.1, py_bind_ok]
    exact hrr

/-! ### The registered objects -/

section reg
variable {I : Type}

theorem plotRegister_append (ests : List (PlotObj I K)) (e : PlotObj I K) :
    plotRegister (ests ++ [e]) = dictSet (plotRegister ests) e.name e := by
  simp [plotRegister, List.foldl_append]

theorem dictSet_map {V W : Type} (f : V → W) (d : List (String × V)) (k : String) (v : V) :
    (dictSet d k v).map (fun p => (p.1, f p.2)) = dictSet (d.map fun p => (p.1, f p.2)) k (f v) := by
  induction d with
  | nil => rfl
  | cons p d ih =>
    obtain ⟨k', v'⟩ := p
    simp only [dictSet, List.map_cons]
    by_cases h : k' = k
    · rw [if_pos h, if_pos h]; rfl
    · rw [if_neg h, if_neg h, List.map_cons, ih]

theorem plotRegister_map (ests : List (PlotObj I K)) :
    register (ests.map (·.toOpeObj)) = (plotRegister ests).map fun p => (p.1, p.2.toOpeObj) := by
  induction ests using List.reverseRecOn with
  | nil => rfl
  | append_singleton ests e ih =>
    rw [plotRegister_append, List.map_append, List.map_singleton, register_append, ih,
      dictSet_map (fun e : PlotObj I K => e.toOpeObj)]

theorem plotRegister_nodup (ests : List (PlotObj I K)) : ((plotRegister ests).map (·.1)).Nodup := by
  have := register_nodup (ests.map (·.toOpeObj))
  rw [plotRegister_map, List.map_map] at this
  exact this

/-- registered objects come from the list, under their own name -/
theorem plotRegister_from (ests : List (PlotObj I K)) :
    ∀ p ∈ plotRegister ests, p.2 ∈ ests ∧ p.1 = p.2.name := by
  induction ests using List.reverseRecOn with
  | nil => simp [plotRegister]
  | append_singleton ests e ih =>
    rintro ⟨x, y⟩ h
    rw [plotRegister_append, dictSet_mem (plotRegister_nodup ests)] at h
    rcases h with ⟨rfl, rfl⟩ | ⟨-, h⟩
    · exact ⟨by simp, rfl⟩
    · exact ⟨by simp [(ih _ h).1], (ih _ h).2⟩

/-- the last object of a name is registered -/
theorem plotRegister_last (pre post : List (PlotObj I K)) (e : PlotObj I K)
    (h : ∀ e' ∈ post, e'.name ≠ e.name) : (e.name, e) ∈ plotRegister (pre ++ e :: post) := by
  induction post using List.reverseRecOn with
  | nil =>
    rw [plotRegister_append, dictSet_mem (plotRegister_nodup pre)]
    exact Or.inl ⟨rfl, rfl⟩
  | append_singleton post x ih =>
    have : pre ++ e :: (post ++ [x]) = (pre ++ e :: post) ++ [x] := by simp
    rw [this, plotRegister_append, dictSet_mem (plotRegister_nodup _)]
    exact Or.inr ⟨(h x (by simp)).symm, ih fun y hy => h y (by simp [hy])⟩

/-- with distinct names nothing is dropped -/
theorem plotRegister_distinct {ests : List (PlotObj I K)} (h : (ests.map (·.name)).Nodup) :
    plotRegister ests = ests.map fun e => (e.name, e) := by
  induction ests using List.reverseRecOn with
  | nil => rfl
  | append_singleton ests e ih =>
    rw [List.map_append, List.nodup_append] at h
    rw [plotRegister_append, ih h.1, List.map_append]
    have hn : ∀ d : List (String × PlotObj I K), e.name ∉ d.map (·.1) →
        dictSet d e.name e = d ++ [(e.name, e)] := by
      intro d
      induction d with
      | nil => intro _; rfl
      | cons p d ihd =>
        obtain ⟨k, v⟩ := p
        intro hk
        simp only [List.map_cons, List.mem_cons, not_or] at hk
        rw [dictSet, if_neg (Ne.symm hk.1), ihd hk.2]; rfl
    refine hn _ fun hm => ?_
    rw [List.map_map] at hm
    exact h.2.2 _ hm _ (by simp) rfl

end reg

/-! ### Whole plots -/

section plots
variable {I : Type}

theorem mapM_mem {α β : Type} {f : α → Py β} {l : List α} {m : List β} (h : l.mapM f = .ok m) :
    ∀ x ∈ l, ∃ y ∈ m, f x = .ok y := by
  rw [mapM_ok_iff] at h
  induction h with
  | nil => simp
  | @cons a b l m hab _ ih =>
    intro x hx
    rcases List.mem_cons.1 hx with rfl | hx
    · exact ⟨b, by simp, hab⟩
    · obtain ⟨y, hy, h⟩ := ih x hx
      exact ⟨y, by simp [hy], h⟩

theorem plotEstimates_calls {reg : List (String × PlotObj I K)} {reward : Arg1 K} {check : Py Unit}
    {input : String → I} {rel fd fn : Bool} {cols : List (String × List K)}
    (h : plotEstimates reg reward check input rel fd fn = .ok cols) :
    ∀ p ∈ reg, ∃ xs, p.2.call (input p.1) = .ok xs := by
  intro p hp
  simp only [plotEstimates, py_bind_eq_ok, exists_unit] at h
  obtain ⟨-, -, -, cs, hcs, -⟩ := h
  obtain ⟨y, -, hy⟩ := mapM_mem hcs p hp
  simp only [py_bind_eq_ok] at hy
  obtain ⟨xs, hxs, -⟩ := hy
  exact ⟨xs, hxs⟩

end plots

/-- **C141.** If an estimator that will be plotted is one of the five classes and the log has no
positions, the whole plot fails, whatever else is in the list. -/
theorem C141_no_plot [FloorRing K] {fb : Feedback K} {a : MetaArgs K}
    (hpos : fb.position = some .none) {pre post : List (PlotObj (MetaIn K) K)} {e : Estimator K}
    {name : String} (hk : e.kind ∈ [Kind.sndr, .switchDr, .drOs, .sgIpw, .sgDr])
    (hl : ∀ e' ∈ post, e'.name ≠ name) (rel fd fn : Bool) (cols : List (String × List K)) :
    plotOpe (pre ++ e.plotObj name :: post) fb a rel fd fn ≠ .ok cols := by
  intro h
  obtain ⟨xs, hxs⟩ := plotEstimates_calls h _ (plotRegister_last pre post (e.plotObj name) hl)
  refine C141_no_positions (a := (metaInput fb a name).est) ?_ hk xs hxs
  simp [metaInput, MetaIn.est, hpos]

/-- **C141.** A self-tuning estimator cannot be plotted at all. -/
theorem C141_tuned_no_plot (argsort : List ℝ → List ℕ) (tq : ℝ → ℝ → ℝ) (t : Tuner) {name : String}
    {fb : Feedback ℝ} {a : MetaArgs ℝ} {pre post : List (PlotObj (MetaIn ℝ) ℝ)}
    (hl : ∀ e' ∈ post, e'.name ≠ name) (rel fd fn : Bool) (cols : List (String × List ℝ)) :
    plotOpe (pre ++ t.plotObj argsort tq name :: post) fb a rel fd fn ≠ .ok cols := by
  intro h
  obtain ⟨xs, hxs⟩ := plotEstimates_calls h _ (plotRegister_last pre post (t.plotObj argsort tq name) hl)
  cases hxs

/-- **C141** (partial). The plot of a log with positions, for any list of the eleven classes that weight by
the logged propensities: one column per reported estimate, in the same order, under the name in
capitals, with one number per round that average to the reported value. -/
theorem C141_plot_partial [FloorRing K] {n A L : ℕ} {g : Log K n A L} (hg : g.Valid) (ctx : Arg2 K)
    (ests : List (String × Estimator K))
    (hu : ∀ p ∈ ests, p.2.kind = .rm ∨ p.2.kind = .dm ∨ p.2.kind = .bIpw ∨ p.2.useEstimatedPscore = false)
    {o : Ope (MetaIn K) K} (ho : mkOpe (g.feedback ctx) (ests.map fun p => p.2.obj p.1) = .ok o)
    {d : List (String × K)} (hd : o.values (g.feedback ctx) g.metaArgs = .ok d) :
    ∃ cols, plotOpe (ests.map fun p => p.2.plotObj p.1) (g.feedback ctx) g.metaArgs false true true =
        .ok cols ∧
      List.Forall₂ (fun c p => c.1 = p.1.toUpper ∧ c.2.length = n ∧ p.2 = c.2.sum / (n : K)) cols d := by
  obtain ⟨-, rfl⟩ := mkOpe_ok ho
  set objs := ests.map fun p => p.2.plotObj p.1 with hobjs
  have hmap : (ests.map fun p => p.2.obj p.1) = objs.map (·.toOpeObj) := by
    rw [hobjs, List.map_map]; rfl
  rw [hmap] at hd
  simp only [Ope.values, py_bind_eq_ok, exists_unit] at hd
  obtain ⟨-, hc, hd⟩ := hd
  rw [plotRegister_map] at hd
  unfold collect at hd
  rw [mapM_ok_iff, List.forall₂_map_left_iff] at hd
  -- the columns
  have key : ∀ reg : List (String × PlotObj (MetaIn K) K), (∀ p ∈ reg, p.2 ∈ objs) → ∀ d,
      List.Forall₂ (fun (p : String × PlotObj (MetaIn K) K) q => (do
        let v ← p.2.toOpeObj.value (metaInput (g.feedback ctx) g.metaArgs p.1)
        pure (p.1, v)) = Except.ok q) reg d →
      ∃ cs : List (String × List K), reg.mapM (fun p => do
          let xs ← p.2.call (metaInput (g.feedback ctx) g.metaArgs p.1)
          pure (p.1, xs)) = .ok cs ∧
        List.Forall₂ (fun c p => c.1 = p.1 ∧ c.2.length = n ∧ p.2 = c.2.sum / (n : K)) cs d := by
    intro reg hreg d h
    induction h with
    | nil => exact ⟨[], rfl, .nil⟩
    | @cons p q reg d hpq _ ih =>
      obtain ⟨cs, h1, h2⟩ := ih fun x hx => hreg x (List.mem_cons_of_mem _ hx)
      obtain ⟨⟨name, e⟩, he, hpe⟩ := List.mem_map.1 (hreg p List.mem_cons_self)
      dsimp only at hpe
      simp only [py_bind_eq_ok] at hpq
      obtain ⟨v, hv, hq⟩ := hpq
      obtain rfl := Except.ok.inj hq
      rw [← hpe] at hv
      have hv' : e.estimatePolicyValue g.args = .ok v := hv
      obtain ⟨rr, hrr, -, hm⟩ := C141_bar_height_partial hv' (hu _ he) (Or.inl (by simp [Log.args]))
      have hlen : rr.length = n := by
        have hv'' := hv'
        simp only [Estimator.estimatePolicyValue, py_bind_eq_ok] at hv''
        obtain ⟨r, hr, rr', hrr', -⟩ := hv''
        have hx := rawRounds_eq hr (hu _ he) (Or.inl (by simp [Log.args]))
        rw [hrr, hrr'] at hx
        obtain rfl := Except.ok.inj hx
        have := rounds_eq hg e
        simp only [hr, py_bind_ok, hrr'] at this
        cases hro : roundReward e g with
        | none => rw [hro] at this; cases this
        | some f => rw [hro] at this; rw [Except.ok.inj this]; simp
      refine ⟨(p.1, rr) :: cs, ?_, .cons ⟨rfl, hlen, by rw [hlen] at hm; exact hm⟩ h2⟩
      have hcall : p.2.call (metaInput (g.feedback ctx) g.metaArgs p.1) = .ok rr := by
        rw [← hpe]; exact hrr
      rw [List.mapM_cons, h1, hcall]
      rfl
  obtain ⟨cs, h1, h2⟩ := key _ (fun p hp => (plotRegister_from objs p hp).1) d hd
  have hdf : dataFrame cs = .ok cs := by
    cases h2 with
    | nil => rfl
    | cons h t =>
      have : ∀ (cs : List (String × List K)) (d : List (String × K)),
          List.Forall₂ (fun c p => c.1 = p.1 ∧ c.2.length = n ∧ p.2 = c.2.sum / (n : K)) cs d →
          ∀ c ∈ cs, c.2.length = n := by
        intro cs d h
        induction h with
        | nil => simp
        | cons h _ ih =>
          intro c hc
          rcases List.mem_cons.1 hc with rfl | hc
          · exact h.2.1
          · exact ih c hc
      simp only [dataFrame]
      rw [if_pos]
      rw [List.all_eq_true]
      intro c hc
      rw [decide_eq_true_eq, this _ _ t c hc, h.2.1]
  refine ⟨cs.map fun c => (c.1.toUpper, c.2), ?_, ?_⟩
  · simp only [plotOpe, plotEstimates, Bool.not_true, raiseIf_neg, py_bind_ok, hc, h1, hdf, relativeFrame,
      Bool.false_eq_true, if_false]
  · rw [List.forall₂_map_left_iff]
    exact h2.imp fun c p h => ⟨by rw [h.1], h.2⟩

end Obp
