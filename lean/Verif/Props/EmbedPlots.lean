import Verif.Props.Plots
import Verif.Props.EmbedInterval

/-! # C141 for the embedding estimators -/

set_option linter.unusedSectionVars false

namespace Obp

variable {K : Type} [Field K] [LinearOrder K] [IsStrictOrderedRing K]
variable {n A L C D : ℕ}

theorem embRawIn_eq {a : EmbArgs K} {r : EmbIn K} (h : embPrepare a = .ok r) (hp : a.position ≠ .none) : embRawIn a = .ok r := by
  simp only [embPrepare, py_bind_eq_ok, exists_unit, py_pure, Except.ok.injEq] at h
  obtain ⟨h1, e, he, -, -, -, -, b, hb, x, hx, pos, hpos, pc, hpc, act, hact, rfl⟩ := h
  have e1 : rawArr3 a.piB = .ok b := rawArr3_ok (checkOpeInputs_dist hb)
  have e2 : rawArr3 a.actionDist = .ok x := rawArr3_ok (checkOpeInputs_dist hx)
  have e3 : rawPosition .sndr x a.position = .ok pos := rawPosition_ok hpos (Or.inl hp)
  have e4 : (if a.position.isNone then .error .valueError else a.position.ints : Py (List ℤ)) = .ok pos := by
    simpa [rawPosition, Kind.defaultsPosition] using e3
  simp only [embRawIn, rawVec_ok h1, e4, he, e1, e2, hpc, hact, py_bind_ok, py_pure]

/-- **C141** (partial). Whenever an embedding estimator without embedding selection reports an estimate on a log with positions, the numbers
its bar is drawn from average to that estimate. -/
theorem C141_embed_bar_height_partial {k : EmbKind} {nA : ℕ} {lrn} {minEmb : ℕ} {tq : ℝ} {srt : List ℝ → List ℕ} {a : EmbArgs ℝ} {v : ℝ}
    (hv : k.estimatePolicyValue nA lrn none minEmb tq srt a = .ok v) (hp : a.position ≠ .none) :
    ∃ rr, k.rawRounds nA lrn a = .ok rr ∧ rr ≠ [] ∧ v = rr.sum / (rr.length : ℝ) := by
  simp only [EmbKind.estimatePolicyValue, ite_self, py_bind_eq_ok] at hv
  obtain ⟨r, hr, rr, hrr, hm⟩ := hv
  refine ⟨rr, ?_, npMean_eq hm⟩
  rw [EmbKind.rawRounds, embRawIn_eq hr hp, py_bind_ok, hrr]

/-- **C141.** Without positions in the log, as the synthetic datasets produce it, the embedding estimators report estimates but cannot be
plotted. -/
theorem C141_embed_no_positions {k : EmbKind} {nA : ℕ} {lrn} {a : EmbArgs K} (ha : a.position = .none) (rr : List K) :
    k.rawRounds nA lrn a ≠ .ok rr := by
  intro h
  simp only [EmbKind.rawRounds, embRawIn, py_bind_eq_ok] at h
  obtain ⟨r, ⟨-, -, pos, hpos, -⟩, -⟩ := h
  simp [ha, Arg1.isNone] at hpos

/-- **C141.** An embedding estimator makes the whole plot of a log without positions fail, whatever else is plotted. -/
theorem C141_embed_no_plot {k : EmbKind} {nA : ℕ} {lrn} {sel : Option EmbSel} {minEmb : ℕ} {tq : ℝ} {srt : List ℝ → List ℕ}
    {fb : Feedback ℝ} {a : MetaArgs ℝ} (hpos : fb.position = some .none) {pre post : List (PlotObj (MetaIn ℝ) ℝ)} {name : String}
    (hl : ∀ e' ∈ post, e'.name ≠ name) (rel fd fn : Bool) (cols : List (String × List ℝ)) :
    plotOpe (pre ++ k.plotObj nA lrn sel minEmb tq srt name :: post) fb a rel fd fn ≠ .ok cols := by
  intro h
  obtain ⟨xs, hxs⟩ := plotEstimates_calls h _ (plotRegister_last pre post (k.plotObj nA lrn sel minEmb tq srt name) hl)
  refine C141_embed_no_positions (a := (metaInput fb a name).emb) ?_ xs hxs
  simp [metaInput, MetaIn.emb, hpos]

/-- **C141** (partial). A plot of any mix of the eleven classes, weighting by the logged propensities, and of embedding estimators without
embedding selection: one column per reported estimate, in the same order, averaging to it. -/
theorem C141_mixed_plot_partial {fb : Feedback ℝ} {a : MetaArgs ℝ} {ests : List (PlotObj (MetaIn ℝ) ℝ)}
    (hu : ∀ e ∈ ests,
      (∃ (name : String) (e' : Estimator ℝ), e = e'.plotObj name ∧
        (e'.kind = .rm ∨ e'.kind = .dm ∨ e'.kind = .bIpw ∨ e'.useEstimatedPscore = false)) ∨
      ∃ (name : String) (k : EmbKind) (nA : ℕ) (lrn : _) (minEmb : ℕ) (tq : ℝ) (srt : _), e = k.plotObj nA lrn none minEmb tq srt name)
    {o : Ope (MetaIn ℝ) ℝ} (ho : mkOpe fb (ests.map (·.toOpeObj)) = .ok o)
    {d : List (String × ℝ)} (hd : o.values fb a = .ok d) {fd fn : Bool} {cols : List (String × List ℝ)}
    (h : plotOpe ests fb a false fd fn = .ok cols) :
    List.Forall₂ (fun c p => c.1 = p.1.toUpper ∧ p.2 = c.2.sum / (c.2.length : ℝ)) cols d := by
  obtain ⟨-, rfl⟩ := mkOpe_ok ho
  simp only [Ope.values, py_bind_eq_ok, exists_unit] at hd
  refine plot_heights h hd.2.2 fun e he i v xs hv hx => ?_
  rcases hu e he with ⟨name, e', rfl, hk⟩ | ⟨name, k, nA, lrn, minEmb, tq, srt, rfl⟩
  · have hv' : e'.estimatePolicyValue i.est = .ok v := hv
    have hx' : e'.rawRounds i.est = .ok xs := hx
    have hp : i.est.position ≠ .none ∨ e'.kind ∈ [Kind.rm, .ipw, .snipw, .dm, .dr, .bIpw] := by
      by_cases h0 : i.est.position = .none
      · refine Or.inr ?_
        by_contra hc
        refine C141_no_positions h0 ?_ xs hx'
        revert hc
        cases e'.kind <;> decide
      · exact Or.inl h0
    obtain ⟨rr, hrr, -, hm⟩ := C141_bar_height_partial hv' hk hp
    rw [hrr] at hx'
    obtain rfl := Except.ok.inj hx'
    exact hm
  · have hv' : k.estimatePolicyValue nA lrn none minEmb tq srt i.emb = .ok v := hv
    have hx' : k.rawRounds nA lrn i.emb = .ok xs := hx
    obtain ⟨rr, hrr, -, hm⟩ := C141_embed_bar_height_partial hv' fun h0 => C141_embed_no_positions h0 xs hx'
    rw [hrr] at hx'
    obtain rfl := Except.ok.inj hx'
    exact hm

/-- **C141.** With embedding selection the reported estimate is that on some of the embedding dimensions, while the bar shows the estimate on
all of them. -/
theorem C141_embed_selection_ignored {g : EmbLog ℝ n A L C D} (hg : g.Valid) (hn : 2 ≤ n) (hD : 2 ≤ D)
    (hb : ∀ i d, g.marginal g.piB i d ≠ 0) {srt : List ℝ → List ℕ} (hs : Argsort srt) {minEmb : ℕ} (hmin : minEmb < D) (sel : EmbSel)
    (nA : ℕ) (lrn) (tq : ℝ) (name : String) {i : MetaIn ℝ} (hi : i.emb = g.args) :
    ∃ (D' : ℕ) (s : Fin D' → Fin D) (rr : List ℝ), StrictMono s ∧
      (EmbKind.mipw.plotObj nA lrn (some sel) minEmb tq srt name).value i = EmbKind.mipw.plainValue nA lrn (g.restrict s).args ∧
      (EmbKind.mipw.plotObj nA lrn (some sel) minEmb tq srt name).call i = .ok rr ∧
      EmbKind.mipw.plainValue nA lrn g.args = .ok (rr.sum / (rr.length : ℝ)) := by
  obtain ⟨D', s, v, -, -, hs', h1, h2⟩ := C49_api_value hg hn hD hb hs hmin .mipw sel nA lrn tq
  have h3 := EmbLog.value_mipw hg hb nA lrn
  have h4 : EmbKind.mipw.estimatePolicyValue nA lrn none minEmb tq srt g.args = EmbKind.mipw.plainValue nA lrn g.args := by
    unfold EmbKind.estimatePolicyValue EmbKind.plainValue
    simp only [ite_self]
  obtain ⟨rr, h5, -, h6⟩ := C141_embed_bar_height_partial (h4.trans h3) (by simp [EmbLog.args])
  refine ⟨D', s, rr, hs', ?_, ?_, by rw [h3, h6]⟩
  · rw [← h1.trans h2.symm, ← hi]
    rfl
  · rw [← h5, ← hi]
    rfl

/-- The keyword arguments that the front end passes, among them those of an embedding estimator. -/
def EmbArgs.metaIn (a : EmbArgs K) : MetaIn K where
  action := a.action
  position := a.position
  reward := a.reward
  context := a.context
  pscore := .none
  actionDist := a.actionDist
  regModel := .none
  estimatedPscore := .none
  estIw := .none
  embed := a.embed
  piB := a.piB
  pEA := a.pEA

/-- **C141 is false with embedding selection.** Where `estimate_policy_value` raises for every selection method, the plot still shows a bar. -/
theorem C141_embed_bar_without_estimate (sel : EmbSel) (lrn) (name : String) :
    (EmbKind.mipw.plotObj 2 lrn (some sel) 2 1 exArgsort name).value exEmbLog2.args.metaIn = .error .unboundLocalError ∧
      ∃ rr, (EmbKind.mipw.plotObj 2 lrn (some sel) 2 1 exArgsort name).call exEmbLog2.args.metaIn = .ok rr := by
  refine ⟨(C121_value_fails_interval_succeeds sel .mipw lrn).1, ?_⟩
  obtain ⟨-, -, rr, -, -, h, -⟩ := C141_embed_selection_ignored exEmbLog2_valid (by decide) (by decide) exEmbLog2_support
    exArgsort_argsort (minEmb := 1) (by decide) sel 2 lrn 1 name (i := exEmbLog2.args.metaIn) rfl
  exact ⟨rr, h⟩

example (lrn) := C141_embed_bar_height_partial (k := .mipw) (minEmb := 1) (tq := 1) (srt := exArgsort)
  (by
    unfold EmbKind.estimatePolicyValue
    simp only [ite_self]
    exact EmbLog.value_mipw exEmbLog2_valid exEmbLog2_support 2 lrn) (by simp [EmbLog.args])

end Obp
