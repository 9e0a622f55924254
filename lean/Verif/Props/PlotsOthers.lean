import Verif.Props.Plots
import Verif.Props.Multi
import Verif.Props.Continuous

/-! # C142: the comparison of policies succeeds for several loggers and for continuous actions -/

set_option linter.unusedSectionVars false

namespace Obp
open Log

/-! ### Specification: typed logs as front-end arguments -/

/-- The pooled log as `bandit_feedback` of `MultiLoggersOffPolicyEvaluation`. -/
def MLog.feedback {K : Type} {n A L : ℕ} (g : MLog K n A L) : MultiFeedback K where
  action := some (.int (List.ofFn fun i => ((g.action i : ℕ) : ℤ)))
  position := some (.int (List.ofFn fun i => ((g.position i : ℕ) : ℤ)))
  reward := some (.flt (List.ofFn g.reward))
  stratumIdx := some (.int (List.ofFn fun i => ((g.stratum i : ℕ) : ℤ)))
  pscore := some (.flt (List.ofFn g.pscore))
  pscoreAvg := some (.flt (List.ofFn g.pscoreAvg))

/-- The call that passes the other arrays of the pooled log to every estimator. -/
def MLog.metaArgs {K : Type} {n A L : ℕ} (g : MLog K n A L) : MultiMetaArgs K where
  actionDist := .arr ⟨n, A, L, g.piE⟩
  regModel := .one (.arr ⟨n, A, L, g.q⟩)
  estimatedPscore := .one (.flt (List.ofFn g.estPscore))
  estimatedPscoreAvg := .one (.flt (List.ofFn g.estPscoreAvg))

/-- The log as `bandit_feedback` of `ContinuousOffPolicyEvaluation`. -/
def ContLog.feedback {n : ℕ} (g : ContLog n) : ContFeedback where
  action := some (.flt (List.ofFn g.action))
  reward := some (.flt (List.ofFn g.reward))
  pscore := some (.flt (List.ofFn g.pscore))

variable {K : Type} [Field K] [LinearOrder K] [IsStrictOrderedRing K]

/-! ### Success in general -/

/-- The comparison succeeds when there are at most as many estimators as policies, every policy passes the
checks, and all numbers that the estimators compute for the policies are equally many. -/
theorem plotPolicies_succeeds {Q I : Type} {reward : Arg1 K} {check : Q → Py Unit} {input : Q → String → I}
    {ests : List (PlotObj I K)} (hn : (ests.map (·.name)).Nodup) {pols : List (String × Q)}
    (hpn : (pols.map (·.1)).Nodup) (hle : ests.length ≤ pols.length) (hc : ∀ p ∈ pols, check p.2 = .ok ()) {n : ℕ}
    (hv : ∀ e ∈ ests, ∀ p ∈ pols, ∃ xs, e.call (input p.2 e.name) = .ok xs ∧ xs.length = n) :
    ∃ out, plotPolicies (plotRegister ests) reward check input (pols.map (·.1)) (pols.map (·.2)) false true true =
      .ok out := by
  let col (e : PlotObj I K) (p : String × Q) : List K := (e.call (input p.2 e.name)).toOption.getD []
  have hcol : ∀ e ∈ ests, ∀ p ∈ pols, e.call (input p.2 e.name) = .ok (col e p) ∧ (col e p).length = n := by
    intro e he p hp
    obtain ⟨xs, h1, h2⟩ := hv e he p hp
    simp only [col, h1]
    exact ⟨rfl, h2⟩
  have hzip : (pols.map (·.1)).zip (pols.map (·.2)) = pols := by
    rw [List.zip_map']; exact List.map_id _
  have h1 : (plotRegister ests).mapM (fun p => do
      let cols ← policyColumns p.2 p.1 check input ((pols.map (·.1)).zip (pols.map (·.2)))
      pure (p.1, cols)) = Except.ok (ests.map fun e => (e.name, pols.map fun p => (p.1, col e p))) := by
    rw [plotRegister_distinct hn, mapM_ok_iff, List.forall₂_map_left_iff, List.forall₂_map_right_iff,
      List.forall₂_same]
    intro e he
    have : policyColumns e e.name check input ((pols.map (·.1)).zip (pols.map (·.2))) =
        .ok (pols.map fun p => (p.1, col e p)) := by
      rw [hzip, policyColumns_ok hpn, List.forall₂_map_right_iff, List.forall₂_same]
      exact fun p hp => ⟨rfl, hc p hp, (hcol e he p hp).1⟩
    exact congrArg (· >>= fun cols => pure (e.name, cols)) this
  refine ⟨ests.map fun e => (e.name.toUpper, pols.map fun p => (p.1, col e p)), ?_⟩
  simp only [plotPolicies, Bool.not_true, raiseIf_neg, py_bind_ok]
  rw [raiseIf_neg (by simp), py_bind_ok, h1, py_bind_ok]
  rw [mapM_ok_iff, List.forall₂_iff_get]
  refine ⟨by simp, fun i hi hi' => ?_⟩
  have hi2 : i < ests.length := by simpa using hi
  simp only [List.get_eq_getElem, List.getElem_zipIdx, List.getElem_map, zero_add]
  rw [dataFrame_ok (n := n)]
  · simp only [py_bind_ok, relativeFrame, Bool.false_eq_true, if_false]
    rw [raiseIf_neg (by simp only [decide_eq_false_iff_not, not_lt, List.length_map]; omega), py_bind_ok]
    rfl
  · intro c hc
    obtain ⟨p, hp, rfl⟩ := List.mem_map.1 hc
    exact (hcol _ (List.getElem_mem hi2) p hp).2

/-! ### Several loggers -/

/-- the plotted numbers of one of the six classes on a valid pooled log that it can evaluate: one per round -/
theorem multi_raw_log {n A L : ℕ} {g : MLog K n A L} (hg : g.MValid) {e : MultiEstimator K} {v : K}
    (hv : e.estimatePolicyValue g.margs = .ok v) (hu : e.useEstimatedPscore = false) :
    ∃ rr, e.rawRounds g.margs = .ok rr ∧ rr.length = n := by
  obtain ⟨k, lam, est⟩ := e
  obtain rfl : est = false := hu
  suffices h : ∃ f : Fin n → K, (MultiEstimator.mk k lam false).rounds g.margs = .ok (List.ofFn f) by
    obtain ⟨f, hf⟩ := h
    refine ⟨_, ?_, List.length_ofFn (f := f)⟩
    cases k <;> simp only [MultiEstimator.rounds, py_bind_eq_ok] at hf <;>
      simp only [MultiEstimator.rawRounds]
    · obtain ⟨r, hr, h⟩ := hf; rw [ipwPrepare_rawIn hr]; exact h
    · obtain ⟨r, hr, h⟩ := hf; rw [ipwPrepare_rawIn hr]; exact h
    · obtain ⟨⟨r, st⟩, hr, h⟩ := hf
      rw [(weightedIpw_rawIn hr).1, (weightedIpw_rawIn hr).2]; exact h
    · obtain ⟨r, hr, h⟩ := hf; rw [drPrepare_rawIn hr]; exact h
    · obtain ⟨r, hr, h⟩ := hf; rw [drPrepare_rawIn hr]; exact h
    · obtain ⟨⟨r, st⟩, hr, h⟩ := hf
      rw [(weightedDr_rawIn hr).1, (weightedDr_rawIn hr).2]; exact h
  have h' := MLog.avgLog_valid hg
  have hb := hg.base
  have hcont : k = .weightedIpw ∨ k = .weightedDr → g.Contiguous := by
    intro hk
    by_contra hc
    have := C53_other_labels_index_error hb lam false hc
    rcases hk with rfl | rfl
    · rw [this.1] at hv; cases hv
    · rw [this.2.1] at hv; cases hv
  cases k
  · have e : ipwPrepare false g.margs.single = ipwPrepare false g.args := rfl
    simp only [MultiEstimator.rounds, e, ipwPrepare_eq hb, py_bind_ok, ipwRound_eq hb]
    exact ⟨_, rfl⟩
  · have e : ipwPrepare false g.margs.balanced = ipwPrepare false g.avgLog.args := rfl
    simp only [MultiEstimator.rounds, e, ipwPrepare_eq h', py_bind_ok, ipwRound_eq h']
    exact ⟨_, rfl⟩
  · have hc := hcont (Or.inl rfl)
    have hw := (C53_accepts_contiguous_partial hb lam false hc).1.1 ⟨v, hv⟩
    have hv' : ∀ k ∈ g.labels, g.stratumVar (g.ipwTerm lam false) k ≠ 0 := by
      intro k hk
      obtain ⟨i, -, rfl⟩ := Finset.mem_image.1 hk
      exact hw i
    simp only [MultiEstimator.rounds]
    rw [MLog.weightedIpwPrepare_eq hb, py_bind_ok]
    dsimp only
    rw [MLog.weightedIpwRound_eq hb false lam hc hv']
    exact ⟨_, rfl⟩
  · have e : drPrepare false g.margs.single = drPrepare false g.args := rfl
    simp only [MultiEstimator.rounds, e, drPrepare_eq hb, py_bind_ok, drRound_eq hb]
    exact ⟨_, rfl⟩
  · have e : drPrepare false g.margs.balanced = drPrepare false g.avgLog.args := rfl
    simp only [MultiEstimator.rounds, e, drPrepare_eq h', py_bind_ok, drRound_eq h']
    exact ⟨_, rfl⟩
  · have hc := hcont (Or.inr rfl)
    have hw := (C53_accepts_contiguous_partial hb lam false hc).2.1 ⟨v, hv⟩
    have hv' : ∀ k ∈ g.labels, g.stratumVar (g.drTerm lam false) k ≠ 0 := by
      intro k hk
      obtain ⟨i, -, rfl⟩ := Finset.mem_image.1 hk
      exact hw i
    simp only [MultiEstimator.rounds]
    rw [MLog.weightedDrPrepare_eq hb, py_bind_ok]
    dsimp only
    rw [MLog.weightedDrRound_eq hb false lam hc hv']
    exact ⟨_, rfl⟩

theorem checkMultiMetaArgs_log {n A L : ℕ} (g : MLog K n A L) : checkMultiMetaArgs g.metaArgs = .ok () := by
  simp [checkMultiMetaArgs, MLog.metaArgs, checkArray3, checkInput, checkModel3, checkLen1, Arg3.isNone, Arg1.isNone,
    py_bind_ok, checkArray1, Arg1.shape0, raiseIf]

/-- **C142.** Several loggers: with at most as many estimators as policies, distinct names and a valid pooled log, the
comparison succeeds as soon as every estimator can evaluate every policy. -/
theorem C142_multi_succeeds [FloorRing K] {n A L : ℕ} {g : MLog K n A L}
    {ests : List (String × MultiEstimator K)} (hn : (ests.map (·.1)).Nodup)
    (hu : ∀ p ∈ ests, p.2.useEstimatedPscore = false)
    {pols : List (String × (Fin n → Fin A → Fin L → K))} (hpn : (pols.map (·.1)).Nodup)
    (hle : ests.length ≤ pols.length)
    (hg : ∀ p ∈ pols, ({ g with piE := p.2 } : MLog K n A L).MValid)
    (hv : ∀ p ∈ pols, ∀ e ∈ ests, ∃ v,
      e.2.estimatePolicyValue ({ g with piE := p.2 } : MLog K n A L).margs = .ok v) :
    ∃ out, plotMultiPolicies (ests.map fun p => p.2.plotObj p.1) g.feedback g.metaArgs
      (pols.map (·.1)) (pols.map fun p => Arg3.arr ⟨n, A, L, p.2⟩) false true true = .ok out := by
  have := plotPolicies_succeeds (reward := (g.feedback.reward.getD .none))
    (check := fun x => checkMultiMetaArgs { g.metaArgs with actionDist := x })
    (input := fun x => multiInput g.feedback { g.metaArgs with actionDist := x })
    (ests := ests.map fun p => p.2.plotObj p.1) (by rw [List.map_map]; exact hn)
    (pols := pols.map fun p => (p.1, Arg3.arr ⟨n, A, L, p.2⟩)) (by rw [List.map_map]; exact hpn) (by simpa using hle)
    (by
      intro p hp
      obtain ⟨q, hq, rfl⟩ := List.mem_map.1 hp
      exact checkMultiMetaArgs_log ({ g with piE := q.2 } : MLog K n A L))
    (n := n)
    (by
      intro e he p hp
      obtain ⟨e, he', rfl⟩ := List.mem_map.1 he
      obtain ⟨q, hq, rfl⟩ := List.mem_map.1 hp
      obtain ⟨v, hv⟩ := hv q hq e he'
      exact multi_raw_log (hg q hq) hv (hu e he'))
  rw [List.map_map, List.map_map] at this
  exact this

/-! ### Continuous actions -/

/-- the plotted numbers of a kernelised class on a valid log that it can evaluate: one per round -/
theorem cont_raw_log {n : ℕ} {g : ContLog n} (hg : g.Valid) {k : ContKind} {ker : Kernel} {h v : ℝ}
    (hv : k.estimatePolicyValue ker (.fin h) g.args = .ok v) :
    ∃ rr, k.rawRounds ker (.fin h) g.args = .ok rr ∧ rr.length = n := by
  obtain ⟨rr, hrr, -, -⟩ := C141_cont_bar_height hv
  refine ⟨rr, hrr, ?_⟩
  have hh : h ≠ 0 := by
    rintro rfl
    rw [C39_zero_bandwidth hg] at hv
    cases hv
  have hw : k = .snipw → avg (g.weight ker.fn h) ≠ 0 := by
    rintro rfl
    refine contAvg_ne hg ker h ?_
    by_contra hc
    push Not at hc
    rw [C39_snipw_no_overlap hg ker hh fun i => le_antisymm (hc i) (C38_nonneg ker _)] at hv
    cases hv
  have h1 := contRound_eq hg k ker hh hw
  simp only [ContKind.rawRounds, py_bind_eq_ok] at hrr
  obtain ⟨-, -, -, -, hrr⟩ := hrr
  have h2 : k.round ker (.fin h) g.args = .ok rr := by
    cases k
    · exact hrr
    · exact hrr
    · simp only [py_bind_eq_ok] at hrr
      obtain ⟨-, -, hrr⟩ := hrr
      exact hrr
  rw [h1] at h2
  rw [← Except.ok.inj h2, List.length_ofFn]

/-- **C142.** Continuous actions: likewise. -/
theorem C142_cont_succeeds {n : ℕ} {g : ContLog n} (hg : g.Valid)
    {ests : List (String × ContKind × Kernel × ℝ)} (hn : (ests.map (·.1)).Nodup)
    {pols : List (String × (Fin n → ℝ))} (hpn : (pols.map (·.1)).Nodup) (hle : ests.length ≤ pols.length)
    (hv : ∀ p ∈ pols, ∀ e ∈ ests, ∃ v,
      e.2.1.estimatePolicyValue e.2.2.1 (.fin e.2.2.2) ({ g with evalAction := p.2 } : ContLog n).args = .ok v) :
    ∃ out, plotContPolicies (ests.map fun p => p.2.1.plotObj p.2.2.1 (.fin p.2.2.2) p.1) g.feedback
      (.one (.flt (List.ofFn g.q))) (pols.map (·.1)) (pols.map fun p => Arg1.flt (List.ofFn p.2)) false true true =
        .ok out := by
  have := plotPolicies_succeeds (reward := (g.feedback.reward.getD .none))
    (check := fun x => checkContMetaArgs x (.one (.flt (List.ofFn g.q))))
    (input := fun x => contInput g.feedback x (.one (.flt (List.ofFn g.q))))
    (ests := ests.map fun p => p.2.1.plotObj p.2.2.1 (.fin p.2.2.2) p.1) (by rw [List.map_map]; exact hn)
    (pols := pols.map fun p => (p.1, Arg1.flt (List.ofFn p.2))) (by rw [List.map_map]; exact hpn) (by simpa using hle)
    (by
      intro p hp
      obtain ⟨q, hq, rfl⟩ := List.mem_map.1 hp
      simp [checkContMetaArgs, checkArray1, checkInput, checkLen1, Arg1.isNone, Arg1.shape0, py_bind_ok, raiseIf])
    (n := n)
    (by
      intro e he p hp
      obtain ⟨e, he', rfl⟩ := List.mem_map.1 he
      obtain ⟨q, hq, rfl⟩ := List.mem_map.1 hp
      obtain ⟨v, hv⟩ := hv q hq e he'
      have hg' : ({ g with evalAction := q.2 } : ContLog n).Valid := ⟨hg.nonempty, hg.pscore_pos⟩
      exact cont_raw_log hg' hv)
  rw [List.map_map, List.map_map] at this
  exact this

/-! ### Concrete cases -/

theorem exStrata_mvalid : exStrata.MValid := ⟨exStrata_valid, by decide +kernel, by decide +kernel⟩

/-- naive, weighted and balanced estimators, three policies: the comparison succeeds -/
example : ∃ out, plotMultiPolicies
    ([("ipw", MultiEstimator.mk .naiveIpw .inf false), ("w", ⟨.weightedIpw, .inf, false⟩), ("dr", ⟨.balancedDr, .inf, false⟩)].map
      fun p => p.2.plotObj p.1) exStrata.feedback exStrata.metaArgs ["x", "y", "z"]
    [.arr ⟨4, 2, 1, exStrata.piE⟩, .arr ⟨4, 2, 1, exStrata.piE⟩, .arr ⟨4, 2, 1, fun _ _ _ => 1 / 2⟩] false true true = .ok out := by
  have h2 : ({ exStrata with piE := fun _ _ _ => 1 / 2 } : MLog ℚ 4 2 1).MValid :=
    ⟨⟨by decide, by decide +kernel, by decide +kernel, by decide +kernel, by decide +kernel⟩, by decide +kernel, by decide +kernel⟩
  refine C142_multi_succeeds (g := exStrata) (by decide) (by decide)
    (pols := [("x", exStrata.piE), ("y", exStrata.piE), ("z", fun _ _ _ => 1 / 2)]) (by decide) (by decide) ?_ ?_
  · intro p hp
    simp only [List.mem_cons, List.not_mem_nil, or_false] at hp
    rcases hp with rfl | rfl | rfl
    · exact exStrata_mvalid
    · exact exStrata_mvalid
    · exact h2
  · have key : ∀ {g : MLog ℚ 4 2 1}, g.MValid → g.Contiguous →
        (∀ i, g.stratumVar (fun i => g.reward i * Lam.inf.clip (g.weight false i)) (g.stratum i) ≠ 0) →
        ∀ e ∈ [("ipw", MultiEstimator.mk .naiveIpw .inf false), ("w", ⟨.weightedIpw, .inf, false⟩), ("dr", ⟨.balancedDr, .inf, false⟩)],
          ∃ v, e.2.estimatePolicyValue g.margs = .ok v := by
      intro g hg hc hv e he
      simp only [List.mem_cons, List.not_mem_nil, or_false] at he
      rcases he with rfl | rfl | rfl
      · exact ⟨_, value_naiveIpw hg.base _ _⟩
      · exact (C53_accepts_contiguous_partial hg.base .inf false hc).1.2 hv
      · exact ⟨_, value_balancedDr hg _ _⟩
    intro p hp
    simp only [List.mem_cons, List.not_mem_nil, or_false] at hp
    rcases hp with rfl | rfl | rfl
    · exact key exStrata_mvalid (by unfold MLog.Contiguous; decide +kernel) (by decide +kernel)
    · exact key exStrata_mvalid (by unfold MLog.Contiguous; decide +kernel) (by decide +kernel)
    · exact key h2 (by unfold MLog.Contiguous; decide +kernel) (by decide +kernel)

/-- kernelised IPW and DR, two policies -/
example : ∃ out, plotContPolicies
    ([("ipw", ContKind.ipw, Kernel.gaussian, (1 : ℝ)), ("dr", .dr, .epanechnikov, 2)].map
      fun p => p.2.1.plotObj p.2.2.1 (.fin p.2.2.2) p.1) exCont.feedback (.one (.flt (List.ofFn exCont.q))) ["x", "y"]
    [.flt (List.ofFn ![0, 1]), .flt (List.ofFn ![3, 5])] false true true = .ok out := by
  refine C142_cont_succeeds (g := exCont) exCont_valid
    (ests := [("ipw", ContKind.ipw, Kernel.gaussian, (1 : ℝ)), ("dr", .dr, .epanechnikov, 2)]) (by decide)
    (pols := [("x", ![0, 1]), ("y", ![3, 5])]) (by decide) (by decide) fun p hp e he => ?_
  have hg : ({ exCont with evalAction := p.2 } : ContLog 2).Valid := ⟨exCont_valid.nonempty, exCont_valid.pscore_pos⟩
  simp only [List.mem_cons, List.not_mem_nil, or_false] at he
  rcases he with rfl | rfl
  · exact ⟨_, contValue_eq hg .ipw .gaussian one_ne_zero (by simp)⟩
  · exact ⟨_, contValue_eq hg .dr .epanechnikov two_ne_zero (by simp)⟩

end Obp
