import Verif.Props.Reports
import Verif.Props.Bootstrap
import Verif.Props.Continuous

/-! # C141-C143 continued: several loggers, relative plots, policy comparisons, slate plots;
C54, C57, C97 for the remaining front ends -/

set_option linter.unusedSectionVars false

namespace Obp

variable {K : Type} [Field K] [LinearOrder K] [IsStrictOrderedRing K]

/-! ### C141 for several loggers -/

theorem ipwPrepare_rawIn {a : EstArgs K} {r : RoundIn K} (h : ipwPrepare false a = .ok r) :
    Kind.rawIn .ipw a = .ok r := by
  simp only [ipwPrepare, choosePscore, Bool.false_eq_true, if_false, py_bind_eq_ok, exists_unit,
    py_pure, Except.ok.injEq] at h
  obtain ⟨h1, h2, ps, ⟨h3, rfl⟩, x, h4, pos, h5, act, h6, rfl⟩ := h
  simp only [Kind.rawIn, rawArr3_ok (checkOpeInputs_dist h4), rawPosition_ok (k := .ipw) h5 (Or.inr rfl),
    h6, rawVec_ok h1, rawVec_ok h3, py_bind_ok, py_pure]

theorem drPrepare_rawIn {a : EstArgs K} {r : RoundIn K} (h : drPrepare false a = .ok r) :
    Kind.rawIn .dr a = .ok r := by
  simp only [drPrepare, choosePscore, Bool.false_eq_true, if_false, py_bind_eq_ok, exists_unit,
    py_pure, Except.ok.injEq] at h
  obtain ⟨q, hq, h1, h2, ps, ⟨h3, rfl⟩, x, h4, pos, h5, act, h6, rfl⟩ := h
  simp only [Kind.rawIn, rawArr3_ok (checkOpeInputs_dist h4), rawPosition_ok (k := .dr) h5 (Or.inr rfl),
    rawArr3_ok hq, h6, rawVec_ok h1, rawVec_ok h3, py_bind_ok, py_pure]

theorem weightedIpw_rawIn {a : MultiArgs K} {r : RoundIn K} {st : List ℤ}
    (h : weightedIpwPrepare false a = .ok (r, st)) :
    Kind.rawIn .ipw a.single = .ok r ∧ a.stratumIdx.ints = .ok st := by
  simp only [weightedIpwPrepare, choosePscore, Bool.false_eq_true, if_false, py_bind_eq_ok, exists_unit,
    py_pure, Except.ok.injEq, Prod.mk.injEq] at h
  obtain ⟨h1, h2, h0, ps, ⟨h3, rfl⟩, x, h4, hs, pos, h5, act, h6, st', h7, rfl, rfl⟩ := h
  refine ⟨?_, h7⟩
  have e1 : rawArr3 a.single.actionDist = .ok x := rawArr3_ok (checkOpeInputs_dist h4)
  have e2 : rawPosition .ipw x a.single.position = .ok pos := rawPosition_ok h5 (Or.inr rfl)
  have e3 : a.single.action.ints = .ok act := h6
  have e4 : rawVec a.single.reward = .ok a.reward.vals := rawVec_ok h1
  simp only [Kind.rawIn, e1, e2, e3, e4, rawVec_ok h3, py_bind_ok, py_pure]

theorem weightedDr_rawIn {a : MultiArgs K} {r : RoundIn K} {st : List ℤ}
    (h : weightedDrPrepare false a = .ok (r, st)) :
    Kind.rawIn .dr a.single = .ok r ∧ a.stratumIdx.ints = .ok st := by
  simp only [weightedDrPrepare, choosePscore, Bool.false_eq_true, if_false, py_bind_eq_ok, exists_unit,
    py_pure, Except.ok.injEq, Prod.mk.injEq] at h
  obtain ⟨q, hq, h1, h2, h0, ps, ⟨h3, rfl⟩, x, h4, hs, pos, h5, act, h6, st', h7, rfl, rfl⟩ := h
  refine ⟨?_, h7⟩
  have e1 : rawArr3 a.single.actionDist = .ok x := rawArr3_ok (checkOpeInputs_dist h4)
  have e2 : rawPosition .dr x a.single.position = .ok pos := rawPosition_ok h5 (Or.inr rfl)
  have e3 : a.single.action.ints = .ok act := h6
  have e4 : rawVec a.single.reward = .ok a.reward.vals := rawVec_ok h1
  have e5 : rawArr3 a.single.regModel = .ok q := rawArr3_ok hq
  simp only [Kind.rawIn, e1, e2, e3, e4, e5, rawVec_ok h3, py_bind_ok, py_pure]

/-- **C141** (partial). Several loggers: whenever one of the six classes, weighting by the logged
propensities, reports an estimate, the numbers behind its bar average to it, with or without positions. -/
theorem C141_multi_bar_height_partial {e : MultiEstimator K} {a : MultiArgs K} {v : K}
    (hv : e.estimatePolicyValue a = .ok v) (hu : e.useEstimatedPscore = false) :
    ∃ rr, e.rawRounds a = .ok rr ∧ rr ≠ [] ∧ v = rr.sum / (rr.length : K) := by
  obtain ⟨k, lam, est⟩ := e
  obtain rfl : est = false := hu
  simp only [MultiEstimator.estimatePolicyValue, py_bind_eq_ok] at hv
  obtain ⟨rr, hrr, hm⟩ := hv
  refine ⟨rr, ?_, npMean_eq hm⟩
  cases k <;> simp only [MultiEstimator.rounds, py_bind_eq_ok] at hrr <;>
    simp only [MultiEstimator.rawRounds]
  · obtain ⟨r, hr, h⟩ := hrr; rw [ipwPrepare_rawIn hr]; exact h
  · obtain ⟨r, hr, h⟩ := hrr; rw [ipwPrepare_rawIn hr]; exact h
  · obtain ⟨⟨r, st⟩, hr, h⟩ := hrr
    rw [(weightedIpw_rawIn hr).1, (weightedIpw_rawIn hr).2]; exact h
  · obtain ⟨r, hr, h⟩ := hrr; rw [drPrepare_rawIn hr]; exact h
  · obtain ⟨r, hr, h⟩ := hrr; rw [drPrepare_rawIn hr]; exact h
  · obtain ⟨⟨r, st⟩, hr, h⟩ := hrr
    rw [(weightedDr_rawIn hr).1, (weightedDr_rawIn hr).2]; exact h

/-- columns of a plain plot against the reported values -/
theorem plot_heights {I : Type} {ests : List (PlotObj I K)} {reward : Arg1 K} {check : Py Unit}
    {input : String → I} {fd fn : Bool} {cols : List (String × List K)} {d : List (String × K)}
    (h : plotEstimates (plotRegister ests) reward check input false fd fn = .ok cols)
    (hd : collect (register (ests.map (·.toOpeObj))) (fun name e => e.value (input name)) = .ok d)
    (hm : ∀ e ∈ ests, ∀ i v xs, e.value i = .ok v → e.call i = .ok xs → v = xs.sum / (xs.length : K)) :
    List.Forall₂ (fun c p => c.1 = p.1.toUpper ∧ p.2 = c.2.sum / (c.2.length : K)) cols d := by
  simp only [plotEstimates, py_bind_eq_ok, exists_unit, relativeFrame, Bool.false_eq_true, if_false,
    Except.ok.injEq] at h
  obtain ⟨-, -, -, cs, hcs, df, hdf, rfl⟩ := h
  obtain rfl : df = cs := by
    cases cs with
    | nil => exact (Except.ok.inj hdf).symm
    | cons c rest =>
      simp only [dataFrame] at hdf
      split at hdf
      · exact (Except.ok.inj hdf).symm
      · cases hdf
  rw [plotRegister_map] at hd
  unfold collect at hd
  rw [mapM_ok_iff, List.forall₂_map_left_iff] at hd
  rw [mapM_ok_iff] at hcs
  rw [List.forall₂_map_left_iff]
  have key : ∀ (reg : List (String × PlotObj I K)), (∀ p ∈ reg, p.2 ∈ ests) → ∀ df d,
      List.Forall₂ (fun (p : String × PlotObj I K) q => (do
        let xs ← p.2.call (input p.1)
        pure (p.1, xs)) = Except.ok q) reg df →
      List.Forall₂ (fun (p : String × PlotObj I K) q => (do
        let v ← p.2.toOpeObj.value (input p.1)
        pure (p.1, v)) = Except.ok q) reg d →
      List.Forall₂ (fun (c : String × List K) (p : String × K) =>
        c.1.toUpper = p.1.toUpper ∧ p.2 = c.2.sum / (c.2.length : K)) df d := by
    intro reg hreg df d h1
    induction h1 generalizing d with
    | nil => intro h2; cases h2; exact .nil
    | @cons p c reg df hc _ ih =>
      intro h2
      cases h2 with
      | @cons _ q _ d hq h2 =>
        refine .cons ?_ (ih (fun x hx => hreg x (List.mem_cons_of_mem _ hx)) _ h2)
        simp only [py_bind_eq_ok] at hc hq
        obtain ⟨xs, hxs, hc⟩ := hc
        obtain ⟨v, hv, hq⟩ := hq
        obtain rfl := Except.ok.inj hc
        obtain rfl := Except.ok.inj hq
        exact ⟨rfl, hm p.2 (hreg _ List.mem_cons_self) _ _ _ hv hxs⟩
  exact key _ (fun p hp => (plotRegister_from ests p hp).1) _ _ hcs hd

/-- **C141** (partial). The plot of several loggers: one column per reported estimate, in the same order,
averaging to it, for classes weighting by the logged propensities. -/
theorem C141_multi_plot_partial [FloorRing K] {fb : MultiFeedback K} {a : MultiMetaArgs K}
    {ests : List (String × MultiEstimator K)} (hu : ∀ p ∈ ests, p.2.useEstimatedPscore = false)
    {o : Ope (MultiArgs K) K} (ho : mkMultiOpe fb (ests.map fun p => p.2.obj p.1) = .ok o)
    {d : List (String × K)} (hd : o.multiValues fb a = .ok d) {fd fn : Bool}
    {cols : List (String × List K)}
    (h : plotMultiOpe (ests.map fun p => p.2.plotObj p.1) fb a false fd fn = .ok cols) :
    List.Forall₂ (fun c p => c.1 = p.1.toUpper ∧ p.2 = c.2.sum / (c.2.length : K)) cols d := by
  obtain ⟨-, rfl⟩ := mkMultiOpe_ok ho
  simp only [Ope.multiValues, py_bind_eq_ok, exists_unit] at hd
  refine plot_heights h (by rw [List.map_map]; exact hd.2.2) fun e he i v xs hv hx => ?_
  obtain ⟨p, hp, rfl⟩ := List.mem_map.1 he
  have hv' : p.2.estimatePolicyValue i = .ok v := hv
  have hx' : p.2.rawRounds i = .ok xs := hx
  obtain ⟨rr, hrr, -, hm⟩ := C141_multi_bar_height_partial hv' (hu p hp)
  rw [hrr] at hx'
  obtain rfl := Except.ok.inj hx'
  exact hm

/-- **C141.** The plot for continuous actions. -/
theorem C141_cont_plot {fb : ContFeedback} {x : Arg1 ℝ} {reg : ArrOrDict (Arg1 ℝ)}
    {ests : List (String × ContKind × Kernel × Bandwidth)}
    {o : Ope ContArgs ℝ} (ho : mkContOpe fb (ests.map fun p => p.2.1.obj p.2.2.1 p.2.2.2 p.1) = .ok o)
    {d : List (String × ℝ)} (hd : o.contValues fb x reg = .ok d) {fd fn : Bool}
    {cols : List (String × List ℝ)}
    (h : plotContOpe (ests.map fun p => p.2.1.plotObj p.2.2.1 p.2.2.2 p.1) fb x reg false fd fn =
      .ok cols) :
    List.Forall₂ (fun c p => c.1 = p.1.toUpper ∧ p.2 = c.2.sum / (c.2.length : ℝ)) cols d := by
  obtain ⟨-, rfl⟩ := mkContOpe_ok ho
  simp only [Ope.contValues, py_bind_eq_ok, exists_unit] at hd
  refine plot_heights h (by rw [List.map_map]; exact hd.2.2) fun e he i v xs hv hx => ?_
  obtain ⟨p, hp, rfl⟩ := List.mem_map.1 he
  have hv' : p.2.1.estimatePolicyValue p.2.2.1 p.2.2.2 i = .ok v := hv
  have hx' : p.2.1.rawRounds p.2.2.1 p.2.2.2 i = .ok xs := hx
  obtain ⟨rr, hrr, -, hm⟩ := C141_cont_bar_height hv'
  rw [hrr] at hx'
  obtain rfl := Except.ok.inj hx'
  exact hm

/-! ### C141: the relative plot -/

/-- **C141.** The relative plot is the plain plot with every number divided by the mean reward of the
log, for the three front ends that share the method. -/
theorem C141_relative {I : Type} {reg : List (String × PlotObj I K)} {r : List K} {check : Py Unit}
    {input : String → I} {fd fn : Bool} {cols : List (String × List K)} (hr : r.sum ≠ 0)
    (h : plotEstimates reg (.flt r) check input false fd fn = .ok cols) :
    plotEstimates reg (.flt r) check input true fd fn =
      .ok (cols.map fun c => (c.1, c.2.map (· / (r.sum / (r.length : K))))) := by
  simp only [plotEstimates, py_bind_eq_ok, exists_unit, relativeFrame, Bool.false_eq_true, if_false,
    Except.ok.injEq] at h
  obtain ⟨h1, h2, h3, cs, h4, df, h5, rfl⟩ := h
  have hne : r ≠ [] := by rintro rfl; simp at hr
  have hl : (r.length : K) ≠ 0 := by
    simp [hne]
  have hm : npMean r = .ok (r.sum / (r.length : K)) := by
    unfold npMean; rw [if_neg (by simpa using hne)]
  have hm0 : r.sum / (r.length : K) ≠ 0 := div_ne_zero hr hl
  simp only [plotEstimates, h1, h2, h3, h4, h5, py_bind_ok, relativeFrame, if_true, Arg1.vals, hm]
  rw [mapM_ok_iff, List.forall₂_map_right_iff]
  refine List.forall₂_same.2 fun c _ => ?_
  have : c.2.mapM (npDiv · (r.sum / (r.length : K))) =
      .ok (c.2.map (· / (r.sum / (r.length : K)))) := by
    rw [mapM_ok_iff, List.forall₂_map_right_iff]
    exact List.forall₂_same.2 fun x _ => npDiv_ok hm0
  rw [this]; rfl

/-! ### C142: comparing policies -/

theorem dictSet_append {V : Type} {d : List (String × V)} {k : String} (h : k ∉ d.map (·.1)) (v : V) :
    dictSet d k v = d ++ [(k, v)] := by
  induction d with
  | nil => rfl
  | cons p d ih =>
    obtain ⟨k', v'⟩ := p
    simp only [List.map_cons, List.mem_cons, not_or] at h
    rw [dictSet, if_neg (Ne.symm h.1), ih h.2]; rfl

theorem policyColumns_go {P I : Type} {e : PlotObj I K} {name : String} {check : P → Py Unit}
    {input : P → String → I} (ps : List (String × P)) :
    ∀ d, (d.map (·.1) ++ ps.map (·.1)).Nodup → ∀ out,
    ps.foldlM (fun d p => do
      check p.2
      let xs ← e.call (input p.2 name)
      pure (dictSet d p.1 xs)) d = .ok out ↔
    ∃ cols, out = d ++ cols ∧ List.Forall₂ (fun (p : String × P) c => c.1 = p.1 ∧ check p.2 = .ok () ∧
        e.call (input p.2 name) = .ok c.2) ps cols := by
  induction ps with
  | nil =>
    intro d _ out
    simp only [List.foldlM_nil, py_pure, Except.ok.injEq, List.forall₂_nil_left_iff]
    constructor
    · rintro rfl; exact ⟨[], by simp, rfl⟩
    · rintro ⟨_, rfl, rfl⟩; simp
  | cons p ps ih =>
    intro d hd out
    simp only [List.map_cons] at hd
    have hk : p.1 ∉ d.map (·.1) := by
      rw [List.nodup_append] at hd
      exact fun h => hd.2.2 _ h _ (by simp) rfl
    simp only [List.foldlM_cons, py_bind_eq_ok, exists_unit]
    constructor
    · rintro ⟨d', ⟨hc, xs, hxs, hd'⟩, hout⟩
      obtain rfl := Except.ok.inj hd'
      rw [dictSet_append hk] at hout
      rw [ih _ (by simpa using hd)] at hout
      obtain ⟨cols, rfl, hf⟩ := hout
      exact ⟨(p.1, xs) :: cols, by simp, .cons ⟨rfl, hc, hxs⟩ hf⟩
    · rintro ⟨cols, rfl, hf⟩
      cases hf with
      | @cons _ c _ cols h hf =>
        refine ⟨d ++ [(p.1, c.2)], ⟨h.2.1, c.2, h.2.2, by rw [dictSet_append hk]; rfl⟩, ?_⟩
        rw [ih _ (by simpa using hd)]
        exact ⟨cols, by rw [← h.1]; simp, hf⟩

theorem policyColumns_ok {P I : Type} {e : PlotObj I K} {name : String} {check : P → Py Unit}
    {input : P → String → I} {ps : List (String × P)} (hn : (ps.map (·.1)).Nodup)
    (out : List (String × List K)) :
    policyColumns e name check input ps = .ok out ↔
      List.Forall₂ (fun (p : String × P) c => c.1 = p.1 ∧ check p.2 = .ok () ∧
        e.call (input p.2 name) = .ok c.2) ps out := by
  unfold policyColumns
  rw [policyColumns_go ps [] (by simpa using hn)]
  simp

theorem dataFrame_eq {cols df : List (String × List K)} (h : dataFrame cols = .ok df) : df = cols := by
  cases cols with
  | nil => exact (Except.ok.inj h).symm
  | cons c rest =>
    simp only [dataFrame] at h
    split at h
    · exact (Except.ok.inj h).symm
    · cases h

theorem zipIdx_mapM_bound {α β : Type} {f : α × ℕ → Py β} {m : ℕ}
    (hf : ∀ x y, f x = .ok y → x.2 < m) (l : List α) : ∀ i out,
    (l.zipIdx i).mapM f = .ok out → l ≠ [] → i + l.length ≤ m := by
  induction l with
  | nil => intro i out _ h; exact absurd rfl h
  | cons a l ih =>
    intro i out h _
    rw [List.zipIdx_cons, mapM_ok_iff] at h
    cases h with
    | cons h1 h2 =>
      rw [← mapM_ok_iff] at h2
      rcases eq_or_ne l [] with rfl | hl
      · have := hf _ _ h1
        simp only [List.length_cons, List.length_nil] at this ⊢
        omega
      · have := ih _ _ h2 hl
        simp only [List.length_cons]
        omega

section generic
variable {Q I : Type} {reward : Arg1 K} {check : Q → Py Unit} {input : Q → String → I} {ests : List (PlotObj I K)}
variable {names : List String} {pols : List Q} {rel fd fn : Bool} {out : List (String × List (String × List K))}

theorem plotPolicies_mismatch (h : names.length ≠ pols.length) (reg : List (String × PlotObj I K)) :
    plotPolicies reg reward check input names pols rel fd fn = .error .valueError := by
  simp only [plotPolicies]
  rw [raiseIf_pos (by simpa using h)]; rfl

theorem plotPolicies_rows (hn : (ests.map (·.name)).Nodup) (h : pols.length < ests.length) :
    plotPolicies (plotRegister ests) reward check input names pols rel fd fn ≠ .ok out := by
  intro ho
  simp only [plotPolicies, py_bind_eq_ok, exists_unit] at ho
  obtain ⟨-, -, -, tables, ht, ho⟩ := ho
  have hl : tables.length = ests.length := by
    rw [mapM_ok_iff] at ht
    rw [← ht.length_eq, plotRegister_distinct hn, List.length_map]
  have := zipIdx_mapM_bound (m := pols.length) (fun x y hxy => by
    simp only [py_bind_eq_ok, exists_unit] at hxy
    obtain ⟨-, -, -, -, hr, -⟩ := hxy
    have := raiseIf_ok.1 hr
    simp only [decide_eq_false_iff_not, not_lt] at this
    omega) tables 0 out ho (by rintro rfl; simp at hl; omega)
  omega

/-- The comparison shows, per estimator and policy, the numbers that the estimator computes for the policy. -/
def ShowsColumns (ests : List (PlotObj I K)) (input : Q → String → I) (names : List String) (pols : List Q)
    (out : List (String × List (String × List K))) : Prop :=
  List.Forall₂ (fun e t => t.1 = e.name.toUpper ∧
    List.Forall₂ (fun np c => c.1 = np.1 ∧ e.call (input np.2 e.name) = .ok c.2) (names.zip pols) t.2) ests out

theorem plotPolicies_columns (hn : (ests.map (·.name)).Nodup) (hnames : names.Nodup)
    (h : plotPolicies (plotRegister ests) reward check input names pols false fd fn = .ok out) :
    names.length = pols.length ∧ ests.length ≤ pols.length ∧ ShowsColumns ests input names pols out := by
  have hlen : names.length = pols.length := by
    by_contra hne
    rw [plotPolicies_mismatch hne] at h
    cases h
  have hle : ests.length ≤ pols.length := by
    by_contra hlt
    exact plotPolicies_rows hn (not_le.1 hlt) h
  refine ⟨hlen, hle, ?_⟩
  simp only [plotPolicies, py_bind_eq_ok, exists_unit] at h
  obtain ⟨-, -, -, tables, ht, ho⟩ := h
  have hz : ((names.zip pols).map (·.1)).Nodup := by
    rw [List.map_fst_zip (by omega)]; exact hnames
  rw [mapM_ok_iff, plotRegister_distinct hn, List.forall₂_map_left_iff] at ht
  have key : ∀ (tables : List (String × List (String × List K))) (i : ℕ) (ests : List (PlotObj I K)) out,
      List.Forall₂ (fun (e : PlotObj I K) t => (do
        let cols ← policyColumns e e.name check input (names.zip pols)
        pure (e.name, cols)) = Except.ok t) ests tables →
      (tables.zipIdx i).mapM (fun t => do
        let df ← dataFrame t.1.2
        let df' ← relativeFrame false reward df
        raiseIf (pols.length < t.2 + 1) PyErr.valueError
        pure (t.1.1.toUpper, df')) = .ok out →
      ShowsColumns ests input names pols out := by
    intro tables
    induction tables with
    | nil =>
      intro i ests out h1 h2
      cases h1
      obtain rfl := Except.ok.inj h2
      exact .nil
    | cons t tables ih =>
      intro i ests out h1 h2
      cases h1 with
      | @cons e _ ests _ he h1 =>
        rw [List.zipIdx_cons, mapM_ok_iff] at h2
        cases h2 with
        | @cons _ y _ out hy h2 =>
          rw [← mapM_ok_iff] at h2
          refine .cons ?_ (ih _ _ _ h1 h2)
          simp only [py_bind_eq_ok, exists_unit] at hy he
          obtain ⟨cols, hc, he⟩ := he
          obtain rfl := Except.ok.inj he
          obtain ⟨df, hdf, df', hdf', -, hy⟩ := hy
          obtain rfl := Except.ok.inj hy
          obtain rfl := dataFrame_eq hdf
          simp only [relativeFrame, Bool.false_eq_true, if_false, Except.ok.injEq] at hdf'
          subst hdf'
          rw [policyColumns_ok hz] at hc
          exact ⟨rfl, hc.imp fun _ _ h => ⟨h.1, h.2.2⟩⟩
  exact key tables 0 ests out ht ho

end generic

/-- **C142.** As many names as policies are required: otherwise ValueError, before anything else. -/
theorem C142_names_mismatch (ests : List (PlotObj (MetaIn K) K)) (fb : Feedback K) (a : MetaArgs K)
    {names : List String} {dists : List (Arg3 K)} (h : names.length ≠ dists.length) (rel fd fn : Bool) :
    plotOpePolicies ests fb a names dists rel fd fn = .error .valueError := plotPolicies_mismatch h _

/-- **C142.** The same for several loggers and for continuous actions. -/
theorem C142_names_mismatch_others (ests : List (PlotObj (MultiArgs K) K)) (fb : MultiFeedback K) (a : MultiMetaArgs K)
    (cests : List (PlotObj ContArgs ℝ)) (cfb : ContFeedback) (reg : ArrOrDict (Arg1 ℝ))
    {names : List String} {dists : List (Arg3 K)} {acts : List (Arg1 ℝ)} (rel fd fn : Bool) :
    (names.length ≠ dists.length → plotMultiPolicies ests fb a names dists rel fd fn = .error .valueError) ∧
    (names.length ≠ acts.length → plotContPolicies cests cfb reg names acts rel fd fn = .error .valueError) :=
  ⟨fun h => plotPolicies_mismatch h _, fun h => plotPolicies_mismatch h _⟩

/-- **C142.** The comparison never succeeds with more estimators than policies: the grid of subplots has
one row per policy but one subplot per estimator. -/
theorem C142_more_estimators_than_policies {ests : List (PlotObj (MetaIn K) K)}
    (hn : (ests.map (·.name)).Nodup) (fb : Feedback K) (a : MetaArgs K) (names : List String)
    {dists : List (Arg3 K)} (h : dists.length < ests.length) (rel fd fn : Bool)
    (out : List (String × List (String × List K))) :
    plotOpePolicies ests fb a names dists rel fd fn ≠ .ok out := plotPolicies_rows hn h

/-- **C142.** The same defect for several loggers. -/
theorem C142_multi_more_estimators {ests : List (PlotObj (MultiArgs K) K)}
    (hn : (ests.map (·.name)).Nodup) (fb : MultiFeedback K) (a : MultiMetaArgs K) (names : List String)
    {dists : List (Arg3 K)} (h : dists.length < ests.length) (rel fd fn : Bool)
    (out : List (String × List (String × List K))) :
    plotMultiPolicies ests fb a names dists rel fd fn ≠ .ok out := plotPolicies_rows hn h

/-- **C142.** The same defect for continuous actions. -/
theorem C142_cont_more_estimators {ests : List (PlotObj ContArgs ℝ)}
    (hn : (ests.map (·.name)).Nodup) (fb : ContFeedback) (reg : ArrOrDict (Arg1 ℝ)) (names : List String)
    {acts : List (Arg1 ℝ)} (h : acts.length < ests.length) (rel fd fn : Bool)
    (out : List (String × List (String × List ℝ))) :
    plotContPolicies ests fb reg names acts rel fd fn ≠ .ok out := plotPolicies_rows hn h

/-- **C142** (partial). When it succeeds, with distinct names of estimators and of policies, it has one
subplot per estimator and in it one column per policy, in the given orders, holding the numbers that
estimator computes for that policy. -/
theorem C142_columns_partial {ests : List (PlotObj (MetaIn K) K)} (hn : (ests.map (·.name)).Nodup)
    {fb : Feedback K} {a : MetaArgs K} {names : List String} (hnames : names.Nodup)
    {dists : List (Arg3 K)} {fd fn : Bool} {out : List (String × List (String × List K))}
    (h : plotOpePolicies ests fb a names dists false fd fn = .ok out) :
    names.length = dists.length ∧ ests.length ≤ dists.length ∧
    List.Forall₂ (fun e t => t.1 = e.name.toUpper ∧
      List.Forall₂ (fun np c => c.1 = np.1 ∧
        e.call (metaInput fb { a with actionDist := np.2 } e.name) = .ok c.2)
        (names.zip dists) t.2) ests out := plotPolicies_columns hn hnames h

/-- **C142** (partial). The heights: for estimators of the eleven classes that weight by the logged
propensities, on a log with positions, the column of a policy averages to the estimate of that policy's
value by that estimator. -/
theorem C142_heights_partial [FloorRing K] {ests : List (String × Estimator K)}
    (hn : (ests.map (·.1)).Nodup)
    (hu : ∀ p ∈ ests, p.2.kind = .rm ∨ p.2.kind = .dm ∨ p.2.kind = .bIpw ∨ p.2.useEstimatedPscore = false)
    {fb : Feedback K} {p : Arg1 K} (hp : fb.position = some p) (hp' : p ≠ .none) {a : MetaArgs K}
    {names : List String} (hnames : names.Nodup) {dists : List (Arg3 K)} {fd fn : Bool}
    {out : List (String × List (String × List K))}
    (h : plotOpePolicies (ests.map fun p => p.2.plotObj p.1) fb a names dists false fd fn = .ok out) :
    List.Forall₂ (fun e t => t.1 = e.1.toUpper ∧
      List.Forall₂ (fun np c => c.1 = np.1 ∧
        ∀ v, (e.2.obj e.1).value (metaInput fb { a with actionDist := np.2 } e.1) = .ok v →
          v = c.2.sum / (c.2.length : K))
        (names.zip dists) t.2) ests out := by
  have h1 := (C142_columns_partial (by rw [List.map_map]; exact hn) hnames h).2.2
  rw [List.forall₂_map_left_iff] at h1
  refine forall₂_imp_mem (fun e t hemem he => ?_) h1
  refine ⟨he.1, he.2.imp fun np c hc => ⟨hc.1, fun v hv => ?_⟩⟩
  have hv' : e.2.estimatePolicyValue (metaInput fb { a with actionDist := np.2 } e.1).est = .ok v := hv
  obtain ⟨rr, hrr, -, hm⟩ := C141_bar_height_partial hv' (hu _ hemem)
    (Or.inl (by simpa [metaInput, MetaIn.est, hp] using hp'))
  have hc' : e.2.rawRounds (metaInput fb { a with actionDist := np.2 } e.1).est = .ok c.2 := hc.2
  rw [hrr] at hc'
  obtain rfl := Except.ok.inj hc'
  exact hm

/-- **C142** (partial). Several loggers: when the comparison succeeds, it has one subplot per estimator and in it one
column per policy, in the given orders, that averages to the estimate of that policy's value by that estimator (for classes
weighting by the logged propensities). -/
theorem C142_multi_heights_partial [FloorRing K] {ests : List (String × MultiEstimator K)}
    (hn : (ests.map (·.1)).Nodup) (hu : ∀ p ∈ ests, p.2.useEstimatedPscore = false)
    {fb : MultiFeedback K} {a : MultiMetaArgs K} {names : List String} (hnames : names.Nodup) {dists : List (Arg3 K)}
    {fd fn : Bool} {out : List (String × List (String × List K))}
    (h : plotMultiPolicies (ests.map fun p => p.2.plotObj p.1) fb a names dists false fd fn = .ok out) :
    names.length = dists.length ∧ List.Forall₂ (fun e t => t.1 = e.1.toUpper ∧
      List.Forall₂ (fun np c => c.1 = np.1 ∧
        ∀ v, e.2.estimatePolicyValue (multiInput fb { a with actionDist := np.2 } e.1) = .ok v →
          v = c.2.sum / (c.2.length : K))
        (names.zip dists) t.2) ests out := by
  obtain ⟨hlen, -, h1⟩ := plotPolicies_columns (by rw [List.map_map]; exact hn) hnames h
  refine ⟨hlen, ?_⟩
  unfold ShowsColumns at h1
  rw [List.forall₂_map_left_iff] at h1
  refine forall₂_imp_mem (fun e t hemem he => ?_) h1
  refine ⟨he.1, he.2.imp fun np c hc => ⟨hc.1, fun v hv => ?_⟩⟩
  obtain ⟨rr, hrr, -, hm⟩ := C141_multi_bar_height_partial hv (hu _ hemem)
  have hc' : e.2.rawRounds (multiInput fb { a with actionDist := np.2 } e.1) = .ok c.2 := hc.2
  rw [hrr] at hc'
  obtain rfl := Except.ok.inj hc'
  exact hm

/-- **C142** (partial). Continuous actions: the same for every kernelised estimator. -/
theorem C142_cont_heights_partial {ests : List (String × ContKind × Kernel × Bandwidth)}
    (hn : (ests.map (·.1)).Nodup) {fb : ContFeedback} {reg : ArrOrDict (Arg1 ℝ)} {names : List String} (hnames : names.Nodup)
    {acts : List (Arg1 ℝ)} {fd fn : Bool} {out : List (String × List (String × List ℝ))}
    (h : plotContPolicies (ests.map fun p => p.2.1.plotObj p.2.2.1 p.2.2.2 p.1) fb reg names acts false fd fn = .ok out) :
    names.length = acts.length ∧ List.Forall₂ (fun e t => t.1 = e.1.toUpper ∧
      List.Forall₂ (fun np c => c.1 = np.1 ∧
        ∀ v, e.2.1.estimatePolicyValue e.2.2.1 e.2.2.2 (contInput fb np.2 reg e.1) = .ok v →
          v = c.2.sum / (c.2.length : ℝ))
        (names.zip acts) t.2) ests out := by
  obtain ⟨hlen, -, h1⟩ := plotPolicies_columns (by rw [List.map_map]; exact hn) hnames h
  refine ⟨hlen, ?_⟩
  unfold ShowsColumns at h1
  rw [List.forall₂_map_left_iff] at h1
  refine h1.imp fun e t he => ?_
  refine ⟨he.1, he.2.imp fun np c hc => ⟨hc.1, fun v hv => ?_⟩⟩
  obtain ⟨rr, hrr, -, hm⟩ := C141_cont_bar_height hv
  have hc' : e.2.1.rawRounds e.2.2.1 e.2.2.2 (contInput fb np.2 reg e.1) = .ok c.2 := hc.2
  rw [hrr] at hc'
  obtain rfl := Except.ok.inj hc'
  exact hm

theorem dataFrame_ok {cols : List (String × List K)} {n : ℕ} (h : ∀ c ∈ cols, c.2.length = n) :
    dataFrame cols = .ok cols := by
  cases cols with
  | nil => rfl
  | cons c rest =>
    simp only [dataFrame]
    rw [if_pos]
    rw [List.all_eq_true]
    intro d hd
    rw [decide_eq_true_eq, h d (List.mem_cons_of_mem _ hd), h c List.mem_cons_self]

/-- the plotted numbers of a class on a valid log that it can evaluate -/
theorem raw_log {n A L : ℕ} {g : Log K n A L} (hg : g.Valid) {e : Estimator K} {v : K}
    (hv : e.estimatePolicyValue g.args = .ok v)
    (hu : e.kind = .rm ∨ e.kind = .dm ∨ e.kind = .bIpw ∨ e.useEstimatedPscore = false) :
    ∃ rr, e.rawRounds g.args = .ok rr ∧ rr.length = n := by
  obtain ⟨rr, hrr, -, -⟩ := C141_bar_height_partial hv hu (Or.inl (by simp [Log.args]))
  refine ⟨rr, hrr, ?_⟩
  simp only [Estimator.estimatePolicyValue, py_bind_eq_ok] at hv
  obtain ⟨r, hr, rr', hrr', -⟩ := hv
  have hx := rawRounds_eq hr hu (Or.inl (by simp [Log.args]))
  rw [hrr, hrr'] at hx
  obtain rfl := Except.ok.inj hx
  have := rounds_eq hg e
  simp only [hr, py_bind_ok, hrr'] at this
  cases hro : roundReward e g with
  | none => rw [hro] at this; cases this
  | some f => rw [hro] at this; rw [Except.ok.inj this]; simp

/-- **C142.** With at most as many estimators as policies, distinct names, and a valid log with positions,
the comparison succeeds as soon as every estimator can evaluate every policy. -/
theorem C142_succeeds [FloorRing K] {n A L : ℕ} {g : Log K n A L} (ctx : Arg2 K)
    {ests : List (String × Estimator K)} (hn : (ests.map (·.1)).Nodup)
    (hu : ∀ p ∈ ests, p.2.kind = .rm ∨ p.2.kind = .dm ∨ p.2.kind = .bIpw ∨ p.2.useEstimatedPscore = false)
    {pols : List (String × (Fin n → Fin A → Fin L → K))} (hpn : (pols.map (·.1)).Nodup)
    (hle : ests.length ≤ pols.length) (hg : ∀ p ∈ pols, ({ g with piE := p.2 } : Log K n A L).Valid)
    (hv : ∀ p ∈ pols, ∀ e ∈ ests, ∃ v,
      e.2.estimatePolicyValue ({ g with piE := p.2 } : Log K n A L).args = .ok v) :
    ∃ out, plotOpePolicies (ests.map fun p => p.2.plotObj p.1) (g.feedback ctx) g.metaArgs
      (pols.map (·.1)) (pols.map fun p => Arg3.arr ⟨n, A, L, p.2⟩) false true true = .ok out := by
  set dists := pols.map fun p => Arg3.arr ⟨n, A, L, p.2⟩ with hdists
  let col (e : String × Estimator K) (p : String × (Fin n → Fin A → Fin L → K)) : List K :=
    (e.2.rawRounds ({ g with piE := p.2 } : Log K n A L).args).toOption.getD []
  have hcol : ∀ e ∈ ests, ∀ p ∈ pols,
      e.2.rawRounds ({ g with piE := p.2 } : Log K n A L).args = .ok (col e p) ∧
        (col e p).length = n := by
    intro e he p hp
    obtain ⟨v, hv⟩ := hv p hp e he
    obtain ⟨rr, h1, h2⟩ := raw_log (hg p hp) hv (hu e he)
    simp only [col, h1]
    exact ⟨rfl, h2⟩
  have hzip : (pols.map (·.1)).zip dists = pols.map fun p => (p.1, Arg3.arr ⟨n, A, L, p.2⟩) := by
    rw [hdists, List.zip_map']
  have h1 : (plotRegister (ests.map fun p => p.2.plotObj p.1)).mapM (fun p => do
      let cols ← policyColumns p.2 p.1 (fun x => checkMetaArgs { g.metaArgs with actionDist := x })
        (fun x => metaInput (g.feedback ctx) { g.metaArgs with actionDist := x })
        ((pols.map fun p => p.1).zip dists)
      pure (p.1, cols)) = Except.ok (ests.map fun e : String × Estimator K => (e.1, pols.map fun p => (p.1, col e p))) := by
    rw [plotRegister_distinct (by rw [List.map_map]; exact hn), List.map_map, mapM_ok_iff,
      List.forall₂_map_left_iff, List.forall₂_map_right_iff, List.forall₂_same]
    intro e he
    have : policyColumns (e.2.plotObj e.1) e.1
        (fun x => checkMetaArgs { g.metaArgs with actionDist := x })
        (fun x => metaInput (g.feedback ctx) { g.metaArgs with actionDist := x })
        ((pols.map (·.1)).zip dists) = .ok (pols.map fun p => (p.1, col e p)) := by
      rw [hzip, policyColumns_ok (by rw [List.map_map]; exact hpn), List.forall₂_map_left_iff,
        List.forall₂_map_right_iff, List.forall₂_same]
      intro p hp
      exact ⟨rfl, checkMetaArgs_log { g with piE := p.2 }, (hcol e he p hp).1⟩
    exact congrArg (· >>= fun cols => pure (e.1, cols)) this
  refine ⟨ests.map fun e => (e.1.toUpper, pols.map fun p => (p.1, col e p)), ?_⟩
  have hl : dists.length = pols.length := by rw [hdists, List.length_map]
  simp only [plotOpePolicies, plotPolicies, Bool.not_true, raiseIf_neg, py_bind_ok]
  rw [raiseIf_neg (by simp [hl]), py_bind_ok, h1, py_bind_ok]
  rw [mapM_ok_iff, List.forall₂_iff_get]
  refine ⟨by simp, fun i hi hi' => ?_⟩
  have hi2 : i < ests.length := by simpa using hi
  simp only [List.get_eq_getElem, List.getElem_zipIdx, List.getElem_map, zero_add]
  rw [dataFrame_ok (n := n)]
  · simp only [py_bind_ok, relativeFrame, Bool.false_eq_true, if_false]
    rw [raiseIf_neg (by simp only [decide_eq_false_iff_not, not_lt]; omega), py_bind_ok]
    rfl
  · intro c hc
    obtain ⟨p, hp, rfl⟩ := List.mem_map.1 hc
    exact (hcol _ (List.getElem_mem hi2) p hp).2

/-! ### C143: the slate plot -/

theorem slateBar_none (ci : CiOut K) :
    slateBar ci none = .ok ⟨ci.mean, ci.mean - |ci.upper - ci.lower|, ci.mean + |ci.upper - ci.lower|⟩ := rfl

/-- **C143** (negated). The error bar drawn around an estimate is twice as long as the confidence interval
that the same call to the summary reports, and centred at the bootstrap mean: whenever the interval is
not a single point the drawn bar is not the interval. -/
theorem C143_bars_partial {o : Ope (SlateIn K) K} {fb : SlateFeedback K} {a : SlateMetaArgs K}
    {c : CiArgs K} {draws : String → List (List ℕ)} {vs : List (String × K × Option K)}
    {cis : List (String × CiOut K)} (hs : o.slateSummarize fb a c draws = .ok (vs, cis)) :
    ∃ bars, o.slatePlot fb a c draws false true true = .ok bars ∧
      List.Forall₂ (fun ci b => b.1 = ci.1 ∧ b.2.height = ci.2.mean ∧
        (ci.2.lower ≤ ci.2.upper →
          b.2.high - b.2.low = 2 * (ci.2.upper - ci.2.lower) ∧
          ((b.2.low = ci.2.lower ∧ b.2.high = ci.2.upper) → ci.2.lower = ci.2.upper) ∧
          (ci.2.lower ≤ ci.2.mean → ci.2.mean ≤ ci.2.upper →
            b.2.low ≤ ci.2.lower ∧ ci.2.upper ≤ b.2.high))) cis bars := by
  refine ⟨cis.map fun p => (p.1, ⟨p.2.mean, p.2.mean - |p.2.upper - p.2.lower|,
    p.2.mean + |p.2.upper - p.2.lower|⟩), ?_, ?_⟩
  · simp only [Ope.slatePlot, Bool.not_true, raiseIf_neg, py_bind_ok, hs, Bool.false_eq_true, if_false,
      py_pure]
    rw [mapM_ok_iff, List.forall₂_map_right_iff]
    exact List.forall₂_same.2 fun p _ => rfl
  · rw [List.forall₂_map_right_iff]
    refine List.forall₂_same.2 fun p _ => ⟨rfl, rfl, fun hle => ?_⟩
    rw [abs_of_nonneg (sub_nonneg.2 hle)]
    refine ⟨by ring, fun h => ?_, fun h1 h2 => ⟨?_, ?_⟩⟩
    · have h1 := h.1
      have h2 := h.2
      dsimp only at h1 h2
      linarith
    · dsimp only; linarith
    · dsimp only; linarith

/-! ### C54, C57, C97 for the remaining front ends -/

/-- **C54.** `estimate_intervals` of several loggers. -/
theorem C54_multi_intervals_report {fb : MultiFeedback K} {ests : List (OpeObj (MultiArgs K) K)}
    {o : Ope (MultiArgs K) K} (ho : mkMultiOpe fb ests = .ok o) {a : MultiMetaArgs K} {c : CiArgs K}
    {draws : String → List (List ℕ)} {d : List (String × CiOut K)}
    (hd : o.multiIntervals fb a c draws = .ok d) :
    Reports ests (fun e v => ∃ i, MultiReceives fb a e.name i ∧ e.interval i c (draws e.name) = .ok v)
      d := by
  obtain ⟨hk, rfl⟩ := mkMultiOpe_ok ho
  simp only [Ope.multiIntervals, py_bind_eq_ok, exists_unit] at hd
  exact (collect_reports hd.2.2.2).mono fun e v h => ⟨_, multiInput_receives hk a e.name, h⟩

/-- **C54.** `estimate_intervals` for continuous actions. -/
theorem C54_cont_intervals_report {fb : ContFeedback} {ests : List (OpeObj ContArgs ℝ)}
    {o : Ope ContArgs ℝ} (ho : mkContOpe fb ests = .ok o) {x : Arg1 ℝ} {reg : ArrOrDict (Arg1 ℝ)}
    {c : CiArgs ℝ} {draws : String → List (List ℕ)} {d : List (String × CiOut ℝ)}
    (hd : o.contIntervals fb x reg c draws = .ok d) :
    Reports ests (fun e v => ∃ i, ContReceives fb x reg e.name i ∧ e.interval i c (draws e.name) = .ok v)
      d := by
  obtain ⟨hk, rfl⟩ := mkContOpe_ok ho
  simp only [Ope.contIntervals, py_bind_eq_ok, exists_unit] at hd
  exact (collect_reports hd.2.2.2).mono fun e v h => ⟨_, contInput_receives hk x reg e.name, h⟩

/-- **C57.** Evaluation for continuous actions. -/
theorem C57_cont_performance {fb : ContFeedback} {ests : List (OpeObj ContArgs ℝ)}
    {o : Ope ContArgs ℝ} (ho : mkContOpe fb ests = .ok o) {x : Arg1 ℝ} {reg : ArrOrDict (Arg1 ℝ)}
    {metric : String} {V : ℝ} {d : List (String × ℝ)}
    (hd : o.contPerformance fb x reg metric (.flt V) = .ok d) :
    Reports ests (fun e m => ∃ i v, ContReceives fb x reg e.name i ∧ e.value i = .ok v ∧
      IsMetric metric V v m ∧ 0 ≤ m ∧ (m = 0 ↔ v = V)) d := by
  obtain ⟨hk, rfl⟩ := mkContOpe_ok ho
  simp only [Ope.contPerformance, py_bind_eq_ok, exists_unit] at hd
  refine (collect_reports hd.2.2).mono fun e m h => ?_
  simp only [py_bind_eq_ok] at h
  obtain ⟨v, hv, hm⟩ := h
  exact ⟨_, v, contInput_receives hk x reg e.name, hv, metricOf_spec hd.1 hm⟩

/-- **C97.** The summary of several loggers. -/
theorem C97_multi_summary {fb : MultiFeedback K} {o : Ope (MultiArgs K) K} {a : MultiMetaArgs K}
    {c : CiArgs K} {draws : String → List (List ℕ)} {r : List K} (hr : fb.reward = some (.flt r))
    {vs : List (String × K × Option K)} {cis : List (String × CiOut K)}
    (h : o.multiSummarize fb a c draws = .ok (vs, cis)) :
    r ≠ [] ∧ o.multiIntervals fb a c draws = .ok cis ∧
      ∃ d, o.multiValues fb a = .ok d ∧ vs = d.map fun p =>
        (p.1, p.2, if r.sum / (r.length : K) ≤ 0 then none else some (p.2 / (r.sum / (r.length : K)))) := by
  simp only [Ope.multiSummarize, py_bind_eq_ok, hr, Option.getD_some, Arg1.vals] at h
  obtain ⟨d, hd, ci, hci, m, hm, h⟩ := h
  obtain ⟨rfl, rfl⟩ := Prod.mk.inj (Except.ok.inj h)
  obtain ⟨hne, rfl⟩ := npMean_eq hm
  exact ⟨hne, hci, d, hd, rfl⟩

/-- **C97.** The summary for continuous actions. -/
theorem C97_cont_summary {fb : ContFeedback} {o : Ope ContArgs ℝ} {x : Arg1 ℝ}
    {reg : ArrOrDict (Arg1 ℝ)} {c : CiArgs ℝ} {draws : String → List (List ℕ)} {r : List ℝ}
    (hr : fb.reward = some (.flt r)) {vs : List (String × ℝ × Option ℝ)} {cis : List (String × CiOut ℝ)}
    (h : o.contSummarize fb x reg c draws = .ok (vs, cis)) :
    r ≠ [] ∧ o.contIntervals fb x reg c draws = .ok cis ∧
      ∃ d, o.contValues fb x reg = .ok d ∧ vs = d.map fun p =>
        (p.1, p.2, if r.sum / (r.length : ℝ) ≤ 0 then none else some (p.2 / (r.sum / (r.length : ℝ)))) := by
  simp only [Ope.contSummarize, py_bind_eq_ok, hr, Option.getD_some, Arg1.vals] at h
  obtain ⟨d, hd, ci, hci, m, hm, h⟩ := h
  obtain ⟨rfl, rfl⟩ := Prod.mk.inj (Except.ok.inj h)
  obtain ⟨hne, rfl⟩ := npMean_eq hm
  exact ⟨hne, hci, d, hd, rfl⟩

/-- **C97** (negated for the balanced classes). A balanced estimator in the list makes the summary of
several loggers fail, although its point estimate exists. -/
theorem C97_multi_balanced_fails [FloorRing K] {fb : MultiFeedback K}
    {ests : List (OpeObj (MultiArgs K) K)} {o : Ope (MultiArgs K) K} (ho : mkMultiOpe fb ests = .ok o)
    {e : MultiEstimator K} {name : String} (hk : e.kind = .balancedIpw ∨ e.kind = .balancedDr)
    (hl : LastNamed ests (e.obj name)) (a : MultiMetaArgs K) (c : CiArgs K)
    (draws : String → List (List ℕ)) (out) : o.multiSummarize fb a c draws ≠ .ok out := by
  intro h
  simp only [Ope.multiSummarize, py_bind_eq_ok] at h
  obtain ⟨-, -, cis, hci, -⟩ := h
  obtain ⟨v, -, i, -, hv⟩ := (C54_multi_intervals_report ho hci).entries _ hl
  have hv' : e.estimateInterval i c (draws name) = .ok v := hv
  simp only [MultiEstimator.estimateInterval, py_bind_eq_ok, MultiEstimator.intervalRounds] at hv'
  obtain ⟨rr, hrr, -⟩ := hv'
  rcases hk with hk | hk <;> rw [hk] at hrr <;> simp only [py_bind_eq_ok] at hrr <;>
    obtain ⟨_, -, hrr⟩ := hrr <;> cases hrr

/-! ### Concrete cases -/

section examples

/-- the log of the examples with another policy -/
def exPi (p : ℚ) : Fin 3 → Fin 2 → Fin 2 → ℚ := fun _ a _ => if a = 0 then p else 1 - p

theorem exPi_valid (p : ℚ) : ({ exLog with piE := exPi p } : Log ℚ 3 2 2).Valid where
  nonempty := exLog_valid.nonempty
  pscore_pos := exLog_valid.pscore_pos
  estPscore_pos := exLog_valid.estPscore_pos
  estIw_nonneg := exLog_valid.estIw_nonneg
  sum_one := by
    intro i l
    have : ∑ a, exPi p i a l = 1 := by simp [exPi, Fin.sum_univ_two]
    rw [this]; decide +kernel

theorem exPi_value (p : ℚ) : ∀ e ∈ exEsts, ∃ v,
    e.2.estimatePolicyValue ({ exLog with piE := exPi p } : Log ℚ 3 2 2).args = .ok v := by
  intro e he
  rw [value_roundReward (exPi_valid p)]
  simp only [exEsts, List.mem_cons, List.not_mem_nil, or_false] at he
  rcases he with rfl | rfl | rfl <;> exact ⟨_, rfl⟩

/-- three estimators, three policies: the comparison succeeds, and its columns are as stated -/
example : ∃ out, plotOpePolicies (exEsts.map fun p => p.2.plotObj p.1) (exLog.feedback .none)
    exLog.metaArgs ["x", "y", "z"]
    [.arr ⟨3, 2, 2, exPi (1 / 2)⟩, .arr ⟨3, 2, 2, exPi (1 / 3)⟩, .arr ⟨3, 2, 2, exPi 1⟩]
    false true true = .ok out :=
  C142_succeeds (g := exLog) .none (ests := exEsts) (by decide) (by decide)
    (pols := [("x", exPi (1 / 2)), ("y", exPi (1 / 3)), ("z", exPi 1)]) (by decide) (by decide)
    (by intro p hp
        simp only [List.mem_cons, List.not_mem_nil, or_false] at hp
        rcases hp with rfl | rfl | rfl <;> exact exPi_valid _)
    (by intro p hp
        simp only [List.mem_cons, List.not_mem_nil, or_false] at hp
        rcases hp with rfl | rfl | rfl <;> exact exPi_value _)

/-- three estimators, two policies: it fails -/
example (out) : plotOpePolicies (exEsts.map fun p => p.2.plotObj p.1) (exLog.feedback .none)
    exLog.metaArgs ["x", "y"] [.arr ⟨3, 2, 2, exPi (1 / 2)⟩, .arr ⟨3, 2, 2, exPi (1 / 3)⟩]
    false true true ≠ .ok out :=
  C142_more_estimators_than_policies (by rw [List.map_map]; exact (by decide : (exEsts.map (·.1)).Nodup))
    _ _ _ (by decide) _ _ _ out

/-- the plot of the three estimators -/
example : ∃ o d cols, mkOpe (exLog.feedback .none) (exEsts.map fun p => p.2.obj p.1) = .ok o ∧
    o.values (exLog.feedback .none) exLog.metaArgs = .ok d ∧
    plotOpe (exEsts.map fun p => p.2.plotObj p.1) (exLog.feedback .none) exLog.metaArgs false true true =
      .ok cols ∧
    List.Forall₂ (fun c p => c.1 = p.1.toUpper ∧ c.2.length = 3 ∧ p.2 = c.2.sum / ((3 : ℕ) : ℚ)) cols d := by
  obtain ⟨o, d, h1, h2⟩ := exOpe
  obtain ⟨cols, h3, h4⟩ := C141_plot_partial exLog_valid .none exEsts (by decide) h1 h2
  exact ⟨o, d, cols, h1, h2, h3, h4⟩

/-- **C141** (negated). Inverse propensity weighting with estimated propensities: the numbers behind the
bar do not average to the reported estimate. -/
theorem C141_estimated_differs : ∃ rr v,
    (⟨.ipw, .inf, true⟩ : Estimator ℚ).estimatePolicyValue exLog.args = .ok v ∧
    (⟨.ipw, .inf, true⟩ : Estimator ℚ).rawRounds exLog.args = .ok rr ∧
    v ≠ rr.sum / (rr.length : ℚ) := by
  obtain ⟨rr, hrr, -, hm⟩ := C141_bar_height_partial
    (e := (⟨.ipw, .inf, false⟩ : Estimator ℚ)) (exEsts_ok ("a", ⟨.ipw, .inf, false⟩) (by simp [exEsts]))
    (by simp) (Or.inl (by simp [Log.args]))
  have hv : (⟨.ipw, .inf, true⟩ : Estimator ℚ).estimatePolicyValue exLog.args =
      .ok (exVal ⟨.ipw, .inf, true⟩) := by
    rw [value_roundReward exLog_valid]; rfl
  refine ⟨rr, _, hv, hrr, ?_⟩
  rw [← hm]
  decide +kernel

/-- the intervals and bars of one slate estimator -/
def exBars : List (ℚ × ℚ × ℚ × ℚ) :=
  match (do
    let o ← mkSlateOpe exSlateFb [SlateKind.sips.obj 2 "s"]
    let a : SlateMetaArgs ℚ := { evalPscore := exSlate.args.evalPscore }
    let s ← o.slateSummarize exSlateFb a (ciCall (1 / 2) 2) (fun _ => [[0, 1], [1, 1]])
    let b ← o.slatePlot exSlateFb a (ciCall (1 / 2) 2) (fun _ => [[0, 1], [1, 1]]) false true true
    pure ((s.2.zip b).map fun x => (x.1.2.lower, x.1.2.upper, x.2.2.low, x.2.2.high)) : Py _) with
  | .ok r => r
  | .error _ => []

/-- the interval [5/2, 7/2] is drawn as [2, 4] -/
example : exBars = [(5 / 2, 7 / 2, 2, 4)] := by decide +kernel

def exMultiFb : MultiFeedback ℚ where
  action := some (.int [0, 1, 0])
  position := some (.int [0, 0, 0])
  reward := some (.flt [1, 2, 3])
  stratumIdx := some (.int [0, 1, 0])
  pscore := some (.flt [1 / 2, 1 / 3, 1 / 4])
  pscoreAvg := some (.flt [1 / 2, 1 / 2, 1 / 2])

def exMultiEsts : List (String × MultiEstimator ℚ) := [("a", ⟨.naiveIpw, .inf, false⟩), ("b", ⟨.balancedIpw, .inf, false⟩)]

def exMultiPlot (dists : List (Arg3 ℚ)) (names : List String) : Option (List (String × List (String × List ℚ))) :=
  (plotMultiPolicies (exMultiEsts.map fun p => p.2.plotObj p.1) exMultiFb { actionDist := .none } names dists
    false true true).toOption

/-- two estimators, two policies -/
example : exMultiPlot [.arr ⟨3, 2, 1, fun _ a _ => if a = 0 then 1 / 2 else 1 / 2⟩, .arr ⟨3, 2, 1, fun _ a _ => if a = 0 then 1 else 0⟩]
    ["x", "y"] = some [("A", [("x", [1, 3, 6]), ("y", [2, 0, 12])]), ("B", [("x", [1, 2, 3]), ("y", [2, 0, 6])])] := by
  decide +kernel

/-- two estimators, one policy -/
example : exMultiPlot [.arr ⟨3, 2, 1, fun _ a _ => if a = 0 then 1 / 2 else 1 / 2⟩] ["x"] = none := by
  decide +kernel

/-- the feedback of the continuous example -/
noncomputable def exContFb : ContFeedback :=
  ⟨some (.flt (List.ofFn exCont.action)), some (.flt (List.ofFn exCont.reward)), some (.flt (List.ofFn exCont.pscore))⟩

example : ∃ out, plotContPolicies [ContKind.ipw.plotObj .epanechnikov (.fin 1) "e"] exContFb (.one (.flt (List.ofFn exCont.q))) ["x"]
    [.flt (List.ofFn exCont.evalAction)] false true true = .ok out := by
  obtain ⟨rr, hrr, -, -⟩ := C141_cont_bar_height (C39_ipw_value exCont_valid .epanechnikov one_ne_zero)
  have h : (ContKind.ipw.plotObj .epanechnikov (.fin 1) "e").call (contInput exContFb (.flt (List.ofFn exCont.evalAction))
    (.one (.flt (List.ofFn exCont.q))) "e") = .ok rr := hrr
  have hc : checkContMetaArgs (.flt (List.ofFn exCont.evalAction)) (.one (.flt (List.ofFn exCont.q))) = .ok () := by
    simp only [checkContMetaArgs, List.ofFn_succ, List.ofFn_zero]
    rfl
  have hp : policyColumns (ContKind.ipw.plotObj .epanechnikov (.fin 1) "e") "e"
      (fun x => checkContMetaArgs x (.one (.flt (List.ofFn exCont.q))))
      (fun x => contInput exContFb x (.one (.flt (List.ofFn exCont.q)))) [("x", .flt (List.ofFn exCont.evalAction))] =
      .ok [("x", rr)] := by
    simp only [policyColumns, List.foldlM_cons, List.foldlM_nil, hc, h, py_bind_ok, py_pure]
    rfl
  refine ⟨[("e".toUpper, [("x", rr)])], ?_⟩
  have hr : plotRegister [ContKind.ipw.plotObj .epanechnikov (.fin 1) "e"] =
    [("e", ContKind.ipw.plotObj .epanechnikov (.fin 1) "e")] := rfl
  simp only [plotContPolicies, plotPolicies, hr, List.mapM_cons, List.mapM_nil, List.zip_cons_cons, List.zip_nil_right, hp,
    py_bind_ok, py_pure]
  rfl

end examples

end Obp
