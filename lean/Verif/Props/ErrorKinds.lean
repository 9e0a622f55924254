import Verif.Props.InputChecks
import Verif.Props.PolicyInit
import Verif.Props.Offline
import Verif.Props.Multi
import Verif.Props.Drifter

/-! # C09, C53, C94, C120, C125, C139: which exception is raised -/

set_option linter.unusedSectionVars false

namespace Obp

section
variable {K : Type} [Field K] [LinearOrder K] [IsStrictOrderedRing K]

/-! ### C09: arrays of different lengths -/

theorem checkOpeInputs_arr {g : OpeArgs K} {x : Arr3 K} (h : checkOpeInputs g = .ok x) :
    checkArray3 g.actionDist = .ok x := by
  simp only [checkOpeInputs, py_bind_eq_ok] at h
  obtain ⟨y, hy, -, -, -, -, -, -, -, -, -, -, -, -, h⟩ := h
  rw [hy, Except.ok.inj h]

theorem positions_length {g : OpeArgs K} {x : Arr3 K} (hx : checkOpeInputs g = .ok x) {pos : List ℤ}
    (hp : positionOrZeros x g.position = .ok pos) : pos.length = x.n := by
  simp only [checkOpeInputs, py_bind_eq_ok, exists_unit, py_pure, Except.ok.injEq] at hx
  obtain ⟨y, -, -, h, -, -, -, -, rfl⟩ := hx
  rw [checkPosition_ok] at h
  rcases h with ⟨h, -⟩ | ⟨xs, h, hl, -⟩
  · rw [h] at hp
    simp only [positionOrZeros, Arg1.isNone, if_true, Except.ok.injEq] at hp
    rw [← hp]; simp
  · rw [h] at hp
    simp only [positionOrZeros, Arg1.isNone, Bool.false_eq_true, if_false, Arg1.ints, Except.ok.injEq] at hp
    rw [← hp, hl]

theorem fancy3_mismatch {x : Arr3 K} {act pos : List ℤ} (hp : pos.length = x.n) (h0 : act ≠ [])
    (h1 : act.length ≠ 1) (hn : act.length ≠ x.n) : fancy3 x (arange act.length) act pos = .error .indexError := by
  have hl : (arange act.length).length = act.length := by simp [arange]
  unfold fancy3
  rw [hl, hp]
  have e1 : bcastLen act.length act.length = some act.length := by simp [bcastLen]
  rw [e1, Option.bind_some]
  by_cases hx : x.n = 1
  · have e2 : bcastLen act.length x.n = some act.length := by
      rw [bcastLen, if_neg hn, if_neg h1, if_pos hx]
    rw [e2]
    have h2 : 2 ≤ act.length := by
      have := List.length_pos_iff.2 h0
      omega
    refine mapM_error_of (fun j _ => ?_) ⟨1, by simp; omega, ?_⟩
    · split
      · exact Or.inl ⟨_, rfl⟩
      · exact Or.inr rfl
    · have : (bget (arange act.length) 1).bind (wrapIdx x.n) = none := by
        have hb : bget (arange act.length) 1 = some 1 := by
          obtain ⟨m, hm⟩ : ∃ m, act.length = m + 2 := ⟨act.length - 2, by omega⟩
          rw [hm]
          simp only [arange, List.range_succ_eq_map, List.map_cons, bget]
          rfl
        rw [hb, Option.bind_some, hx]
        decide
      rw [this]
  · have e2 : bcastLen act.length x.n = none := by
      rw [bcastLen, if_neg hn, if_neg h1, if_neg hx]
    rw [e2]

/-- what an accepted call works on -/
theorem prepare_facts {e : Estimator K} {a : EstArgs K} {r : RoundIn K} (h : e.prepare a = .ok r)
    (hk : e.kind ≠ .dm) {x : Arr3 K} (hx : a.actionDist = .arr x) :
    r.dist = x ∧ r.position.length = x.n ∧ a.action.ints = .ok r.action ∧ r.action ≠ [] := by
  obtain ⟨k, lam, est⟩ := e
  have key : ∀ {g : OpeArgs K} {y : Arr3 K} {pos act : List ℤ}, g.actionDist = a.actionDist →
      g.position = a.position → g.action = a.action → checkArray1 a.action = .ok () →
      checkOpeInputs g = .ok y → positionOrZeros y a.position = .ok pos → a.action.ints = .ok act →
      y = x ∧ pos.length = x.n ∧ act ≠ [] := by
    intro g y pos act g1 g2 g3 hca hy hpos hact
    have hyx := checkOpeInputs_arr hy
    rw [g1, hx] at hyx
    obtain rfl : x = y := Except.ok.inj hyx
    refine ⟨rfl, positions_length hy (by rw [g2]; exact hpos), ?_⟩
    rintro rfl
    simp only [checkOpeInputs, py_bind_eq_ok, exists_unit] at hy
    obtain ⟨_, -, -, -, -, -, hc, -⟩ := hy
    rw [checkActionReward_ok] at hc
    rcases hc with ⟨hc, -⟩ | ⟨k, ⟨xs, hxs, -, hne, -⟩, -⟩
    · rw [g3] at hc; rw [hc] at hca; cases hca
    · rw [g3] at hxs
      rw [hxs] at hact
      exact hne (Except.ok.inj hact)
  cases k <;> simp only [Estimator.prepare] at h
  case dm => exact absurd rfl hk
  case rm =>
    simp only [rmPrepare, py_bind_eq_ok, exists_unit, py_pure, Except.ok.injEq] at h
    obtain ⟨h1, h2, y, h4, pos, h5, act, h6, rfl⟩ := h
    obtain ⟨q1, q2, q3⟩ := key rfl rfl rfl h2 h4 h5 h6
    exact ⟨q1, q2, h6, q3⟩
  case bIpw =>
    simp only [bIpwPrepare, py_bind_eq_ok, exists_unit, py_pure, Except.ok.injEq] at h
    obtain ⟨h1, h2, h3, y, h4, pos, h5, act, h6, rfl⟩ := h
    obtain ⟨q1, q2, q3⟩ := key rfl rfl rfl h2 h4 h5 h6
    exact ⟨q1, q2, h6, q3⟩
  case ipw | snipw | sgIpw =>
    all_goals
      simp only [ipwPrepare, py_bind_eq_ok, exists_unit, py_pure, Except.ok.injEq] at h
      obtain ⟨h1, h2, ps, h3, y, h4, pos, h5, act, h6, rfl⟩ := h
      obtain ⟨q1, q2, q3⟩ := key rfl rfl rfl h2 h4 h5 h6
      exact ⟨q1, q2, h6, q3⟩
  all_goals
    simp only [drPrepare, py_bind_eq_ok, exists_unit, py_pure, Except.ok.injEq] at h
    obtain ⟨q, hq, h1, h2, ps, h3, y, h4, pos, h5, act, h6, rfl⟩ := h
    obtain ⟨q1, q2, q3⟩ := key rfl rfl rfl h2 h4 h5 h6
    exact ⟨q1, q2, h6, q3⟩

/-- **C09, disagreement.** Whenever the validators accept a log whose number of rounds is neither one nor
that of the evaluation policy, the nine classes that look up the logged actions raise IndexError. -/
theorem C09_mismatch_index_error {e : Estimator K} (hk : e.kind ≠ .dm) (hk' : e.kind ≠ .bIpw)
    {a : EstArgs K} {r : RoundIn K} (h : e.prepare a = .ok r) {x : Arr3 K} (hx : a.actionDist = .arr x)
    {xs : List ℤ} (hxs : a.action = .int xs) (h1 : xs.length ≠ 1) (hn : xs.length ≠ x.n) :
    e.estimatePolicyValue a = .error .indexError := by
  obtain ⟨q1, q2, q3, q4⟩ := prepare_facts h hk hx
  rw [hxs] at q3
  obtain rfl : xs = r.action := Except.ok.inj q3
  rw [← q1] at q2 hn
  have hf := fancy3_mismatch q2 q4 h1 hn
  have hiw : iwOf r = .error .indexError := by simp only [iwOf, hf, py_bind_error]
  simp only [Estimator.estimatePolicyValue, h, py_bind_ok]
  obtain ⟨k, lam, est⟩ := e
  cases k <;> first
    | exact absurd rfl hk
    | exact absurd rfl hk'
    | simp only [Estimator.round, rmRound, ipwRound, snipwRound, drRound, sndrRound, switchDrRound,
        drOsRound, sgIpwRound, sgDrRound, hiw, hf, py_bind_error]

/-- a computed success -/
theorem ok_of_isOk {α : Type} {p : Py α} (h : p.isOk = true) : ∃ r, p = .ok r := by
  cases p with
  | ok r => exact ⟨r, rfl⟩
  | error e => cases h

/-- Three logged rounds, a policy of two rounds: accepted by the validators. -/
def exShortDist : EstArgs ℚ :=
  { reward := .flt [1, 0, 2], action := .int [0, 1, 1], pscore := .flt [1 / 2, 1 / 4, 1],
    actionDist := .arr ⟨2, 2, 1, fun _ _ _ => 1 / 2⟩ }

example : (Estimator.mk .snipw .inf false).estimatePolicyValue exShortDist = .error .indexError := by
  obtain ⟨r, hr⟩ := ok_of_isOk (p := (Estimator.mk .snipw .inf false).prepare exShortDist)
    (by decide +kernel)
  exact C09_mismatch_index_error (by decide) (by decide) hr rfl rfl (by decide) (by decide)

/-! ### C53: labels that are not counts -/

/-- **C53.** The weighted classes refuse with ValueError stratum labels that are not one-dimensional, of
another number than the rounds, not integers, or negative, on an otherwise accepted log. -/
theorem C53_bad_labels_value_error {a : MultiArgs K} {x : Arr3 K} (hx : a.actionDist = .arr x) {est : Bool}
    {r : RoundIn K} (lam : Lam K)
    (hs : ¬ ∃ st : List ℤ, a.stratumIdx = .int st ∧ st.length = x.n ∧ st ≠ [] ∧ ∀ s ∈ st, 0 ≤ s) :
    (ipwPrepare est a.single = .ok r →
      (MultiEstimator.mk .weightedIpw lam est).estimatePolicyValue a = .error .valueError) ∧
    (drPrepare est a.single = .ok r →
      (MultiEstimator.mk .weightedDr lam est).estimatePolicyValue a = .error .valueError) := by
  have key : checkArray1 a.stratumIdx = .ok () → checkStratum x a.stratumIdx = .error .valueError := by
    intro hc
    cases hst : a.stratumIdx with
    | int st =>
      simp only [checkStratum, checkArray1, Arg1.shape0, py_bind_ok]
      by_cases hl : x.n = st.length
      · rw [raiseIf_neg (by simp [hl]), py_bind_ok]
        cases st with
        | nil => rfl
        | cons s st =>
          simp only [intNonneg]
          obtain ⟨m, hm, hm', -⟩ := npMin_of_ne (List.cons_ne_nil s st)
          rw [hm, py_bind_ok, py_pure, py_bind_ok]
          rw [raiseIf_pos]
          by_contra hne
          exact hs ⟨s :: st, hst, hl.symm, by simp, (hm' 0).1 (by simpa using hne)⟩
      · rw [raiseIf_pos (by simpa using hl)]; rfl
    | flt st =>
      simp only [checkStratum, checkArray1, Arg1.shape0, py_bind_ok, intNonneg]
      by_cases hl : x.n = st.length
      · rw [raiseIf_neg (by simp [hl])]; rfl
      · rw [raiseIf_pos (by simpa using hl)]; rfl
    | _ => rw [hst] at hc; cases hc
  constructor
  · intro h
    simp only [ipwPrepare, py_bind_eq_ok, exists_unit] at h
    obtain ⟨h1, h2, ps, h3, y, h4, -⟩ := h
    have hyx := checkOpeInputs_arr h4
    change checkArray3 a.actionDist = .ok y at hyx
    rw [hx] at hyx
    obtain rfl : x = y := Except.ok.inj hyx
    have g1 : checkArray1 a.reward = .ok () := h1
    have g2 : checkArray1 a.action = .ok () := h2
    simp only [MultiEstimator.estimatePolicyValue, MultiEstimator.rounds, weightedIpwPrepare, g1, g2, h3,
      py_bind_ok]
    cases hc : checkArray1 a.stratumIdx with
    | error e =>
      have : e = .valueError := by
        cases hst : a.stratumIdx <;> rw [hst] at hc <;> cases hc <;> rfl
      rw [this]; rfl
    | ok u =>
      cases u
      have h4' : checkOpeInputs
        { actionDist := a.actionDist, position := a.position, action := a.action,
          reward := a.reward, pscore := ps } = .ok x := h4
      simp only [py_bind_ok, h4', key hc, py_bind_error]
  · intro h
    simp only [drPrepare, py_bind_eq_ok, exists_unit] at h
    obtain ⟨q, hq, h1, h2, ps, h3, y, h4, -⟩ := h
    have hyx := checkOpeInputs_arr h4
    change checkArray3 a.actionDist = .ok y at hyx
    rw [hx] at hyx
    obtain rfl : x = y := Except.ok.inj hyx
    have g1 : checkArray1 a.reward = .ok () := h1
    have g2 : checkArray1 a.action = .ok () := h2
    have g3 : checkArray3 a.regModel = .ok q := hq
    simp only [MultiEstimator.estimatePolicyValue, MultiEstimator.rounds, weightedDrPrepare, g1, g2, g3, h3,
      py_bind_ok]
    cases hc : checkArray1 a.stratumIdx with
    | error e =>
      have : e = .valueError := by
        cases hst : a.stratumIdx <;> rw [hst] at hc <;> cases hc <;> rfl
      rw [this]; rfl
    | ok u =>
      cases u
      have h4' : checkOpeInputs
        { actionDist := a.actionDist, position := a.position, action := a.action,
          reward := a.reward, pscore := ps, regModel := a.regModel } = .ok x := h4
      simp only [py_bind_ok, h4', key hc, py_bind_error]

example : (MultiEstimator.mk .weightedIpw .inf false).estimatePolicyValue
    { reward := .flt [1, 0, 2], action := .int [0, 1, 1], pscore := .flt [1 / 2, 1 / 4, (1 : ℚ)],
      stratumIdx := .int [0, -1, 0], actionDist := .arr ⟨3, 2, 1, fun _ _ _ => 1 / 2⟩ } =
      .error .valueError := by
  obtain ⟨r, hr⟩ := ok_of_isOk (p := ipwPrepare false (MultiArgs.single
    { reward := .flt [1, 0, 2], action := .int [0, 1, 1], pscore := .flt [1 / 2, 1 / 4, (1 : ℚ)],
      stratumIdx := .int [0, -1, 0], actionDist := .arr ⟨3, 2, 1, fun _ _ _ => 1 / 2⟩ }))
    (by decide +kernel)
  refine (C53_bad_labels_value_error rfl .inf ?_).1 hr
  rintro ⟨st, hst, -, -, h⟩
  cases hst
  exact absurd (h (-1) (by simp)) (by decide)

/-! ### C94: negative scales -/

/-- **C94.** A negative scale anywhere makes the reward-weighted delays raise ValueError, and nothing else does. -/
theorem C94_negative_scale [FloorRing K] (minScale maxScale : K) (expected draws : List (List K)) :
    (∃ row ∈ expected, ∃ e ∈ row, minScale + (1 - e) * (maxScale - minScale) < 0) ↔
      delayWeighted minScale maxScale expected draws = .error .valueError := by
  unfold delayWeighted
  constructor
  · rintro ⟨row, hr, e, he, hlt⟩
    dsimp only
    rw [raiseIf_pos]
    · rfl
    · rw [List.any_eq_true]
      refine ⟨_, List.mem_map.2 ⟨row, hr, rfl⟩, ?_⟩
      rw [List.any_eq_true]
      exact ⟨_, List.mem_map.2 ⟨e, he, rfl⟩, by simpa using hlt⟩
  · intro h
    by_contra hne
    dsimp only at h
    rw [raiseIf_neg] at h
    · cases h
    · rw [List.any_eq_false]
      intro row hrow
      obtain ⟨row, hr, rfl⟩ := List.mem_map.1 hrow
      rw [Bool.not_eq_true, List.any_eq_false]
      intro y hy
      obtain ⟨e, he, rfl⟩ := List.mem_map.1 hy
      simp only [decide_eq_true_eq]
      exact fun hlt => hne ⟨row, hr, e, he, hlt⟩

example : delayWeighted (1 : ℚ) 2 [[1 / 2, 3]] [[0, 0]] = .error .valueError :=
  (C94_negative_scale 1 2 _ _).1 ⟨_, List.mem_singleton.2 rfl, 3, by simp, by norm_num⟩

/-! ### C120: the base model -/

/-- **C120.** With acceptable numbers, a base model that is not a sklearn estimator is a ValueError. -/
theorem C120_not_estimator {n l z : ℤ} (hn : 2 ≤ n) (hl : 1 ≤ l) (ctx : Arg2 K) {m : String}
    (hm : m = "sample" ∨ m = "raw") :
    mkPropensity (K := K) (.int n) (.int l) (.int z) false = .error .valueError ∧
    mkIwe (.int n) (.int l) (.int z) ctx m false = .error .valueError := by
  have e1 : checkIntMin (K := K) 2 (.int n) = .ok n := by
    simp [checkIntMin, not_lt.2 hn]
  have e2 : checkIntMin (K := K) 1 (.int l) = .ok l := by
    simp [checkIntMin, not_lt.2 hl]
  constructor
  · simp only [mkPropensity, e1, e2, checkCalibration, py_bind_ok]; rfl
  · rcases hm with rfl | rfl <;>
      simp only [mkIwe, e1, e2, checkCalibration, IweMethod.ofName, py_bind_ok] <;> rfl

example : mkIwe (.int 3) (.int 2) (.int 0) (.none : Arg2 ℚ) "sample" false = .error .valueError :=
  (C120_not_estimator (by decide) (by decide) (z := 0) .none (Or.inl rfl)).2

/-! ### C139: temperatures -/

/-- **C139.** A negative temperature is a ValueError, something that is not a number a TypeError, for every
method of the offline learners that takes a temperature. -/
theorem C139_temperature {M : Type} {tau : PyScalar K} {err : PyErr}
    (ht : ((∃ z : ℤ, tau = .int z ∧ z < 0) ∨ (∃ t : K, tau = .flt t ∧ t < 0) ∨ tau = .negInf) ∧
      err = .valueError ∨ tau = .other ∧ err = .typeError)
    {y : Arr2 K} (argsort : List K → List ℕ) :
    (∀ (clf : WClassifier M K) (cfg : OfflineConfig) (ms) (noise),
      ipwSampleAction clf cfg ms (.arr y) tau argsort noise = .error err) ∧
    (∀ (lrn : Learner M K) (cfg : RegConfig K) (ms) (noise),
      qLearnerPredict lrn cfg ms (.arr y) tau = .error err ∧
      qLearnerSampleAction lrn cfg ms (.arr y) tau argsort noise = .error err) ∧
    (∀ (A d L : ℕ) (net : List K → Fin A → K) (noise),
      nnSampleAction d L net (.arr y) tau argsort noise = .error err) := by
  have h : checkTau tau = .error err := by
    rcases ht with ⟨⟨z, rfl, hz⟩ | ⟨t, rfl, h⟩ | rfl, rfl⟩ | ⟨rfl, rfl⟩
    · simp [checkTau, hz]
    · simp [checkTau, h]
    · rfl
    · rfl
  refine ⟨fun clf cfg ms noise => ?_, fun lrn cfg ms noise => ⟨?_, ?_⟩, fun A d L net noise => ?_⟩
  · simp only [ipwSampleAction, checkArray2, h, py_bind_ok, py_bind_error]
  · simp only [qLearnerPredict, checkArray2, h, py_bind_ok, py_bind_error]
  · simp only [qLearnerSampleAction, checkArray2, h, py_bind_ok, py_bind_error]
  · simp only [nnSampleAction, checkArray2, h, py_bind_ok, py_bind_error]

end

/-- **C139.** The same for the choice probabilities. -/
theorem C139_temperature_proba {M : Type} {tau : PyScalar ℝ} {err : PyErr}
    (ht : ((∃ z : ℤ, tau = .int z ∧ z < 0) ∨ (∃ t : ℝ, tau = .flt t ∧ t < 0) ∨ tau = .negInf) ∧
      err = .valueError ∨ tau = .other ∧ err = .typeError)
    {y : Arr2 ℝ} :
    (∀ (clf : WClassifier M ℝ) (cfg : OfflineConfig) (ms), cfg.lenList = 1 →
      ipwPredictProba clf cfg ms (.arr y) tau = .error err) ∧
    (∀ (lrn : Learner M ℝ) (cfg : RegConfig ℝ) (ms),
      qLearnerPredictProba lrn cfg ms (.arr y) tau = .error err) := by
  have h : checkTau tau = .error err := by
    rcases ht with ⟨⟨z, rfl, hz⟩ | ⟨t, rfl, h⟩ | rfl, rfl⟩ | ⟨rfl, rfl⟩
    · simp [checkTau, hz]
    · simp [checkTau, h]
    · rfl
    · rfl
  refine ⟨fun clf cfg ms hl => ?_, fun lrn cfg ms => ?_⟩
  · simp only [ipwPredictProba]
    rw [raiseIf_neg (by simp [hl]), py_bind_ok]
    simp only [checkArray2, h, py_bind_ok, py_bind_error]
  · simp only [qLearnerPredictProba, checkArray2, h, py_bind_ok, py_bind_error]

example (net : List ℚ → Fin 3 → ℚ) (argsort noise) :
    nnSampleAction 2 1 net (.arr ⟨1, 2, fun _ _ => 0⟩) (.flt (-1 / 2)) argsort noise = .error .valueError :=
  (C139_temperature (M := Unit) (Or.inl ⟨Or.inr (Or.inl ⟨_, rfl, by norm_num⟩), rfl⟩) argsort).2.2 _ _ _ _ _

/-- **C125.** A logistic policy with a non-positive `alpha_` or `lambda_` is a ValueError. -/
theorem C125_logistic_hyperparameters {R : Type} (ops : Rng R ℝ) {lam alpha : ℝ} (n d : ℕ)
    (h : alpha ≤ 0 ∨ lam ≤ 0) : LogState.init ops lam alpha n d = .error .valueError := by
  unfold LogState.init
  by_cases ha : alpha ≤ 0
  · rw [raiseIf_pos (by simpa using ha)]; rfl
  · rw [raiseIf_neg (by simpa using ha), py_bind_ok, raiseIf_pos (by simpa using h.resolve_left ha)]; rfl

example {R : Type} (ops : Rng R ℝ) : LogState.init ops 1 0 3 2 = .error .valueError :=
  C125_logistic_hyperparameters ops 3 2 (Or.inl le_rfl)

end Obp
