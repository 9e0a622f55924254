import Verif.Model.PolicyInit
import Verif.Props.Constructors
import Verif.Props.Contextual

set_option linter.unusedSectionVars false

/-!
# Constructors of the online policies and of the classifiers' wrappers

C125 (online policies), C120 for `ImportanceWeightEstimator` and `PropensityScoreEstimator`, and the action
counts of the contextual policies (C65, C68).
-/

namespace Obp
variable {K : Type} [Field K] [LinearOrder K] [IsStrictOrderedRing K]

/-! ### The documented settings -/

/-- The documented arguments of every online policy: integers `n_actions >= 2`, `1 <= len_list <= n_actions`,
`batch_size >= 1`; `c` holds them. -/
def ValidBasics (nActions lenList batchSize : PyScalar K) (c : CfConfig) : Prop :=
  ∃ n m k : ℤ, nActions.toInt? = some n ∧ lenList.toInt? = some m ∧ batchSize.toInt? = some k ∧
    2 ≤ n ∧ 1 ≤ m ∧ m ≤ n ∧ 1 ≤ k ∧
    (c.nActions : ℤ) = n ∧ (c.lenList : ℤ) = m ∧ (c.batchSize : ℤ) = k

/-- An integer argument of at least one. -/
def ValidDim (dim : PyScalar K) (d : ℕ) : Prop := dim.toInt? = some (d : ℤ) ∧ 1 ≤ d

/-- A float argument in a range; `none` is no upper bound. -/
def FloatIn (lo : K) (hi : Option K) (x : PyScalar K) : Prop :=
  (∃ v, x = .flt v ∧ lo ≤ v ∧ ∀ h, hi = some h → v ≤ h) ∨ (x = .inf ∧ hi = none)

/-- A float argument greater than zero. -/
def FloatPos (x : PyScalar K) : Prop := (∃ v, x = .flt v ∧ 0 < v) ∨ x = .inf

theorem checkIntIn_ok {lo hi : ℤ} {s : PyScalar K} {z : ℤ} :
    checkIntIn lo hi s = .ok z ↔ s.toInt? = some z ∧ lo ≤ z ∧ z ≤ hi := by
  have key : ∀ w : ℤ, ((if w < lo then .error .valueError else if hi < w then .error .valueError else .ok w : Py ℤ) =
      .ok z ↔ w = z ∧ lo ≤ z ∧ z ≤ hi) := by
    intro w
    split
    · simp only [reduceCtorEq, false_iff]
      rintro ⟨rfl, h, -⟩
      omega
    · split
      · simp only [reduceCtorEq, false_iff]
        rintro ⟨rfl, -, h⟩
        omega
      · simp only [Except.ok.injEq]
        constructor
        · rintro rfl
          omega
        · exact fun h => h.1
  cases s <;> simp only [checkIntIn, PyScalar.toInt?, key, Option.some.injEq, reduceCtorEq, false_and]

theorem checkFloatIn_ok {lo : K} {hi : Option K} {x y : PyScalar K} :
    checkFloatIn lo hi x = .ok y ↔ y = x ∧ (FloatIn lo hi x ∨ x = .nan) := by
  unfold FloatIn
  cases x with
  | flt v =>
      cases hi with
      | none =>
          simp only [checkFloatIn]
          split
          · rename_i h
            simp only [reduceCtorEq, PyScalar.flt.injEq, false_iff, not_and]
            rintro - (⟨⟨w, rfl, h', -⟩ | ⟨h', -⟩⟩ | h') <;> grind
          · grind
      | some h =>
          simp only [checkFloatIn]
          split
          · grind
          · split <;> grind
  | inf => cases hi <;> simp [checkFloatIn, eq_comm]
  | negInf => simp [checkFloatIn]
  | nan => simp [checkFloatIn, eq_comm]
  | bool b => simp [checkFloatIn]
  | int b => simp [checkFloatIn]
  | other => simp [checkFloatIn]

theorem checkFloatPos_ok {x y : PyScalar K} :
    checkFloatPos x = .ok y ↔ y = x ∧ (FloatPos x ∨ x = .nan) := by
  unfold FloatPos
  cases x <;> simp [checkFloatPos, eq_comm]
  grind

/-! ### C125 -/

/-- **C125.** The arguments common to the context-free policies are accepted exactly as documented, and kept. -/
theorem C125_contextfree (a l b : PyScalar K) (c : CfConfig) :
    initContextFree a l b = .ok c ↔ ValidBasics a l b c := by
  unfold initContextFree ValidBasics
  simp only [py_bind_eq_ok, checkIntMin_ok, checkIntIn_ok, py_pure, Except.ok.injEq]
  constructor
  · rintro ⟨n, ⟨h1, h2⟩, m, ⟨h3, h4, h5⟩, k, ⟨h6, h7⟩, rfl⟩
    exact ⟨n, m, k, h1, h3, h6, h2, h4, h5, h7, by simp; omega, by simp; omega, by simp; omega⟩
  · rintro ⟨n, m, k, h1, h3, h6, h2, h4, h5, h7, e1, e2, e3⟩
    obtain ⟨cn, cl, cb⟩ := c
    refine ⟨n, ⟨h1, h2⟩, m, ⟨h3, h4, h5⟩, k, ⟨h6, h7⟩, ?_⟩
    simp only at e1 e2 e3
    subst e1 e2 e3
    simp

/-- **C125.** The contextual policies accept in addition exactly an integer `dim >= 1`. -/
theorem C125_contextual (dim a l b : PyScalar K) (d : ℕ) (c : CfConfig) :
    initContextual dim a l b = .ok (d, c) ↔ ValidDim dim d ∧ ValidBasics a l b c := by
  rw [← C125_contextfree]
  unfold initContextual initContextFree ValidDim
  simp only [py_bind_eq_ok, checkIntMin_ok, checkIntIn_ok, py_pure, Except.ok.injEq, Prod.mk.injEq]
  constructor
  · rintro ⟨z, ⟨h1, h2⟩, n, hn, m, hm, k, hk, rfl, h⟩
    refine ⟨⟨?_, by omega⟩, n, hn, m, hm, k, hk, h⟩
    rw [h1, Int.toNat_of_nonneg (by omega)]
  · rintro ⟨⟨h1, h2⟩, n, hn, m, hm, k, hk, h⟩
    exact ⟨d, ⟨h1, by omega⟩, n, hn, m, hm, k, hk, by simp, h⟩

/-- **C125.** `EpsilonGreedy` and `Random` accept exactly the common arguments with `epsilon` a float in [0, 1] --
or nan, which the documentation excludes. -/
theorem C125_epsilon_greedy_partial (a l b e : PyScalar K) (c : CfConfig) (e' : PyScalar K) :
    initEgreedy a l b e = .ok (c, e') ↔
      e' = e ∧ (FloatIn 0 (some 1) e ∨ e = .nan) ∧ ValidBasics a l b c := by
  unfold initEgreedy
  simp only [py_bind_eq_ok, checkFloatIn_ok, C125_contextfree, py_pure, Except.ok.injEq, Prod.mk.injEq]
  constructor
  · rintro ⟨x, ⟨rfl, h⟩, c', hc, rfl, rfl⟩
    exact ⟨rfl, h, hc⟩
  · rintro ⟨rfl, h, hc⟩
    exact ⟨_, ⟨rfl, h⟩, c, hc, rfl, rfl⟩

/-- **C125.** `BernoulliTS` accepts exactly the common arguments; with `is_zozotown_prior` exactly when a campaign of
the prior file is named as well. The priors are then those of the campaign, and otherwise the given arrays, with ones for
a missing array. -/
theorem C125_bernoulli_ts (priors : String → Option (List K × List K)) (a l b : PyScalar K)
    (alpha beta : Option (List K)) (zozo : Bool) (campaign : Option String) (c : CfConfig) (al be : List K) :
    initBts priors a l b alpha beta zozo campaign = .ok (c, al, be) ↔
      ValidBasics a l b c ∧
      (zozo = true ∧ (∃ name, campaign = some name ∧ priors name = some (al, be)) ∨
       zozo = false ∧ (∀ x, alpha = some x → al = x) ∧ (alpha = none → al = List.replicate c.nActions 1) ∧
         (∀ x, beta = some x → be = x) ∧ (beta = none → be = List.replicate c.nActions 1)) := by
  unfold initBts
  rw [← C125_contextfree]
  cases hc : initContextFree a l b with
  | error e => simp [py_bind_error]
  | ok c' =>
      rw [py_bind_ok]
      cases zozo
      · simp only [Bool.false_eq_true, if_false, py_pure, Except.ok.injEq, Prod.mk.injEq, false_and, false_or,
          true_and]
        cases alpha <;> cases beta <;> simp [eq_comm] <;> grind
      · simp only [if_true, true_and, Bool.true_eq_false, false_and, or_false, Except.ok.injEq]
        cases campaign with
        | none => simp
        | some name =>
            cases hp : priors name with
            | none => simp [hp]
            | some p =>
                obtain ⟨p1, p2⟩ := p
                simp [hp, py_pure]

/-- **C125.** `LinEpsilonGreedy` and `LinUCB` accept exactly the common arguments with `epsilon` a float in [0, 1] and a
float of at least 0 respectively -- or nan, which the documentation excludes; `LinTS` accepts exactly the common
arguments. -/
theorem C125_linear_partial (dim a l b e : PyScalar K) (d : ℕ) (c : CfConfig) (e' : PyScalar K) :
    (initLinEgreedy dim a l b e = .ok (d, c, e') ↔
      e' = e ∧ (FloatIn 0 (some 1) e ∨ e = .nan) ∧ ValidDim dim d ∧ ValidBasics a l b c) ∧
    (initLinUcb dim a l b e = .ok (d, c, e') ↔
      e' = e ∧ (FloatIn 0 none e ∨ e = .nan) ∧ ValidDim dim d ∧ ValidBasics a l b c) ∧
    (initLinTs dim a l b = .ok (d, c) ↔ ValidDim dim d ∧ ValidBasics a l b c) := by
  refine ⟨?_, ?_, C125_contextual _ _ _ _ _ _⟩
  · unfold initLinEgreedy
    simp only [py_bind_eq_ok, checkFloatIn_ok, py_pure, Except.ok.injEq, Prod.mk.injEq, Prod.exists, C125_contextual]
    constructor
    · rintro ⟨x, ⟨rfl, h⟩, d', c', hc, rfl, rfl, rfl⟩
      exact ⟨rfl, h, hc⟩
    · rintro ⟨rfl, h, hc⟩
      exact ⟨_, ⟨rfl, h⟩, d, c, hc, rfl, rfl, rfl⟩
  · unfold initLinUcb
    simp only [py_bind_eq_ok, checkFloatIn_ok, py_pure, Except.ok.injEq, Prod.mk.injEq, Prod.exists, C125_contextual]
    constructor
    · rintro ⟨x, ⟨rfl, h⟩, d', c', hc, rfl, rfl, rfl⟩
      exact ⟨rfl, h, hc⟩
    · rintro ⟨rfl, h, hc⟩
      exact ⟨_, ⟨rfl, h⟩, d, c, hc, rfl, rfl, rfl⟩

/-- **C125.** The logistic policies accept exactly the common arguments with `alpha_` and `lambda_` floats above zero, and
`epsilon` as the linear policies do -- or nan for any of the three, which the documentation excludes. -/
theorem C125_logistic_partial (dim a l b al la e : PyScalar K) (d : ℕ) (c : CfConfig) (al' la' e' : PyScalar K) :
    (initLogistic dim a l b al la = .ok (d, c, al', la') ↔
      ValidDim dim d ∧ ValidBasics a l b c ∧ al' = al ∧ (FloatPos al ∨ al = .nan) ∧
        la' = la ∧ (FloatPos la ∨ la = .nan)) ∧
    (initLogEgreedy dim a l b al la e = .ok (d, c, al', la', e') ↔
      e' = e ∧ (FloatIn 0 (some 1) e ∨ e = .nan) ∧ ValidDim dim d ∧ ValidBasics a l b c ∧
        al' = al ∧ (FloatPos al ∨ al = .nan) ∧ la' = la ∧ (FloatPos la ∨ la = .nan)) ∧
    (initLogUcb dim a l b al la e = .ok (d, c, al', la', e') ↔
      e' = e ∧ (FloatIn 0 none e ∨ e = .nan) ∧ ValidDim dim d ∧ ValidBasics a l b c ∧
        al' = al ∧ (FloatPos al ∨ al = .nan) ∧ la' = la ∧ (FloatPos la ∨ la = .nan)) := by
  have base : ∀ (d : ℕ) (c : CfConfig) (al' la' : PyScalar K),
      initLogistic dim a l b al la = .ok (d, c, al', la') ↔
      ValidDim dim d ∧ ValidBasics a l b c ∧ al' = al ∧ (FloatPos al ∨ al = .nan) ∧
        la' = la ∧ (FloatPos la ∨ la = .nan) := by
    intro d c al' la'
    unfold initLogistic
    simp only [py_bind_eq_ok, checkFloatPos_ok, py_pure, Except.ok.injEq, Prod.mk.injEq, Prod.exists, C125_contextual]
    constructor
    · rintro ⟨d', c', ⟨h1, h2⟩, x, ⟨rfl, h3⟩, y, ⟨rfl, h4⟩, rfl, rfl, rfl, rfl⟩
      exact ⟨h1, h2, rfl, h3, rfl, h4⟩
    · rintro ⟨h1, h2, rfl, h3, rfl, h4⟩
      exact ⟨d, c, ⟨h1, h2⟩, _, ⟨rfl, h3⟩, _, ⟨rfl, h4⟩, rfl, rfl, rfl, rfl⟩
  refine ⟨base _ _ _ _, ?_, ?_⟩
  · unfold initLogEgreedy
    simp only [py_bind_eq_ok, checkFloatIn_ok, py_pure, Except.ok.injEq, Prod.mk.injEq, Prod.exists, base]
    constructor
    · rintro ⟨x, ⟨rfl, h⟩, d', c', y, z, hc, rfl, rfl, rfl, rfl, rfl⟩
      exact ⟨rfl, h, hc⟩
    · rintro ⟨rfl, h, hc⟩
      exact ⟨_, ⟨rfl, h⟩, d, c, _, _, hc, rfl, rfl, rfl, rfl, rfl⟩
  · unfold initLogUcb
    simp only [py_bind_eq_ok, checkFloatIn_ok, py_pure, Except.ok.injEq, Prod.mk.injEq, Prod.exists, base]
    constructor
    · rintro ⟨x, ⟨rfl, h⟩, d', c', y, z, hc, rfl, rfl, rfl, rfl, rfl⟩
      exact ⟨rfl, h, hc⟩
    · rintro ⟨rfl, h, hc⟩
      exact ⟨_, ⟨rfl, h⟩, d, c, _, _, hc, rfl, rfl, rfl, rfl, rfl⟩

/-- **C125, negative part.** The exploration parameter nan is accepted by every policy that has one, and so is nan for
`alpha_` and `lambda_`. -/
theorem C125_nan_accepted {dim a l b : PyScalar K} {d : ℕ} {c : CfConfig} (hd : ValidDim dim d)
    (hc : ValidBasics a l b c) :
    initEgreedy a l b .nan = .ok (c, .nan) ∧ initLinEgreedy dim a l b .nan = .ok (d, c, .nan) ∧
    initLinUcb dim a l b .nan = .ok (d, c, .nan) ∧
    initLogUcb dim a l b .nan .nan .nan = .ok (d, c, .nan, .nan, .nan) :=
  ⟨(C125_epsilon_greedy_partial ..).2 ⟨rfl, Or.inr rfl, hc⟩,
    (C125_linear_partial ..).1.2 ⟨rfl, Or.inr rfl, hd, hc⟩,
    (C125_linear_partial ..).2.1.2 ⟨rfl, Or.inr rfl, hd, hc⟩,
    (C125_logistic_partial ..).2.2.2 ⟨rfl, Or.inr rfl, hd, hc, rfl, Or.inr rfl, rfl, Or.inr rfl⟩⟩

/-- **C125.** Whatever is refused raises TypeError (the argument is of another type) or ValueError (it is out of range). -/
theorem C125_errors (dim a l b al la e : PyScalar K) (err : PyErr) :
    (initEgreedy a l b e = .error err ∨ initLinEgreedy dim a l b e = .error err ∨ initLinUcb dim a l b e = .error err ∨
      initLinTs dim a l b = .error err ∨ initLogistic dim a l b al la = .error err ∨
      initLogEgreedy dim a l b al la e = .error err ∨ initLogUcb dim a l b al la e = .error err) →
    err = .typeError ∨ err = .valueError := by
  have h1 : ∀ (lo : ℤ) (x : PyScalar K) err, checkIntMin lo x = .error err → err = .typeError ∨ err = .valueError := by
    intro lo x err h
    cases x <;> simp only [checkIntMin] at h <;> grind
  have h2 : ∀ (lo hi : ℤ) (x : PyScalar K) err, checkIntIn lo hi x = .error err →
      err = .typeError ∨ err = .valueError := by
    intro lo hi x err h
    cases x <;> simp only [checkIntIn] at h <;> grind
  have h3 : ∀ (lo : K) (hi : Option K) (x : PyScalar K) err, checkFloatIn lo hi x = .error err →
      err = .typeError ∨ err = .valueError := by
    intro lo hi x err h
    cases x <;> cases hi <;> simp only [checkFloatIn] at h <;> grind
  have h4 : ∀ (x : PyScalar K) err, checkFloatPos x = .error err → err = .typeError ∨ err = .valueError := by
    intro x err h
    cases x <;> simp only [checkFloatPos] at h <;> grind
  have bind : ∀ {α β : Type} {x : Py α} {f : α → Py β} {err}, (x >>= f) = .error err →
      x = .error err ∨ ∃ y, x = .ok y ∧ f y = .error err := by
    intro α β x f err h
    cases x with
    | error e => left; simpa [py_bind_error] using h
    | ok y => right; exact ⟨y, rfl, h⟩
  have h5 : ∀ err, initContextFree a l b = .error err → err = .typeError ∨ err = .valueError := by
    intro err h
    unfold initContextFree at h
    rcases bind h with h | ⟨_, -, h⟩
    · exact h1 _ _ _ h
    rcases bind h with h | ⟨_, -, h⟩
    · exact h2 _ _ _ _ h
    rcases bind h with h | ⟨_, -, h⟩
    · exact h1 _ _ _ h
    · cases h
  have h6 : ∀ err, initContextual dim a l b = .error err → err = .typeError ∨ err = .valueError := by
    intro err h
    unfold initContextual at h
    rcases bind h with h | ⟨_, -, h⟩
    · exact h1 _ _ _ h
    rcases bind h with h | ⟨_, -, h⟩
    · exact h1 _ _ _ h
    rcases bind h with h | ⟨_, -, h⟩
    · exact h2 _ _ _ _ h
    rcases bind h with h | ⟨_, -, h⟩
    · exact h1 _ _ _ h
    · cases h
  have h7 : ∀ err, initLogistic dim a l b al la = .error err → err = .typeError ∨ err = .valueError := by
    intro err h
    unfold initLogistic at h
    rcases bind h with h | ⟨_, -, h⟩
    · exact h6 _ h
    rcases bind h with h | ⟨_, -, h⟩
    · exact h4 _ _ h
    rcases bind h with h | ⟨_, -, h⟩
    · exact h4 _ _ h
    · cases h
  rintro (h | h | h | h | h | h | h)
  · rcases bind h with h | ⟨_, -, h⟩
    · exact h3 _ _ _ _ h
    rcases bind h with h | ⟨_, -, h⟩
    · exact h5 _ h
    · cases h
  · rcases bind h with h | ⟨_, -, h⟩
    · exact h3 _ _ _ _ h
    rcases bind h with h | ⟨_, -, h⟩
    · exact h6 _ h
    · cases h
  · rcases bind h with h | ⟨_, -, h⟩
    · exact h3 _ _ _ _ h
    rcases bind h with h | ⟨_, -, h⟩
    · exact h6 _ h
    · cases h
  · exact h6 _ h
  · exact h7 _ h
  · rcases bind h with h | ⟨_, -, h⟩
    · exact h3 _ _ _ _ h
    rcases bind h with h | ⟨_, -, h⟩
    · exact h7 _ h
    · cases h
  · rcases bind h with h | ⟨_, -, h⟩
    · exact h3 _ _ _ _ h
    rcases bind h with h | ⟨_, -, h⟩
    · exact h7 _ h
    · cases h

/-- **C125.** The configurations which the theorems on the policies' behaviour start from (`mkCfConfig`, `mkCtxConfig`)
are those that the constructors build from integer arguments. -/
theorem C125_integer_arguments (dim n L b : ℤ) :
    initContextFree (K := K) (.int n) (.int L) (.int b) = mkCfConfig n L b ∧
    initContextual (K := K) (.int dim) (.int n) (.int L) (.int b) = mkCtxConfig dim n L b := by
  have h : initContextFree (K := K) (.int n) (.int L) (.int b) = mkCfConfig n L b := by
    unfold initContextFree mkCfConfig raiseIf
    simp only [checkIntMin, checkIntIn]
    by_cases h1 : n < 2
    · simp [h1, py_bind_error]
    · by_cases h2 : L < 1
      · simp [h1, h2, py_bind_error, py_bind_ok]
      · by_cases h3 : n < L
        · simp [h1, h2, h3, py_bind_error, py_bind_ok]
        · by_cases h4 : b < 1
          · simp [h1, h2, h3, h4, py_bind_error, py_bind_ok]
          · simp [h1, h2, h3, h4, py_bind_ok]
  refine ⟨h, ?_⟩
  unfold mkCtxConfig
  rw [← h]
  unfold initContextual initContextFree raiseIf
  simp only [checkIntMin]
  by_cases h1 : dim < 1
  · simp [h1, py_bind_error]
  · simp only [h1, if_false, decide_false, Bool.false_eq_true, py_bind_ok]
    simp only [bind, Except.bind, pure, Except.pure]
    grind

example : initEgreedy (K := ℚ) (.int 10) (.bool true) (.int 3) (.flt (1 / 2)) = .ok (⟨10, 1, 3⟩, .flt (1 / 2)) := by
  rw [C125_epsilon_greedy_partial]
  exact ⟨rfl, Or.inl (Or.inl ⟨_, rfl, by norm_num, by rintro h ⟨⟩; norm_num⟩), 10, 1, 3, rfl, rfl, rfl, by norm_num,
    by norm_num, by norm_num, by norm_num, rfl, rfl, rfl⟩

example : initLinUcb (K := ℚ) (.int 2) (.int 2) (.int 2) (.int 1) (.flt 3) = .ok (2, ⟨2, 2, 1⟩, .flt 3) := by
  rw [(C125_linear_partial ..).2.1]
  exact ⟨rfl, Or.inl (Or.inl ⟨_, rfl, by norm_num, by simp⟩), ⟨rfl, by norm_num⟩, 2, 2, 1, rfl, rfl, rfl, by norm_num,
    by norm_num, by norm_num, by norm_num, rfl, rfl, rfl⟩

example : initLogistic (K := ℚ) (.int 1) (.int 3) (.int 1) (.int 5) (.flt 1) (.flt (1 / 3)) =
    .ok (1, ⟨3, 1, 5⟩, .flt 1, .flt (1 / 3)) := by
  rw [(C125_logistic_partial _ _ _ _ _ _ (.flt 0) _ _ _ _ .nan).1]
  exact ⟨⟨rfl, by norm_num⟩, ⟨3, 1, 5, rfl, rfl, rfl, by norm_num, by norm_num, by norm_num, by norm_num, rfl, rfl, rfl⟩,
    rfl, Or.inl (Or.inl ⟨_, rfl, by norm_num⟩), rfl, Or.inl (Or.inl ⟨_, rfl, by norm_num⟩)⟩

example : initBts (K := ℚ) (fun s => if s = "men" then some ([3, 4], [5, 6]) else none) (.int 2) (.int 1) (.int 1) none none
    true (some "men") = .ok (⟨2, 1, 1⟩, [3, 4], [5, 6]) := by
  rw [C125_bernoulli_ts]
  exact ⟨⟨2, 1, 1, rfl, rfl, rfl, by norm_num, by norm_num, by norm_num, by norm_num, rfl, rfl, rfl⟩,
    Or.inl ⟨rfl, "men", rfl, by simp⟩⟩

/-! ### C120: the classifiers' wrappers -/

theorem checkCalibration_ok {s : PyScalar K} {b : Bool} :
    checkCalibration s = .ok b ↔ ∃ z : ℤ, s.toInt? = some z ∧ (b = true ↔ 1 < z) := by
  cases s with
  | bool x => cases x <;> cases b <;> simp [checkCalibration, PyScalar.toInt?]
  | int z => cases b <;> simp [checkCalibration, PyScalar.toInt?]
  | _ => simp [checkCalibration, PyScalar.toInt?]

/-- **C120.** `ImportanceWeightEstimator` accepts exactly integers `n_actions >= 2`, `len_list >= 1`, an integer
`calibration_cv`, the fitting methods "sample" and "raw" and a sklearn estimator; it calibrates iff `calibration_cv > 1`, and
represents the actions by the given `action_context`, by one-hot vectors if there is none or the method is "raw". -/
theorem C120_importance_weights (a l cv : PyScalar K) (ctx : Arg2 K) (s : String) (b cal : Bool) (cfg : IweConfig K) :
    mkIwe a l cv ctx s b = .ok (cfg, cal) ↔ b = true ∧
      ∃ n m z : ℤ, a.toInt? = some n ∧ l.toInt? = some m ∧ cv.toInt? = some z ∧ 2 ≤ n ∧ 1 ≤ m ∧
        (cfg.nActions : ℤ) = n ∧ (cfg.lenList : ℤ) = m ∧ (cal = true ↔ 1 < z) ∧
        (s = "sample" ∧ cfg.method = .sample ∨ s = "raw" ∧ cfg.method = .raw) ∧
        ((ctx = .none ∨ s = "raw") → cfg.actionContext = .arr (eye cfg.nActions)) ∧
        ((ctx ≠ .none ∧ s = "sample") → cfg.actionContext = ctx) := by
  unfold mkIwe
  have hm : ∀ m : IweMethod, IweMethod.ofName s = .ok m ↔ (s = "sample" ∧ m = .sample ∨ s = "raw" ∧ m = .raw) := by
    intro m
    unfold IweMethod.ofName
    split
    · simp [eq_comm]
    · simp [eq_comm]
    · rename_i h1 h2
      simp only [reduceCtorEq, false_iff]
      rintro (⟨h, -⟩ | ⟨h, -⟩)
      · exact h1 h
      · exact h2 h
  simp only [py_bind_eq_ok, checkIntMin_ok, raiseIf_ok_unit, hm, py_pure, Except.ok.injEq, checkCalibration_ok, Prod.mk.injEq]
  constructor
  · rintro ⟨n, ⟨h1, h2⟩, m, ⟨h3, h4⟩, c, ⟨z, h5, h6⟩, fm, h7, u, h8, rfl, rfl⟩
    refine ⟨by simpa using h8, n, m, z, h1, h3, h5, h2, h4, by simp; omega, by simp; omega, h6, h7, ?_, ?_⟩
    · rintro (rfl | rfl)
      · rfl
      · have : fm = .raw := by simpa using h7
        subst this
        cases ctx <;> rfl
    · rintro ⟨hc, rfl⟩
      have : fm = .sample := by simpa using h7
      subst this
      cases ctx <;> first | rfl | exact absurd rfl hc
  · rintro ⟨hb, n, m, z, h1, h3, h5, h2, h4, h6, h7, h8, h9, h10, h11⟩
    obtain ⟨cn, cl, cc, cm⟩ := cfg
    refine ⟨n, ⟨h1, h2⟩, m, ⟨h3, h4⟩, cal, ⟨z, h5, h8⟩, cm, h9, (), by simpa using hb, ?_, rfl⟩
    simp only at h6 h7 h9 h10 h11
    have e1 : n.toNat = cn := by omega
    have e2 : m.toNat = cl := by omega
    subst e1 e2
    rcases h9 with ⟨rfl, rfl⟩ | ⟨rfl, rfl⟩
    · cases ctx <;> simp_all
    · rw [h10 (Or.inr rfl)]
      cases ctx <;> rfl

/-- **C120.** `PropensityScoreEstimator` accepts exactly integers `n_actions >= 2`, `len_list >= 1`, an integer
`calibration_cv` and a sklearn estimator, and calibrates iff `calibration_cv > 1`. -/
theorem C120_propensity (a l cv : PyScalar K) (b cal : Bool) (nA nL : ℕ) :
    mkPropensity a l cv b = .ok (nA, nL, cal) ↔ b = true ∧
      ∃ z : ℤ, a.toInt? = some (nA : ℤ) ∧ l.toInt? = some (nL : ℤ) ∧ cv.toInt? = some z ∧ 2 ≤ nA ∧ 1 ≤ nL ∧
        (cal = true ↔ 1 < z) := by
  unfold mkPropensity
  simp only [py_bind_eq_ok, checkIntMin_ok, raiseIf_ok_unit, py_pure, Except.ok.injEq, checkCalibration_ok, Prod.mk.injEq]
  constructor
  · rintro ⟨n, ⟨h1, h2⟩, m, ⟨h3, h4⟩, c, ⟨z, h5, h6⟩, u, h8, rfl, rfl, rfl⟩
    refine ⟨by simpa using h8, z, ?_, ?_, h5, by omega, by omega, h6⟩
    · rw [h1, Int.toNat_of_nonneg (by omega)]
    · rw [h3, Int.toNat_of_nonneg (by omega)]
  · rintro ⟨hb, z, h1, h3, h5, h2, h4, h6⟩
    exact ⟨nA, ⟨h1, by omega⟩, nL, ⟨h3, by omega⟩, cal, ⟨z, h5, h6⟩, (), by simpa using hb, by simp, by simp, rfl⟩

example : mkPropensity (K := ℚ) (.int 3) (.int 1) (.int 2) true = .ok (3, 1, true) := by
  rw [C120_propensity]
  exact ⟨rfl, 2, rfl, rfl, rfl, by norm_num, by norm_num, by simp⟩

example : mkIwe (K := ℚ) (.int 3) (.int 1) (.int 1) .none "sample" true =
    .ok (⟨3, 1, .arr (eye 3), .sample⟩, false) := by
  rw [C120_importance_weights]
  exact ⟨rfl, 3, 1, 1, rfl, rfl, rfl, by norm_num, by norm_num, rfl, rfl, by simp, Or.inl ⟨rfl, rfl⟩, fun _ => rfl,
    fun h => absurd rfl h.1⟩

/-! ### Action counts of the contextual policies -/

section
variable {R : Type} {d : ℕ}

/-- The number of observations of an action. -/
def observedTimes {n : ℕ} (h : List (ℤ × (Fin d → ℝ) × ℝ)) (a : Fin n) : ℕ :=
  (h.filter fun p => Names p.1 a).length

theorem observedTimes_append {n : ℕ} (h : List (ℤ × (Fin d → ℝ) × ℝ)) (p : ℤ × (Fin d → ℝ) × ℝ) (a : Fin n) :
    observedTimes (h ++ [p]) a = observedTimes h a + if Names p.1 a then 1 else 0 := by
  by_cases hp : Names p.1 a <;> simp [observedTimes, hp]

/-- **C65.** The linear policies count every observation of an action once, immediately (not only at the end of a
batch). -/
theorem C65_action_counts (ops : GaussRng R) (argsort : List ℝ → List ℕ) (cfg : CfConfig) (c : LinClass)
    (calls : List (CtxCall d)) (hreset : CtxCall.reset ∉ calls)
    (hz : ∀ p ∈ ctxObservations calls, -(cfg.nActions : ℤ) ≤ p.1 ∧ p.1 < cfg.nActions) :
    (c.run ops argsort cfg d calls).nTrial = (ctxObservations calls).length ∧
      ∀ a, (c.run ops argsort cfg d calls).actionCounts a = observedTimes (ctxObservations calls) a := by
  refine ⟨(linInv_run ops argsort cfg c calls hreset hz).nTrial, ?_⟩
  induction calls using List.reverseRecOn with
  | nil => exact fun a => rfl
  | append_singleton calls call ih =>
    have hobs : ctxObservations (calls ++ [call]) = ctxObservations calls ++ ctxObservations [call] := by
      simp only [ctxObservations, List.filterMap_append]
    have hrun : c.run ops argsort cfg d (calls ++ [call]) =
        c.step ops argsort cfg (c.run ops argsort cfg d calls) call := by
      simp only [LinClass.run, List.foldl_append, List.foldl_cons, List.foldl_nil]
    rw [hrun, hobs]
    rw [hobs] at hz
    have ih := ih (fun h => hreset (List.mem_append_left _ h)) fun p hp => hz p (List.mem_append_left _ hp)
    cases call with
    | reset => exact absurd (by simp) hreset
    | update z r x =>
      have ho : ctxObservations [CtxCall.update z r x] = [(z, x, r)] := rfl
      rw [ho] at hz ⊢
      obtain ⟨h1, h2⟩ := hz (z, x, r) (by simp)
      obtain ⟨a, ha⟩ := wrapIdx_isSome h1 h2
      have hn := wrapIdx_names ha
      have hc : (c.step ops argsort cfg (c.run ops argsort cfg d calls) (.update z r x)).actionCounts =
          Function.update (c.run ops argsort cfg d calls).actionCounts a
            ((c.run ops argsort cfg d calls).actionCounts a + 1) := by
        simp only [LinClass.step, LinState.updateParams, ha]
        split
        · rfl
        · split <;> rfl
      intro a'
      rw [hc, observedTimes_append, ← ih]
      by_cases e : a' = a
      · subst e
        simp [hn]
      · have : ¬ Names z a' := fun h => e (Names.unique h hn)
        simp [this, e]
    | select rows =>
      have ho : ctxObservations [CtxCall.select rows] = [] := rfl
      obtain ⟨r, t, hr⟩ := linSelect_state ops argsort cfg.lenList c (c.run ops argsort cfg d calls) rows
      rw [ho, List.append_nil]
      show ∀ a, (c.select ops argsort cfg.lenList _ rows).2.actionCounts a = _
      rw [hr]
      exact ih

/-- **C68.** The logistic policies count every observation of an action once, immediately (not only at the end of a
batch). -/
theorem C68_action_counts (ops : GaussRng R) (argsort : List ℝ → List ℕ) (minimize : Minimizer d)
    {cfg : CfConfig} (c : LogClass) {lam alpha : ℝ}
    {s : LogState R cfg.nActions d} (hs : LogState.init ops.toRng lam alpha cfg.nActions d = .ok s)
    (calls : List (CtxCall d)) (hreset : CtxCall.reset ∉ calls)
    (hz : ∀ p ∈ ctxObservations calls, -(cfg.nActions : ℤ) ≤ p.1 ∧ p.1 < cfg.nActions) :
    ∀ a, (c.run ops argsort minimize cfg s calls).actionCounts a = observedTimes (ctxObservations calls) a := by
  induction calls using List.reverseRecOn with
  | nil =>
    simp only [LogState.init, py_bind_eq_ok] at hs
    obtain ⟨-, -, -, -, hs⟩ := hs
    obtain rfl := Except.ok.inj hs
    exact fun a => rfl
  | append_singleton calls call ih =>
    have hobs : ctxObservations (calls ++ [call]) = ctxObservations calls ++ ctxObservations [call] := by
      simp only [ctxObservations, List.filterMap_append]
    have hrun : c.run ops argsort minimize cfg s (calls ++ [call]) =
        c.step ops argsort minimize cfg (c.run ops argsort minimize cfg s calls) call := by
      simp only [LogClass.run, List.foldl_append, List.foldl_cons, List.foldl_nil]
    rw [hrun, hobs]
    rw [hobs] at hz
    have ih := ih (fun h => hreset (List.mem_append_left _ h)) fun p hp => hz p (List.mem_append_left _ hp)
    cases call with
    | reset => exact absurd (by simp) hreset
    | update z r x =>
      have ho : ctxObservations [CtxCall.update z r x] = [(z, x, r)] := rfl
      rw [ho] at hz ⊢
      obtain ⟨h1, h2⟩ := hz (z, x, r) (by simp)
      obtain ⟨a, ha⟩ := wrapIdx_isSome h1 h2
      have hn := wrapIdx_names ha
      have hc : (c.step ops argsort minimize cfg (c.run ops argsort minimize cfg s calls) (.update z r x)).actionCounts =
          Function.update (c.run ops argsort minimize cfg s calls).actionCounts a
            ((c.run ops argsort minimize cfg s calls).actionCounts a + 1) := by
        simp only [LogClass.step, LogState.updateParams, ha]
        split <;> rfl
      intro a'
      rw [hc, observedTimes_append, ← ih]
      by_cases e : a' = a
      · subst e
        simp [hn]
      · have : ¬ Names z a' := fun h => e (Names.unique h hn)
        simp [this, e]
    | select rows =>
      have ho : ctxObservations [CtxCall.select rows] = [] := rfl
      rw [ho, List.append_nil]
      have : (c.step ops argsort minimize cfg (c.run ops argsort minimize cfg s calls) (.select rows)).actionCounts =
          (c.run ops argsort minimize cfg s calls).actionCounts := by
        cases c with
        | egreedy e =>
          simp only [LogClass.step, LogClass.select, logEgreedySelect]
          split <;> rfl
        | ucb e =>
          simp only [LogClass.step, LogClass.select, logUcbSelect]
          split <;> rfl
        | ts => rfl
      rw [this]
      exact ih

/-- **C67.** What `initialize` does restart in the linear policies: the random generator, the number of trials and the counts of
actions, which from then on are those of the observations after the last reset. -/
theorem C67_linear_restarts_partial (ops : GaussRng R) (argsort : List ℝ → List ℕ) (cfg : CfConfig) (c : LinClass)
    (before after : List (CtxCall d)) (hreset : CtxCall.reset ∉ after)
    (hz : ∀ p ∈ ctxObservations after, -(cfg.nActions : ℤ) ≤ p.1 ∧ p.1 < cfg.nActions) :
    (c.run ops argsort cfg d (before ++ [.reset])).rng = ops.seeded ∧
    (c.run ops argsort cfg d (before ++ .reset :: after)).nTrial = (ctxObservations after).length ∧
      ∀ a, (c.run ops argsort cfg d (before ++ .reset :: after)).actionCounts a =
        observedTimes (ctxObservations after) a := by
  refine ⟨by simp only [LinClass.run, List.foldl_append, List.foldl_cons, List.foldl_nil]; rfl, ?_⟩
  induction after using List.reverseRecOn with
  | nil =>
    simp only [LinClass.run, List.foldl_append, List.foldl_cons, List.foldl_nil]
    exact ⟨rfl, fun a => rfl⟩
  | append_singleton calls call ih =>
    have hobs : ctxObservations (calls ++ [call]) = ctxObservations calls ++ ctxObservations [call] := by
      simp only [ctxObservations, List.filterMap_append]
    have hrun : c.run ops argsort cfg d (before ++ .reset :: (calls ++ [call])) =
        c.step ops argsort cfg (c.run ops argsort cfg d (before ++ .reset :: calls)) call := by
      simp only [LinClass.run, List.foldl_append, List.foldl_cons, List.foldl_nil]
    rw [hrun, hobs]
    rw [hobs] at hz
    have ih := ih (fun h => hreset (List.mem_append_left _ h)) fun p hp => hz p (List.mem_append_left _ hp)
    cases call with
    | reset => exact absurd (by simp) hreset
    | update z r x =>
      have ho : ctxObservations [CtxCall.update z r x] = [(z, x, r)] := rfl
      rw [ho] at hz ⊢
      obtain ⟨h1, h2⟩ := hz (z, x, r) (by simp)
      obtain ⟨a, ha⟩ := wrapIdx_isSome h1 h2
      have hn := wrapIdx_names ha
      generalize c.run ops argsort cfg d (before ++ .reset :: calls) = s at ih ⊢
      have hc : (c.step ops argsort cfg s (.update z r x)).actionCounts =
          Function.update s.actionCounts a (s.actionCounts a + 1) ∧
          (c.step ops argsort cfg s (.update z r x)).nTrial = s.nTrial + 1 := by
        simp only [LinClass.step, LinState.updateParams, ha]
        split
        · exact ⟨rfl, rfl⟩
        · split <;> exact ⟨rfl, rfl⟩
      refine ⟨by rw [hc.2, ih.1]; simp, fun a' => ?_⟩
      rw [hc.1, observedTimes_append, ← ih.2]
      by_cases e : a' = a
      · subst e
        simp [hn]
      · have : ¬ Names z a' := fun h => e (Names.unique h hn)
        simp [this, e]
    | select rows =>
      have ho : ctxObservations [CtxCall.select rows] = [] := rfl
      obtain ⟨r, t, hr⟩ := linSelect_state ops argsort cfg.lenList c (c.run ops argsort cfg d (before ++ .reset :: calls)) rows
      rw [ho, List.append_nil]
      show (c.select ops argsort cfg.lenList _ rows).2.nTrial = _ ∧
        ∀ a, (c.select ops argsort cfg.lenList _ rows).2.actionCounts a = _
      rw [hr]
      exact ih

/-- **C67.** What `initialize` does restart in the logistic policies: the random generator, the observations waiting for the end
of the batch, the number of trials and the counts of actions. -/
theorem C67_logistic_restarts_partial (ops : GaussRng R) (argsort : List ℝ → List ℕ) (minimize : Minimizer d)
    {cfg : CfConfig} (c : LogClass) (s : LogState R cfg.nActions d) (before after : List (CtxCall d))
    (hreset : CtxCall.reset ∉ after)
    (hz : ∀ p ∈ ctxObservations after, -(cfg.nActions : ℤ) ≤ p.1 ∧ p.1 < cfg.nActions) :
    (c.run ops argsort minimize cfg s (before ++ [.reset])).rng = ops.seeded ∧
    (∀ a, (c.run ops argsort minimize cfg s (before ++ [.reset])).pending a = []) ∧
    (c.run ops argsort minimize cfg s (before ++ .reset :: after)).nTrial = (ctxObservations after).length ∧
      ∀ a, (c.run ops argsort minimize cfg s (before ++ .reset :: after)).actionCounts a =
        observedTimes (ctxObservations after) a := by
  refine ⟨by simp only [LogClass.run, List.foldl_append, List.foldl_cons, List.foldl_nil]; rfl,
    fun a => by simp only [LogClass.run, List.foldl_append, List.foldl_cons, List.foldl_nil]; rfl, ?_⟩
  induction after using List.reverseRecOn with
  | nil =>
    simp only [LogClass.run, List.foldl_append, List.foldl_cons, List.foldl_nil]
    exact ⟨rfl, fun a => rfl⟩
  | append_singleton calls call ih =>
    have hobs : ctxObservations (calls ++ [call]) = ctxObservations calls ++ ctxObservations [call] := by
      simp only [ctxObservations, List.filterMap_append]
    have hrun : c.run ops argsort minimize cfg s (before ++ .reset :: (calls ++ [call])) =
        c.step ops argsort minimize cfg (c.run ops argsort minimize cfg s (before ++ .reset :: calls)) call := by
      simp only [LogClass.run, List.foldl_append, List.foldl_cons, List.foldl_nil]
    rw [hrun, hobs]
    rw [hobs] at hz
    have ih := ih (fun h => hreset (List.mem_append_left _ h)) fun p hp => hz p (List.mem_append_left _ hp)
    generalize c.run ops argsort minimize cfg s (before ++ .reset :: calls) = t at ih ⊢
    cases call with
    | reset => exact absurd (by simp) hreset
    | update z r x =>
      have ho : ctxObservations [CtxCall.update z r x] = [(z, x, r)] := rfl
      rw [ho] at hz ⊢
      obtain ⟨h1, h2⟩ := hz (z, x, r) (by simp)
      obtain ⟨a, ha⟩ := wrapIdx_isSome h1 h2
      have hn := wrapIdx_names ha
      have hc : (c.step ops argsort minimize cfg t (.update z r x)).actionCounts =
          Function.update t.actionCounts a (t.actionCounts a + 1) ∧
          (c.step ops argsort minimize cfg t (.update z r x)).nTrial = t.nTrial + 1 := by
        simp only [LogClass.step, LogState.updateParams, ha]
        split <;> exact ⟨rfl, rfl⟩
      refine ⟨by rw [hc.2, ih.1]; simp, fun a' => ?_⟩
      rw [hc.1, observedTimes_append, ← ih.2]
      by_cases e : a' = a
      · subst e
        simp [hn]
      · have : ¬ Names z a' := fun h => e (Names.unique h hn)
        simp [this, e]
    | select rows =>
      have ho : ctxObservations [CtxCall.select rows] = [] := rfl
      rw [ho, List.append_nil]
      have : (c.step ops argsort minimize cfg t (.select rows)).actionCounts = t.actionCounts ∧
          (c.step ops argsort minimize cfg t (.select rows)).nTrial = t.nTrial := by
        cases c with
        | egreedy e =>
          simp only [LogClass.step, LogClass.select, logEgreedySelect]
          split <;> exact ⟨rfl, rfl⟩
        | ucb e =>
          simp only [LogClass.step, LogClass.select, logUcbSelect]
          split <;> exact ⟨rfl, rfl⟩
        | ts => exact ⟨rfl, rfl⟩
      rw [this.1, this.2]
      exact ih

example (ops : GaussRng R) (argsort : List ℝ → List ℕ) :
    ((LinClass.egreedy 0).run ops argsort ⟨2, 1, 3⟩ 1
      [.update 1 1 (fun _ => 2), .reset, .update 0 1 (fun _ => 2), .update (-2) 0 (fun _ => 3)]).actionCounts 0 = 2 := by
  refine ((C67_linear_restarts_partial (d := 1) ops argsort ⟨2, 1, 3⟩ (.egreedy 0) [.update 1 1 (fun _ => 2)]
    [.update 0 1 (fun _ => 2), .update (-2) 0 (fun _ => 3)] (by simp) (by simp [ctxObservations])).2.2 0).trans ?_
  simp [observedTimes, ctxObservations, Names]

example : observedTimes (d := 1) (n := 2) [(0, fun _ => 1, 1), (-1, fun _ => 2, 0), (1, fun _ => 3, 1)] 1 = 2 := by
  simp [observedTimes, Names]

end

end Obp
