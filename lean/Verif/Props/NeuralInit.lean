import Verif.Model.NeuralInit
import Verif.Props.DatasetInit

set_option linter.unusedSectionVars false

/-!
# Constructors of the neural learners

C134.
-/

namespace Obp
variable {K : Type} [Field K] [LinearOrder K] [IsStrictOrderedRing K]

/-! ### The documented settings -/

/-- The documented names. -/
def Activation.name : Activation → String
  | .identity => "identity" | .logistic => "logistic" | .tanh => "tanh" | .relu => "relu" | .elu => "elu"

/-- The documented names. -/
def Solver.name : Solver → String
  | .sgd => "sgd" | .adagrad => "adagrad" | .adam => "adam"

/-- The documented names. -/
def Objective.name : Objective → String
  | .dm => "dm" | .ipw => "ipw" | .dr => "dr" | .snipw => "snipw" | .ipwOs => "ipw-os" | .ipwSubgauss => "ipw-subgauss"

/-- The documented names. -/
def PgMethod.name : PgMethod → String
  | .dpg => "dpg" | .ipw => "ipw" | .dr => "dr"

/-- A positive integer argument. -/
def PosInt (s : PyScalar K) (n : ℕ) : Prop := s.toInt? = some (n : ℤ) ∧ 1 ≤ n

/-- A `batch_size` argument; `none` is `"auto"`. -/
def BatchOk (a : BatchArg K) : Option ℕ → Prop
  | none => a = .auto
  | some b => ∃ s, a = .val s ∧ PosInt s b

/-- The settings `s` are those given as `a`, and all are in their documented ranges; where the documentation asks for a
float, nan may have been given. -/
structure MlpArgs.Accepts (a : MlpArgs K) (s : MlpSettings K) : Prop where
  hidden : ∃ xs, a.hidden = .tuple xs ∧ List.Forall₂ PosInt xs s.hidden
  activation : a.activation = s.activation.name
  solver : a.solver = s.solver.name
  alpha : s.alpha = a.alpha ∧ (FloatIn 0 none a.alpha ∨ a.alpha = .nan)
  batchSize : BatchOk a.batchSize s.batchSize
  learningRate : s.learningRate = a.learningRate ∧ (FloatPos a.learningRate ∨ a.learningRate = .nan)
  maxIter : a.maxIter.toInt? = some s.maxIter ∧ 1 ≤ s.maxIter
  shuffle : a.shuffle = .bool s.shuffle
  seed : a.seed = .none ∨ ∃ z, a.seed = .int z ∧ 0 ≤ z ∧ z < 2 ^ 32
  tol : s.tol = a.tol ∧ (FloatPos a.tol ∨ a.tol = .nan)
  momentum : s.momentum = a.momentum ∧ (FloatIn 0 (some 1) a.momentum ∨ a.momentum = .nan)
  nesterov : a.nesterov = .bool s.nesterov
  earlyStopping : a.earlyStopping = .bool s.earlyStopping
  fraction : s.fraction = a.fraction ∧ ((∃ x, a.fraction = .flt x ∧ 0 < x ∧ x ≤ 1) ∨ a.fraction = .nan)
  beta1 : s.beta1 = a.beta1 ∧ (FloatIn 0 (some 1) a.beta1 ∨ a.beta1 = .nan)
  beta2 : s.beta2 = a.beta2 ∧ (FloatIn 0 (some 1) a.beta2 ∨ a.beta2 = .nan)
  epsilon : s.epsilon = a.epsilon ∧ (FloatIn 0 none a.epsilon ∨ a.epsilon = .nan)
  nIterNoChange : a.nIterNoChange.toInt? = some s.nIterNoChange ∧ 1 ≤ s.nIterNoChange

/-! ### The checks -/

theorem activation_ok {n : String} {x : Activation} : Activation.ofName n = .ok x ↔ n = x.name := by
  unfold Activation.ofName
  split <;> cases x <;> simp_all [Activation.name]

theorem solver_ok {n : String} {x : Solver} : Solver.ofName n = .ok x ↔ n = x.name := by
  unfold Solver.ofName
  split <;> cases x <;> simp_all [Solver.name]

theorem objective_ok {n : String} {x : Objective} : Objective.ofName n = .ok x ↔ n = x.name := by
  unfold Objective.ofName
  split <;> cases x <;> simp_all [Objective.name]

theorem pgMethod_ok {n : String} {x : PgMethod} : PgMethod.ofName n = .ok x ↔ n = x.name := by
  unfold PgMethod.ofName
  split <;> cases x <;> simp_all [PgMethod.name]

theorem checkPosInt_ok {s : PyScalar K} {n : ℕ} : checkPosInt s = .ok n ↔ PosInt s n := by
  unfold PosInt
  cases s with
  | int z =>
      simp only [checkPosInt, PyScalar.toInt?, Option.some.injEq]
      split
      · simp only [reduceCtorEq, false_iff]
        omega
      · rw [Except.ok.injEq]
        omega
  | bool b =>
      cases b <;> simp [checkPosInt, PyScalar.toInt?]
      · omega
      · omega
  | _ => simp [checkPosInt, PyScalar.toInt?]

theorem checkHidden_ok {a : TupleArg K} {hs : List ℕ} :
    checkHidden a = .ok hs ↔ ∃ xs, a = .tuple xs ∧ List.Forall₂ PosInt xs hs := by
  cases a with
  | tuple xs =>
      simp only [checkHidden, mapM_ok_iff, TupleArg.tuple.injEq, exists_eq_left', checkPosInt_ok]
  | other => simp [checkHidden]

theorem checkBatch_ok {a : BatchArg K} {b : Option ℕ} : checkBatch a = .ok b ↔ BatchOk a b := by
  cases a with
  | auto => cases b <;> simp [checkBatch, BatchOk]
  | val s => cases b <;> simp [checkBatch, BatchOk, py_bind_eq_ok, py_pure, checkPosInt_ok]

theorem checkBool_ok {s : PyScalar K} {b : Bool} : checkBool s = .ok b ↔ s = .bool b := by
  cases s <;> simp [checkBool]

theorem checkFracInit_ok {s y : PyScalar K} :
    checkFracInit s = .ok y ↔ y = s ∧ ((∃ x, s = .flt x ∧ 0 < x ∧ x ≤ 1) ∨ s = .nan) := by
  cases s with
  | flt v =>
      simp only [checkFracInit]
      split
      · grind
      · split <;> grind
  | nan => simp [checkFracInit, eq_comm]
  | _ => simp [checkFracInit]

theorem checkTorchSeed_ok {s : TorchSeed} {u : Unit} :
    checkTorchSeed s = .ok u ↔ s = .none ∨ ∃ z, s = .int z ∧ 0 ≤ z ∧ z < 2 ^ 32 := by
  cases s with
  | int z =>
      simp only [checkTorchSeed]
      split
      · simp
        omega
      · split
        · simp
          omega
        · simp
          omega
  | _ => simp [checkTorchSeed]

theorem checkHyper_ok {a : HyperArg K} {u : Unit} : checkHyper a = .ok u ↔ a ≠ .other := by
  cases a <;> simp [checkHyper]

theorem mlpCheck_ok {a : MlpArgs K} {b : Bool} {hyper : HyperArg K} {s : MlpSettings K} :
    a.check b hyper = .ok s ↔ a.Accepts s ∧ hyper ≠ .other := by
  unfold MlpArgs.check
  simp only [py_bind_eq_ok, checkHidden_ok, solver_ok, checkFloatIn_ok, checkBatch_ok, checkFloatPos_ok, checkIntMin_ok,
    checkBool_ok, checkFracInit_ok, checkHyper_ok, checkTorchSeed_ok, activation_ok, py_pure, Except.ok.injEq,
    exists_const]
  constructor
  · rintro ⟨h, hh, so, hso, al, hal, bs, hbs, lr, hlr, mi, hmi, sh, hsh, t, ht, m, hm, ne, hne, es, hes, fr, hfr, hy1, b1,
      hb1, b2, hb2, ep, hep, ni, hni, hy2, hse, ac, hac, rfl⟩
    refine ⟨⟨hh, hac, hso, hal, hbs, hlr, hmi, hsh, hse, ht, hm, hne, hes, hfr, hb1, hb2, hep, hni⟩, ?_⟩
    cases b
    · simpa using hy2
    · simpa using hy1
  · rintro ⟨⟨hh, hac, hso, hal, hbs, hlr, hmi, hsh, hse, ht, hm, hne, hes, hfr, hb1, hb2, hep, hni⟩, hy⟩
    refine ⟨_, hh, _, hso, _, hal, _, hbs, _, hlr, _, hmi, _, hsh, _, ht, _, hm, _, hne, _, hes, _, hfr, ?_, _,
      hb1, _, hb2, _, hep, _, hni, ?_, hse, _, hac, rfl⟩
    · cases b <;> simp [hy]
    · cases b <;> simp [hy]

/-! ### C134: reward models -/

/-- **C134.** `QFuncEstimator` is constructed exactly from documented settings -- except that nan passes for a float and
that the number of actions is not checked beyond being non-negative. The network leads from the context to one output per
action. -/
theorem C134_q_func_partial (nActions : ℤ) (dim : PyScalar K) (a : MlpArgs K) (c : NetInit K) :
    initQFunc nActions dim a = .ok c ↔ 0 ≤ nActions ∧ PosInt dim c.dimContext ∧ a.Accepts c.settings ∧
      c.layers = layerShapes c.dimContext c.settings.hidden nActions.toNat := by
  unfold initQFunc PosInt
  simp only [py_bind_eq_ok, checkIntMin_ok, mlpCheck_ok, raiseIf_ok_unit, py_pure, Except.ok.injEq]
  constructor
  · rintro ⟨d, ⟨hd, hd1⟩, s, ⟨hs, -⟩, u, hu, rfl⟩
    exact ⟨by simpa using hu, ⟨by simpa [Int.toNat_of_nonneg (by omega : 0 ≤ d)] using hd, by simp; omega⟩, hs, rfl⟩
  · rintro ⟨hn, ⟨hd, hd1⟩, hs, hl⟩
    refine ⟨_, ⟨hd, by exact_mod_cast hd1⟩, _, ⟨hs, by simp⟩, (), by simpa using hn, ?_⟩
    obtain ⟨d, l, s⟩ := c
    simp_all

/-- **C134.** The same for `QFuncEstimatorForContinuousAction`, whose network takes the context and the action. -/
theorem C134_q_func_continuous_partial (dim : PyScalar K) (a : MlpArgs K) (c : NetInit K) :
    initQFuncContinuous dim a = .ok c ↔ PosInt dim c.dimContext ∧ a.Accepts c.settings ∧
      c.layers = layerShapes (c.dimContext + 1) c.settings.hidden 1 := by
  unfold initQFuncContinuous PosInt
  simp only [py_bind_eq_ok, checkIntMin_ok, mlpCheck_ok, py_pure, Except.ok.injEq]
  constructor
  · rintro ⟨d, ⟨hd, hd1⟩, s, ⟨hs, -⟩, rfl⟩
    exact ⟨⟨by simpa [Int.toNat_of_nonneg (by omega : 0 ≤ d)] using hd, by simp; omega⟩, hs, rfl⟩
  · rintro ⟨⟨hd, hd1⟩, hs, hl⟩
    refine ⟨_, ⟨hd, by exact_mod_cast hd1⟩, _, ⟨hs, by simp⟩, ?_⟩
    obtain ⟨d, l, s⟩ := c
    simp_all

/-- The default settings after the checks. -/
def defaultSettings (maxIter : ℤ) : MlpSettings K :=
  ⟨[100], .relu, .adam, .flt (1 / 10 ^ 4), none, .flt (1 / 10 ^ 4), maxIter, true, .flt (1 / 10 ^ 4), .flt (9 / 10), true,
    false, .flt (1 / 10), .flt (9 / 10), .flt (999 / 1000), .flt (1 / 10 ^ 8), 10⟩

theorem default_accepts {m : ℤ} (hm : 1 ≤ m) : (MlpArgs.default m : MlpArgs K).Accepts (defaultSettings m) := by
  constructor
  · exact ⟨_, rfl, .cons ⟨rfl, by norm_num⟩ .nil⟩
  · rfl
  · rfl
  · exact ⟨rfl, .inl (.inl ⟨_, rfl, by positivity, by simp⟩)⟩
  · rfl
  · exact ⟨rfl, .inl (.inl ⟨_, rfl, by positivity⟩)⟩
  · exact ⟨rfl, hm⟩
  · rfl
  · exact .inl rfl
  · exact ⟨rfl, .inl (.inl ⟨_, rfl, by positivity⟩)⟩
  · exact ⟨rfl, .inl (.inl ⟨_, rfl, by positivity, by norm_num⟩)⟩
  · rfl
  · rfl
  · exact ⟨rfl, .inl ⟨_, rfl, by positivity, by norm_num⟩⟩
  · exact ⟨rfl, .inl (.inl ⟨_, rfl, by positivity, by norm_num⟩)⟩
  · exact ⟨rfl, .inl (.inl ⟨_, rfl, by positivity, by norm_num⟩)⟩
  · exact ⟨rfl, .inl (.inl ⟨_, rfl, by positivity, by simp⟩)⟩
  · exact ⟨rfl, by norm_num [defaultSettings]⟩

example : initQFunc (K := ℚ) 4 (.int 3) (MlpArgs.default 200) =
    .ok ⟨3, [(3, 100), (100, 4)], defaultSettings 200⟩ := by
  rw [C134_q_func_partial]
  exact ⟨by norm_num, ⟨rfl, by norm_num⟩, default_accepts (by norm_num), rfl⟩

/-- **C134.** A reward model for zero actions can be constructed, against the documented `n_actions`. -/
theorem C134_q_func_no_actions : ∃ c, initQFunc (K := K) 0 (.int 3) (MlpArgs.default 200) = .ok c ∧
    c.layers = [(3, 100), (100, 0)] :=
  ⟨⟨3, [(3, 100), (100, 0)], defaultSettings 200⟩,
    (C134_q_func_partial ..).2 ⟨le_refl _, ⟨rfl, by norm_num⟩, default_accepts (by norm_num), rfl⟩, rfl⟩

/-! ### C134: `NNPolicyLearner` -/

/-- The `lambda_` in use: checked for the objectives that have one, with the value given in the code as default; ignored
by the others. -/
def LambdaOk (lam : Option (PyScalar K)) : Objective → Option (PyNum K) → Prop
  | .ipwSubgauss, some v =>
      (lam.getD (.flt (1 / 1000))).Denotes v ∧ ((∃ x, v = .fin x ∧ 0 ≤ x ∧ x ≤ 1) ∨ v = .nan)
  | .snipw, some v => (lam.getD (.flt 0)).Denotes v ∧ (v.AtLeast 0 ∨ v = .nan)
  | .ipwOs, some v => (lam.getD (.int 10000)).Denotes v ∧ (v.AtLeast 0 ∨ v = .nan)
  | .dm, none => True
  | .dr, none => True
  | .ipw, none => True
  | _, _ => False

theorem checkNumberUnit_ok {s : PyScalar K} {v : PyNum K} :
    checkNumberUnit s = .ok v ↔ s.Denotes v ∧ ((∃ x, v = .fin x ∧ 0 ≤ x ∧ x ≤ 1) ∨ v = .nan) := by
  unfold checkNumberUnit
  simp only [py_bind_eq_ok, checkNumber_some, raiseIf_ok_unit, py_pure, Except.ok.injEq]
  constructor
  · rintro ⟨w, ⟨h1, h2⟩, u, h3, rfl⟩
    refine ⟨h1, ?_⟩
    cases w <;> simp_all [PyNum.le, PyNum.AtLeast]
  · rintro ⟨h1, h2⟩
    refine ⟨v, ⟨h1, ?_⟩, (), ?_, rfl⟩
    · rcases h2 with ⟨x, rfl, h0, -⟩ | rfl
      · exact .inl h0
      · exact .inr rfl
    · rcases h2 with ⟨x, rfl, h0, h1⟩ | rfl
      · simp [PyNum.le, h1]
      · simp [PyNum.le]

theorem checkObjectiveLambda_ok {obj : Objective} {lam : Option (PyScalar K)} {v : Option (PyNum K)} :
    checkObjectiveLambda obj lam = .ok v ↔ LambdaOk lam obj v := by
  cases obj <;> cases v <;>
    simp [checkObjectiveLambda, LambdaOk, py_bind_eq_ok, py_pure, checkNumberUnit_ok, checkNumber_some]

/-- The settings of the reward model: the defaults, or those of the dict. -/
def HyperArg.Gives (maxIter : ℤ) : HyperArg K → MlpArgs K → Prop
  | .none, a => a = MlpArgs.default maxIter
  | .dict b unknown, a => unknown = false ∧ a = b
  | .other, _ => False

theorem hyperSettings_ok {m : ℤ} {h : HyperArg K} (hh : h ≠ .other) {a : MlpArgs K} :
    hyperSettings m h = .ok a ↔ h.Gives m a := by
  cases h with
  | none => simp [hyperSettings, HyperArg.Gives, eq_comm]
  | dict b u => cases u <;> simp [hyperSettings, HyperArg.Gives, eq_comm]
  | other => exact absurd rfl hh

/-- Only the objectives `"dm"` and `"dr"` have a reward model; it is constructed from the settings of the dict with the
learner's own number of actions and context dimension. -/
def QFuncOk (n d : ℕ) (hyper : HyperArg K) (obj : Objective) (q : Option (NetInit K)) : Prop :=
  if obj = .dm ∨ obj = .dr then
    ∃ a c, hyper.Gives 200 a ∧ q = some c ∧ c.dimContext = d ∧ a.Accepts c.settings ∧
      c.layers = layerShapes d c.settings.hidden n
  else q = none

theorem objectiveQFunc_ok {obj : Objective} {n d : ℕ} (hd : 1 ≤ d) {hyper : HyperArg K} (hh : hyper ≠ .other)
    {q : Option (NetInit K)} : objectiveQFunc obj n d hyper = .ok q ↔ QFuncOk n d hyper obj q := by
  have key : (do
      let a ← hyperSettings 200 hyper
      let q ← initQFunc n (.int d) a
      pure (some q) : Py (Option (NetInit K))) = .ok q ↔
      ∃ a c, hyper.Gives 200 a ∧ q = some c ∧ c.dimContext = d ∧ a.Accepts c.settings ∧
        c.layers = layerShapes d c.settings.hidden n := by
    simp only [py_bind_eq_ok, hyperSettings_ok hh, C134_q_func_partial, py_pure, Except.ok.injEq, PosInt,
      PyScalar.toInt?, Option.some.injEq, Nat.cast_inj, Int.toNat_natCast]
    constructor
    · rintro ⟨a, ha, c, ⟨-, ⟨h1, -⟩, h2, h3⟩, rfl⟩
      exact ⟨a, c, ha, rfl, h1.symm, h2, h1 ▸ h3⟩
    · rintro ⟨a, c, ha, rfl, h1, h2, h3⟩
      exact ⟨a, ha, c, ⟨by positivity, ⟨h1.symm, by omega⟩, h2, h1 ▸ h3⟩, rfl⟩
  cases obj with
  | dm => simpa [objectiveQFunc, QFuncOk] using key
  | dr => simpa [objectiveQFunc, QFuncOk] using key
  | _ => simp [objectiveQFunc, QFuncOk, eq_comm]

/-- **C134.** `NNPolicyLearner` is constructed exactly from documented settings -- except that nan passes for a number. The
network leads from the context to one output per action; the objectives `"dm"` and `"dr"` get a reward model for the same
context and actions. -/
theorem C134_policy_learner_partial (nActions lenList dim : PyScalar K) (objective : String) (lam : Option (PyScalar K))
    (policyReg varReg : PyScalar K) (a : MlpArgs K) (hyper : HyperArg K) (c : NnPolicyInit K) :
    initNnPolicy nActions lenList dim objective lam policyReg varReg a hyper = .ok c ↔
      nActions.toInt? = some (c.nActions : ℤ) ∧ 2 ≤ c.nActions ∧ lenList.toInt? = some (c.lenList : ℤ) ∧ 1 ≤ c.lenList ∧
      c.lenList ≤ c.nActions ∧ PosInt dim c.net.dimContext ∧ objective = c.objective.name ∧
      LambdaOk lam c.objective c.lambda ∧
      (policyReg.Denotes c.policyReg ∧ (c.policyReg.AtLeast 0 ∨ c.policyReg = .nan)) ∧
      (varReg.Denotes c.varReg ∧ (c.varReg.AtLeast 0 ∨ c.varReg = .nan)) ∧
      a.Accepts c.net.settings ∧ c.net.layers = layerShapes c.net.dimContext c.net.settings.hidden c.nActions ∧
      hyper ≠ .other ∧ QFuncOk c.nActions c.net.dimContext hyper c.objective c.qFunc := by
  unfold initNnPolicy
  simp only [py_bind_eq_ok, mkOffline_ok, checkIntMin_ok, objective_ok, checkObjectiveLambda_ok, checkNumber_some,
    mlpCheck_ok, py_pure, Except.ok.injEq, PosInt]
  constructor
  · rintro ⟨oc, ⟨n, m, hn, hm, h2, h1, hle, hcn, hcm⟩, d, ⟨hd, hd1⟩, obj, ho, l, hl, rp, hrp, rv, hrv, s, ⟨hs, hh⟩, q, hq,
      rfl⟩
    obtain ⟨k, rfl⟩ := Int.eq_ofNat_of_zero_le (by omega : 0 ≤ d)
    rw [objectiveQFunc_ok (by exact_mod_cast hd1) hh] at hq
    subst hcn hcm
    exact ⟨hn, by exact_mod_cast h2, hm, by exact_mod_cast h1, by exact_mod_cast hle, ⟨by simpa using hd, by simpa using hd1⟩,
      ho, hl, hrp, hrv, hs, rfl, hh, by simpa using hq⟩
  · obtain ⟨nA, L, obj, l, rp, rv, ⟨d, ly, s⟩, q⟩ := c
    rintro ⟨hn, h2, hm, h1, hle, ⟨hd, hd1⟩, ho, hl, hrp, hrv, hs, hly, hh, hq⟩
    refine ⟨⟨nA, L⟩, ⟨_, _, hn, hm, by exact_mod_cast h2, by exact_mod_cast h1, by exact_mod_cast hle, rfl, rfl⟩, _,
      ⟨hd, by exact_mod_cast hd1⟩, obj, ho, l, hl, rp, hrp, rv, hrv, s, ⟨hs, hh⟩, q,
      (objectiveQFunc_ok hd1 hh).2 hq, ?_⟩
    simp only at hly
    simp [hly]

example : initNnPolicy (K := ℚ) (.int 4) (.int 1) (.int 3) "dr" none (.flt 0) (.int 1) (MlpArgs.default 50) .none =
    .ok ⟨4, 1, .dr, none, .fin 0, .fin 1, ⟨3, [(3, 100), (100, 4)], defaultSettings 50⟩,
      some ⟨3, [(3, 100), (100, 4)], defaultSettings 200⟩⟩ := by
  rw [C134_policy_learner_partial]
  exact ⟨rfl, by norm_num, rfl, le_refl _, by norm_num, ⟨rfl, by norm_num⟩, rfl, trivial,
    ⟨.flt 0, .inl (le_refl (0 : ℚ))⟩, ⟨by simpa using PyScalar.Denotes.int (K := ℚ) 1, .inl (zero_le_one (α := ℚ))⟩,
    default_accepts (by norm_num), rfl, by simp, _, _, rfl, rfl, rfl, default_accepts (by norm_num), rfl⟩

/-- **C134.** Nan passes for the regularisation parameters, against the documentation. -/
theorem C134_nan_accepted : ∃ c, initNnPolicy (K := K) (.int 4) (.int 1) (.int 3) "ipw" none .nan (.flt 0)
    (MlpArgs.default 200) .none = .ok c ∧ c.policyReg = .nan :=
  ⟨⟨4, 1, .ipw, none, .nan, .fin 0, ⟨3, [(3, 100), (100, 4)], defaultSettings 200⟩, none⟩,
    (C134_policy_learner_partial ..).2 ⟨rfl, by norm_num, rfl, le_refl _, by norm_num, ⟨rfl, by norm_num⟩, rfl, trivial,
      ⟨.nan, .inr rfl⟩, ⟨.flt 0, .inl (le_refl (0 : K))⟩, default_accepts (by norm_num), rfl, by simp, by simp [QFuncOk]⟩,
    rfl⟩

/-! ### C134: `ContinuousNNPolicyLearner` -/

/-- A usable bandwidth for the methods that need one. -/
def BandwidthOk (bandwidth : PyScalar K) : PgMethod → Option (PyNum K) → Prop
  | .dpg, h => h = none
  | _, some h => bandwidth.Denotes h ∧ ((∃ x, h = .fin x ∧ 0 < x) ∨ h = .inf ∨ h = .nan)
  | _, none => False

theorem checkPgBandwidth_ok {m : PgMethod} {b : PyScalar K} {h : Option (PyNum K)} :
    checkPgBandwidth m b = .ok h ↔ BandwidthOk b m h := by
  have key : ∀ v : PyNum K, v.le (.fin 0) = false ↔ ((∃ x, v = .fin x ∧ 0 < x) ∨ v = .inf ∨ v = .nan) := by
    intro v
    cases v <;> simp [PyNum.le]
  have main : (do
      let h ← checkNumber none b
      raiseIf (PyNum.le h (.fin 0)) .valueError
      pure (some h) : Py (Option (PyNum K))) = .ok h ↔
      ∃ v, h = some v ∧ b.Denotes v ∧ ((∃ x, v = .fin x ∧ 0 < x) ∨ v = .inf ∨ v = .nan) := by
    simp only [py_bind_eq_ok, checkNumber_none, raiseIf_ok_unit, key, py_pure, Except.ok.injEq, exists_const]
    constructor
    · rintro ⟨v, h1, h2, rfl⟩
      exact ⟨v, rfl, h1, h2⟩
    · rintro ⟨v, rfl, h1, h2⟩
      exact ⟨v, h1, h2, rfl⟩
  cases m with
  | dpg => simp [checkPgBandwidth, BandwidthOk, eq_comm]
  | _ =>
      refine Iff.trans main ?_
      cases h <;> simp [BandwidthOk]

/-- The tuple given as `output_space`. -/
def SpaceOk (space : SpaceArg K) : Option (List (PyNum K)) → Prop
  | none => space = .none
  | some vs => ∃ xs, space = .tuple xs ∧ List.Forall₂ PyScalar.Denotes xs vs

theorem spaceEntry_ok {s : PyScalar K} {v : PyNum K} : spaceEntry s = .ok v ↔ s.Denotes v := by
  rw [← num?_iff]
  unfold spaceEntry
  cases s.num? <;> simp

theorem checkSpace_ok {s : SpaceArg K} {vs : Option (List (PyNum K))} : checkSpace s = .ok vs ↔ SpaceOk s vs := by
  cases s with
  | none => cases vs <;> simp [checkSpace, SpaceOk]
  | other => cases vs <;> simp [checkSpace, SpaceOk]
  | tuple xs =>
      cases vs <;> simp [checkSpace, SpaceOk, py_bind_eq_ok, py_pure, mapM_ok_iff, spaceEntry_ok]

/-- The methods `"dpg"` and `"dr"` have a reward model. -/
def PgQFuncOk (d : ℕ) (hyper : HyperArg K) (m : PgMethod) (q : Option (NetInit K)) : Prop :=
  if m = .ipw then q = none
  else ∃ a c, hyper.Gives 100 a ∧ q = some c ∧ c.dimContext = d ∧ a.Accepts c.settings ∧
    c.layers = layerShapes (d + 1) c.settings.hidden 1

theorem pgQFunc_ok {m : PgMethod} {d : ℕ} (hd : 1 ≤ d) {hyper : HyperArg K} (hh : hyper ≠ .other)
    {q : Option (NetInit K)} : pgQFunc m d hyper = .ok q ↔ PgQFuncOk d hyper m q := by
  have key : (do
      let a ← hyperSettings 100 hyper
      let q ← initQFuncContinuous (.int d) a
      pure (some q) : Py (Option (NetInit K))) = .ok q ↔
      ∃ a c, hyper.Gives 100 a ∧ q = some c ∧ c.dimContext = d ∧ a.Accepts c.settings ∧
        c.layers = layerShapes (d + 1) c.settings.hidden 1 := by
    simp only [py_bind_eq_ok, hyperSettings_ok hh, C134_q_func_continuous_partial, py_pure, Except.ok.injEq, PosInt,
      PyScalar.toInt?, Option.some.injEq, Nat.cast_inj]
    constructor
    · rintro ⟨a, ha, c, ⟨⟨h1, -⟩, h2, h3⟩, rfl⟩
      exact ⟨a, c, ha, rfl, h1.symm, h2, h1 ▸ h3⟩
    · rintro ⟨a, c, ha, rfl, h1, h2, h3⟩
      exact ⟨a, ha, c, ⟨⟨h1.symm, by omega⟩, h2, h1 ▸ h3⟩, rfl⟩
  cases m with
  | ipw => simp [pgQFunc, PgQFuncOk, eq_comm]
  | _ => simpa [pgQFunc, PgQFuncOk] using key

/-- **C134.** `ContinuousNNPolicyLearner` is constructed exactly from a known method, a positive bandwidth where one is
needed, a tuple of numbers (or nothing) as output space and documented training settings -- except that nan passes for a
number, and that the output space may have any length and order. -/
theorem C134_continuous_learner_partial (dim : PyScalar K) (method : String) (bandwidth : PyScalar K) (space : SpaceArg K)
    (a : MlpArgs K) (hyper : HyperArg K) (c : ContPolicyInit K) :
    initContPolicy dim method bandwidth space a hyper = .ok c ↔
      PosInt dim c.net.dimContext ∧ method = c.method.name ∧ BandwidthOk bandwidth c.method c.bandwidth ∧
      SpaceOk space c.space ∧ a.Accepts c.net.settings ∧
      c.net.layers = layerShapes c.net.dimContext c.net.settings.hidden 1 ∧
      hyper ≠ .other ∧ PgQFuncOk c.net.dimContext hyper c.method c.qFunc := by
  unfold initContPolicy
  simp only [py_bind_eq_ok, checkIntMin_ok, pgMethod_ok, checkPgBandwidth_ok, checkSpace_ok, mlpCheck_ok, py_pure,
    Except.ok.injEq, PosInt]
  constructor
  · rintro ⟨d, ⟨hd, hd1⟩, m, hm, h, hb, sp, hsp, s, ⟨hs, hh⟩, q, hq, rfl⟩
    obtain ⟨k, rfl⟩ := Int.eq_ofNat_of_zero_le (by omega : 0 ≤ d)
    rw [pgQFunc_ok (by exact_mod_cast hd1) hh] at hq
    exact ⟨⟨by simpa using hd, by simpa using hd1⟩, hm, hb, hsp, hs, rfl, hh, by simpa using hq⟩
  · obtain ⟨m, h, sp, ⟨d, ly, s⟩, q⟩ := c
    rintro ⟨⟨hd, hd1⟩, hm, hb, hsp, hs, hly, hh, hq⟩
    refine ⟨_, ⟨hd, by exact_mod_cast hd1⟩, m, hm, h, hb, sp, hsp, s, ⟨hs, hh⟩, q, (pgQFunc_ok hd1 hh).2 hq, ?_⟩
    simp only at hly
    simp [hly]

example : initContPolicy (K := ℚ) (.int 3) "ipw" (.flt (1 / 2)) (.tuple [.int (-1), .inf]) (MlpArgs.default 100) .none =
    .ok ⟨.ipw, some (.fin (1 / 2)), some [.fin ((-1 : ℤ) : ℚ), .inf], ⟨3, [(3, 100), (100, 1)], defaultSettings 100⟩, none⟩ := by
  rw [C134_continuous_learner_partial]
  exact ⟨⟨rfl, by norm_num⟩, rfl, ⟨.flt _, .inl ⟨_, rfl, by norm_num⟩⟩,
    ⟨_, rfl, .cons (.int _) (.cons .inf .nil)⟩, default_accepts (by norm_num), rfl, by simp, by simp [PgQFuncOk]⟩

/-- **C134.** An empty or reversed output space is accepted. -/
theorem C134_bad_space_accepted (xs : List (PyScalar K)) (hx : xs = [] ∨ xs = [.int 1, .int 0]) :
    ∃ c, initContPolicy (K := K) (.int 3) "dpg" .other (.tuple xs) (MlpArgs.default 100) .none = .ok c := by
  obtain ⟨vs, hv⟩ : ∃ vs : List (PyNum K), List.Forall₂ PyScalar.Denotes xs vs := by
    rcases hx with rfl | rfl
    · exact ⟨_, .nil⟩
    · exact ⟨_, .cons (.int _) (.cons (.int _) .nil)⟩
  exact ⟨⟨.dpg, none, some vs, ⟨3, [(3, 100), (100, 1)], defaultSettings 100⟩,
      some ⟨3, [(4, 100), (100, 1)], defaultSettings 100⟩⟩,
    (C134_continuous_learner_partial ..).2 ⟨⟨rfl, by norm_num⟩, rfl, rfl, ⟨_, rfl, hv⟩, default_accepts (by norm_num), rfl,
      by simp, _, _, rfl, rfl, rfl, default_accepts (by norm_num), rfl⟩⟩

/-! ### C134: the optimiser -/

/-- **C134.** `fit` can create its optimiser from accepted settings exactly when the settings that it uses are not nan and
moreover, with `"sgd"`, the momentum is positive or Nesterov momentum switched off, and, with `"adam"`, both decay rates
are below one. -/
theorem C134_optimizer_iff {a : MlpArgs K} {s : MlpSettings K} (h : a.Accepts s) :
    s.optimizer = .ok () ↔
      (s.solver = .sgd → s.nesterov = true → s.momentum ≠ .flt 0) ∧
      (s.solver ≠ .sgd → s.learningRate ≠ .nan ∧ s.alpha ≠ .nan ∧ s.epsilon ≠ .nan) ∧
      (s.solver = .adam → (∃ x, s.beta1 = .flt x ∧ x < 1) ∧ ∃ x, s.beta2 = .flt x ∧ x < 1) := by
  obtain ⟨hal, hal'⟩ := h.alpha
  obtain ⟨hlr, hlr'⟩ := h.learningRate
  obtain ⟨hm, hm'⟩ := h.momentum
  obtain ⟨hb1, hb1'⟩ := h.beta1
  obtain ⟨hb2, hb2'⟩ := h.beta2
  obtain ⟨he, he'⟩ := h.epsilon
  rw [← hal] at hal'
  rw [← hlr] at hlr'
  rw [← hm] at hm'
  rw [← hb1] at hb1'
  rw [← hb2] at hb2'
  rw [← he] at he'
  have nn : ∀ {x : PyScalar K}, (FloatIn 0 none x ∨ x = .nan) → (floatNonneg x = true ↔ x ≠ .nan) := by
    rintro x ((⟨v, rfl, h, -⟩ | ⟨rfl, -⟩) | rfl) <;> simp [floatNonneg]
    exact h
  have np : ∀ {x : PyScalar K}, (FloatPos x ∨ x = .nan) → (floatNonneg x = true ↔ x ≠ .nan) := by
    rintro x ((⟨v, rfl, h⟩ | rfl) | rfl) <;> simp [floatNonneg]
    exact h.le
  have ng : ∀ {x : PyScalar K} {hi : Option K}, (FloatIn 0 hi x ∨ x = .nan) → floatNegative x = false := by
    rintro x hi ((⟨v, rfl, h, -⟩ | ⟨rfl, -⟩) | rfl) <;> simp [floatNegative]
    exact h
  have ngp : ∀ {x : PyScalar K}, (FloatPos x ∨ x = .nan) → floatNegative x = false := by
    rintro x ((⟨v, rfl, h⟩ | rfl) | rfl) <;> simp [floatNegative]
    exact h.le
  have bo : ∀ {x : PyScalar K}, (FloatIn 0 (some 1) x ∨ x = .nan) →
      (floatBelowOne x = true ↔ ∃ v, x = .flt v ∧ v < 1) := by
    rintro x ((⟨v, rfl, h, -⟩ | ⟨rfl, h⟩) | rfl) <;> simp [floatBelowOne]
    exact fun _ => h
  have mo : floatNonpos s.momentum = true ↔ s.momentum = .flt 0 := by
    rcases hm' with (⟨v, hv, h, -⟩ | ⟨-, h⟩) | hv
    · rw [hv]
      simp only [floatNonpos, decide_eq_true_eq, PyScalar.flt.injEq]
      exact ⟨fun h' => le_antisymm h' h, fun h' => h'.le⟩
    · cases h
    · rw [hv]
      simp [floatNonpos]
  unfold MlpSettings.optimizer
  rcases hso : s.solver with _ | _ | _
  · simp only [py_bind_eq_ok, raiseIf_ok_unit, ngp hlr', ng hm', ng hal', exists_const, true_and, Bool.and_eq_false_iff]
    simp only [true_implies, ne_eq, not_true_eq_false, false_implies, reduceCtorEq, and_true]
    rw [← mo]
    cases s.nesterov <;> simp
  · simp only [py_bind_eq_ok, raiseIf_ok_unit, exists_const, Bool.not_eq_false', nn hal', np hlr', nn he']
    simp
  · simp only [py_bind_eq_ok, raiseIf_ok_unit, exists_const, Bool.not_eq_false', nn hal', np hlr', nn he', bo hb1', bo hb2']
    simp only [reduceCtorEq, false_implies, ne_eq, not_false_eq_true, true_implies, true_and]
    constructor
    · rintro ⟨h1, h2, h3, h4, h5⟩
      exact ⟨⟨h1, h5, h2⟩, h3, h4⟩
    · rintro ⟨⟨h1, h5, h2⟩, h3, h4⟩
      exact ⟨h1, h2, h3, h4, h5⟩

/-- **C134.** Documented settings for which `fit` cannot create its optimiser: `"sgd"` with `momentum=0.0` and the default
Nesterov momentum, and `"adam"` with `beta_1=1.0`. -/
theorem C134_documented_but_refused :
    (∃ s : MlpSettings K, { (MlpArgs.default 200 : MlpArgs K) with solver := "sgd", momentum := .flt 0 }.Accepts s ∧
      s.optimizer = .error .valueError) ∧
    ∃ s : MlpSettings K, { (MlpArgs.default 200 : MlpArgs K) with beta1 := .flt 1 }.Accepts s ∧
      s.optimizer = .error .valueError := by
  have hd := default_accepts (K := K) (m := 200) (by norm_num)
  have h4 : ¬ (10 : K) ^ 4 < 0 := not_lt.2 (by positivity)
  constructor
  · refine ⟨{ (defaultSettings 200 : MlpSettings K) with solver := .sgd, momentum := .flt 0 },
      { hd with
        solver := rfl
        momentum := ⟨rfl, .inl (.inl ⟨0, rfl, le_refl _, by simp⟩)⟩ }, ?_⟩
    simp [MlpSettings.optimizer, defaultSettings, floatNegative, floatNonpos, raiseIf, py_bind_ok, h4]
  · refine ⟨{ (defaultSettings 200 : MlpSettings K) with beta1 := .flt 1 },
      { hd with beta1 := ⟨rfl, .inl (.inl ⟨1, rfl, by simp, by simp⟩)⟩ }, ?_⟩
    simp [MlpSettings.optimizer, defaultSettings, floatNonneg, floatBelowOne, raiseIf, py_bind_ok, py_bind_error]

/-- **C134.** With `batch_size="auto"` the mini-batches have the smaller of 200 and the number of rounds, not the documented
maximum of the two. -/
theorem C134_auto_batch (n : ℕ) : autoBatch n = min 200 n ∧ (n ≠ 200 → autoBatch n ≠ max 200 n) := by
  refine ⟨rfl, fun h => ?_⟩
  unfold autoBatch
  omega

end Obp
