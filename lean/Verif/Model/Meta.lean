import Verif.Model.Tuning
import Verif.Model.Embed
import Verif.Model.Multi
import Verif.Model.Slate
import Verif.Model.Continuous

/-!
# Model of the front ends `obp/ope/meta.py`, `meta_multi.py`, `meta_continuous.py`, `meta_slate.py`

The front ends call the methods of the estimator objects they are given. An object is represented
by its name, whether it passes the `isinstance` test of `__post_init__`, and its two methods.
The plots are in `Model/Reports.lean`.
-/

namespace Obp

variable {K : Type} [Field K] [LinearOrder K]

/-- An estimator object as the front end sees it: `estimator_name`, the outcome of the `isinstance`
test in `__post_init__` (`obp/ope/meta.py:99`, `meta_multi.py:108-113`, `meta_continuous.py:110`,
`meta_slate.py:133`), and the methods `estimate_policy_value` and `estimate_interval` as functions of
the keyword arguments. Simplified: changes of the object's own state during the call are not
followed (an object is called once per call of the front end). -/
structure OpeObj (I K : Type) where
  name : String
  flagged : Bool
  value : I → Py K
  interval : I → CiArgs K → List (List ℕ) → Py (CiOut K)

/-- `d[k] = v` on a dict, kept as the list of its items in insertion order. -/
def dictSet {V : Type} (d : List (String × V)) (k : String) (v : V) : List (String × V) :=
  match d with
  | [] => [(k, v)]
  | (k', v') :: rest => if k' = k then (k, v) :: rest else (k', v') :: dictSet rest k v

/-- `d[k]` or `None` (`obp/ope/meta.py:232-237`); keys of a Python dict are distinct. -/
def dictGet {V : Type} (d : List (String × V)) (k : String) : Option V :=
  match d with
  | [] => none
  | (k', v') :: rest => if k' = k then some v' else dictGet rest k

/-- `self.ope_estimators_[estimator.estimator_name] = estimator` over the given list
(`obp/ope/meta.py:95-98`, `meta_multi.py:104-107`, `meta_continuous.py:106-109`,
`meta_slate.py:129-132`). -/
def register {I : Type} (ests : List (OpeObj I K)) : List (String × OpeObj I K) :=
  ests.foldl (fun d e => dictSet d e.name e) []

/-- The loop over `self.ope_estimators_.items()` that fills the result dict
(`obp/ope/meta.py:316-320`, `meta_multi.py:252-256`, `meta_continuous.py:217-222`,
`meta_slate.py:237-242`). The keys are distinct, so every assignment appends. -/
def collect {I V : Type} (reg : List (String × OpeObj I K)) (f : String → OpeObj I K → Py V) :
    Py (List (String × V)) :=
  reg.mapM fun p => do
    let v ← f p.1 p.2
    pure (p.1, v)

/-- The metric of one estimate (`obp/ope/meta.py:768-774`, `meta_multi.py:609-615`,
`meta_slate.py:603-609`); `metric` has been checked and the ground truth is a float. -/
def metricOf (metric : String) (gt : PyScalar K) (v : K) : Py K :=
  match gt with
  | .flt g =>
    if metric = "relative-ee" then do
      let r ← npDiv (v - g) g
      pure |r|
    else .ok ((v - g) ^ 2)
  | _ => .error .nonFinite

/-- The checks of `evaluate_performance_of_estimators` (`obp/ope/meta.py:740-752`,
`meta_multi.py:584-596`, `meta_slate.py:583-591`); `check_scalar(x, name, float)` accepts floats
only. -/
def checkMetric (metric : String) (gt : PyScalar K) : Py Unit :=
  match gt with
  | .flt g => do
    raiseIf (¬ (metric = "relative-ee" ∨ metric = "se")) .valueError
    raiseIf (metric = "relative-ee" ∧ g = 0) .valueError
  | .inf | .negInf | .nan => raiseIf (¬ (metric = "relative-ee" ∨ metric = "se")) .valueError
  | _ => .error .typeError

/-- The column `relative_estimated_policy_value` (`obp/ope/meta.py:519-529`,
`meta_multi.py:406-416`, `meta_slate.py:392-405`) for one estimate; `none` stands for nan. -/
def relativeValue (onPolicy v : K) : Option K :=
  if onPolicy ≤ 0 then none else some (v / onPolicy)

/-! ### `OffPolicyEvaluation` -/

/-- `bandit_feedback`: `none` where the key is missing. -/
structure Feedback (K : Type) where
  action : Option (Arg1 K)
  position : Option (Arg1 K)
  reward : Option (Arg1 K)
  context : Option (Arg2 K)
  pscore : Option (Arg1 K)

/-- The keyword arguments passed to an estimator (`obp/ope/meta.py:192-220`). -/
structure MetaIn (K : Type) where
  action : Arg1 K
  position : Arg1 K
  reward : Arg1 K
  context : Arg2 K
  pscore : Arg1 K
  actionDist : Arg3 K
  regModel : Arg3 K
  estimatedPscore : Arg1 K
  estIw : Arg1 K
  embed : Arg2 ℤ
  piB : Arg3 K
  pEA : Arg3 K

/-- An argument that may be an array (or `None`), or a dict from estimator names to arrays. -/
inductive ArrOrDict (α : Type)
  | one (a : α)
  | dict (d : List (String × α))

/-- The arguments of `estimate_policy_values` (`obp/ope/meta.py:242-255`). -/
structure MetaArgs (K : Type) where
  actionDist : Arg3 K
  regModel : ArrOrDict (Arg3 K) := .one .none
  estimatedPscore : ArrOrDict (Arg1 K) := .one .none
  estIw : ArrOrDict (Arg1 K) := .one .none
  embed : ArrOrDict (Arg2 ℤ) := .one .none
  piB : ArrOrDict (Arg3 K) := .one .none
  pEA : ArrOrDict (Arg3 K) := .one .none

/-- The object after `__post_init__`. -/
structure Ope (I K : Type) where
  registered : List (String × OpeObj I K)
  flag : Bool

/-- `__post_init__` (`obp/ope/meta.py:90-100`). -/
def mkOpe (fb : Feedback K) (ests : List (OpeObj (MetaIn K) K)) : Py (Ope (MetaIn K) K) := do
  raiseIf (fb.action.isNone || fb.position.isNone || fb.reward.isNone || fb.context.isNone)
    .runtimeError
  pure ⟨register ests, ests.any (·.flagged)⟩

/-- `check_array(value, ...)` and the comparison of shapes for one regression model
(`obp/ope/meta.py:122-130, 132-140`); returns `value.shape[0]`. -/
def checkModel3 (x : Arr3 K) (a : Arg3 K) : Py ℕ := do
  let q ← checkArray3 a
  raiseIf (¬ (q.n = x.n ∧ q.A = x.A ∧ q.L = x.L)) .valueError
  pure q.n

/-- `check_array(..., expected_dim=1)` and `value.shape[0] != action_dist.shape[0]`
(`obp/ope/meta.py:157-166, 178-185`). -/
def checkLen1 (n : ℕ) (a : Arg1 K) : Py ℕ := do
  checkArray1 a
  let k ← a.shape0
  raiseIf (k ≠ n) .valueError
  pure k

/-- Likewise with `expected_dim=2`. -/
def checkLen2 (n : ℕ) (a : Arg2 ℤ) : Py ℕ := do
  let x ← checkEmbed a
  raiseIf (x.n ≠ n) .valueError
  pure x.n

/-- Likewise with `expected_dim=3`. -/
def checkLen3 (n : ℕ) (a : Arg3 K) : Py ℕ := do
  let x ← checkArray3 a
  raiseIf (x.n ≠ n) .valueError
  pure x.n

/-- `x is None` -/
def Arg2.isNone {α : Type} : Arg2 α → Bool
  | .none => true
  | _ => false

/-- The loop `for estimator_name, value in value_or_dict.items()` (`obp/ope/meta.py:121-130,
151-171`). The second argument and the result are `value.shape[0]` of the local variable `value`,
`none` while it is unbound. -/
def checkEntries {α : Type} (check : α → Py ℕ) : List (String × α) → Option ℕ → Py (Option ℕ)
  | [], s => .ok s
  | (_, v) :: rest, _ => do
    let k ← check v
    checkEntries check rest (some k)

/-- The three branches `None`, dict, array for one argument (`obp/ope/meta.py:118-140, 148-185`). -/
def checkInput {α : Type} (isNone : α → Bool) (check : α → Py ℕ) (a : ArrOrDict α) (s : Option ℕ) :
    Py (Option ℕ) :=
  match a with
  | .dict d => checkEntries check d s
  | .one x =>
    if isNone x then .ok s else do
      let _ ← check x
      pure s

/-- The branches for `p_e_a`, last in the loop (`obp/ope/meta.py:148-190`). For an array, line 187
compares the shape of the local variable `value` that earlier loops left behind. -/
def checkPeaInput (nActions : ℕ) (a : ArrOrDict (Arg3 K)) (s : Option ℕ) : Py Unit :=
  match a with
  | .dict d => do
    let _ ← checkEntries (checkLen3 nActions) d s
    pure ()
  | .one x =>
    if x.isNone then .ok () else do
      let _ ← checkArray3 x
      match s with
      | none => .error .unboundLocalError
      | some k => raiseIf (k ≠ nActions) .valueError

/-- The value that `_preprocess_model_based_input` stores for an estimator (`obp/ope/meta.py:230-239`);
`dflt` is `None`. -/
def ArrOrDict.pick {α : Type} (dflt : α) (a : ArrOrDict α) (name : String) : α :=
  match a with
  | .one x => x
  | .dict d => (dictGet d name).getD dflt

/-- The checks of `_create_estimator_inputs` (`obp/ope/meta.py:117-190`). -/
def checkMetaArgs (a : MetaArgs K) : Py Unit := do
  let x ← checkArray3 a.actionDist
  let s ← checkInput Arg3.isNone (checkModel3 x) a.regModel none
  let s ← checkInput Arg1.isNone (checkLen1 x.n) a.estimatedPscore s
  let s ← checkInput Arg1.isNone (checkLen1 x.n) a.estIw s
  let s ← checkInput Arg2.isNone (checkLen2 x.n) a.embed s
  let s ← checkInput Arg3.isNone (checkLen3 x.n) a.piB s
  checkPeaInput x.A a.pEA s

/-- The entry of `estimator_inputs` for one estimator (`obp/ope/meta.py:192-219`). Missing required
keys have been rejected by `__post_init__`; a missing `pscore` is passed as `None`. -/
def metaInput (fb : Feedback K) (a : MetaArgs K) (name : String) : MetaIn K where
  action := fb.action.getD .none
  position := fb.position.getD .none
  reward := fb.reward.getD .none
  context := fb.context.getD .none
  pscore := fb.pscore.getD .none
  actionDist := a.actionDist
  regModel := a.regModel.pick .none name
  estimatedPscore := a.estimatedPscore.pick .none name
  estIw := a.estIw.pick .none name
  embed := a.embed.pick .none name
  piB := a.piB.pick .none name
  pEA := a.pEA.pick .none name

/-- `estimated_rewards_by_reg_model is None` -/
def ArrOrDict.isNone3 : ArrOrDict (Arg3 K) → Bool
  | .one x => x.isNone
  | .dict _ => false

/-- `estimate_policy_values` (`obp/ope/meta.py:300-320`). -/
def Ope.values (o : Ope (MetaIn K) K) (fb : Feedback K) (a : MetaArgs K) : Py (List (String × K)) := do
  raiseIf (o.flag && a.regModel.isNone3) .valueError
  checkMetaArgs a
  collect o.registered fun name e => e.value (metaInput fb a name)

/-- `estimate_intervals` (`obp/ope/meta.py:392-421`); `draws name` are the resampling draws made for
the estimator of that name. -/
def Ope.intervals (o : Ope (MetaIn K) K) (fb : Feedback K) (a : MetaArgs K) (c : CiArgs K)
    (draws : String → List (List ℕ)) : Py (List (String × CiOut K)) := do
  raiseIf (o.flag && a.regModel.isNone3) .valueError
  checkConfidenceIntervalArguments c.seedOk c.alpha c.nBoot
  checkMetaArgs a
  collect o.registered fun name e => e.interval (metaInput fb a name) c (draws name)

/-- `evaluate_performance_of_estimators` (`obp/ope/meta.py:740-775`). -/
def Ope.performance (o : Ope (MetaIn K) K) (fb : Feedback K) (a : MetaArgs K) (metric : String)
    (gt : PyScalar K) : Py (List (String × K)) := do
  checkMetric metric gt
  checkMetaArgs a
  collect o.registered fun name e => do
    let v ← e.value (metaInput fb a name)
    metricOf metric gt v

/-- The table of values of `summarize_off_policy_estimates` (`obp/ope/meta.py:493-530`): per
estimator the estimate and the relative estimate; the interval table is the second component. -/
def Ope.summarize (o : Ope (MetaIn K) K) (fb : Feedback K) (a : MetaArgs K) (c : CiArgs K)
    (draws : String → List (List ℕ)) :
    Py (List (String × K × Option K) × List (String × CiOut K)) := do
  let vs ← o.values fb a
  let cis ← o.intervals fb a c draws
  let m ← npMean (fb.reward.getD .none).vals
  pure (vs.map fun p => (p.1, p.2, relativeValue m p.2), cis)

/-- The keyword arguments read by the eleven classes of `obp/ope/estimators.py`; the rest is
swallowed by `**kwargs`. -/
def MetaIn.est (i : MetaIn K) : EstArgs K where
  reward := i.reward
  action := i.action
  actionDist := i.actionDist
  pscore := i.pscore
  position := i.position
  estimatedPscore := i.estimatedPscore
  regModel := i.regModel
  estIw := i.estIw

/-- The keyword arguments read by the classes of `obp/ope/estimators_embed.py`. -/
def MetaIn.emb (i : MetaIn K) : EmbArgs K where
  reward := i.reward
  action := i.action
  embed := i.embed
  piB := i.piB
  actionDist := i.actionDist
  context := i.context
  pEA := i.pEA
  position := i.position

/-- `isinstance(estimator, DM) or isinstance(estimator, DR)` by class (`obp/ope/meta.py:99`; class
statements at `obp/ope/estimators.py:660, 857, 1262, 1359, 1566, 1960`). -/
def Kind.isDmOrDr : Kind → Bool
  | .dm | .dr | .sndr | .switchDr | .drOs | .sgDr => true
  | _ => false

/-- An object of one of the eleven classes. -/
def Estimator.obj [IsStrictOrderedRing K] [FloorRing K] (e : Estimator K) (name : String) :
    OpeObj (MetaIn K) K where
  name := name
  flagged := e.kind.isDmOrDr
  value := fun i => e.estimatePolicyValue i.est
  interval := fun i c d => e.estimateInterval i.est c d

/-- An object of one of the classes of `obp/ope/estimators_embed.py`, without embedding selection. -/
def EmbKind.obj [IsStrictOrderedRing K] [FloorRing K] (k : EmbKind) (nActions : ℕ)
    (learner : List (List K) → List ℤ → List (List K)) (name : String) : OpeObj (MetaIn K) K where
  name := name
  flagged := false
  value := fun i => k.plainValue nActions learner i.emb
  interval := fun i c d => k.estimateInterval nActions learner i.emb c d

/-- An object of one of the `*Tuning` classes, which do not derive from the classes they tune
(`obp/ope/estimators_tuning.py:27, 374, 580, 801, 1021, 1240, 1446`). -/
noncomputable def Tuner.obj (argsort : List ℝ → List ℕ) (tq : ℝ → ℝ → ℝ) (t : Tuner) (name : String) :
    OpeObj (MetaIn ℝ) ℝ where
  name := name
  flagged := false
  value := fun i => (t.estimatePolicyValue argsort tq i.est).1
  interval := fun i c d => (t.estimateInterval argsort tq i.est c d).1

/-! ### `MultiLoggersOffPolicyEvaluation` -/

/-- `bandit_feedback` of several loggers. -/
structure MultiFeedback (K : Type) where
  action : Option (Arg1 K)
  position : Option (Arg1 K)
  reward : Option (Arg1 K)
  stratumIdx : Option (Arg1 K)
  pscore : Option (Arg1 K)
  pscoreAvg : Option (Arg1 K)

/-- The arguments of `estimate_policy_values` (`obp/ope/meta_multi.py:201-209`). -/
structure MultiMetaArgs (K : Type) where
  actionDist : Arg3 K
  regModel : ArrOrDict (Arg3 K) := .one .none
  estimatedPscore : ArrOrDict (Arg1 K) := .one .none
  estimatedPscoreAvg : ArrOrDict (Arg1 K) := .one .none

/-- `__post_init__` (`obp/ope/meta_multi.py:99-114`). -/
def mkMultiOpe (fb : MultiFeedback K) (ests : List (OpeObj (MultiArgs K) K)) :
    Py (Ope (MultiArgs K) K) := do
  raiseIf (fb.action.isNone || fb.position.isNone || fb.reward.isNone) .runtimeError
  pure ⟨register ests, ests.any (·.flagged)⟩

/-- The checks of `_create_estimator_inputs` (`obp/ope/meta_multi.py:126-172`). -/
def checkMultiMetaArgs (a : MultiMetaArgs K) : Py Unit := do
  let x ← checkArray3 a.actionDist
  let _ ← checkInput Arg3.isNone (checkModel3 x) a.regModel none
  let _ ← checkInput Arg1.isNone (checkLen1 x.n) a.estimatedPscore none
  let _ ← checkInput Arg1.isNone (checkLen1 x.n) a.estimatedPscoreAvg none
  pure ()

/-- The entry of `estimator_inputs` for one estimator (`obp/ope/meta_multi.py:174-198`). -/
def multiInput (fb : MultiFeedback K) (a : MultiMetaArgs K) (name : String) : MultiArgs K where
  action := fb.action.getD .none
  position := fb.position.getD .none
  reward := fb.reward.getD .none
  stratumIdx := fb.stratumIdx.getD .none
  pscore := fb.pscore.getD .none
  pscoreAvg := fb.pscoreAvg.getD .none
  actionDist := a.actionDist
  regModel := a.regModel.pick .none name
  estimatedPscore := a.estimatedPscore.pick .none name
  estimatedPscoreAvg := a.estimatedPscoreAvg.pick .none name

/-- `estimate_policy_values` (`obp/ope/meta_multi.py:239-256`). -/
def Ope.multiValues (o : Ope (MultiArgs K) K) (fb : MultiFeedback K) (a : MultiMetaArgs K) :
    Py (List (String × K)) := do
  raiseIf (o.flag && a.regModel.isNone3) .valueError
  checkMultiMetaArgs a
  collect o.registered fun name e => e.value (multiInput fb a name)

/-- `estimate_intervals` (`obp/ope/meta_multi.py:308-334`). -/
def Ope.multiIntervals (o : Ope (MultiArgs K) K) (fb : MultiFeedback K) (a : MultiMetaArgs K)
    (c : CiArgs K) (draws : String → List (List ℕ)) : Py (List (String × CiOut K)) := do
  raiseIf (o.flag && a.regModel.isNone3) .valueError
  checkConfidenceIntervalArguments c.seedOk c.alpha c.nBoot
  checkMultiMetaArgs a
  collect o.registered fun name e => e.interval (multiInput fb a name) c (draws name)

/-- `evaluate_performance_of_estimators` (`obp/ope/meta_multi.py:584-616`), also the single column of
`summarize_estimators_comparison` (`obp/ope/meta_multi.py:618-672`). -/
def Ope.multiPerformance (o : Ope (MultiArgs K) K) (fb : MultiFeedback K) (a : MultiMetaArgs K)
    (metric : String) (gt : PyScalar K) : Py (List (String × K)) := do
  checkMetric metric gt
  checkMultiMetaArgs a
  collect o.registered fun name e => do
    let v ← e.value (multiInput fb a name)
    metricOf metric gt v

/-- The `isinstance` test by class (`obp/ope/meta_multi.py:108-113`; the weighted DR class derives from
the naive one). -/
def MultiKind.isDr : MultiKind → Bool
  | .naiveDr | .balancedDr | .weightedDr => true
  | _ => false

/-- An object of one of the six classes of `obp/ope/estimators_multi.py`. -/
def MultiEstimator.obj [IsStrictOrderedRing K] [FloorRing K] (e : MultiEstimator K) (name : String) :
    OpeObj (MultiArgs K) K where
  name := name
  flagged := e.kind.isDr
  value := fun i => e.estimatePolicyValue i
  interval := fun i c d => e.estimateInterval i c d

/-! ### `ContinuousOffPolicyEvaluation` -/

/-- `bandit_feedback` for continuous actions. -/
structure ContFeedback where
  action : Option (Arg1 ℝ)
  reward : Option (Arg1 ℝ)
  pscore : Option (Arg1 ℝ)

/-- `__post_init__` (`obp/ope/meta_continuous.py:98-111`). -/
def mkContOpe (fb : ContFeedback) (ests : List (OpeObj ContArgs ℝ)) : Py (Ope ContArgs ℝ) := do
  raiseIf (fb.action.isNone || fb.reward.isNone || fb.pscore.isNone) .runtimeError
  pure ⟨register ests, ests.any (·.flagged)⟩

/-- The checks of `_create_estimator_inputs` (`obp/ope/meta_continuous.py:121-151`). -/
def checkContMetaArgs (evalAction : Arg1 ℝ) (reg : ArrOrDict (Arg1 ℝ)) : Py Unit := do
  checkArray1 evalAction
  let n ← evalAction.shape0
  let _ ← checkInput Arg1.isNone (checkLen1 n) reg none
  pure ()

/-- The entry of `estimator_inputs` for one estimator (`obp/ope/meta_continuous.py:152-178`). -/
def contInput (fb : ContFeedback) (evalAction : Arg1 ℝ) (reg : ArrOrDict (Arg1 ℝ)) (name : String) :
    ContArgs where
  evalAction := evalAction
  action := fb.action.getD .none
  reward := fb.reward.getD .none
  pscore := fb.pscore.getD .none
  regModel := reg.pick .none name

/-- `estimated_rewards_by_reg_model is None` -/
def ArrOrDict.isNone1 : ArrOrDict (Arg1 K) → Bool
  | .one x => x.isNone
  | .dict _ => false

/-- `estimate_policy_values` (`obp/ope/meta_continuous.py:206-222`). -/
def Ope.contValues (o : Ope ContArgs ℝ) (fb : ContFeedback) (evalAction : Arg1 ℝ)
    (reg : ArrOrDict (Arg1 ℝ)) : Py (List (String × ℝ)) := do
  raiseIf (o.flag && reg.isNone1) .valueError
  checkContMetaArgs evalAction reg
  collect o.registered fun name e => e.value (contInput fb evalAction reg name)

/-- An object of one of the classes of `obp/ope/estimators_continuous.py`; the `isinstance` test is for
the DR class (`obp/ope/meta_continuous.py:110`). -/
noncomputable def ContKind.obj (k : ContKind) (ker : Kernel) (h : Bandwidth) (name : String) :
    OpeObj ContArgs ℝ where
  name := name
  flagged := decide (k = .dr)
  value := fun i => k.estimatePolicyValue ker h i
  interval := fun i c d => k.estimateInterval ker h i c d

/-! ### `SlateOffPolicyEvaluation` -/

/-- `bandit_feedback` of slates: `none` where the key is missing. -/
structure SlateFeedback (K : Type) where
  slateId : Option (Arg1 K)
  context : Option (Arg2 K)
  action : Option (Arg1 K)
  reward : Option (Arg1 K)
  position : Option (Arg1 K)
  pscore : Option (Arg1 K)
  pscoreItem : Option (Arg1 K)
  pscoreCascade : Option (Arg1 K)

/-- The arguments of `estimate_policy_values` (`obp/ope/meta_slate.py:189-196`). -/
structure SlateMetaArgs (K : Type) where
  evalPscore : Arg1 K := .none
  evalItem : Arg1 K := .none
  evalCascade : Arg1 K := .none
  evalDist : Arg1 K := .none
  qHat : Arg1 K := .none

/-- The keyword arguments passed to every estimator (`obp/ope/meta_slate.py:162-187`); `none` where
the keyword is absent. -/
structure SlateIn (K : Type) where
  slateId : Arg1 K
  action : Arg1 K
  reward : Arg1 K
  position : Arg1 K
  pscore : Option (Arg1 K)
  pscoreItem : Option (Arg1 K)
  pscoreCascade : Option (Arg1 K)
  evalPscore : Arg1 K
  evalItem : Arg1 K
  evalCascade : Arg1 K
  evalDist : Arg1 K
  qHat : Arg1 K

/-- `__post_init__` (`obp/ope/meta_slate.py:117-134`). -/
def mkSlateOpe (fb : SlateFeedback K) (ests : List (OpeObj (SlateIn K) K)) : Py (Ope (SlateIn K) K) := do
  raiseIf (fb.slateId.isNone || fb.context.isNone || fb.action.isNone || fb.reward.isNone ||
    fb.position.isNone) .runtimeError
  pure ⟨register ests, ests.any (·.flagged)⟩

/-- The checks of `_create_estimator_inputs` (`obp/ope/meta_slate.py:145-160`). -/
def checkSlateMetaArgs (cascadeDr : Bool) (a : SlateMetaArgs K) : Py Unit := do
  raiseIf (a.evalPscore.isNone && a.evalItem.isNone && a.evalCascade.isNone) .valueError
  raiseIf (cascadeDr && a.evalDist.isNone) .valueError
  raiseIf (cascadeDr && a.qHat.isNone) .valueError

/-- The keyword arguments (`obp/ope/meta_slate.py:162-187`). -/
def slateInput (fb : SlateFeedback K) (a : SlateMetaArgs K) : SlateIn K where
  slateId := fb.slateId.getD .none
  action := fb.action.getD .none
  reward := fb.reward.getD .none
  position := fb.position.getD .none
  pscore := fb.pscore
  pscoreItem := fb.pscoreItem
  pscoreCascade := fb.pscoreCascade
  evalPscore := a.evalPscore
  evalItem := a.evalItem
  evalCascade := a.evalCascade
  evalDist := a.evalDist
  qHat := a.qHat

/-- `estimate_policy_values` (`obp/ope/meta_slate.py:229-242`). -/
def Ope.slateValues (o : Ope (SlateIn K) K) (fb : SlateFeedback K) (a : SlateMetaArgs K) :
    Py (List (String × K)) := do
  checkSlateMetaArgs o.flag a
  collect o.registered fun _ e => e.value (slateInput fb a)

/-- `estimate_intervals` (`obp/ope/meta_slate.py:295-316`). -/
def Ope.slateIntervals (o : Ope (SlateIn K) K) (fb : SlateFeedback K) (a : SlateMetaArgs K)
    (c : CiArgs K) (draws : String → List (List ℕ)) : Py (List (String × CiOut K)) := do
  checkConfidenceIntervalArguments c.seedOk c.alpha c.nBoot
  checkSlateMetaArgs o.flag a
  collect o.registered fun name e => e.interval (slateInput fb a) c (draws name)

/-- `evaluate_performance_of_estimators` (`obp/ope/meta_slate.py:583-610`), also the single column of
`summarize_estimators_comparison` (`obp/ope/meta_slate.py:612-673`). -/
def Ope.slatePerformance (o : Ope (SlateIn K) K) (fb : SlateFeedback K) (a : SlateMetaArgs K)
    (metric : String) (gt : PyScalar K) : Py (List (String × K)) := do
  checkMetric metric gt
  checkSlateMetaArgs o.flag a
  collect o.registered fun _ e => do
    let v ← e.value (slateInput fb a)
    metricOf metric gt v

/-- `summarize_off_policy_estimates` (`obp/ope/meta_slate.py:370-406`). -/
def Ope.slateSummarize (o : Ope (SlateIn K) K) (fb : SlateFeedback K) (a : SlateMetaArgs K)
    (c : CiArgs K) (draws : String → List (List ℕ)) :
    Py (List (String × K × Option K) × List (String × CiOut K)) := do
  let vs ← o.slateValues fb a
  let cis ← o.slateIntervals fb a c draws
  let ids ← (fb.slateId.getD .none).ints
  let m ← npDiv (fb.reward.getD .none).vals.sum ((npUnique ids).length : K)
  pure (vs.map fun p => (p.1, p.2, relativeValue m p.2), cis)

/-- A required keyword argument that is absent: TypeError. -/
def required {α : Type} (a : Option α) : Py α :=
  match a with
  | some x => .ok x
  | none => .error .typeError

/-- The pair of propensity arrays that the estimator's methods name in their signature
(`obp/ope/estimators_slate.py:160-167, 310-317, 457-464`). -/
def SlateKind.args (k : SlateKind) (i : SlateIn K) : Py (SlateArgs K) :=
  match k with
  | .sips | .snSips => do
    let p ← required i.pscore
    pure ⟨i.slateId, i.reward, i.position, p, i.evalPscore⟩
  | .iips | .snIips => do
    let p ← required i.pscoreItem
    pure ⟨i.slateId, i.reward, i.position, p, i.evalItem⟩
  | .rips | .snRips => do
    let p ← required i.pscoreCascade
    pure ⟨i.slateId, i.reward, i.position, p, i.evalCascade⟩

/-- An object of one of the six classes without a reward model. -/
def SlateKind.obj [IsStrictOrderedRing K] [FloorRing K] (k : SlateKind) (lenList : ℕ) (name : String) :
    OpeObj (SlateIn K) K where
  name := name
  flagged := false
  value := fun i => do
    let a ← k.args i
    k.estimatePolicyValue lenList a
  interval := fun i c d => do
    let a ← k.args i
    k.estimateInterval lenList a c d

/-- The keyword arguments of `SlateCascadeDoublyRobust.estimate_policy_value`
(`obp/ope/estimators_slate.py:692-703`). -/
def SlateIn.cascade (i : SlateIn K) : Py (CascadeArgs K) := do
  let p ← required i.pscoreCascade
  pure { slateId := i.slateId, reward := i.reward, position := i.position, pscore := p,
         evalPscore := i.evalCascade, action := i.action, qHat := i.qHat, evalDist := i.evalDist }

/-- A `SlateCascadeDoublyRobust` object. -/
def cascadeDrObj [IsStrictOrderedRing K] [FloorRing K] (lenList nU : ℕ) (name : String) :
    OpeObj (SlateIn K) K where
  name := name
  flagged := true
  value := fun i => do
    let a ← i.cascade
    cascadeDrValue lenList nU a
  interval := fun i c d => do
    let a ← i.cascade
    cascadeDrInterval lenList nU a c d

end Obp
