import Verif.Model.Meta

/-!
# Model of the remaining reports of the front ends: summaries, continuous-action reports and plots

Drawing itself is matplotlib's and seaborn's; modelled is the table of numbers a plot is drawn from,
and every exception raised on the way.
-/

namespace Obp

variable {K : Type} [Field K] [LinearOrder K]

/-! ### Remaining tables -/

/-- `summarize_off_policy_estimates` (`obp/ope/meta_multi.py:386-417`). -/
def Ope.multiSummarize (o : Ope (MultiArgs K) K) (fb : MultiFeedback K) (a : MultiMetaArgs K)
    (c : CiArgs K) (draws : String → List (List ℕ)) :
    Py (List (String × K × Option K) × List (String × CiOut K)) := do
  let vs ← o.multiValues fb a
  let cis ← o.multiIntervals fb a c draws
  let m ← npMean (fb.reward.getD .none).vals
  pure (vs.map fun p => (p.1, p.2, relativeValue m p.2), cis)

/-- `estimate_intervals` (`obp/ope/meta_continuous.py:262-286`). -/
noncomputable def Ope.contIntervals (o : Ope ContArgs ℝ) (fb : ContFeedback) (evalAction : Arg1 ℝ)
    (reg : ArrOrDict (Arg1 ℝ)) (c : CiArgs ℝ) (draws : String → List (List ℕ)) :
    Py (List (String × CiOut ℝ)) := do
  raiseIf (o.flag && reg.isNone1) .valueError
  checkConfidenceIntervalArguments c.seedOk c.alpha c.nBoot
  checkContMetaArgs evalAction reg
  collect o.registered fun name e => e.interval (contInput fb evalAction reg name) c (draws name)

/-- `summarize_off_policy_estimates` (`obp/ope/meta_continuous.py:326-353`). -/
noncomputable def Ope.contSummarize (o : Ope ContArgs ℝ) (fb : ContFeedback) (evalAction : Arg1 ℝ)
    (reg : ArrOrDict (Arg1 ℝ)) (c : CiArgs ℝ) (draws : String → List (List ℕ)) :
    Py (List (String × ℝ × Option ℝ) × List (String × CiOut ℝ)) := do
  let vs ← o.contValues fb evalAction reg
  let cis ← o.contIntervals fb evalAction reg c draws
  let m ← npMean (fb.reward.getD .none).vals
  pure (vs.map fun p => (p.1, p.2, relativeValue m p.2), cis)

/-- `evaluate_performance_of_estimators` (`obp/ope/meta_continuous.py:493-523`), also the single column
of `summarize_estimators_comparison` (`obp/ope/meta_continuous.py:559-568`). -/
noncomputable def Ope.contPerformance (o : Ope ContArgs ℝ) (fb : ContFeedback) (evalAction : Arg1 ℝ)
    (reg : ArrOrDict (Arg1 ℝ)) (metric : String) (gt : PyScalar ℝ) : Py (List (String × ℝ)) := do
  checkMetric metric gt
  checkContMetaArgs evalAction reg
  collect o.registered fun name e => do
    let v ← e.value (contInput fb evalAction reg name)
    metricOf metric gt v

/-! ### `_estimate_round_rewards` as the plots call it -/

/-- `position` inside `_estimate_round_rewards`. Six classes default it
(`obp/ope/estimators.py:105-106, 331-332, 652-653, 731-732, 977-978, 2257-2258`). -/
def Kind.defaultsPosition : Kind → Bool
  | .rm | .ipw | .snipw | .dm | .dr | .bIpw => true
  | _ => false

/-- The positions used by `_estimate_round_rewards`. The five classes that do not default `None`
(`obp/ope/estimators.py:1343-1344, 1463-1464, 1668-1669, 1870, 2058-2059`) index with it: an index of
`None` inserts an axis, the result has three dimensions, and either an in-place addition or the
construction of the data frame refuses it with a ValueError. Simplified: an exception that an earlier
operation may raise instead is not distinguished. -/
def rawPosition (k : Kind) (x : Arr3 K) (position : Arg1 K) : Py (List ℤ) :=
  if position.isNone then
    (if k.defaultsPosition then .ok (List.replicate x.n 0) else .error .valueError)
  else position.ints

/-- A one-dimensional array as an operand; anything else is refused here (`None`: TypeError).
Simplified: arrays of other dimensions are refused at once. -/
def rawVec (a : Arg1 K) : Py (List K) :=
  match a with
  | .int xs => .ok (xs.map (↑))
  | .flt xs => .ok xs
  | .nd _ _ => .error .valueError
  | _ => .error .typeError

/-- A three-dimensional array as an operand; `None` is not subscriptable (TypeError). -/
def rawArr3 (a : Arg3 K) : Py (Arr3 K) :=
  match a with
  | .arr x => .ok x
  | .nd _ => .error .indexError
  | _ => .error .typeError

/-- The parameters that `_estimate_round_rewards` of each class takes from the keyword arguments
(`obp/ope/estimators.py:73-80, 295-303, 616-624, 703-709, 937-946, 1303-1312, 1423-1432, 1628-1637,
1834-1842, 2017-2027, 2221-2229`); the rest, in particular `estimated_pscore`, is swallowed by
`**kwargs`. -/
def Kind.rawIn (k : Kind) (a : EstArgs K) : Py (RoundIn K) := do
  let x ← rawArr3 a.actionDist
  let pos ← rawPosition k x a.position
  match k with
  | .dm => do
    let q ← rawArr3 a.regModel
    pure { reward := [], action := [], pscore := [], dist := x, q := q, estIw := [], position := pos }
  | .rm => do
    let act ← a.action.ints
    let r ← rawVec a.reward
    pure { reward := r, action := act, pscore := [], dist := x, q := noArr, estIw := [],
           position := pos }
  | .bIpw => do
    let r ← rawVec a.reward
    let w ← rawVec a.estIw
    pure { reward := r, action := [], pscore := [], dist := x, q := noArr, estIw := w,
           position := pos }
  | .ipw | .snipw | .sgIpw => do
    let act ← a.action.ints
    let r ← rawVec a.reward
    let p ← rawVec a.pscore
    pure { reward := r, action := act, pscore := p, dist := x, q := noArr, estIw := [],
           position := pos }
  | .dr | .sndr | .switchDr | .drOs | .sgDr => do
    let act ← a.action.ints
    let r ← rawVec a.reward
    let p ← rawVec a.pscore
    let q ← rawArr3 a.regModel
    pure { reward := r, action := act, pscore := p, dist := x, q := q, estIw := [],
           position := pos }

/-- `estimator._estimate_round_rewards(**estimator_inputs[...])` (`obp/ope/meta.py:627-629, 966-970`). -/
def Estimator.rawRounds (e : Estimator K) (a : EstArgs K) : Py (List K) := do
  let r ← e.kind.rawIn a
  e.round r

/-- The same for the six multiple-logger classes (`obp/ope/meta_multi.py:491-493, 761-765`); all of them
default `position` (`obp/ope/estimators_multi.py:141-142, 413-414, 677-678, 975-976, 1285-1286,
1586-1587`), and the balanced ones take `pscore_avg` (`:376-384, 1244-1253`). -/
def MultiEstimator.rawRounds (e : MultiEstimator K) (a : MultiArgs K) : Py (List K) :=
  match e.kind with
  | .naiveIpw => do
    let r ← Kind.rawIn .ipw a.single
    ipwRound e.lam r
  | .balancedIpw => do
    let r ← Kind.rawIn .ipw a.balanced
    ipwRound e.lam r
  | .weightedIpw => do
    let r ← Kind.rawIn .ipw a.single
    let st ← a.stratumIdx.ints
    weightedIpwRound e.lam st r
  | .naiveDr => do
    let r ← Kind.rawIn .dr a.single
    drRound e.lam r
  | .balancedDr => do
    let r ← Kind.rawIn .dr a.balanced
    drRound e.lam r
  | .weightedDr => do
    let r ← Kind.rawIn .dr a.single
    let st ← a.stratumIdx.ints
    weightedDrRound e.lam st r

/-- The same for the continuous-action classes (`obp/ope/meta_continuous.py:413-415, 642-646`). -/
noncomputable def ContKind.rawRounds (k : ContKind) (ker : Kernel) (h : Bandwidth) (a : ContArgs) :
    Py (List ℝ) := do
  let _ ← rawVec a.reward
  let _ ← rawVec a.pscore
  match k with
  | .dr => do
    let _ ← rawVec a.regModel
    k.round ker h a
  | _ => k.round ker h a

/-- What `_estimate_round_rewards` of the two embedding classes takes from the keyword arguments
(`obp/ope/estimators_embed.py:109-121, 634-646`). Neither defaults `position`: an index of `None` inserts an axis
(`:169, 171, 181-182`), and then the matrix product, the in-place multiplication or the construction of the data frame refuses
an array of that shape. Simplified: arguments of other kinds are refused as in `estimate_policy_value`, and which exception
is raised first is not distinguished. -/
def embRawIn (a : EmbArgs K) : Py (EmbIn K) := do
  let r ← rawVec a.reward
  let pos ← (if a.position.isNone then .error .valueError else a.position.ints : Py (List ℤ))
  let e ← checkEmbed a.embed
  let b ← rawArr3 a.piB
  let x ← rawArr3 a.actionDist
  let pc ← checkPea a
  let act ← a.action.ints
  pure { reward := r, action := act, embed := e, context := pc.2, piB := b, dist := x, position := pos, pEA := pc.1 }

/-- The same for the two embedding classes (`obp/ope/meta.py:627-629`); all embedding dimensions are used, whatever
`embedding_selection_method` is. -/
def EmbKind.rawRounds (k : EmbKind) (nActions : ℕ) (learner : List (List K) → List ℤ → List (List K)) (a : EmbArgs K) :
    Py (List K) := do
  let r ← embRawIn a
  k.round nActions learner r

/-- An estimator object together with its method `_estimate_round_rewards`; `none` when the class has
no such method (the `*Tuning` classes, `obp/ope/estimators_tuning.py:27, 374`). -/
structure PlotObj (I K : Type) extends OpeObj I K where
  rounds : Option (I → Py (List K))

/-- An object of one of the eleven classes, with the method that plots call. -/
def Estimator.plotObj [IsStrictOrderedRing K] [FloorRing K] (e : Estimator K) (name : String) :
    PlotObj (MetaIn K) K :=
  { e.obj name with rounds := some fun i => e.rawRounds i.est }

/-- An object of one of the `*Tuning` classes. -/
noncomputable def Tuner.plotObj (argsort : List ℝ → List ℕ) (tq : ℝ → ℝ → ℝ) (t : Tuner)
    (name : String) : PlotObj (MetaIn ℝ) ℝ :=
  { t.obj argsort tq name with rounds := none }

/-- An object of one of the classes of `obp/ope/estimators_embed.py`, with the method that plots call. -/
noncomputable def EmbKind.plotObj (k : EmbKind) (nActions : ℕ) (learner : List (List ℝ) → List ℤ → List (List ℝ))
    (sel : Option EmbSel) (minEmb : ℕ) (tq : ℝ) (srt : List ℝ → List ℕ) (name : String) : PlotObj (MetaIn ℝ) ℝ :=
  { k.obj nActions learner name with
    value := fun i => k.estimatePolicyValue nActions learner sel minEmb tq srt i.emb
    rounds := some fun i => k.rawRounds nActions learner i.emb }

/-- A multiple-logger estimator with the method that plots call. -/
def MultiEstimator.plotObj [IsStrictOrderedRing K] [FloorRing K] (e : MultiEstimator K)
    (name : String) : PlotObj (MultiArgs K) K :=
  { e.obj name with rounds := some e.rawRounds }

/-- A continuous-action estimator with the method that plots call. -/
noncomputable def ContKind.plotObj (k : ContKind) (ker : Kernel) (h : Bandwidth) (name : String) :
    PlotObj ContArgs ℝ :=
  { k.obj ker h name with rounds := some (k.rawRounds ker h) }

/-- `ope_estimators_` with the plotted method in view (`obp/ope/meta.py:95-98`). -/
def plotRegister {I : Type} (ests : List (PlotObj I K)) : List (String × PlotObj I K) :=
  ests.foldl (fun d e => dictSet d e.name e) []

/-- The call of `_estimate_round_rewards`: AttributeError when there is none. -/
def PlotObj.call {I : Type} (e : PlotObj I K) (i : I) : Py (List K) :=
  match e.rounds with
  | some f => f i
  | none => .error .attributeError

/-! ### Plots -/

/-- `DataFrame(dict)` of one-dimensional arrays: ValueError unless they have the same length. -/
def dataFrame (cols : List (String × List K)) : Py (List (String × List K)) :=
  match cols with
  | [] => .ok []
  | c :: rest =>
    if rest.all fun d => d.2.length = c.2.length then .ok (c :: rest) else .error .valueError

/-- `df /= reward.mean()` when `is_relative` (`obp/ope/meta.py:635-636, 979-980`). -/
def relativeFrame (isRelative : Bool) (reward : Arg1 K) (cols : List (String × List K)) :
    Py (List (String × List K)) :=
  if isRelative then do
    let m ← npMean reward.vals
    cols.mapM fun c => do
      let xs ← c.2.mapM (npDiv · m)
      pure (c.1, xs)
  else .ok cols

/-- `visualize_off_policy_estimates` up to the call of `sns.barplot` (`obp/ope/meta.py:611-646`,
`meta_multi.py:478-510`, `meta_continuous.py:402-432`): the columns of the plotted data frame. `check` are
the checks of `_create_estimator_inputs`, `input` the keyword arguments of an estimator. Names are
ASCII, for which `str.upper` is `String.toUpper`. -/
def plotEstimates {I : Type} (reg : List (String × PlotObj I K)) (reward : Arg1 K) (check : Py Unit)
    (input : String → I) (isRelative figDirOk figNameOk : Bool) : Py (List (String × List K)) := do
  raiseIf (!figDirOk) .assertionError
  raiseIf (!figNameOk) .assertionError
  check
  let cols ← reg.mapM fun p => do
    let xs ← p.2.call (input p.1)
    pure (p.1, xs)
  let df ← dataFrame cols
  relativeFrame isRelative reward (df.map fun c => (c.1.toUpper, c.2))

/-- The plot of `OffPolicyEvaluation` (`obp/ope/meta.py:611-646`). -/
def plotOpe (ests : List (PlotObj (MetaIn K) K)) (fb : Feedback K) (a : MetaArgs K)
    (isRelative figDirOk figNameOk : Bool) : Py (List (String × List K)) :=
  plotEstimates (plotRegister ests) (fb.reward.getD .none) (checkMetaArgs a) (metaInput fb a)
    isRelative figDirOk figNameOk

/-- The plot of `MultiLoggersOffPolicyEvaluation` (`obp/ope/meta_multi.py:478-510`). -/
def plotMultiOpe (ests : List (PlotObj (MultiArgs K) K)) (fb : MultiFeedback K) (a : MultiMetaArgs K)
    (isRelative figDirOk figNameOk : Bool) : Py (List (String × List K)) :=
  plotEstimates (plotRegister ests) (fb.reward.getD .none) (checkMultiMetaArgs a) (multiInput fb a)
    isRelative figDirOk figNameOk

/-- The plot of `ContinuousOffPolicyEvaluation` (`obp/ope/meta_continuous.py:402-432`). -/
noncomputable def plotContOpe (ests : List (PlotObj ContArgs ℝ)) (fb : ContFeedback)
    (evalAction : Arg1 ℝ) (reg : ArrOrDict (Arg1 ℝ)) (isRelative figDirOk figNameOk : Bool) :
    Py (List (String × List ℝ)) :=
  plotEstimates (plotRegister ests) (fb.reward.getD .none) (checkContMetaArgs evalAction reg)
    (contInput fb evalAction reg) isRelative figDirOk figNameOk

/-- The loop over the policies (`obp/ope/meta.py:955-970`, `meta_multi.py:753-765`,
`meta_continuous.py:634-646`): for one estimator, the dict from policy names to round rewards.
Simplified: the code loops over policies outside and estimators inside; the exception raised first may
differ. -/
def policyColumns {P I : Type} (e : PlotObj I K) (name : String) (check : P → Py Unit)
    (input : P → String → I) (ps : List (String × P)) : Py (List (String × List K)) :=
  ps.foldlM (fun d p => do
    check p.2
    let xs ← e.call (input p.2 name)
    pure (dictSet d p.1 xs)) []

/-- `visualize_off_policy_estimates_of_multiple_policies` (`obp/ope/meta.py:942-989`,
`meta_multi.py:740-784`, `meta_continuous.py:621-665`): per estimator the columns of its subplot.
`fig.add_subplot(rows, 1, i + 1)` with `rows` the number of *policies* raises ValueError when the
running number of the *estimator* exceeds it. -/
def plotPolicies {P I : Type} (reg : List (String × PlotObj I K)) (reward : Arg1 K)
    (check : P → Py Unit) (input : P → String → I) (names : List String) (policies : List P)
    (isRelative figDirOk figNameOk : Bool) : Py (List (String × List (String × List K))) := do
  raiseIf (names.length ≠ policies.length) .valueError
  raiseIf (!figDirOk) .assertionError
  raiseIf (!figNameOk) .assertionError
  let tables ← reg.mapM fun p => do
    let cols ← policyColumns p.2 p.1 check input (names.zip policies)
    pure (p.1, cols)
  tables.zipIdx.mapM fun t => do
    let df ← dataFrame t.1.2
    let df' ← relativeFrame isRelative reward df
    raiseIf (policies.length < t.2 + 1) .valueError
    pure (t.1.1.toUpper, df')

/-- The comparison of several policies by `OffPolicyEvaluation` (`obp/ope/meta.py:942-989`). -/
def plotOpePolicies (ests : List (PlotObj (MetaIn K) K)) (fb : Feedback K) (a : MetaArgs K)
    (names : List String) (dists : List (Arg3 K)) (isRelative figDirOk figNameOk : Bool) :
    Py (List (String × List (String × List K))) :=
  plotPolicies (plotRegister ests) (fb.reward.getD .none)
    (fun x => checkMetaArgs { a with actionDist := x })
    (fun x => metaInput fb { a with actionDist := x }) names dists isRelative figDirOk figNameOk

/-- The comparison of several policies by `MultiLoggersOffPolicyEvaluation` (`obp/ope/meta_multi.py:740-784`). -/
def plotMultiPolicies (ests : List (PlotObj (MultiArgs K) K)) (fb : MultiFeedback K) (a : MultiMetaArgs K)
    (names : List String) (dists : List (Arg3 K)) (isRelative figDirOk figNameOk : Bool) :
    Py (List (String × List (String × List K))) :=
  plotPolicies (plotRegister ests) (fb.reward.getD .none)
    (fun x => checkMultiMetaArgs { a with actionDist := x })
    (fun x => multiInput fb { a with actionDist := x }) names dists isRelative figDirOk figNameOk

/-- The comparison of several policies by `ContinuousOffPolicyEvaluation` (`obp/ope/meta_continuous.py:621-665`). -/
noncomputable def plotContPolicies (ests : List (PlotObj ContArgs ℝ)) (fb : ContFeedback) (reg : ArrOrDict (Arg1 ℝ))
    (names : List String) (evalActions : List (Arg1 ℝ)) (isRelative figDirOk figNameOk : Bool) :
    Py (List (String × List (String × List ℝ))) :=
  plotPolicies (plotRegister ests) (fb.reward.getD .none) (fun x => checkContMetaArgs x reg)
    (fun x => contInput fb x reg) names evalActions isRelative figDirOk figNameOk

/-- One bar of the slate plot: its height and the ends of its error bar. -/
structure ErrorBar (K : Type) where
  height : K
  low : K
  high : K

/-- One row of the table behind the slate plot (`obp/ope/meta_slate.py:483-490, 507-513`):
`errbar_length` is the width of the interval, and `ax.errorbar` extends by `yerr` to either side. Not
modelled: that matplotlib refuses a negative `yerr`, which a negative scale produces. -/
def slateBar (ci : CiOut K) (scale : Option K) : Py (ErrorBar K) :=
  let len := |ci.upper - ci.lower|
  match scale with
  | none => .ok ⟨ci.mean, ci.mean - len, ci.mean + len⟩
  | some s => do
    let m ← npDiv ci.mean s
    let l ← npDiv len s
    pure ⟨m, m - l, m + l⟩

/-- `visualize_off_policy_estimates` of the slate front end (`obp/ope/meta_slate.py:468-513`). -/
def Ope.slatePlot (o : Ope (SlateIn K) K) (fb : SlateFeedback K) (a : SlateMetaArgs K) (c : CiArgs K)
    (draws : String → List (List ℕ)) (isRelative figDirOk figNameOk : Bool) :
    Py (List (String × ErrorBar K)) := do
  raiseIf (!figDirOk) .assertionError
  raiseIf (!figNameOk) .assertionError
  let s ← o.slateSummarize fb a c draws
  let scale ← (if isRelative then do
      let ids ← (fb.slateId.getD .none).ints
      let m ← npDiv (fb.reward.getD .none).vals.sum ((npUnique ids).length : K)
      pure (some m)
    else pure none)
  s.2.mapM fun p => do
    let b ← slateBar p.2 scale
    pure (p.1, b)

end Obp
