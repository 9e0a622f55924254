import Verif.Model.Meta
import Verif.Spec.Ope
import Verif.Spec.Multi

/-! # Vocabulary for the front ends (C54-C59, C97) -/

namespace Obp

variable {K : Type}

/-- `e` is the last estimator in the list that bears its name. -/
def LastNamed {I : Type} (ests : List (OpeObj I K)) (e : OpeObj I K) : Prop :=
  ∃ pre post, ests = pre ++ e :: post ∧ ∀ e' ∈ post, e'.name ≠ e.name

/-- `d` (the items of a dict) has exactly one entry for every name that occurs in `ests`, and the
entry of a name is an outcome of the last estimator that bears it. -/
structure Reports {I V : Type} (ests : List (OpeObj I K)) (outcome : OpeObj I K → V → Prop)
    (d : List (String × V)) : Prop where
  keys_distinct : (d.map (·.1)).Nodup
  keys : ∀ name, name ∈ d.map (·.1) ↔ ∃ e ∈ ests, e.name = name
  entries : ∀ e, LastNamed ests e → ∃ v, (e.name, v) ∈ d ∧ outcome e v

/-- What an estimator called `name` is passed when the user supplies `a`: an array (or `None`) goes to
everyone; a dict gives an estimator its own entry, or `None` if it has none. -/
inductive Passed {α : Type} (missing : α) (name : String) : ArrOrDict α → α → Prop
  | everyone (x : α) : Passed missing name (.one x) x
  | own {d : List (String × α)} {x : α} (h : (name, x) ∈ d) : Passed missing name (.dict d) x
  | missing {d : List (String × α)} (h : ∀ x, (name, x) ∉ d) : Passed missing name (.dict d) missing

/-- The keyword arguments `i` are those that the estimator called `name` should get. -/
structure Receives (fb : Feedback K) (a : MetaArgs K) (name : String) (i : MetaIn K) : Prop where
  action : fb.action = some i.action
  position : fb.position = some i.position
  reward : fb.reward = some i.reward
  context : fb.context = some i.context
  pscore : fb.pscore = some i.pscore ∨ fb.pscore = none ∧ i.pscore = .none
  actionDist : i.actionDist = a.actionDist
  regModel : Passed .none name a.regModel i.regModel
  estimatedPscore : Passed .none name a.estimatedPscore i.estimatedPscore
  estIw : Passed .none name a.estIw i.estIw
  embed : Passed .none name a.embed i.embed
  piB : Passed .none name a.piB i.piB
  pEA : Passed .none name a.pEA i.pEA

/-- The same for `MultiLoggersOffPolicyEvaluation`. -/
structure MultiReceives (fb : MultiFeedback K) (a : MultiMetaArgs K) (name : String)
    (i : MultiArgs K) : Prop where
  action : fb.action = some i.action
  position : fb.position = some i.position
  reward : fb.reward = some i.reward
  stratumIdx : fb.stratumIdx = some i.stratumIdx ∨ fb.stratumIdx = none ∧ i.stratumIdx = .none
  pscore : fb.pscore = some i.pscore ∨ fb.pscore = none ∧ i.pscore = .none
  pscoreAvg : fb.pscoreAvg = some i.pscoreAvg ∨ fb.pscoreAvg = none ∧ i.pscoreAvg = .none
  actionDist : i.actionDist = a.actionDist
  regModel : Passed .none name a.regModel i.regModel
  estimatedPscore : Passed .none name a.estimatedPscore i.estimatedPscore
  estimatedPscoreAvg : Passed .none name a.estimatedPscoreAvg i.estimatedPscoreAvg

/-- The same for `ContinuousOffPolicyEvaluation`. -/
structure ContReceives (fb : ContFeedback) (evalAction : Arg1 ℝ) (reg : ArrOrDict (Arg1 ℝ))
    (name : String) (i : ContArgs) : Prop where
  action : fb.action = some i.action
  reward : fb.reward = some i.reward
  pscore : fb.pscore = some i.pscore
  evalAction : i.evalAction = evalAction
  regModel : Passed .none name reg i.regModel

/-- The keyword arguments of the slate estimators: all of them get everything. -/
structure SlateReceives (fb : SlateFeedback K) (a : SlateMetaArgs K) (i : SlateIn K) : Prop where
  slateId : fb.slateId = some i.slateId
  action : fb.action = some i.action
  reward : fb.reward = some i.reward
  position : fb.position = some i.position
  logged : i.pscore = fb.pscore ∧ i.pscoreItem = fb.pscoreItem ∧ i.pscoreCascade = fb.pscoreCascade
  eval : i.evalPscore = a.evalPscore ∧ i.evalItem = a.evalItem ∧ i.evalCascade = a.evalCascade
  model : i.evalDist = a.evalDist ∧ i.qHat = a.qHat

/-- Whatever was supplied is in order: nothing (`absent`) or one array satisfying `ok`; or a dict all
of whose entries satisfy `ok`. -/
def ArrOrDict.AllSupplied {α : Type} (absent : α) (ok : α → Prop) : ArrOrDict α → Prop
  | .one x => x = absent ∨ ok x
  | .dict d => ∀ p ∈ d, ok p.2

/-- A three-dimensional array with the shape of `x`. -/
def Arg3.SameShape (x : Arr3 K) (a : Arg3 K) : Prop :=
  ∃ q : Arr3 K, a = .arr q ∧ q.n = x.n ∧ q.A = x.A ∧ q.L = x.L

/-- A one-dimensional array with `n` entries. -/
def Arg1.HasLen (n : ℕ) (a : Arg1 K) : Prop :=
  (∃ xs : List ℤ, a = .int xs ∧ xs.length = n) ∨ ∃ xs : List K, a = .flt xs ∧ xs.length = n

/-- The documented shapes of the arguments of `estimate_policy_values`: the action distribution has
three dimensions, predictions share its shape, and everything else has one entry per round
(`p_e_a`: one per action). -/
structure MetaArgs.WellShaped (a : MetaArgs K) (x : Arr3 K) : Prop where
  actionDist : a.actionDist = .arr x
  regModel : a.regModel.AllSupplied .none (Arg3.SameShape x)
  estimatedPscore : a.estimatedPscore.AllSupplied .none (Arg1.HasLen x.n)
  estIw : a.estIw.AllSupplied .none (Arg1.HasLen x.n)
  embed : a.embed.AllSupplied .none fun e => ∃ y, e = .arr y ∧ y.n = x.n
  piB : a.piB.AllSupplied .none fun p => ∃ y, p = .arr y ∧ y.n = x.n
  pEA : a.pEA.AllSupplied .none fun p => ∃ y, p = .arr y ∧ y.n = x.A

/-- The same for several loggers. -/
structure MultiMetaArgs.WellShaped (a : MultiMetaArgs K) (x : Arr3 K) : Prop where
  actionDist : a.actionDist = .arr x
  regModel : a.regModel.AllSupplied .none (Arg3.SameShape x)
  estimatedPscore : a.estimatedPscore.AllSupplied .none (Arg1.HasLen x.n)
  estimatedPscoreAvg : a.estimatedPscoreAvg.AllSupplied .none (Arg1.HasLen x.n)

namespace Log
variable {n A L : ℕ}

/-- The typed log as `bandit_feedback` (with some context). -/
def feedback (g : Log K n A L) (context : Arg2 K) : Feedback K where
  action := some (.int (List.ofFn fun i => ((g.action i : ℕ) : ℤ)))
  position := some (.int (List.ofFn fun i => ((g.position i : ℕ) : ℤ)))
  reward := some (.flt (List.ofFn g.reward))
  context := some context
  pscore := some (.flt (List.ofFn g.pscore))

/-- The call that passes the arrays of the typed log to every estimator. -/
def metaArgs (g : Log K n A L) : MetaArgs K where
  actionDist := .arr ⟨n, A, L, g.piE⟩
  regModel := .one (.arr ⟨n, A, L, g.q⟩)
  estimatedPscore := .one (.flt (List.ofFn g.estPscore))
  estIw := .one (.flt (List.ofFn g.estIw))

/-- The log with rewards and predictions in another unit. -/
def scale [Mul K] (c : K) (g : Log K n A L) : Log K n A L :=
  { g with reward := fun i => c * g.reward i, q := fun i a l => c * g.q i a l }

end Log

end Obp
