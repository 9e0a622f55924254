import Verif.Model.Helper

/-!
# Model of `obp/ope/estimators_tuning.py`
-/

namespace Obp

section generic
variable {K : Type} [Field K] [LinearOrder K]

/-- `min(dict.items(), key=lambda x: x[1])[0]` (`obp/ope/estimators_tuning.py:141`): Python's `min`
returns the first of the minimal items; ValueError on an empty dict. -/
def argminFirst {α : Type} : List (α × K) → Py α
  | [] => .error .valueError
  | x :: xs => .ok (xs.foldl (fun b y => if y.2 < b.2 then y else b) x).1

/-- The scan of `_tune_hyperparam_with_slope` (`obp/ope/estimators_tuning.py:174-189`) over the
sorted indices: `acc` holds the accepted `(theta_j, cnf_j)`, `prev` the last accepted index. -/
def slopeLoop (C : K) (stats : List (K × K)) : List (K × K) → Option ℕ → List ℕ → Py ℕ
  | _, prev, [] =>
    match prev with
    | some p => .ok p
    | none => .error .indexError
  | acc, prev, i :: is =>
    match stats[i]? with
    | none => .error .indexError
    | some s =>
      if acc.all (fun t => decide (|t.1 - s.1| ≤ s.2 + C * t.2)) then
        slopeLoop C stats (acc ++ [s]) (some i) is
      else
        match prev with
        | some p => .ok p
        | none => .error .indexError

/-- Selection part of `_tune_hyperparam_with_slope` (`obp/ope/estimators_tuning.py:174-189`): the
index of the chosen candidate. `argsort` stands for `np.argsort`, whose order on ties is
unspecified. -/
def slopeSelect (C : K) (argsort : List K → List ℕ) (stats : List (K × K)) : Py ℕ :=
  slopeLoop C stats [] none (argsort (stats.map Prod.snd)).reverse

/-- `a <= b` on hyperparameters, `np.inf` being the largest. -/
def Lam.leB : Lam K → Lam K → Bool
  | _, .inf => true
  | .inf, .fin _ => false
  | .fin a, .fin b => decide (a ≤ b)

end generic

/-- `tuning_method` -/
inductive TuneMethod
  | slope | mse
  deriving DecidableEq

/-- A `*Tuning` object (`obp/ope/estimators_tuning.py:69-78`): `best` is the attribute
`best_hyperparam`, absent before the first call. -/
structure Tuner where
  kind : Kind
  lambdas : List (Lam ℝ)
  method : TuneMethod
  useUB : Bool
  delta : ℝ
  est : Bool
  best : Option (Lam ℝ)

/-- Upper end of the hyperparameter range of the class (`None` means infinity). -/
noncomputable def Kind.lamMax : Kind → Option ℝ
  | .sgIpw | .sgDr => some 1
  | _ => none

/-- `self.lambdas.sort(reverse=True)` for IPW, DR, Switch-DR, `self.lambdas.sort()` for the others
(`obp/ope/estimators_tuning.py:422, 622, 842, 1062, 1291, 1490`). -/
noncomputable def sortLambdas (k : Kind) (ls : List (Lam ℝ)) : List (Lam ℝ) :=
  match k with
  | .ipw | .dr | .switchDr => ls.mergeSort fun a b => b.leB a
  | _ => ls.mergeSort fun a b => a.leB b

/-- `__post_init__` of the `*Tuning` classes (`obp/ope/estimators_tuning.py:80-114, 417-422,
617-622, 837-842, 1057-1062, 1286-1291, 1485-1490`). `lambdas = none` is an object that is not a
list, `method = none` an unknown method, `useUB`/`est = none` a value that is not a bool. A nan
`delta`, which `check_scalar` lets through, is not modelled (reported as nonFinite). -/
noncomputable def mkTuner (k : Kind) (lambdas : Option (List (PyScalar ℝ))) (method : Option TuneMethod)
    (useUB : Option Bool) (delta : PyScalar ℝ) (est : Option Bool) : Py Tuner := do
  let ls ← match lambdas with
    | none => .error .typeError
    | some [] => .error .valueError
    | some (l :: ls) => (l :: ls).mapM (checkLambda k.lamMax)
  let m ← match method with
    | none => .error .valueError
    | some m => pure m
  let ub ← match useUB with
    | none => .error .typeError
    | some b => pure b
  let d ← match delta with
    | .flt x => do
        raiseIf (x < 0) .valueError
        raiseIf (1 < x) .valueError
        pure x
    | .inf => .error .valueError
    | .negInf => .error .valueError
    | .nan => .error .nonFinite
    | _ => .error .typeError
  let e ← match est with
    | none => .error .typeError
    | some b => pure b
  pure ⟨k, sortLambdas k ls, m, ub, d, e, none⟩

/-- `_tune_hyperparam_with_mse` (`obp/ope/estimators_tuning.py:116-141`). Repeated candidates have
equal scores, so the dict is modelled by the list of items. A nan score is reported as nonFinite
instead of being compared. -/
noncomputable def Tuner.tuneMse (t : Tuner) (r : RoundIn ℝ) : Py (Lam ℝ) := do
  let items ← t.lambdas.mapM fun l => do
    let s ← (Estimator.mk t.kind l t.est).mseScore r t.useUB t.delta
    pure (l, s)
  argminFirst items

/-- `(theta, cnf)` of one candidate (`obp/ope/estimators_tuning.py:155-172`). -/
noncomputable def Tuner.slopeStat (tq : ℝ → ℝ → ℝ) (t : Tuner) (r : RoundIn ℝ) (l : Lam ℝ) :
    Py (ℝ × ℝ) := do
  let rr ← (Estimator.mk t.kind l false).round r
  let m ← npMean rr
  let lb ← estimateStudentTLowerBound tq rr t.delta
  pure (m, m - lb)

/-- `_tune_hyperparam_with_slope` (`obp/ope/estimators_tuning.py:143-189`). Non-finite statistics
are reported as nonFinite instead of being compared. -/
noncomputable def Tuner.tuneSlope (argsort : List ℝ → List ℕ) (tq : ℝ → ℝ → ℝ) (t : Tuner)
    (r : RoundIn ℝ) : Py (Lam ℝ) := do
  let stats ← t.lambdas.mapM (t.slopeStat tq r)
  let i ← slopeSelect (√6 - 1) argsort stats
  match t.lambdas[i]? with
  | some l => pure l
  | none => .error .indexError

/-- Choice of the tuning method (`obp/ope/estimators_tuning.py:244-261`). -/
noncomputable def Tuner.tune (argsort : List ℝ → List ℕ) (tq : ℝ → ℝ → ℝ) (t : Tuner)
    (r : RoundIn ℝ) : Py (Lam ℝ) :=
  match t.method with
  | .mse => t.tuneMse r
  | .slope => t.tuneSlope argsort tq r

/-- The base estimator at a hyperparameter. -/
def Tuner.base (t : Tuner) (l : Lam ℝ) : Estimator ℝ := ⟨t.kind, l, t.est⟩

/-- What the `*Tuning` classes pass on to `estimate_policy_value_with_tuning` and
`estimate_interval_with_tuning` (`obp/ope/estimators_tuning.py:484-491, 914-922, 1353-1359,
1562-1569`): positions are filled in, `pscore` is the selected propensity array, IPW classes pass no
predictions, and the two sub-Gaussian classes pass no `estimated_pscore`. -/
def Tuner.forward (t : Tuner) (a : EstArgs ℝ) (pos : List ℤ) : EstArgs ℝ where
  reward := a.reward
  action := a.action
  actionDist := a.actionDist
  pscore := if t.est then a.estimatedPscore else a.pscore
  position := .int pos
  estimatedPscore := match t.kind with
    | .sgIpw | .sgDr => .none
    | _ => a.estimatedPscore
  regModel := if t.kind.usesModel then a.regModel else .none

/-- `hasattr(self, "best_hyperparam")`, tuning when absent (`obp/ope/estimators_tuning.py:236-261`).
The tuning code reads the selected propensities. -/
noncomputable def Tuner.ensureTuned (argsort : List ℝ → List ℕ) (tq : ℝ → ℝ → ℝ) (t : Tuner)
    (r : RoundIn ℝ) (a : EstArgs ℝ) : Py (Lam ℝ) := do
  let ps ← choosePscore t.est a
  match t.best with
  | some l => pure l
  | none => t.tune argsort tq { r with pscore := ps.vals }

/-- `estimate_policy_value` of the `*Tuning` classes, as a state transformer: the outcome and the
object afterwards (`obp/ope/estimators_tuning.py:424-491, 624-702, 844-922,
1064-1142, 1293-1359, 1492-1569, 236-273`). The checks made by the subclass
are those of its base estimator (`Estimator.prepare`). -/
noncomputable def Tuner.estimatePolicyValue (argsort : List ℝ → List ℕ) (tq : ℝ → ℝ → ℝ) (t : Tuner)
    (a : EstArgs ℝ) : Py ℝ × Tuner :=
  match (t.base .inf).prepare a with
  | .error e => (.error e, t)
  | .ok r =>
    let a' := t.forward a r.position
    match t.ensureTuned argsort tq r a' with
    | .error e => (.error e, t)
    | .ok l => ((t.base l).estimatePolicyValue a', { t with best := some l })

/-- `estimate_interval` of the `*Tuning` classes (`obp/ope/estimators_tuning.py:493-576, 704-797,
924-1017, 1144-1236, 1361-1442, 1571-1663, 333-371`).
The base estimator is built with the default `use_estimated_pscore=False` and receives the selected
propensities as `pscore`. -/
noncomputable def Tuner.estimateInterval (argsort : List ℝ → List ℕ) (tq : ℝ → ℝ → ℝ) (t : Tuner)
    (a : EstArgs ℝ) (c : CiArgs ℝ) (draws : List (List ℕ)) : Py (CiOut ℝ) × Tuner :=
  match (t.base .inf).prepare a with
  | .error e => (.error e, t)
  | .ok r =>
    let a' := t.forward a r.position
    match t.ensureTuned argsort tq r a' with
    | .error e => (.error e, t)
    | .ok l =>
      (do
        let ps ← choosePscore t.est a'
        (Estimator.mk t.kind l false).estimateInterval { a' with pscore := ps } c draws,
       { t with best := some l })

end Obp
