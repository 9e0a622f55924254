import Verif.Model.Utils

/-!
# Model of `obp/ope/regression_model.py`, `regression_model_slate.py` and `classification_model.py`

The arrays of a data set have one leading entry per round; after validation the columns are kept as a list
of rows. Base models are parameters (`Learner`, `Classifier`).
-/

namespace Obp

/-! ### base models -/

/-- A scikit-learn estimator as used by the regression models: `fit(X, y, sample_weight)` turns the object's
state into a new state or raises; `predict(X)` (`predict_proba(X)[:, 1]` for a classifier) is computed row
by row. Nothing says that `fit` forgets the previous state (`warm_start`). -/
structure Learner (M K : Type) where
  fit : M → List (List K) → List K → Option (List K) → Py M
  predict : M → List K → K

/-- A scikit-learn classifier: `fit(X, y)` and one row of `predict_proba(X)`, with one column per class in
`classes_`. -/
structure Classifier (M K : Type) where
  fit : M → List (List K) → List ℤ → Py M
  proba : M → List K → List K

section
variable {K : Type} [Field K] [LinearOrder K] {M : Type} {A L : ℕ}

/-- Row `a` of an array used as a table, `action_context[a]`: IndexError when out of bounds. -/
def Arr2.row (t : Arr2 K) (a : ℤ) : Py (List K) :=
  match wrapIdx t.n a with
  | some i => .ok (List.ofFn (t.val i))
  | none => .error .indexError

/-- `np.eye(n)` -/
def eye (n : ℕ) : Arr2 K := ⟨n, n, fun i j => if i = j then 1 else 0⟩

/-- A validated data set: one entry per round. -/
structure Rounds (α : Type) where
  n : ℕ
  get : Fin n → α

/-! ### `RegressionModel` -/

/-- `fitting_method` of `RegressionModel` -/
inductive FitMethod
  | normal
  | iw
  | mrdr
  deriving DecidableEq

/-- The attributes of a `RegressionModel` besides its base models. -/
structure RegConfig (K : Type) where
  nActions : ℕ
  lenList : ℕ
  actionContext : Arg2 K
  method : FitMethod

/-- `sklearn.utils.check_scalar(x, name, int, min_val=lo)`: `bool` is an `int`. -/
def checkIntMin (lo : ℤ) : PyScalar K → Py ℤ
  | .int z => if z < lo then .error .valueError else .ok z
  | .bool b => if (if b then 1 else 0) < lo then .error .valueError else .ok (if b then 1 else 0)
  | _ => .error .typeError

/-- `obp/ope/regression_model.py:71-78`: the test of `fitting_method`. -/
def FitMethod.ofName : String → Py FitMethod
  | "normal" => .ok .normal
  | "iw" => .ok .iw
  | "mrdr" => .ok .mrdr
  | _ => .error .valueError

/-- `obp/ope/regression_model.py:67-87` `RegressionModel.__post_init__`: `isEstimator` says whether
`base_model` is a `BaseEstimator`. -/
def mkRegression (nActions lenList : PyScalar K) (actionContext : Arg2 K) (method : String)
    (isEstimator : Bool) : Py (RegConfig K) := do
  let n ← checkIntMin 2 nActions
  let l ← checkIntMin 1 lenList
  let m ← FitMethod.ofName method
  raiseIf (isEstimator = false) .valueError
  pure { nActions := n.toNat, lenList := l.toNat, method := m
         actionContext := match actionContext with
           | .none => .arr (eye n.toNat)
           | c => c }

/-- The data arguments of `RegressionModel.fit` and `fit_predict`. -/
structure RegArgs (K : Type) where
  context : Arg2 K
  action : Arg1 K
  reward : Arg1 K
  pscore : Arg1 K := .none
  position : Arg1 K := .none
  actionDist : Arg3 K := .none

/-- One round of validated data. -/
structure RegRow (K : Type) (A L : ℕ) where
  x : List K
  action : ℤ
  reward : K
  pscore : K
  position : ℤ
  dist : Option (Fin A → Fin L → K)

/-- The entries of an array whose shape is as expected. -/
def Arr3.view (t : Arr3 K) (n A L : ℕ) : Option (Fin n → Fin A → Fin L → K) :=
  if h : t.n = n ∧ t.A = A ∧ t.L = L then
    some fun i a l => t.val (i.cast h.1.symm) (a.cast h.2.1.symm) (l.cast h.2.2.symm)
  else none

/-- `obp/ope/regression_model.py:135-141`, `:285-291` and `classification_model.py:140-147`, `:483-489`: the
positions used for training. -/
def trainPositions (lenList : ℕ) (n : ℕ) (position : Arg1 K) : Py (List ℤ) :=
  if position.isNone || lenList = 1 then .ok (List.replicate n 0)
  else do
    let ps ← position.ints
    let m ← npMax ps
    raiseIf ((lenList : ℤ) ≤ m) .valueError
    pure ps

/-- `obp/ope/regression_model.py:143-150`, `:293-300`: the shape tests on `action_dist`. -/
def checkDistShape (n A L : ℕ) : Arg3 K → Py (Fin n → Fin A → Fin L → K)
  | .arr t => match t.view n A L with
    | some d => .ok d
    | none => .error .valueError
  | _ => .error .valueError

/-- `obp/ope/regression_model.py:125-154` without the test on the sums of `action_dist`, and `:272-302`:
validation and defaults, and the data as rows. The columns have `n` entries each by validation, so the
default of `getD` is not used. `action_dist` is ignored by the fitting method "normal". -/
def RegConfig.prepare (cfg : RegConfig K) (a : RegArgs K) :
    Py (Rounds (RegRow K cfg.nActions cfg.lenList)) := do
  checkBanditFeedbackInputs { context := a.context, action := a.action, reward := a.reward
                              position := a.position, pscore := a.pscore
                              actionContext := cfg.actionContext }
  let ctx ← checkArray2 a.context
  let acts ← a.action.ints
  let pos ← trainPositions cfg.lenList ctx.n a.position
  let dist ← if cfg.method = .normal then pure none
    else do
      let d ← checkDistShape ctx.n cfg.nActions cfg.lenList a.actionDist
      pure (some d)
  let ps := if a.pscore.isNone then List.replicate ctx.n (1 / (cfg.nActions : K)) else a.pscore.vals
  pure ⟨ctx.n, fun i =>
    { x := List.ofFn (ctx.val i), action := acts.getD i 0, reward := a.reward.vals.getD i 0
      pscore := ps.getD i 0, position := pos.getD i 0, dist := dist.map (· i) }⟩

/-- `obp/ope/regression_model.py:358` `_pre_process_for_reg_model`, one row. -/
def regFeature (ac : Arr2 K) (x : List K) (action : ℤ) : Py (List K) := do
  let c ← ac.row action
  pure (x ++ c)

/-- `action_dist[i, action, pos_]` of one round: TypeError when there is no array. -/
def RegRow.distAt (r : RegRow K A L) (p : Fin L) : Py K :=
  match r.dist, wrapIdx A r.action with
  | none, _ => .error .typeError
  | some _, none => .error .indexError
  | some d, some a => .ok (d a p)

/-- `obp/ope/regression_model.py:169-178`: the sample weights of the rounds selected by `idx`. -/
def regWeights (method : FitMethod) (rows : List (RegRow K A L)) (p : Fin L) : Py (List K) := do
  let ds ← rows.mapM fun r => r.distAt p
  let at_ := (rows.zip ds).filter fun q => q.1.position = (p.val : ℤ)
  at_.mapM fun q => match method with
    | .iw => npDiv q.2 q.1.pscore
    | _ => npDiv (q.2 * (1 - q.1.pscore)) (q.1.pscore ^ 2)

/-- `obp/ope/regression_model.py:157-181`: training of the model of position `p`. -/
def fitPosition (lrn : Learner M K) (method : FitMethod) (ac : Arr2 K) (rows : List (RegRow K A L))
    (p : Fin L) (m : M) : Py M := do
  let at_ := rows.filter fun r => r.position = (p.val : ℤ)
  let X ← at_.mapM fun r => regFeature ac r.x r.action
  raiseIf (X.length = 0) .valueError
  let ys := at_.map (·.reward)
  match method with
  | .normal => lrn.fit m X ys none
  | w => do
      let ws ← regWeights w rows p
      lrn.fit m X ys (some ws)

/-- `obp/ope/regression_model.py:151-152`: `np.allclose(action_dist.sum(axis=1), 1)`. -/
def distRowsSumToOne (rows : List (RegRow K A L)) : Bool :=
  rows.all fun r => match r.dist with
    | none => true
    | some d => decide (∀ p, closeToOne (∑ a, d a p) = true)

/-- `obp/ope/regression_model.py:151-181` on validated rows: the loop over positions. The models of the
positions before a failing one keep their new state in the code; here a failure is just the exception.
An empty data set is rejected by the validation (`action.min()`). -/
def RegConfig.fitRows (lrn : Learner M K) (cfg : RegConfig K) (rows : List (RegRow K cfg.nActions cfg.lenList))
    (ms : Fin cfg.lenList → M) : Py (Fin cfg.lenList → M) := do
  raiseIf (rows.length = 0) .valueError
  raiseIf (cfg.method ≠ .normal && distRowsSumToOne rows = false) .valueError
  let ac ← checkArray2 cfg.actionContext
  (List.finRange cfg.lenList).foldlM (fun ms (p : Fin _) => do
    let m ← fitPosition lrn cfg.method ac rows p (ms p)
    pure (Function.update ms p m)) ms

/-- `obp/ope/regression_model.py:89-181` `RegressionModel.fit` -/
def RegConfig.fit (lrn : Learner M K) (cfg : RegConfig K) (a : RegArgs K) (ms : Fin cfg.lenList → M) :
    Py (Fin cfg.lenList → M) := do
  let data ← cfg.prepare a
  cfg.fitRows lrn (List.ofFn data.get) ms

/-- `obp/ope/regression_model.py:197-212` `RegressionModel.predict` on the rows of a context: IndexError when
`action_context` has fewer rows than there are actions. -/
def RegConfig.predictRows (lrn : Learner M K) (cfg : RegConfig K) (ms : Fin cfg.lenList → M)
    (xs : List (List K)) : Py (List (Fin cfg.nActions → Fin cfg.lenList → K)) := do
  let ac ← checkArray2 cfg.actionContext
  if h : cfg.nActions ≤ ac.n then
    pure (xs.map fun x a p => lrn.predict (ms p) (x ++ List.ofFn (ac.val (a.castLE h))))
  else .error .indexError

/-! ### cross-fitting -/

/-- A list of (train, test) index pairs as produced by `KFold.split`. -/
abbrev Folds (n : ℕ) := List (List (Fin n) × List (Fin n))

/-- `kf = KFold(n_splits=k, shuffle=True)`; `kf.split(context)`: ValueError when there are more folds than
samples. `folds` are the pairs the generator produces. -/
def kfoldSplit {n : ℕ} (k : ℤ) (folds : Folds n) : Py (Folds n) := do
  raiseIf ((n : ℤ) < k) .valueError
  pure folds

/-- The loop `for train_idx, test_idx in kf.split(context): fit(...[train_idx]); out[test_idx] = predict(...)`
(`obp/ope/regression_model.py:318-330`, `classification_model.py:311-323`, `:611-622`). The base models are
the same objects in all folds. -/
def crossFit {n : ℕ} {V : Type} (fit : M → List (Fin n) → Py M) (predict : M → List (Fin n) → Py (List V))
    (folds : Folds n) (s : M × (Fin n → V)) : Py (M × (Fin n → V)) :=
  folds.foldlM (fun s f => do
    let m ← fit s.1 f.1
    let vs ← predict m f.2
    pure (m, (f.2.zip vs).foldl (fun out p => Function.update out p.1 p.2) s.2)) s

/-- `action_dist[train_idx]` (`obp/ope/regression_model.py:319-321`): which inputs raise. -/
def sliceDist {n : ℕ} (idx : List (Fin n)) : Arg3 K → Py Unit
  | .none => .ok ()
  | .notArray => .error .typeError
  | .nd [] => .error .indexError
  | .nd (s :: _) => raiseIf (idx.any fun i => decide (s ≤ i.val)) .indexError
  | .arr t => raiseIf (idx.any fun i => decide (t.n ≤ i.val)) .indexError

/-- `obp/ope/regression_model.py:214-331` `RegressionModel.fit_predict`; `folds` are the index pairs that
`KFold` produces for the data. -/
def RegConfig.fitPredict (lrn : Learner M K) (cfg : RegConfig K) (a : RegArgs K) (nFolds : PyScalar K)
    (folds : ∀ n, Folds n) (ms : Fin cfg.lenList → M) :
    Py (List (Fin cfg.nActions → Fin cfg.lenList → K)) := do
  let data ← cfg.prepare a
  let k ← checkIntMin 1 nFolds
  if k = 1 then do
    let ms' ← cfg.fitRows lrn (List.ofFn data.get) ms
    cfg.predictRows lrn ms' (List.ofFn fun i => (data.get i).x)
  else do
    let fs ← kfoldSplit k (folds data.n)
    let out ← crossFit
      (fun ms idx => do
        sliceDist idx a.actionDist
        cfg.fitRows lrn (idx.map data.get) ms)
      (fun ms idx => cfg.predictRows lrn ms (idx.map fun i => (data.get i).x))
      fs (ms, fun _ _ _ => 0)
    pure (List.ofFn out.2)

/-! ### `PropensityScoreEstimator` -/

/-- One round of the classification models' data. -/
structure ClfRow (K : Type) (A L : ℕ) where
  x : List K
  action : ℤ
  position : ℤ
  dist : Fin A → Fin L → K

/-- `obp/ope/classification_model.py:475-489`, `:581-594`: validation and defaults of
`PropensityScoreEstimator`. -/
def preparePropensity (A L : ℕ) (context : Arg2 K) (action position : Arg1 K) : Py (Rounds (ClfRow K A L)) := do
  let acts ← action.ints
  checkBanditFeedbackInputs { context := context, action := action
                              reward := .int (List.replicate acts.length 0)
                              position := position, actionContext := .arr (eye A) }
  let ctx ← checkArray2 context
  let pos ← trainPositions L ctx.n position
  pure ⟨ctx.n, fun i =>
    { x := List.ofFn (ctx.val i), action := acts.getD i 0, position := pos.getD i 0
      dist := fun _ _ => 0 }⟩

/-- `obp/ope/classification_model.py:492-495`: one position. -/
def propensityFitPosition (clf : Classifier M K) (rows : List (ClfRow K A L)) (p : Fin L) (m : M) : Py M := do
  let at_ := rows.filter fun r => r.position = (p.val : ℤ)
  raiseIf (at_.length = 0) .valueError
  clf.fit m (at_.map (·.x)) (at_.map (·.action))

/-- `obp/ope/classification_model.py:491-495` on validated rows. -/
def propensityFitRows (clf : Classifier M K) (rows : List (ClfRow K A L)) (ms : Fin L → M) :
    Py (Fin L → M) := do
  raiseIf (rows.length = 0) .valueError
  (List.finRange L).foldlM (fun ms (p : Fin _) => do
    let m ← propensityFitPosition clf rows p (ms p)
    pure (Function.update ms p m)) ms

/-- `predict_proba(x)[action]` of one row: IndexError when there is no such column. -/
def probaColumn (row : List K) (action : ℤ) : Py K :=
  match wrapIdx row.length action with
  | some i => .ok (row.get i)
  | none => .error .indexError

/-- `obp/ope/classification_model.py:525-531`: the entry of one round with context `x`, logged action `a` and
position `pos`. -/
def propensityRound (clf : Classifier M K) (ms : Fin L → M) (x : List K) (a pos : ℤ) : Py K :=
  if h : 0 ≤ pos ∧ pos < (L : ℤ) then probaColumn (clf.proba (ms ⟨pos.toNat, by omega⟩) x) a
  else .ok 0

/-- `obp/ope/classification_model.py:524-532` `PropensityScoreEstimator.predict`: rows are
(context, action, position). A round whose position is none of `0, ..., len_list - 1` keeps the
initial zero. Without positions (`position=None`) `position == pos_` is the Boolean `False` for every
position, the index selects nothing and every entry keeps the initial zero. -/
def propensityPredict (clf : Classifier M K) (ms : Fin L → M) (rows : List (List K × ℤ))
    (position : Option (List ℤ)) : Py (List K) :=
  match position with
  | none => .ok (List.replicate rows.length 0)
  | some ps => (rows.zip ps).mapM fun q => propensityRound clf ms q.1.1 q.1.2 q.2

/-- `obp/ope/classification_model.py:534-633` `PropensityScoreEstimator.fit_predict` (without the recording
for `evaluate_model_performance`). -/
def propensityFitPredict (clf : Classifier M K) (A L : ℕ) (context : Arg2 K) (action position : Arg1 K)
    (nFolds : PyScalar K) (folds : ∀ n, Folds n) (ms : Fin L → M) : Py (List K) := do
  let data : Rounds (ClfRow K A L) ← preparePropensity A L context action position
  let k ← checkIntMin 1 nFolds
  let pred (ms : Fin L → M) (rs : List (ClfRow K A L)) :=
    propensityPredict clf ms (rs.map fun r => (r.x, r.action)) (some (rs.map (·.position)))
  if k = 1 then do
    let ms' ← propensityFitRows clf (List.ofFn data.get) ms
    pred ms' (List.ofFn data.get)
  else do
    let fs ← kfoldSplit k (folds data.n)
    let out ← crossFit (fun ms idx => propensityFitRows clf (idx.map data.get) ms)
      (fun ms idx => pred ms (idx.map data.get)) fs (ms, fun _ => 0)
    pure (List.ofFn out.2)

/-! ### `ImportanceWeightEstimator` -/

/-- `fitting_method` of `ImportanceWeightEstimator` -/
inductive IweMethod
  | sample
  | raw
  deriving DecidableEq

/-- The attributes of an `ImportanceWeightEstimator` besides its base models. -/
structure IweConfig (K : Type) where
  nActions : ℕ
  lenList : ℕ
  actionContext : Arg2 K
  method : IweMethod

/-- `obp/ope/classification_model.py:72-78`: the test of `fitting_method`. -/
def IweMethod.ofName : String → Py IweMethod
  | "sample" => .ok .sample
  | "raw" => .ok .raw
  | _ => .error .valueError

/-- `check_scalar(self.calibration_cv, "calibration_cv", int)`, then `self.calibration_cv > 1`
(`obp/ope/classification_model.py:71, 84` and `:433, 439`): are the classifiers calibrated? -/
def checkCalibration : PyScalar K → Py Bool
  | .int z => .ok (decide (1 < z))
  | .bool _ => .ok false
  | _ => .error .typeError

/-- `obp/ope/classification_model.py:67-98` `ImportanceWeightEstimator.__post_init__`; `isEstimator` says
whether `base_model` is a `BaseEstimator`. The fitting method "raw" always uses the identity as action
context. The result says in addition whether the classifiers are wrapped in `CalibratedClassifierCV`. -/
def mkIwe (nActions lenList calibrationCv : PyScalar K) (actionContext : Arg2 K) (method : String)
    (isEstimator : Bool) : Py (IweConfig K × Bool) := do
  let n ← checkIntMin 2 nActions
  let l ← checkIntMin 1 lenList
  let c ← checkCalibration calibrationCv
  let m ← IweMethod.ofName method
  raiseIf (!isEstimator) .valueError
  pure ({ nActions := n.toNat, lenList := l.toNat, method := m
          actionContext := match actionContext, m with
            | .none, _ => .arr (eye n.toNat)
            | _, .raw => .arr (eye n.toNat)
            | ctx, .sample => ctx }, c)

/-- `obp/ope/classification_model.py:429-451` `PropensityScoreEstimator.__post_init__`: the number of
actions, of positions, and whether the classifiers are calibrated. -/
def mkPropensity (nActions lenList calibrationCv : PyScalar K) (isEstimator : Bool) : Py (ℕ × ℕ × Bool) := do
  let n ← checkIntMin 2 nActions
  let l ← checkIntMin 1 lenList
  let c ← checkCalibration calibrationCv
  raiseIf (!isEstimator) .valueError
  pure (n.toNat, l.toNat, c)

/-- `obp/ope/classification_model.py:130-153`, `:268-294`: validation and defaults. -/
def IweConfig.prepare (cfg : IweConfig K) (context : Arg2 K) (action position : Arg1 K) (actionDist : Arg3 K) :
    Py (Rounds (ClfRow K cfg.nActions cfg.lenList)) := do
  let acts ← action.ints
  checkBanditFeedbackInputs { context := context, action := action
                              reward := .int (List.replicate acts.length 0)
                              position := position, actionContext := cfg.actionContext }
  let ctx ← checkArray2 context
  let pos ← trainPositions cfg.lenList ctx.n position
  let d ← checkDistShape ctx.n cfg.nActions cfg.lenList actionDist
  raiseIf (decide (∀ i p, closeToOne (∑ a, d i a p) = true) = false) .valueError
  pure ⟨ctx.n, fun i =>
    { x := List.ofFn (ctx.val i), action := acts.getD i 0, position := pos.getD i 0, dist := d i }⟩

/-- `obp/ope/classification_model.py:381-394` `_pre_process_for_clf_model` for training: the logged rows with
class 0, then the evaluation rows with class 1; `sampled` are the sampled actions. -/
def iweTraining (method : IweMethod) (ac : Arr2 K) (rows : List (ClfRow K A L)) (p : Fin L)
    (sampled : List ℕ) : Py (List (List K) × List ℤ) := do
  let behaviour ← rows.mapM fun r => regFeature ac r.x r.action
  let evaluation ← match method with
    | .raw => pure (rows.map fun r => r.x ++ List.ofFn fun a => r.dist a p)
    | .sample => (rows.zip sampled).mapM fun q => regFeature ac q.1.x q.2
  pure (behaviour ++ evaluation, List.replicate behaviour.length 0 ++ List.replicate evaluation.length 1)

/-- `obp/ope/classification_model.py:158-177` for one position. `draws p k` are the `k` uniform draws of
`sample_action_fast` for position `p`. The code samples for all positions before it trains; sampling does
not fail, so the two loops are fused here. -/
def iweFitPosition (clf : Classifier M K) (method : IweMethod) (ac : Arr2 K) (draws : ℕ → ℕ → List K)
    (rows : List (ClfRow K A L)) (p : Fin L) (m : M) : Py M := do
  let at_ := rows.filter fun r => r.position = (p.val : ℤ)
  let sampled ← match method with
    | .sample => sampleActionFast (at_.map fun r => List.ofFn fun a => r.dist a p) (draws p at_.length)
    | .raw => pure (List.replicate at_.length 0)
  let t ← iweTraining method ac at_ p sampled
  raiseIf (t.1.length = 0) .valueError
  clf.fit m t.1 t.2

/-- `obp/ope/classification_model.py:155-177` on validated rows. -/
def IweConfig.fitRows (clf : Classifier M K) (cfg : IweConfig K) (draws : ℕ → ℕ → List K)
    (rows : List (ClfRow K cfg.nActions cfg.lenList)) (ms : Fin cfg.lenList → M) :
    Py (Fin cfg.lenList → M) := do
  raiseIf (rows.length = 0) .valueError
  let ac ← checkArray2 cfg.actionContext
  (List.finRange cfg.lenList).foldlM (fun ms (p : Fin _) => do
    let m ← iweFitPosition clf cfg.method ac draws rows p (ms p)
    pure (Function.update ms p m)) ms

/-- `obp/ope/classification_model.py:206-215`: the estimated weight of one round. Column 1 is the evaluation
class; a round at none of the positions keeps the initial zero. -/
def iweRound (clf : Classifier M K) (ac : Arr2 K) (ms : Fin L → M) (x : List K) (a pos : ℤ) : Py K := do
  let pr ← if h : 0 ≤ pos ∧ pos < (L : ℤ) then do
      let f ← regFeature ac x a
      probaColumn (clf.proba (ms ⟨pos.toNat, by omega⟩) f) 1
    else .ok 0
  npDiv pr (1 - pr)

/-- `obp/ope/classification_model.py:206-215` `ImportanceWeightEstimator.predict`: rows are
(context, action). scikit-learn raises ValueError on an empty matrix and, for `position=None`, on the
three-dimensional array that the code builds. -/
def IweConfig.predict (clf : Classifier M K) (cfg : IweConfig K) (ms : Fin cfg.lenList → M)
    (rows : List (List K × ℤ)) (position : Option (List ℤ)) : Py (List K) := do
  let ac ← checkArray2 cfg.actionContext
  match position with
  | none => .error .valueError
  | some ps => do
      raiseIf ((List.finRange cfg.lenList).any fun p => ps.all fun z => z ≠ (p.val : ℤ)) .valueError
      (rows.zip ps).mapM fun q => iweRound clf ac ms q.1.1 q.1.2 q.2

/-- `obp/ope/classification_model.py:217-348` `ImportanceWeightEstimator.fit_predict` (without the recording
for `evaluate_model_performance`). -/
def IweConfig.fitPredict (clf : Classifier M K) (cfg : IweConfig K) (draws : ℕ → ℕ → List K)
    (context : Arg2 K) (action position : Arg1 K) (actionDist : Arg3 K) (nFolds : PyScalar K)
    (folds : ∀ n, Folds n) (ms : Fin cfg.lenList → M) : Py (List K) := do
  let data ← cfg.prepare context action position actionDist
  let k ← checkIntMin 1 nFolds
  let pred (ms : Fin cfg.lenList → M) (rs : List (ClfRow K cfg.nActions cfg.lenList)) :=
    cfg.predict clf ms (rs.map fun r => (r.x, r.action)) (some (rs.map (·.position)))
  if k = 1 then do
    let ms' ← cfg.fitRows clf draws (List.ofFn data.get) ms
    pred ms' (List.ofFn data.get)
  else do
    let fs ← kfoldSplit k (folds data.n)
    let out ← crossFit (fun ms idx => cfg.fitRows clf draws (idx.map data.get) ms)
      (fun ms idx => pred ms (idx.map data.get)) fs (ms, fun _ => 0)
    pure (List.ofFn out.2)

/-! ### `SlateRegressionModel` -/

/-- One slate of the validated data of `SlateRegressionModel`. -/
structure SlateRegRow (K : Type) (L A : ℕ) where
  x : List K
  action : Fin L → ℕ
  reward : Fin L → K
  iw : Fin L → K
  dist : Fin L → Fin A → K

/-- The arguments of `SlateRegressionModel.fit`. -/
structure SlateRegArgs (K : Type) where
  context : Arg2 K
  action : Arg1 K
  reward : Arg1 K
  pscoreCascade : Arg1 K
  evalPscoreCascade : Arg1 K
  evalDist : Arg1 K

/-- `np.allclose(ones, sums)` for one entry: here the sum is the reference value. -/
def oneCloseTo (s : K) : Bool := decide (|1 - s| ≤ 1 / 10 ^ 8 + 1 / 10 ^ 5 * |s|)

/-- `obp/ope/regression_model_slate.py:111-179`: validation, and the data as rows (`reshape`). Lengths are
checked before, so the default of `getD` is not used. -/
def prepareSlateReg (L A : ℕ) (a : SlateRegArgs K) : Py (List (SlateRegRow K L A)) := do
  let ctx ← checkArray2 a.context
  checkArray1 a.action
  checkArray1 a.reward
  checkArray1 a.pscoreCascade
  checkArray1 a.evalPscoreCascade
  checkArray1 a.evalDist
  let n1 ← a.action.shape0
  let n2 ← a.reward.shape0
  let n3 ← a.pscoreCascade.shape0
  let n4 ← a.evalPscoreCascade.shape0
  raiseIf (¬ (n1 = n2 ∧ n2 = n3 ∧ n3 = n4 ∧ n4 = ctx.n * L)) .valueError
  let n5 ← a.evalDist.shape0
  raiseIf (n5 ≠ ctx.n * L * A) .valueError
  let okInt ← intInRange a.action A
  raiseIf (okInt = false) .valueError
  raiseIf (a.pscoreCascade.vals.any fun p => decide (p ≤ 0) || decide (1 < p)) .valueError
  raiseIf (a.evalPscoreCascade.vals.any fun p => decide (p ≤ 0) || decide (1 < p)) .valueError
  raiseIf ((List.range (ctx.n * L)).any fun j =>
    !oneCloseTo (∑ b : Fin A, a.evalDist.vals.getD (j * A + b) 0)) .valueError
  let acts ← a.action.ints
  pure (List.ofFn fun i : Fin ctx.n =>
    { x := List.ofFn (ctx.val i)
      action := fun l => (acts.getD (i * L + l) 0).toNat
      reward := fun l => a.reward.vals.getD (i * L + l) 0
      iw := fun l => a.evalPscoreCascade.vals.getD (i * L + l) 0 / a.pscoreCascade.vals.getD (i * L + l) 0
      dist := fun l b => a.evalDist.vals.getD ((i * L + l) * A + b) 0 })

/-- The actions at the first `k` positions, as numbers (`action[i, :k]`). -/
def SlateRegRow.prefix (r : SlateRegRow K L A) (k : ℕ) : List K :=
  ((List.finRange L).filter fun l => l.val < k).map fun l => (r.action l : K)

/-- `obp/ope/regression_model_slate.py:348-390` `_preprocess_for_reg_model`: the target of one slate at
position `p`, given the model of the next position. -/
def slateTarget (lrn : Learner M K) (ms : Fin L → M) (r : SlateRegRow K L A) (p : Fin L) : K :=
  r.reward p +
    if h : p.val + 1 < L then
      ∑ b : Fin A, r.dist ⟨p.val + 1, h⟩ b *
        lrn.predict (ms ⟨p.val + 1, h⟩) (r.x ++ (r.prefix (p.val + 1) ++ [(b.val : K)]))
    else 0

/-- `obp/ope/regression_model_slate.py:181-197`: the loop over positions from the last to the first; `useIw`
says whether `fitting_method` is "iw". -/
def slateFitRows (lrn : Learner M K) (useIw : Bool) (rows : List (SlateRegRow K L A)) (ms : Fin L → M) :
    Py (Fin L → M) :=
  (List.finRange L).reverse.foldlM (fun ms (p : Fin _) => do
    let X := rows.map fun r => r.x ++ r.prefix (p.val + 1)
    let y := rows.map fun r => slateTarget lrn ms r p
    let w := rows.map fun r => if useIw then r.iw p else 1
    let m ← lrn.fit (ms p) X y (some w)
    pure (Function.update ms p m)) ms

/-- `obp/ope/regression_model_slate.py:76-197` `SlateRegressionModel.fit` -/
def slateFit (lrn : Learner M K) (useIw : Bool) (A : ℕ) (a : SlateRegArgs K) (ms : Fin L → M) :
    Py (Fin L → M) := do
  let rows : List (SlateRegRow K L A) ← prepareSlateReg L A a
  slateFitRows lrn useIw rows ms

/-- `obp/ope/regression_model_slate.py:199-254` `SlateRegressionModel.predict`: the flat array, rounds first,
then positions, then actions. -/
def slatePredict (lrn : Learner M K) (A : ℕ) (ms : Fin L → M) (context : Arg2 K) (action : Arg1 K) :
    Py (List K) := do
  let ctx ← checkArray2 context
  checkArray1 action
  let a0 ← action.shape0
  raiseIf (a0 ≠ ctx.n * L) .valueError
  pure (List.ofFn fun j : Fin (ctx.n * L * A) =>
    let i := j.divNat.divNat
    let p := j.divNat.modNat
    lrn.predict (ms p) (List.ofFn (ctx.val i) ++
      (((List.finRange L).filter fun l => l.val < p.val).map (fun l : Fin L => action.vals.getD (i * L + l) 0) ++
        [(j.modNat.val : K)])))

/-- `obp/ope/regression_model_slate.py:256-305` `SlateRegressionModel.fit_predict` -/
def slateFitPredict (lrn : Learner M K) (useIw : Bool) (A : ℕ) (a : SlateRegArgs K) (ms : Fin L → M) :
    Py (List K) := do
  let ms' ← slateFit lrn useIw A a ms
  slatePredict lrn A ms' a.context a.action

end

end Obp
