import Verif.Model.ContextFree
import Verif.Model.Utils
import Mathlib.Analysis.SpecialFunctions.Sqrt
import Mathlib.Analysis.SpecialFunctions.Log.Basic
import Mathlib.Data.Matrix.Mul
import Mathlib.LinearAlgebra.Matrix.Notation

/-!
# The linear and logistic policies (`obp/policy/linear.py`, `obp/policy/logistic.py`)

Floats are the real numbers. A context given to `update_params` is one row (shape `(1, dim)`); a
context given to `select_action` is a list of rows of the right dimension. The generator is an
arbitrary state machine. `scipy.optimize.minimize` is an arbitrary function.
-/

namespace Obp
open Matrix

/-- The generator's methods used by the contextual policies. (Library behaviour.) -/
structure GaussRng (R : Type) extends Rng R ℝ where
  /-- `multivariate_normal(mean, cov)` -/
  multivariateNormal : R → {d : ℕ} → (Fin d → ℝ) → Matrix (Fin d) (Fin d) ℝ → (Fin d → ℝ) × R
  /-- `normal(loc, scale, size=dim)` -/
  normal : R → {d : ℕ} → (Fin d → ℝ) → (Fin d → ℝ) → (Fin d → ℝ) × R

/-- The checks of `BaseContextualPolicy.__post_init__` (`obp/policy/base.py:112-115`), for integer
arguments; the result carries `dim` in addition. -/
def mkCtxConfig (dim nActions lenList batchSize : ℤ) : Py (ℕ × CfConfig) := do
  raiseIf (dim < 1) .valueError
  let c ← mkCfConfig nActions lenList batchSize
  pure (dim.toNat, c)

/-! ### Linear policies -/

/-- The attributes of a linear policy (`obp/policy/base.py:116-118`, `obp/policy/linear.py:44-53`).
`reward_lists` and `context_lists` are not used by the linear policies and left out. -/
structure LinState (R : Type) (n d : ℕ) where
  nTrial : ℕ
  rng : R
  actionCounts : Fin n → ℕ
  thetaHat : Fin n → Fin d → ℝ
  aInv : Fin n → Matrix (Fin d) (Fin d) ℝ
  b : Fin n → Fin d → ℝ
  aInvTemp : Fin n → Matrix (Fin d) (Fin d) ℝ
  bTemp : Fin n → Fin d → ℝ

section
variable {R : Type} {n d : ℕ}

/-- `__post_init__` (`obp/policy/base.py:116-118`, `obp/policy/linear.py:44-53`). -/
noncomputable def LinState.init (ops : Rng R ℝ) (n d : ℕ) : LinState R n d where
  nTrial := 0
  rng := ops.seeded
  actionCounts := fun _ => 0
  thetaHat := fun _ _ => 0
  aInv := fun _ => 1
  b := fun _ _ => 0
  aInvTemp := fun _ => 1
  bTemp := fun _ _ => 0

/-- `initialize`, inherited from `BaseContextualPolicy` (`obp/policy/base.py:129-133`): it does not touch
the attributes that `BaseLinPolicy` adds. -/
def LinState.initialize (ops : Rng R ℝ) (s : LinState R n d) : LinState R n d :=
  { s with
    nTrial := 0
    rng := ops.seeded
    actionCounts := fun _ => 0 }

/-- The Woodbury update of one inverse (`obp/policy/linear.py:73-79`); dividing by zero would give
infinite or nan entries. -/
noncomputable def woodbury (A : Matrix (Fin d) (Fin d) ℝ) (x : Fin d → ℝ) :
    Py (Matrix (Fin d) (Fin d) ℝ) :=
  let den := 1 + x ⬝ᵥ (A *ᵥ x)
  if den = 0 then .error .nonFinite
  else .ok (A - den⁻¹ • vecMulVec (A *ᵥ x) (x ᵥ* A))

/-- `update_params` (`obp/policy/linear.py:70-85`). -/
noncomputable def LinState.updateParams (batchSize : ℕ) (s : LinState R n d) (action : ℤ) (reward : ℝ)
    (x : Fin d → ℝ) : Py Unit × LinState R n d :=
  let s := { s with nTrial := s.nTrial + 1 }
  match wrapIdx n action with
  | none => (.error .indexError, s)
  | some a =>
    let s := { s with actionCounts := Function.update s.actionCounts a (s.actionCounts a + 1) }
    match woodbury (s.aInvTemp a) x with
    | .error e => (.error e, s)
    | .ok A =>
      let s := { s with
        aInvTemp := Function.update s.aInvTemp a A
        bTemp := Function.update s.bTemp a (s.bTemp a + reward • x) }
      if s.nTrial % batchSize = 0 then (.ok (), { s with aInv := s.aInvTemp, b := s.bTemp })
      else (.ok (), s)

/-- `theta_hat` as computed by all three `select_action` methods (`obp/policy/linear.py:152-158, 227-233,
289-295`), column by column. -/
noncomputable def LinState.theta (s : LinState R n d) (a : Fin n) : Fin d → ℝ := s.aInv a *ᵥ s.b a

/-- `(context @ theta).flatten()`: row by row, then action by action. -/
def rowScores (rows : List (Fin d → ℝ)) (thetas : List (Fin d → ℝ)) : List ℝ :=
  rows.flatMap fun x => thetas.map fun t => x ⬝ᵥ t

/-- `LinEpsilonGreedy.select_action` (`obp/policy/linear.py:147-164`). -/
noncomputable def linEgreedySelect (ops : Rng R ℝ) (argsort : List ℝ → List ℕ) (lenList : ℕ) (epsilon : ℝ)
    (s : LinState R n d) (rows : List (Fin d → ℝ)) : Py (List ℕ) × LinState R n d :=
  if rows.length ≠ 1 then (.error .valueError, s)
  else
    let (u, r) := ops.rand s.rng
    if epsilon < u then
      let s := { s with thetaHat := s.theta, rng := r }
      (.ok (topRanking argsort (rowScores rows (List.ofFn s.thetaHat)) lenList), s)
    else
      let (l, r) := ops.choice r n lenList
      (.ok l, { s with rng := r })

/-- The exploration bonus of one action for a one-row context (`obp/policy/linear.py:236`). -/
noncomputable def LinState.bonus (s : LinState R n d) (x : Fin d → ℝ) (a : Fin n) : ℝ :=
  √(x ⬝ᵥ (s.aInv a *ᵥ x))

/-- `LinUCB.select_action` (`obp/policy/linear.py:223-242`); the square root of a negative number would
be nan. -/
noncomputable def linUcbSelect (argsort : List ℝ → List ℕ) (lenList : ℕ) (epsilon : ℝ)
    (s : LinState R n d) (rows : List (Fin d → ℝ)) : Py (List ℕ) × LinState R n d :=
  match rows with
  | [x] =>
    let s := { s with thetaHat := s.theta }
    if ∃ a, x ⬝ᵥ (s.aInv a *ᵥ x) < 0 then (.error .nonFinite, s)
    else
      (.ok (topRanking argsort
        (List.ofFn fun a => x ⬝ᵥ s.thetaHat a + epsilon * s.bonus x a) lenList), s)
  | _ => (.error .valueError, s)

/-- The draws of `theta` for the actions in turn (`obp/policy/linear.py:296-304`). -/
noncomputable def sampleThetas (ops : GaussRng R) (mean : Fin n → Fin d → ℝ)
    (cov : Fin n → Matrix (Fin d) (Fin d) ℝ) : List (Fin n) → R → List (Fin d → ℝ) × R
  | [], r => ([], r)
  | a :: rest, r =>
    let (t, r) := ops.multivariateNormal r (mean a) (cov a)
    let (ts, r) := sampleThetas ops mean cov rest r
    (t :: ts, r)

/-- `LinTS.select_action` (`obp/policy/linear.py:289-307`): the number of rows is not checked. -/
noncomputable def linTsSelect (ops : GaussRng R) (argsort : List ℝ → List ℕ) (lenList : ℕ)
    (s : LinState R n d) (rows : List (Fin d → ℝ)) : Py (List ℕ) × LinState R n d :=
  let s := { s with thetaHat := s.theta }
  let (ts, r) := sampleThetas ops s.thetaHat s.aInv (List.finRange n) s.rng
  (.ok (topRanking argsort (rowScores rows ts) lenList), { s with rng := r })

/-- The three linear classes with their own constructor argument. -/
inductive LinClass
  | egreedy (epsilon : ℝ)
  | ucb (epsilon : ℝ)
  | ts

/-- `select_action` of a linear class. -/
noncomputable def LinClass.select (ops : GaussRng R) (argsort : List ℝ → List ℕ) (lenList : ℕ)
    (c : LinClass) (s : LinState R n d) (rows : List (Fin d → ℝ)) : Py (List ℕ) × LinState R n d :=
  match c with
  | .egreedy e => linEgreedySelect ops.toRng argsort lenList e s rows
  | .ucb e => linUcbSelect argsort lenList e s rows
  | .ts => linTsSelect ops argsort lenList s rows

/-- A call on a contextual policy. -/
inductive CtxCall (d : ℕ)
  | update (action : ℤ) (reward : ℝ) (x : Fin d → ℝ)
  | select (rows : List (Fin d → ℝ))
  | reset

/-- The state of a linear policy after a call. -/
noncomputable def LinClass.step (ops : GaussRng R) (argsort : List ℝ → List ℕ) (cfg : CfConfig)
    (c : LinClass) (s : LinState R cfg.nActions d) : CtxCall d → LinState R cfg.nActions d
  | .update action reward x => (s.updateParams cfg.batchSize action reward x).2
  | .select rows => (c.select ops argsort cfg.lenList s rows).2
  | .reset => s.initialize ops.toRng

/-- The state after a history of calls on a new policy. -/
noncomputable def LinClass.run (ops : GaussRng R) (argsort : List ℝ → List ℕ) (cfg : CfConfig)
    (c : LinClass) (d : ℕ) (calls : List (CtxCall d)) : LinState R cfg.nActions d :=
  calls.foldl (c.step ops argsort cfg) (LinState.init ops.toRng cfg.nActions d)

end

/-! ### Logistic policies -/

/-- `MiniBatchLogisticRegression` (`obp/policy/logistic.py:309-318`). -/
structure LogReg (R : Type) (d : ℕ) where
  lam : ℝ
  alpha : ℝ
  m : Fin d → ℝ
  q : Fin d → ℝ
  rng : R

section
variable {R : Type} {n d : ℕ}

/-- `MiniBatchLogisticRegression.__post_init__` (`obp/policy/logistic.py:316-318`). -/
noncomputable def LogReg.init (ops : Rng R ℝ) (lam alpha : ℝ) (d : ℕ) : LogReg R d where
  lam := lam
  alpha := alpha
  m := fun _ => 0
  q := fun _ => 1 * lam
  rng := ops.seeded

/-- `loss` (`obp/policy/logistic.py:322-326`); a data point is a context row and a reward. -/
noncomputable def LogReg.loss (g : LogReg R d) (data : List ((Fin d → ℝ) × ℝ)) (w : Fin d → ℝ) : ℝ :=
  1 / 2 * ((fun j => g.q j * (w j - g.m j)) ⬝ᵥ (fun j => w j - g.m j)) +
    (data.map fun p => Real.log (1 + Real.exp (-p.2 * (w ⬝ᵥ p.1)))).sum

/-- `grad` (`obp/policy/logistic.py:330-333`). -/
noncomputable def LogReg.grad (g : LogReg R d) (data : List ((Fin d → ℝ) × ℝ)) (w : Fin d → ℝ) :
    Fin d → ℝ :=
  fun j => g.q j * (w j - g.m j) +
    (-1) * (data.map fun p => p.2 * p.1 j / (1 + Real.exp (p.2 * (w ⬝ᵥ p.1)))).sum

/-- What `scipy.optimize.minimize` returns from the objective, its gradient and the starting point. -/
abbrev Minimizer (d : ℕ) := ((Fin d → ℝ) → ℝ) → ((Fin d → ℝ) → Fin d → ℝ) → (Fin d → ℝ) → Fin d → ℝ

/-- The matrix `P` of `fit` (`obp/policy/logistic.py:349`), for one row. -/
noncomputable def logP (m x : Fin d → ℝ) : ℝ := (1 + Real.exp (1 + x ⬝ᵥ m))⁻¹

/-- `fit` (`obp/policy/logistic.py:341-350`). -/
noncomputable def LogReg.fit (minimize : Minimizer d) (g : LogReg R d) (data : List ((Fin d → ℝ) × ℝ)) :
    LogReg R d :=
  let m := minimize (g.loss data) (g.grad data) g.m
  { g with
    m := m
    q := fun j => g.q j + (data.map fun p => logP m p.1 * (1 - logP m p.1) * p.1 j ^ 2).sum }

/-- `sd` (`obp/policy/logistic.py:354`). -/
noncomputable def LogReg.sd (g : LogReg R d) (j : Fin d) : ℝ := g.alpha * (g.q j)⁻¹

/-- `predict_proba` (`obp/policy/logistic.py:358`), for one row. -/
noncomputable def LogReg.predictProba (g : LogReg R d) (x : Fin d → ℝ) : ℝ :=
  sigmoidWith Real.exp (x ⬝ᵥ g.m)

/-- The attributes of a logistic policy (`obp/policy/base.py:116-120`, `obp/policy/logistic.py:61-71`).
Entry `a` of `pending` pairs up `context_lists[a]` and `reward_lists[a]`, which are only ever
appended to and cleared together. -/
structure LogState (R : Type) (n d : ℕ) where
  nTrial : ℕ
  rng : R
  actionCounts : Fin n → ℕ
  pending : Fin n → List ((Fin d → ℝ) × ℝ)
  models : Fin n → LogReg R d

/-- `__post_init__` (`obp/policy/logistic.py:52-71`): the checks of `alpha_` and `lambda_` (floats) and the
initial state. -/
noncomputable def LogState.init (ops : Rng R ℝ) (lam alpha : ℝ) (n d : ℕ) : Py (LogState R n d) := do
  raiseIf (alpha ≤ 0) .valueError
  raiseIf (lam ≤ 0) .valueError
  pure { nTrial := 0, rng := ops.seeded, actionCounts := fun _ => 0, pending := fun _ => [],
         models := fun _ => LogReg.init ops (lam * 1) (alpha * 1) d }

/-- `initialize` (`obp/policy/base.py:129-133`): it does not touch `model_list`. -/
def LogState.initialize (ops : Rng R ℝ) (s : LogState R n d) : LogState R n d :=
  { s with
    nTrial := 0
    rng := ops.seeded
    actionCounts := fun _ => 0
    pending := fun _ => [] }

/-- `update_params` (`obp/policy/logistic.py:88-100`). -/
noncomputable def LogState.updateParams (minimize : Minimizer d) (batchSize : ℕ) (s : LogState R n d)
    (action : ℤ) (reward : ℝ) (x : Fin d → ℝ) : Py Unit × LogState R n d :=
  let s := { s with nTrial := s.nTrial + 1 }
  match wrapIdx n action with
  | none => (.error .indexError, s)
  | some a =>
    let s := { s with
      actionCounts := Function.update s.actionCounts a (s.actionCounts a + 1)
      pending := Function.update s.pending a (s.pending a ++ [(x, reward)]) }
    if s.nTrial % batchSize = 0 then
      (.ok (), { s with
        models := fun a => if (s.pending a).length = 0 then s.models a
          else (s.models a).fit minimize (s.pending a)
        pending := fun _ => [] })
    else (.ok (), s)

/-- The scores for `argsort`, flattened: model by model, then row by row. -/
def modelScores (rows : List (Fin d → ℝ)) (score : Fin n → (Fin d → ℝ) → ℝ) : List ℝ :=
  (List.finRange n).flatMap fun a => rows.map (score a)

/-- `LogisticEpsilonGreedy.select_action` (`obp/policy/logistic.py:159-167`). -/
noncomputable def logEgreedySelect (ops : Rng R ℝ) (argsort : List ℝ → List ℕ) (lenList : ℕ) (epsilon : ℝ)
    (s : LogState R n d) (rows : List (Fin d → ℝ)) : Py (List ℕ) × LogState R n d :=
  let (u, r) := ops.rand s.rng
  if epsilon < u then
    (.ok (topRanking argsort (modelScores rows fun a x => (s.models a).predictProba x) lenList),
      { s with rng := r })
  else
    let (l, r) := ops.choice r n lenList
    (.ok l, { s with rng := r })

/-- The bonus of one model: `np.sqrt(np.sum((model._q ** (-1)) * (context**2)))`
(`obp/policy/logistic.py:236`), for one row. -/
noncomputable def LogReg.bonus (g : LogReg R d) (x : Fin d → ℝ) : ℝ := √(∑ j, (g.q j)⁻¹ * x j ^ 2)

/-- `LogisticUCB.select_action` (`obp/policy/logistic.py:231-241`). With a number of rows other than one
the shapes of `theta` and `std` do not match (at least two actions). -/
noncomputable def logUcbSelect (argsort : List ℝ → List ℕ) (lenList : ℕ) (epsilon : ℝ)
    (s : LogState R n d) (rows : List (Fin d → ℝ)) : Py (List ℕ) × LogState R n d :=
  match rows with
  | [x] => (.ok (topRanking argsort
      (List.ofFn fun a => (s.models a).predictProba x + epsilon * (s.models a).bonus x) lenList), s)
  | _ => (.error .valueError, s)

/-- `LogisticTS.select_action` (`obp/policy/logistic.py:299-302` with 337, 362): each model draws its
weights from its own generator. -/
noncomputable def logTsSelect (ops : GaussRng R) (argsort : List ℝ → List ℕ) (lenList : ℕ)
    (s : LogState R n d) (rows : List (Fin d → ℝ)) : Py (List ℕ) × LogState R n d :=
  let draw := fun a => ops.normal (s.models a).rng (s.models a).m (s.models a).sd
  (.ok (topRanking argsort (modelScores rows fun a x => sigmoidWith Real.exp (x ⬝ᵥ (draw a).1)) lenList),
    { s with models := fun a => { s.models a with rng := (draw a).2 } })

/-- The three logistic classes. -/
inductive LogClass
  | egreedy (epsilon : ℝ)
  | ucb (epsilon : ℝ)
  | ts

/-- `select_action` of a logistic class. -/
noncomputable def LogClass.select (ops : GaussRng R) (argsort : List ℝ → List ℕ) (lenList : ℕ)
    (c : LogClass) (s : LogState R n d) (rows : List (Fin d → ℝ)) : Py (List ℕ) × LogState R n d :=
  match c with
  | .egreedy e => logEgreedySelect ops.toRng argsort lenList e s rows
  | .ucb e => logUcbSelect argsort lenList e s rows
  | .ts => logTsSelect ops argsort lenList s rows

/-- The state of a logistic policy after a call. -/
noncomputable def LogClass.step (ops : GaussRng R) (argsort : List ℝ → List ℕ) (minimize : Minimizer d)
    (cfg : CfConfig) (c : LogClass) (s : LogState R cfg.nActions d) :
    CtxCall d → LogState R cfg.nActions d
  | .update action reward x => (s.updateParams minimize cfg.batchSize action reward x).2
  | .select rows => (c.select ops argsort cfg.lenList s rows).2
  | .reset => s.initialize ops.toRng

/-- The state after a history of calls from a given state. -/
noncomputable def LogClass.run (ops : GaussRng R) (argsort : List ℝ → List ℕ) (minimize : Minimizer d)
    (cfg : CfConfig) (c : LogClass) (s : LogState R cfg.nActions d) (calls : List (CtxCall d)) :
    LogState R cfg.nActions d :=
  calls.foldl (c.step ops argsort minimize cfg) s

end

end Obp
