import Verif.Spec.Draws
import Verif.Spec.ContinuousDataset
import Verif.Model.ContinuousDataset
import Verif.Model.Continuous
import Verif.Props.DatasetInit

/-! # Random draws of the dataset with continuous actions -/

namespace Obp
open MeasureTheory ProbabilityTheory

/-- What the generators provide for a batch of `n` rounds with contexts `ctx`: uniform numbers `U i` for the actions and noise `ε i` of
mean zero for the rewards, the noise of a round independent of its uniform number. `s0` is the state of a generator started from
`random_state`, `s` that of the dataset's own generator. -/
structure ContinuousDraws {Ω S : Type} [MeasurableSpace Ω] (P : Measure Ω) (c : ContinuousConfig) (rng : NormalRng S) (s0 s : Ω → S)
    {n : ℕ} (ctx : List (List ℝ)) (U ε : Fin n → Ω → ℝ) : Prop where
  contexts : ∀ ω, (drawRows rng.normal c.dim n (s ω)).1 = ctx
  uniforms : ∀ ω, (draws rng.uniform n (s0 ω)).1 = List.ofFn fun i => U i ω
  normals : ∀ ω, (draws rng.normal n (drawRows rng.normal c.dim n (s ω)).2).1 = List.ofFn fun i => ε i ω
  uniform : UniformDraws P U
  noise_integrable : ∀ i, Integrable (ε i) P
  noise_mean : ∀ i, ∫ ω, ε i ω ∂P = 0
  indep : ∀ i, IndepFun (U i) (ε i) P

/-- Settings with which the dataset logs finite actions and propensities (`C131_gaussian_iff`, `C131_default_bounds`): a behaviour
policy function with positive noise and room between the bounds, or no such function and finite bounds. -/
def ContinuousConfig.Samples (c : ContinuousConfig) (n : ℕ) (ctx : List (List ℝ)) : Prop :=
  (∃ (f : List (List ℝ) → Py (List ℝ)) (means : Fin n → ℝ) (s : ℝ), c.behavior = some f ∧ f ctx = .ok (List.ofFn means) ∧
    c.actionNoise = .fin s ∧ 0 < s ∧ c.lo.Below c.hi) ∨
  (c.behavior = none ∧ ∃ l h, c.lo = .fin l ∧ c.hi = .fin h ∧ l < h)

/-- The arguments for an estimator made from logged data, actions of the evaluation policy and predictions at these actions. -/
def contArgs (fb : ContinuousFeedback) {n : ℕ} (e qhat : Fin n → ℝ) : ContArgs where
  evalAction := .flt (List.ofFn e)
  action := .flt fb.action
  reward := .flt fb.reward
  pscore := .flt fb.pscore
  regModel := .flt (List.ofFn qhat)

/-- The value at `e` of `q` smoothed by a kernel over a set of actions. -/
noncomputable def smoothed (k : ℝ → ℝ) (T : Set ℝ) (h e : ℝ) (q : ℝ → ℝ) : ℝ := (∫ a in T, k ((e - a) / h) * q a) / h

/-- The batch of `n` rounds is obtained with probability one, the estimator `kind` called on it with evaluation actions `e` and
predictions `qhat` returns `V`, and `V` has an expectation. -/
def ContinuousConfig.IsEstimate {Ω S : Type} [MeasurableSpace Ω] (P : Measure Ω) (c : ContinuousConfig) (rng : NormalRng S) (s0 s : Ω → S)
    {n : ℕ} (kind : ContKind) (k : Kernel) (h : ℝ) (e qhat : Fin n → ℝ) (V : Ω → ℝ) : Prop :=
  (∀ᵐ ω ∂P, ∃ fb s', c.obtain rng (s0 ω) (s ω) (.int n) = .ok (fb, s') ∧
    kind.estimatePolicyValue k (.fin h) (contArgs fb e qhat) = .ok (V ω)) ∧ Integrable V P

end Obp
