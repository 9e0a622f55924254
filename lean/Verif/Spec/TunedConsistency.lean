import Verif.Spec.LogStream
import Verif.Model.Tuning
import Verif.Spec.Tuning

/-! # Vocabulary for tuned estimators on growing logs -/

namespace Obp
open MeasureTheory Filter Topology Log

/-- The estimator class that uses the importance weights as they are: plain inverse propensity weighting for the two classes
without a reward model, plain doubly robust for the others. -/
def Kind.plain : Kind → Kind
  | .ipw | .sgIpw => .ipw
  | _ => .dr

/-- The candidates with which a tunable class computes finite numbers on every log: infinite or at least zero; positive for
optimistic shrinkage; in `[0, 1)` for the sub-Gaussian classes. -/
def AllowedLam (k : Kind) : Lam ℝ → Prop
  | .inf => k ≠ .sgIpw ∧ k ≠ .sgDr
  | .fin l => 0 ≤ l ∧ (k = .drOs → 0 < l) ∧ (k = .sgIpw ∨ k = .sgDr → l < 1)

/-- What a new tuned estimator returns on the first call, on growing logs: numbers from some size on, whose distance to `v`
is in the limit at most `d`. -/
def TunedWithin {A L : ℕ} (argsort : List ℝ → List ℕ) (tq : ℝ → ℝ → ℝ) (t : Tuner) (g : ∀ n, Log ℝ n A L) (v d : ℝ) : Prop :=
  ∃ x : ℕ → ℝ, (∀ᶠ n in atTop, (t.estimatePolicyValue argsort tq (g n).args).1 = .ok (x n)) ∧
    ∀ ε > 0, ∀ᶠ n in atTop, |x n - v| ≤ d + ε

/-- … numbers that tend to `v`. -/
def TunedTendTo {A L : ℕ} (argsort : List ℝ → List ℕ) (tq : ℝ → ℝ → ℝ) (t : Tuner) (g : ∀ n, Log ℝ n A L) (v : ℝ) : Prop :=
  ∃ x : ℕ → ℝ, (∀ᶠ n in atTop, (t.estimatePolicyValue argsort tq (g n).args).1 = .ok (x n)) ∧ Tendsto x atTop (𝓝 v)

/-- How much the bias upper bound adds to the plain bias estimate. -/
noncomputable def biasWidth {n : ℕ} (w : Fin n → ℝ) (useUB : Bool) (d M : ℝ) : ℝ :=
  if useUB then √(2 * avg (fun i => w i ^ 2) * Real.log (2 / d) / n) + 2 * M * Real.log (2 / d) / (3 * n) else 0

/-- Value of round `i` at the hyperparameter `l`: the modified weight times the reward, or the predicted value of the evaluation
policy plus the modified weight times the error of the prediction. -/
noncomputable def LogStream.tunedTerm {Ω C : Type} {A L : ℕ} (s : LogStream Ω C A) (piB : C → Fin A → ℝ) (pos : C → Fin L)
    (piE q : C → Fin A → Fin L → ℝ) (k : Kind) (l : Lam ℝ) (i : ℕ) (ω : Ω) : ℝ :=
  let w := shrunkWeight ⟨k, l, false⟩ (piE (s.ctx i ω) (s.act i ω) (pos (s.ctx i ω)) / piB (s.ctx i ω) (s.act i ω))
  match k with
  | .ipw | .sgIpw => w * s.rew i ω
  | _ => (∑ a, piE (s.ctx i ω) a (pos (s.ctx i ω)) * q (s.ctx i ω) a (pos (s.ctx i ω))) +
      w * (s.rew i ω - q (s.ctx i ω) (s.act i ω) (pos (s.ctx i ω)))

/-- What the tuned classes need of the reward model, if they use one: predictions that are measurable and have a mean. -/
def LogStream.ModelOk {Ω C : Type} [MeasurableSpace Ω] [MeasurableSpace C] {A L : ℕ} (s : LogStream Ω C A) (pos : C → Fin L)
    (piE q : C → Fin A → Fin L → ℝ) (P : Measure Ω) (k : Kind) : Prop :=
  k.plain = .dr → (∀ a, Measurable fun c => q c a (pos c)) ∧
    ∀ a, Integrable (fun ω => piE (s.ctx 0 ω) a (pos (s.ctx 0 ω)) * q (s.ctx 0 ω) a (pos (s.ctx 0 ω))) P

end Obp
