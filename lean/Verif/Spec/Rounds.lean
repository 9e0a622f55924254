import Verif.Spec.Ope
import Mathlib.Data.Fintype.Pi

/-! # The textbook per-round estimate of each estimator class

`none` means that the float computation produces nan or inf. -/

namespace Obp

variable {K : Type} [Field K] [LinearOrder K] {n A L : ℕ}
open Log

/-- Per-round values whose mean is the estimate. -/
def roundReward (e : Estimator K) (g : Log K n A L) : Option (Fin n → K) :=
  let w := g.weight e.useEstimatedPscore
  match e.kind with
  | .rm =>
    some fun i =>
      if ∃ i, g.matched i then
        (if g.matched i then 1 else 0) * g.reward i /
          avg (fun i => if g.matched i then (1 : K) else 0)
      else 0
  | .ipw => some fun i => g.reward i * e.lam.clip (w i)
  | .snipw => if avg w = 0 then none else some fun i => g.reward i * w i / avg w
  | .dm => some g.modelValue
  | .dr => some fun i => g.modelValue i + e.lam.clip (w i) * g.residual i
  | .sndr =>
    if avg w = 0 then none else some fun i => g.modelValue i + w i * g.residual i / avg w
  | .switchDr =>
    some fun i => g.modelValue i + (if e.lam.geB (w i) then (1 : K) else 0) * w i * g.residual i
  | .drOs =>
    match e.lam with
    | .inf => some fun i => g.modelValue i + w i * g.residual i
    | .fin l =>
      if ∃ i, w i ^ 2 + l = 0 then none
      else some fun i => g.modelValue i + l * w i / (w i ^ 2 + l) * g.residual i
  | .sgIpw =>
    match e.lam with
    | .inf => none
    | .fin l =>
      if ∃ i, 1 - l + l * w i = 0 then none
      else some fun i => w i / (1 - l + l * w i) * g.reward i
  | .sgDr =>
    match e.lam with
    | .inf => none
    | .fin l =>
      if ∃ i, 1 - l + l * w i = 0 then none
      else some fun i => g.modelValue i + w i / (1 - l + l * w i) * g.residual i
  | .bIpw =>
    if avg (fun i => e.lam.clip (g.estIw i)) = 0 then none
    else some fun i => g.reward i * e.lam.clip (g.estIw i) / avg (fun i => e.lam.clip (g.estIw i))

/-- The Python outcome corresponding to `roundReward`. -/
def roundOutcome {n : ℕ} : Option (Fin n → K) → Py (List K)
  | some f => .ok (List.ofFn f)
  | none => .error .nonFinite

end Obp
