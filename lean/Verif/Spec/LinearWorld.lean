import Verif.Spec.Contextual
import Verif.Model.Simulator

/-!
# Online experiments with linear policies

A linear policy as `BanditPolicySimulator` uses it, and the rounds of an experiment.
-/

namespace Obp
open Matrix

/-- The rows of a context array, if it has `d` columns. -/
def contextRows {K : Type} (d : ℕ) (x : Arr2 K) : Option (List (Fin d → K)) :=
  if h : x.d = d then some (List.ofFn fun i j => x.val i (Fin.cast h.symm j)) else none

/-- A linear policy as `BanditPolicySimulator` uses it (`obp/simulator/simulator.py:370-381, 423-430`):
`select_action(context)` and `update_params(action, reward, context)` with a context array
(`obp/policy/linear.py:55-85, 147-164, 223-242, 289-307`). Arrays of other shapes raise. -/
noncomputable def linPolicy {R : Type} {d : ℕ} (ops : GaussRng R) (argsort : List ℝ → List ℕ) (cfg : CfConfig) (cl : LinClass) :
    SimPolicy (LinState R cfg.nActions d) ℝ where
  kind := .contextual
  select := fun s ctx =>
    match ctx with
    | some (.arr x) =>
      match contextRows d x with
      | some rows =>
        match cl.select ops argsort cfg.lenList s rows with
        | (.ok l, s) => .ok (l.map fun (a : ℕ) => (a : ℤ), s)
        | (.error e, _) => .error e
      | none => .error .valueError
    | _ => .error .valueError
  update := fun s ctx a r =>
    match ctx with
    | some (.arr x) =>
      match contextRows d x with
      | some [y] =>
        match s.updateParams cfg.batchSize a r y with
        | (.ok _, s) => .ok s
        | (.error e, _) => .error e
      | _ => .error .valueError
    | _ => .error .valueError

/-- `T` rounds without delays: round `t` has context `x t`, and `r t a` is the reward of action `a`. -/
def linRounds {n d : ℕ} (x : ℕ → Fin d → ℝ) (r : ℕ → Fin n → ℝ) (T : ℕ) : List (BanditRound ℝ) :=
  (List.range T).map fun t => ⟨.vec (List.ofFn (x t)), List.ofFn (r t), none⟩

end Obp
