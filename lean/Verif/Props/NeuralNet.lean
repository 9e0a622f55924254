import Verif.Model.NeuralNet
import Verif.Props.NeuralInit
import Verif.Props.Continuous
import Verif.Props.ContinuousDataset
import Verif.Spec.Prob

set_option linter.unusedSectionVars false

/-!
# Networks and the continuous-action policy learner

C135 (networks), C136 (objective and predictions of `ContinuousNNPolicyLearner`), C137 (its training data).
-/

namespace Obp
open Log

/-! ### C135 -/

/-- Weights of the given layer sizes: one row per output, as long as the input. -/
def FitsShapes (ps : List LayerParams) (shapes : List (ℕ × ℕ)) : Prop :=
  List.Forall₂ (fun p s => p.length = s.2 ∧ ∀ r ∈ p, r.1.length = s.1) ps shapes

theorem linearLayer_ok {p : LayerParams} {x : List ℝ} {n : ℕ} (hp : p.length = n)
    (hr : ∀ r ∈ p, r.1.length = x.length) : ∃ y, linearLayer p x = .ok y ∧ y.length = n := by
  refine ⟨p.map fun r => (List.zipWith (· * ·) r.1 x).sum + r.2, ?_, by simpa using hp⟩
  unfold linearLayer
  rw [mapM_ok_iff, List.forall₂_map_right_iff, List.forall₂_same]
  intro r h
  rw [if_pos (hr r h)]

/-- **C135.** Whatever the weights, a network built by a neural learner maps an input of the stated size to an output of
the stated size, for every number and size of hidden layers. -/
theorem C135_forward (act : Activation) {d o : ℕ} {hs : List ℕ} {ps : List LayerParams}
    (hps : FitsShapes ps (layerShapes d hs o)) {x : List ℝ} (hx : x.length = d) :
    ∃ y, mlpForward act ps x = .ok y ∧ y.length = o := by
  induction hs generalizing d ps x with
  | nil =>
      cases hps with
      | cons h t =>
          cases t
          obtain ⟨h1, h2⟩ := h
          exact linearLayer_ok h1 fun r hr => (h2 r hr).trans hx.symm
  | cons k hs ih =>
      cases hps with
      | @cons p _ ps _ h t =>
          obtain ⟨h1, h2⟩ := h
          obtain ⟨y, hy, hl⟩ := linearLayer_ok (x := x) h1 fun r hr => (h2 r hr).trans hx.symm
          cases ps with
          | nil => cases hs <;> cases t
          | cons q ps =>
              obtain ⟨z, hz, hzl⟩ := ih (x := y.map act.fn) t (by simpa using hl)
              exact ⟨z, by rw [mlpForward, hy, py_bind_ok, hz], hzl⟩

/-- The network with one hidden layer of two units, for two features and one output. -/
example : FitsShapes [[([1, -1], 0), ([0, 2], 1)], [([3, 1], -1)]] (layerShapes 2 [2] 1) :=
  .cons ⟨rfl, by simp⟩ (.cons ⟨rfl, by simp⟩ .nil)

/-- **C135.** An input of another size is refused: the network needs exactly the stated features. -/
theorem C135_wrong_size (act : Activation) {d o : ℕ} {hs : List ℕ} {ps : List LayerParams}
    (hps : FitsShapes ps (layerShapes d hs o)) (ho : 1 ≤ o) (hh : ∀ h ∈ hs, 1 ≤ h) {x : List ℝ} (hx : x.length ≠ d) :
    mlpForward act ps x = .error .runtimeError := by
  have key : ∀ {p : LayerParams} {n : ℕ}, p.length = n → 1 ≤ n → (∀ r ∈ p, r.1.length = d) →
      linearLayer p x = .error .runtimeError := by
    intro p n h1 h2 h3
    cases p with
    | nil => simp at h1; omega
    | cons r p =>
        unfold linearLayer
        rw [List.mapM_cons, if_neg (by rw [h3 r (by simp)]; exact Ne.symm hx)]
        rfl
  cases hs with
  | nil =>
      cases hps with
      | cons h t =>
          cases t
          exact key h.1 ho h.2
  | cons k hs =>
      cases hps with
      | @cons p _ ps _ h t =>
          have e := key h.1 (hh k (by simp)) h.2
          cases ps with
          | nil => cases hs <;> cases t
          | cons q ps => rw [mlpForward, e, py_bind_error]

theorem exp_sum_pos {o : ℕ} (y : Fin (o + 1) → ℝ) : 0 < ((List.ofFn y).map Real.exp).sum := by
  rw [List.map_ofFn, List.sum_ofFn]
  exact Finset.sum_pos (fun i _ => Real.exp_pos _) ⟨0, Finset.mem_univ _⟩

/-- **C135.** Whatever the weights, the policy network of `NNPolicyLearner` turns every context into a distribution over
the actions that gives each action positive probability, and orders the actions as the outputs of the last layer do. -/
theorem C135_policy_network (act : Activation) {d o : ℕ} (ho : 1 ≤ o) {hs : List ℕ} {ps : List LayerParams}
    (hps : FitsShapes ps (layerShapes d hs o)) :
    ∃ logits net : List ℝ → Fin o → ℝ, ∀ x : List ℝ, x.length = d →
      mlpForward act ps x = .ok (List.ofFn (logits x)) ∧ policyNetwork act ps x = .ok (List.ofFn (net x)) ∧
      IsDist (net x) ∧ (∀ a, 0 < net x a) ∧ ∀ a b, net x a ≤ net x b ↔ logits x a ≤ logits x b := by
  classical
  have h1 : ∀ x : List ℝ, ∃ l : Fin o → ℝ, x.length = d → mlpForward act ps x = .ok (List.ofFn l) := by
    intro x
    by_cases hx : x.length = d
    · obtain ⟨y, hy, rfl⟩ := C135_forward act hps hx
      exact ⟨fun i => y.get i, fun _ => by rw [hy, List.ofFn_get]⟩
    · exact ⟨fun _ => 0, fun h => absurd h hx⟩
  choose logits hl using h1
  obtain ⟨k, rfl⟩ : ∃ k, o = k + 1 := ⟨o - 1, by omega⟩
  refine ⟨logits, fun x a => Real.exp (logits x a) / ((List.ofFn (logits x)).map Real.exp).sum, fun x hx => ?_⟩
  have hs := exp_sum_pos (logits x)
  refine ⟨hl x hx, ?_, ⟨fun a => (div_pos (Real.exp_pos _) hs).le, ?_⟩, fun a => div_pos (Real.exp_pos _) hs, ?_⟩
  · unfold policyNetwork
    rw [hl x hx, py_bind_ok]
    exact mapM_ofFn_ok fun i => npDiv_ok hs.ne'
  · rw [← Finset.sum_div, List.map_ofFn, List.sum_ofFn]
    have : (∑ i, Real.exp (logits x i)) ≠ 0 := by
      have := hs
      rw [List.map_ofFn, List.sum_ofFn] at this
      exact this.ne'
    exact div_self this
  · intro a b
    rw [div_le_div_iff_of_pos_right hs, Real.exp_le_exp]

/-- **C135.** The activation functions are the documented ones, except `"logistic"`: the code uses `1 / (1 + exp(-x))`, the
documentation says `1 / (1 + exp(x))`; the two agree at zero only. -/
theorem C135_activations (x : ℝ) :
    Activation.identity.fn x = x ∧ Activation.relu.fn x = max 0 x ∧
    Activation.tanh.fn x = (Real.exp x - Real.exp (-x)) / (Real.exp x + Real.exp (-x)) ∧
    (Activation.logistic.fn x = 1 / (1 + Real.exp x) ↔ x = 0) ∧
    (0 ≤ x → Activation.elu.fn x = x) ∧ (x < 0 → -1 < Activation.elu.fn x ∧ Activation.elu.fn x < 0) := by
  refine ⟨rfl, rfl, Real.tanh_eq x, ?_, ?_, ?_⟩
  · have h1 : (1 : ℝ) + Real.exp (-x) ≠ 0 := by positivity
    have h2 : (1 : ℝ) + Real.exp x ≠ 0 := by positivity
    simp only [Activation.fn]
    rw [div_eq_div_iff h1 h2, one_mul, one_mul, add_right_inj, Real.exp_eq_exp]
    constructor <;> intro h <;> linarith
  · intro h
    simp only [Activation.fn]
    rcases h.eq_or_lt with rfl | h
    · simp
    · rw [if_pos h]
  · intro h
    simp only [Activation.fn]
    rw [if_neg (not_lt.2 h.le)]
    have := Real.exp_pos x
    have : Real.exp x < 1 := by simpa using Real.exp_lt_exp.2 h
    constructor <;> linarith

/-! ### C136 -/

theorem torchGaussianKernel_eq : torchGaussianKernel = gaussianKernel := by
  funext u
  unfold torchGaussianKernel gaussianKernel
  rw [Real.sqrt_eq_rpow]

/-- The batch of logged rounds with contexts `ctx`. -/
def contRows {n d : ℕ} (ctx : Fin n → Fin d → ℝ) (action reward pscore : Fin n → ℝ) : List ContRow :=
  List.ofFn fun i => ⟨List.ofFn (ctx i), action i, reward i, pscore i⟩

theorem contPredict_ok {n d : ℕ} {space : Option (List (PyNum ℝ))} {net : List ℝ → ℝ} {ctx : Fin n → Fin d → ℝ}
    {as : List (PyNum ℝ)} :
    contPredict d space net (.arr ⟨n, d, ctx⟩) = .ok as ↔
      clampActions space (List.ofFn fun i => net (List.ofFn (ctx i))) = .ok as := by
  unfold contPredict
  rw [checkArray2, py_bind_ok, raiseIf_neg (by simp), py_bind_ok]

theorem contGradArr_eq {n d : ℕ} {space : Option (List (PyNum ℝ))} {net : List ℝ → ℝ} {ctx : Fin n → Fin d → ℝ}
    {a : Fin n → ℝ} (ha : contPredict d space net (.arr ⟨n, d, ctx⟩) = .ok (List.ofFn fun i => .fin (a i)))
    (m : PgMethod) (h : Bandwidth) (q : List ℝ → ℝ → ℝ) (action reward pscore : Fin n → ℝ) {g : Fin n → ℝ}
    (hg : ∀ i, contGradTerm m h q ⟨List.ofFn (ctx i), action i, reward i, pscore i⟩ (a i) = .ok (g i)) :
    contGradArr m h space q net (contRows ctx action reward pscore) = .ok (List.ofFn g) := by
  rw [contPredict_ok] at ha
  unfold contGradArr contRows
  rw [List.map_ofFn]
  have e : ((fun r : ContRow => net r.x) ∘ fun i => (⟨List.ofFn (ctx i), action i, reward i, pscore i⟩ : ContRow)) =
      fun i => net (List.ofFn (ctx i)) := rfl
  rw [e, ha, py_bind_ok]
  have e2 : (List.ofFn fun i => PyNum.fin (a i)).mapM PyNum.toPy = .ok (List.ofFn a) := mapM_ofFn_ok fun i => rfl
  rw [e2, py_bind_ok, List.zip, zipWith_ofFn]
  exact mapM_ofFn_ok hg

/-- **C136.** With `pg_method="ipw"` the quantity minimised on a batch is minus the estimate that
`KernelizedInverseProbabilityWeighting` with the Gaussian kernel gives on that batch for the actions `predict` returns. -/
theorem C136_ipw {n d : ℕ} (hn : 0 < n) {space : Option (List (PyNum ℝ))} {net : List ℝ → ℝ} {ctx : Fin n → Fin d → ℝ}
    {a : Fin n → ℝ} (ha : contPredict d space net (.arr ⟨n, d, ctx⟩) = .ok (List.ofFn fun i => .fin (a i)))
    {h : ℝ} (hh : 0 < h) (q : List ℝ → ℝ → ℝ) (action reward pscore : Fin n → ℝ) (hp : ∀ i, 0 < pscore i) :
    ∃ v, contLoss .ipw (.fin h) space q net (contRows ctx action reward pscore) = .ok (-v) ∧
      ContKind.ipw.estimatePolicyValue .gaussian (.fin h)
        ⟨.flt (List.ofFn a), .flt (List.ofFn action), .flt (List.ofFn reward), .flt (List.ofFn pscore), .none⟩ = .ok v := by
  have hgv : (⟨a, action, reward, pscore, fun _ => 0⟩ : ContLog n).Valid := ⟨hn, hp⟩
  refine ⟨avg fun i => gaussianKernel ((a i - action i) / h) * reward i / pscore i / h, ?_, ?_⟩
  · unfold contLoss
    rw [contGradArr_eq ha .ipw (.fin h) q action reward pscore
      (g := fun i => gaussianKernel ((a i - action i) / h) * reward i / pscore i / h), py_bind_ok, npMean_ofFn hn,
      py_bind_ok]
    · rfl
    · intro i
      simp only [contGradTerm, Bandwidth.div]
      rw [npDiv_ok hh.ne', py_bind_ok, npDiv_ok (hp i).ne', py_bind_ok, npDiv_ok hh.ne', torchGaussianKernel_eq]
  · refine (contValue_eq hgv .ipw .gaussian hh.ne' (by simp)).trans (congrArg Except.ok (avg_congr fun i => ?_))
    simp only [ContLog.roundReward, ContLog.weight, Kernel.fn]
    ring

/-- **C136.** With `pg_method="dr"` it is minus the estimate of `KernelizedDoublyRobust` with the Gaussian kernel, the
predictions of the reward model being those for the actions `predict` returns. -/
theorem C136_dr {n d : ℕ} (hn : 0 < n) {space : Option (List (PyNum ℝ))} {net : List ℝ → ℝ} {ctx : Fin n → Fin d → ℝ}
    {a : Fin n → ℝ} (ha : contPredict d space net (.arr ⟨n, d, ctx⟩) = .ok (List.ofFn fun i => .fin (a i)))
    {h : ℝ} (hh : 0 < h) (q : List ℝ → ℝ → ℝ) (action reward pscore : Fin n → ℝ) (hp : ∀ i, 0 < pscore i) :
    ∃ v, contLoss .dr (.fin h) space q net (contRows ctx action reward pscore) = .ok (-v) ∧
      ContKind.dr.estimatePolicyValue .gaussian (.fin h)
        ⟨.flt (List.ofFn a), .flt (List.ofFn action), .flt (List.ofFn reward), .flt (List.ofFn pscore),
          .flt (List.ofFn fun i => q (List.ofFn (ctx i)) (a i))⟩ = .ok v := by
  have hgv : (⟨a, action, reward, pscore, fun i => q (List.ofFn (ctx i)) (a i)⟩ : ContLog n).Valid := ⟨hn, hp⟩
  refine ⟨avg fun i => gaussianKernel ((a i - action i) / h) * (reward i - q (List.ofFn (ctx i)) (a i)) / pscore i / h +
    q (List.ofFn (ctx i)) (a i), ?_, ?_⟩
  · unfold contLoss
    rw [contGradArr_eq ha .dr (.fin h) q action reward pscore
      (g := fun i => gaussianKernel ((a i - action i) / h) * (reward i - q (List.ofFn (ctx i)) (a i)) / pscore i / h +
        q (List.ofFn (ctx i)) (a i)), py_bind_ok, npMean_ofFn hn, py_bind_ok]
    · rfl
    · intro i
      simp only [contGradTerm, Bandwidth.div]
      rw [npDiv_ok hh.ne', py_bind_ok, npDiv_ok (hp i).ne', py_bind_ok, npDiv_ok hh.ne', torchGaussianKernel_eq]
      rfl
  · refine (contValue_eq hgv .dr .gaussian hh.ne' (by simp)).trans (congrArg Except.ok (avg_congr fun i => ?_))
    simp only [ContLog.roundReward, ContLog.weight, Kernel.fn]
    ring

/-- **C136.** With `pg_method="dpg"` it is minus the average predicted reward of the actions `predict` returns; the logged
actions, rewards and propensities of the batch do not matter. -/
theorem C136_dpg {n d : ℕ} (hn : 0 < n) {space : Option (List (PyNum ℝ))} {net : List ℝ → ℝ} {ctx : Fin n → Fin d → ℝ}
    {a : Fin n → ℝ} (ha : contPredict d space net (.arr ⟨n, d, ctx⟩) = .ok (List.ofFn fun i => .fin (a i)))
    (h : Bandwidth) (q : List ℝ → ℝ → ℝ) (action reward pscore : Fin n → ℝ) :
    contLoss .dpg h space q net (contRows ctx action reward pscore) =
      .ok (-((∑ i, q (List.ofFn (ctx i)) (a i)) / n)) := by
  unfold contLoss
  rw [contGradArr_eq ha .dpg h q action reward pscore (g := fun i => q (List.ofFn (ctx i)) (a i)) fun i => rfl, py_bind_ok,
    npMean_ofFn hn, py_bind_ok]
  rfl

/-- A batch of two rounds, one feature, the policy `x ↦ x` clamped to `[0, 1]`. -/
example : contPredict 1 (some [.fin 0, .fin 1]) (fun x => x.sum) (.arr ⟨2, 1, fun i _ => if i = 0 then 3 else 1 / 2⟩) =
    .ok (List.ofFn fun i : Fin 2 => .fin (if i = 0 then 1 else 1 / 2)) := by
  rw [contPredict_ok]
  simp only [clampActions, spaceBounds, py_bind_ok, py_pure, PyNum.maxNum, PyNum.minNum, List.ofFn_succ, List.ofFn_zero,
    List.map_cons, List.map_nil]
  norm_num

/-- **C136.** An output space `(lo, hi)` with `lo <= hi` is respected: the learner predicts for each context the point of
the interval nearest to the output of the network. -/
theorem C136_output_space {n d : ℕ} {lo hi : ℝ} (hle : lo ≤ hi) (net : List ℝ → ℝ) (ctx : Fin n → Fin d → ℝ) :
    ∃ a : Fin n → ℝ, contPredict d (some [.fin lo, .fin hi]) net (.arr ⟨n, d, ctx⟩) = .ok (List.ofFn fun i => .fin (a i)) ∧
      ∀ i, a i ∈ Set.Icc lo hi ∧ ∀ y ∈ Set.Icc lo hi, |a i - net (List.ofFn (ctx i))| ≤ |y - net (List.ofFn (ctx i))| := by
  refine ⟨fun i => min (max (net (List.ofFn (ctx i))) lo) hi, ?_, fun i => ?_⟩
  · rw [contPredict_ok]
    simp only [clampActions, spaceBounds, py_bind_ok, py_pure, List.map_ofFn]
    rfl
  · set x := net (List.ofFn (ctx i))
    refine ⟨⟨le_min (le_max_right _ _) hle, min_le_right _ _⟩, ?_⟩
    rintro y ⟨h1, h2⟩
    show |min (max x lo) hi - x| ≤ |y - x|
    rcases le_total x lo with hx | hx
    · rw [max_eq_right hx, min_eq_left hle, abs_of_nonneg (by linarith), abs_of_nonneg (by linarith)]
      linarith
    · rw [max_eq_left hx]
      rcases le_total x hi with hx' | hx'
      · rw [min_eq_left hx']
        simp
      · rw [min_eq_right hx', abs_of_nonpos (by linarith), abs_of_nonpos (by linarith)]
        linarith

/-- **C136.** One-sided and trivial output spaces: infinite bounds do not restrict. -/
theorem C136_infinite_bounds {n d : ℕ} (lo hi : ℝ) (net : List ℝ → ℝ) (ctx : Fin n → Fin d → ℝ) :
    contPredict d (some [.fin lo, .inf]) net (.arr ⟨n, d, ctx⟩) =
      .ok (List.ofFn fun i => .fin (max (net (List.ofFn (ctx i))) lo)) ∧
    contPredict d (some [.negInf, .fin hi]) net (.arr ⟨n, d, ctx⟩) =
      .ok (List.ofFn fun i => .fin (min (net (List.ofFn (ctx i))) hi)) ∧
    contPredict d (some [.negInf, .inf]) net (.arr ⟨n, d, ctx⟩) = contPredict d none net (.arr ⟨n, d, ctx⟩) ∧
    contPredict d none net (.arr ⟨n, d, ctx⟩) = .ok (List.ofFn fun i => .fin (net (List.ofFn (ctx i)))) := by
  have e : contPredict d none net (.arr ⟨n, d, ctx⟩) = .ok (List.ofFn fun i => .fin (net (List.ofFn (ctx i)))) := by
    rw [contPredict_ok]
    simp only [clampActions, List.map_ofFn]
    rfl
  refine ⟨?_, ?_, ?_, e⟩
  · rw [contPredict_ok]
    simp only [clampActions, spaceBounds, py_bind_ok, py_pure, List.map_ofFn]
    rfl
  · rw [contPredict_ok]
    simp only [clampActions, spaceBounds, py_bind_ok, py_pure, List.map_ofFn]
    rfl
  · rw [e, contPredict_ok]
    simp only [clampActions, spaceBounds, py_bind_ok, py_pure, List.map_ofFn]
    rfl

/-- **C136.** What happens outside of this: with `lo > hi`, which the constructor accepts, the learner predicts `hi` whatever
the network and the context are; an output space of fewer than two numbers makes every prediction fail with IndexError; a
context of another dimension is refused. -/
theorem C136_bad_space {n d : ℕ} (net : List ℝ → ℝ) (ctx : Fin n → Fin d → ℝ) :
    (∀ lo hi : ℝ, hi < lo → contPredict d (some [.fin lo, .fin hi]) net (.arr ⟨n, d, ctx⟩) =
      .ok (List.ofFn fun _ : Fin n => .fin hi)) ∧
    (∀ s : List (PyNum ℝ), s.length < 2 → contPredict d (some s) net (.arr ⟨n, d, ctx⟩) = .error .indexError) ∧
    ∀ (d' : ℕ) (space : Option (List (PyNum ℝ))), d' ≠ d → contPredict d' space net (.arr ⟨n, d, ctx⟩) = .error .valueError := by
  refine ⟨fun lo hi h => ?_, fun s hs => ?_, fun d' space hd => ?_⟩
  · rw [contPredict_ok]
    simp only [clampActions, spaceBounds, py_bind_ok, py_pure, List.map_ofFn, Except.ok.injEq]
    congr 1
    funext i
    show PyNum.fin (min (max _ lo) hi) = _
    rw [min_eq_right (h.le.trans (le_max_right _ _))]
  · unfold contPredict
    rw [checkArray2, py_bind_ok, raiseIf_neg (by simp), py_bind_ok]
    match s, hs with
    | [], _ => rfl
    | [x], _ => rfl
    | _ :: _ :: _, h => simp at h
  · unfold contPredict
    rw [checkArray2, py_bind_ok, raiseIf_pos (by simpa using Ne.symm hd), py_bind_error]

/-- **C136.** A bandwidth of nan, which the constructor accepts, makes the objective nan in the first batch. -/
theorem C136_nan_bandwidth {n d : ℕ} (hn : 0 < n) {net : List ℝ → ℝ} {ctx : Fin n → Fin d → ℝ} (q : List ℝ → ℝ → ℝ)
    (action reward pscore : Fin n → ℝ) {m : PgMethod} (hm : m ≠ .dpg) :
    contLoss m .nan none q net (contRows ctx action reward pscore) = .error .nonFinite := by
  obtain ⟨k, rfl⟩ : ∃ k, n = k + 1 := ⟨n - 1, by omega⟩
  unfold contLoss contGradArr contRows
  rw [List.map_ofFn]
  simp only [clampActions, List.map_ofFn, py_bind_ok]
  have e2 : (List.ofFn (PyNum.fin ∘ ((fun r : ContRow => net r.x) ∘
      fun i => (⟨List.ofFn (ctx i), action i, reward i, pscore i⟩ : ContRow)))).mapM PyNum.toPy =
      .ok (List.ofFn fun i => net (List.ofFn (ctx i))) := mapM_ofFn_ok fun i => rfl
  rw [e2, py_bind_ok, List.zip, zipWith_ofFn, List.ofFn_succ, List.mapM_cons]
  cases m with
  | dpg => exact absurd rfl hm
  | ipw => rfl
  | dr => rfl

/-! ### C137 -/

/-- Inputs `check_continuous_bandit_feedback_inputs` is meant to accept; without `expected_reward` and `pscore` it does not
compare the lengths. -/
structure ContFitArgs.WellFormed (a : ContFitArgs) (c : Arr2 ℝ) : Prop where
  context : a.context = .arr c
  action : ∃ k, a.action.IsVec k
  reward : ∃ k, a.reward.IsVec k
  expectedReward : a.expectedReward = .none ∨ (a.expectedReward.IsVec c.n ∧ a.action.IsVec c.n ∧ a.reward.IsVec c.n)
  pscore : a.pscore = .none ∨
    (a.pscore.IsVec c.n ∧ a.action.IsVec c.n ∧ a.reward.IsVec c.n ∧ ∀ p ∈ a.pscore.vals, 0 < p)

theorem checkArray2_iff {a : Arg2 ℝ} {x : Arr2 ℝ} : checkArray2 a = .ok x ↔ a = .arr x := by
  cases a <;> simp [checkArray2]

theorem isNone_false_of_isVec {a : Arg1 ℝ} {k : ℕ} (h : a.IsVec k) : a.isNone = false := by
  rcases h with ⟨xs, rfl, -⟩ | ⟨xs, rfl, -⟩ <;> rfl

theorem isVec_shape {a : Arg1 ℝ} {k l : ℕ} (h : a.IsVec k) : a.shape0 = .ok l ↔ k = l := by
  rw [shape0_ok]
  exact ⟨fun h' => isVec_unique (isVec_leading h) h', fun h' => h' ▸ isVec_leading h⟩

theorem isVec_eq {a : Arg1 ℝ} {k l : ℕ} (h : a.IsVec k) : a.IsVec l ↔ k = l :=
  ⟨fun h' => isVec_unique (isVec_leading h) (isVec_leading h'), fun e => e ▸ h⟩

theorem contFeedbackExpected_ok {a : ContFitArgs} {c : Arr2 ℝ} (hc : a.context = .arr c) {ka kr : ℕ}
    (ha : a.action.IsVec ka) (hr : a.reward.IsVec kr) :
    contFeedbackExpected a = .ok () ↔
      a.expectedReward = .none ∨ (a.expectedReward.IsVec c.n ∧ a.action.IsVec c.n ∧ a.reward.IsVec c.n) := by
  have hnone : a.expectedReward.isNone = true ↔ a.expectedReward = .none := by cases a.expectedReward <;> simp [Arg1.isNone]
  unfold contFeedbackExpected
  by_cases h : a.expectedReward.isNone = true
  · rw [if_pos h]
    exact iff_of_true rfl (.inl (hnone.1 h))
  · rw [if_neg h]
    simp only [py_bind_eq_ok, exists_unit, checkArray1_ok, hc, Arg2.rows0, Except.ok.injEq, isVec_shape ha, isVec_shape hr,
      raiseIf_ok_unit, exists_eq_left', isVec_eq ha, isVec_eq hr]
    constructor
    · rintro ⟨⟨k, hk⟩, e, he, h'⟩
      rw [isVec_shape hk] at he
      subst he
      simp only [decide_eq_false_iff_not, not_not] at h'
      exact .inr ⟨by rw [isVec_eq hk]; omega, by omega, by omega⟩
    · rintro (h' | ⟨h1, h2, h3⟩)
      · exact absurd (hnone.2 h') h
      · exact ⟨⟨_, h1⟩, _, (isVec_shape h1).2 rfl, by simp; omega⟩

theorem contFeedbackPscore_ok {a : ContFitArgs} {c : Arr2 ℝ} (hc : a.context = .arr c) {ka kr : ℕ}
    (ha : a.action.IsVec ka) (hr : a.reward.IsVec kr) :
    contFeedbackPscore a = .ok () ↔ a.pscore = .none ∨
      (a.pscore.IsVec c.n ∧ a.action.IsVec c.n ∧ a.reward.IsVec c.n ∧ ∀ p ∈ a.pscore.vals, 0 < p) := by
  have hnone : a.pscore.isNone = true ↔ a.pscore = .none := by cases a.pscore <;> simp [Arg1.isNone]
  unfold contFeedbackPscore
  by_cases h : a.pscore.isNone = true
  · rw [if_pos h]
    exact iff_of_true rfl (.inl (hnone.1 h))
  · rw [if_neg h]
    simp only [py_bind_eq_ok, exists_unit, checkArray1_ok, hc, Arg2.rows0, Except.ok.injEq, isVec_shape ha, isVec_shape hr,
      raiseIf_ok_unit, exists_eq_left', isVec_eq ha, isVec_eq hr]
    constructor
    · rintro ⟨⟨k, hk⟩, e, he, h', hp⟩
      rw [isVec_shape hk] at he
      subst he
      simp only [decide_eq_false_iff_not, not_not] at h'
      refine .inr ⟨by rw [isVec_eq hk]; omega, by omega, by omega, ?_⟩
      simpa using hp
    · rintro (h' | ⟨h1, h2, h3, h4⟩)
      · exact absurd (hnone.2 h') h
      · exact ⟨⟨_, h1⟩, _, (isVec_shape h1).2 rfl, by simp; omega, by simpa using h4⟩

/-- **C137.** `check_continuous_bandit_feedback_inputs` accepts exactly well-formed inputs. -/
theorem C137_feedback_accept_iff (a : ContFitArgs) : checkContinuousFeedback a = .ok () ↔ ∃ c, a.WellFormed c := by
  unfold checkContinuousFeedback
  simp only [py_bind_eq_ok, exists_unit, checkArray2_iff, checkArray1_ok]
  constructor
  · rintro ⟨c, hc, ⟨ka, ha⟩, ⟨kr, hr⟩, h1, h2⟩
    exact ⟨c, hc, ⟨ka, ha⟩, ⟨kr, hr⟩, (contFeedbackExpected_ok hc ha hr).1 h1, (contFeedbackPscore_ok hc ha hr).1 h2⟩
  · rintro ⟨c, hc, ⟨ka, ha⟩, ⟨kr, hr⟩, h1, h2⟩
    exact ⟨c, hc, ⟨ka, ha⟩, ⟨kr, hr⟩, (contFeedbackExpected_ok hc ha hr).2 h1, (contFeedbackPscore_ok hc ha hr).2 h2⟩

/-- The training rounds for logged data of `n` rounds with context dimension `d`. -/
structure ContFitArgs.Logged {n d : ℕ} (a : ContFitArgs) (ctx : Fin n → Fin d → ℝ) (action reward : Fin n → ℝ) : Prop where
  context : a.context = .arr ⟨n, d, ctx⟩
  action : a.action.IsVec n ∧ a.action.vals = List.ofFn action
  reward : a.reward.IsVec n ∧ a.reward.vals = List.ofFn reward

theorem isVec_vals_length {a : Arg1 ℝ} {k : ℕ} (h : a.IsVec k) : a.vals.length = k := by
  rcases h with ⟨xs, rfl, h⟩ | ⟨xs, rfl, h⟩ <;> simp [Arg1.vals, h]

theorem checkFeedback_logged {n d : ℕ} {a : ContFitArgs} {ctx : Fin n → Fin d → ℝ} {action reward : Fin n → ℝ}
    (h : a.Logged ctx action reward) {p : Arg1 ℝ} (hp : p = .none ∨ (p.IsVec n ∧ ∀ y ∈ p.vals, 0 < y)) :
    checkContinuousFeedback { a with expectedReward := .none, pscore := p } = .ok () := by
  rw [C137_feedback_accept_iff]
  refine ⟨_, h.context, ⟨_, h.action.1⟩, ⟨_, h.reward.1⟩, .inl rfl, ?_⟩
  rcases hp with hp | ⟨h1, h2⟩
  · exact .inl hp
  · exact .inr ⟨h1, h.action.1, h.reward.1, h2⟩

theorem qContPrepare_logged {n d : ℕ} {a : ContFitArgs} {ctx : Fin n → Fin d → ℝ} {action reward : Fin n → ℝ}
    (h : a.Logged ctx action reward) :
    qContPrepare d a = .ok (List.ofFn fun i => (List.ofFn (ctx i) ++ [action i], reward i)) := by
  unfold qContPrepare
  rw [checkFeedback_logged h (.inl rfl), py_bind_ok, h.context]
  simp only [checkArray2, py_bind_ok, h.action.2, h.reward.2]
  rw [raiseIf_neg (by simp), py_bind_ok, raiseIf_neg (by simp), py_bind_ok, zipWith_ofFn, raiseIf_neg (by simp), py_bind_ok,
    List.zip, zipWith_ofFn]
  rfl

/-- **C137.** The reward model of the learner is trained on the pairs of each round's features -- its context followed by its
action -- and its reward, and the policy on each round with its own action, reward and propensity, the latter one if none
are given. -/
theorem C137_training_data_partial {n d : ℕ} {a : ContFitArgs} {ctx : Fin n → Fin d → ℝ} {action reward pscore : Fin n → ℝ}
    (h : a.Logged ctx action reward) (hp : (a.pscore = .none ∧ ∀ i, pscore i = 1) ∨
      (a.pscore.IsVec n ∧ a.pscore.vals = List.ofFn pscore ∧ ∀ i, 0 < pscore i)) (m : PgMethod) :
    contFitPrepare m d a = .ok (contRows ctx action reward pscore) ∧
    qContPrepare d a = .ok (List.ofFn fun i => (List.ofFn (ctx i) ++ [action i], reward i)) := by
  refine ⟨?_, qContPrepare_logged h⟩
  unfold contFitPrepare
  have e : { a with expectedReward := .none } = { a with expectedReward := .none, pscore := a.pscore } := rfl
  rw [e, checkFeedback_logged h, py_bind_ok, h.context]
  · simp only [checkArray2, py_bind_ok, h.action.2, h.reward.2]
    rw [raiseIf_neg (by simp), py_bind_ok]
    have hq : pgQPrepare m d a = .ok () := by
      cases m with
      | ipw => rfl
      | _ => simp only [pgQPrepare, qContPrepare_logged h, py_bind_ok, py_pure]
    have hps : (if a.pscore.isNone = true then (List.ofFn action).map fun _ => 1 else a.pscore.vals) = List.ofFn pscore := by
      rcases hp with ⟨h1, h2⟩ | ⟨h1, h2, -⟩
      · rw [h1]
        simp only [Arg1.isNone, if_true, List.map_ofFn]
        congr 1
        funext i
        exact (h2 i).symm
      · rw [if_neg (by rw [isNone_false_of_isVec h1]; simp), h2]
    rw [hps, hq, py_bind_ok, raiseIf_neg (by simp), py_bind_ok, List.zip, List.zip, zipWith_ofFn, zipWith_ofFn, zipWith_ofFn]
    rfl
  · rcases hp with ⟨h1, -⟩ | ⟨h1, h2, h3⟩
    · exact .inl h1
    · refine .inr ⟨h1, ?_⟩
      rw [h2]
      intro y hy
      obtain ⟨i, rfl⟩ := List.mem_ofFn.1 hy
      exact h3 i

/-- Two rounds with integer actions, without propensities. -/
example : (⟨.arr ⟨2, 1, fun i _ => i⟩, .int [3, 5], .flt [1, 0], .none, .none⟩ : ContFitArgs).Logged
    (fun (i : Fin 2) (_ : Fin 1) => (i : ℝ)) (fun i => if i = 0 then 3 else 5) (fun i => if i = 0 then 1 else 0) :=
  ⟨rfl, ⟨.inl ⟨_, rfl, rfl⟩, by simp [Arg1.vals, List.ofFn_succ]⟩, ⟨.inr ⟨_, rfl, rfl⟩, by simp [Arg1.vals, List.ofFn_succ]⟩⟩

/-- **C137.** `predict` of the reward model accepts exactly a context matrix with the dimension of the network and a vector of
as many actions, and returns the output of the network for each context followed by its own action. -/
theorem C137_reward_model_predict (dim : ℕ) (net : List ℝ → ℝ) (context : Arg2 ℝ) (action : Arg1 ℝ) (out : List ℝ) :
    qContPredict dim net context action = .ok out ↔
      ∃ (n : ℕ) (c : Fin n → Fin dim → ℝ) (a : Fin n → ℝ), context = .arr ⟨n, dim, c⟩ ∧ action.IsVec n ∧
        action.vals = List.ofFn a ∧ out = List.ofFn fun i => net (List.ofFn (c i) ++ [a i]) := by
  unfold qContPredict
  simp only [py_bind_eq_ok, exists_unit, checkArray2_iff, checkArray1_ok, raiseIf_ok_unit, decide_eq_false_iff_not, not_not,
    py_pure, Except.ok.injEq]
  constructor
  · rintro ⟨⟨n, d, c⟩, rfl, ⟨k, hk⟩, rfl, hn, rfl⟩
    have hl := isVec_vals_length hk
    obtain rfl : n = k := hn.trans hl
    refine ⟨n, c, fun i => action.vals[i]'(by rw [hl]; exact i.2), rfl, hk, ?_, ?_⟩
    · exact List.ext_getElem (by simpa using hl) (by simp)
    · refine List.ext_getElem (by simp [hl]) fun i h1 h2 => by simp
  · rintro ⟨n, c, a, rfl, hk, ha, rfl⟩
    refine ⟨_, rfl, ⟨n, hk⟩, rfl, by simp [ha], ?_⟩
    rw [ha, zipWith_ofFn, List.map_ofFn]
    rfl

/-- Two contexts of dimension 1 with an integer action each and a network that adds its inputs up. -/
example : qContPredict 1 List.sum (.arr ⟨2, 1, fun i _ => i⟩) (.int [3, 5]) = .ok [3, 6] :=
  (C137_reward_model_predict _ _ _ _ _).2 ⟨2, fun i _ => i, fun i => if i = 0 then 3 else 5, rfl, .inl ⟨_, rfl, rfl⟩,
    by simp [Arg1.vals, List.ofFn_succ], by simp [List.ofFn_succ]; norm_num⟩

/-- **C137.** Nothing else is accepted: if `fit` gets past its data part, the context has the stated dimension and context,
actions, rewards and propensities have the same length. -/
theorem C137_training_data_only_if {m : PgMethod} {d : ℕ} {a : ContFitArgs} {rows : List ContRow}
    (h : contFitPrepare m d a = .ok rows) :
    ∃ c : Arr2 ℝ, a.context = .arr c ∧ c.d = d ∧ a.action.IsVec c.n ∧ a.reward.IsVec c.n ∧
      (a.pscore = .none ∨ (a.pscore.IsVec c.n ∧ ∀ p ∈ a.pscore.vals, 0 < p)) ∧ rows.length = c.n := by
  unfold contFitPrepare at h
  simp only [py_bind_eq_ok, checkArray2_iff, raiseIf_ok_unit, py_pure, Except.ok.injEq] at h
  obtain ⟨u, h1, c, hc, u2, hd, u3, -, u4, hl, rfl⟩ := h
  obtain ⟨c', hc', ⟨ka, ha⟩, ⟨kr, hr⟩, -, hp⟩ := (C137_feedback_accept_iff _).1 h1
  simp only at hc' ha hr hp
  obtain rfl : c = c' := by
    rw [hc] at hc'
    exact Arg2.arr.inj hc'
  simp only [decide_eq_false_iff_not, not_not, isVec_vals_length ha, isVec_vals_length hr] at hd hl
  obtain ⟨rfl, rfl, h4⟩ := hl
  refine ⟨c, hc, hd, ha, hr, ?_, ?_⟩
  · rcases hp with hp | ⟨h1, -, -, h2⟩
    · exact .inl hp
    · exact .inr ⟨h1, h2⟩
  · simp only [List.length_zipWith, List.length_zip, List.length_ofFn, isVec_vals_length ha, isVec_vals_length hr, ← h4]
    simp

/-- **C137.** Arrays of different lengths: with propensities they are refused with ValueError; without, `"ipw"` reports them as
AssertionError. -/
theorem C137_different_lengths {d : ℕ} {a : ContFitArgs} {c : Arr2 ℝ} (hc : a.context = .arr c) (hd : c.d = d) {ka kr : ℕ}
    (ha : a.action.IsVec ka) (hr : a.reward.IsVec kr) (hne : ¬ (c.n = ka ∧ ka = kr)) :
    (∀ kp, a.pscore.IsVec kp → ∀ m, contFitPrepare m d a = .error .valueError) ∧
    (a.pscore = .none → contFitPrepare .ipw d a = .error .assertionError) := by
  have h1 : checkArray1 a.action = .ok () := checkArray1_ok.2 ⟨_, ha⟩
  have h2 : checkArray1 a.reward = .ok () := checkArray1_ok.2 ⟨_, hr⟩
  constructor
  · intro kp hp m
    have h3 : checkArray1 a.pscore = .ok () := checkArray1_ok.2 ⟨_, hp⟩
    have e : checkContinuousFeedback { a with expectedReward := .none } = .error .valueError := by
      unfold checkContinuousFeedback contFeedbackExpected contFeedbackPscore
      simp only [hc, checkArray2, py_bind_ok, h1, h2, h3, Arg1.isNone, if_true, Arg2.rows0, (isVec_shape ha).2 rfl,
        (isVec_shape hr).2 rfl, (isVec_shape hp).2 rfl]
      rw [if_neg (by have := isNone_false_of_isVec hp; simpa [Arg1.isNone] using this), raiseIf_pos, py_bind_error]
      exact decide_eq_true fun h => hne ⟨h.1, h.2.1⟩
    unfold contFitPrepare
    rw [e, py_bind_error]
  · intro hp
    have e : checkContinuousFeedback { a with expectedReward := .none } = .ok () :=
      (C137_feedback_accept_iff _).2 ⟨c, hc, ⟨_, ha⟩, ⟨_, hr⟩, .inl rfl, .inl hp⟩
    unfold contFitPrepare
    rw [e, py_bind_ok, hc, checkArray2, py_bind_ok, raiseIf_neg (by simpa using hd), py_bind_ok]
    simp only [pgQPrepare, py_bind_ok, isVec_vals_length ha, isVec_vals_length hr]
    rw [raiseIf_pos, py_bind_error]
    exact decide_eq_true fun h => hne ⟨h.1, h.2.1⟩

/-- Two contexts, one action and one reward. -/
example : contFitPrepare .ipw 1 ⟨.arr ⟨2, 1, fun _ _ => 0⟩, .flt [1], .flt [1], .none, .none⟩ = .error .assertionError :=
  (C137_different_lengths (c := ⟨2, 1, fun _ _ => 0⟩) (ka := 1) (kr := 1) rfl rfl (.inr ⟨_, rfl, rfl⟩) (.inr ⟨_, rfl, rfl⟩)
    (by simp)).2 rfl

end Obp
