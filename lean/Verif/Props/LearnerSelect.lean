import Verif.Props.Contextual
import Verif.Props.Offline
import Verif.Props.Drifter
import Verif.Props.Utils

/-! # C138, C100, C79: the scores contextual policies rank by, default propensities, fresh coefficients -/

set_option linter.unusedSectionVars false

namespace Obp
open Matrix

section
variable {R : Type} {d : ℕ}

theorem modelScores_one {n : ℕ} (x : Fin d → ℝ) (f : Fin n → (Fin d → ℝ) → ℝ) :
    modelScores [x] f = List.ofFn fun a => f a x := by
  rw [List.ofFn_eq_map]
  simp only [modelScores, List.map_cons, List.map_nil]
  induction List.finRange n with
  | nil => rfl
  | cons a l ih => simp [ih]

theorem sigmoidExp_strictMono : StrictMono fun u : ℝ => sigmoidWith Real.exp u := C07_sigmoid_shape.2.2.1

theorem IsTopRanking.of_strictMono {n : ℕ} {g : ℝ → ℝ} (hg : StrictMono g) {score : Fin n → ℝ} {L : ℕ}
    {l : List ℕ} (h : IsTopRanking (fun a => g (score a)) L l) : IsTopRanking score L l :=
  { h.toIsRanking with
    descending := h.descending.imp fun hij hi hj => hg.le_iff_le.1 (hij hi hj)
    best := fun i hi h1 a ha => hg.le_iff_le.1 (h.best i hi h1 a ha) }

/-- **C138.** `LogisticEpsilonGreedy`: when the uniform draw exceeds epsilon the actions are ranked by the scores
`x . m_a` of the fitted models (equivalently by their sigmoids); otherwise what is returned is a draw without
replacement from all actions. -/
theorem C138_egreedy {ops : GaussRng R} {argsort : List ℝ → List ℕ} (ha : IsArgsort argsort)
    {n L : ℕ} (hL : L ≤ n) (s : LogState R n d) (x : Fin d → ℝ) (epsilon : ℝ) :
    (epsilon < (ops.rand s.rng).1 →
      ∃ l, ((LogClass.egreedy epsilon).select ops argsort L s [x]).1 = .ok l ∧
        IsTopRanking (fun a => x ⬝ᵥ (s.models a).m) L l) ∧
    ((ops.rand s.rng).1 ≤ epsilon →
      ((LogClass.egreedy epsilon).select ops argsort L s [x]).1 =
        .ok (ops.choice (ops.rand s.rng).2 n L).1) := by
  refine ⟨fun h => ?_, fun h => ?_⟩
  · refine ⟨topRanking argsort (List.ofFn fun a => (s.models a).predictProba x) L, ?_, ?_⟩
    · simp [LogClass.select, logEgreedySelect, h, modelScores_one]
    · exact (topRanking_isTop ha _ hL).of_strictMono sigmoidExp_strictMono
  · simp [LogClass.select, logEgreedySelect, not_lt.2 h]

/-- **C138.** `LinEpsilonGreedy` explores in the same way (for the exploiting branch see `C65_exploit`). -/
theorem C138_linear_explore {ops : GaussRng R} {argsort : List ℝ → List ℕ}
    {n L : ℕ} (s : LinState R n d) (x : Fin d → ℝ) {epsilon : ℝ} (h : (ops.rand s.rng).1 ≤ epsilon) :
    ((LinClass.egreedy epsilon).select ops argsort L s [x]).1 =
      .ok (ops.choice (ops.rand s.rng).2 n L).1 := by
  have : ¬ epsilon < (ops.toRng.rand s.rng).1 := not_lt.2 h
  simp [LinClass.select, linEgreedySelect, this]

/-- **C138.** `LogisticUCB` ranks by predicted probability plus epsilon times the root of the sum of squared context
entries over precisions. -/
theorem C138_ucb {ops : GaussRng R} {argsort : List ℝ → List ℕ} (ha : IsArgsort argsort)
    {n L : ℕ} (hL : L ≤ n) (s : LogState R n d) (x : Fin d → ℝ) (epsilon : ℝ) :
    ∃ l, ((LogClass.ucb epsilon).select ops argsort L s [x]).1 = .ok l ∧
      IsTopRanking (fun a => 1 / (1 + Real.exp (-(x ⬝ᵥ (s.models a).m))) +
        epsilon * √(∑ j, x j ^ 2 / (s.models a).q j)) L l := by
  refine ⟨_, rfl, ?_⟩
  have e : (fun a => (s.models a).predictProba x + epsilon * (s.models a).bonus x) =
      fun a => 1 / (1 + Real.exp (-(x ⬝ᵥ (s.models a).m))) +
        epsilon * √(∑ j, x j ^ 2 / (s.models a).q j) := by
    funext a
    have h : ∑ j, ((s.models a).q j)⁻¹ * x j ^ 2 = ∑ j, x j ^ 2 / (s.models a).q j :=
      Finset.sum_congr rfl fun j _ => by rw [div_eq_mul_inv, mul_comm]
    unfold LogReg.bonus LogReg.predictProba
    rw [h, C07_sigmoid_value]
  rw [← e]
  exact topRanking_isTop ha _ hL

/-- **C138.** `LogisticTS` ranks by `x . w_a`, where `w_a` is drawn once for each action from the generator of its
own model with mean `m_a` and coordinatewise standard deviation `alpha / q_a`; nothing else is changed. -/
theorem C138_ts {ops : GaussRng R} {argsort : List ℝ → List ℕ} (ha : IsArgsort argsort)
    {n L : ℕ} (hL : L ≤ n) (s : LogState R n d) (x : Fin d → ℝ) :
    let draw := fun a => ops.normal (s.models a).rng (s.models a).m
      fun j => (s.models a).alpha / (s.models a).q j
    ∃ l, (LogClass.ts.select ops argsort L s [x]).1 = .ok l ∧
      IsTopRanking (fun a => x ⬝ᵥ (draw a).1) L l ∧
      (LogClass.ts.select ops argsort L s [x]).2 =
        { s with models := fun a => { s.models a with rng := (draw a).2 } } := by
  intro draw
  refine ⟨topRanking argsort (List.ofFn fun a => sigmoidWith Real.exp (x ⬝ᵥ (draw a).1)) L, ?_, ?_, ?_⟩
  · simp only [LogClass.select, logTsSelect, modelScores_one]
    rfl
  · exact (topRanking_isTop ha _ hL).of_strictMono sigmoidExp_strictMono
  · rfl

theorem sampleThetas_spec (ops : GaussRng R) {n : ℕ} (mean : Fin n → Fin d → ℝ)
    (cov : Fin n → Matrix (Fin d) (Fin d) ℝ) (l : List (Fin n)) (r0 : R) :
    ∃ r : ℕ → R, r 0 = r0 ∧
      (∀ (k : ℕ) (h : k < l.length), r (k + 1) = (ops.multivariateNormal (r k) (mean l[k]) (cov l[k])).2) ∧
      (sampleThetas ops mean cov l r0).1 =
        List.ofFn (fun k : Fin l.length => (ops.multivariateNormal (r k) (mean l[k]) (cov l[k])).1) ∧
      (sampleThetas ops mean cov l r0).2 = r l.length := by
  induction l generalizing r0 with
  | nil => exact ⟨fun _ => r0, rfl, fun k h => absurd h (by simp), by simp [sampleThetas], rfl⟩
  | cons a l ih =>
    obtain ⟨r, h0, h1, h2, h3⟩ := ih (ops.multivariateNormal r0 (mean a) (cov a)).2
    refine ⟨fun k => k.casesOn r0 r, rfl, ?_, ?_, ?_⟩
    · intro k h
      cases k with
      | zero => exact h0
      | succ k => exact h1 k (by simpa using h)
    · simp only [sampleThetas, h2]
      rw [List.ofFn_succ]
      rfl
    · simp only [sampleThetas, h3]
      rfl

/-- **C138.** `LinTS` ranks by `x . t_a`, where the `t_a` are drawn in the order of the actions from the policy's
generator, with mean the ridge solution of the action and covariance its inverse matrix. -/
theorem C138_lints {ops : GaussRng R} {argsort : List ℝ → List ℕ} (ha : IsArgsort argsort)
    {n L : ℕ} (hL : L ≤ n) (s : LinState R n d) (x : Fin d → ℝ) :
    ∃ (r : ℕ → R) (l : List ℕ), r 0 = s.rng ∧
      (∀ a : Fin n, r (a + 1) = (ops.multivariateNormal (r a) (s.aInv a *ᵥ s.b a) (s.aInv a)).2) ∧
      (LinClass.ts.select ops argsort L s [x]).1 = .ok l ∧
      IsTopRanking (fun a : Fin n => x ⬝ᵥ (ops.multivariateNormal (r a) (s.aInv a *ᵥ s.b a) (s.aInv a)).1) L l ∧
      (LinClass.ts.select ops argsort L s [x]).2.rng = r n := by
  obtain ⟨r, h0, h1, h2, h3⟩ := sampleThetas_spec ops s.theta s.aInv (List.finRange n) s.rng
  refine ⟨r, topRanking argsort (List.ofFn fun a : Fin n =>
    x ⬝ᵥ (ops.multivariateNormal (r a) (s.aInv a *ᵥ s.b a) (s.aInv a)).1) L, h0, fun a => ?_, ?_,
    topRanking_isTop ha _ hL, ?_⟩
  · have := h1 a (by simp)
    simpa [LinState.theta] using this
  · simp only [LinClass.select, linTsSelect]
    congr 2
    rw [h2]
    simp only [rowScores, List.flatMap_cons, List.flatMap_nil, List.append_nil, List.map_ofFn]
    refine List.ext_getElem (by simp) fun i hi hj => ?_
    simp [LinState.theta]
  · simp only [LinClass.select, linTsSelect]
    show (sampleThetas ops s.theta s.aInv (List.finRange n) s.rng).2 = _
    rw [h3, List.length_finRange]

/-- Two actions with the models of weights 1 and -1: whatever ties, the first action is ranked first by
`LogisticUCB` with epsilon 0 and a positive context. -/
example {argsort : List ℝ → List ℕ} (ha : IsArgsort argsort) (s : LogState Unit 2 1)
    (h0 : (s.models 0).m = fun _ => 1) (h1 : (s.models 1).m = fun _ => -1) :
    ((LogClass.ucb 0).select exGauss argsort 1 s [fun _ => 1]).1 = .ok [0] := by
  obtain ⟨l, hl, ht⟩ := C138_ucb (ops := exGauss) ha (n := 2) (L := 1) (by decide) s (fun _ => 1) 0
  rw [hl]
  obtain ⟨z, rfl⟩ := List.length_eq_one_iff.1 ht.length_eq
  by_cases hz : z = 0
  · rw [hz]
  · exfalso
    have hz1 : z < 2 := ht.lt z (by simp)
    obtain rfl : z = 1 := by omega
    have := ht.best 1 (by simp) hz1 0 (by simp)
    have e1 : (⟨1, hz1⟩ : Fin 2) = 1 := rfl
    rw [e1, h0, h1] at this
    simp only [dotProduct, Finset.univ_unique, Finset.sum_singleton, mul_one, zero_mul, add_zero, one_mul,
      neg_neg] at this
    have hlt : Real.exp (-1) < Real.exp 1 := Real.exp_lt_exp.2 (by norm_num)
    have h2 : 1 / (1 + Real.exp 1) < 1 / (1 + Real.exp (-1)) :=
      one_div_lt_one_div_of_lt (by positivity) (by linarith)
    linarith

end

/-! ### C100: the default propensities -/

section
variable {K M : Type} [Field K] [LinearOrder K] [IsStrictOrderedRing K] {n A L d e : ℕ}

theorem RegLog.check_no_pscore {g : RegLog K n A L d e} (hg : g.Valid) :
    checkBanditFeedbackInputs { context := g.args.context, action := g.args.action, reward := g.args.reward
                                position := g.args.position, pscore := .none } = .ok () := by
  have hc := RegLog.check_plain hg
  rw [C10_accept_iff] at hc ⊢
  obtain ⟨k, acts, h1, h2, h3, h4, h5, h6, h7⟩ := hc
  exact ⟨k, acts, h1, h2, h3, h4, Or.inl rfl, h6, h7⟩

theorem defaultPscore_none {f : Fin n → Fin A} {m : Fin A} (hm : ∃ i, f i = m) (hle : ∀ i, f i ≤ m) :
    defaultPscore (K := K) (List.ofFn fun i => ((f i : ℕ) : ℤ)) .none =
      .ok (List.ofFn fun _ : Fin n => 1 / (((m : ℕ) : K) + 1)) := by
  obtain ⟨i, hi⟩ := hm
  have hne : (List.ofFn fun i => ((f i : ℕ) : ℤ)) ≠ [] := by
    refine List.ne_nil_of_mem (a := ((f i : ℕ) : ℤ)) ?_
    exact List.mem_ofFn.2 ⟨i, rfl⟩
  obtain ⟨M, hM, -, h2⟩ := npMax_of_ne hne
  have hMm : M = ((m : ℕ) : ℤ) := by
    refine le_antisymm ((h2 _).2 ?_) ?_
    · rintro z hz
      obtain ⟨j, rfl⟩ := List.mem_ofFn.1 hz
      exact_mod_cast hle j
    · have := (h2 M).1 le_rfl _ (List.mem_ofFn.2 ⟨i, rfl⟩)
      rw [hi] at this
      exact this
  unfold defaultPscore
  rw [show (Arg1.none : Arg1 K).isNone = true from rfl, if_pos rfl, hM, py_bind_ok, hMm]
  refine mapM_ofFn_ok fun _ => ?_
  have hpos : (0 : K) < ((m : ℕ) : K) + 1 := by positivity
  have := npDiv_ok (a := (1 : K)) hpos.ne'
  simpa using this

/-- **C100.** Without propensities both learners fit as if every propensity were one over one more than the largest
logged action (not one over the number of actions). -/
theorem C100_default_pscore {g : RegLog K n A L d A} (hg : g.Valid) {m : Fin A} (hm : ∃ i, g.action i = m)
    (hle : ∀ i, g.action i ≤ m) (clf : WClassifier M K) (lrn : Learner M K) (method : FitMethod)
    (ms : Fin L → M) :
    let g' : RegLog K n A L d A := { g with pscore := fun _ => 1 / (((m : ℕ) : K) + 1) }
    g'.Valid ∧
    ipwLearnerFit clf ⟨A, L⟩ { g.args with pscore := .none } ms = ipwLearnerFit clf ⟨A, L⟩ g'.args ms ∧
    qLearnerFit lrn (qConfig K A L method) { g.args with pscore := .none } ms =
      qLearnerFit lrn (qConfig K A L method) g'.args ms := by
  intro g'
  have hv : g'.Valid := ⟨hg.rounds, fun _ => by show (0 : K) < 1 / (((m : ℕ) : K) + 1); positivity⟩
  have hd := defaultPscore_none (K := K) hm hle
  have hd' : defaultPscore (List.ofFn fun i => ((g.action i : ℕ) : ℤ)) g'.args.pscore =
      .ok (List.ofFn fun _ : Fin n => 1 / (((m : ℕ) : K) + 1)) := rfl
  refine ⟨hv, ?_, ?_⟩
  · unfold ipwLearnerFit ipwLearnerPrepare
    dsimp only
    rw [RegLog.check_no_pscore hg, RegLog.check_plain hv, py_bind_ok, py_bind_ok]
    change ((raiseIf _ _ >>= fun _ => defaultPscore (List.ofFn fun i => ((g.action i : ℕ) : ℤ)) (.none : Arg1 K) >>= _)
        >>= _) =
      ((raiseIf _ _ >>= fun _ => defaultPscore (List.ofFn fun i => ((g.action i : ℕ) : ℤ)) g'.args.pscore >>= _)
        >>= _)
    rw [hd, hd']
    rfl
  · unfold qLearnerFit
    dsimp only
    rw [RegLog.check_no_pscore hg, RegLog.check_plain hv, py_bind_ok, py_bind_ok]
    rw [show checkArray2 g.args.context = .ok ⟨n, d, g.context⟩ from rfl,
      show checkArray2 g'.args.context = .ok ⟨n, d, g.context⟩ from rfl, py_bind_ok, py_bind_ok,
      show g.args.action.ints = .ok (List.ofFn fun i => ((g.action i : ℕ) : ℤ)) from rfl,
      show g'.args.action.ints = .ok (List.ofFn fun i => ((g.action i : ℕ) : ℤ)) from rfl, py_bind_ok, py_bind_ok,
      hd, hd']
    rfl

/-- **C100.** So with non-negative rewards `IPWLearner` weights each round by its reward times one more than the
largest logged action. -/
theorem C100_default_weights {g : RegLog K n A L d A} (hg : g.Valid) (hr : ∀ i, 0 ≤ g.reward i)
    (hpos : ∀ p, ∃ i, g.position i = p) {m : Fin A} (hm : ∃ i, g.action i = m) (hle : ∀ i, g.action i ≤ m)
    (clf : WClassifier M K) (ms ms' : Fin L → M) :
    ipwLearnerFit clf ⟨A, L⟩ { g.args with pscore := .none } ms = .ok ms' ↔
      ∀ p, clf.fit (ms p) ((g.roundsAt (List.finRange n) p).map fun i => List.ofFn (g.context i))
        ((g.roundsAt (List.finRange n) p).map fun i => ((g.action i : ℕ) : ℤ))
        ((g.roundsAt (List.finRange n) p).map fun i => g.reward i * (((m : ℕ) : K) + 1)) = .ok (ms' p) := by
  obtain ⟨hv, h1, -⟩ := C100_default_pscore hg hm hle clf (lrn := ⟨fun m _ _ _ => .ok m, fun _ _ => 0⟩) .normal ms
  rw [h1, C100_ipw_fit hv hr hpos clf]
  simp only [one_div, div_inv_eq_mul]
  rfl

/-- The hypotheses hold for the log of four rounds with the largest action 1. -/
example : exQLog.Valid ∧ (∀ i, 0 ≤ exQLog.reward i) ∧ (∀ p, ∃ i, exQLog.position i = p) ∧
    (∃ i, exQLog.action i = 1) ∧ ∀ i, exQLog.action i ≤ 1 :=
  ⟨⟨by decide, by decide +kernel⟩, by decide +kernel, by decide, by decide, by decide⟩

end

/-! ### C79: fresh coefficients -/

section
variable {K ι : Type} [Field K] [LinearOrder K] [IsStrictOrderedRing K] {c : DrifterConfig K ι}

/-- The number of the draw that interval `k` starts from: a new draw for every interval, or the first two in turn. -/
def drawOf (seasonal : Bool) (k : ℕ) : ℕ := if seasonal then k % 2 else k

/-- **C79.** With linear transitions the first `m` intervals of a drifter are: in interval `k` the coefficients start
at draw number `k` and the last `period` rounds move linearly towards draw number `k + 1` (for seasonal drift the
draws 0 and 1 alternate). -/
theorem C79_intervals (hlin : c.transition = .linear) (hi : 0 < c.interval) {m : ℕ} (hm : 0 < m) :
    ∃ s', CoefReturns c (drifterInit c) (m * c.interval)
      ((List.range m).flatMap fun k => (List.range c.interval).map fun o => fun x =>
        c.baseWeight * c.sample 0 x + (1 - c.baseWeight) *
          ((1 - ((o + 1 + c.period - c.interval : ℕ) : K) / (c.period + 1)) * c.sample (drawOf c.seasonal k) x +
            ((o + 1 + c.period - c.interval : ℕ) : K) / (c.period + 1) * c.sample (drawOf c.seasonal (k + 1)) x)) s' := by
  let S : ℕ → DrifterState K ι := fun k =>
    { base := c.sample 0, current := c.sample (drawOf c.seasonal k), next := c.sample (drawOf c.seasonal (k + 1))
      available := c.interval, sampled := if c.seasonal then 2 else k + 2, flipped := 0 }
  let seg : ℕ → List (ι → K) := fun k => (List.range c.interval).map fun o => fun x =>
        c.baseWeight * c.sample 0 x + (1 - c.baseWeight) *
          ((1 - ((o + 1 + c.period - c.interval : ℕ) : K) / (c.period + 1)) * c.sample (drawOf c.seasonal k) x +
            ((o + 1 + c.period - c.interval : ℕ) : K) / (c.period + 1) * c.sample (drawOf c.seasonal (k + 1)) x)
  have hS0 : drifterInit c = S 0 := by
    simp only [drifterInit, S, drawOf]
    cases c.seasonal <;> rfl
  have hupd : ∀ k, { drifterUpdate c (drifterRows c (S k) (S k).available).2 with available := c.interval } =
      S (k + 1) := by
    intro k
    simp only [drifterRows, hlin, drifterUpdate, S, drawOf]
    cases hs : c.seasonal
    · simp
    · simp [Nat.add_mod]
      rcases Nat.mod_two_eq_zero_or_one k with h | h <;> simp [h]
  have hrows : ∀ k, (drifterRows c (S k) (S k).available).1 = seg k := by
    intro k
    simp only [drifterRows, drifterWeights, hlin, S, transitionSteps_full, List.map_map, seg]
    refine List.map_congr_left fun o _ => ?_
    funext x
    simp only [Function.comp, weightedCoef]
    ring
  have key : ∀ m k, drifterLoop c m (m * c.interval) (S k) =
      some ((List.range m).flatMap (fun j => seg (k + j)), S (k + m)) := by
    intro m
    induction m with
    | zero => intro k; simp [drifterLoop]
    | succ m ih =>
      intro k
      have hav : (S k).available = c.interval := rfl
      obtain ⟨a, ha⟩ : ∃ a, (m + 1) * c.interval = a + 1 := ⟨(m + 1) * c.interval - 1, by
        have : 0 < (m + 1) * c.interval := by positivity
        omega⟩
      have hle : c.interval ≤ (m + 1) * c.interval := Nat.le_mul_of_pos_left _ (by omega)
      have hsub : a + 1 - (S k).available = m * c.interval := by
        rw [← ha, hav, Nat.add_mul, Nat.one_mul]; omega
      rw [ha, drifterLoop_step_ge (c := c) (s := S k) (by rw [hav]; omega)
        (rest := (List.range m).flatMap (fun j => seg (k + 1 + j))) (t := S (k + 1 + m))
        (by rw [hsub, hupd, ih])]
      rw [hrows, List.range_succ_eq_map, List.flatMap_cons, List.flatMap_map]
      simp only [Nat.add_zero, Nat.succ_eq_add_one, Nat.add_assoc, Nat.add_comm 1]
  refine ⟨S m, coefReturns_iff.2 ⟨by positivity, m, ?_⟩⟩
  rw [hS0, key m 0]
  simp only [Nat.zero_add, seg]

/-- Three intervals of four rounds: from draw 0 to 1, from 1 to 2, from 2 to 3. -/
example : ∃ s' rows, CoefReturns demoDrifter (drifterInit demoDrifter) 12 rows s' ∧
    rows.map (fun f => f ()) = [0, 0, 1 / 3, 2 / 3, 1, 1, 4 / 3, 5 / 3, 2, 2, 7 / 3, 8 / 3] := by
  obtain ⟨s', h⟩ := C79_intervals (c := demoDrifter) rfl (by decide) (m := 3) (by decide)
  exact ⟨s', _, h, by decide +kernel⟩

end

end Obp
