import Verif.Lemmas.Contextual
import Mathlib.Algebra.BigOperators.Field
import Mathlib.Analysis.SpecialFunctions.Exp
import Mathlib.Analysis.SpecialFunctions.Log.Deriv
import Mathlib.Analysis.SpecialFunctions.ExpDeriv

/-! # C61, C65-C69, C98, C99: linear and logistic policies -/

set_option linter.unusedSectionVars false

namespace Obp
open Matrix

variable {R : Type} {n d : ℕ}

theorem mkCtxConfig_ok {dim n L b : ℤ} {p : ℕ × CfConfig} (h : mkCtxConfig dim n L b = .ok p) :
    1 ≤ p.1 ∧ 2 ≤ p.2.nActions ∧ 1 ≤ p.2.lenList ∧ p.2.lenList ≤ p.2.nActions ∧ 1 ≤ p.2.batchSize := by
  simp only [mkCtxConfig, py_bind_eq_ok, exists_unit, raiseIf_ok] at h
  obtain ⟨h1, c, hc, h4⟩ := h
  obtain rfl := Except.ok.inj h4
  simp only [decide_eq_false_iff_not] at h1
  exact ⟨by dsimp only; omega, mkCfConfig_ok hc⟩

theorem sampleThetas_length (ops : GaussRng R) (mean : Fin n → Fin d → ℝ)
    (cov : Fin n → Matrix (Fin d) (Fin d) ℝ) (l : List (Fin n)) (r : R) :
    (sampleThetas ops mean cov l r).1.length = l.length := by
  induction l generalizing r with
  | nil => rfl
  | cons a l ih => simp only [sampleThetas, List.length_cons, ih]

theorem logInit_ok (ops : Rng R ℝ) {lam alpha : ℝ} (hl : 0 < lam) (ha : 0 < alpha) (n d : ℕ) :
    ∃ s : LogState R n d, LogState.init ops lam alpha n d = .ok s := by
  unfold LogState.init
  rw [raiseIf_neg (by simpa using ha), py_bind_ok, raiseIf_neg (by simpa using hl), py_bind_ok]
  exact ⟨_, rfl⟩

/-! ### C61 -/

/-- **C61.** Linear policies: for a context of one row a result is a ranking of `len_list` distinct
existing actions, whatever the state, the generator and the order of ties; `LinEpsilonGreedy` and
`LinUCB` reject other contexts with ValueError. -/
theorem C61_linear_partial {ops : GaussRng R} (ho : ops.toRng.Valid) {argsort : List ℝ → List ℕ}
    (ha : IsArgsort argsort) {dim n L b : ℤ} {d : ℕ} {cfg : CfConfig}
    (hc : mkCtxConfig dim n L b = .ok (d, cfg)) (c : LinClass) (s : LinState R cfg.nActions d)
    (rows : List (Fin d → ℝ)) :
    (rows.length = 1 → ∀ l, (c.select ops argsort cfg.lenList s rows).1 = .ok l →
      IsRanking cfg.nActions cfg.lenList l) ∧
    (rows.length ≠ 1 → c ≠ .ts → (c.select ops argsort cfg.lenList s rows).1 = .error .valueError) := by
  obtain ⟨-, -, -, hL, -⟩ := mkCtxConfig_ok hc
  dsimp only at hL
  constructor
  · intro hr l h
    obtain ⟨x, rfl⟩ := List.length_eq_one_iff.1 hr
    cases c with
    | egreedy e =>
      simp only [LinClass.select, linEgreedySelect, List.length_singleton, ne_eq, not_true_eq_false,
        if_false] at h
      split at h
      · obtain rfl := Except.ok.inj h
        have := topRanking_isRanking ha (rowScores [x] (List.ofFn s.theta)) (L := cfg.lenList)
          (by simpa [rowScores] using hL)
        simpa [rowScores] using this
      · obtain rfl := Except.ok.inj h
        exact ho _ _ _ hL
    | ucb e =>
      simp only [LinClass.select, linUcbSelect] at h
      split at h
      · cases h
      · obtain rfl := Except.ok.inj h
        exact (topRanking_isTop ha _ hL).toIsRanking
    | ts =>
      simp only [LinClass.select, linTsSelect] at h
      obtain rfl := Except.ok.inj h
      have hlen : (rowScores [x] (sampleThetas ops s.theta s.aInv (List.finRange cfg.nActions) s.rng).1).length =
          cfg.nActions := by
        simp [rowScores, sampleThetas_length]
      have := topRanking_isRanking ha (rowScores [x]
        (sampleThetas ops s.theta s.aInv (List.finRange cfg.nActions) s.rng).1) (L := cfg.lenList)
        (by rw [hlen]; exact hL)
      rw [hlen] at this
      exact this
  · intro hr hts
    cases c with
    | egreedy e => simp only [LinClass.select, linEgreedySelect, ne_eq, hr, not_false_eq_true, if_true]
    | ucb e =>
      simp only [LinClass.select, linUcbSelect]
      split
      · exact absurd rfl hr
      · rfl
    | ts => exact absurd rfl hts

/-- **C61.** Logistic policies: the same; `LogisticUCB` rejects other contexts. -/
theorem C61_logistic_partial {ops : GaussRng R} (ho : ops.toRng.Valid) {argsort : List ℝ → List ℕ}
    (ha : IsArgsort argsort) {dim n L b : ℤ} {d : ℕ} {cfg : CfConfig}
    (hc : mkCtxConfig dim n L b = .ok (d, cfg)) (c : LogClass) (s : LogState R cfg.nActions d)
    (rows : List (Fin d → ℝ)) :
    (rows.length = 1 → ∃ l, (c.select ops argsort cfg.lenList s rows).1 = .ok l ∧
      IsRanking cfg.nActions cfg.lenList l) ∧
    (rows.length ≠ 1 → ∀ e, c = .ucb e →
      (c.select ops argsort cfg.lenList s rows).1 = .error .valueError) := by
  obtain ⟨-, -, -, hL, -⟩ := mkCtxConfig_ok hc
  dsimp only at hL
  constructor
  · intro hr
    obtain ⟨x, rfl⟩ := List.length_eq_one_iff.1 hr
    have key : ∀ f : Fin cfg.nActions → (Fin d → ℝ) → ℝ, IsRanking cfg.nActions cfg.lenList
        (topRanking argsort (modelScores [x] f) cfg.lenList) := by
      intro f
      have hlen : (modelScores [x] f).length = cfg.nActions := by simp [modelScores]
      have := topRanking_isRanking ha (modelScores [x] f) (L := cfg.lenList) (by rw [hlen]; exact hL)
      rw [hlen] at this
      exact this
    cases c with
    | egreedy e =>
      simp only [LogClass.select, logEgreedySelect]
      split
      · exact ⟨_, rfl, key _⟩
      · exact ⟨_, rfl, ho _ _ _ hL⟩
    | ucb e => exact ⟨_, rfl, (topRanking_isTop ha _ hL).toIsRanking⟩
    | ts => exact ⟨_, rfl, key _⟩
  · rintro hr e rfl
    simp only [LogClass.select, logUcbSelect]
    split
    · exact absurd rfl hr
    · rfl

/-- a generator of the contextual policies: every normal draw is one -/
def exGauss : GaussRng Unit where
  seeded := ()
  rand := fun _ => (1, ())
  choice := fun _ _ k => (List.range k, ())
  beta := fun _ _ a _ => (a, ())
  multivariateNormal := fun _ _ _ _ => (fun _ => 1, ())
  normal := fun _ _ _ _ => (fun _ => 1, ())

/-- **C61, negative part.** `LinTS` does not check the number of rows: on a new policy with two actions, a
context with the two rows 0 and 1 can make it return an action that does not exist. -/
theorem C61_lints_rows_unchecked {argsort : List ℝ → List ℕ} (ha : IsArgsort argsort) :
    ∃ l, (LinClass.ts.select exGauss argsort 1 (LinState.init exGauss.toRng 2 1)
        [fun _ => 0, fun _ => 1]).1 = .ok l ∧ ¬ IsRanking 2 1 l := by
  refine ⟨_, rfl, fun h => ?_⟩
  have hs : rowScores [fun _ => 0, fun _ => 1] (sampleThetas exGauss
      (LinState.init exGauss.toRng 2 1).theta (LinState.init exGauss.toRng 2 1).aInv (List.finRange 2) ()).1 =
      List.ofFn ![(0 : ℝ), 0, 1, 1] := by
    have : List.finRange 2 = [0, 1] := by decide
    simp [rowScores, this, sampleThetas, exGauss, dotProduct]
  have htop := topRanking_isTop ha ![(0 : ℝ), 0, 1, 1] (L := 1) (by decide)
  rw [← hs] at htop
  obtain ⟨i, hi⟩ := List.length_eq_one_iff.1 htop.length_eq
  have hlt : i < 2 := h.lt i (by
    exact hi ▸ List.mem_singleton_self i)
  have := htop.best i (by rw [hi]; simp) (by omega) 3 (by rw [hi]; simp; omega)
  have h3 : (![(0 : ℝ), 0, 1, 1] : Fin 4 → ℝ) 3 = 1 := rfl
  rw [h3] at this
  obtain rfl | rfl : i = 0 ∨ i = 1 := by omega
  · exact absurd (show (1 : ℝ) ≤ 0 from this) (by norm_num)
  · exact absurd (show (1 : ℝ) ≤ 0 from this) (by norm_num)

/-- **C61, negative part.** Nor does `LogisticTS` (nor `LogisticEpsilonGreedy`, whose scores have the
same layout). -/
theorem C61_logistic_rows_unchecked {argsort : List ℝ → List ℕ} (ha : IsArgsort argsort) :
    ∃ s : LogState Unit 2 1, LogState.init exGauss.toRng 1 1 2 1 = .ok s ∧
      ∃ l, (LogClass.ts.select exGauss argsort 2 s [fun _ => 0, fun _ => 1]).1 = .ok l ∧
        ¬ IsRanking 2 2 l := by
  have hinit : ∃ s : LogState Unit 2 1, LogState.init exGauss.toRng 1 1 2 1 = .ok s := logInit_ok _ one_pos one_pos _ _
  obtain ⟨s, hs⟩ := hinit
  refine ⟨s, hs, _, rfl, fun h => ?_⟩
  set σ0 := sigmoidWith Real.exp 0 with h0
  set σ1 := sigmoidWith Real.exp 1 with h1
  have hlt : σ0 < σ1 := by
    have e0 : σ0 = 1 / 2 := by rw [h0]; simp [sigmoidWith]; norm_num
    have e1 : σ1 = 1 / (1 + Real.exp (-1)) := by rw [h1]; simp [sigmoidWith]
    rw [e0, e1]
    refine one_div_lt_one_div_of_lt (by positivity) ?_
    have : Real.exp (-1) < 1 := by rw [Real.exp_lt_one_iff]; norm_num
    linarith
  have hsc : (modelScores [fun _ => 0, fun _ => 1] fun (a : Fin 2) (x : Fin 1 → ℝ) =>
      sigmoidWith Real.exp (x ⬝ᵥ (exGauss.normal (s.models a).rng (s.models a).m (s.models a).sd).1)) =
      List.ofFn ![σ0, σ1, σ0, σ1] := by
    have : List.finRange 2 = [0, 1] := by decide
    simp [modelScores, this, exGauss, dotProduct, ← h0, ← h1]
  have htop := topRanking_isTop ha ![σ0, σ1, σ0, σ1] (L := 2) (by decide)
  rw [← hsc] at htop
  have h' : IsRanking 2 2 (topRanking argsort (modelScores [fun _ => 0, fun _ => 1]
    fun (a : Fin 2) (x : Fin 1 → ℝ) =>
      sigmoidWith Real.exp (x ⬝ᵥ (exGauss.normal (s.models a).rng (s.models a).m (s.models a).sd).1)) 2) := h
  revert htop h'
  generalize topRanking argsort _ 2 = l
  intro htop h'
  have h3 : 3 ∉ l := fun hm => absurd (h'.lt 3 hm) (by decide)
  have hsub : l ⊆ [0, 1] := fun i hi => by
    have := h'.lt i hi; simp; omega
  have h0mem : 0 ∈ l := by
    by_contra hn
    have : l ⊆ [1] := fun i hi => by
      have h4 := hsub hi
      have h5 : i ≠ 0 := fun h5 => hn (h5 ▸ hi)
      simp at h4 ⊢; omega
    have := (h'.nodup.subperm this).length_le
    rw [h'.length_eq] at this
    simp at this
  have := htop.best 0 h0mem (by decide) 3 h3
  exact absurd this (not_le.2 hlt)

/-! ### C65 -/

theorem ridge_solution {D : List ((Fin d → ℝ) × ℝ)} {A : Matrix (Fin d) (Fin d) ℝ} {v : Fin d → ℝ}
    (h1 : A * gram D = 1) (hv : v = moment D) :
    gram D * A = 1 ∧ gram D *ᵥ (A *ᵥ v) = moment D ∧ (∀ t, gram D *ᵥ t = moment D → t = A *ᵥ v) ∧
      ∀ t, ridge D (A *ᵥ v) ≤ ridge D t ∧ (ridge D t = ridge D (A *ᵥ v) → t = A *ᵥ v) := by
  have h2 : gram D * A = 1 := mul_eq_one_comm.1 h1
  have h3 : gram D *ᵥ (A *ᵥ v) = moment D := by
    rw [mulVec_mulVec, h2, one_mulVec]
    exact hv
  have hr : ∀ t, ridge D t = ridge D (A *ᵥ v) + (t - A *ᵥ v) ⬝ᵥ (gram D *ᵥ (t - A *ᵥ v)) := by
    intro t
    have := ridge_shift D (A *ᵥ v) (t - A *ᵥ v)
    rw [h3, sub_self, zero_dotProduct, mul_zero, add_zero, add_sub_cancel] at this
    exact this
  refine ⟨h2, h3, ?_, ?_⟩
  · intro t ht
    have : A *ᵥ (gram D *ᵥ t) = A *ᵥ (gram D *ᵥ (A *ᵥ v)) := by rw [ht, h3]
    rwa [mulVec_mulVec, mulVec_mulVec, h1, one_mulVec, one_mulVec] at this
  · intro t
    rw [hr t]
    refine ⟨le_add_of_nonneg_right (gram_quad_nonneg D _), fun h => ?_⟩
    by_contra hne
    have := gram_quad_pos D (sub_ne_zero.2 hne)
    linarith

/-- **C65.** After any history of `update_params` and `select_action` calls of a linear policy, for every
action: the stored matrix is the inverse of `I + Σ x xᵀ` over that action's observations in the
completed batches; the coefficients solve the normal equations, uniquely, and are the unique
minimiser of the ridge objective. -/
theorem C65_ridge (ops : GaussRng R) (argsort : List ℝ → List ℕ) (cfg : CfConfig) (c : LinClass)
    (calls : List (CtxCall d)) (hreset : CtxCall.reset ∉ calls)
    (hz : ∀ p ∈ ctxObservations calls, -(cfg.nActions : ℤ) ≤ p.1 ∧ p.1 < cfg.nActions)
    (a : Fin cfg.nActions) :
    let s := c.run ops argsort cfg d calls
    let D := dataOf (completed cfg.batchSize (ctxObservations calls)) a
    let θ := s.theta a
    s.aInv a * gram D = 1 ∧ gram D * s.aInv a = 1 ∧
      gram D *ᵥ θ = moment D ∧ (∀ t, gram D *ᵥ t = moment D → t = θ) ∧
      ∀ t, ridge D θ ≤ ridge D t ∧ (ridge D t = ridge D θ → t = θ) := by
  intro s D θ
  have hi := linInv_run ops argsort cfg c calls hreset hz
  exact ⟨hi.inv a, ridge_solution (hi.inv a) (hi.b a)⟩

/-- **C65.** The same for every history whatsoever, with `initialize` calls and with updates that fail
because the action does not exist: what has been learned are the observations up to the last one that
completed a batch, batches being counted from the last `initialize`. -/
theorem C65_any_history (ops : GaussRng R) (argsort : List ℝ → List ℕ) (cfg : CfConfig) (c : LinClass)
    (calls : List (CtxCall d)) :
    let s := c.run ops argsort cfg d calls
    ∃ k, LearnedUpTo cfg.batchSize cfg.nActions calls k ∧ ∀ a,
      let D := dataOf ((ctxObservations calls).take k) a
      let θ := s.theta a
      s.aInv a * gram D = 1 ∧ gram D * s.aInv a = 1 ∧
        gram D *ᵥ θ = moment D ∧ (∀ t, gram D *ᵥ t = moment D → t = θ) ∧
        ∀ t, ridge D θ ≤ ridge D t ∧ (ridge D t = ridge D θ → t = θ) := by
  intro s
  obtain ⟨k, hi⟩ := linInvAny_run ops argsort cfg c calls
  exact ⟨k, hi.learned, fun a => ⟨hi.inv a, ridge_solution (hi.inv a) (hi.b a)⟩⟩

/-- **C65.** These are the coefficients that `LinEpsilonGreedy` and `LinUCB` rank by, and around which
`LinTS` samples: an exploiting `LinEpsilonGreedy` returns the top ranking of the predicted rewards. -/
theorem C65_exploit {ops : GaussRng R} {argsort : List ℝ → List ℕ} (ha : IsArgsort argsort)
    {n L : ℕ} (hL : L ≤ n) (s : LinState R n d) (x : Fin d → ℝ) {epsilon : ℝ}
    (hu : epsilon < (ops.rand s.rng).1) :
    ∃ l, ((LinClass.egreedy epsilon).select ops argsort L s [x]).1 = .ok l ∧
      IsTopRanking (fun a => x ⬝ᵥ s.theta a) L l ∧
      ((LinClass.egreedy epsilon).select ops argsort L s [x]).2.thetaHat = s.theta := by
  have hcond : epsilon < (ops.toRng.rand s.rng).1 := hu
  refine ⟨topRanking argsort (rowScores [x] (List.ofFn s.theta)) L, ?_, ?_, ?_⟩
  · simp [LinClass.select, linEgreedySelect, hcond]
  · have : rowScores [x] (List.ofFn s.theta) = List.ofFn fun a => x ⬝ᵥ s.theta a := by
      simp [rowScores, List.map_ofFn, Function.comp_def]
    rw [this]
    exact topRanking_isTop ha _ hL
  · simp [LinClass.select, linEgreedySelect, hcond]

/-- **C65.** After any history, updates with an existing action never fail (in particular never divide by
zero), and those with another raise IndexError. -/
theorem C65_update_ok (ops : GaussRng R) (argsort : List ℝ → List ℕ) (cfg : CfConfig) (c : LinClass)
    (calls : List (CtxCall d)) (z : ℤ) (r : ℝ) (x : Fin d → ℝ) :
    ((c.run ops argsort cfg d calls).updateParams cfg.batchSize z r x).1 =
      if -(cfg.nActions : ℤ) ≤ z ∧ z < cfg.nActions then .ok () else .error .indexError := by
  obtain ⟨k, hi⟩ := linInvAny_run ops argsort cfg c calls
  exact (hi.update z r x).1

/-! ### C66 -/

theorem quad_antitone {D : List ((Fin d → ℝ) × ℝ)} {A : Matrix (Fin d) (Fin d) ℝ} (hA : A * gram D = 1)
    (E : List ((Fin d → ℝ) × ℝ)) :
    ∃ B, B * gram (D ++ E) = 1 ∧ ∀ v, v ⬝ᵥ (B *ᵥ v) ≤ v ⬝ᵥ (A *ᵥ v) := by
  induction E using List.reverseRecOn with
  | nil => exact ⟨A, by rw [List.append_nil]; exact hA, fun v => le_refl _⟩
  | append_singleton E p ih =>
    obtain ⟨B, hB, hle⟩ := ih
    obtain ⟨C, -, hC, hq⟩ := woodbury_ok hB p.1 p.2
    refine ⟨C, by rw [← List.append_assoc]; exact hC, fun v => ?_⟩
    rw [hq v]
    have : 0 ≤ (v ⬝ᵥ (B *ᵥ p.1)) ^ 2 / (1 + p.1 ⬝ᵥ (B *ᵥ p.1)) :=
      div_nonneg (sq_nonneg _) (add_nonneg zero_le_one (inv_quad_nonneg hB _))
    linarith [hle v]

theorem inverse_unique {G A B : Matrix (Fin d) (Fin d) ℝ} (hA : A * G = 1) (hB : B * G = 1) : A = B := by
  have : G * B = 1 := mul_eq_one_comm.1 hB
  calc A = A * (G * B) := by rw [this, Matrix.mul_one]
    _ = B := by rw [← Matrix.mul_assoc, hA, Matrix.one_mul]

/-- **C66.** After any history the number under the square root of the `LinUCB` bonus is positive for a
non-zero context, so that `select_action` returns the top ranking of the upper confidence bounds. -/
theorem C66_ucb {ops : GaussRng R} {argsort : List ℝ → List ℕ} (ha : IsArgsort argsort)
    {dim n L b : ℤ} {cfg : CfConfig} (hc : mkCtxConfig dim n L b = .ok (d, cfg)) (epsilon : ℝ)
    (calls : List (CtxCall d)) (x : Fin d → ℝ) :
    let s := (LinClass.ucb epsilon).run ops argsort cfg d calls
    (∀ a, 0 ≤ x ⬝ᵥ (s.aInv a *ᵥ x) ∧ (x ≠ 0 → 0 < x ⬝ᵥ (s.aInv a *ᵥ x))) ∧
    ∃ l, ((LinClass.ucb epsilon).select ops argsort cfg.lenList s [x]).1 = .ok l ∧
      IsTopRanking (fun a => x ⬝ᵥ s.theta a + epsilon * √(x ⬝ᵥ (s.aInv a *ᵥ x))) cfg.lenList l := by
  intro s
  obtain ⟨-, -, -, hL, -⟩ := mkCtxConfig_ok hc
  obtain ⟨k, hi⟩ := linInvAny_run ops argsort cfg (.ucb epsilon) calls
  have hq : ∀ a, 0 ≤ x ⬝ᵥ (s.aInv a *ᵥ x) := fun a => inv_quad_nonneg (hi.inv a) x
  refine ⟨fun a => ⟨hq a, fun hx => inv_quad_pos (hi.inv a) hx⟩, ?_⟩
  refine ⟨topRanking argsort (List.ofFn fun a => x ⬝ᵥ s.theta a + epsilon * √(x ⬝ᵥ (s.aInv a *ᵥ x)))
    cfg.lenList, ?_, topRanking_isTop ha _ hL⟩
  have hno : ¬ ∃ a, x ⬝ᵥ (s.aInv a *ᵥ x) < 0 := fun ⟨a, h⟩ => absurd h (not_lt.2 (hq a))
  simp only [LinClass.select, linUcbSelect, if_neg hno]
  rfl

/-- **C66.** Further calls never increase a bonus, whatever they are. -/
theorem C66_bonus_shrinks (ops : GaussRng R) (argsort : List ℝ → List ℕ) (cfg : CfConfig) (c : LinClass)
    (calls more : List (CtxCall d)) (x : Fin d → ℝ) (a : Fin cfg.nActions) :
    (c.run ops argsort cfg d (calls ++ more)).bonus x a ≤ (c.run ops argsort cfg d calls).bonus x a := by
  obtain ⟨k, h2⟩ := linInvAny_run ops argsort cfg c calls
  obtain ⟨k', hk, h1⟩ := linInvAny_more ops argsort cfg c h2 more
  have hpre : (ctxObservations calls).take k <+: (ctxObservations (calls ++ more)).take k' := by
    rw [← List.take_append_of_le_length (l₂ := ctxObservations more) h2.learned.le, ← ctxObservations_append]
    exact List.take_prefix_take_left hk
  obtain ⟨u, hu⟩ := hpre
  have hD : dataOf ((ctxObservations (calls ++ more)).take k') a =
      dataOf ((ctxObservations calls).take k) a ++ dataOf u a := by
    rw [← hu]; simp [dataOf]
  obtain ⟨B, hB, hle⟩ := quad_antitone (h2.inv a) (dataOf u a)
  have h3 := h1.inv a
  rw [hD] at h3
  unfold LinState.bonus
  rw [inverse_unique h3 hB]
  exact Real.sqrt_le_sqrt (hle x)

/-- **C66.** Quantitatively, for batches of one: observing the context itself for an action turns the
squared bonus `q` into `q / (1 + q)`. -/
theorem C66_own_context (ops : GaussRng R) (argsort : List ℝ → List ℕ) (cfg : CfConfig) (c : LinClass)
    (hb : cfg.batchSize = 1) (calls : List (CtxCall d)) (hreset : CtxCall.reset ∉ calls)
    (hz : ∀ p ∈ ctxObservations calls, -(cfg.nActions : ℤ) ≤ p.1 ∧ p.1 < cfg.nActions)
    (x : Fin d → ℝ) (r : ℝ) (a : Fin cfg.nActions) :
    let q := (c.run ops argsort cfg d calls).bonus x a ^ 2
    (c.run ops argsort cfg d (calls ++ [.update a r x])).bonus x a ^ 2 = q / (1 + q) := by
  intro q
  have h2 := linInv_run ops argsort cfg c calls hreset hz
  have hobs : ctxObservations (calls ++ [.update a r x]) = ctxObservations calls ++ [((a : ℤ), x, r)] := by
    simp [ctxObservations, List.filterMap_append]
  have hz' : ∀ p ∈ ctxObservations (calls ++ [.update (a : ℤ) r x]),
      -(cfg.nActions : ℤ) ≤ p.1 ∧ p.1 < cfg.nActions := by
    intro p hp
    rw [hobs] at hp
    rcases List.mem_append.1 hp with hp | hp
    · exact hz p hp
    · obtain rfl := List.mem_singleton.1 hp
      have := a.isLt
      dsimp only; omega
  have h1 := linInv_run ops argsort cfg c (calls ++ [.update a r x]) (by simp [hreset]) hz'
  have hcomp : ∀ h : List (ℤ × (Fin d → ℝ) × ℝ), completed cfg.batchSize h = h := fun h =>
    completed_of_dvd h (by rw [hb, Nat.mod_one])
  have hi2 := h2.inv a
  have hi1 := h1.inv a
  rw [hcomp] at hi1 hi2
  rw [hobs, dataOf_append, if_pos (show Names ((a : ℤ), x, r).1 a from Or.inl rfl)] at hi1
  obtain ⟨B, -, hB, hq⟩ := woodbury_ok hi2 x r
  have hpos := inv_quad_nonneg hi2 x
  have hposB := inv_quad_nonneg hB x
  have hqv : q = x ⬝ᵥ ((c.run ops argsort cfg d calls).aInv a *ᵥ x) := Real.sq_sqrt hpos
  unfold LinState.bonus
  rw [inverse_unique hi1 hB, Real.sq_sqrt hposB, hq x, hqv]
  have : (1 : ℝ) + x ⬝ᵥ ((c.run ops argsort cfg d calls).aInv a *ᵥ x) ≠ 0 := by positivity
  field_simp
  ring

/-! ### C67 -/

/-- **C67, negative part.** `initialize` leaves everything that the linear and logistic policies have
learned in place. -/
theorem C67_learned_parameters_kept (ops : Rng R ℝ) (s : LinState R n d) (t : LogState R n d) :
    (s.initialize ops).aInv = s.aInv ∧ (s.initialize ops).b = s.b ∧
      (s.initialize ops).aInvTemp = s.aInvTemp ∧ (s.initialize ops).bTemp = s.bTemp ∧
      (t.initialize ops).models = t.models := ⟨rfl, rfl, rfl, rfl, rfl⟩

/-- **C67, negative part.** So a reset policy does not behave like a new one: for every valid `argsort`
there is an action such that after one observed success of that action and a reset, an exploiting
`LinEpsilonGreedy` selects another action than a new policy does. -/
theorem C67_linear_not_reset {argsort : List ℝ → List ℕ} (ha : IsArgsort argsort) :
    ∃ z : ℤ, ((LinClass.egreedy 0).select exGauss argsort 1
        ((LinClass.egreedy 0).run exGauss argsort ⟨2, 1, 1⟩ 1 [.update z 1 (fun _ => 1), .reset])
        [fun _ => 1]).1 ≠
      ((LinClass.egreedy 0).select exGauss argsort 1
        ((LinClass.egreedy 0).run exGauss argsort ⟨2, 1, 1⟩ 1 []) [fun _ => 1]).1 := by
  obtain ⟨l0, h0, ht0, -⟩ := C65_exploit (ops := exGauss) ha (L := 1) (n := 2) (by decide)
    ((LinClass.egreedy 0).run exGauss argsort ⟨2, 1, 1⟩ 1 []) (fun _ => 1) (epsilon := 0)
    (by show (0 : ℝ) < 1; norm_num)
  obtain ⟨i, hi⟩ := List.length_eq_one_iff.1 ht0.length_eq
  have hi2 : i < 2 := ht0.lt i (by rw [hi]; simp)
  obtain ⟨j, hj⟩ : ∃ j : Fin 2, j.val ≠ i := by
    by_cases h : i = 0
    · exact ⟨1, by simp [h]⟩
    · exact ⟨0, fun h' => h h'.symm⟩
  refine ⟨j, ?_⟩
  set s := (LinClass.egreedy 0).run exGauss argsort ⟨2, 1, 1⟩ 1 [.update j 1 (fun _ => 1), .reset] with hs
  set s1 := (LinClass.egreedy 0).run exGauss argsort ⟨2, 1, 1⟩ 1 [.update j 1 (fun _ => 1)] with hs1
  have hth : s.theta = s1.theta := rfl
  have hinv := linInv_run exGauss argsort ⟨2, 1, 1⟩ (.egreedy 0) [.update j 1 (fun _ : Fin 1 => 1)]
    (by simp) (by
      intro p hp
      simp only [ctxObservations, List.filterMap_cons, List.filterMap_nil, List.mem_singleton] at hp
      subst hp
      have := j.isLt
      dsimp only; omega)
  obtain ⟨l1, h1, ht1, -⟩ := C65_exploit (ops := exGauss) ha (L := 1) (n := 2) (by decide)
    s (fun _ => 1) (epsilon := 0) (by show (0 : ℝ) < 1; norm_num)
  obtain ⟨k, hk⟩ := List.length_eq_one_iff.1 ht1.length_eq
  have hdata : ∀ a : Fin 2, dataOf (completed 1 (ctxObservations [CtxCall.update (j : ℤ) 1 (fun _ : Fin 1 => 1)])) a =
      if a = j then [((fun _ => 1), 1)] else [] := by
    intro a
    have hc : completed 1 (ctxObservations [CtxCall.update (j : ℤ) 1 (fun _ : Fin 1 => 1)]) =
        [((j : ℤ), (fun _ => 1), 1)] := by
      simp [completed, ctxObservations]
    rw [hc]
    by_cases haj : a = j
    · subst haj; simp [dataOf, Names]
    · rw [if_neg haj]
      have : ¬ Names (j : ℤ) a := fun h => haj (Names.unique h (Or.inl rfl))
      simp [dataOf, this]
  have hother : ∀ a : Fin 2, a ≠ j → s.theta a = 0 := by
    intro a haj
    rw [hth]
    have hb := hinv.b a
    rw [hdata, if_neg haj] at hb
    show s1.aInv a *ᵥ s1.b a = 0
    rw [show s1.b a = 0 from hb, mulVec_zero]
  have hbest : 0 < (fun _ => (1 : ℝ)) ⬝ᵥ s.theta j := by
    rw [hth]
    have hb := hinv.b j
    have hA := hinv.inv j
    rw [hdata, if_pos rfl] at hb hA
    have hb' : s1.b j = fun _ => 1 := by
      rw [show s1.b j = _ from hb]; simp [moment]
    show 0 < (fun _ => (1 : ℝ)) ⬝ᵥ (s1.aInv j *ᵥ s1.b j)
    rw [hb']
    exact inv_quad_pos hA (fun h => by simpa using congrFun h 0)
  have hkj : k = j := by
    by_contra hne
    have hk2 : k < 2 := ht1.lt k (by rw [hk]; simp)
    have := ht1.best k (by rw [hk]; simp) hk2 j (by rw [hk]; simpa using fun h => hne h.symm)
    rw [hother ⟨k, hk2⟩ (fun h => hne (by rw [← h])), dotProduct_zero] at this
    exact absurd this (not_le.2 hbest)
  rw [h0, h1, hi, hk, hkj]
  intro h
  exact hj (by simpa using h)

/-! ### C68 -/

/-- **C68.** After any history of `update_params` and `select_action` calls of a logistic policy, the
model of every action has been fitted once per completed batch that contains the action, in order,
on exactly that batch's observations of the action; the batches are consecutive, of `batch_size`
observations each, and make up the completed history; the observations since then are waiting. -/
theorem C68_each_once (ops : GaussRng R) (argsort : List ℝ → List ℕ) (minimize : Minimizer d)
    {cfg : CfConfig} (hb : 0 < cfg.batchSize) (c : LogClass) {lam alpha : ℝ}
    {s0 : LogState R cfg.nActions d} (hs : LogState.init ops.toRng lam alpha cfg.nActions d = .ok s0)
    (calls : List (CtxCall d)) (hreset : CtxCall.reset ∉ calls)
    (hz : ∀ p ∈ ctxObservations calls, -(cfg.nActions : ℤ) ≤ p.1 ∧ p.1 < cfg.nActions) :
    let s := c.run ops argsort minimize cfg s0 calls
    let h := ctxObservations calls
    s.nTrial = h.length ∧
    (∀ a, SameModel (s.models a) (fitBatches minimize (LogReg.init ops.toRng lam alpha d)
      ((batches cfg.batchSize h).map fun B => dataOf B a))) ∧
    (batches cfg.batchSize h).flatten = completed cfg.batchSize h ∧
    (∀ B ∈ batches cfg.batchSize h, B.length = cfg.batchSize) ∧
    ∃ rest, h = completed cfg.batchSize h ++ rest ∧ rest.length < cfg.batchSize ∧
      ∀ a, s.pending a = dataOf rest a := by
  intro s h
  have hi := logInv_run ops argsort minimize hb c hs calls hreset hz
  refine ⟨hi.nTrial, hi.models, batches_flatten _ _, ?_,
    h.drop (cfg.batchSize * (h.length / cfg.batchSize)), ?_, ?_, hi.pending⟩
  · intro B hB
    obtain ⟨i, hi, rfl⟩ := List.mem_map.1 hB
    have hi := List.mem_range.1 hi
    have : cfg.batchSize * i + cfg.batchSize ≤ h.length := by
      calc cfg.batchSize * i + cfg.batchSize = cfg.batchSize * (i + 1) := by ring
        _ ≤ cfg.batchSize * (h.length / cfg.batchSize) := Nat.mul_le_mul_left _ hi
        _ ≤ h.length := Nat.mul_div_le _ _
    rw [List.length_take, List.length_drop]
    omega
  · exact (List.take_append_drop _ _).symm
  · rw [List.length_drop]
    have := Nat.div_add_mod h.length cfg.batchSize
    have := Nat.mod_lt h.length hb
    omega

/-- **C68.** With `initialize` calls in between: the batches are those of the observations between two
such calls, so that the observations of a batch that `initialize` interrupts are never fitted. -/
theorem C68_any_history (ops : GaussRng R) (argsort : List ℝ → List ℕ) (minimize : Minimizer d)
    {cfg : CfConfig} (hb : 0 < cfg.batchSize) (c : LogClass) {lam alpha : ℝ}
    {s0 : LogState R cfg.nActions d} (hs : LogState.init ops.toRng lam alpha cfg.nActions d = .ok s0)
    (calls : List (CtxCall d))
    (hz : ∀ p ∈ ctxObservations calls, -(cfg.nActions : ℤ) ≤ p.1 ∧ p.1 < cfg.nActions) :
    (segments calls).flatten = ctxObservations calls ∧
    (∀ a, SameModel ((c.run ops argsort minimize cfg s0 calls).models a)
      (fitBatches minimize (LogReg.init ops.toRng lam alpha d)
        (((segments calls).flatMap (batches cfg.batchSize)).map fun B => dataOf B a))) ∧
    ((segments calls).flatMap (batches cfg.batchSize)).flatten =
      (segments calls).flatMap (completed cfg.batchSize) := by
  refine ⟨?_, fun a => logInv_segments ops argsort minimize hb c (logInit_start hs minimize _) calls hz a, ?_⟩
  · clear hz
    induction hl : calls.length using Nat.strong_induction_on generalizing calls with
    | _ m ih =>
      rcases last_reset calls with h | ⟨p, q, rfl, hq⟩
      · rw [segments_of_no_reset h]; simp
      · rw [segments_append_reset, List.flatten_append, segments_of_no_reset hq,
          ih p.length (by rw [← hl]; simp) p rfl, ctxObservations_append]
        simp [ctxObservations]
  · induction segments calls with
    | nil => rfl
    | cons h t ih =>
      rw [List.flatMap_cons, List.flatten_append, ih, batches_flatten, List.flatMap_cons]

/-! ### C69 -/

/-- **C69, negative part.** The loss ignores failures: an observation with reward 0 adds the constant
log 2, whatever its context and the weights, and nothing to the gradient. -/
theorem C69_failures_ignored (g : LogReg R d) (D : List ((Fin d → ℝ) × ℝ)) (x : Fin d → ℝ)
    (w : Fin d → ℝ) :
    g.loss ((x, 0) :: D) w = Real.log 2 + g.loss D w ∧ g.grad ((x, 0) :: D) w = g.grad D w := by
  constructor
  · simp only [LogReg.loss, List.map_cons, List.sum_cons, neg_zero, zero_mul, Real.exp_zero]
    norm_num
    ring
  · funext j
    simp [LogReg.grad]

/-- **C69, negative part.** Hence whether failures are observed does not change the minimisers of the
loss: the fitted weights do not depend on them (for an optimiser that sees the objective up to a
constant, and its gradient). -/
theorem C69_same_minimisers (g : LogReg R d) (D : List ((Fin d → ℝ) × ℝ)) (w : Fin d → ℝ) :
    (∀ v, g.loss D w ≤ g.loss D v) ↔
      ∀ v, g.loss (D.filter fun p => p.2 ≠ 0) w ≤ g.loss (D.filter fun p => p.2 ≠ 0) v := by
  have key : ∃ k : ℝ, ∀ v, g.loss D v = k + g.loss (D.filter fun p => p.2 ≠ 0) v := by
    induction D with
    | nil => exact ⟨0, fun v => by simp⟩
    | cons p D ih =>
      obtain ⟨k, hk⟩ := ih
      have hcons : ∀ (E : List ((Fin d → ℝ) × ℝ)) v, g.loss (p :: E) v =
          Real.log (1 + Real.exp (-p.2 * (v ⬝ᵥ p.1))) + g.loss E v := by
        intro E v
        simp only [LogReg.loss, List.map_cons, List.sum_cons]; ring
      by_cases hp : p.2 = 0
      · refine ⟨Real.log 2 + k, fun v => ?_⟩
        rw [hcons, hk, List.filter_cons_of_neg (by simpa using hp), hp]
        norm_num
        ring
      · refine ⟨k, fun v => ?_⟩
        rw [hcons, hk, List.filter_cons_of_pos (by simpa using hp), hcons]
        ring
  obtain ⟨k, hk⟩ := key
  constructor
  · intro h v
    have := h v
    rw [hk, hk] at this
    linarith
  · intro h v
    rw [hk, hk]
    linarith [h v]

/-- **C69.** The claim does hold for labels in {-1, 1}: then an observation adds the negative
log-likelihood of its label under the predicted probability, for failures as for successes. -/
theorem C69_signed_labels_partial (g : LogReg R d) (D : List ((Fin d → ℝ) × ℝ)) (x w : Fin d → ℝ) :
    g.loss ((x, 1) :: D) w = -Real.log (1 / (1 + Real.exp (-(w ⬝ᵥ x)))) + g.loss D w ∧
    g.loss ((x, -1) :: D) w = -Real.log (1 - 1 / (1 + Real.exp (-(w ⬝ᵥ x)))) + g.loss D w := by
  have hpos := Real.exp_pos (-(w ⬝ᵥ x))
  have hpos' := Real.exp_pos (w ⬝ᵥ x)
  constructor
  · simp only [LogReg.loss, List.map_cons, List.sum_cons, one_div, Real.log_inv, neg_neg, neg_mul, one_mul]
    ring
  · have : 1 - 1 / (1 + Real.exp (-(w ⬝ᵥ x))) = (1 + Real.exp (w ⬝ᵥ x))⁻¹ := by
      rw [Real.exp_neg]
      field_simp
      ring
    rw [this, Real.log_inv, neg_neg]
    simp only [LogReg.loss, List.map_cons, List.sum_cons, neg_neg, one_mul]
    ring

/-- **C69.** `grad` is the gradient of `loss`, for all rewards. -/
theorem C69_grad_is_gradient (g : LogReg R d) (D : List ((Fin d → ℝ) × ℝ)) (w v : Fin d → ℝ) :
    HasDerivAt (fun t : ℝ => g.loss D (w + t • v)) (g.grad D w ⬝ᵥ v) 0 := by
  have hdot : ∀ x : Fin d → ℝ, HasDerivAt (fun t : ℝ => (w + t • v) ⬝ᵥ x) (v ⬝ᵥ x) 0 := by
    intro x
    have : (fun t : ℝ => (w + t • v) ⬝ᵥ x) = fun t => w ⬝ᵥ x + t * (v ⬝ᵥ x) := by
      funext t; simp [add_dotProduct, smul_dotProduct]
    rw [this]
    have h := ((hasDerivAt_id (0 : ℝ)).mul_const (v ⬝ᵥ x)).const_add (w ⬝ᵥ x)
    simpa using h
  have hquad : HasDerivAt (fun t : ℝ => 1 / 2 * ((fun j => g.q j * ((w + t • v) j - g.m j)) ⬝ᵥ
      (fun j => (w + t • v) j - g.m j))) ((fun j => g.q j * (w j - g.m j)) ⬝ᵥ v) 0 := by
    have e : (fun t : ℝ => 1 / 2 * ((fun j => g.q j * ((w + t • v) j - g.m j)) ⬝ᵥ
        (fun j => (w + t • v) j - g.m j))) = fun t =>
        ∑ j, 1 / 2 * (g.q j * (w j - g.m j + t * v j) ^ 2) := by
      funext t
      simp only [dotProduct, Finset.mul_sum, Pi.add_apply, Pi.smul_apply, smul_eq_mul]
      refine Finset.sum_congr rfl fun j _ => by ring
    rw [e]
    have hsum : HasDerivAt (fun t : ℝ => ∑ j, 1 / 2 * (g.q j * (w j - g.m j + t * v j) ^ 2))
        (∑ j, g.q j * (w j - g.m j) * v j) 0 := by
      refine HasDerivAt.fun_sum fun j _ => ?_
      have h1 : HasDerivAt (fun t : ℝ => w j - g.m j + t * v j) (v j) 0 := by
        simpa using ((hasDerivAt_id (0 : ℝ)).mul_const (v j)).const_add (w j - g.m j)
      have h2 := ((h1.pow 2).const_mul (g.q j)).const_mul (1 / 2)
      refine h2.congr_deriv ?_
      simp
      ring
    exact hsum
  have hdata : ∀ D : List ((Fin d → ℝ) × ℝ), HasDerivAt
      (fun t : ℝ => (D.map fun p => Real.log (1 + Real.exp (-p.2 * ((w + t • v) ⬝ᵥ p.1)))).sum)
      ((fun j => (-1) * (D.map fun p => p.2 * p.1 j / (1 + Real.exp (p.2 * (w ⬝ᵥ p.1)))).sum) ⬝ᵥ v) 0 := by
    intro D
    induction D with
    | nil => simpa using hasDerivAt_const (0 : ℝ) (0 : ℝ)
    | cons p D ih =>
      have h1 := (((hdot p.1).const_mul (-p.2)).exp.const_add 1).log (by positivity)
      have h2 := h1.add ih
      simp only [List.map_cons, List.sum_cons]
      refine h2.congr_deriv ?_
      simp only [zero_smul, add_zero, dotProduct, mul_add, add_mul, Finset.sum_add_distrib]
      congr 1
      generalize ∑ i, w i * p.1 i = z
      rw [Finset.mul_sum, Finset.mul_sum, Finset.sum_div]
      refine Finset.sum_congr rfl fun j _ => ?_
      have hpos := Real.exp_pos (p.2 * z)
      rw [neg_mul, Real.exp_neg]
      field_simp
      ring
  have := hquad.add (hdata D)
  refine this.congr_deriv ?_
  rw [← add_dotProduct]
  rfl

/-! ### C98, C99 -/

theorem logP_curv (m x : Fin d → ℝ) : 0 ≤ logP m x * (1 - logP m x) := by
  have hpos := Real.exp_pos (1 + x ⬝ᵥ m)
  have h1 : 0 ≤ logP m x := by unfold logP; positivity
  have h2 : logP m x ≤ 1 := by
    unfold logP
    exact inv_le_one_of_one_le₀ (by linarith)
  exact mul_nonneg h1 (by linarith)

theorem fit_q_le (minimize : Minimizer d) (g : LogReg R d) (D : List ((Fin d → ℝ) × ℝ)) (j : Fin d) :
    g.q j ≤ (g.fit minimize D).q j := by
  unfold LogReg.fit
  refine le_add_of_nonneg_right (List.sum_nonneg fun y hy => ?_)
  obtain ⟨p, -, rfl⟩ := List.mem_map.1 hy
  exact mul_nonneg (logP_curv _ _) (sq_nonneg _)

theorem fitBatches_q_le (minimize : Minimizer d) (g : LogReg R d) (bs : List (List ((Fin d → ℝ) × ℝ)))
    (j : Fin d) : g.q j ≤ (fitBatches minimize g bs).q j := by
  unfold fitBatches
  induction bs generalizing g with
  | nil => exact le_refl _
  | cons D bs ih =>
    rw [List.foldl_cons]
    refine le_trans ?_ (ih _)
    split
    · exact le_refl _
    · exact fit_q_le minimize g D j

theorem fitBatches_const (minimize : Minimizer d) (g : LogReg R d)
    (bs : List (List ((Fin d → ℝ) × ℝ))) : (fitBatches minimize g bs).alpha = g.alpha := by
  unfold fitBatches
  induction bs generalizing g with
  | nil => rfl
  | cons D bs ih =>
    rw [List.foldl_cons, ih]
    split <;> rfl

/-- what never changes or never decreases in the model of an action -/
theorem logStep_models (ops : GaussRng R) (argsort : List ℝ → List ℕ) (minimize : Minimizer d)
    {cfg : CfConfig} (c : LogClass) (s : LogState R cfg.nActions d) (call : CtxCall d)
    (a : Fin cfg.nActions) :
    ((c.step ops argsort minimize cfg s call).models a).alpha = (s.models a).alpha ∧
      ∀ j, (s.models a).q j ≤ ((c.step ops argsort minimize cfg s call).models a).q j := by
  cases call with
  | update z r x =>
    simp only [LogClass.step, LogState.updateParams]
    split
    · exact ⟨rfl, fun j => le_refl _⟩
    · split
      · dsimp only
        split
        · exact ⟨rfl, fun j => le_refl _⟩
        · exact ⟨rfl, fun j => fit_q_le minimize _ _ j⟩
      · exact ⟨rfl, fun j => le_refl _⟩
  | select rows =>
    cases c with
    | egreedy e =>
      simp only [LogClass.step, LogClass.select, logEgreedySelect]
      split <;> exact ⟨rfl, fun j => le_refl _⟩
    | ucb e =>
      simp only [LogClass.step, LogClass.select, logUcbSelect]
      split <;> exact ⟨rfl, fun j => le_refl _⟩
    | ts => exact ⟨rfl, fun j => le_refl _⟩
  | reset => exact ⟨rfl, fun j => le_refl _⟩

theorem logRun_models (ops : GaussRng R) (argsort : List ℝ → List ℕ) (minimize : Minimizer d)
    {cfg : CfConfig} (c : LogClass) (s : LogState R cfg.nActions d) (calls : List (CtxCall d))
    (a : Fin cfg.nActions) :
    ((c.run ops argsort minimize cfg s calls).models a).alpha = (s.models a).alpha ∧
      ∀ j, (s.models a).q j ≤ ((c.run ops argsort minimize cfg s calls).models a).q j := by
  unfold LogClass.run
  induction calls generalizing s with
  | nil => exact ⟨rfl, fun j => le_refl _⟩
  | cons call calls ih =>
    rw [List.foldl_cons]
    obtain ⟨h1, h2⟩ := logStep_models ops argsort minimize c s call a
    obtain ⟨h3, h4⟩ := ih (c.step ops argsort minimize cfg s call)
    exact ⟨h3.trans h1, fun j => (h2 j).trans (h4 j)⟩

/-- **C98.** After any history the precisions of a logistic policy are at least `lambda_`; hence the
standard deviations that `LogisticTS` samples with are positive and at most `alpha_ / lambda_`, and
the `LogisticUCB` bonus is the root of a non-negative number and at most `‖x‖ / √lambda_`. -/
theorem C98_precisions (ops : GaussRng R) (argsort : List ℝ → List ℕ) (minimize : Minimizer d)
    {cfg : CfConfig} (c : LogClass) {lam alpha : ℝ}
    {s0 : LogState R cfg.nActions d} (hs : LogState.init ops.toRng lam alpha cfg.nActions d = .ok s0)
    (calls : List (CtxCall d)) (a : Fin cfg.nActions) :
    let g := (c.run ops argsort minimize cfg s0 calls).models a
    0 < lam ∧ (∀ j, lam ≤ g.q j) ∧ (∀ j, 0 < g.sd j ∧ g.sd j ≤ alpha / lam) ∧
      ∀ x : Fin d → ℝ, 0 ≤ ∑ j, (g.q j)⁻¹ * x j ^ 2 ∧ g.bonus x ≤ √((x ⬝ᵥ x) / lam) := by
  intro g
  simp only [LogState.init, py_bind_eq_ok, exists_unit, raiseIf_ok, decide_eq_false_iff_not, not_le] at hs
  obtain ⟨ha, hl, hs⟩ := hs
  have hm0 : s0.models a = LogReg.init ops.toRng (lam * 1) (alpha * 1) d := by
    rw [← Except.ok.inj hs]
  obtain ⟨hm1, hm2⟩ := logRun_models ops argsort minimize c s0 calls a
  rw [hm0] at hm1 hm2
  have hq : ∀ j, lam ≤ g.q j := by
    intro j
    have : 1 * (lam * 1) ≤ g.q j := hm2 j
    simpa using this
  have halpha : g.alpha = alpha := hm1.trans (by simp [LogReg.init])
  have hinv : ∀ j, (g.q j)⁻¹ ≤ lam⁻¹ := fun j => inv_anti₀ hl (hq j)
  refine ⟨hl, hq, fun j => ?_, fun x => ⟨?_, ?_⟩⟩
  · unfold LogReg.sd
    rw [halpha, div_eq_mul_inv]
    exact ⟨mul_pos ha (inv_pos.2 (lt_of_lt_of_le hl (hq j))), mul_le_mul_of_nonneg_left (hinv j) ha.le⟩
  · exact Finset.sum_nonneg fun j _ =>
      mul_nonneg (inv_nonneg.2 (le_trans hl.le (hq j))) (sq_nonneg _)
  · refine Real.sqrt_le_sqrt ?_
    rw [dotProduct, Finset.sum_div]
    refine Finset.sum_le_sum fun j _ => ?_
    rw [div_eq_inv_mul, ← sq]
    exact mul_le_mul_of_nonneg_right (hinv j) (sq_nonneg _)

/-- **C98.** Further calls never decrease a precision and never increase a standard deviation or a bonus,
whatever they are. -/
theorem C98_never_decrease (ops : GaussRng R) (argsort : List ℝ → List ℕ) (minimize : Minimizer d)
    {cfg : CfConfig} (c : LogClass) {lam alpha : ℝ}
    {s0 : LogState R cfg.nActions d} (hs : LogState.init ops.toRng lam alpha cfg.nActions d = .ok s0)
    (calls more : List (CtxCall d)) (a : Fin cfg.nActions) :
    let g := (c.run ops argsort minimize cfg s0 calls).models a
    let g' := (c.run ops argsort minimize cfg s0 (calls ++ more)).models a
    (∀ j, g.q j ≤ g'.q j) ∧ (∀ j, g'.sd j ≤ g.sd j) ∧ ∀ x, g'.bonus x ≤ g.bonus x := by
  intro g g'
  obtain ⟨hl, hq, hsd, -⟩ := C98_precisions ops argsort minimize c hs calls a
  obtain ⟨h1, h2⟩ := logRun_models ops argsort minimize c (c.run ops argsort minimize cfg s0 calls) more a
  have hg' : g' = (c.run ops argsort minimize cfg (c.run ops argsort minimize cfg s0 calls) more).models a := by
    simp only [g', LogClass.run, List.foldl_append]
  have hle : ∀ j, g.q j ≤ g'.q j := by rw [hg']; exact h2
  have hinv : ∀ j, (g'.q j)⁻¹ ≤ (g.q j)⁻¹ := fun j => inv_anti₀ (lt_of_lt_of_le hl (hq j)) (hle j)
  have halpha : g'.alpha = g.alpha := by rw [hg']; exact h1
  have hpos : 0 ≤ g.alpha ∨ IsEmpty (Fin d) := by
    by_cases hd : Nonempty (Fin d)
    · obtain ⟨j⟩ := hd
      have h0 := (hsd j).1
      unfold LogReg.sd at h0
      exact Or.inl (le_of_lt ((mul_pos_iff_of_pos_right (inv_pos.2 (lt_of_lt_of_le hl (hq j)))).1 h0))
    · exact Or.inr (not_nonempty_iff.1 hd)
  refine ⟨hle, fun j => ?_, fun x => ?_⟩
  · rcases hpos with hp | he
    · unfold LogReg.sd
      rw [halpha]
      exact mul_le_mul_of_nonneg_left (hinv j) hp
    · exact he.elim j
  · exact Real.sqrt_le_sqrt (Finset.sum_le_sum fun j _ => mul_le_mul_of_nonneg_right (hinv j) (sq_nonneg _))

/-- The curvature of one observation's loss in coordinate `j` when the score `x · w` is `z`:
`σ(z) (1 - σ(z)) x_j²`. -/
noncomputable def curvature (x : Fin d → ℝ) (z : ℝ) (j : Fin d) : ℝ :=
  1 / (1 + Real.exp (-z)) * (1 - 1 / (1 + Real.exp (-z))) * x j ^ 2

/-- `curvature` is what it should be: for labels ±1, the derivative of the `j`-th coordinate of the
observation's gradient along coordinate `j`. -/
theorem C99_curvature_is_second_derivative (g : LogReg R d) (x w : Fin d → ℝ) (j : Fin d) {y : ℝ}
    (hy : y = 1 ∨ y = -1) :
    HasDerivAt (fun t : ℝ => g.grad [(x, y)] (w + t • Pi.single j 1) j -
      g.grad [] (w + t • Pi.single j 1) j) (curvature x (x ⬝ᵥ w) j) 0 := by
  have hdot : ∀ t : ℝ, (w + t • Pi.single j (1 : ℝ)) ⬝ᵥ x = x ⬝ᵥ w + t * x j := by
    intro t
    rw [add_dotProduct, smul_dotProduct, single_dotProduct, dotProduct_comm]; simp
  have e : (fun t : ℝ => g.grad [(x, y)] (w + t • Pi.single j 1) j -
      g.grad [] (w + t • Pi.single j 1) j) =
      fun t => -(y * x j / (1 + Real.exp (y * (x ⬝ᵥ w + t * x j)))) := by
    funext t
    simp [LogReg.grad, dotProduct_comm w x]
  rw [e]
  have h1 : HasDerivAt (fun t : ℝ => y * (x ⬝ᵥ w + t * x j)) (y * x j) 0 := by
    simpa using (((hasDerivAt_id (0 : ℝ)).mul_const (x j)).const_add (x ⬝ᵥ w)).const_mul y
  have h2 := ((h1.exp.const_add 1).inv (by positivity)).const_mul (-(y * x j))
  refine (h2.congr_of_eventuallyEq (Filter.Eventually.of_forall fun t => ?_)).congr_deriv ?_
  · simp [div_eq_mul_inv]
  · unfold curvature
    simp only [zero_mul, add_zero]
    generalize x ⬝ᵥ w = z
    have hz := Real.exp_pos z
    rcases hy with rfl | rfl
    · rw [one_mul, Real.exp_neg]
      field_simp
      ring
    · have h1 : Real.exp (-1 * z) = (Real.exp z)⁻¹ := by rw [neg_one_mul, Real.exp_neg]
      have h2 : Real.exp (-z) = (Real.exp z)⁻¹ := Real.exp_neg z
      rw [h1, h2]
      field_simp
      ring

/-- **C99.** Each fit adds to the precisions the curvature of the loss of each observation, but taken at
the score `x · m + 1` instead of `x · m`. -/
theorem C99_shifted_curvature_partial (minimize : Minimizer d) (g : LogReg R d)
    (D : List ((Fin d → ℝ) × ℝ)) (j : Fin d) :
    (g.fit minimize D).q j =
      g.q j + (D.map fun p => curvature p.1 (p.1 ⬝ᵥ (g.fit minimize D).m + 1) j).sum := by
  have key : ∀ m x : Fin d → ℝ, logP m x * (1 - logP m x) * x j ^ 2 = curvature x (x ⬝ᵥ m + 1) j := by
    intro m x
    unfold curvature logP
    congr 1
    rw [add_comm (x ⬝ᵥ m) 1]
    have := Real.exp_pos (1 + x ⬝ᵥ m)
    rw [Real.exp_neg]
    field_simp
    ring
  have : ∀ m : Fin d → ℝ, (fun p : (Fin d → ℝ) × ℝ => logP m p.1 * (1 - logP m p.1) * p.1 j ^ 2) =
      fun p => curvature p.1 (p.1 ⬝ᵥ m + 1) j := fun m => funext fun p => key m p.1
  rw [← this]
  rfl

/-- **C99, negative part.** So the claim fails at the first observation: if the fitted weights are zero, a
context 1 adds strictly less than the curvature there. -/
theorem C99_not_laplace (minimize : Minimizer 1) (g : LogReg R 1) (r : ℝ)
    (hm : (g.fit minimize [(fun _ => 1, r)]).m = 0) :
    (g.fit minimize [(fun _ => 1, r)]).q 0 <
      g.q 0 + curvature (fun _ : Fin 1 => 1) ((fun _ => (1 : ℝ)) ⬝ᵥ (g.fit minimize [(fun _ => 1, r)]).m) 0 := by
  rw [C99_shifted_curvature_partial, hm]
  simp only [dotProduct_zero, List.map_cons, List.map_nil, List.sum_cons, List.sum_nil, zero_add,
    add_zero, add_lt_add_iff_left]
  have e : curvature (fun _ : Fin 1 => (1 : ℝ)) 0 0 = 1 / 4 := by
    simp [curvature]; norm_num
  rw [e]
  unfold curvature
  have hlt : 1 / 2 < 1 / (1 + Real.exp (-1)) := by
    refine one_div_lt_one_div_of_lt (by positivity) ?_
    have : Real.exp (-1) < 1 := by rw [Real.exp_lt_one_iff]; norm_num
    linarith
  generalize 1 / (1 + Real.exp (-1)) = p at hlt
  nlinarith [mul_pos (sub_pos.2 hlt) (sub_pos.2 hlt)]

/-! ### Examples -/

theorem exGauss_valid : exGauss.toRng.Valid := fun _ _ _ h =>
  ⟨List.length_range, List.nodup_range, fun _ ha => lt_of_lt_of_le (List.mem_range.1 ha) h⟩

/-- two actions, two dimensions, batches of two -/
noncomputable def exCtxCalls : List (CtxCall 2) :=
  [.update 0 1 ![1, 2], .select [![1, 0]], .update 1 (1 / 2) ![0, 3], .update (-1) 2 ![1, 1]]

theorem exCtxCalls_noreset : CtxCall.reset ∉ exCtxCalls := by simp [exCtxCalls]

theorem exCtxCalls_valid : ∀ p ∈ ctxObservations exCtxCalls, -(2 : ℤ) ≤ p.1 ∧ p.1 < 2 := by
  intro p hp
  simp only [exCtxCalls, ctxObservations, List.filterMap_cons, List.filterMap_nil, List.mem_cons,
    List.not_mem_nil, or_false] at hp
  rcases hp with rfl | rfl | rfl <;> simp

noncomputable example (argsort : List ℝ → List ℕ) := C65_ridge exGauss argsort ⟨2, 1, 2⟩ .ts exCtxCalls exCtxCalls_noreset
  exCtxCalls_valid 1
/-- action 1 has one observation in the completed batch -/
example : (dataOf (completed 2 (ctxObservations exCtxCalls)) (1 : Fin 2)) = [(![0, 3], 1 / 2)] := by
  simp [exCtxCalls, ctxObservations, completed, dataOf, Names]
example (argsort : List ℝ → List ℕ) (ha : IsArgsort argsort) := C66_ucb (ops := exGauss) ha (dim := 2)
  (n := 2) (L := 1) (b := 2) (cfg := ⟨2, 1, 2⟩) rfl 1 exCtxCalls ![1, 0]
example (argsort : List ℝ → List ℕ) (minimize : Minimizer 2) (s0 : LogState Unit 2 2)
    (hs : LogState.init exGauss.toRng 1 1 2 2 = .ok s0) :=
  C68_each_once exGauss argsort minimize (cfg := ⟨2, 1, 2⟩) (by decide) .ts hs exCtxCalls exCtxCalls_noreset
    exCtxCalls_valid
/-- a history with `initialize` and a failing update: the first batch is interrupted, the failing update
counts, and the second batch is completed by the last update -/
noncomputable def exCtxReset : List (CtxCall 2) :=
  [.update 0 1 ![1, 2], .reset, .update 5 1 ![1, 1], .update 1 1 ![0, 1]]
noncomputable example (argsort : List ℝ → List ℕ) := C65_any_history exGauss argsort ⟨2, 1, 2⟩ .ts exCtxReset
/-- so all observations have been learned from, also the one before `initialize` -/
example : LearnedUpTo 2 2 exCtxReset 3 :=
  LearnedUpTo.complete (calls := [.update 0 1 ![1, 2], .reset, .update 5 1 ![1, 1]])
    ⟨by norm_num, by norm_num, by decide⟩
/-- a logistic policy instead forgets the interrupted batch: nothing of the first segment is fitted -/
example : (segments ([.update 0 1 ![1, 2], .reset, .update 1 1 ![0, 1], .update 1 1 ![0, 1]] :
    List (CtxCall 2))).flatMap (batches 2) = [[(1, ![0, 1], 1), (1, ![0, 1], 1)]] := by
  simp [segments, List.splitOnP_cons_eq_if_modifyHead, CtxCall.isReset, ctxObservations, batches]
/-- the constructor accepts these arguments -/
example : ∃ s0 : LogState Unit 2 2, LogState.init exGauss.toRng 1 1 2 2 = .ok s0 := by
  exact logInit_ok _ one_pos one_pos _ _

/-- an optimiser that stays at zero: the minimum for a single failure -/
example : ((LogReg.init exGauss.toRng 1 1 1).fit (fun _ _ _ => 0) [(fun _ => 1, 0)]).m = 0 := rfl

end Obp
