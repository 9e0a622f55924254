import Verif.Lemmas.Policy
import Verif.Spec.Contextual
import Mathlib.LinearAlgebra.Matrix.NonsingularInverse
import Mathlib.LinearAlgebra.Matrix.DotProduct
import Mathlib.Algebra.Order.BigOperators.Group.List

/-! # Lemmas on the linear and logistic policies -/

set_option linter.unusedSectionVars false

namespace Obp
open Matrix

variable {R : Type} {n d : ℕ}

/-! ### The regularised Gram matrix -/

theorem gram_append (D : List ((Fin d → ℝ) × ℝ)) (p : (Fin d → ℝ) × ℝ) :
    gram (D ++ [p]) = gram D + vecMulVec p.1 p.1 := by
  simp [gram, add_assoc]

theorem moment_append (D : List ((Fin d → ℝ) × ℝ)) (p : (Fin d → ℝ) × ℝ) :
    moment (D ++ [p]) = moment D + p.2 • p.1 := by
  simp [moment]

theorem dot_vecMulVec (x y z : Fin d → ℝ) : (vecMulVec x y) *ᵥ z = (y ⬝ᵥ z) • x := by
  ext i
  simp only [mulVec, vecMulVec_apply, dotProduct, Pi.smul_apply, smul_eq_mul, Finset.sum_mul]
  exact Finset.sum_congr rfl fun j _ => by ring

theorem gram_symm (D : List ((Fin d → ℝ) × ℝ)) : (gram D)ᵀ = gram D := by
  induction D using List.reverseRecOn with
  | nil => simp [gram]
  | append_singleton D p ih =>
    rw [gram_append, transpose_add, ih, transpose_vecMulVec]

theorem gram_quad (D : List ((Fin d → ℝ) × ℝ)) (v : Fin d → ℝ) :
    v ⬝ᵥ (gram D *ᵥ v) = v ⬝ᵥ v + (D.map fun p => (p.1 ⬝ᵥ v) ^ 2).sum := by
  induction D using List.reverseRecOn with
  | nil => simp [gram]
  | append_singleton D p ih =>
    rw [gram_append, add_mulVec, dotProduct_add, ih, dot_vecMulVec, dotProduct_smul, smul_eq_mul]
    simp only [List.map_append, List.map_cons, List.map_nil, List.sum_append, List.sum_cons, List.sum_nil]
    rw [dotProduct_comm v p.1]
    ring

theorem dot_self_nonneg (v : Fin d → ℝ) : 0 ≤ v ⬝ᵥ v :=
  Finset.sum_nonneg fun i _ => mul_self_nonneg (v i)

theorem dot_self_pos {v : Fin d → ℝ} (h : v ≠ 0) : 0 < v ⬝ᵥ v := by
  refine lt_of_le_of_ne (dot_self_nonneg v) fun h0 => h ?_
  exact dotProduct_self_eq_zero.1 h0.symm

theorem gram_quad_nonneg (D : List ((Fin d → ℝ) × ℝ)) (v : Fin d → ℝ) : 0 ≤ v ⬝ᵥ (gram D *ᵥ v) := by
  rw [gram_quad]
  refine add_nonneg (dot_self_nonneg v) (List.sum_nonneg fun x hx => ?_)
  obtain ⟨p, -, rfl⟩ := List.mem_map.1 hx
  exact sq_nonneg _

theorem gram_quad_pos (D : List ((Fin d → ℝ) × ℝ)) {v : Fin d → ℝ} (h : v ≠ 0) :
    0 < v ⬝ᵥ (gram D *ᵥ v) := by
  rw [gram_quad]
  refine add_pos_of_pos_of_nonneg (dot_self_pos h) (List.sum_nonneg fun x hx => ?_)
  obtain ⟨p, -, rfl⟩ := List.mem_map.1 hx
  exact sq_nonneg _

/-- `A` is the inverse of the Gram matrix of `D`. -/
theorem inv_symm {D : List ((Fin d → ℝ) × ℝ)} {A : Matrix (Fin d) (Fin d) ℝ} (h : A * gram D = 1) :
    Aᵀ = A := by
  have h' : gram D * A = 1 := mul_eq_one_comm.1 h
  have h2 : gram D * Aᵀ = 1 := by
    rw [← gram_symm D, ← transpose_mul, h, transpose_one]
  calc Aᵀ = A * gram D * Aᵀ := by rw [h, Matrix.one_mul]
    _ = A := by rw [Matrix.mul_assoc, h2, Matrix.mul_one]

theorem inv_quad {D : List ((Fin d → ℝ) × ℝ)} {A : Matrix (Fin d) (Fin d) ℝ} (h : A * gram D = 1)
    (v : Fin d → ℝ) : v ⬝ᵥ (A *ᵥ v) = (A *ᵥ v) ⬝ᵥ (gram D *ᵥ (A *ᵥ v)) := by
  have h' : gram D * A = 1 := mul_eq_one_comm.1 h
  rw [mulVec_mulVec, h', one_mulVec, dotProduct_comm]

theorem inv_quad_nonneg {D : List ((Fin d → ℝ) × ℝ)} {A : Matrix (Fin d) (Fin d) ℝ}
    (h : A * gram D = 1) (v : Fin d → ℝ) : 0 ≤ v ⬝ᵥ (A *ᵥ v) := by
  rw [inv_quad h]; exact gram_quad_nonneg D _

theorem inv_quad_pos {D : List ((Fin d → ℝ) × ℝ)} {A : Matrix (Fin d) (Fin d) ℝ}
    (h : A * gram D = 1) {v : Fin d → ℝ} (hv : v ≠ 0) : 0 < v ⬝ᵥ (A *ᵥ v) := by
  rw [inv_quad h]
  refine gram_quad_pos D fun h0 => hv ?_
  have h' : gram D * A = 1 := mul_eq_one_comm.1 h
  have : gram D *ᵥ (A *ᵥ v) = v := by rw [mulVec_mulVec, h', one_mulVec]
  rw [← this, h0, mulVec_zero]

/-- Sherman-Morrison. -/
theorem woodbury_ok {D : List ((Fin d → ℝ) × ℝ)} {A : Matrix (Fin d) (Fin d) ℝ} (h : A * gram D = 1)
    (x : Fin d → ℝ) (r : ℝ) :
    ∃ B, woodbury A x = .ok B ∧ B * gram (D ++ [(x, r)]) = 1 ∧
      ∀ v, v ⬝ᵥ (B *ᵥ v) = v ⬝ᵥ (A *ᵥ v) - (v ⬝ᵥ (A *ᵥ x)) ^ 2 / (1 + x ⬝ᵥ (A *ᵥ x)) := by
  have hden : 0 < 1 + x ⬝ᵥ (A *ᵥ x) := add_pos_of_pos_of_nonneg one_pos (inv_quad_nonneg h x)
  set den := 1 + x ⬝ᵥ (A *ᵥ x) with hd
  refine ⟨A - den⁻¹ • vecMulVec (A *ᵥ x) (x ᵥ* A), ?_, ?_, ?_⟩
  · unfold woodbury
    rw [← hd]
    simp only [if_neg hden.ne']
  · rw [gram_append, Matrix.sub_mul, Matrix.mul_add, h, Matrix.mul_add, Matrix.smul_mul,
      Matrix.smul_mul, vecMulVec_mul, vecMul_vecMul, h, vecMul_one, mul_vecMulVec, vecMulVec_mul_vecMulVec]
    have hdot : (x ᵥ* A) ⬝ᵥ x = den - 1 := by
      rw [hd, ← dotProduct_mulVec]; ring
    dsimp only
    rw [hdot]
    ext i j
    simp only [Matrix.sub_apply, Matrix.add_apply, Matrix.smul_apply, vecMulVec_apply, smul_eq_mul, Pi.smul_apply]
    field_simp
    ring
  · intro v
    rw [sub_mulVec, dotProduct_sub, smul_mulVec, dotProduct_smul, dot_vecMulVec, dotProduct_smul, smul_eq_mul,
      smul_eq_mul]
    have : (x ᵥ* A) ⬝ᵥ v = v ⬝ᵥ (A *ᵥ x) := by
      rw [← mulVec_transpose, inv_symm h, dotProduct_comm]
    rw [this]
    ring

/-! ### The invariant of the linear policies -/

theorem dataOf_append (h : List (ℤ × (Fin d → ℝ) × ℝ)) (p : ℤ × (Fin d → ℝ) × ℝ) (a : Fin n) :
    dataOf (h ++ [p]) a = if Names p.1 a then dataOf h a ++ [p.2] else dataOf h a := by
  by_cases hp : Names p.1 a <;> simp [dataOf, hp]

/-- the invariant -/
structure LinInv (b : ℕ) (h : List (ℤ × (Fin d → ℝ) × ℝ)) (s : LinState R n d) : Prop where
  nTrial : s.nTrial = h.length
  invTemp : ∀ a, s.aInvTemp a * gram (dataOf h a) = 1
  bTemp : ∀ a, s.bTemp a = moment (dataOf h a)
  inv : ∀ a, s.aInv a * gram (dataOf (completed b h) a) = 1
  b : ∀ a, s.b a = moment (dataOf (completed b h) a)

theorem linInv_init (ops : Rng R ℝ) (b n d : ℕ) : LinInv b [] (LinState.init ops n d) := by
  constructor
  · rfl
  all_goals
    intro a
    simp [LinState.init, dataOf, gram, moment, completed]
  all_goals rfl

theorem LinInv.update {b : ℕ} {h : List (ℤ × (Fin d → ℝ) × ℝ)} {s : LinState R n d} (hi : LinInv b h s)
    {z : ℤ} (r : ℝ) (x : Fin d → ℝ) (h1 : -n ≤ z) (h2 : z < n) :
    (s.updateParams b z r x).1 = .ok () ∧ LinInv b (h ++ [(z, x, r)]) (s.updateParams b z r x).2 := by
  obtain ⟨a, ha⟩ := wrapIdx_isSome h1 h2
  have hn := wrapIdx_names ha
  obtain ⟨B, hB, hB1, -⟩ := woodbury_ok (hi.invTemp a) x r
  have htemp : ∀ c, Function.update s.aInvTemp a B c * gram (dataOf (h ++ [(z, x, r)]) c) = 1 := by
    intro c
    rw [dataOf_append]
    by_cases hc : c = a
    · subst hc
      rw [Function.update_self, if_pos hn]
      exact hB1
    · rw [Function.update_of_ne hc, if_neg fun h' => hc (Names.unique h' hn)]
      exact hi.invTemp c
  have hbtemp : ∀ c, Function.update s.bTemp a (s.bTemp a + r • x) c =
      moment (dataOf (h ++ [(z, x, r)]) c) := by
    intro c
    rw [dataOf_append]
    by_cases hc : c = a
    · subst hc
      rw [Function.update_self, if_pos hn, moment_append, hi.bTemp]
    · rw [Function.update_of_ne hc, if_neg fun h' => hc (Names.unique h' hn)]
      exact hi.bTemp c
  unfold LinState.updateParams
  simp only [ha, hB]
  split
  · next hd =>
    rw [hi.nTrial] at hd
    have hc : completed b (h ++ [(z, x, r)]) = h ++ [(z, x, r)] := completed_of_dvd _ (by simpa using hd)
    refine ⟨rfl, by simp [hi.nTrial], htemp, hbtemp, ?_, ?_⟩
    · rw [hc]; exact htemp
    · rw [hc]; exact hbtemp
  · next hd =>
    rw [hi.nTrial] at hd
    refine ⟨rfl, by simp [hi.nTrial], htemp, hbtemp, ?_, ?_⟩
    · rw [completed_append_of_not_dvd _ _ hd]; exact hi.inv
    · rw [completed_append_of_not_dvd _ _ hd]; exact hi.b

theorem linSelect_state (ops : GaussRng R) (argsort : List ℝ → List ℕ) (L : ℕ) (c : LinClass)
    (s : LinState R n d) (rows : List (Fin d → ℝ)) :
    ∃ r t, (c.select ops argsort L s rows).2 = { s with rng := r, thetaHat := t } := by
  cases c with
  | egreedy e =>
    simp only [LinClass.select, linEgreedySelect]
    split
    · exact ⟨_, _, rfl⟩
    · split
      · exact ⟨_, _, rfl⟩
      · exact ⟨_, _, rfl⟩
  | ucb e =>
    simp only [LinClass.select, linUcbSelect]
    split
    · split
      · exact ⟨_, _, rfl⟩
      · exact ⟨_, _, rfl⟩
    · exact ⟨_, _, rfl⟩
  | ts => exact ⟨_, _, rfl⟩

theorem linInv_run (ops : GaussRng R) (argsort : List ℝ → List ℕ) (cfg : CfConfig) (c : LinClass)
    (calls : List (CtxCall d)) (hreset : CtxCall.reset ∉ calls)
    (hz : ∀ p ∈ ctxObservations calls, -(cfg.nActions : ℤ) ≤ p.1 ∧ p.1 < cfg.nActions) :
    LinInv cfg.batchSize (ctxObservations calls) (c.run ops argsort cfg d calls) := by
  induction calls using List.reverseRecOn with
  | nil => exact linInv_init ops.toRng _ _ _
  | append_singleton calls call ih =>
    have hobs : ctxObservations (calls ++ [call]) = ctxObservations calls ++ ctxObservations [call] := by
      simp only [ctxObservations, List.filterMap_append]
    have hrun : c.run ops argsort cfg d (calls ++ [call]) =
        c.step ops argsort cfg (c.run ops argsort cfg d calls) call := by
      simp only [LinClass.run, List.foldl_append, List.foldl_cons, List.foldl_nil]
    rw [hrun, hobs]
    rw [hobs] at hz
    have ih := ih (fun h => hreset (List.mem_append_left _ h)) fun p hp => hz p (List.mem_append_left _ hp)
    cases call with
    | update z r x =>
      obtain ⟨h1, h2⟩ := hz (z, x, r) (by simp [ctxObservations])
      exact (ih.update r x h1 h2).2
    | select rows =>
      obtain ⟨r, t, hr⟩ := linSelect_state ops argsort cfg.lenList c (c.run ops argsort cfg d calls) rows
      show LinInv _ _ (c.select ops argsort cfg.lenList _ rows).2
      rw [hr]
      have : ctxObservations [CtxCall.select rows] = [] := rfl
      rw [this, List.append_nil]
      exact ⟨ih.nTrial, ih.invTemp, ih.bTemp, ih.inv, ih.b⟩
    | reset => exact absurd (by simp) hreset

/-! ### Histories with failing updates and `initialize` calls -/

theorem ctxObservations_append (p q : List (CtxCall d)) :
    ctxObservations (p ++ q) = ctxObservations p ++ ctxObservations q := by
  simp only [ctxObservations, List.filterMap_append]

theorem updatesSinceReset_append (p : List (CtxCall d)) (c : CtxCall d) :
    updatesSinceReset (p ++ [c]) =
      match c with
      | .update _ _ _ => updatesSinceReset p + 1
      | .select _ => updatesSinceReset p
      | .reset => 0 := by
  simp only [updatesSinceReset, List.foldl_append, List.foldl_cons, List.foldl_nil]
  cases c <;> rfl

theorem LearnedUpTo.le {b n k : ℕ} {calls : List (CtxCall d)} (h : LearnedUpTo b n calls k) :
    k ≤ (ctxObservations calls).length := by
  rcases h.1 with rfl | ⟨p, z, r, x, q, rfl, -, rfl⟩
  · exact Nat.zero_le _
  · rw [ctxObservations_append, List.length_append]
    simp [ctxObservations]

theorem append_singleton_split {α : Type} {l p q : List α} {c u : α} (h : l ++ [c] = p ++ u :: q) :
    (q = [] ∧ p = l ∧ c = u) ∨ ∃ q', q = q' ++ [c] ∧ l = p ++ u :: q' := by
  rcases List.eq_nil_or_concat q with rfl | ⟨q', e, rfl⟩
  · have := List.append_inj' h rfl
    exact Or.inl ⟨rfl, this.1.symm, by simpa using this.2⟩
  · rw [List.concat_eq_append] at h ⊢
    have h' : l ++ [c] = (p ++ u :: q') ++ [e] := by rw [h]; simp
    have := List.append_inj' h' rfl
    have hc : c = e := by simpa using this.2
    subst hc
    exact Or.inr ⟨q', rfl, this.1⟩

theorem LearnedUpTo.keep {b n k : ℕ} {calls : List (CtxCall d)} (h : LearnedUpTo b n calls k)
    {c : CtxCall d} (hc : ∀ z r x, c = .update z r x → ¬ CompletesBatch b n calls z) :
    LearnedUpTo b n (calls ++ [c]) k := by
  refine ⟨?_, ?_⟩
  · rcases h.1 with rfl | ⟨p, z, r, x, q, rfl, h1, h2⟩
    · exact Or.inl rfl
    · exact Or.inr ⟨p, z, r, x, q ++ [c], by simp, h1, h2⟩
  · intro p z r x q hq hb
    rcases append_singleton_split hq with ⟨-, rfl, hcu⟩ | ⟨q', -, hl⟩
    · exact absurd hb (hc z r x hcu)
    · exact h.2 p z r x q' hl hb

theorem LearnedUpTo.complete {b n : ℕ} {calls : List (CtxCall d)} {z : ℤ} {r : ℝ} {x : Fin d → ℝ}
    (hc : CompletesBatch b n calls z) :
    LearnedUpTo b n (calls ++ [.update z r x]) ((ctxObservations calls).length + 1) := by
  refine ⟨Or.inr ⟨calls, z, r, x, [], rfl, hc, rfl⟩, ?_⟩
  intro p z' r' x' q hq _
  rcases append_singleton_split hq with ⟨-, rfl, -⟩ | ⟨q', -, hl⟩
  · exact le_refl _
  · rw [hl, ctxObservations_append, List.length_append]
    omega

/-- the invariant, for all histories -/
structure LinInvAny (b : ℕ) (calls : List (CtxCall d)) (k : ℕ) (s : LinState R n d) : Prop where
  nTrial : s.nTrial = updatesSinceReset calls
  learned : LearnedUpTo b n calls k
  invTemp : ∀ a, s.aInvTemp a * gram (dataOf (ctxObservations calls) a) = 1
  bTemp : ∀ a, s.bTemp a = moment (dataOf (ctxObservations calls) a)
  inv : ∀ a, s.aInv a * gram (dataOf ((ctxObservations calls).take k) a) = 1
  b : ∀ a, s.b a = moment (dataOf ((ctxObservations calls).take k) a)

theorem not_names {z : ℤ} (h : z < -n ∨ n ≤ z) (a : Fin n) : ¬ Names z a := by
  have := a.isLt
  unfold Names
  omega

theorem LinInvAny.update {b k : ℕ} {calls : List (CtxCall d)} {s : LinState R n d}
    (hi : LinInvAny b calls k s) (z : ℤ) (r : ℝ) (x : Fin d → ℝ) :
    (s.updateParams b z r x).1 = (if -(n : ℤ) ≤ z ∧ z < n then .ok () else .error .indexError) ∧
      ∃ k', k ≤ k' ∧ LinInvAny b (calls ++ [.update z r x]) k' (s.updateParams b z r x).2 := by
  have hobs : ctxObservations (calls ++ [.update z r x]) = ctxObservations calls ++ [(z, x, r)] := by
    rw [ctxObservations_append]; rfl
  have htr : updatesSinceReset (calls ++ [.update z r x]) = updatesSinceReset calls + 1 :=
    updatesSinceReset_append _ _
  have hle := hi.learned.le
  have htake : (ctxObservations calls ++ [(z, x, r)]).take k = (ctxObservations calls).take k :=
    List.take_append_of_le_length hle
  by_cases hz : -(n : ℤ) ≤ z ∧ z < n
  · rw [if_pos hz]
    obtain ⟨a, ha⟩ := wrapIdx_isSome hz.1 hz.2
    have hn := wrapIdx_names ha
    obtain ⟨B, hB, hB1, -⟩ := woodbury_ok (hi.invTemp a) x r
    have htemp : ∀ c, Function.update s.aInvTemp a B c *
        gram (dataOf (ctxObservations (calls ++ [.update z r x])) c) = 1 := by
      intro c
      rw [hobs, dataOf_append]
      by_cases hc : c = a
      · subst hc
        rw [Function.update_self, if_pos hn]
        exact hB1
      · rw [Function.update_of_ne hc, if_neg fun h' => hc (Names.unique h' hn)]
        exact hi.invTemp c
    have hbtemp : ∀ c, Function.update s.bTemp a (s.bTemp a + r • x) c =
        moment (dataOf (ctxObservations (calls ++ [.update z r x])) c) := by
      intro c
      rw [hobs, dataOf_append]
      by_cases hc : c = a
      · subst hc
        rw [Function.update_self, if_pos hn, moment_append, hi.bTemp]
      · rw [Function.update_of_ne hc, if_neg fun h' => hc (Names.unique h' hn)]
        exact hi.bTemp c
    unfold LinState.updateParams
    simp only [ha, hB]
    split
    · next hd =>
      rw [hi.nTrial] at hd
      have hfull : (ctxObservations (calls ++ [.update z r x])).take ((ctxObservations calls).length + 1) =
          ctxObservations (calls ++ [.update z r x]) := List.take_of_length_le (by rw [hobs]; simp)
      refine ⟨rfl, (ctxObservations calls).length + 1, by omega,
        by rw [htr]; exact congrArg (· + 1) hi.nTrial,
        LearnedUpTo.complete ⟨hz.1, hz.2, Nat.dvd_of_mod_eq_zero hd⟩, htemp, hbtemp, ?_, ?_⟩
      · rw [hfull]; exact htemp
      · rw [hfull]; exact hbtemp
    · next hd =>
      rw [hi.nTrial] at hd
      refine ⟨rfl, k, le_refl _, by rw [htr]; exact congrArg (· + 1) hi.nTrial,
        hi.learned.keep ?_, htemp, hbtemp, ?_, ?_⟩
      · intro z' r' x' he hb
        exact hd (Nat.mod_eq_zero_of_dvd hb.2.2)
      · rw [hobs, htake]; exact hi.inv
      · rw [hobs, htake]; exact hi.b
  · rw [if_neg hz]
    have hz' : z < -n ∨ (n : ℤ) ≤ z := by omega
    have hdata : ∀ c : Fin n, dataOf (ctxObservations (calls ++ [.update z r x])) c =
        dataOf (ctxObservations calls) c := by
      intro c
      rw [hobs, dataOf_append, if_neg (not_names hz' c)]
    unfold LinState.updateParams
    simp only [wrapIdx_none hz']
    refine ⟨trivial, k, le_refl _, by rw [htr]; exact congrArg (· + 1) hi.nTrial, hi.learned.keep ?_,
      fun c => by rw [hdata]; exact hi.invTemp c, fun c => by rw [hdata]; exact hi.bTemp c, ?_, ?_⟩
    · intro z' r' x' he hb
      cases he
      exact hz ⟨hb.1, hb.2.1⟩
    · rw [hobs, htake]; exact hi.inv
    · rw [hobs, htake]; exact hi.b

theorem LinInvAny.step {cfg : CfConfig} {k : ℕ} {calls : List (CtxCall d)}
    {s : LinState R cfg.nActions d} (hi : LinInvAny cfg.batchSize calls k s) (ops : GaussRng R)
    (argsort : List ℝ → List ℕ) (c : LinClass) (call : CtxCall d) :
    ∃ k', k ≤ k' ∧ LinInvAny cfg.batchSize (calls ++ [call]) k' (c.step ops argsort cfg s call) := by
  cases call with
  | update z r x => exact (hi.update z r x).2
  | select rows =>
    obtain ⟨r, t, hr⟩ := linSelect_state ops argsort cfg.lenList c s rows
    have hobs : ctxObservations (calls ++ [.select rows]) = ctxObservations calls := by
      rw [ctxObservations_append]; exact List.append_nil _
    refine ⟨k, le_refl _, ?_⟩
    show LinInvAny _ _ k (c.select ops argsort cfg.lenList _ rows).2
    rw [hr]
    refine ⟨?_, hi.learned.keep fun z r x h => by simp at h, ?_, ?_, ?_, ?_⟩
    · rw [updatesSinceReset_append]; exact hi.nTrial
    all_goals rw [hobs]
    exacts [hi.invTemp, hi.bTemp, hi.inv, hi.b]
  | reset =>
    have hobs : ctxObservations (calls ++ [.reset]) = ctxObservations calls := by
      rw [ctxObservations_append]; exact List.append_nil _
    refine ⟨k, le_refl _, ?_, hi.learned.keep fun z r x h => by simp at h, ?_, ?_, ?_, ?_⟩
    · rw [updatesSinceReset_append]; rfl
    all_goals rw [hobs]
    exacts [hi.invTemp, hi.bTemp, hi.inv, hi.b]

theorem linInvAny_init (ops : Rng R ℝ) (b n d : ℕ) :
    LinInvAny b ([] : List (CtxCall d)) 0 (LinState.init ops n d) := by
  refine ⟨rfl, ⟨Or.inl rfl, fun p z r x q h => by simp at h⟩, ?_, ?_, ?_, ?_⟩
  all_goals
    intro a
    simp [LinState.init, dataOf, gram, moment, ctxObservations]
  all_goals rfl

theorem linInvAny_more (ops : GaussRng R) (argsort : List ℝ → List ℕ) (cfg : CfConfig) (c : LinClass)
    {calls : List (CtxCall d)} {k : ℕ}
    (hi : LinInvAny cfg.batchSize calls k (c.run ops argsort cfg d calls)) (more : List (CtxCall d)) :
    ∃ k', k ≤ k' ∧ LinInvAny cfg.batchSize (calls ++ more) k' (c.run ops argsort cfg d (calls ++ more)) := by
  induction more using List.reverseRecOn with
  | nil => exact ⟨k, le_refl _, by rwa [List.append_nil]⟩
  | append_singleton more call ih =>
    obtain ⟨k1, h1, hi1⟩ := ih
    obtain ⟨k2, h2, hi2⟩ := hi1.step ops argsort c call
    refine ⟨k2, h1.trans h2, ?_⟩
    rw [← List.append_assoc]
    have hrun : c.run ops argsort cfg d (calls ++ more ++ [call]) =
        c.step ops argsort cfg (c.run ops argsort cfg d (calls ++ more)) call := by
      simp only [LinClass.run, List.foldl_append, List.foldl_cons, List.foldl_nil]
    rw [hrun]
    exact hi2

theorem linInvAny_run (ops : GaussRng R) (argsort : List ℝ → List ℕ) (cfg : CfConfig) (c : LinClass)
    (calls : List (CtxCall d)) :
    ∃ k, LinInvAny cfg.batchSize calls k (c.run ops argsort cfg d calls) := by
  obtain ⟨k, -, h⟩ := linInvAny_more ops argsort cfg c (calls := []) (linInvAny_init ops.toRng _ _ _) calls
  exact ⟨k, h⟩

/-! ### Ridge regression -/

theorem ridge_shift (D : List ((Fin d → ℝ) × ℝ)) (θ δ : Fin d → ℝ) :
    ridge D (θ + δ) = ridge D θ + 2 * ((gram D *ᵥ θ - moment D) ⬝ᵥ δ) + δ ⬝ᵥ (gram D *ᵥ δ) := by
  induction D using List.reverseRecOn with
  | nil =>
    simp [ridge, gram, moment, dotProduct_add, add_dotProduct, dotProduct_comm δ θ]
    ring
  | append_singleton D p ih =>
    have e : ∀ t, ridge (D ++ [p]) t = ridge D t + (p.2 - p.1 ⬝ᵥ t) ^ 2 := by
      intro t; simp [ridge]; ring
    rw [e, e, ih, gram_append, moment_append, add_mulVec, add_mulVec, dot_vecMulVec, dot_vecMulVec,
      dotProduct_add p.1]
    simp only [add_dotProduct, sub_dotProduct, dotProduct_add, dotProduct_smul, smul_dotProduct, smul_eq_mul]
    rw [dotProduct_comm δ p.1]
    ring

/-! ### Batches -/

theorem batches_append_of_dvd {α : Type} {b : ℕ} (hb : 0 < b) (h : List α) (x : α)
    (hd : (h.length + 1) % b = 0) :
    batches b (h ++ [x]) = batches b h ++ [h.drop (b * (h.length / b)) ++ [x]] := by
  have hdiv : (h.length + 1) / b = h.length / b + 1 := by
    rw [Nat.succ_div, if_pos (Nat.dvd_of_mod_eq_zero hd)]
  have hmul : b * (h.length / b + 1) = h.length + 1 := by
    rw [← hdiv]; exact Nat.mul_div_cancel' (Nat.dvd_of_mod_eq_zero hd)
  unfold batches
  rw [List.length_append, List.length_singleton, hdiv, List.range_succ, List.map_append]
  congr 1
  · refine List.map_congr_left fun i hi => ?_
    have hi := List.mem_range.1 hi
    have : b * i + b ≤ h.length := by
      calc b * i + b = b * (i + 1) := by ring
        _ ≤ b * (h.length / b) := Nat.mul_le_mul_left _ hi
        _ ≤ h.length := Nat.mul_div_le _ _
    rw [List.drop_append_of_le_length (by omega), List.take_append_of_le_length (by
      rw [List.length_drop]; omega)]
  · simp only [List.map_cons, List.map_nil]
    have hle := Nat.mul_div_le h.length b
    rw [List.drop_append_of_le_length hle, List.take_of_length_le]
    simp only [List.length_append, List.length_drop, List.length_singleton]
    rw [Nat.mul_add, Nat.mul_one] at hmul
    omega

theorem batches_append_of_not_dvd {α : Type} {b : ℕ} (h : List α) (x : α)
    (hd : (h.length + 1) % b ≠ 0) : batches b (h ++ [x]) = batches b h := by
  have hdiv : (h.length + 1) / b = h.length / b := by
    rw [Nat.succ_div, if_neg fun hdvd => hd (Nat.mod_eq_zero_of_dvd hdvd), Nat.add_zero]
  unfold batches
  rw [List.length_append, List.length_singleton, hdiv]
  refine List.map_congr_left fun i hi => ?_
  have hi := List.mem_range.1 hi
  have : b * i + b ≤ h.length := by
    calc b * i + b = b * (i + 1) := by ring
      _ ≤ b * (h.length / b) := Nat.mul_le_mul_left _ hi
      _ ≤ h.length := Nat.mul_div_le _ _
  rw [List.drop_append_of_le_length (by omega), List.take_append_of_le_length (by
    rw [List.length_drop]; omega)]

theorem batches_flatten {α : Type} (b : ℕ) (h : List α) : (batches b h).flatten = completed b h := by
  have : ∀ k, b * k ≤ h.length →
      ((List.range k).map fun i => (h.drop (b * i)).take b).flatten = h.take (b * k) := by
    intro k
    induction k with
    | zero => simp
    | succ k ih =>
      intro hk
      have hk' : b * k ≤ h.length := le_trans (Nat.mul_le_mul_left _ (Nat.le_succ k)) hk
      rw [List.range_succ, List.map_append, List.flatten_append, ih hk', Nat.mul_succ, List.take_add]
      simp
  exact this _ (Nat.mul_div_le _ _)

/-! ### The invariant of the logistic policies -/

theorem SameModel.fit {minimize : Minimizer d} {g h : LogReg R d} (hs : SameModel g h)
    (D : List ((Fin d → ℝ) × ℝ)) : SameModel (g.fit minimize D) (h.fit minimize D) := by
  obtain ⟨h1, h2, h3, h4⟩ := hs
  have hl : g.loss D = h.loss D := by funext w; simp only [LogReg.loss, h3, h4]
  have hg : g.grad D = h.grad D := by funext w j; simp only [LogReg.grad, h3, h4]
  refine ⟨h1, h2, ?_, ?_⟩
  · simp only [LogReg.fit, hl, hg, h3]
  · simp only [LogReg.fit, hl, hg, h3, h4]

structure LogInv (minimize : Minimizer d) (b : ℕ) (g0 : Fin n → LogReg R d)
    (h : List (ℤ × (Fin d → ℝ) × ℝ)) (s : LogState R n d) : Prop where
  nTrial : s.nTrial = h.length
  pending : ∀ a, s.pending a = dataOf (h.drop (b * (h.length / b))) a
  models : ∀ a, SameModel (s.models a)
    (fitBatches minimize (g0 a) ((batches b h).map fun B => dataOf B a))

theorem LogInv.update {minimize : Minimizer d} {b : ℕ} (hb : 0 < b) {g0 : Fin n → LogReg R d}
    {h : List (ℤ × (Fin d → ℝ) × ℝ)} {s : LogState R n d} (hi : LogInv minimize b g0 h s)
    {z : ℤ} (r : ℝ) (x : Fin d → ℝ) (h1 : -n ≤ z) (h2 : z < n) :
    (s.updateParams minimize b z r x).1 = .ok () ∧
      LogInv minimize b g0 (h ++ [(z, x, r)]) (s.updateParams minimize b z r x).2 := by
  obtain ⟨a, ha⟩ := wrapIdx_isSome h1 h2
  have hn := wrapIdx_names ha
  have hle := Nat.mul_div_le h.length b
  have hpend : ∀ c, Function.update s.pending a (s.pending a ++ [(x, r)]) c =
      dataOf (h.drop (b * (h.length / b)) ++ [(z, x, r)]) c := by
    intro c
    rw [dataOf_append]
    by_cases hc : c = a
    · subst hc
      rw [Function.update_self, if_pos hn, hi.pending]
    · rw [Function.update_of_ne hc, if_neg fun h' => hc (Names.unique h' hn)]
      exact hi.pending c
  unfold LogState.updateParams
  simp only [ha]
  split
  · next hd =>
    rw [hi.nTrial] at hd
    refine ⟨rfl, by simp [hi.nTrial], ?_, ?_⟩
    · intro c
      have : b * ((h.length + 1) / b) = h.length + 1 := Nat.mul_div_cancel' (Nat.dvd_of_mod_eq_zero hd)
      dsimp only
      rw [List.length_append, List.length_singleton, this, List.drop_of_length_le (by simp)]
      rfl
    · intro c
      dsimp only
      rw [batches_append_of_dvd hb h _ hd, List.map_append, fitBatches, List.foldl_append]
      simp only [List.map_cons, List.map_nil, List.foldl_cons, List.foldl_nil]
      rw [hpend c]
      have hm := hi.models c
      by_cases he : dataOf (h.drop (b * (h.length / b)) ++ [(z, x, r)]) c = []
      · rw [if_pos he, if_pos (by rw [he]; rfl)]
        exact hm
      · rw [if_neg he, if_neg (by simpa using he)]
        exact hm.fit _
  · next hd =>
    rw [hi.nTrial] at hd
    have hdiv : (h.length + 1) / b = h.length / b := by
      rw [Nat.succ_div, if_neg fun hdvd => hd (Nat.mod_eq_zero_of_dvd hdvd), Nat.add_zero]
    refine ⟨rfl, by simp [hi.nTrial], ?_, ?_⟩
    · intro c
      dsimp only
      rw [List.length_append, List.length_singleton, hdiv, List.drop_append_of_le_length hle]
      exact hpend c
    · intro c
      rw [batches_append_of_not_dvd _ _ hd]
      exact hi.models c

theorem logInv_select (ops : GaussRng R) (argsort : List ℝ → List ℕ) (L : ℕ) (c : LogClass)
    {minimize : Minimizer d} {b : ℕ} {g0 : Fin n → LogReg R d} {h : List (ℤ × (Fin d → ℝ) × ℝ)}
    {s : LogState R n d} (hi : LogInv minimize b g0 h s) (rows : List (Fin d → ℝ)) :
    LogInv minimize b g0 h (c.select ops argsort L s rows).2 := by
  cases c with
  | egreedy e =>
    simp only [LogClass.select, logEgreedySelect]
    split <;> exact ⟨hi.nTrial, hi.pending, hi.models⟩
  | ucb e =>
    simp only [LogClass.select, logUcbSelect]
    split <;> exact hi
  | ts => exact ⟨hi.nTrial, hi.pending, hi.models⟩

theorem logInv_run_from (ops : GaussRng R) (argsort : List ℝ → List ℕ) (minimize : Minimizer d)
    {cfg : CfConfig} (hb : 0 < cfg.batchSize) (c : LogClass) {g0 : Fin cfg.nActions → LogReg R d}
    {s : LogState R cfg.nActions d} (hs : LogInv minimize cfg.batchSize g0 [] s)
    (calls : List (CtxCall d)) (hreset : CtxCall.reset ∉ calls)
    (hz : ∀ p ∈ ctxObservations calls, -(cfg.nActions : ℤ) ≤ p.1 ∧ p.1 < cfg.nActions) :
    LogInv minimize cfg.batchSize g0 (ctxObservations calls)
      (c.run ops argsort minimize cfg s calls) := by
  induction calls using List.reverseRecOn with
  | nil => exact hs
  | append_singleton calls call ih =>
    have hobs : ctxObservations (calls ++ [call]) = ctxObservations calls ++ ctxObservations [call] :=
      ctxObservations_append _ _
    have hrun : c.run ops argsort minimize cfg s (calls ++ [call]) =
        c.step ops argsort minimize cfg (c.run ops argsort minimize cfg s calls) call := by
      simp only [LogClass.run, List.foldl_append, List.foldl_cons, List.foldl_nil]
    rw [hrun, hobs]
    rw [hobs] at hz
    have ih := ih (fun h => hreset (List.mem_append_left _ h)) fun p hp => hz p (List.mem_append_left _ hp)
    cases call with
    | update z r x =>
      obtain ⟨h1, h2⟩ := hz (z, x, r) (by simp [ctxObservations])
      exact (ih.update hb r x h1 h2).2
    | select rows =>
      have : ctxObservations [CtxCall.select rows] = [] := rfl
      rw [this, List.append_nil]
      exact logInv_select ops argsort cfg.lenList c ih rows
    | reset => exact absurd (by simp) hreset

theorem logInv_start {minimize : Minimizer d} (b : ℕ) {g0 : Fin n → LogReg R d} {s : LogState R n d}
    (h0 : s.nTrial = 0) (hp : ∀ a, s.pending a = []) (hm : ∀ a, SameModel (s.models a) (g0 a)) :
    LogInv minimize b g0 [] s := by
  refine ⟨h0, fun a => by rw [hp a]; simp [dataOf], fun a => ?_⟩
  have : (batches b ([] : List (ℤ × (Fin d → ℝ) × ℝ))) = [] := by simp [batches]
  rw [this]
  exact hm a

theorem logInit_start {ops : Rng R ℝ} {lam alpha : ℝ} {s : LogState R n d}
    (hs : LogState.init ops lam alpha n d = .ok s) (minimize : Minimizer d) (b : ℕ) :
    LogInv minimize b (fun _ => LogReg.init ops lam alpha d) [] s := by
  simp only [LogState.init, py_bind_eq_ok, exists_unit] at hs
  obtain ⟨-, -, hs⟩ := hs
  obtain rfl := Except.ok.inj hs
  refine logInv_start b rfl (fun a => rfl) fun a => ?_
  simp only [mul_one]
  exact ⟨rfl, rfl, rfl, rfl⟩

theorem logInv_run (ops : GaussRng R) (argsort : List ℝ → List ℕ) (minimize : Minimizer d)
    {cfg : CfConfig} (hb : 0 < cfg.batchSize) (c : LogClass) {lam alpha : ℝ}
    {s : LogState R cfg.nActions d} (hs : LogState.init ops.toRng lam alpha cfg.nActions d = .ok s)
    (calls : List (CtxCall d)) (hreset : CtxCall.reset ∉ calls)
    (hz : ∀ p ∈ ctxObservations calls, -(cfg.nActions : ℤ) ≤ p.1 ∧ p.1 < cfg.nActions) :
    LogInv minimize cfg.batchSize (fun _ => LogReg.init ops.toRng lam alpha d) (ctxObservations calls)
      (c.run ops argsort minimize cfg s calls) :=
  logInv_run_from ops argsort minimize hb c (logInit_start hs minimize _) calls hreset hz

theorem last_reset (calls : List (CtxCall d)) :
    CtxCall.reset ∉ calls ∨ ∃ p q, calls = p ++ .reset :: q ∧ CtxCall.reset ∉ q := by
  induction calls using List.reverseRecOn with
  | nil => exact Or.inl (by simp)
  | append_singleton calls call ih =>
    cases call with
    | reset => exact Or.inr ⟨calls, [], rfl, by simp⟩
    | update z r x =>
      rcases ih with h | ⟨p, q, rfl, hq⟩
      · exact Or.inl (by simp [h])
      · exact Or.inr ⟨p, q ++ [.update z r x], by simp, by simp [hq]⟩
    | select rows =>
      rcases ih with h | ⟨p, q, rfl, hq⟩
      · exact Or.inl (by simp [h])
      · exact Or.inr ⟨p, q ++ [.select rows], by simp, by simp [hq]⟩

theorem segments_of_no_reset {calls : List (CtxCall d)} (h : CtxCall.reset ∉ calls) :
    segments calls = [ctxObservations calls] := by
  unfold segments
  rw [List.splitOnP_eq_singleton]
  · rfl
  · intro x hx
    cases x with
    | reset => exact absurd hx h
    | _ => rfl

theorem segments_append_reset (p q : List (CtxCall d)) :
    segments (p ++ .reset :: q) = segments p ++ segments q := by
  unfold segments
  rw [List.splitOnP_append_cons p q (show CtxCall.isReset (CtxCall.reset : CtxCall d) = true from rfl),
    List.map_append]

/-- the models after any history of updates with existing actions -/
theorem logInv_segments (ops : GaussRng R) (argsort : List ℝ → List ℕ) (minimize : Minimizer d)
    {cfg : CfConfig} (hb : 0 < cfg.batchSize) (c : LogClass) {g0 : Fin cfg.nActions → LogReg R d}
    {s : LogState R cfg.nActions d} (hs : LogInv minimize cfg.batchSize g0 [] s)
    (calls : List (CtxCall d))
    (hz : ∀ p ∈ ctxObservations calls, -(cfg.nActions : ℤ) ≤ p.1 ∧ p.1 < cfg.nActions)
    (a : Fin cfg.nActions) :
    SameModel ((c.run ops argsort minimize cfg s calls).models a) (fitBatches minimize (g0 a)
      (((segments calls).flatMap (batches cfg.batchSize)).map fun B => dataOf B a)) := by
  induction hl : calls.length using Nat.strong_induction_on generalizing calls a with
  | _ m ih =>
    rcases last_reset calls with h | ⟨p, q, rfl, hq⟩
    · rw [segments_of_no_reset h, List.flatMap_singleton]
      exact (logInv_run_from ops argsort minimize hb c hs calls h hz).models a
    · have hobs : ctxObservations (p ++ .reset :: q) = ctxObservations p ++ ctxObservations q := by
        rw [ctxObservations_append]; rfl
      rw [hobs] at hz
      have ih := fun a => ih p.length (by rw [← hl]; simp) p (fun o ho => hz o (List.mem_append_left _ ho)) a rfl
      rw [segments_append_reset, segments_of_no_reset hq, List.flatMap_append, List.map_append,
        List.flatMap_singleton]
      have hrun : c.run ops argsort minimize cfg s (p ++ .reset :: q) =
          c.run ops argsort minimize cfg ((c.run ops argsort minimize cfg s p).initialize ops.toRng) q := by
        simp only [LogClass.run, List.foldl_append, List.foldl_cons]
        rfl
      rw [hrun]
      have hstart := logInv_start (minimize := minimize) cfg.batchSize
        (s := (c.run ops argsort minimize cfg s p).initialize ops.toRng) rfl (fun _ => rfl) fun a => ih a
      have := (logInv_run_from ops argsort minimize hb c hstart q hq
        fun o ho => hz o (List.mem_append_right _ ho)).models a
      unfold fitBatches at this ⊢
      rw [List.foldl_append]
      exact this

end Obp
