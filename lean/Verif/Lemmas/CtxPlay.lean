import Verif.Lemmas.LinUcbNoise

set_option linter.unusedSectionVars false

/-! # A linear policy in `BanditPolicySimulator`, for any rule that picks actions from the completed batches -/

namespace Obp
open Matrix MeasureTheory ProbabilityTheory
open scoped ENNReal NNReal

variable {n d : ℕ} {R : Type}

/-- the observations after `T` rounds, if `pick t h` is played in round `t` when the completed batches are `h` -/
noncomputable def ctxHist (pick : ℕ → List (ℤ × (Fin d → ℝ) × ℝ) → Fin n) (b : ℕ) (x : ℕ → Fin d → ℝ) (r : ℕ → Fin n → ℝ) :
    ℕ → List (ℤ × (Fin d → ℝ) × ℝ)
  | 0 => []
  | T + 1 =>
    let h := ctxHist pick b x r T
    let a := pick T (completed b h)
    h ++ [((a.val : ℤ), x T, r T a)]

/-- the action of round `t` -/
noncomputable def ctxAction (pick : ℕ → List (ℤ × (Fin d → ℝ) × ℝ) → Fin n) (b : ℕ) (x : ℕ → Fin d → ℝ) (r : ℕ → Fin n → ℝ)
    (t : ℕ) : Fin n := pick t (completed b (ctxHist pick b x r t))

section
variable (pick : ℕ → List (ℤ × (Fin d → ℝ) × ℝ) → Fin n) (b : ℕ) (x : ℕ → Fin d → ℝ) (r : ℕ → Fin n → ℝ)

theorem ctxHist_succ (t : ℕ) : ctxHist pick b x r (t + 1) = ctxHist pick b x r t ++
    [(((ctxAction pick b x r t).val : ℤ), x t, r t (ctxAction pick b x r t))] := rfl

theorem ctxHist_length (t : ℕ) : (ctxHist pick b x r t).length = t := by
  induction t with
  | zero => rfl
  | succ t ih => rw [ctxHist_succ, List.length_append, ih, List.length_singleton]

theorem mem_ctxHist {t : ℕ} {q : ℤ × (Fin d → ℝ) × ℝ} (hq : q ∈ ctxHist pick b x r t) :
    ∃ s < t, q = (((ctxAction pick b x r s).val : ℤ), x s, r s (ctxAction pick b x r s)) := by
  induction t with
  | zero => simp [ctxHist] at hq
  | succ t ih =>
    rw [ctxHist_succ] at hq
    rcases List.mem_append.1 hq with h | h
    · obtain ⟨s, hs, h⟩ := ih h
      exact ⟨s, hs.trans t.lt_succ_self, h⟩
    · exact ⟨t, t.lt_succ_self, List.mem_singleton.1 h⟩

theorem dataOf_ctxHist (a : Fin n) (t : ℕ) :
    dataOf (ctxHist pick b x r t) a = pickData x (fun s => ctxAction pick b x r s = a) (fun s => r s a) t := by
  induction t with
  | zero => rfl
  | succ t ih =>
    rw [ctxHist_succ, dataOf_append]
    by_cases ht : ctxAction pick b x r t = a
    · rw [pickData_pos (A := fun s => ctxAction pick b x r s = a) ht, ih, if_pos (by rw [ht]; exact Or.inl rfl), ht]
    · rw [pickData_neg (A := fun s => ctxAction pick b x r s = a) ht, ih, if_neg]
      exact fun h' => ht (Names.unique (Or.inl rfl) h')

theorem ctxHist_take {s t : ℕ} (h : s ≤ t) : (ctxHist pick b x r t).take s = ctxHist pick b x r s := by
  induction t, h using Nat.le_induction with
  | base => exact List.take_of_length_le (ctxHist_length pick b x r s).le
  | succ t ht ih => rw [ctxHist_succ, List.take_append_of_le_length (by rw [ctxHist_length]; exact ht), ih]

theorem completed_ctxHist (t : ℕ) : completed b (ctxHist pick b x r t) = ctxHist pick b x r (b * (t / b)) := by
  unfold completed
  rw [ctxHist_length, ctxHist_take]
  exact Nat.mul_div_le t b

/-- the squared bonus of an action in round `t` -/
noncomputable def ctxQuad (a : Fin n) (t : ℕ) : ℝ := quad (dataOf (completed b (ctxHist pick b x r t)) a) (x t)

theorem ctxQuad_nonneg (a : Fin n) (t : ℕ) : 0 ≤ ctxQuad pick b x r a t := quad_nonneg _ _

theorem ctxQuad_le (a : Fin n) (t : ℕ) : ctxQuad pick b x r a t ≤ x t ⬝ᵥ x t := quad_le_self _ _

/-- The squared bonuses of the actions played have a small sum. -/
theorem sum_ctxQuad_le (hb : 0 < b) {X : ℝ} (hX0 : 0 ≤ X) (hX : ∀ t, x t ⬝ᵥ x t ≤ X) (T : ℕ) :
    ∑ t ∈ Finset.range T, ctxQuad pick b x r (ctxAction pick b x r t) t ≤
      (1 + (b - 1) * X) * ((1 + X) * (n * (d * Real.log (1 + T * X / d)))) := by
  have hmem : ∀ t, ∀ q ∈ ctxHist pick b x r t, q.2.1 ⬝ᵥ q.2.1 ≤ X := by
    intro t q hq
    obtain ⟨s, -, rfl⟩ := mem_ctxHist pick b x r hq
    exact hX s
  have hc : 0 ≤ 1 + ((b : ℝ) - 1) * X := by
    have : (1 : ℝ) ≤ b := by exact_mod_cast hb
    have := mul_nonneg (sub_nonneg.2 this) hX0
    linarith
  have h1 : ∑ t ∈ Finset.range T, ctxQuad pick b x r (ctxAction pick b x r t) t ≤ (1 + (b - 1) * X) * ((1 + X) *
      (potential n (ctxHist pick b x r T) - potential n (ctxHist pick b x r 0))) := by
    rw [← Finset.sum_range_sub (fun t => potential n (ctxHist pick b x r t)), Finset.mul_sum, Finset.mul_sum]
    refine Finset.sum_le_sum fun t _ => ?_
    exact stale_quad_le hb _ hX0 (hmem t) _ _ (hX t) _
  have h0 : potential n (ctxHist pick b x r 0) = 0 := by
    simp [potential, ctxHist, dataOf, gram]
  rw [h0, sub_zero] at h1
  refine h1.trans (mul_le_mul_of_nonneg_left (mul_le_mul_of_nonneg_left ?_ (by linarith)) hc)
  have := potential_le (n := n) (ctxHist pick b x r T) hX0 (hmem T)
  rwa [ctxHist_length] at this

end

/-- With high probability all confidence bounds hold, whatever the rule. -/
theorem pick_confidence {Ω : Type} [mΩ : MeasurableSpace Ω] {P : Measure Ω} [IsProbabilityMeasure P] (hn : 0 < n)
    {F : ℕ → MeasurableSpace Ω} (x : ℕ → Fin d → ℝ) (act : ℕ → Ω → Fin n) (r : ℕ → Ω → Fin n → ℝ)
    {σ : ℝ≥0} (hσ : 0 < σ) {X δ : ℝ} (hX0 : 0 ≤ X) (hX : ∀ t, x t ⬝ᵥ x t ≤ X) (θ : Fin n → Fin d → ℝ)
    (hact : ∀ t, Measurable[F t] (act t)) (had : ∀ a, Adaptive P F (fun t ω => r t ω a - x t ⬝ᵥ θ a) σ) (hδ : 0 < δ) (T : ℕ) :
    P {ω | ¬ ∀ t ≤ T, ∀ a,
        √(quad (pickData x (fun s => act s ω = a) (fun s => r s ω a) t)
          (noiseOf (pickData x (fun s => act s ω = a) (fun s => r s ω a) t) (θ a))) ≤
        σ * √(d * Real.log (1 + T * X / d) + 2 * Real.log (n / δ))} ≤ ENNReal.ofReal δ := by
  have hn' : (0 : ℝ) < n := by exact_mod_cast hn
  have hδn : 0 < δ / n := div_pos hδ hn'
  set A : Fin n → ℕ → Ω → Prop := fun a s ω => act s ω = a with hAdef
  have hA : ∀ a t, MeasurableSet[F t] {ω | A a t ω} := fun a t => (hact t) (measurableSet_singleton a)
  set bad : Fin n → Set Ω := fun a => {ω | ∃ s ≤ T, (σ : ℝ) ^ 2 *
    (Real.log (gram (pickData x (fun s => A a s ω) (fun s => r s ω a - x s ⬝ᵥ θ a) s)).det + 2 * Real.log (1 / (δ / n))) <
      quad (pickData x (fun s => A a s ω) (fun s => r s ω a - x s ⬝ᵥ θ a) s)
        (moment (pickData x (fun s => A a s ω) (fun s => r s ω a - x s ⬝ᵥ θ a) s))} with hbad
  have hPbad : ∀ a, P (bad a) ≤ ENNReal.ofReal (δ / n) := fun a => (had a).noise_bound hσ x (hA a) hδn T
  have hlen : ∀ (B : ℕ → Prop) (y : ℕ → ℝ) (t : ℕ), (pickData x B y t).length ≤ t ∧ ∀ p ∈ pickData x B y t, p.1 ⬝ᵥ p.1 ≤ X := by
    intro B y t
    induction t with
    | zero => exact ⟨le_rfl, by simp [pickData]⟩
    | succ t ih =>
      by_cases ht : B t
      · rw [pickData_pos ht]
        refine ⟨by rw [List.length_append, List.length_singleton]; omega, fun p hp => ?_⟩
        rcases List.mem_append.1 hp with h | h
        · exact ih.2 p h
        · rw [List.mem_singleton.1 h]; exact hX t
      · rw [pickData_neg ht]
        exact ⟨by omega, ih.2⟩
  refine (measure_mono (t := ⋃ a, bad a) ?_).trans ((measure_iUnion_le _).trans ?_)
  · intro ω hω
    by_contra hgood
    refine hω fun t ht a => ?_
    have hga : ω ∉ bad a := fun h' => hgood (Set.mem_iUnion.2 ⟨a, h'⟩)
    rw [noiseOf_pickData]
    set D := pickData x (fun s => A a s ω) (fun s => r s ω a - x s ⬝ᵥ θ a) t with hD
    have hquad : quad (pickData x (fun s => act s ω = a) (fun s => r s ω a) t) (moment D) = quad D (moment D) :=
      quad_congr (pickData_gram x _ _ fun _ _ => Iff.rfl) _
    have hle : quad D (moment D) ≤ (σ : ℝ) ^ 2 * (Real.log (gram D).det + 2 * Real.log (1 / (δ / n))) := by
      by_contra h'
      exact hga ⟨t, ht, not_le.1 h'⟩
    have hlog : Real.log (gram D).det ≤ d * Real.log (1 + T * X / d) := by
      obtain ⟨h1, h2⟩ := hlen (fun s => A a s ω) (fun s => r s ω a - x s ⬝ᵥ θ a) t
      refine (log_det_gram_le (X := X) _ h2).trans ?_
      have : ((pickData x (fun s => A a s ω) (fun s => r s ω a - x s ⬝ᵥ θ a) t).length : ℝ) ≤ T := by
        exact_mod_cast h1.trans ht
      gcongr
    have e : (1 : ℝ) / (δ / n) = n / δ := by rw [one_div_div]
    rw [e] at hle
    have h2 : quad D (moment D) ≤ (σ : ℝ) ^ 2 * (d * Real.log (1 + T * X / d) + 2 * Real.log (n / δ)) :=
      hle.trans (mul_le_mul_of_nonneg_left (by linarith) (by positivity))
    have h3 := Real.sqrt_le_sqrt h2
    rw [Real.sqrt_mul (by positivity), Real.sqrt_sq NNReal.zero_le_coe] at h3
    exact le_trans (le_of_eq (congrArg Real.sqrt hquad)) h3
  · rw [tsum_fintype]
    refine (Finset.sum_le_sum fun a _ => hPbad a).trans ?_
    rw [Finset.sum_const, Finset.card_univ, Fintype.card_fin, nsmul_eq_mul, ← ENNReal.ofReal_natCast,
      ← ENNReal.ofReal_mul (Nat.cast_nonneg n), mul_div_cancel₀ _ hn'.ne']

/-- The simulator after `T` rounds, for a class whose selections follow the rule; `ρ` tells the state of the generator. -/
theorem simRun_ctx {cfg : CfConfig} (ops : GaussRng R) (argsort : List ℝ → List ℕ) (cl : LinClass)
    (pick : ℕ → List (ℤ × (Fin d → ℝ) × ℝ) → Fin cfg.nActions) (x : ℕ → Fin d → ℝ) (r : ℕ → Fin cfg.nActions → ℝ) (ρ : ℕ → R)
    (hρ : ops.seeded = ρ 0)
    (hsel : ∀ t h (s : LinState R cfg.nActions d), LinInv cfg.batchSize h s → s.rng = ρ t →
      ∃ rest s', cl.select ops argsort cfg.lenList s [x t] = (.ok ((pick t (completed cfg.batchSize h)).val :: rest), s') ∧
        LinInv cfg.batchSize h s' ∧ s'.rng = ρ (t + 1)) (T : ℕ) :
    ∃ s, simRun (linPolicy ops argsort cfg cl) (LinState.init ops.toRng cfg.nActions d) (simSteps (linRounds x r T)) = .ok s ∧
      LinInv cfg.batchSize (ctxHist pick cfg.batchSize x r T) s.policy ∧ s.policy.rng = ρ T ∧
      s.selected = (List.range T).map (fun t => ((ctxAction pick cfg.batchSize x r t).val : ℤ)) ∧
      s.total = ∑ t ∈ Finset.range T, r t (ctxAction pick cfg.batchSize x r t) := by
  induction T with
  | zero =>
    exact ⟨simInit (LinState.init ops.toRng cfg.nActions d), rfl, linInv_init ops.toRng _ _ _, hρ, rfl, by simp [simInit]⟩
  | succ T ih =>
    obtain ⟨s, h1, hi, hr, h3, h4⟩ := ih
    set act := ctxAction pick cfg.batchSize x r T with hact
    set h := ctxHist pick cfg.batchSize x r T with hh
    obtain ⟨rest, s', hs', hi', hr'⟩ := hsel T h s.policy hi hr
    have hsel' : (linPolicy ops argsort cfg cl).select s.policy (some (SimContext.vec (List.ofFn (x T))).expand) =
        .ok ((act.val :: rest).map fun (a : ℕ) => (a : ℤ), s') := by
      simp only [linPolicy, SimContext.expand, contextRows_vec, hs']
      rfl
    have hsim : simSelect (linPolicy ops argsort cfg cl) (.vec (List.ofFn (x T))) s.policy = .ok ((act.val : ℤ), s') := by
      have hk : (linPolicy (d := d) ops argsort cfg cl).kind = .contextual := rfl
      simp only [simSelect, hk, hsel']
      rfl
    have hidx : npIndex (List.ofFn (r T)) (act.val : ℤ) = .ok (r T act) := by
      unfold npIndex
      simp [wrapIdx]
    obtain ⟨hok, hinv⟩ := hi'.update (z := (act.val : ℤ)) (r T act) (x T) (by have := act.isLt; omega)
      (by have := act.isLt; omega)
    have hrng : (LinState.updateParams cfg.batchSize s' (act.val : ℤ) (r T act) (x T)).2.rng = s'.rng := by
      unfold LinState.updateParams
      dsimp only
      split
      · rfl
      · split
        · rfl
        · split <;> rfl
    have hupd : (linPolicy ops argsort cfg cl).update s'
        (some (SimContext.vec (List.ofFn (x T))).expand) (act.val : ℤ) (r T act) =
        .ok (LinState.updateParams cfg.batchSize s' (act.val : ℤ) (r T act) (x T)).2 := by
      simp only [linPolicy, SimContext.expand, contextRows_vec]
      revert hok
      rcases LinState.updateParams cfg.batchSize s' (act.val : ℤ) (r T act) (x T) with ⟨o, p⟩
      rintro rfl
      rfl
    have hk : (linPolicy (d := d) ops argsort cfg cl).kind = .contextual := rfl
    have hstep : simStep (linPolicy ops argsort cfg cl) ⟨.vec (List.ofFn (x T)), List.ofFn (r T), none⟩ s =
        .ok { s with
          policy := (LinState.updateParams cfg.batchSize s' (act.val : ℤ) (r T act) (x T)).2
          contexts := s.contexts ++ [.vec (List.ofFn (x T))]
          groundTruth := s.groundTruth ++ [List.ofFn (r T)]
          selected := s.selected ++ [(act.val : ℤ)]
          obtained := s.obtained ++ [r T act]
          total := s.total + r T act
          played := s.played + 1 } := by
      simp only [simStep, hsim, bind, Except.bind, simRoundUpdate, simUpdate, hk, hidx, hupd, pure, Except.pure]
    have hlast : simRun (linPolicy ops argsort cfg cl) (LinState.init ops.toRng cfg.nActions d)
        (simSteps (linRounds x r (T + 1))) =
        simStep (linPolicy ops argsort cfg cl) ⟨.vec (List.ofFn (x T)), List.ofFn (r T), none⟩ s := by
      simp only [simRun, simSteps, linRounds, List.range_succ, List.map_append, List.foldlM_append] at h1 ⊢
      rw [h1]
      simp only [bind, Except.bind, List.map_cons, List.map_nil, List.foldlM_cons, List.foldlM_nil, simOp, pure, Except.pure]
      cases simStep (linPolicy ops argsort cfg cl) ⟨.vec (List.ofFn (x T)), List.ofFn (r T), none⟩ s <;> rfl
    rw [hstep] at hlast
    refine ⟨_, hlast, hinv, hrng.trans hr', ?_, ?_⟩
    · simp only [h3, List.range_succ, List.map_append, List.map_cons, List.map_nil]
      rfl
    · simp only [h4, Finset.sum_range_succ]
      rfl

end Obp
