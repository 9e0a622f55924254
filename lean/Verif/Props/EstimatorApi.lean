import Verif.Lemmas.Rounds
import Verif.Lemmas.Avg
import Verif.Props.EstimatorValues
import Verif.Props.EstimatorLaws
import Verif.Props.Bootstrap

/-!
# C26-C30 (and the interval part of C15): API-level properties shared by the eleven estimators
-/

set_option linter.unusedSectionVars false

namespace Obp
open Log

variable {K : Type} [Field K] [LinearOrder K] [IsStrictOrderedRing K]
variable {n A L : ℕ} {g : Log K n A L}

/-! ### C26: order of the rounds -/

/-- The log whose round `i` is round `σ i` of `g`. -/
def Log.permute (g : Log K n A L) (σ : Equiv.Perm (Fin n)) : Log K n A L where
  action i := g.action (σ i)
  reward i := g.reward (σ i)
  pscore i := g.pscore (σ i)
  estPscore i := g.estPscore (σ i)
  position i := g.position (σ i)
  piE i := g.piE (σ i)
  q i := g.q (σ i)
  estIw i := g.estIw (σ i)

theorem permute_valid (h : g.Valid) (σ : Equiv.Perm (Fin n)) : (g.permute σ).Valid :=
  ⟨h.1, fun i => h.2 (σ i), fun i => h.3 (σ i), fun i => h.4 (σ i), fun i => h.5 (σ i)⟩

theorem exists_perm {p : Fin n → Prop} (σ : Equiv.Perm (Fin n)) :
    (∃ i, p (σ i)) ↔ ∃ i, p i := σ.surjective.exists.symm

theorem roundReward_permute (e : Estimator K) (σ : Equiv.Perm (Fin n)) :
    roundReward e (g.permute σ) = (roundReward e g).map fun f i => f (σ i) := by
  obtain ⟨k, lam, est⟩ := e
  have hm : ∀ i, (g.permute σ).matched i = g.matched (σ i) := fun i => rfl
  have hw : ∀ i, (g.permute σ).weight est i = g.weight est (σ i) := fun i => rfl
  have hv : ∀ i, (g.permute σ).modelValue i = g.modelValue (σ i) := fun i => rfl
  have hr : ∀ i, (g.permute σ).residual i = g.residual (σ i) := fun i => rfl
  have haw : avg ((g.permute σ).weight est) = avg (g.weight est) :=
    avg_equiv σ (g.weight est)
  cases k
  case rm =>
    simp only [roundReward, hm, Option.map_some]
    congr 1; funext i
    have h1 : (∃ i, g.matched (σ i)) ↔ ∃ i, g.matched i := exists_perm σ
    have h2 := avg_equiv σ fun i => if g.matched i then (1 : K) else 0
    simp only [h1, h2]; rfl
  case ipw => rfl
  case snipw =>
    simp only [roundReward, haw]
    split <;> rfl
  case dm => rfl
  case dr => rfl
  case sndr =>
    simp only [roundReward, haw]
    split <;> rfl
  case switchDr => rfl
  case drOs =>
    cases lam with
    | inf => rfl
    | fin l =>
      simp only [roundReward, hw]
      have hp := exists_perm σ (p := fun i => g.weight est i ^ 2 + l = 0)
      by_cases hc : ∃ i, g.weight est i ^ 2 + l = 0
      · rw [if_pos hc, if_pos (hp.2 hc)]; rfl
      · rw [if_neg hc, if_neg (fun h => hc (hp.1 h))]; rfl
  case sgIpw =>
    cases lam with
    | inf => rfl
    | fin l =>
      simp only [roundReward, hw]
      have hp := exists_perm σ (p := fun i => 1 - l + l * g.weight est i = 0)
      by_cases hc : ∃ i, 1 - l + l * g.weight est i = 0
      · rw [if_pos hc, if_pos (hp.2 hc)]; rfl
      · rw [if_neg hc, if_neg (fun h => hc (hp.1 h))]; rfl
  case sgDr =>
    cases lam with
    | inf => rfl
    | fin l =>
      simp only [roundReward, hw]
      have hp := exists_perm σ (p := fun i => 1 - l + l * g.weight est i = 0)
      by_cases hc : ∃ i, 1 - l + l * g.weight est i = 0
      · rw [if_pos hc, if_pos (hp.2 hc)]; rfl
      · rw [if_neg hc, if_neg (fun h => hc (hp.1 h))]; rfl
  case bIpw =>
    have h2 : avg (fun i => lam.clip ((g.permute σ).estIw i)) = avg fun i => lam.clip (g.estIw i) :=
      avg_equiv σ fun i => lam.clip (g.estIw i)
    simp only [roundReward, h2]
    split <;> rfl

/-- **C26.** For each of the eleven estimators, reordering the rounds does not change the outcome of
`estimate_policy_value` (neither the value nor whether it is finite). -/
theorem C26_order_irrelevant (h : g.Valid) (e : Estimator K) (σ : Equiv.Perm (Fin n)) :
    e.estimatePolicyValue (g.permute σ).args = e.estimatePolicyValue g.args := by
  rw [value_eq_rounds, value_eq_rounds, rounds_eq h, rounds_eq (permute_valid h σ),
    roundReward_permute]
  cases roundReward e g with
  | none => rfl
  | some f =>
    simp only [Option.map_some, roundOutcome, py_bind_ok]
    rw [npMean_avg h, npMean_avg h, avg_equiv σ f]

example : (exLog.permute (Equiv.swap 0 2)).args.reward = .flt [4, 2, 1] ∧
    exLog.args.reward = .flt [1, 2, 4] := ⟨rfl, rfl⟩

/-! ### C27: `estimate_interval` -/

/-- **C27.** For every estimator and every argument set, either both `estimate_policy_value` and
`estimate_interval` raise the same exception, or there are per-round values whose mean is the policy
value and which are exactly the samples bootstrapped by `estimate_interval`. -/
theorem C27_interval_same_rounds [FloorRing K] (e : Estimator K) (a : EstArgs K) :
    (∃ samples : List K, e.estimatePolicyValue a = npMean samples ∧
      ∀ c draws, e.estimateInterval a c draws = bootstrapCI samples c draws) ∨
    ∃ err, e.estimatePolicyValue a = .error err ∧
      ∀ c draws, e.estimateInterval a c draws = .error err := by
  cases hr : (do let r ← e.prepare a; e.round r) with
  | ok s =>
    exact Or.inl ⟨s, by rw [value_eq_rounds, hr]; rfl,
      fun c draws => by rw [interval_eq_rounds, hr]; rfl⟩
  | error err =>
    exact Or.inr ⟨err, by rw [value_eq_rounds, hr]; rfl,
      fun c draws => by rw [interval_eq_rounds, hr]; rfl⟩

/-- **C27.** On a valid log: if the value is finite then with every draw `estimate_interval`
succeeds, has ordered bounds, and mean and bounds lie in any range containing the per-round values
`s`, whose mean is the estimate. -/
theorem C27_interval_brackets [FloorRing K] (h : g.Valid) (e : Estimator K) {v : K}
    (hv : e.estimatePolicyValue g.args = .ok v) :
    ∃ s : Fin n → K, v = avg s ∧ ∀ (alpha : K) (nBoot : ℕ) (draws : List (List ℕ)),
      0 ≤ alpha → alpha ≤ 1 → 1 ≤ nBoot → ValidDraws n nBoot draws →
      ∃ o, e.estimateInterval g.args (ciCall alpha nBoot) draws = .ok o ∧ o.lower ≤ o.upper ∧
        ∀ lo hi, (∀ i, lo ≤ s i ∧ s i ≤ hi) →
          lo ≤ o.lower ∧ o.upper ≤ hi ∧ lo ≤ o.mean ∧ o.mean ≤ hi := by
  rw [value_eq_rounds, rounds_eq h] at hv
  cases hf : roundReward e g with
  | none => rw [hf] at hv; simp [roundOutcome] at hv
  | some s =>
    rw [hf] at hv
    simp only [roundOutcome, py_bind_ok, npMean_avg h, Except.ok.injEq] at hv
    refine ⟨s, hv.symm, fun alpha nBoot draws h0 h1 hb hd => ?_⟩
    have hne : List.ofFn s ≠ [] := by
      have := h.nonempty
      intro h'; have := congrArg List.length h'; simp at this; omega
    obtain ⟨o, ho, hlu, hr⟩ := C03_ci_ordered_in_range hne h0 h1 hb
      (by rwa [List.length_ofFn] : ValidDraws (List.ofFn s).length nBoot draws)
    refine ⟨o, ?_, hlu, fun lo hi hs => hr lo hi fun x hx => ?_⟩
    · rw [interval_eq_rounds, rounds_eq h, hf]; exact ho
    · obtain ⟨i, rfl⟩ := List.mem_ofFn.1 hx; exact hs i

/-- **C15 (intervals).** On-policy, the bootstrapped samples of IPW are the rewards themselves. -/
theorem C15_ipw_interval_onPolicy [FloorRing K] (h : g.Valid) (ho : g.OnPolicy) (c : CiArgs K)
    (draws : List (List ℕ)) :
    (Estimator.mk .ipw .inf false).estimateInterval g.args c draws =
      bootstrapCI (List.ofFn g.reward) c draws := by
  rw [interval_eq_rounds, rounds_eq h]
  simp [roundReward, roundOutcome, Lam.clip, onPolicy_weight h ho]

/-- Estimators and settings for which the on-policy estimate is the mean reward: IPW without clipping below 1, SNIPW, SGIPW, DR
without clipping and with predictions 0, and balanced IPW with estimated weights 1. -/
def Estimator.OnPolicyExact (e : Estimator K) (g : Log K n A L) : Prop :=
  (e.kind = .ipw ∧ e.useEstimatedPscore = false ∧ ∀ l, e.lam = .fin l → 1 ≤ l) ∨
  (e.kind = .snipw ∧ e.useEstimatedPscore = false) ∨
  (e.kind = .sgIpw ∧ e.useEstimatedPscore = false ∧ ∃ l, e.lam = .fin l) ∨
  (e.kind = .dr ∧ e.useEstimatedPscore = false ∧ e.lam = .inf ∧ ∀ i a l, g.q i a l = 0) ∨
  (e.kind = .bIpw ∧ (∀ i, g.estIw i = 1) ∧ ∀ l, e.lam = .fin l → 0 < l)

/-- **C15 (all estimators).** On-policy the estimate is the mean logged reward, and what is bootstrapped for the interval are
the rewards themselves. -/
theorem C15_onPolicy_rewards [FloorRing K] (h : g.Valid) (ho : g.OnPolicy) {e : Estimator K} (he : e.OnPolicyExact g) :
    e.estimatePolicyValue g.args = .ok (avg g.reward) ∧
      ∀ c draws, e.estimateInterval g.args c draws = bootstrapCI (List.ofFn g.reward) c draws := by
  have hw := onPolicy_weight h ho
  have hr : roundReward e g = some g.reward := by
    obtain ⟨k, lam, est⟩ := e
    rcases he with ⟨rfl, rfl, hl⟩ | ⟨rfl, rfl⟩ | ⟨rfl, rfl, l, rfl⟩ | ⟨rfl, rfl, rfl, hq⟩ | ⟨rfl, hiw, hl⟩
    · cases lam with
      | inf => simp [roundReward, hw, Lam.clip]
      | fin l => simp [roundReward, hw, Lam.clip, hl l rfl]
    · have h1 : avg (g.weight false) = 1 := by rw [avg_congr hw, avg_const h.nonempty]
      simp [roundReward, h1, hw]
    · simp [roundReward, hw]
    · simp [roundReward, hw, Lam.clip, modelValue, residual, hq]
    · have hc : ∃ c : K, 0 < c ∧ ∀ i, lam.clip (g.estIw i) = c := by
        cases lam with
        | inf => exact ⟨1, one_pos, fun i => by simp [Lam.clip, hiw]⟩
        | fin l => exact ⟨min 1 l, lt_min one_pos (hl l rfl), fun i => by simp [Lam.clip, hiw]⟩
      obtain ⟨c, hc0, hc⟩ := hc
      have h1 : avg (fun _ : Fin n => c) = c := avg_const h.nonempty c
      simp [roundReward, h1, hc, hc0.ne']
  refine ⟨?_, fun c draws => ?_⟩
  · rw [value_eq_rounds, rounds_eq h, hr]
    exact npMean_avg h _
  · rw [interval_eq_rounds, rounds_eq h, hr]
    rfl

example : ∀ e ∈ [Estimator.mk .ipw (.fin 2) false, .mk .snipw .inf false, .mk .sgIpw (.fin (1 / 2)) false, .mk .dr .inf false,
    .mk .bIpw (.fin (1 / 2)) false], e.OnPolicyExact exOnPolicy := by
  intro e he
  simp only [List.mem_cons, List.not_mem_nil, or_false] at he
  rcases he with rfl | rfl | rfl | rfl | rfl
  · exact Or.inl ⟨rfl, rfl, by rintro l h; cases h; norm_num⟩
  · exact Or.inr (Or.inl ⟨rfl, rfl⟩)
  · exact Or.inr (Or.inr (Or.inl ⟨rfl, rfl, _, rfl⟩))
  · exact Or.inr (Or.inr (Or.inr (Or.inl ⟨rfl, rfl, rfl, fun _ _ _ => rfl⟩)))
  · exact Or.inr (Or.inr (Or.inr (Or.inr ⟨rfl, by decide +kernel, by rintro l h; cases h; norm_num⟩)))

/-- **C16 (per round).** In the three cases of C16 the per-round values agree: bootstrapped with the same draws, the intervals
are the same. -/
theorem C16_same_rounds [FloorRing K] (h : g.Valid) (est : Bool) (lam lam' : Lam K) (c : CiArgs K) (draws : List (List ℕ)) :
    ((∀ i a l, g.q i a l = 0) → (Estimator.mk .dr lam est).estimateInterval g.args c draws =
        (Estimator.mk .ipw lam est).estimateInterval g.args c draws) ∧
      (g.NonnegPolicy → (Estimator.mk .dr (.fin 0) est).estimateInterval g.args c draws =
        (Estimator.mk .dm lam' est).estimateInterval g.args c draws) ∧
      ((∀ i, g.reward i = g.q i (g.action i) (g.position i)) → (Estimator.mk .dr lam est).estimateInterval g.args c draws =
        (Estimator.mk .dm lam' est).estimateInterval g.args c draws) := by
  refine ⟨fun hq => ?_, fun hE => ?_, fun hr => ?_⟩
  · rw [interval_eq_rounds, interval_eq_rounds, rounds_eq h, rounds_eq h]
    congr 2
    simp [roundReward, modelValue, hq, residual, mul_comm]
  · rw [interval_eq_rounds, interval_eq_rounds, rounds_eq h, rounds_eq h]
    congr 2
    simp [roundReward, Lam.clip, weight_nonneg h hE]
  · rw [interval_eq_rounds, interval_eq_rounds, rounds_eq h, rounds_eq h]
    congr 2
    simp [roundReward, residual, hr]

/-- **C21 (per round).** Switch-DR at a threshold above all weights has the per-round values of unclipped DR, and at a threshold
below all weights those of DM. -/
theorem C21_same_rounds [FloorRing K] (h : g.Valid) (est : Bool) (l : K) (lam : Lam K) (c : CiArgs K) (draws : List (List ℕ)) :
    ((∀ i, g.weight est i ≤ l) → (Estimator.mk .switchDr (.fin l) est).estimateInterval g.args c draws =
        (Estimator.mk .dr .inf est).estimateInterval g.args c draws) ∧
      ((∀ i, l < g.weight est i) → (Estimator.mk .switchDr (.fin l) est).estimateInterval g.args c draws =
        (Estimator.mk .dm lam est).estimateInterval g.args c draws) := by
  refine ⟨fun hw => ?_, fun hw => ?_⟩
  · rw [interval_eq_rounds, interval_eq_rounds, rounds_eq h, rounds_eq h]
    congr 2
    simp [roundReward, Lam.geB, Lam.clip, hw]
  · rw [interval_eq_rounds, interval_eq_rounds, rounds_eq h, rounds_eq h]
    congr 2
    simp [roundReward, Lam.geB, fun i => not_le.2 (hw i)]

/-! ### C28: which propensities are used -/

/-- Estimator classes with the `use_estimated_pscore` field. -/
def Kind.UsesPscore : Kind → Prop
  | .rm | .dm | .bIpw => False
  | _ => True

/-- **C28.** With `use_estimated_pscore=True`, `pscore` is irrelevant (it may be absent or
malformed), for value and interval. -/
theorem C28_estimated_ignores_pscore [FloorRing K] (k : Kind) (lam : Lam K) (a : EstArgs K)
    (p : Arg1 K) (c : CiArgs K) (draws : List (List ℕ)) :
    (Estimator.mk k lam true).estimatePolicyValue { a with pscore := p } =
        (Estimator.mk k lam true).estimatePolicyValue a ∧
      (Estimator.mk k lam true).estimateInterval { a with pscore := p } c draws =
        (Estimator.mk k lam true).estimateInterval a c draws := by
  cases k <;> exact ⟨rfl, rfl⟩

/-- **C28.** With `use_estimated_pscore=False`, `estimated_pscore` is irrelevant. -/
theorem C28_logged_ignores_estimated [FloorRing K] (k : Kind) (lam : Lam K) (a : EstArgs K)
    (p : Arg1 K) (c : CiArgs K) (draws : List (List ℕ)) :
    (Estimator.mk k lam false).estimatePolicyValue { a with estimatedPscore := p } =
        (Estimator.mk k lam false).estimatePolicyValue a ∧
      (Estimator.mk k lam false).estimateInterval { a with estimatedPscore := p } c draws =
        (Estimator.mk k lam false).estimateInterval a c draws := by
  cases k <;> exact ⟨rfl, rfl⟩

/-- **C28.** `use_estimated_pscore=True` means: the same computation with `estimated_pscore` in the
place of `pscore`. -/
theorem C28_estimated_used (k : Kind) (lam : Lam K) (a : EstArgs K) :
    (Estimator.mk k lam true).estimatePolicyValue a =
      (Estimator.mk k lam false).estimatePolicyValue { a with pscore := a.estimatedPscore } := by
  cases k <;> rfl

/-- **C28.** A missing required array raises ValueError before anything else can go wrong. -/
theorem C28_missing_raises {k : Kind} (hk : k.UsesPscore) (lam : Lam K) (a : EstArgs K) :
    (a.estimatedPscore = .none →
      (Estimator.mk k lam true).estimatePolicyValue a = .error .valueError) ∧
    (a.pscore = .none → (Estimator.mk k lam false).estimatePolicyValue a = .error .valueError) := by
  have hip : ∀ est, (if est then a.estimatedPscore else a.pscore) = .none →
      ipwPrepare est a = .error .valueError := by
    intro est h
    unfold ipwPrepare choosePscore
    rcases a with ⟨r, ac, d, p, ps, ep, q, w⟩
    cases r <;> cases ac <;> cases est <;> simp_all [checkArray1]
  have hdr : ∀ est, (if est then a.estimatedPscore else a.pscore) = .none →
      drPrepare est a = .error .valueError := by
    intro est h
    unfold drPrepare choosePscore
    rcases a with ⟨r, ac, d, p, ps, ep, q, w⟩
    cases q <;> cases r <;> cases ac <;> cases est <;> simp_all [checkArray1, checkArray3]
  constructor
  · intro h
    cases k <;> first
      | exact hk.elim
      | (simp [Estimator.estimatePolicyValue, Estimator.prepare, hip true h]; done)
      | simp [Estimator.estimatePolicyValue, Estimator.prepare, hdr true h]
  · intro h
    cases k <;> first
      | exact hk.elim
      | (simp [Estimator.estimatePolicyValue, Estimator.prepare, hip false h]; done)
      | simp [Estimator.estimatePolicyValue, Estimator.prepare, hdr false h]

example : (Estimator.mk .ipw .inf true).estimatePolicyValue exLog.args ≠
    (Estimator.mk .ipw .inf false).estimatePolicyValue exLog.args := by
  rw [value_ipw exLog_valid, value_ipw exLog_valid]; decide +kernel

/-! ### C29: omitted positions -/

theorem checkPosition_none {x : Arr3 K} (h : x.L ≤ 1) : checkPosition x .none = .ok () := by
  simp [checkPosition, Arg1.isNone, raiseIf, h]

theorem zeros_eq_position (g : Log K n A 1) :
    (List.ofFn fun i => ((g.position i : ℕ) : ℤ)) = List.replicate n 0 := by
  rw [List.eq_replicate_iff]
  refine ⟨by simp, fun z hz => ?_⟩
  obtain ⟨i, rfl⟩ := List.mem_ofFn.1 hz
  simp

/-- **C29.** With a single position (`len_list = 1`), calling any of the eleven estimators with
`position=None` gives the outcome obtained with the all-zero position array. -/
theorem C29_position_none {g : Log K n A 1} (h : g.Valid) (e : Estimator K) :
    e.estimatePolicyValue { g.args with position := .none } = e.estimatePolicyValue g.args := by
  have hx : checkPosition (⟨n, A, 1, g.piE⟩ : Arr3 K) .none = .ok () := checkPosition_none le_rfl
  have hy : checkPosition (⟨n, A, 1, g.piE⟩ : Arr3 K)
      (.int (List.ofFn fun i => ((g.position i : ℕ) : ℤ))) = .ok () :=
    checkPosition_ofFn h.nonempty ⟨n, A, 1, g.piE⟩ rfl g.position
  rw [zeros_eq_position g] at hy
  have ha : g.args = { g.args with position := .int (List.replicate n 0) } := by
    simp only [args, zeros_eq_position g]
  have hprep : e.prepare { g.args with position := .none } = e.prepare g.args := by
    rw [ha]
    obtain ⟨k, lam, est⟩ := e
    cases k <;> cases est <;>
      simp [Estimator.prepare, rmPrepare, ipwPrepare, dmPrepare, drPrepare, bIpwPrepare, args,
        checkOpeInputs, checkArray3, checkArray1, choosePscore, hx, hy, positionOrZeros, Arg1.isNone,
        Arg1.ints]
  unfold Estimator.estimatePolicyValue
  rw [hprep]

/-- **C29.** With more than one position, omitting `position` raises ValueError in all classes. -/
theorem C29_position_required (h : g.Valid) (hL : 1 < L) (e : Estimator K) :
    e.estimatePolicyValue { g.args with position := .none } = .error .valueError := by
  have hx : checkPosition (⟨n, A, L, g.piE⟩ : Arr3 K) .none = .error .valueError := by
    simp [checkPosition, Arg1.isNone, raiseIf, hL]
  have hd : distSumsToOne (⟨n, A, L, g.piE⟩ : Arr3 K) = true := distSumsToOne_of h.sum_one
  have hprep : e.prepare { g.args with position := .none } = .error .valueError := by
    obtain ⟨k, lam, est⟩ := e
    cases k <;> cases est <;>
      simp [Estimator.prepare, rmPrepare, ipwPrepare, dmPrepare, drPrepare, bIpwPrepare, args,
        checkOpeInputs, checkArray3, checkArray1, choosePscore, hx, raiseIf, hd]
  unfold Estimator.estimatePolicyValue
  rw [hprep]; rfl

example := C29_position_none exOnPolicy_valid (Estimator.mk .sndr .inf false)
example := C29_position_required exLog_valid (by norm_num) (Estimator.mk .dm .inf false)

/-! ### C30: constructors -/

/-- The numeric value of a Python `int`, `float` or `bool` argument (with `np.inf`). -/
def PyScalar.toLam : PyScalar K → Option (Lam K)
  | .bool b => some (.fin (if b then 1 else 0))
  | .int z => some (.fin z)
  | .flt x => some (.fin x)
  | .inf => some .inf
  | _ => none

/-- `0 <= lambda_ <= inf`. -/
def Lam.Nonneg : Lam K → Prop
  | .fin x => 0 ≤ x
  | .inf => True

/-- `0 <= lambda_ <= 1`. -/
def Lam.InUnit : Lam K → Prop
  | .fin x => 0 ≤ x ∧ x ≤ 1
  | .inf => False

theorem checkLambda_ok (hi : Option K) (s : PyScalar K) (l : Lam K) :
    checkLambda hi s = .ok l ↔ s.toLam = some l ∧
      match hi with
      | none => l.Nonneg
      | some h => ∃ x, l = .fin x ∧ 0 ≤ x ∧ x ≤ h := by
  have key : ∀ x : K, checkLambda.checkFinite hi x = .ok l ↔ some (Lam.fin x) = some l ∧
      match hi with
      | none => l.Nonneg
      | some h => ∃ x, l = .fin x ∧ 0 ≤ x ∧ x ≤ h := by
    intro x
    unfold checkLambda.checkFinite
    by_cases hx : x < 0
    · rw [if_pos hx]
      simp only [reduceCtorEq, Option.some.injEq, false_iff, not_and]
      rintro rfl
      cases hi <;> simp [Lam.Nonneg, hx]
    · rw [if_neg hx]
      rw [not_lt] at hx
      cases hi with
      | none =>
        simp only [Except.ok.injEq, Option.some.injEq]
        constructor
        · rintro rfl; exact ⟨rfl, hx⟩
        · exact fun h => h.1
      | some h =>
        by_cases hh : h < x
        · simp only [hh, if_true, reduceCtorEq, Option.some.injEq, false_iff, not_and]
          rintro rfl
          simp [hh]
        · simp only [hh, if_false, Except.ok.injEq, Option.some.injEq]
          rw [not_lt] at hh
          constructor
          · rintro rfl; exact ⟨rfl, x, rfl, hx, hh⟩
          · exact fun h => h.1
  cases s with
  | bool b => exact key _
  | int z => exact key _
  | flt x => exact key _
  | inf => cases hi <;> cases l <;> simp [checkLambda, PyScalar.toLam, Lam.Nonneg]
  | negInf => simp [checkLambda, PyScalar.toLam]
  | nan => simp [checkLambda, PyScalar.toLam]
  | other => simp [checkLambda, PyScalar.toLam]

/-- Classes whose `lambda_` ranges over `[0, inf]` and that take `use_estimated_pscore`. -/
def Kind.unboundedLambda : Kind → Prop
  | .ipw | .snipw | .dr | .sndr | .switchDr | .drOs => True
  | _ => False

/-- **C30.** IPW, SNIPW, DR, SNDR, Switch-DR and DRos accept exactly `lambda_` in `[0, inf]` with a
Boolean `use_estimated_pscore`, and store what was given. -/
theorem C30_unbounded {k : Kind} (hk : k.unboundedLambda) (s : PyScalar K) (u : Option Bool)
    (e : Estimator K) :
    mkEstimator k s u = .ok e ↔
      e.kind = k ∧ s.toLam = some e.lam ∧ e.lam.Nonneg ∧ u = some e.useEstimatedPscore := by
  have key : mkEstimator.withFlag k s u none = .ok e ↔
      e.kind = k ∧ s.toLam = some e.lam ∧ e.lam.Nonneg ∧ u = some e.useEstimatedPscore := by
    obtain ⟨ek, el, eu⟩ := e
    unfold mkEstimator.withFlag
    simp only [py_bind_eq_ok, checkLambda_ok]
    cases u with
    | none => simp
    | some b =>
      simp only [py_pure, Except.ok.injEq, Estimator.mk.injEq, Option.some.injEq]
      constructor
      · rintro ⟨l, ⟨h1, h2⟩, rfl, rfl, rfl⟩; exact ⟨rfl, h1, h2, rfl⟩
      · rintro ⟨rfl, h1, h2, rfl⟩; exact ⟨el, ⟨h1, h2⟩, rfl, rfl, rfl⟩
  cases k <;> first | exact hk.elim | exact key

/-- **C30.** The sub-Gaussian classes accept exactly `lambda_` in `[0, 1]`. -/
theorem C30_unit {k : Kind} (hk : k = .sgIpw ∨ k = .sgDr) (s : PyScalar K) (u : Option Bool)
    (e : Estimator K) :
    mkEstimator k s u = .ok e ↔
      e.kind = k ∧ s.toLam = some e.lam ∧ e.lam.InUnit ∧ u = some e.useEstimatedPscore := by
  have key : mkEstimator.withFlag k s u (some 1) = .ok e ↔
      e.kind = k ∧ s.toLam = some e.lam ∧ e.lam.InUnit ∧ u = some e.useEstimatedPscore := by
    obtain ⟨ek, el, eu⟩ := e
    unfold mkEstimator.withFlag
    simp only [py_bind_eq_ok, checkLambda_ok]
    have hin : ∀ l : Lam K, (∃ x, l = .fin x ∧ 0 ≤ x ∧ x ≤ 1) ↔ l.InUnit := fun l => by
      cases l <;> simp [Lam.InUnit]
    cases u with
    | none => simp
    | some b =>
      simp only [py_pure, Except.ok.injEq, Estimator.mk.injEq, Option.some.injEq, hin]
      constructor
      · rintro ⟨l, ⟨h1, h2⟩, rfl, rfl, rfl⟩; exact ⟨rfl, h1, h2, rfl⟩
      · rintro ⟨rfl, h1, h2, rfl⟩; exact ⟨el, ⟨h1, h2⟩, rfl, rfl, rfl⟩
  rcases hk with rfl | rfl <;> exact key

/-- **C30.** Balanced IPW accepts exactly `lambda_` in `[0, inf]`. -/
theorem C30_bIpw (s : PyScalar K) (u : Option Bool) :
    (∃ e, mkEstimator .bIpw s u = .ok e) ↔ ∃ l : Lam K, s.toLam = some l ∧ l.Nonneg := by
  simp only [mkEstimator, py_bind_eq_ok, checkLambda_ok, py_pure, Except.ok.injEq]
  constructor
  · rintro ⟨e, l, h, -⟩; exact ⟨l, h⟩
  · rintro ⟨l, h⟩; exact ⟨_, l, h, rfl⟩

/-- **C30.** Negative numbers, nan and minus infinity raise ValueError, wrong types TypeError,
in every class with a hyperparameter. -/
theorem C30_rejects {k : Kind} (hk : k ≠ .rm ∧ k ≠ .dm) (u : Option Bool) :
    (∀ x : K, x < 0 → mkEstimator k (.flt x) u = .error .valueError) ∧
    mkEstimator k (.nan : PyScalar K) u = .error .valueError ∧
    mkEstimator k (.negInf : PyScalar K) u = .error .valueError ∧
    mkEstimator k (.other : PyScalar K) u = .error .typeError := by
  refine ⟨fun x hx => ?_, ?_, ?_, ?_⟩ <;> cases k <;>
    simp_all [mkEstimator, mkEstimator.withFlag, checkLambda, checkLambda.checkFinite]

example : mkEstimator (K := ℚ) .sgDr (.flt (1 / 2)) (some true) = .ok ⟨.sgDr, .fin (1 / 2), true⟩ := by
  rw [C30_unit (Or.inr rfl)]
  refine ⟨rfl, rfl, ⟨?_, ?_⟩, rfl⟩ <;> norm_num

end Obp
