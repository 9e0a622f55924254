import Verif.Props.EstimatorApi
import Verif.Props.Continuous
import Verif.Props.InputChecks
import Verif.Lemmas.Policy
import Verif.Model.Multi
import Verif.Model.Offline

set_option linter.unusedSectionVars false

/-!
# Constructors

C119 (kernelised estimators), C120 (offline learners), C30 for the multiple-logger estimators, C122
(validation with several loggers), C123 (validation split of the network learner).
-/

namespace Obp

/-! ### C119 -/

/-- The documented kernel names. -/
def Kernel.name : Kernel → String
  | .gaussian => "gaussian"
  | .epanechnikov => "epanechnikov"
  | .triangular => "triangular"
  | .cosine => "cosine"

/-- The number, infinity or nan given as bandwidth, if it is of a numeric type. -/
noncomputable def PyScalar.toBandwidth : PyScalar ℝ → Option Bandwidth
  | .bool b => some (.fin (if b then 1 else 0))
  | .int z => some (.fin z)
  | .flt x => some (.fin x)
  | .inf => some .inf
  | .nan => some .nan
  | _ => none

theorem ofName_iff (s : String) (k : Kernel) : Kernel.ofName s = some k ↔ s = k.name := by
  constructor
  · intro h
    unfold Kernel.ofName at h
    split at h <;> cases k <;> simp_all [Kernel.name]
  · rintro rfl
    cases k <;> rfl

/-- **C119.** The constructors of the kernelised estimators accept exactly the four documented kernel names together
with a bandwidth that is a number of at least zero, infinity or nan, and keep both. Missing from the documented claim: nan
and zero should be refused (`C119_nan_bandwidth`, `C39_zero_bandwidth`). -/
theorem C119_accept_iff_partial (s : String) (b : PyScalar ℝ) (k : Kernel) (h : Bandwidth) :
    mkKernelized s b = .ok (k, h) ↔
      s = k.name ∧ b.toBandwidth = some h ∧ ∀ x : ℝ, h = .fin x → 0 ≤ x := by
  unfold mkKernelized
  rw [← ofName_iff]
  cases hs : Kernel.ofName s with
  | none => simp
  | some k' =>
      cases b with
      | bool b => cases b <;> cases h <;> simp [PyScalar.toBandwidth, Prod.ext_iff] <;> grind
      | int z =>
          simp only [PyScalar.toBandwidth]
          have hz : (0 : ℝ) ≤ (z : ℝ) ↔ ¬ z < 0 := by rw [not_lt]; exact_mod_cast Iff.rfl
          by_cases h0 : z < 0
          · rw [if_pos h0]
            refine iff_of_false (by simp) ?_
            rintro ⟨-, h1, h2⟩
            simp only [Option.some.injEq] at h1
            exact (hz.1 (h2 _ h1.symm)) h0
          · rw [if_neg h0]
            cases h <;> grind
      | flt x =>
          simp only [PyScalar.toBandwidth]
          split <;> cases h <;> simp [Prod.ext_iff] <;> grind
      | inf => cases h <;> simp [PyScalar.toBandwidth]
      | negInf => simp [PyScalar.toBandwidth]
      | nan => cases h <;> simp [PyScalar.toBandwidth]
      | other => simp [PyScalar.toBandwidth]

/-- **C119.** Unknown kernels and negative bandwidths raise ValueError, other types of bandwidth TypeError. -/
theorem C119_refused (s : String) (b : PyScalar ℝ) :
    ((∀ k : Kernel, s ≠ k.name) → mkKernelized s b = .error .valueError) ∧
    (∀ k : Kernel, s = k.name →
      (∀ x : ℝ, x < 0 → b = .flt x → mkKernelized s b = .error .valueError) ∧
      (∀ z : ℤ, z < 0 → b = .int z → mkKernelized s b = .error .valueError) ∧
      (b = .negInf → mkKernelized s b = .error .valueError) ∧
      (b = .other → mkKernelized s b = .error .typeError)) := by
  constructor
  · intro h
    have : Kernel.ofName s = none := by
      cases hs : Kernel.ofName s with
      | none => rfl
      | some k => exact absurd ((ofName_iff s k).1 hs) (h k)
    unfold mkKernelized
    rw [this]
  · intro k hk
    have := (ofName_iff s k).2 hk
    unfold mkKernelized
    rw [this]
    refine ⟨fun x hx hb => ?_, fun z hz hb => ?_, fun hb => ?_, fun hb => ?_⟩ <;> subst hb
    · exact if_pos hx
    · exact if_pos hz
    · rfl
    · rfl

example : mkKernelized "cosine" (.int 2) = .ok (.cosine, .fin 2) := by
  rw [C119_accept_iff_partial]
  refine ⟨rfl, by simp [PyScalar.toBandwidth], fun x hx => ?_⟩
  simp only [Bandwidth.fin.injEq] at hx
  linarith

/-- **C119.** The bandwidth nan is accepted by the constructor, but no estimate is finite (for zero see
`C39_zero_bandwidth`). -/
theorem C119_nan_bandwidth {n : ℕ} {g : ContLog n} (hg : g.Valid) (k : ContKind) (ker : Kernel) :
    mkKernelized ker.name .nan = .ok (ker, .nan) ∧
    k.estimatePolicyValue ker .nan g.args = .error .nonFinite := by
  refine ⟨(C119_accept_iff_partial _ _ _ _).2 ⟨rfl, rfl, by simp⟩, ?_⟩
  unfold ContKind.estimatePolicyValue ContKind.round
  have : kernelArg .nan g.args = .error .nonFinite := by
    show (do let d ← bop (· - ·) (List.ofFn g.evalAction) (List.ofFn g.action); d.mapM _) = _
    rw [bop_ofFn, py_bind_ok]
    refine mapM_error_of (fun x _ => Or.inr rfl) ?_
    exact ⟨_, List.mem_ofFn.2 ⟨⟨0, hg.nonempty⟩, rfl⟩, rfl⟩
  rw [contLog_accepted hg, py_bind_ok, this]
  rfl

/-- **C119.** An infinite bandwidth is accepted, but then the kernelised IPW estimate is zero and the doubly robust one
the average of the predictions, whatever the logged rewards. -/
theorem C119_infinite_bandwidth {n : ℕ} {g : ContLog n} (hg : g.Valid) (ker : Kernel) :
    mkKernelized ker.name .inf = .ok (ker, .inf) ∧
    ContKind.ipw.estimatePolicyValue ker .inf g.args = .ok 0 ∧
    ContKind.dr.estimatePolicyValue ker .inf g.args = .ok ((∑ i, g.q i) / n) := by
  refine ⟨(C119_accept_iff_partial _ _ _ _).2 ⟨rfl, rfl, by simp⟩, ?_, ?_⟩
  all_goals
    unfold ContKind.estimatePolicyValue ContKind.round
    have hu : kernelArg .inf g.args = .ok (List.ofFn fun _ : Fin n => (0 : ℝ)) := by
      show (do let d ← bop (· - ·) (List.ofFn g.evalAction) (List.ofFn g.action); d.mapM _) = _
      rw [bop_ofFn, py_bind_ok]
      exact mapM_ofFn_ok fun i => rfl
    rw [contLog_accepted hg, py_bind_ok, hu]
    simp only [py_bind_ok, List.map_ofFn]
  · have : g.args.reward.vals = List.ofFn g.reward := rfl
    rw [this, bop_ofFn, py_bind_ok, show g.args.pscore.vals = List.ofFn g.pscore from rfl,
      bopM_ofFn_ok _ _ _ _ fun i => npDiv_ok (hg.pscore_pos i).ne', py_bind_ok,
      mapM_ofFn_ok (f := Bandwidth.inf.div) (y := fun _ => (0 : ℝ)) fun i => rfl, py_bind_ok, npMean_ofFn hg.nonempty]
    simp
  · rw [show g.args.reward.vals = List.ofFn g.reward from rfl, show g.args.regModel.vals = List.ofFn g.q from rfl,
      bop_ofFn, py_bind_ok, bop_ofFn, py_bind_ok, show g.args.pscore.vals = List.ofFn g.pscore from rfl,
      bopM_ofFn_ok _ _ _ _ fun i => npDiv_ok (hg.pscore_pos i).ne', py_bind_ok,
      mapM_ofFn_ok (f := Bandwidth.inf.div) (y := fun _ => (0 : ℝ)) fun i => rfl, py_bind_ok, bop_ofFn, py_bind_ok, npMean_ofFn hg.nonempty]
    simp

/-! ### C120 -/

section
variable {K : Type} [Field K] [LinearOrder K] [IsStrictOrderedRing K]

/-- The integer given as an argument (`bool` is an `int`). -/
def PyScalar.toInt? : PyScalar K → Option ℤ
  | .bool b => some (if b then 1 else 0)
  | .int z => some z
  | _ => none

theorem checkIntMin_ok {lo : ℤ} {s : PyScalar K} {z : ℤ} : checkIntMin lo s = .ok z ↔ s.toInt? = some z ∧ lo ≤ z := by
  have key : ∀ w : ℤ, ((if w < lo then .error .valueError else .ok w : Py ℤ) = .ok z ↔ w = z ∧ lo ≤ z) := by
    intro w
    split
    · rename_i h
      exact iff_of_false (by simp) (by omega)
    · rename_i h
      simp only [Except.ok.injEq]
      exact ⟨fun h' => ⟨h', by omega⟩, fun h' => h'.1⟩
  cases s <;> simp only [checkIntMin, PyScalar.toInt?, Option.some.injEq, reduceCtorEq, false_and, key]

theorem raiseIf_ok_unit {c : Bool} {e : PyErr} {u : Unit} : raiseIf c e = .ok u ↔ c = false := raiseIf_ok

theorem mkOffline_ok {a l : PyScalar K} {c : OfflineConfig} :
    mkOffline a l = .ok c ↔ ∃ n m : ℤ, a.toInt? = some n ∧ l.toInt? = some m ∧ 2 ≤ n ∧ 1 ≤ m ∧ m ≤ n ∧
      (c.nActions : ℤ) = n ∧ (c.lenList : ℤ) = m := by
  unfold mkOffline
  simp only [py_bind_eq_ok, checkIntMin_ok, raiseIf_ok_unit, py_pure, Except.ok.injEq]
  constructor
  · rintro ⟨n, ⟨h1, h2⟩, m, ⟨h3, h4⟩, u, h5, rfl⟩
    refine ⟨n, m, h1, h3, h2, h4, by simpa using h5, by simp; omega, by simp; omega⟩
  · rintro ⟨n, m, h1, h3, h2, h4, h5, h6, h7⟩
    refine ⟨n, ⟨h1, h2⟩, m, ⟨h3, h4⟩, (), by simpa using h5, ?_⟩
    obtain ⟨x, y⟩ := c
    simp only at h6 h7
    simp only [OfflineConfig.mk.injEq]
    omega

/-- **C120.** `IPWLearner` can be constructed exactly with integers `n_actions >= 2`, `1 <= len_list <= n_actions` and
either no base classifier or a classifier. -/
theorem C120_ipw_learner (a l : PyScalar K) (isClassifier : Option Bool) (c : OfflineConfig) :
    mkIpwLearner a l isClassifier = .ok c ↔ isClassifier ≠ some false ∧
      ∃ n m : ℤ, a.toInt? = some n ∧ l.toInt? = some m ∧ 2 ≤ n ∧ 1 ≤ m ∧ m ≤ n ∧
        (c.nActions : ℤ) = n ∧ (c.lenList : ℤ) = m := by
  rw [← mkOffline_ok]
  unfold mkIpwLearner
  simp only [py_bind_eq_ok, raiseIf_ok_unit, py_pure, Except.ok.injEq]
  constructor
  · rintro ⟨c', h1, u, h2, rfl⟩
    exact ⟨by simpa using h2, h1⟩
  · rintro ⟨h2, h1⟩
    exact ⟨c, h1, (), by simpa using h2, rfl⟩

example : mkIpwLearner (K := ℚ) (.int 5) (.bool true) none = .ok ⟨5, 1⟩ := by
  rw [C120_ipw_learner]
  exact ⟨by simp, 5, 1, rfl, rfl, by norm_num, by norm_num, by norm_num, rfl, rfl⟩

theorem mkRegression_ok {a l : PyScalar K} {ctx : Arg2 K} {s : String} {b : Bool} {cfg : RegConfig K} :
    mkRegression a l ctx s b = .ok cfg ↔ b = true ∧
      ∃ n m : ℤ, a.toInt? = some n ∧ l.toInt? = some m ∧ 2 ≤ n ∧ 1 ≤ m ∧ (cfg.nActions : ℤ) = n ∧
        (cfg.lenList : ℤ) = m ∧
        (s = "normal" ∧ cfg.method = .normal ∨ s = "iw" ∧ cfg.method = .iw ∨ s = "mrdr" ∧ cfg.method = .mrdr) ∧
        cfg.actionContext = match ctx with | .none => .arr (eye cfg.nActions) | c => c := by
  unfold mkRegression
  have hm : ∀ m : FitMethod, FitMethod.ofName s = .ok m ↔
      (s = "normal" ∧ m = .normal ∨ s = "iw" ∧ m = .iw ∨ s = "mrdr" ∧ m = .mrdr) := by
    intro m
    unfold FitMethod.ofName
    split
    · simp [eq_comm]
    · simp [eq_comm]
    · simp [eq_comm]
    · rename_i h1 h2 h3
      simp only [reduceCtorEq, false_iff]
      rintro (⟨h, -⟩ | ⟨h, -⟩ | ⟨h, -⟩)
      · exact h1 h
      · exact h2 h
      · exact h3 h
  simp only [py_bind_eq_ok, checkIntMin_ok, raiseIf_ok_unit, hm, py_pure, Except.ok.injEq]
  constructor
  · rintro ⟨n, ⟨h1, h2⟩, m, ⟨h3, h4⟩, fm, h5, u, h6, rfl⟩
    refine ⟨by simpa using h6, n, m, h1, h3, h2, h4, by simp; omega, by simp; omega, h5, rfl⟩
  · rintro ⟨hb, n, m, h1, h3, h2, h4, h5, h6, h7, h8⟩
    obtain ⟨cn, cl, cc, cm⟩ := cfg
    refine ⟨n, ⟨h1, h2⟩, m, ⟨h3, h4⟩, cm, h7, (), by simpa using hb, ?_⟩
    simp only at h5 h6 h8
    have e1 : n.toNat = cn := by omega
    have e2 : m.toNat = cl := by omega
    subst e1 e2 h8
    rfl

/-- **C120.** `RegressionModel` can be constructed exactly with integers `n_actions >= 2`, `len_list >= 1`, one of the
three fitting methods and a base model; without `action_context` the identity matrix is used. -/
theorem C120_regression (a l : PyScalar K) (ctx : Arg2 K) (s : String) (b : Bool) (cfg : RegConfig K) :
    mkRegression a l ctx s b = .ok cfg ↔ b = true ∧
      ∃ n m : ℤ, a.toInt? = some n ∧ l.toInt? = some m ∧ 2 ≤ n ∧ 1 ≤ m ∧ (cfg.nActions : ℤ) = n ∧
        (cfg.lenList : ℤ) = m ∧
        (s = "normal" ∧ cfg.method = .normal ∨ s = "iw" ∧ cfg.method = .iw ∨ s = "mrdr" ∧ cfg.method = .mrdr) ∧
        cfg.actionContext = match ctx with | .none => .arr (eye cfg.nActions) | c => c := mkRegression_ok

/-- **C120.** `QLearner` needs in addition `len_list <= n_actions`. -/
theorem C120_q_learner (a l : PyScalar K) (s : String) (b : Bool) :
    (∃ cfg : RegConfig K, mkQLearner a l s b = .ok cfg) ↔ b = true ∧ (s = "normal" ∨ s = "iw" ∨ s = "mrdr") ∧
      ∃ n m : ℤ, a.toInt? = some n ∧ l.toInt? = some m ∧ 2 ≤ n ∧ 1 ≤ m ∧ m ≤ n := by
  unfold mkQLearner
  simp only [py_bind_eq_ok, mkOffline_ok, mkRegression_ok]
  constructor
  · rintro ⟨cfg, c, ⟨n, m, h1, h2, h3, h4, h5, -, -⟩, hb, n', m', -, -, -, -, -, -, hs, -⟩
    exact ⟨hb, by tauto, n, m, h1, h2, h3, h4, h5⟩
  · rintro ⟨hb, hs, n, m, h1, h2, h3, h4, h5⟩
    have hm : ∃ fm : FitMethod, s = "normal" ∧ fm = .normal ∨ s = "iw" ∧ fm = .iw ∨ s = "mrdr" ∧ fm = .mrdr := by
      rcases hs with h | h | h
      · exact ⟨.normal, Or.inl ⟨h, rfl⟩⟩
      · exact ⟨.iw, Or.inr (Or.inl ⟨h, rfl⟩)⟩
      · exact ⟨.mrdr, Or.inr (Or.inr ⟨h, rfl⟩)⟩
    obtain ⟨fm, hfm⟩ := hm
    refine ⟨⟨n.toNat, m.toNat, .arr (eye n.toNat), fm⟩, ⟨n.toNat, m.toNat⟩,
      ⟨n, m, h1, h2, h3, h4, h5, by simp; omega, by simp; omega⟩, hb, n, m, h1, h2, h3, h4, by simp; omega,
      by simp; omega, hfm, rfl⟩

/-! ### C30: several loggers -/

/-- **C30.** The multiple-logger estimators accept exactly `lambda_` in `[0, inf]` with a Boolean
`use_estimated_pscore`. -/
theorem C30_multi (k : MultiKind) (s : PyScalar K) (u : Option Bool) (e : MultiEstimator K) :
    mkMultiEstimator k s u = .ok e ↔
      e.kind = k ∧ s.toLam = some e.lam ∧ e.lam.Nonneg ∧ u = some e.useEstimatedPscore := by
  obtain ⟨ek, el, eu⟩ := e
  unfold mkMultiEstimator
  simp only [py_bind_eq_ok, checkLambda_ok]
  cases u with
  | none => simp
  | some b =>
      simp only [py_pure, Except.ok.injEq, MultiEstimator.mk.injEq, Option.some.injEq]
      constructor
      · rintro ⟨l, ⟨h1, h2⟩, rfl, rfl, rfl⟩
        exact ⟨rfl, h1, h2, rfl⟩
      · rintro ⟨rfl, h1, h2, rfl⟩
        exact ⟨el, ⟨h1, h2⟩, rfl, rfl, rfl⟩

/-! ### C122 -/

/-- **C122.** `check_multi_loggers_ope_inputs` accepts exactly the inputs accepted by `check_ope_inputs` whose stratum
indices, if given, are a one-dimensional integer array of non-negative entries, one for each round. -/
theorem C122_accept_iff {args : OpeArgs K} {s : Arg1 K} {x : Arr3 K} (hq : args.regModel.WF) :
    checkMultiLoggersOpeInputs args s = .ok x ↔ args.WellFormed x ∧
      (s = .none ∨ ∃ zs : List ℤ, s = .int zs ∧ zs.length = x.n ∧ zs ≠ [] ∧ ∀ z ∈ zs, 0 ≤ z) := by
  unfold checkMultiLoggersOpeInputs
  simp only [py_bind_eq_ok, C08_accept_iff hq]
  constructor
  · rintro ⟨y, hy, h⟩
    cases s with
    | none =>
        simp only [py_pure, Except.ok.injEq] at h
        exact h ▸ ⟨hy, Or.inl rfl⟩
    | _ =>
        simp only [py_bind_eq_ok, raiseIf_ok_unit, py_pure, Except.ok.injEq] at h
        obtain ⟨-, -, m, hm, -, hn, b, hb, -, hb', rfl⟩ := h
        obtain ⟨zs, he, hne, hz⟩ := intNonneg_ok_true.1 (by
          rw [hb]
          simpa using hb')
        refine ⟨hy, Or.inr ⟨zs, he, ?_, hne, hz⟩⟩
        rw [he] at hm
        simp only [Arg1.shape0, Except.ok.injEq] at hm
        simp only [ne_eq, decide_not, Bool.not_eq_false', decide_eq_true_eq] at hn
        omega
  · rintro ⟨hx, rfl | ⟨zs, rfl, hl, hne, hz⟩⟩
    · exact ⟨x, hx, rfl⟩
    · refine ⟨x, hx, ?_⟩
      simp only [py_bind_eq_ok, raiseIf_ok_unit, py_pure]
      exact ⟨(), rfl, zs.length, rfl, (), by simp [hl], true, intNonneg_ok_true.2 ⟨zs, rfl, hne, hz⟩, (), by simp, trivial⟩

/-! ### C123 -/

/-- **C123.** `validation_fraction` must be a float in `(0, 1]`. -/
theorem C123_fraction (s : PyScalar K) (x : K) : checkFraction s = .ok x ↔ s = .flt x ∧ 0 < x ∧ x ≤ 1 := by
  cases s with
  | flt y =>
      simp only [checkFraction, PyScalar.flt.injEq]
      split
      · rename_i h
        refine iff_of_false (by simp) ?_
        rintro ⟨rfl, -, h'⟩
        exact absurd h (not_lt.2 h')
      · rename_i h
        split
        · rename_i h2
          refine iff_of_false (by simp) ?_
          rintro ⟨rfl, h', -⟩
          exact absurd h' (not_lt.2 h2)
        · rename_i h2
          simp only [Except.ok.injEq]
          constructor
          · rintro rfl
            exact ⟨rfl, not_le.1 h2, not_lt.1 h⟩
          · exact fun h => h.1
  | _ => simp [checkFraction]

/-- **C123.** With early stopping, two rounds or more and a fraction below one, the rounds are divided into a non-empty
training and a non-empty validation set; the latter has at most the stated share, or one round. Missing: the documented
fraction 1, see `C123_no_training_data`. -/
theorem C123_split_partial [FloorRing K] {n : ℕ} (hn : 2 ≤ n) {frac : K} (h0 : 0 < frac) (h1 : frac < 1) :
    ∃ a v : ℕ, splitSizes n frac true = .ok (a, some v) ∧ a + v = n ∧ 1 ≤ a ∧ 1 ≤ v ∧
      ((v : K) ≤ n * frac ∨ v = 1) ∧ (n : K) * frac < v + 1 := by
  have hn' : (0 : K) < n := by exact_mod_cast (by omega : 0 < n)
  have hlt : ⌊(n : K) * frac⌋₊ < n := by
    rw [Nat.floor_lt (by positivity)]
    nlinarith
  refine ⟨_, _, by unfold splitSizes; rw [if_pos rfl, if_neg (by omega)], by omega, by omega, by omega, ?_, ?_⟩
  · by_cases h : 1 ≤ ⌊(n : K) * frac⌋₊
    · rw [max_eq_left h]
      exact Or.inl (Nat.floor_le (by positivity))
    · exact Or.inr (by omega)
  · have := Nat.lt_floor_add_one ((n : K) * frac)
    have h2 : ((⌊(n : K) * frac⌋₊ : ℕ) : K) ≤ ((max ⌊(n : K) * frac⌋₊ 1 : ℕ) : K) := by
      exact_mod_cast le_max_left _ _
    linarith

example : splitSizes 25 (1 / 10 : ℚ) true = .ok (23, some 2) := by decide +kernel

/-- **C123.** Without early stopping all rounds are used for training; with it one round is not enough. -/
theorem C123_no_split [FloorRing K] (n : ℕ) (frac : K) :
    splitSizes n frac false = .ok (n, none) ∧ (n ≤ 1 → splitSizes n frac true = .error .valueError) :=
  ⟨rfl, fun h => by unfold splitSizes; rw [if_pos rfl, if_pos h]⟩

/-- **C123.** The documented fraction `validation_fraction=1.0` leaves no training data at all. -/
theorem C123_no_training_data [FloorRing K] {n : ℕ} (hn : 2 ≤ n) :
    splitSizes n (1 : K) true = .ok (0, some n) := by
  unfold splitSizes
  rw [if_pos rfl, if_neg (by omega)]
  simp
  omega

end

end Obp
