import Verif.Model.DatasetInit
import Verif.Model.Dataset
import Verif.Props.PolicyInit

set_option linter.unusedSectionVars false

/-!
# Constructors of the synthetic datasets and of the environment simulator

C130.
-/

namespace Obp
variable {K : Type} [Field K] [LinearOrder K] [IsStrictOrderedRing K]

/-! ### The documented settings -/

/-- `s` is an int or float with value `v`. -/
inductive PyScalar.Denotes : PyScalar K → PyNum K → Prop
  | false : Denotes (.bool false) (.fin 0)
  | true : Denotes (.bool true) (.fin 1)
  | int (z : ℤ) : Denotes (.int z) (.fin z)
  | flt (x : K) : Denotes (.flt x) (.fin x)
  | inf : Denotes .inf .inf
  | negInf : Denotes .negInf .negInf
  | nan : Denotes .nan .nan

/-- A number of at least `lo`. -/
def PyNum.AtLeast (lo : K) : PyNum K → Prop
  | .fin x => lo ≤ x
  | .inf => True
  | .negInf => False
  | .nan => False

/-- A lower bound and an upper bound that leave room for an action. -/
def PyNum.Below : PyNum K → PyNum K → Prop
  | .fin x, .fin y => x < y
  | .negInf, .fin _ => True
  | .negInf, .inf => True
  | .fin _, .inf => True
  | _, _ => False

/-- The action context in use: the one-hot vectors if none is given, else the given matrix, which must have one row per
action. -/
def ActionContextOk (n : ℕ) (given : Option (Arg2 K)) (used : Arr2 K) : Prop :=
  match given with
  | none => used = ⟨n, n, fun i j => if i = j then 1 else 0⟩
  | some a => a = .arr used ∧ used.n = n

theorem num?_iff {s : PyScalar K} {v : PyNum K} : s.num? = some v ↔ s.Denotes v := by
  constructor
  · intro h
    cases s with
    | bool b => cases b <;> (cases h; constructor)
    | other => cases h
    | _ => cases h; constructor
  · intro h
    cases h <;> rfl

theorem checkNumber_none {s : PyScalar K} {v : PyNum K} : checkNumber none s = .ok v ↔ s.Denotes v := by
  rw [← num?_iff]
  unfold checkNumber
  cases s.num? <;> simp

theorem checkNumber_some {lo : K} {s : PyScalar K} {v : PyNum K} :
    checkNumber (some lo) s = .ok v ↔ s.Denotes v ∧ (v.AtLeast lo ∨ v = .nan) := by
  rw [← num?_iff]
  unfold checkNumber
  cases s.num? with
  | none => simp
  | some w =>
      simp only [Option.some.injEq]
      have key : w.lt lo = false ↔ (w.AtLeast lo ∨ w = .nan) := by
        cases w <;> simp [PyNum.lt, PyNum.AtLeast]
      by_cases h : w.lt lo = true
      · rw [if_pos h]
        simp only [reduceCtorEq, false_iff, not_and]
        rintro rfl
        rw [← key, h]
        simp
      · rw [if_neg h, Except.ok.injEq]
        constructor
        · rintro rfl
          exact ⟨rfl, key.1 (by simpa using h)⟩
        · exact fun h => h.1

theorem le_false_iff {lo hi : PyNum K} : hi.le lo = false ↔ lo.Below hi ∨ lo = .nan ∨ hi = .nan := by
  cases lo <;> cases hi <;> simp [PyNum.le, PyNum.Below]

theorem checkSeed_ok {s : Seed} {u : Unit} : checkSeed s = .ok u ↔ s = .ok := by
  cases s <;> simp [checkSeed]

theorem rewardTypeBinary_ok {s : String} {b : Bool} :
    rewardTypeBinary s = .ok b ↔ s = if b then "binary" else "continuous" := by
  unfold rewardTypeBinary
  split <;> cases b <;> simp_all

theorem initActionContext_ok {n : ℤ} {a : Option (Arg2 K)} {x : Arr2 K} (hn : 0 ≤ n) :
    initActionContext n a = .ok x ↔ ActionContextOk n.toNat a x := by
  cases a with
  | none => simp [initActionContext, ActionContextOk, eye, eq_comm]
  | some a =>
      cases a with
      | arr y =>
          simp only [initActionContext, checkArray2, py_bind_ok, py_bind_eq_ok, raiseIf_ok_unit, py_pure, Except.ok.injEq,
            ActionContextOk, Arg2.arr.injEq, decide_eq_false_iff_not, not_not, exists_const]
          constructor
          · rintro ⟨h, rfl⟩
            exact ⟨rfl, by omega⟩
          · rintro ⟨rfl, h⟩
            exact ⟨by omega, rfl⟩
      | _ => simp [initActionContext, checkArray2, ActionContextOk, py_bind_error]

/-! ### C130 -/

/-- Arguments common to the synthetic datasets: integers `n_actions >= 2`, `dim_context >= 1`,
`0 <= n_deficient_actions < n_actions`. -/
def ValidSizes (nActions dimContext nDeficient : PyScalar K) (n d k : ℤ) : Prop :=
  nActions.toInt? = some n ∧ dimContext.toInt? = some d ∧ nDeficient.toInt? = some k ∧ 2 ≤ n ∧ 1 ≤ d ∧ 0 ≤ k ∧ k < n

/-- **C130.** `SyntheticBanditDataset` is constructed exactly from documented settings, which it keeps -- except that nan
is accepted as `beta` and `reward_std`, which the documentation excludes. -/
theorem C130_synthetic_partial (nActions dimContext beta nDeficient : PyScalar K) (seed : Seed) (rewardType : String)
    (rewardStd : PyScalar K) (actionContext : Option (Arg2 K)) (c : SyntheticInit K) :
    initSynthetic nActions dimContext beta nDeficient seed rewardType rewardStd actionContext = .ok c ↔
      ValidSizes nActions dimContext nDeficient c.nActions c.dimContext c.nDeficient ∧ beta.Denotes c.beta ∧ seed = .ok ∧
      rewardType = (if c.binary then "binary" else "continuous") ∧
      rewardStd.Denotes c.rewardStd ∧ (c.rewardStd.AtLeast 0 ∨ c.rewardStd = .nan) ∧
      ActionContextOk c.nActions.toNat actionContext c.actionContext := by
  obtain ⟨n, d, b, k, bin, s, a⟩ := c
  unfold initSynthetic ValidSizes
  simp only [py_bind_eq_ok, checkIntMin_ok, checkIntIn_ok, checkNumber_none, checkNumber_some, checkSeed_ok,
    rewardTypeBinary_ok, py_pure, Except.ok.injEq, SyntheticInit.mk.injEq]
  constructor
  · rintro ⟨n', ⟨h1, h2⟩, d', ⟨h3, h4⟩, b', h5, k', ⟨h6, h7, h8⟩, u, h9, bin', h10, s', ⟨h11, h12⟩, a', h13, rfl, rfl, rfl,
      rfl, rfl, rfl, rfl⟩
    exact ⟨⟨h1, h3, h6, h2, h4, h7, by omega⟩, h5, h9, h10, h11, h12, (initActionContext_ok (by omega)).1 h13⟩
  · rintro ⟨⟨h1, h3, h6, h2, h4, h7, h8⟩, h5, h9, h10, h11, h12, h13⟩
    exact ⟨n, ⟨h1, h2⟩, d, ⟨h3, h4⟩, b, h5, k, ⟨h6, h7, by omega⟩, (), h9, bin, h10, s, ⟨h11, h12⟩, a,
      (initActionContext_ok (by omega)).2 h13, rfl, rfl, rfl, rfl, rfl, rfl, rfl⟩

/-- The hypotheses are met by the default settings with two actions. -/
example : initSynthetic (K := ℚ) (.int 2) (.int 1) (.flt 1) (.int 0) .ok "binary" (.flt 1) none =
    .ok ⟨2, 1, .fin 1, 0, true, .fin 1, ⟨2, 2, fun i j => if i = j then 1 else 0⟩⟩ := by
  rw [C130_synthetic_partial]
  exact ⟨⟨rfl, rfl, rfl, by decide, by decide, by decide, by decide⟩, .flt 1, rfl, rfl, .flt 1, Or.inl (by
    simp [PyNum.AtLeast]), rfl⟩

/-- **C130.** A setting with no usable reward distribution is accepted: `reward_std = nan`. -/
theorem C130_nan_accepted : ∃ c, initSynthetic (K := K) (.int 2) (.int 1) (.flt 1) (.int 0) .ok "continuous" .nan none =
    .ok c ∧ c.rewardStd = .nan := by
  refine ⟨⟨2, 1, .fin 1, 0, false, .nan, ⟨2, 2, fun i j => if i = j then 1 else 0⟩⟩, ?_, rfl⟩
  rw [C130_synthetic_partial]
  exact ⟨⟨rfl, rfl, rfl, le_refl (2 : ℤ), le_refl (1 : ℤ), le_refl (0 : ℤ), (by norm_num : (0 : ℤ) < 2)⟩, .flt 1, rfl, rfl,
    .nan, Or.inr rfl, rfl⟩

theorem checkNumberList_none {l : ListArg K} {vs : List (PyNum K)} :
    checkNumberList none l = .ok vs ↔ ∃ xs, l = .list xs ∧ List.Forall₂ PyScalar.Denotes xs vs := by
  cases l with
  | other => simp [checkNumberList]
  | list xs => simp [checkNumberList, mapM_ok_iff, checkNumber_none]

theorem checkNumberList_some {lo : K} {l : ListArg K} {vs : List (PyNum K)} :
    checkNumberList (some lo) l = .ok vs ↔ ∃ xs, l = .list xs ∧
      List.Forall₂ (fun s v => PyScalar.Denotes s v ∧ (v.AtLeast lo ∨ v = .nan)) xs vs := by
  cases l with
  | other => simp [checkNumberList]
  | list xs => simp [checkNumberList, mapM_ok_iff, checkNumber_some]

/-- **C130.** `SyntheticMultiLoggersBanditDataset` is constructed exactly from the documented sizes, seed, reward type and
action context and two lists of the same length: inverse temperatures and non-negative shares. Missing from the documented
claim: nan is accepted, and so are empty lists and shares that are all zero (`C130_no_loggers`, `C130_zero_shares`). -/
theorem C130_multi_partial (nActions dimContext nDeficient : PyScalar K) (seed : Seed) (betas rhos : ListArg K)
    (rewardType : String) (rewardStd : PyScalar K) (actionContext : Option (Arg2 K)) (c : MultiInit K) :
    initMulti nActions dimContext nDeficient seed betas rhos rewardType rewardStd actionContext = .ok c ↔
      ValidSizes nActions dimContext nDeficient c.nActions c.dimContext c.nDeficient ∧ seed = .ok ∧
      (∃ bs rs, betas = .list bs ∧ rhos = .list rs ∧ bs.length = rs.length ∧ List.Forall₂ PyScalar.Denotes bs c.betas ∧
        List.Forall₂ (fun s v => PyScalar.Denotes s v ∧ (v.AtLeast 0 ∨ v = .nan)) rs c.rhos) ∧
      rewardType = (if c.binary then "binary" else "continuous") ∧
      rewardStd.Denotes c.rewardStd ∧ (c.rewardStd.AtLeast 0 ∨ c.rewardStd = .nan) ∧
      ActionContextOk c.nActions.toNat actionContext c.actionContext := by
  obtain ⟨n, d, k, bs, rs, bin, s, a⟩ := c
  unfold initMulti ValidSizes
  simp only [py_bind_eq_ok, checkIntMin_ok, checkIntIn_ok, checkNumber_some, checkNumberList_none, checkNumberList_some,
    checkSeed_ok, rewardTypeBinary_ok, raiseIf_ok_unit, py_pure, Except.ok.injEq, MultiInit.mk.injEq,
    decide_eq_false_iff_not, not_not]
  constructor
  · rintro ⟨n', ⟨h1, h2⟩, d', ⟨h3, h4⟩, k', ⟨h6, h7, h8⟩, u, h9, bs', ⟨xs, hb, hb'⟩, rs', ⟨ys, hr, hr'⟩, v, hl, bin', h10, s',
      ⟨h11, h12⟩, a', h13, rfl, rfl, rfl, rfl, rfl, rfl, rfl, rfl⟩
    refine ⟨⟨h1, h3, h6, h2, h4, h7, by omega⟩, h9, ⟨xs, ys, hb, hr, ?_, hb', hr'⟩, h10, h11, h12,
      (initActionContext_ok (by omega)).1 h13⟩
    rw [hb'.length_eq, hr'.length_eq, hl]
  · rintro ⟨⟨h1, h3, h6, h2, h4, h7, h8⟩, h9, ⟨xs, ys, hb, hr, hl, hb', hr'⟩, h10, h11, h12, h13⟩
    refine ⟨n, ⟨h1, h2⟩, d, ⟨h3, h4⟩, k, ⟨h6, h7, by omega⟩, (), h9, bs, ⟨xs, hb, hb'⟩, rs, ⟨ys, hr, hr'⟩, (), ?_, bin, h10, s,
      ⟨h11, h12⟩, a, (initActionContext_ok (by omega)).2 h13, rfl, rfl, rfl, rfl, rfl, rfl, rfl, rfl⟩
    rw [← hb'.length_eq, ← hr'.length_eq, hl]

/-- The hypotheses are met by two loggers with shares in the ratio 1 : 3. -/
example : initMulti (K := ℚ) (.int 2) (.int 1) (.int 0) .ok (.list [.flt 1, .int (-1)]) (.list [.int 1, .int 3]) "binary"
    (.flt 1) none = .ok ⟨2, 1, 0, [.fin 1, .fin (-1)], [.fin 1, .fin 3], true, .fin 1,
      ⟨2, 2, fun i j => if i = j then 1 else 0⟩⟩ := by
  rw [C130_multi_partial]
  refine ⟨⟨rfl, rfl, rfl, by decide, by decide, by decide, by decide⟩, rfl, ⟨_, _, rfl, rfl, rfl, ?_, ?_⟩, rfl, .flt 1,
    Or.inl (by simp [PyNum.AtLeast]), rfl⟩
  · exact .cons (.flt 1) (.cons (by simpa using PyScalar.Denotes.int (K := ℚ) (-1)) .nil)
  · refine .cons ⟨by simpa using PyScalar.Denotes.int (K := ℚ) 1, Or.inl ?_⟩
      (.cons ⟨by simpa using PyScalar.Denotes.int (K := ℚ) 3, Or.inl ?_⟩ .nil) <;> simp [PyNum.AtLeast]

/-- **C130.** Empty lists of loggers are accepted whatever the other settings, and then no batch can be obtained: asking for
any number of rounds raises IndexError. -/
theorem C130_no_loggers (nActions dimContext nDeficient : PyScalar ℝ) (n d k : ℤ)
    (h : ValidSizes nActions dimContext nDeficient n d k) :
    (∃ c, initMulti nActions dimContext nDeficient .ok (.list []) (.list []) "binary" (.flt 1) none = .ok c ∧
      c.betas = [] ∧ c.rhos = []) ∧
    ∀ beta nDef expected orders us, multiLoggerFeedback beta [] [] nDef expected orders us = .error .indexError := by
  refine ⟨⟨⟨n, d, k, [], [], true, .fin 1, ⟨n.toNat, n.toNat, fun i j => if i = j then 1 else 0⟩⟩, ?_, rfl, rfl⟩, ?_⟩
  · rw [C130_multi_partial]
    exact ⟨h, rfl, ⟨[], [], rfl, rfl, rfl, .nil, .nil⟩, rfl, .flt 1, Or.inl (by simp [PyNum.AtLeast]), rfl⟩
  · intro beta nDef expected orders us
    rfl

example : ValidSizes (K := ℝ) (.int 3) (.int 2) (.int 1) 3 2 1 :=
  ⟨rfl, rfl, rfl, by decide, by decide, by decide, by decide⟩

/-- **C130.** Shares that are all zero are accepted, and the normalised shares are then not numbers. -/
theorem C130_zero_shares (nActions dimContext nDeficient : PyScalar K) (n d k : ℤ)
    (h : ValidSizes nActions dimContext nDeficient n d k) (m : ℕ) :
    (∃ c, initMulti nActions dimContext nDeficient .ok (.list (.replicate m (.flt 1))) (.list (.replicate m (.flt 0)))
      "binary" (.flt 1) none = .ok c ∧ c.rhos = .replicate m (.fin 0)) ∧
    (0 < m → normalizeRhos (List.replicate m (0 : K)) = .error .nonFinite) := by
  refine ⟨⟨⟨n, d, k, .replicate m (.fin 1), .replicate m (.fin 0), true, .fin 1,
    ⟨n.toNat, n.toNat, fun i j => if i = j then 1 else 0⟩⟩, ?_, rfl⟩, ?_⟩
  · rw [C130_multi_partial]
    refine ⟨h, rfl, ⟨_, _, rfl, rfl, by simp, ?_, ?_⟩, rfl, .flt 1, Or.inl (by simp [PyNum.AtLeast]), rfl⟩
    · induction m with
      | zero => exact .nil
      | succ m ih => exact .cons (.flt 1) ih
    · induction m with
      | zero => exact .nil
      | succ m ih => exact .cons ⟨.flt 0, Or.inl (by simp [PyNum.AtLeast])⟩ ih
  · intro hm
    obtain ⟨m, rfl⟩ := Nat.exists_eq_succ_of_ne_zero hm.ne'
    simp [normalizeRhos, List.replicate_succ, npDiv]

/-- **C130.** `SyntheticBanditDatasetWithActionEmbeds` is constructed exactly from settings of `SyntheticBanditDataset`
together with integers `n_cat_per_dim, latent_param_mat_dim, n_cat_dim >= 1`,
`0 <= n_unobserved_cat_dim, n_irrelevant_cat_dim <= n_cat_dim` and a standard deviation; one dimension that is neither
observed nor relevant is added. Missing from the documented claim: nan is accepted. -/
theorem C130_embed_partial (nActions dimContext beta nDeficient : PyScalar K) (seed : Seed) (rewardType : String)
    (rewardStd : PyScalar K) (actionContext : Option (Arg2 K))
    (nCatPerDim latentDim nCatDim paramStd nUnobserved nIrrelevant : PyScalar K) (c : EmbedInit K) :
    initEmbed nActions dimContext beta nDeficient seed rewardType rewardStd actionContext nCatPerDim latentDim nCatDim
        paramStd nUnobserved nIrrelevant = .ok c ↔
      initSynthetic nActions dimContext beta nDeficient seed rewardType rewardStd actionContext = .ok c.base ∧
      nCatPerDim.toInt? = some c.nCatPerDim ∧ 1 ≤ c.nCatPerDim ∧ latentDim.toInt? = some c.latentDim ∧ 1 ≤ c.latentDim ∧
      (∃ m u i, nCatDim.toInt? = some m ∧ nUnobserved.toInt? = some u ∧ nIrrelevant.toInt? = some i ∧ 1 ≤ m ∧
        0 ≤ u ∧ u ≤ m ∧ 0 ≤ i ∧ i ≤ m ∧ c.nCatDim = m + 1 ∧ c.nUnobserved = u + 1 ∧ c.nIrrelevant = i + 1) ∧
      paramStd.Denotes c.paramStd ∧ (c.paramStd.AtLeast 0 ∨ c.paramStd = .nan) := by
  obtain ⟨b, c, l, m, p, u, i⟩ := c
  unfold initEmbed
  simp only [py_bind_eq_ok, checkIntMin_ok, checkIntIn_ok, checkNumber_some, py_pure, Except.ok.injEq, EmbedInit.mk.injEq]
  constructor
  · rintro ⟨b', hb, c', ⟨h1, h2⟩, l', ⟨h3, h4⟩, m', ⟨h5, h6⟩, p', ⟨h7, h8⟩, u', ⟨h9, h10, h11⟩, i', ⟨h12, h13, h14⟩, rfl, rfl,
      rfl, rfl, rfl, rfl, rfl⟩
    exact ⟨hb, h1, h2, h3, h4, ⟨m', u', i', h5, h9, h12, h6, h10, h11, h13, h14, rfl, rfl, rfl⟩, h7, h8⟩
  · rintro ⟨hb, h1, h2, h3, h4, ⟨m', u', i', h5, h9, h12, h6, h10, h11, h13, h14, rfl, rfl, rfl⟩, h7, h8⟩
    exact ⟨b, hb, c, ⟨h1, h2⟩, l, ⟨h3, h4⟩, m', ⟨h5, h6⟩, p, ⟨h7, h8⟩, u', ⟨h9, h10, h11⟩, i', ⟨h12, h13, h14⟩, rfl, rfl,
      rfl, rfl, rfl, rfl, rfl⟩

/-- The hypotheses are met by the default settings with two actions. -/
example : ∃ c, initEmbed (K := ℚ) (.int 2) (.int 1) (.flt 1) (.int 0) .ok "binary" (.flt 1) none (.int 10) (.int 5)
    (.int 3) (.flt 1) (.int 0) (.int 3) = .ok c ∧ c.nCatDim = 4 ∧ c.nUnobserved = 1 ∧ c.nIrrelevant = 4 := by
  refine ⟨⟨⟨2, 1, .fin 1, 0, true, .fin 1, ⟨2, 2, fun i j => if i = j then 1 else 0⟩⟩, 10, 5, 4, .fin 1, 1, 4⟩, ?_, rfl, rfl,
    rfl⟩
  rw [C130_embed_partial, C130_synthetic_partial]
  exact ⟨⟨⟨rfl, rfl, rfl, by decide, by decide, by decide, by decide⟩, .flt 1, rfl, rfl, .flt 1, Or.inl (by
    simp [PyNum.AtLeast]), rfl⟩, rfl, by decide, rfl, by decide, ⟨3, 0, 3, rfl, rfl, rfl, by decide, by decide, by decide,
    by decide, by decide, rfl, rfl, rfl⟩, .flt 1, Or.inl (by simp [PyNum.AtLeast])⟩

/-- **C130.** `SyntheticContinuousBanditDataset` is constructed exactly from an integer `dim_context >= 1`, non-negative
noises and bounds with room between them -- except that nan is accepted everywhere. -/
theorem C130_continuous_partial (dimContext actionNoise rewardNoise lo hi : PyScalar K) (seed : Seed)
    (c : ContinuousInit K) :
    initContinuous dimContext actionNoise rewardNoise lo hi seed = .ok c ↔
      dimContext.toInt? = some c.dimContext ∧ 1 ≤ c.dimContext ∧
      actionNoise.Denotes c.actionNoise ∧ (c.actionNoise.AtLeast 0 ∨ c.actionNoise = .nan) ∧
      rewardNoise.Denotes c.rewardNoise ∧ (c.rewardNoise.AtLeast 0 ∨ c.rewardNoise = .nan) ∧
      lo.Denotes c.lo ∧ hi.Denotes c.hi ∧ (c.lo.Below c.hi ∨ c.lo = .nan ∨ c.hi = .nan) ∧ seed = .ok := by
  obtain ⟨d, a, r, l, h⟩ := c
  unfold initContinuous
  simp only [py_bind_eq_ok, checkIntMin_ok, checkNumber_some, checkNumber_none, raiseIf_ok_unit, checkSeed_ok, py_pure,
    Except.ok.injEq, ContinuousInit.mk.injEq, le_false_iff]
  constructor
  · rintro ⟨d', ⟨h1, h2⟩, a', ⟨h3, h4⟩, r', ⟨h5, h6⟩, l', h7, h', h8, -, h9, -, h10, rfl, rfl, rfl, rfl, rfl⟩
    exact ⟨h1, h2, h3, h4, h5, h6, h7, h8, h9, h10⟩
  · rintro ⟨h1, h2, h3, h4, h5, h6, h7, h8, h9, h10⟩
    exact ⟨d, ⟨h1, h2⟩, a, ⟨h3, h4⟩, r, ⟨h5, h6⟩, l, h7, h, h8, (), h9, (), h10, rfl, rfl, rfl, rfl, rfl⟩

/-- The hypotheses are met by the default settings. -/
example : initContinuous (K := ℚ) (.int 1) (.flt 1) (.flt 1) .negInf .inf .ok = .ok ⟨1, .fin 1, .fin 1, .negInf, .inf⟩ := by
  rw [C130_continuous_partial]
  exact ⟨rfl, by decide, .flt 1, Or.inl (by simp [PyNum.AtLeast]), .flt 1, Or.inl (by simp [PyNum.AtLeast]), .negInf, .inf,
    Or.inl trivial, rfl⟩

/-- **C130.** `BanditEnvironmentSimulator` is constructed exactly from integers `n_actions >= 2` and `dim_context >= 1`, a
seed, and an action context with one row per action. -/
theorem C130_environment (nActions dimContext : PyScalar K) (seed : Seed) (actionContext : Option (Arg2 K)) (n d : ℤ)
    (x : Arr2 K) :
    initEnvironment nActions dimContext seed actionContext = .ok (n, d, x) ↔
      nActions.toInt? = some n ∧ 2 ≤ n ∧ dimContext.toInt? = some d ∧ 1 ≤ d ∧ seed = .ok ∧
      ActionContextOk n.toNat actionContext x := by
  unfold initEnvironment
  simp only [py_bind_eq_ok, checkIntMin_ok, checkSeed_ok, py_pure, Except.ok.injEq, Prod.mk.injEq]
  constructor
  · rintro ⟨n', ⟨h1, h2⟩, d', ⟨h3, h4⟩, -, h5, a, h6, rfl, rfl, rfl⟩
    exact ⟨h1, h2, h3, h4, h5, (initActionContext_ok (by omega)).1 h6⟩
  · rintro ⟨h1, h2, h3, h4, h5, h6⟩
    exact ⟨n, ⟨h1, h2⟩, d, ⟨h3, h4⟩, (), h5, x, (initActionContext_ok (by omega)).2 h6, rfl, rfl, rfl⟩

example : ActionContextOk (K := ℚ) 3 (some (.arr ⟨3, 1, fun i _ => i⟩)) ⟨3, 1, fun i _ => i⟩ := ⟨rfl, rfl⟩

/-! #### Refused settings -/

/-- The exceptions that the documentation of `check_scalar` and `check_random_state` announces. -/
def Refused {α : Type} (x : Py α) : Prop := ∀ e, x = .error e → e = .typeError ∨ e = .valueError

theorem Refused.bind {α β : Type} {x : Py α} {f : α → Py β} (hx : Refused x) (hf : ∀ a, Refused (f a)) :
    Refused (x >>= f) := by
  intro e h
  cases x with
  | error e' => exact hx e (by simpa using h)
  | ok a => exact hf a e (by simpa using h)

theorem Refused.pure {α : Type} (a : α) : Refused (Pure.pure a : Py α) := by
  intro e h
  cases h

theorem refused_checkIntMin (lo : ℤ) (s : PyScalar K) : Refused (checkIntMin lo s) := by
  intro e h
  cases s <;> simp only [checkIntMin] at h <;> grind

theorem refused_checkIntIn (lo hi : ℤ) (s : PyScalar K) : Refused (checkIntIn lo hi s) := by
  intro e h
  cases s <;> simp only [checkIntIn] at h <;> grind

theorem refused_checkNumber (lo : Option K) (s : PyScalar K) : Refused (checkNumber lo s) := by
  intro e h
  unfold checkNumber at h
  grind

theorem refused_mapM {α β : Type} (f : α → Py β) (hf : ∀ a, Refused (f a)) (xs : List α) : Refused (xs.mapM f) := by
  induction xs with
  | nil => exact Refused.pure _
  | cons x xs ih =>
      rw [List.mapM_cons]
      exact (hf x).bind fun _ => ih.bind fun _ => Refused.pure _

theorem refused_checkNumberList (lo : Option K) (l : ListArg K) : Refused (checkNumberList lo l) := by
  cases l with
  | other => intro e h; cases h; exact Or.inl rfl
  | list xs => exact refused_mapM _ (refused_checkNumber lo) xs

theorem refused_checkSeed (s : Seed) : Refused (checkSeed s) := by
  intro e h
  cases s <;> cases h <;> exact Or.inr rfl

theorem refused_rewardType (s : String) : Refused (rewardTypeBinary s) := by
  intro e h
  unfold rewardTypeBinary at h
  split at h <;> cases h
  exact Or.inr rfl

theorem refused_raiseIf (c : Bool) : Refused (raiseIf c .valueError) := by
  intro e h
  cases c <;> cases h
  exact Or.inr rfl

theorem refused_actionContext (n : ℤ) (a : Option (Arg2 K)) : Refused (initActionContext n a) := by
  cases a with
  | none => exact Refused.pure _
  | some a =>
      refine Refused.bind ?_ fun x => (refused_raiseIf _).bind fun _ => Refused.pure _
      intro e h
      cases a <;> cases h <;> exact Or.inr rfl

/-- **C130.** Whatever the arguments, a constructor that refuses its settings raises TypeError or ValueError. -/
theorem C130_refusal (nActions dimContext beta nDeficient rewardStd : PyScalar K) (seed : Seed) (rewardType : String)
    (actionContext : Option (Arg2 K)) (betas rhos : ListArg K)
    (nCatPerDim latentDim nCatDim paramStd nUnobserved nIrrelevant actionNoise rewardNoise lo hi : PyScalar K) :
    Refused (initSynthetic nActions dimContext beta nDeficient seed rewardType rewardStd actionContext) ∧
    Refused (initMulti nActions dimContext nDeficient seed betas rhos rewardType rewardStd actionContext) ∧
    Refused (initEmbed nActions dimContext beta nDeficient seed rewardType rewardStd actionContext nCatPerDim latentDim
      nCatDim paramStd nUnobserved nIrrelevant) ∧
    Refused (initContinuous dimContext actionNoise rewardNoise lo hi seed) ∧
    Refused (initEnvironment nActions dimContext seed actionContext) := by
  have h1 : Refused (initSynthetic nActions dimContext beta nDeficient seed rewardType rewardStd actionContext) :=
    (refused_checkIntMin _ _).bind fun _ => (refused_checkIntMin _ _).bind fun _ => (refused_checkNumber _ _).bind fun _ =>
    (refused_checkIntIn _ _ _).bind fun _ => (refused_checkSeed _).bind fun _ => (refused_rewardType _).bind fun _ =>
    (refused_checkNumber _ _).bind fun _ => (refused_actionContext _ _).bind fun _ => Refused.pure _
  refine ⟨h1, ?_, ?_, ?_, ?_⟩
  · exact (refused_checkIntMin _ _).bind fun _ => (refused_checkIntMin _ _).bind fun _ =>
      (refused_checkIntIn _ _ _).bind fun _ => (refused_checkSeed _).bind fun _ =>
      (refused_checkNumberList _ _).bind fun _ => (refused_checkNumberList _ _).bind fun _ =>
      (refused_raiseIf _).bind fun _ => (refused_rewardType _).bind fun _ => (refused_checkNumber _ _).bind fun _ =>
      (refused_actionContext _ _).bind fun _ => Refused.pure _
  · exact h1.bind fun _ => (refused_checkIntMin _ _).bind fun _ => (refused_checkIntMin _ _).bind fun _ =>
      (refused_checkIntMin _ _).bind fun _ => (refused_checkNumber _ _).bind fun _ => (refused_checkIntIn _ _ _).bind fun _ =>
      (refused_checkIntIn _ _ _).bind fun _ => Refused.pure _
  · exact (refused_checkIntMin _ _).bind fun _ => (refused_checkNumber _ _).bind fun _ =>
      (refused_checkNumber _ _).bind fun _ => (refused_checkNumber _ _).bind fun _ => (refused_checkNumber _ _).bind fun _ =>
      (refused_raiseIf _).bind fun _ => (refused_checkSeed _).bind fun _ => Refused.pure _
  · exact (refused_checkIntMin _ _).bind fun _ => (refused_checkIntMin _ _).bind fun _ => (refused_checkSeed _).bind fun _ =>
      (refused_actionContext _ _).bind fun _ => Refused.pure _

/-- Settings that are refused: bounds in the wrong order, and a context that is not an array. -/
example : initContinuous (K := ℚ) (.int 1) (.flt 1) (.flt 1) (.flt 2) (.flt 2) .ok = .error .valueError ∧
    initEnvironment (K := ℚ) (.int 2) (.int 1) .ok (some .notArray) = .error .valueError ∧
    initSynthetic (K := ℚ) (.flt 2) (.int 1) (.flt 1) (.int 0) .ok "binary" (.flt 1) none = .error .typeError := by
  refine ⟨?_, rfl, rfl⟩
  have h : ¬ (1 : ℚ) < 0 := by norm_num
  simp [initContinuous, checkIntMin, checkNumber, PyScalar.num?, PyNum.lt, PyNum.le, raiseIf, h]

end Obp
