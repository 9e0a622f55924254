import Verif.Model.OpeInit
import Verif.Props.Constructors
import Verif.Props.PolicyInit

set_option linter.unusedSectionVars false

/-! # Constructors of the embedding estimator and of the slate regression model -/

namespace Obp

section
variable {K : Type} [Field K] [LinearOrder K] [IsStrictOrderedRing K]

/-- **C120, embedding estimator.** Accepted are exactly integers `n_actions >= 2` and `min_emb_dim >= 1`, a float `delta` between 0 and 1
(or nan), no selection method or one of the two documented ones, and a classifier; the settings are kept. -/
theorem C120_mips (a e d : PyScalar K) (s : Option String) (cl : Bool) (c : MipsConfig K) :
    mkMips a e d s cl = .ok c ↔ cl = true ∧ a.toInt? = some c.nActions ∧ 2 ≤ c.nActions ∧ e.toInt? = some c.minEmbDim ∧
      1 ≤ c.minEmbDim ∧ c.delta = d ∧ ((∃ x, d = .flt x ∧ 0 ≤ x ∧ x ≤ 1) ∨ d = .nan) ∧
      (s = none ∧ c.selection = none ∨ s = some "exact" ∧ c.selection = some .exact ∨
        s = some "greedy" ∧ c.selection = some .greedy) := by
  have hs : ∀ r, embSelection s = .ok r ↔
      (s = none ∧ r = none ∨ s = some "exact" ∧ r = some .exact ∨ s = some "greedy" ∧ r = some .greedy) := fun r => by
    cases s with
    | none => simp [embSelection, eq_comm]
    | some s =>
        unfold embSelection
        by_cases h1 : s = "exact"
        · simp [h1, eq_comm]
        · by_cases h2 : s = "greedy"
          · simp [h2, eq_comm]
          · simp [h1, h2]
  have hd : (FloatIn 0 (some 1) d ∨ d = .nan) ↔ ((∃ x, d = .flt x ∧ 0 ≤ x ∧ x ≤ 1) ∨ d = .nan) := by
    unfold FloatIn
    cases d <;> simp
  unfold mkMips
  simp only [py_bind_eq_ok, checkIntMin_ok, checkFloatIn_ok, hs, raiseIf_ok_unit, py_pure, Except.ok.injEq, hd]
  constructor
  · rintro ⟨n, ⟨h1, h2⟩, m, ⟨h3, h4⟩, d', ⟨rfl, h5⟩, r, h6, u, h7, rfl⟩
    exact ⟨by simpa using h7, h1, h2, h3, h4, rfl, h5, h6⟩
  · rintro ⟨h7, h1, h2, h3, h4, h, h5, h6⟩
    exact ⟨_, ⟨h1, h2⟩, _, ⟨h3, h4⟩, d, ⟨rfl, h5⟩, _, h6, (), by simpa using h7, by rw [← h]⟩

example : ∃ c : MipsConfig ℚ, mkMips (.int 3) (.int 1) (.flt (1/20)) (some "exact") true = .ok c :=
  ⟨_, (C120_mips _ _ _ _ _ ⟨3, 1, .flt (1/20), some .exact⟩).2 ⟨rfl, rfl, by norm_num, rfl, by norm_num, rfl,
    .inl ⟨1/20, rfl, by norm_num, by norm_num⟩, by simp⟩⟩

/-- **C120, slate regression model.** Accepted are exactly integers `n_unique_action >= 2` and `len_list >= 1`, the fitting methods
'normal' and 'iw', and a regressor. Every position gets its own clone of the base model and actions are encoded by the identity. -/
theorem C120_slate_regression {M : Type} (clone : M → M) (base : SlateBaseModel M) (l n : PyScalar K) (fm : Option String)
    (r : SlateRegModel K M) :
    mkSlateRegression clone base l n fm = .ok r ↔ ∃ m, base = .regressor m ∧ n.toInt? = some r.nUnique ∧ 2 ≤ r.nUnique ∧
      l.toInt? = some r.lenList ∧ 1 ≤ r.lenList ∧ (fm = some "normal" ∧ r.iw = false ∨ fm = some "iw" ∧ r.iw = true) ∧
      (r.models.length : ℤ) = r.lenList ∧ (∀ x ∈ r.models, x = clone m) ∧ r.actionContext = eye r.nUnique.toNat := by
  unfold mkSlateRegression
  simp only [py_bind_eq_ok, checkIntMin_ok, raiseIf_ok_unit]
  constructor
  · rintro ⟨a, ⟨h1, h2⟩, b, ⟨h3, h4⟩, u, h5, h6⟩
    cases base with
    | notEstimator => cases h6
    | classifier => cases h6
    | regressor m =>
        simp only [py_pure, Except.ok.injEq] at h6
        subst h6
        refine ⟨m, rfl, h1, h2, h3, h4, ?_, by simp; omega, ?_, rfl⟩
        · have h5' : fm = some "normal" ∨ fm = some "iw" := or_iff_not_imp_left.2 (by simpa using h5)
          rcases h5' with rfl | rfl <;> simp
        · intro x hx
          obtain ⟨-, -, rfl⟩ := List.mem_map.1 hx
          rfl
  · rintro ⟨m, rfl, h1, h2, h3, h4, h5, h6, h7, h8⟩
    refine ⟨_, ⟨h1, h2⟩, _, ⟨h3, h4⟩, (), ?_, ?_⟩
    · rcases h5 with ⟨rfl, -⟩ | ⟨rfl, -⟩ <;> simp
    · simp only [py_pure, Except.ok.injEq]
      obtain ⟨rl, rn, ri, rm, ra⟩ := r
      simp only at h5 h6 h7 h8 ⊢
      have hiw : (fm == some "iw") = ri := by rcases h5 with ⟨rfl, rfl⟩ | ⟨rfl, rfl⟩ <;> rfl
      have hmod : ((List.range rl.toNat).map fun _ => clone m) = rm := by
        rw [List.eq_replicate_of_mem h7, List.map_const', List.length_range, show rm.length = rl.toNat by omega]
      rw [hiw, hmod, h8]

example : ∃ r : SlateRegModel ℚ ℕ, mkSlateRegression id (.regressor 7) (.int 3) (.int 5) (some "iw") = .ok r ∧ r.models = [7, 7, 7] :=
  ⟨_, rfl, rfl⟩

end

end Obp
