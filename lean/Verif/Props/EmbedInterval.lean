import Verif.Props.EmbedSelect
import Verif.Props.Bootstrap

set_option linter.unusedSectionVars false

/-!
# Intervals of the embedding estimators

C121.
-/

namespace Obp

open Log

section
variable {K : Type} [Field K] [LinearOrder K] [IsStrictOrderedRing K] [FloorRing K]

/-- **C121.** `estimate_interval` of the embedding estimators bootstraps per-round values whose mean is the estimate on
all embedding dimensions, or fails as that estimate fails. -/
theorem C121_interval_all_dims (k : EmbKind) (nA : ℕ) (lrn) (a : EmbArgs K) :
    (∃ samples : List K, k.plainValue nA lrn a = npMean samples ∧
      ∀ c draws, k.estimateInterval nA lrn a c draws = bootstrapCI samples c draws) ∨
    ∃ err, k.plainValue nA lrn a = .error err ∧ ∀ c draws, k.estimateInterval nA lrn a c draws = .error err := by
  unfold EmbKind.plainValue EmbKind.estimateInterval
  cases hp : embPrepare a with
  | error e => exact Or.inr ⟨e, rfl, fun _ _ => rfl⟩
  | ok r =>
      cases hr : k.round nA lrn r with
      | error e =>
          refine Or.inr ⟨e, ?_, fun _ _ => ?_⟩ <;> rw [py_bind_ok, hr] <;> rfl
      | ok s =>
          refine Or.inl ⟨s, ?_, fun _ _ => ?_⟩ <;> rw [py_bind_ok, hr] <;> rfl

end

variable {n A L C D : ℕ}

/-- **C121.** Without embedding selection `estimate_interval` bootstraps per-round values whose mean is what
`estimate_policy_value` returns. Missing: with embedding selection this fails, see `C121_selection_ignored`. -/
theorem C121_interval_same_rounds_partial (k : EmbKind) (nA : ℕ) (lrn) (minEmb : ℕ) (tq : ℝ) (srt : List ℝ → List ℕ)
    (a : EmbArgs ℝ) :
    (∃ samples : List ℝ, k.estimatePolicyValue nA lrn none minEmb tq srt a = npMean samples ∧
      ∀ c draws, k.estimateInterval nA lrn a c draws = bootstrapCI samples c draws) ∨
    ∃ err, k.estimatePolicyValue nA lrn none minEmb tq srt a = .error err ∧
      ∀ c draws, k.estimateInterval nA lrn a c draws = .error err := by
  have h : k.estimatePolicyValue nA lrn none minEmb tq srt a = k.plainValue nA lrn a := by
    unfold EmbKind.estimatePolicyValue EmbKind.plainValue
    simp only [ite_self]
  rw [h]
  exact C121_interval_all_dims k nA lrn a

/-- **C121.** With embedding selection `estimate_policy_value` returns the estimate on some of the embedding dimensions,
while `estimate_interval` still bootstraps the estimate on all of them. -/
theorem C121_selection_ignored {g : EmbLog ℝ n A L C D} (hg : g.Valid) (hn : 2 ≤ n) (hD : 2 ≤ D)
    (hb : ∀ i d, g.marginal g.piB i d ≠ 0) {srt : List ℝ → List ℕ} (hs : Argsort srt) {minEmb : ℕ}
    (hmin : minEmb < D) (sel : EmbSel) (nA : ℕ) (lrn) (tq : ℝ) :
    ∃ (D' : ℕ) (s : Fin D' → Fin D) (samples : List ℝ), StrictMono s ∧
      EmbKind.mipw.estimatePolicyValue nA lrn (some sel) minEmb tq srt g.args =
        EmbKind.mipw.plainValue nA lrn (g.restrict s).args ∧
      EmbKind.mipw.plainValue nA lrn g.args = npMean samples ∧
      ∀ c draws, EmbKind.mipw.estimateInterval nA lrn g.args c draws = bootstrapCI samples c draws := by
  obtain ⟨D', s, v, -, -, hs', h1, h2⟩ := C49_api_value hg hn hD hb hs hmin .mipw sel nA lrn tq
  rcases C121_interval_all_dims .mipw nA lrn g.args with ⟨samples, h3, h4⟩ | ⟨err, h3, -⟩
  · exact ⟨D', s, samples, hs', h1.trans h2.symm, h3, h4⟩
  · have := EmbLog.value_mipw hg hb nA lrn
    rw [h3] at this
    simp at this

/-- **C121.** What is bootstrapped, for the two estimators: rewards times marginal embedding weights, divided by the mean
weight in the self-normalised one. -/
theorem C121_interval_formula {g : EmbLog ℝ n A L C D} (hg : g.Valid) (hb : ∀ i d, g.marginal g.piB i d ≠ 0)
    (nA : ℕ) (lrn) (c draws) :
    EmbKind.mipw.estimateInterval nA lrn g.args c draws =
        bootstrapCI (List.ofFn fun i => g.reward i * g.weight i) c draws ∧
      (avg g.weight ≠ 0 → EmbKind.snmipw.estimateInterval nA lrn g.args c draws =
        bootstrapCI (List.ofFn fun i => g.reward i * g.weight i / avg g.weight) c draws) := by
  constructor
  · unfold EmbKind.estimateInterval
    rw [EmbLog.prepare_eq hg, py_bind_ok, EmbLog.round_mipw _ hb, py_bind_ok]
  · intro hw
    unfold EmbKind.estimateInterval
    rw [EmbLog.prepare_eq hg, py_bind_ok, EmbLog.round_snmipw hg _ hb hw, py_bind_ok]

/-- **C121 is false with embedding selection.** On a two-round log with two embedding dimensions and `min_emb_dim = 2`,
`estimate_policy_value` raises UnboundLocalError for every selection method, while `estimate_interval` returns an
interval. -/
theorem C121_value_fails_interval_succeeds (sel : EmbSel) (k : EmbKind) (lrn) :
    k.estimatePolicyValue 2 lrn (some sel) 2 1 exArgsort exEmbLog2.args = .error .unboundLocalError ∧
      ∃ out, EmbKind.mipw.estimateInterval 2 lrn exEmbLog2.args (ciCall (1 / 20) 1) [[0, 1]] = .ok out := by
  refine ⟨C49_api_unbound exEmbLog2_valid (by decide) (by decide) exEmbLog2_support exArgsort_argsort (by decide)
    k sel 2 lrn 1, ?_⟩
  rw [(C121_interval_formula exEmbLog2_valid exEmbLog2_support 2 lrn _ _).1]
  obtain ⟨m, -, h⟩ := bootstrapCI_eq (samples := List.ofFn fun i => exEmbLog2.reward i * exEmbLog2.weight i)
    (nBoot := 1) (draws := [[0, 1]]) (by simp) (alpha := 1 / 20) (by norm_num) (by norm_num) le_rfl
    ⟨rfl, by simp⟩
  exact ⟨_, h⟩

example (lrn sel) := C121_selection_ignored exEmbLog2_valid (by decide) (by decide) exEmbLog2_support
  exArgsort_argsort (minEmb := 1) (by decide) sel 2 lrn 1
example (lrn) := C121_interval_formula exEmbLog2_valid exEmbLog2_support 2 lrn (ciCall (1 / 20) 1) [[0, 1]]
example : avg exEmbLog2.weight ≠ 0 := by
  norm_num [avg, EmbLog.weight, EmbLog.marginal, exEmbLog2, Fin.sum_univ_two]

end Obp
