import Verif.Spec.Embed
import Verif.Lemmas.Estimators
import Verif.Lemmas.Avg
import Mathlib.Algebra.BigOperators.Ring.Finset

/-! # Helper lemmas about the embedding estimators -/

set_option linter.unusedSectionVars false

namespace Obp
open Log

variable {K : Type} [Field K] [LinearOrder K] [IsStrictOrderedRing K]
variable {n A L C D : ℕ}

theorem fancy2_ofFn {m : ℕ} (f : Fin n → Fin m → K) (c : Fin n → Fin m) :
    fancy2 (List.ofFn fun i => List.ofFn (f i)) (arange n) (List.ofFn fun i => ((c i : ℕ) : ℤ)) =
      .ok (List.ofFn fun i => f i (c i)) := by
  unfold fancy2
  rw [arange_eq_ofFn]
  simp only [List.length_ofFn, bcastLen, if_true]
  rw [mapM_ok_iff, List.forall₂_iff_get]
  refine ⟨by simp, ?_⟩
  intro j h1 h2
  simp only [List.length_range] at h1
  simp only [List.get_eq_getElem, List.getElem_range, List.getElem_ofFn]
  rw [bget_ofFn (fun i : Fin n => ((i : ℕ) : ℤ)) ⟨j, h1⟩,
    bget_ofFn (fun i : Fin n => ((c i : ℕ) : ℤ)) ⟨j, h1⟩]
  have h3 : wrapIdx (List.ofFn fun i => List.ofFn (f i)).length ((j : ℕ) : ℤ) =
      some ⟨j, by simpa using h1⟩ := wrapIdx_lt _
  simp only [Option.bind_some, h3]
  have h4 : wrapIdx ((List.ofFn fun i => List.ofFn (f i)).get ⟨j, by simpa using h1⟩).length
      ((c ⟨j, h1⟩ : ℕ) : ℤ) = some ⟨c ⟨j, h1⟩, by simp⟩ := wrapIdx_lt _
  simp only [List.get_eq_getElem] at h4 ⊢
  rw [h4]

theorem imul_ofFn (x y : Fin n → K) :
    imul (List.ofFn x) (List.ofFn y) = .ok (List.ofFn fun i => x i * y i) := by
  unfold imul
  simp only [List.length_ofFn, if_true]
  congr 1
  apply List.ext_getElem <;> simp

theorem matmulDim_ofFn (x : Fin n → Fin A → K) (p : Fin A → Fin C → Fin D → K) (d : Fin D) :
    matmulDim (List.ofFn fun i => List.ofFn (x i)) ⟨A, C, D, p⟩ d =
      .ok (List.ofFn fun i => List.ofFn fun c => ∑ a, x i a * p a c d) := by
  unfold matmulDim
  refine mapM_ofFn_ok fun i => ?_
  rw [dif_pos (by simp)]
  simp

namespace EmbLog

/-- The validated arguments. -/
def embIn (g : EmbLog K n A L C D) (p : Option (Arr3 K)) (ctx : Arr2 K) : EmbIn K where
  reward := List.ofFn g.reward
  action := List.ofFn fun i => ((g.action i : ℕ) : ℤ)
  embed := ⟨n, D, fun i d => ((g.embed i d : ℕ) : ℤ)⟩
  context := ctx
  piB := ⟨n, A, L, g.piB⟩
  dist := ⟨n, A, L, g.piE⟩
  position := List.ofFn fun i => ((g.position i : ℕ) : ℤ)
  pEA := p

theorem check_eq {g : EmbLog K n A L C D} (hn : 0 < n) (pi : Fin n → Fin A → Fin L → K)
    (h : ∀ i l, closeToOne (∑ a, pi i a l) = true) :
    checkOpeInputs { actionDist := .arr ⟨n, A, L, pi⟩
                     position := .int (List.ofFn fun i => ((g.position i : ℕ) : ℤ))
                     action := .int (List.ofFn fun i => ((g.action i : ℕ) : ℤ))
                     reward := .flt (List.ofFn g.reward) } = .ok (⟨n, A, L, pi⟩ : Arr3 K) := by
  simp only [checkOpeInputs, checkArray3, checkRegModel, py_bind_ok,
    Arg3.isNone, checkEstIw, Arg1.isNone, if_false, Bool.true_eq_false, checkPscore]
  rw [raiseIf_neg (by simp [distSumsToOne_of (x := ⟨n, A, L, pi⟩) h]),
    checkPosition_ofFn hn ⟨n, A, L, pi⟩ rfl g.position,
    checkActionReward_ofFn hn ⟨n, A, L, pi⟩ g.action g.reward]
  rfl

theorem prepare_eq {g : EmbLog K n A L C D} (h : g.Valid) :
    embPrepare g.args = .ok (g.embIn (some ⟨A, C, D, g.pEA⟩) ⟨0, 0, fun i _ => i.elim0⟩) := by
  simp only [embPrepare, args, checkArray1, checkArray3, checkEmbed, py_bind_ok,
    g.check_eq h.nonempty g.piB h.piB_sum, g.check_eq h.nonempty g.piE h.piE_sum]
  rfl

theorem prepareCtx_eq {m : ℕ} {g : EmbLog K n A L C D} (h : g.Valid) (ctx : Fin n → Fin m → K) :
    embPrepare (g.argsCtx ctx) = .ok (g.embIn none ⟨n, m, ctx⟩) := by
  simp only [embPrepare, argsCtx, args, checkArray1, checkArray3, checkEmbed, py_bind_ok,
    g.check_eq h.nonempty g.piB h.piB_sum, g.check_eq h.nonempty g.piE h.piE_sum]
  rfl

theorem embStep_eq (g : EmbLog K n A L C D) (q : Option (Arr3 K)) (ctx : Arr2 K) (b e : Fin n → K)
    (d : Fin D) :
    embStep (g.embIn q ctx) ⟨A, C, D, g.pEA⟩ n (List.ofFn b, List.ofFn e) d =
      .ok (List.ofFn fun i => b i * g.marginal g.piB i d,
        List.ofFn fun i => e i * g.marginal g.piE i d) := by
  have hB := fancyRow_ofFn ⟨n, A, L, g.piB⟩ g.position
  have hE := fancyRow_ofFn ⟨n, A, L, g.piE⟩ g.position
  simp only [embStep, embIn] at hB hE ⊢
  rw [hB, py_bind_ok, matmulDim_ofFn (fun i a => g.piB i a (g.position i)), py_bind_ok]
  have hc : (Arr2.mk n D fun i d => ((g.embed i d : ℕ) : ℤ)).col d =
      .ok (List.ofFn fun i => ((g.embed i d : ℕ) : ℤ)) := by
    unfold Arr2.col; rw [dif_pos d.isLt]
  rw [hc, py_bind_ok, fancy2_ofFn (fun i c => ∑ a, g.piB i a (g.position i) * g.pEA a c d)
    (fun i => g.embed i d), py_bind_ok, imul_ofFn, py_bind_ok, hE, py_bind_ok,
    matmulDim_ofFn (fun i a => g.piE i a (g.position i)), py_bind_ok,
    fancy2_ofFn (fun i c => ∑ a, g.piE i a (g.position i) * g.pEA a c d) (fun i => g.embed i d),
    py_bind_ok, imul_ofFn]
  rfl

theorem embFold_eq (g : EmbLog K n A L C D) (q : Option (Arr3 K)) (ctx : Arr2 K) (ds : List (Fin D))
    (b e : Fin n → K) :
    ds.foldlM (embStep (g.embIn q ctx) ⟨A, C, D, g.pEA⟩ n) (List.ofFn b, List.ofFn e) =
      .ok (List.ofFn fun i => b i * (ds.map (g.marginal g.piB i)).prod,
        List.ofFn fun i => e i * (ds.map (g.marginal g.piE i)).prod) := by
  induction ds generalizing b e with
  | nil => simp
  | cons d ds ih =>
    rw [List.foldlM_cons, embStep_eq, py_bind_ok, ih]
    simp [mul_assoc]

theorem weightsGiven_eq (g : EmbLog K n A L C D) (q : Option (Arr3 K)) (ctx : Arr2 K)
    (hb : ∀ i d, g.marginal g.piB i d ≠ 0) :
    embWeightsGiven (g.embIn q ctx) ⟨A, C, D, g.pEA⟩ = .ok (List.ofFn g.weight) := by
  unfold embWeightsGiven
  have h1 : (List.replicate n (1 : K)) = List.ofFn fun _ : Fin n => (1 : K) := by
    rw [List.ofFn_const]
  have hl : (g.embIn q ctx).reward.length = n := by simp [embIn]
  dsimp only
  rw [hl, h1, embFold_eq, py_bind_ok]
  refine bopM_ofFn_ok _ _ _ _ fun i => ?_
  simp only [one_mul, ← Fin.prod_univ_def]
  exact npDiv_ok (Finset.prod_ne_zero_iff.2 fun d _ => hb i d)

theorem weightsGiven_zero (g : EmbLog K n A L C D) (q : Option (Arr3 K)) (ctx : Arr2 K)
    (hb : ∃ i d, g.marginal g.piB i d = 0) :
    embWeightsGiven (g.embIn q ctx) ⟨A, C, D, g.pEA⟩ = .error .nonFinite := by
  unfold embWeightsGiven
  have h1 : (List.replicate n (1 : K)) = List.ofFn fun _ : Fin n => (1 : K) := by
    rw [List.ofFn_const]
  have hl : (g.embIn q ctx).reward.length = n := by simp [embIn]
  dsimp only
  rw [hl, h1, embFold_eq, py_bind_ok]
  unfold bopM
  rw [bop_ofFn, py_bind_ok]
  obtain ⟨i, d, hd⟩ := hb
  refine mapM_error_of (fun x _ => ?_) ⟨_, List.mem_ofFn.2 ⟨i, rfl⟩, ?_⟩
  · unfold npDiv; split
    · exact Or.inr rfl
    · exact Or.inl ⟨_, rfl⟩
  · dsimp only
    simp only [one_mul, ← Fin.prod_univ_def]
    rw [Finset.prod_eq_zero (Finset.mem_univ d) hd, npDiv_zero]

theorem round_mipw {g : EmbLog K n A L C D} (ctx : Arr2 K)
    (hb : ∀ i d, g.marginal g.piB i d ≠ 0) (nA : ℕ) (lrn) :
    EmbKind.mipw.round nA lrn (g.embIn (some ⟨A, C, D, g.pEA⟩) ctx) =
      .ok (List.ofFn fun i => g.reward i * g.weight i) := by
  unfold EmbKind.round embWeights
  simp only [embIn]
  have := g.weightsGiven_eq (some ⟨A, C, D, g.pEA⟩) ctx hb
  simp only [embIn] at this
  rw [this, py_bind_ok, bop_ofFn, py_bind_ok]
  rfl

theorem round_snmipw {g : EmbLog K n A L C D} (hg : g.Valid) (ctx : Arr2 K)
    (hb : ∀ i d, g.marginal g.piB i d ≠ 0) (hw : avg g.weight ≠ 0) (nA : ℕ) (lrn) :
    EmbKind.snmipw.round nA lrn (g.embIn (some ⟨A, C, D, g.pEA⟩) ctx) =
      .ok (List.ofFn fun i => g.reward i * g.weight i / avg g.weight) := by
  unfold EmbKind.round embWeights
  simp only [embIn]
  have := g.weightsGiven_eq (some ⟨A, C, D, g.pEA⟩) ctx hb
  simp only [embIn] at this
  rw [this, py_bind_ok, bop_ofFn, py_bind_ok, npMean_ofFn hg.nonempty, py_bind_ok]
  exact mapM_ofFn_ok (f := fun x => npDiv x (avg g.weight)) fun i => npDiv_ok hw

theorem value_mipw {g : EmbLog K n A L C D} (hg : g.Valid)
    (hb : ∀ i d, g.marginal g.piB i d ≠ 0) (nA : ℕ) (lrn) :
    EmbKind.mipw.plainValue nA lrn g.args = .ok (avg fun i => g.reward i * g.weight i) := by
  unfold EmbKind.plainValue
  rw [prepare_eq hg, py_bind_ok, round_mipw _ hb, py_bind_ok, npMean_ofFn hg.nonempty]
  rfl

theorem value_snmipw {g : EmbLog K n A L C D} (hg : g.Valid)
    (hb : ∀ i d, g.marginal g.piB i d ≠ 0) (hw : avg g.weight ≠ 0) (nA : ℕ) (lrn) :
    EmbKind.snmipw.plainValue nA lrn g.args =
      .ok (avg fun i => g.reward i * g.weight i / avg g.weight) := by
  unfold EmbKind.plainValue
  rw [prepare_eq hg, py_bind_ok, round_snmipw hg _ hb hw, py_bind_ok, npMean_ofFn hg.nonempty]
  rfl

end EmbLog

end Obp
