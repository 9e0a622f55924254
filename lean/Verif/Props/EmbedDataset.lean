import Verif.Spec.EmbedDraws
import Verif.Lemmas.SlateDataset
import Verif.Props.EmbedReal
import Verif.Props.ContinuousDataset

set_option linter.unusedSectionVars false

/-! # Logged data with action embeddings -/

namespace Obp

variable {n A D E : ℕ}

theorem mapM_zipIdx_ofFn {α β : Type} {x : Fin n → α} {f : α × ℕ → Py β} {y : Fin n → β} (h : ∀ k, f (x k, (k : ℕ)) = .ok (y k)) :
    (List.ofFn x).zipIdx.mapM f = .ok (List.ofFn y) := by
  rw [mapM_ok_iff, List.forall₂_iff_get]
  refine ⟨by simp, fun k h1 h2 => ?_⟩
  have hk : k < n := by simpa using h2
  simpa using h ⟨k, hk⟩

theorem entryAt_fin {α : Type} (x : Fin n → α) (k : Fin n) : entryAt (List.ofFn x) (k : ℕ) = .ok (x k) := by
  unfold entryAt
  simp

theorem drop_ofFn {α : Type} (m : ℕ) (f : Fin (m + D) → α) : (List.ofFn f).drop m = List.ofFn fun d : Fin D => f (Fin.natAdd m d) := by
  refine List.ext_getElem (by simp) fun k h1 h2 => ?_
  have hk : k < D := by simpa using h2
  simp only [List.getElem_drop, List.getElem_ofFn]
  congr 1

theorem embedDot_ofFn (w : Fin D → ℝ) (q p : Fin D → Fin E → ℝ) :
    embedDot (List.ofFn w) (List.ofFn fun d => List.ofFn (q d)) (List.ofFn fun d => List.ofFn (p d)) =
      embedExpectedReward w (fun c d => q d c) fun c d => p d c := by
  unfold embedDot embedExpectedReward
  simp only [zipWith_ofFn, List.sum_ofFn]

theorem embedFactual_ofFn (w : Fin D → ℝ) (emb : Fin n → Fin D → Fin E) (q : Fin D → Fin E → ℝ) (i : Fin n) :
    embedFactual (List.ofFn w) (List.ofFn fun d => List.ofFn fun i => (emb i d : ℕ)) (List.ofFn fun d => List.ofFn (q d)) i =
      .ok (embedFactualReward w (fun c d => q d c) (emb i)) := by
  unfold embedFactual embedFactualReward
  rw [zip_ofFn, zip_ofFn, mapM_ofFn_ok (y := fun d => w d * q d (emb i d)) (fun d => ?_), py_bind_ok, py_pure, List.sum_ofFn]
  dsimp only
  rw [entryAt_fin (fun i => (emb i d : ℕ)) i, py_bind_ok, entryAt_fin (q d) (emb i d), py_bind_ok, py_pure]

/-- **C157, constructor.** The category distributions that the dataset defines are positive softmax distributions over the categories,
for every action and dimension, and the embedding kept for an action is drawn from its distribution. -/
theorem C157_constructor (hE : 0 < E) (x : Fin A → Fin D → Fin E → ℝ) (us : Fin D → Fin A → ℝ) (hu : ∀ d a, 0 ≤ us d a ∧ us d a < 1) :
    ∃ (p : Fin A → Fin D → Fin E → ℝ) (reg : Fin D → Fin A → Fin E),
      embedDefine (List.ofFn fun a => List.ofFn fun d => List.ofFn (x a d)) (List.ofFn fun d => List.ofFn (us d)) =
        .ok (List.ofFn fun a => List.ofFn fun d => List.ofFn (p a d), List.ofFn fun d => List.ofFn fun a => (reg d a : ℕ)) ∧
      (∀ a d, IsDist (p a d)) ∧ (∀ a d c, 0 < p a d c ∧ p a d c = Real.exp (x a d c) / ∑ c', Real.exp (x a d c')) ∧
      ∀ d a, (∑ c with c < reg d a, p a d c) ≤ us d a ∧ us d a < (∑ c with c < reg d a, p a d c) + p a d (reg d a) := by
  obtain ⟨E, rfl⟩ := Nat.exists_eq_succ_of_ne_zero hE.ne'
  let p : Fin A → Fin D → Fin (E + 1) → ℝ := fun a d c => Real.exp (x a d c) / ∑ c', Real.exp (x a d c')
  have hp : ∀ a d, IsDist (p a d) := fun a d => by
    have hZ : 0 < ∑ c', Real.exp (x a d c') := Finset.sum_pos (fun _ _ => Real.exp_pos _) ⟨0, Finset.mem_univ _⟩
    refine ⟨fun c => (div_pos (Real.exp_pos _) hZ).le, ?_⟩
    simp only [p]
    rw [← Finset.sum_div, div_self hZ.ne']
  have h := fun d => C01_sample_action_fast (p := fun a => p a d) (fun a => hp a d) (hu d)
  choose reg hreg hprop using h
  refine ⟨p, reg, ?_, hp, fun a d c => ⟨div_pos (Real.exp_pos _)
    (Finset.sum_pos (fun _ _ => Real.exp_pos _) ⟨0, Finset.mem_univ _⟩), rfl⟩, fun d a => (hprop d a).2⟩
  unfold embedDefine
  rw [mapM_ofFn_ok (y := fun a => List.ofFn fun d => List.ofFn (p a d)) (fun a => mapM_ofFn_ok fun d => C06_softmax_value _), py_bind_ok,
    mapM_zipIdx_ofFn (y := fun d => List.ofFn fun a => (reg d a : ℕ)) (fun d => ?_), py_bind_ok, py_pure]
  dsimp only
  rw [mapM_ofFn_ok (y := fun a => List.ofFn (p a d)) (fun a => entryAt_fin (fun d => List.ofFn (p a d)) d), py_bind_ok, hreg d]

/-- **C157, log.** For all category distributions, rewards of the categories and draws the log is returned. Actions are drawn from the
behaviour policy, a softmax over `A - nDef` supported actions; dimension `d` of a round's embedding is drawn from the category
distribution of the logged action; propensities are the probabilities of the logged actions; the reported expected rewards are those of
the actions, the mean of a round's reward is that of its embedding; the first `nUn + 1` dimensions are hidden everywhere. -/
theorem C157_feedback (beta : ℝ) {nDef : ℕ} (hd : nDef < A) (nUn : ℕ) (w : Fin (nUn + 1 + D) → ℝ)
    (p : Fin A → Fin (nUn + 1 + D) → Fin E → ℝ) (hp : ∀ a d, IsDist (p a d)) (reg : Fin (nUn + 1 + D) → Fin A → Fin E)
    (q : Fin n → Fin (nUn + 1 + D) → Fin E → ℝ) (behavior : Option (Fin n → Fin A → ℝ)) (orders : Fin n → List ℕ)
    (ho : ∀ i, (orders i).Perm (List.range A)) :
    ∃ (pi : Fin n → Fin A → ℝ) (supp : Fin n → Finset (Fin A)), (∀ i, IsDist (pi i)) ∧ (∀ i, (supp i).card = A - nDef) ∧
      (∀ i a, a ∈ supp i ↔ 0 < pi i a) ∧
      (∀ i, ∀ a ∈ supp i, pi i a = Real.exp (beta * behavior.getD
        (fun i a => embedExpectedReward w (fun c d => q i d c) fun c d => p a d c) i a) / ∑ b ∈ supp i, Real.exp (beta * behavior.getD
        (fun i a => embedExpectedReward w (fun c d => q i d c) fun c d => p a d c) i b)) ∧
      ∀ (u : Fin n → ℝ) (v : Fin (nUn + 1 + D) → Fin n → ℝ), (∀ i, 0 ≤ u i ∧ u i < 1) → (∀ d i, 0 ≤ v d i ∧ v d i < 1) →
      ∃ (act : Fin n → Fin A) (emb : Fin n → Fin (nUn + 1 + D) → Fin E),
        embedFeedback beta nDef nUn (List.ofFn w) (List.ofFn fun a => List.ofFn fun d => List.ofFn (p a d))
          (List.ofFn fun d => List.ofFn fun a => (reg d a : ℕ)) (List.ofFn fun i => List.ofFn fun d => List.ofFn (q i d))
          (behavior.map fun l => List.ofFn fun i => List.ofFn (l i)) (List.ofFn orders) (List.ofFn u) (List.ofFn fun d => List.ofFn (v d)) =
          .ok { actionContext := List.ofFn fun d : Fin D => List.ofFn fun a => (reg (Fin.natAdd _ d) a : ℕ)
                embed := List.ofFn fun d : Fin D => List.ofFn fun i => (emb i (Fin.natAdd _ d) : ℕ)
                action := List.ofFn fun i => (act i : ℕ)
                rewardMean := List.ofFn fun i => embedFactualReward w (fun c d => q i d c) (emb i)
                expectedReward := List.ofFn fun i => List.ofFn fun a => embedExpectedReward w (fun c d => q i d c) fun c d => p a d c
                qxe := List.ofFn fun i => List.ofFn fun d : Fin D => List.ofFn (q i (Fin.natAdd _ d))
                pEA := List.ofFn fun a => List.ofFn fun d : Fin D => List.ofFn (p a (Fin.natAdd _ d))
                piB := List.ofFn fun i => List.ofFn (pi i)
                pscore := List.ofFn fun i => pi i (act i) } ∧
        (∀ i, 0 < pi i (act i) ∧ (∑ a with a < act i, pi i a) ≤ u i ∧ u i < (∑ a with a < act i, pi i a) + pi i (act i)) ∧
        ∀ i d, (∑ c with c < emb i d, p (act i) d c) ≤ v d i ∧ v d i < (∑ c with c < emb i d, p (act i) d c) + p (act i) d (emb i d) := by
  let expected : Fin n → Fin A → ℝ := fun i a => embedExpectedReward w (fun c d => q i d c) fun c d => p a d c
  have hrow := fun i => syntheticBehaviorRow_spec beta hd (behavior.getD expected i) (ho i)
  choose pi supp hpi hcard hdist hsupp hval using hrow
  refine ⟨pi, supp, hdist, hcard, hsupp, hval, fun u v hu hv => ?_⟩
  have hlog : (behavior.map fun l => List.ofFn fun i => List.ofFn (l i)).getD (List.ofFn fun i => List.ofFn (expected i)) =
      List.ofFn fun i => List.ofFn (behavior.getD expected i) := by
    cases behavior <;> rfl
  obtain ⟨act, hact, hprop⟩ := C01_sample_action_fast hdist hu
  have he := fun d => C106_embedding_sampled (fun a => p a d) (fun a => hp a d) act (v d) (hv d)
  choose emb hemb hembp using he
  refine ⟨act, fun i d => emb d i, ?_, hprop, fun i d => (hembp d i).2⟩
  have hexp : ((List.ofFn fun i => List.ofFn fun d => List.ofFn (q i d)).map fun qi =>
      (List.ofFn fun a => List.ofFn fun d => List.ofFn (p a d)).map fun pa => embedDot (List.ofFn w) qi pa) =
      List.ofFn fun i => List.ofFn (expected i) := by
    simp only [List.map_ofFn, Function.comp_def, embedDot_ofFn, expected]
  have hsyn : syntheticFeedback beta nDef (List.ofFn fun i => List.ofFn (expected i))
      (behavior.map fun l => List.ofFn fun i => List.ofFn (l i)) (List.ofFn orders) (List.ofFn u) =
      .ok ⟨List.ofFn fun i => (act i : ℕ), List.ofFn fun i => List.ofFn (expected i), List.ofFn fun i => List.ofFn (pi i),
        List.ofFn fun i => pi i (act i)⟩ := by
    unfold syntheticFeedback
    dsimp only
    rw [hlog, zip_ofFn, mapM_ofFn_ok (y := fun i => List.ofFn (pi i)) hpi, py_bind_ok, hact, py_bind_ok,
      gather_ofFn pi act, py_bind_ok, py_pure]
  unfold embedFeedback
  dsimp only
  rw [hexp, hsyn, py_bind_ok, mapM_zipIdx_ofFn (y := fun d => List.ofFn fun i => (emb d i : ℕ)) (fun d => ?_), py_bind_ok,
    mapM_zipIdx_ofFn (y := fun i => embedFactualReward w (fun c d => q i d c) fun d => emb d i)
      (fun i => embedFactual_ofFn w (fun i d => emb d i) (q i) i), py_bind_ok, py_pure]
  · simp only [List.map_ofFn, Function.comp_def, drop_ofFn]
    rfl
  · dsimp only
    rw [mapM_ofFn_ok (y := fun a => List.ofFn (p a d)) (fun a => entryAt_fin (fun d => List.ofFn (p a d)) d), py_bind_ok, hemb d]

end Obp
