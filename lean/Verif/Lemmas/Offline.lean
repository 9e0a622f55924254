import Verif.Spec.Offline
import Verif.Spec.Policy
import Verif.Lemmas.Regression
import Verif.Lemmas.Numpy

/-! # Lemmas on the offline policy learners -/

set_option linter.unusedSectionVars false

namespace Obp

variable {K : Type} [Field K] [LinearOrder K] [IsStrictOrderedRing K] {M : Type} {A L n d : ℕ}

theorem checkTau_pos {t : K} (ht : 0 ≤ t) : checkTau (.flt t) = .ok t := by
  simp [checkTau, not_lt.2 ht]

/-- Gathering one column per position. -/
theorem cols_mapM {α : Type} {f : Fin L → Py α} {g : Fin L → α} (h : ∀ p, f p = .ok (g p)) :
    (List.finRange L).mapM f = .ok (List.ofFn g) := by
  rw [mapM_map_ok (g := g) (fun p _ => h p), List.ofFn_eq_map]

theorem getD_ofFn' {α : Type} (g : Fin L → α) (p : Fin L) (x : α) : (List.ofFn g).getD p x = g p := by
  simp [List.getD_eq_getElem?_getD]

theorem npArgmax_eq [NeZero A] (q : Fin A → K) :
    ∃ b : Fin A, npArgmax (List.ofFn q) = .ok b.val ∧ IsFirstBest q b := by
  have hne : List.ofFn q ≠ [] := by
    rw [ne_eq, List.ofFn_eq_nil_iff]; exact NeZero.ne A
  have h1 : npArgmax (List.ofFn q) =
      .ok ((List.ofFn q).findIdx fun y => decide (∀ z ∈ List.ofFn q, z ≤ y)) := by
    cases h : List.ofFn q with
    | nil => exact absurd h hne
    | cons x xs => rfl
  obtain ⟨m, hm⟩ := Finite.exists_max q
  have hlt : (List.ofFn q).findIdx (fun y => decide (∀ z ∈ List.ofFn q, z ≤ y)) < (List.ofFn q).length := by
    rw [List.findIdx_lt_length]
    refine ⟨q m, by simp, ?_⟩
    simpa using hm
  have hlt' := hlt
  rw [List.length_ofFn] at hlt'
  refine ⟨⟨_, hlt'⟩, h1, ?_, ?_⟩
  · have := List.findIdx_getElem (w := hlt)
    simpa using this
  · intro a ha
    have hb := List.findIdx_getElem (w := hlt)
    have := List.not_of_lt_findIdx (i := a.val) (p := fun y => decide (∀ z ∈ List.ofFn q, z ≤ y)) (xs := List.ofFn q) ha
    rw [decide_eq_true_eq] at hb
    simp only [decide_eq_false_iff_not, not_forall, not_le, List.getElem_ofFn] at this hb
    obtain ⟨z, hz, hc⟩ := this
    exact lt_of_lt_of_le hc (hb z hz)

theorem IsFirstBest.unique {q : Fin A → K} {b c : Fin A} (hb : IsFirstBest q b) (hc : IsFirstBest q c) :
    b = c := by
  rcases lt_trichotomy b c with h | h | h
  · exact absurd (hc.first b h) (not_lt.2 (hb.best c))
  · exact h
  · exact absurd (hb.first c h) (not_lt.2 (hc.best b))

theorem argmaxRow_eq [NeZero A] (q : Fin A → Fin L → K) :
    ∃ b : Fin L → Fin A, (∀ p, IsFirstBest (fun a => q a p) (b p)) ∧
      argmaxRow q = .ok fun a p => pointMass (b p) a := by
  choose b hb using fun p => npArgmax_eq fun a => q a p
  refine ⟨b, fun p => (hb p).2, ?_⟩
  unfold argmaxRow
  rw [cols_mapM fun p => (hb p).1, py_bind_ok]
  congr 1
  funext a p
  simp [pointMass, Fin.ext_iff, eq_comm]

/-! ### rankings -/

theorem rankingRow_ok {argsort : List K → List ℕ} (h : IsArgsort argsort) (hL : L ≤ A) (u : Fin A → K) :
    ∃ v, rankingRow argsort L u = .ok v ∧ IsSampledRanking u v := by
  set xs := (List.ofFn u).map fun x => -x with hxs
  have hlen : xs.length = A := by simp [hxs]
  have hget : ∀ i (hi : i < A), xs[i]? = some (-u ⟨i, hi⟩) := by
    intro i hi; simp [hxs, hi]
  obtain ⟨hp, hs⟩ := h xs
  rw [hlen] at hp
  have hrl : (argsort xs).length = A := by rw [hp.length_eq, List.length_range]
  have hmem : ∀ i (hi : i < (argsort xs).length), (argsort xs)[i] < A := by
    intro i hi
    exact List.mem_range.1 (hp.mem_iff.1 (List.getElem_mem hi))
  have hnd : (argsort xs).Nodup := hp.nodup_iff.2 List.nodup_range
  let r : Fin L → Fin A := fun p => ⟨(argsort xs)[p.val]'(by omega), hmem _ _⟩
  refine ⟨fun a p => pointMass (r p) a, ?_, r, ?_, fun _ _ => rfl, ?_, ?_⟩
  · unfold rankingRow
    rw [← hxs]
    rw [cols_mapM (g := r) fun p => by
        have hpl : p.val < (argsort xs).length := by omega
        unfold rankedAction
        rw [List.getElem?_eq_getElem hpl]
        simp only [hmem p.val hpl, dite_true]
        rfl]
    rw [py_bind_ok]
    change Except.ok _ = _
    congr 1
    funext a p
    simp [pointMass, eq_comm]
  · intro p p' hpp
    have := congrArg Fin.val hpp
    simp only [r] at this
    exact Fin.ext ((List.Nodup.getElem_inj_iff hnd).1 this)
  · intro p p' hlt
    have := List.pairwise_iff_getElem.1 hs p.val p'.val (by omega) (by omega) hlt _ _
      (hget _ (hmem _ _)) (hget _ (hmem _ _))
    exact neg_le_neg_iff.1 this
  · intro a ha p
    obtain ⟨j, hj, hja⟩ := List.getElem_of_mem (hp.mem_iff.2 (List.mem_range.2 a.isLt))
    have hjL : L ≤ j := by
      by_contra hc
      exact ha ⟨j, by omega⟩ (Fin.ext hja)
    have := List.pairwise_iff_getElem.1 hs p.val j (by omega) hj (by omega) _ _
      (hget _ (hmem _ _)) (hget _ (hmem _ _))
    have := neg_le_neg_iff.1 this
    have e : (⟨(argsort xs)[j], hmem j hj⟩ : Fin A) = a := Fin.ext hja
    rw [e] at this
    exact this

theorem perturbedScores_ok {L' : ℕ} (hL' : 0 < L') (score : Fin A → Fin L' → K) {tau : K} (ht : tau ≠ 0)
    (noise : Fin A → K) : perturbedScores score tau noise = .ok (utility score tau noise) := by
  unfold perturbedScores
  rw [cols_mapM (g := fun a => (∑ p, score a p) / (L' : K) / tau) fun a => by
    rw [npMean, if_neg (by simp; omega), py_bind_ok, npDiv_ok ht]
    simp [List.sum_ofFn]]
  rw [py_bind_ok]
  change Except.ok _ = _
  congr 1
  funext a
  simp [utility]

theorem sampleRankings_ok {L' : ℕ} (hL' : 0 < L') {argsort : List K → List ℕ} (h : IsArgsort argsort)
    (hL : L ≤ A) {tau : K} (ht : 0 < tau) (scores : Fin n → Fin A → Fin L' → K)
    (noise : ℕ → Fin A → K) :
    ∃ out : Fin n → Fin A → Fin L → K,
      sampleRankings argsort L (.flt tau) (List.ofFn scores) noise = .ok (List.ofFn out) ∧
      ∀ i, IsSampledRanking (utility (scores i) tau (noise i)) (out i) := by
  choose out hout using fun i : Fin n => rankingRow_ok (L := L) h hL (utility (scores i) tau (noise i))
  refine ⟨out, ?_, fun i => (hout i).2⟩
  unfold sampleRankings
  rw [checkTau_pos ht.le, py_bind_ok]
  have hz : (List.ofFn scores).zipIdx = List.ofFn fun i : Fin n => (scores i, i.val) := by
    apply List.ext_getElem <;> simp
  rw [hz]
  refine mapM_ofFn_ok fun i => ?_
  rw [perturbedScores_ok hL' _ ht.ne', py_bind_ok]
  exact (hout i).1

/-! ### scores -/

theorem checkArray2_arr' (t : Arr2 K) : checkArray2 (.arr t) = .ok t := rfl

theorem ipwScore_ok (clf : WClassifier M K) (ms : Fin L → M) (c : Fin n → Fin d → K)
    (h : ∀ i p, (clf.proba (ms p) (List.ofFn (c i))).length = A) :
    ipwScore clf ⟨A, L⟩ ms (.arr ⟨n, d, c⟩) =
      .ok (List.ofFn fun i (a : Fin A) p => (clf.proba (ms p) (List.ofFn (c i)))[a.val]'(by
        rw [h]; exact a.isLt)) := by
  unfold ipwScore
  rw [checkArray2_arr', py_bind_ok]
  refine mapM_ofFn_ok fun i => ?_
  rw [cols_mapM (g := fun p (a : Fin A) => (clf.proba (ms p) (List.ofFn (c i)))[a.val]'(by
        rw [h]; exact a.isLt)) fun p => by
      unfold ipwScoreEntry
      rw [if_pos (h i p)]
      congr 1
      funext a
      have := a.isLt
      simp [List.getD_eq_getElem?_getD, h]]
  rw [py_bind_ok]
  change Except.ok _ = _
  congr 1
  funext a p
  rw [getD_ofFn']

theorem qLearnerScore_ok (lrn : Learner M K) (ms : Fin L → M) (c : Fin n → Fin d → K) (method : FitMethod) :
    qLearnerScore lrn (qConfig K A L method) ms (.arr ⟨n, d, c⟩) =
      .ok (List.ofFn fun i (a : Fin A) p => qValue lrn c i (ms p) a) := by
  unfold qLearnerScore
  rw [checkArray2_arr', py_bind_ok]
  unfold RegConfig.predictRows
  rw [show checkArray2 (qConfig K A L method).actionContext = .ok (eye A) from rfl, py_bind_ok]
  rw [dif_pos (show (qConfig K A L method).nActions ≤ (eye A : Arr2 K).n from le_rfl)]
  change Except.ok _ = _
  congr 1
  rw [List.map_ofFn]
  rfl

theorem nnPredictProba_ok (net : List K → Fin A → K) (c : Fin n → Fin d → K) :
    nnPredictProba d net (.arr ⟨n, d, c⟩) = .ok (List.ofFn fun i (a : Fin A) _ => net (List.ofFn (c i)) a) := by
  unfold nnPredictProba
  rw [checkArray2_arr', py_bind_ok, raiseIf_neg (by simp), py_bind_ok]
  rfl

end Obp
