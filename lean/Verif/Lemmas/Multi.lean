import Verif.Spec.Multi
import Verif.Lemmas.Estimators
import Verif.Lemmas.Avg
import Verif.Lemmas.Slate

/-! # Helper lemmas about the multi-logger estimators -/

set_option linter.unusedSectionVars false

namespace Obp
open Log

variable {K : Type} [Field K] [LinearOrder K] [IsStrictOrderedRing K]
variable {n A L : ℕ}

theorem maskSel_ofFn (m : Fin n → Bool) (f : Fin n → K) :
    maskSel (List.ofFn m) (List.ofFn f) = .ok (((List.finRange n).filter m).map f) := by
  unfold maskSel
  rw [if_pos (by simp)]
  congr 1
  have h : List.zip (List.ofFn m) (List.ofFn f) = (List.finRange n).map fun i => (m i, f i) := by
    apply List.ext_getElem <;> simp
  rw [h, List.filter_map, List.map_map]
  rfl

theorem bop_map {α β γ δ : Type} (g : α → β → γ) (l : List δ) (f : δ → α) (h : δ → β) :
    bop g (l.map f) (l.map h) = .ok (l.map fun i => g (f i) (h i)) := by
  unfold bop
  rw [if_pos (by simp)]
  congr 1
  apply List.ext_getElem <;> simp

theorem npMean_filter (p : Fin n → Prop) [DecidablePred p] (f : Fin n → K) (h : ∃ i, p i) :
    npMean (((List.finRange n).filter fun i => decide (p i)).map f) =
      .ok ((∑ i with p i, f i) / ((Finset.univ.filter p).card : K)) := by
  have hs : (((List.finRange n).filter fun i => decide (p i)).map f).sum = ∑ i with p i, f i := by
    rw [Finset.sum_filter, ← List.sum_ofFn, List.ofFn_eq_map]
    generalize List.finRange n = l
    induction l with
    | nil => rfl
    | cons x xs ih =>
      by_cases hx : p x
      · simp [hx, ih]
      · simp [hx, ih]
  have hl : (((List.finRange n).filter fun i => decide (p i)).map f).length = (Finset.univ.filter p).card := by
    rw [List.length_map, ← List.toFinset_card_of_nodup ((List.nodup_finRange n).filter _)]
    congr 1
    ext i; simp
  unfold npMean
  rw [hs, hl, if_neg]
  obtain ⟨i, hi⟩ := h
  exact (Finset.card_pos.2 ⟨i, by simp [hi]⟩).ne'

namespace MLog

theorem npVar_stratum (g : MLog K n A L) (f : Fin n → K) (k : ℕ) (hk : k ∈ g.labels) :
    npVar (((List.finRange n).filter fun i => decide (g.stratum i = k)).map f) = .ok (g.stratumVar f k) := by
  have h : ∃ i, g.stratum i = k := by simpa [labels] using hk
  unfold npVar
  rw [npMean_filter _ f h, py_bind_ok, List.map_map]
  exact npMean_filter _ _ h

/-- The stratum argument. -/
def strata (g : MLog K n A L) : List ℤ := List.ofFn fun i => ((g.stratum i : ℕ) : ℤ)

theorem mem_strata (g : MLog K n A L) (z : ℤ) : z ∈ g.strata ↔ ∃ k ∈ g.labels, z = ((k : ℕ) : ℤ) := by
  simp only [strata, List.mem_ofFn', Set.mem_range, labels, Finset.mem_image, Finset.mem_univ, true_and]
  constructor
  · rintro ⟨i, rfl⟩; exact ⟨_, ⟨i, rfl⟩, rfl⟩
  · rintro ⟨k, ⟨i, rfl⟩, rfl⟩; exact ⟨i, rfl⟩

theorem unique_length (g : MLog K n A L) : (npUnique g.strata).length = g.labels.card := by
  rw [← List.toFinset_card_of_nodup (npUnique_nodup _)]
  have : (npUnique g.strata).toFinset = g.labels.image fun k : ℕ => (k : ℤ) := by
    ext z
    rw [List.mem_toFinset, npUnique_mem, mem_strata, Finset.mem_image]
    constructor
    · rintro ⟨k, h, rfl⟩; exact ⟨k, h, rfl⟩
    · rintro ⟨k, h, rfl⟩; exact ⟨k, h, rfl⟩
  rw [this, Finset.card_image_of_injective _ Nat.cast_injective]

theorem labels_eq {g : MLog K n A L} (h : g.Contiguous) : g.labels = Finset.range g.labels.card := by
  apply Finset.eq_of_subset_of_card_le
  · intro k hk
    obtain ⟨i, -, rfl⟩ := Finset.mem_image.1 hk
    exact Finset.mem_range.2 (h i)
  · simp

theorem mem_labels {g : MLog K n A L} (h : g.Contiguous) (k : Fin g.labels.card) : (k : ℕ) ∈ g.labels := by
  have := Finset.mem_range.2 k.isLt
  rwa [← labels_eq h] at this

theorem unique_eq {g : MLog K n A L} (h : g.Contiguous) :
    npUnique g.strata = List.ofFn fun k : Fin g.labels.card => ((k : ℕ) : ℤ) := by
  have hp : (npUnique g.strata).Perm (List.ofFn fun k : Fin g.labels.card => ((k : ℕ) : ℤ)) := by
    rw [List.perm_ext_iff_of_nodup (npUnique_nodup _)
      (List.nodup_ofFn.2 fun a b hab => Fin.ext (by exact_mod_cast hab))]
    intro z
    rw [npUnique_mem, mem_strata, List.mem_ofFn', Set.mem_range]
    constructor
    · rintro ⟨k, hk, rfl⟩
      rw [labels_eq h, Finset.mem_range] at hk
      exact ⟨⟨k, hk⟩, rfl⟩
    · rintro ⟨k, rfl⟩
      exact ⟨k, mem_labels h k, rfl⟩
  refine hp.eq_of_pairwise (le := (· ≤ ·)) (fun a b _ _ h1 h2 => le_antisymm h1 h2) ?_ ?_
  · exact List.pairwise_insertionSort _ _
  · rw [List.pairwise_ofFn]
    intro i j hij
    have : (i : ℕ) < j := hij
    omega

theorem varStep_ok {m : ℕ} (var : ℕ → K) (vals : List Bool → Py (List K)) (stratum : List ℤ)
    (ks : List ℕ) (hk : ∀ k ∈ ks, k < m)
    (hv : ∀ k ∈ ks, (vals (stratum.map fun s => decide (s = (k : ℤ))) >>= npVar) = .ok (var k))
    (v : List K) (hl : v.length = m) :
    ∃ v', (ks.map fun k : ℕ => (k : ℤ)).foldlM (fun v k => do
        let xs ← vals (stratum.map fun s => decide (s = k))
        let x ← npVar xs
        setIdx v k x) v = .ok v' ∧ v'.length = m ∧
      ∀ j < m, v'[j]? = if j ∈ ks then some (var j) else v[j]? := by
  induction ks generalizing v with
  | nil => exact ⟨v, rfl, hl, by simp⟩
  | cons k ks ih =>
    have h1 := hv k (by simp)
    obtain ⟨xs, h2, h3⟩ := py_bind_eq_ok.1 h1
    have hkm := hk k (by simp)
    obtain ⟨v', e1, e2, e3⟩ := ih (fun j hj => hk j (by simp [hj])) (fun j hj => hv j (by simp [hj]))
      (v.set k (var k)) (by simpa using hl)
    refine ⟨v', ?_, e2, fun j hj => ?_⟩
    · rw [List.map_cons, List.foldlM_cons]
      simp only [h2, py_bind_ok, h3, setIdx]
      rw [wrapIdx_lt (by omega : k < v.length)]
      exact e1
    · rw [e3 j hj]
      by_cases h : j ∈ ks
      · simp [h]
      · by_cases hjk : j = k
        · subst hjk; simp [h, hl, hj]
        · simp [h, hjk, Ne.symm hjk]

theorem varStep_error {m : ℕ} (var : ℕ → K) (vals : List Bool → Py (List K)) (stratum : List ℤ)
    (ks : List ℕ) (hk : ∃ k ∈ ks, m ≤ k)
    (hv : ∀ k ∈ ks, (vals (stratum.map fun s => decide (s = (k : ℤ))) >>= npVar) = .ok (var k))
    (v : List K) (hl : v.length = m) :
    (ks.map fun k : ℕ => (k : ℤ)).foldlM (fun v k => do
        let xs ← vals (stratum.map fun s => decide (s = k))
        let x ← npVar xs
        setIdx v k x) v = .error .indexError := by
  induction ks generalizing v with
  | nil => obtain ⟨k, hk, -⟩ := hk; simp at hk
  | cons k ks ih =>
    obtain ⟨xs, h2, h3⟩ := py_bind_eq_ok.1 (hv k (by simp))
    rw [List.map_cons, List.foldlM_cons]
    simp only [h2, py_bind_ok, h3, setIdx]
    by_cases hkm : k < m
    · rw [wrapIdx_lt (by omega : k < v.length)]
      obtain ⟨j, hj, hjm⟩ := hk
      refine ih ⟨j, ?_, hjm⟩ (fun j hj => hv j (by simp [hj])) _ (by simpa using hl)
      rcases List.mem_cons.1 hj with rfl | h
      · omega
      · exact h
    · have : wrapIdx v.length (k : ℤ) = none := by
        unfold wrapIdx
        rw [dif_neg (by omega), dif_neg (by omega)]
      rw [this]
      rfl

theorem strata_mask (g : MLog K n A L) (k : ℕ) :
    (g.strata.map fun s => decide (s = (k : ℤ))) = List.ofFn fun i => decide (g.stratum i = k) := by
  unfold strata
  rw [map_ofFn']
  congr 1
  funext i
  simp

theorem varLoop_ok {g : MLog K n A L} (h : g.Contiguous) (var : ℕ → K) (vals : List Bool → Py (List K))
    (hv : ∀ k ∈ g.labels, (vals (List.ofFn fun i => decide (g.stratum i = k)) >>= npVar) = .ok (var k)) :
    varLoop g.strata vals = .ok (List.ofFn fun k : Fin g.labels.card => var k) := by
  unfold varLoop
  have hu : npUnique g.strata = (List.range g.labels.card).map fun k : ℕ => (k : ℤ) := by
    rw [unique_eq h]
    apply List.ext_getElem <;> simp
  obtain ⟨v', e1, e2, e3⟩ := varStep_ok (m := g.labels.card) var vals g.strata (List.range g.labels.card)
    (fun k hk => by simpa using hk)
    (fun k hk => by rw [strata_mask]; exact hv k (by rw [labels_eq h]; simpa using hk))
    (List.replicate (npUnique g.strata).length 0) (by rw [List.length_replicate, unique_length])
  dsimp only
  rw [← hu] at e1
  rw [e1]
  congr 1
  apply List.ext_getElem?
  intro j
  by_cases hj : j < g.labels.card
  · rw [e3 j hj, if_pos (by simpa using hj), List.getElem?_eq_getElem (by simpa using hj)]
    simp
  · rw [List.getElem?_eq_none (by omega), List.getElem?_eq_none (by simp; omega)]

theorem varLoop_error {g : MLog K n A L} (h : ¬ g.Contiguous) (var : ℕ → K) (vals : List Bool → Py (List K))
    (hv : ∀ k ∈ g.labels, (vals (List.ofFn fun i => decide (g.stratum i = k)) >>= npVar) = .ok (var k)) :
    varLoop g.strata vals = .error .indexError := by
  unfold varLoop
  have hu : ∃ ks : List ℕ, npUnique g.strata = ks.map (fun k : ℕ => (k : ℤ)) ∧ ∀ k, k ∈ ks ↔ k ∈ g.labels := by
    refine ⟨(npUnique g.strata).map Int.toNat, ?_, ?_⟩
    · rw [List.map_map]
      symm
      conv_rhs => rw [← List.map_id (npUnique g.strata)]
      refine List.map_congr_left fun z hz => ?_
      rw [npUnique_mem, mem_strata] at hz
      obtain ⟨k, -, rfl⟩ := hz
      simp
    · intro k
      simp only [List.mem_map, npUnique_mem, mem_strata]
      constructor
      · rintro ⟨z, ⟨j, hj, rfl⟩, rfl⟩; simpa using hj
      · intro hk; exact ⟨k, ⟨k, hk, rfl⟩, by simp⟩
  obtain ⟨ks, hks, hmem⟩ := hu
  have hlen : (List.replicate (npUnique g.strata).length (0 : K)).length = g.labels.card := by
    rw [List.length_replicate, unique_length]
  dsimp only
  generalize List.replicate (npUnique g.strata).length (0 : K) = v0 at hlen
  rw [hks]
  refine varStep_error (m := g.labels.card) var vals g.strata ks ?_
    (fun k hk => by rw [strata_mask]; exact hv k ((hmem k).1 hk)) _ hlen
  simp only [Contiguous, not_forall, not_lt] at h
  obtain ⟨i, hi⟩ := h
  exact ⟨g.stratum i, (hmem _).2 (Finset.mem_image.2 ⟨i, by simp, rfl⟩), hi⟩

theorem counts_eq {g : MLog K n A L} (h : g.Contiguous) :
    strataCounts (K := K) g.strata = List.ofFn fun k : Fin g.labels.card => ((g.size k : ℕ) : K) := by
  unfold strataCounts
  rw [unique_eq h, map_ofFn']
  congr 1
  funext k
  congr 1
  unfold strata size
  rw [List.ofFn_eq_map, List.count_eq_length_filter, List.filter_map, List.length_map,
    ← List.toFinset_card_of_nodup ((List.nodup_finRange n).filter _)]
  congr 1
  ext i
  simp

theorem size_pos {g : MLog K n A L} {k : ℕ} (hk : k ∈ g.labels) : 0 < g.size k := by
  obtain ⟨i, -, rfl⟩ := Finset.mem_image.1 hk
  exact Finset.card_pos.2 ⟨i, by simp⟩

theorem stratumVar_nonneg (g : MLog K n A L) (f : Fin n → K) (k : ℕ) : 0 ≤ g.stratumVar f k := by
  unfold stratumVar stratumMean
  exact div_nonneg (Finset.sum_nonneg fun i _ => sq_nonneg _) (Nat.cast_nonneg _)

/-- The normaliser `np.sum(n_data_strata / var_k)`. -/
def norm (g : MLog K n A L) (f : Fin n → K) : K := ∑ k ∈ g.labels, (g.size k : K) / g.stratumVar f k

/-- The stratum weight computed by the code. -/
def omega (g : MLog K n A L) (f : Fin n → K) (k : ℕ) : K := (n : K) / (g.stratumVar f k * g.norm f)

theorem norm_pos {g : MLog K n A L} (hn : 0 < n) {f : Fin n → K}
    (hv : ∀ k ∈ g.labels, g.stratumVar f k ≠ 0) : 0 < g.norm f := by
  refine Finset.sum_pos (fun k hk => ?_) ⟨g.stratum ⟨0, hn⟩, Finset.mem_image.2 ⟨_, by simp, rfl⟩⟩
  exact div_pos (by exact_mod_cast size_pos hk) (lt_of_le_of_ne (stratumVar_nonneg g f k) (hv k hk).symm)

theorem weightK_eq {g : MLog K n A L} (hn : 0 < n) (h : g.Contiguous) {f : Fin n → K}
    (hv : ∀ k ∈ g.labels, g.stratumVar f k ≠ 0) :
    weightK n g.strata (List.ofFn fun k : Fin g.labels.card => g.stratumVar f k) =
      .ok (List.ofFn fun k : Fin g.labels.card => g.omega f k) := by
  have hm : ∀ k : Fin g.labels.card, (k : ℕ) ∈ g.labels := mem_labels h
  unfold weightK
  rw [counts_eq h, bopM_ofFn_ok npDiv _ _ (fun k : Fin g.labels.card => (g.size k : K) / g.stratumVar f k)
    (fun k => npDiv_ok (hv k (hm k))), py_bind_ok]
  have hs : (List.ofFn fun k : Fin g.labels.card => (g.size k : K) / g.stratumVar f k).sum = g.norm f := by
    rw [List.sum_ofFn, norm, Finset.sum_congr (labels_eq h) (fun _ _ => rfl),
      Fin.sum_univ_eq_sum_range (fun k => (g.size k : K) / g.stratumVar f k)]
  rw [hs]
  exact mapM_ofFn_ok (f := fun v => npDiv (n : K) (v * g.norm f)) fun k =>
    npDiv_ok (mul_ne_zero (hv k (hm k)) (norm_pos hn hv).ne')

theorem weightK_nonFinite {g : MLog K n A L} (h : g.Contiguous) {f : Fin n → K} {k : ℕ} (hk : k ∈ g.labels)
    (hv : g.stratumVar f k = 0) :
    weightK n g.strata (List.ofFn fun k : Fin g.labels.card => g.stratumVar f k) = .error .nonFinite := by
  unfold weightK
  rw [counts_eq h]
  have : bopM npDiv (List.ofFn fun k : Fin g.labels.card => ((g.size k : ℕ) : K))
      (List.ofFn fun k : Fin g.labels.card => g.stratumVar f k) = .error .nonFinite := by
    unfold bopM
    rw [bop_ofFn, py_bind_ok]
    have hk' := hk
    rw [labels_eq h, Finset.mem_range] at hk'
    refine mapM_error_of (fun x _ => ?_) ⟨_, List.mem_ofFn.2 ⟨⟨k, hk'⟩, rfl⟩, ?_⟩
    · unfold npDiv; split
      · exact Or.inr rfl
      · exact Or.inl ⟨_, rfl⟩
    · simp [hv, npDiv_zero]
  rw [this]
  rfl

theorem takeIdx_eq {g : MLog K n A L} (h : g.Contiguous) (w : ℕ → K) :
    takeIdx (List.ofFn fun k : Fin g.labels.card => w k) g.strata =
      .ok (List.ofFn fun i => w (g.stratum i)) := by
  unfold takeIdx strata
  refine mapM_ofFn_ok fun i => ?_
  rw [wrapIdx_lt (by simpa using h i)]
  simp

theorem sum_strata (g : MLog K n A L) (w : ℕ → K) :
    ∑ i, w (g.stratum i) = ∑ k ∈ g.labels, (g.size k : K) * w k := by
  rw [Finset.sum_comp w g.stratum]
  refine Finset.sum_congr rfl fun k _ => ?_
  rw [nsmul_eq_mul]
  rfl

theorem omega_weights {g : MLog K n A L} (hn : 0 < n) {f : Fin n → K}
    (hv : ∀ k ∈ g.labels, g.stratumVar f k ≠ 0) : g.VarianceWeights f (g.omega f) := by
  have hR := norm_pos hn hv
  have hm : ∀ i, g.stratum i ∈ g.labels := fun i => Finset.mem_image.2 ⟨i, by simp, rfl⟩
  have hn' : (0 : K) < n := by exact_mod_cast hn
  have hpos : ∀ k ∈ g.labels, 0 < g.stratumVar f k := fun k hk =>
    lt_of_le_of_ne (stratumVar_nonneg g f k) (hv k hk).symm
  refine ⟨fun i => div_pos hn' (mul_pos (hpos _ (hm i)) hR), ?_, fun i j => ?_⟩
  · rw [sum_strata]
    have : ∑ k ∈ g.labels, (g.size k : K) * g.omega f k = (n : K) / g.norm f * g.norm f := by
      have e : ∀ c : K, c * g.norm f = ∑ k ∈ g.labels, c * ((g.size k : K) / g.stratumVar f k) := fun c => by
        rw [norm, Finset.mul_sum]
      rw [e]
      refine Finset.sum_congr rfl fun k hk => ?_
      have := (hpos k hk).ne'
      unfold omega
      field_simp
    rw [this]
    field_simp
  · unfold omega
    have h1 := (hpos _ (hm i)).ne'
    have h2 := (hpos _ (hm j)).ne'
    field_simp

/-! ### The six classes -/

/-- The log seen by the balanced classes. -/
def avgLog (g : MLog K n A L) : Log K n A L :=
  { g.toLog with pscore := g.pscoreAvg, estPscore := g.estPscoreAvg }

theorem avgLog_valid {g : MLog K n A L} (h : g.MValid) : g.avgLog.Valid :=
  ⟨h.base.nonempty, h.avg_pos, h.estAvg_pos, h.base.estIw_nonneg, h.base.sum_one⟩

theorem avgLog_weight (g : MLog K n A L) (est : Bool) : g.avgLog.weight est = g.weightAvg est := rfl

theorem checkStratum_eq (g : MLog K n A L) (hn : 0 < n) (x : Arr3 K) (hx : x.n = n) :
    checkStratum x (.int g.strata) = .ok () := by
  unfold checkStratum strata
  simp only [checkArray1, py_bind_ok, Arg1.shape0, List.length_ofFn, intNonneg_ofFn hn]
  rw [raiseIf_neg (by simp [hx]), raiseIf_neg (by simp)]
  rfl

theorem weightedIpwPrepare_eq {g : MLog K n A L} (h : g.toLog.Valid) (est : Bool) :
    weightedIpwPrepare est g.margs =
      .ok ({ g.toLog.roundIn est with q := noArr, estIw := [] }, g.strata) := by
  have h1 := ipwPrepare_eq h est
  simp only [ipwPrepare, py_bind_eq_ok, exists_unit] at h1
  obtain ⟨c1, c2, ps, c3, x, c4, pos, c5, act, c6, c7⟩ := h1
  have hx : x = ⟨n, A, L, g.piE⟩ := by
    have := congrArg (fun r : Py (RoundIn K) => r.toOption.map (·.dist)) c7
    simpa [roundIn, Except.toOption] using this
  subst hx
  simp only [weightedIpwPrepare]
  have e1 : checkArray1 g.margs.reward = .ok () := c1
  have e2 : checkArray1 g.margs.action = .ok () := c2
  have e3 : choosePscore est g.margs.single = .ok ps := c3
  have e5 : positionOrZeros (⟨n, A, L, g.piE⟩ : Arr3 K) g.margs.position = .ok pos := c5
  have e6 : g.margs.action.ints = .ok act := c6
  have es : checkArray1 g.margs.stratumIdx = .ok () := rfl
  have es' : checkStratum (⟨n, A, L, g.piE⟩ : Arr3 K) g.margs.stratumIdx = .ok () :=
    checkStratum_eq g h.nonempty _ rfl
  have es'' : g.margs.stratumIdx.ints = .ok g.strata := rfl
  have e4 : checkOpeInputs
      { actionDist := g.margs.actionDist, position := g.margs.position, action := g.margs.action,
        reward := g.margs.reward, pscore := ps } = .ok (⟨n, A, L, g.piE⟩ : Arr3 K) := c4
  rw [e1, e2, e3, es, py_bind_ok, py_bind_ok, py_bind_ok, py_bind_ok, e4, py_bind_ok, es', py_bind_ok,
    e5, py_bind_ok, e6, py_bind_ok, es'', py_bind_ok]
  have c7' : (_ : RoundIn K) = _ := Except.ok.inj c7
  rw [← c7']
  rfl

theorem weightedDrPrepare_eq {g : MLog K n A L} (h : g.toLog.Valid) (est : Bool) :
    weightedDrPrepare est g.margs = .ok ({ g.toLog.roundIn est with estIw := [] }, g.strata) := by
  have h1 := drPrepare_eq h est
  simp only [drPrepare, py_bind_eq_ok, exists_unit] at h1
  obtain ⟨q, c0, c1, c2, ps, c3, x, c4, pos, c5, act, c6, c7⟩ := h1
  have hx : x = ⟨n, A, L, g.piE⟩ := by
    have := congrArg (fun r : Py (RoundIn K) => r.toOption.map (·.dist)) c7
    simpa [roundIn, Except.toOption] using this
  subst hx
  simp only [weightedDrPrepare]
  have e0 : checkArray3 g.margs.regModel = .ok q := c0
  have e1 : checkArray1 g.margs.reward = .ok () := c1
  have e2 : checkArray1 g.margs.action = .ok () := c2
  have e3 : choosePscore est g.margs.single = .ok ps := c3
  have e5 : positionOrZeros (⟨n, A, L, g.piE⟩ : Arr3 K) g.margs.position = .ok pos := c5
  have e6 : g.margs.action.ints = .ok act := c6
  have es : checkArray1 g.margs.stratumIdx = .ok () := rfl
  have es' : checkStratum (⟨n, A, L, g.piE⟩ : Arr3 K) g.margs.stratumIdx = .ok () :=
    checkStratum_eq g h.nonempty _ rfl
  have es'' : g.margs.stratumIdx.ints = .ok g.strata := rfl
  have e4 : checkOpeInputs
      { actionDist := g.margs.actionDist, position := g.margs.position, action := g.margs.action,
        reward := g.margs.reward, pscore := ps, regModel := g.margs.regModel } = .ok (⟨n, A, L, g.piE⟩ : Arr3 K) := c4
  rw [e0, e1, e2, e3, es, py_bind_ok, py_bind_ok, py_bind_ok, py_bind_ok, py_bind_ok, e4, py_bind_ok, es',
    py_bind_ok, e5, py_bind_ok, e6, py_bind_ok, es'', py_bind_ok]
  have c7' : (_ : RoundIn K) = _ := Except.ok.inj c7
  rw [← c7']
  rfl

/-- Per-round IPW terms, whose stratum variances determine the weights of weighted IPW. -/
def ipwTerm (g : MLog K n A L) (lam : Lam K) (est : Bool) (i : Fin n) : K :=
  g.reward i * lam.clip (g.weight est i)

/-- Per-round DR terms. -/
def drTerm (g : MLog K n A L) (lam : Lam K) (est : Bool) (i : Fin n) : K :=
  g.modelValue i + lam.clip (g.weight est i) * g.residual i

theorem weightedIpw_var {g : MLog K n A L} (lam : Lam K) (est : Bool) (k : ℕ) (hk : k ∈ g.labels) :
    ((do
      let rs ← maskSel (List.ofFn fun i => decide (g.stratum i = k)) (List.ofFn g.reward)
      let ws ← maskSel (List.ofFn fun i => decide (g.stratum i = k))
        (List.ofFn fun i => lam.clip (g.weight est i))
      bop (· * ·) rs ws) >>= npVar) = .ok (g.stratumVar (g.ipwTerm lam est) k) := by
  rw [maskSel_ofFn, py_bind_ok, maskSel_ofFn, py_bind_ok, bop_map, py_bind_ok]
  exact npVar_stratum g (g.ipwTerm lam est) k hk

theorem weightedIpwRound_eq {g : MLog K n A L} (h : g.toLog.Valid) (est : Bool) (lam : Lam K)
    (hc : g.Contiguous) (hv : ∀ k ∈ g.labels, g.stratumVar (g.ipwTerm lam est) k ≠ 0) :
    weightedIpwRound lam g.strata { g.toLog.roundIn est with q := noArr, estIw := [] } =
      .ok (List.ofFn fun i => g.ipwTerm lam est i * g.omega (g.ipwTerm lam est) (g.stratum i)) := by
  simp only [weightedIpwRound, iwOf_eq h, py_bind_ok, map_ofFn']
  simp only [roundIn]
  rw [varLoop_ok hc (g.stratumVar (g.ipwTerm lam est)) _ (weightedIpw_var lam est), py_bind_ok,
    List.length_ofFn, weightK_eq h.nonempty hc hv, py_bind_ok, bop_ofFn, py_bind_ok, takeIdx_eq hc, py_bind_ok,
    bop_ofFn]
  rfl

theorem weightedIpwRound_index {g : MLog K n A L} (h : g.toLog.Valid) (est : Bool) (lam : Lam K)
    (hc : ¬ g.Contiguous) :
    weightedIpwRound lam g.strata { g.toLog.roundIn est with q := noArr, estIw := [] } =
      .error .indexError := by
  simp only [weightedIpwRound, iwOf_eq h, py_bind_ok, map_ofFn']
  simp only [roundIn]
  rw [varLoop_error hc (g.stratumVar (g.ipwTerm lam est)) _ (weightedIpw_var lam est)]
  rfl

theorem weightedIpwRound_nonFinite {g : MLog K n A L} (h : g.toLog.Valid) (est : Bool) (lam : Lam K)
    (hc : g.Contiguous) {k : ℕ} (hk : k ∈ g.labels) (hv : g.stratumVar (g.ipwTerm lam est) k = 0) :
    weightedIpwRound lam g.strata { g.toLog.roundIn est with q := noArr, estIw := [] } =
      .error .nonFinite := by
  simp only [weightedIpwRound, iwOf_eq h, py_bind_ok, map_ofFn']
  simp only [roundIn]
  rw [varLoop_ok hc (g.stratumVar (g.ipwTerm lam est)) _ (weightedIpw_var lam est), py_bind_ok,
    List.length_ofFn, weightK_nonFinite hc hk hv]
  rfl

theorem weightedDr_var {g : MLog K n A L} (lam : Lam K) (est : Bool) (k : ℕ) (hk : k ∈ g.labels) :
    ((do
      let bs ← maskSel (List.ofFn fun i => decide (g.stratum i = k)) (List.ofFn g.modelValue)
      let ws ← maskSel (List.ofFn fun i => decide (g.stratum i = k))
        (List.ofFn fun i => lam.clip (g.weight est i))
      let rs ← maskSel (List.ofFn fun i => decide (g.stratum i = k)) (List.ofFn g.reward)
      let qs ← maskSel (List.ofFn fun i => decide (g.stratum i = k))
        (List.ofFn fun i => g.q i (g.action i) (g.position i))
      let d ← bop (· - ·) rs qs
      let c ← bop (· * ·) ws d
      bop (· + ·) bs c) >>= npVar) = .ok (g.stratumVar (g.drTerm lam est) k) := by
  rw [maskSel_ofFn, py_bind_ok, maskSel_ofFn, py_bind_ok, maskSel_ofFn, py_bind_ok, maskSel_ofFn, py_bind_ok,
    bop_map, py_bind_ok, bop_map, py_bind_ok, bop_map, py_bind_ok]
  exact npVar_stratum g (g.drTerm lam est) k hk

theorem weightedDr_prefix {g : MLog K n A L} (h : g.toLog.Valid) (est : Bool) (lam : Lam K) (st : List ℤ) :
    weightedDrRound lam st { g.toLog.roundIn est with estIw := [] } = (do
      let varK ← varLoop st fun m => do
        let bs ← maskSel m (List.ofFn g.modelValue)
        let ws ← maskSel m (List.ofFn fun i => lam.clip (g.weight est i))
        let rs ← maskSel m (List.ofFn g.reward)
        let qs ← maskSel m (List.ofFn fun i => g.q i (g.action i) (g.position i))
        let d ← bop (· - ·) rs qs
        let c ← bop (· * ·) ws d
        bop (· + ·) bs c
      let wk ← weightK n st varK
      let w ← takeIdx wk st
      let corr' ← bop (· * ·) (List.ofFn fun i => lam.clip (g.weight est i) * g.residual i) w
      iadd (List.ofFn g.modelValue) corr') := by
  simp only [weightedDrRound, iwOf_eq h, py_bind_ok, map_ofFn', qFactual_eq]
  rw [show ({ g.toLog.roundIn est with estIw := [] } : RoundIn K).action.length = n by simp [roundIn],
    dmPart_eq h _ rfl rfl rfl, py_bind_ok]
  simp only [roundIn, bop_ofFn, py_bind_ok]
  rfl

theorem weightedDrRound_eq {g : MLog K n A L} (h : g.toLog.Valid) (est : Bool) (lam : Lam K)
    (hc : g.Contiguous) (hv : ∀ k ∈ g.labels, g.stratumVar (g.drTerm lam est) k ≠ 0) :
    weightedDrRound lam g.strata { g.toLog.roundIn est with estIw := [] } =
      .ok (List.ofFn fun i => g.modelValue i + lam.clip (g.weight est i) * g.residual i *
        g.omega (g.drTerm lam est) (g.stratum i)) := by
  rw [weightedDr_prefix h, varLoop_ok hc (g.stratumVar (g.drTerm lam est)) _ (weightedDr_var lam est), py_bind_ok,
    weightK_eq h.nonempty hc hv, py_bind_ok, takeIdx_eq hc, py_bind_ok,
    bop_ofFn, py_bind_ok, iadd_ofFn]

theorem weightedDrRound_index {g : MLog K n A L} (h : g.toLog.Valid) (est : Bool) (lam : Lam K)
    (hc : ¬ g.Contiguous) :
    weightedDrRound lam g.strata { g.toLog.roundIn est with estIw := [] } = .error .indexError := by
  rw [weightedDr_prefix h, varLoop_error hc (g.stratumVar (g.drTerm lam est)) _ (weightedDr_var lam est)]
  rfl

theorem weightedDrRound_nonFinite {g : MLog K n A L} (h : g.toLog.Valid) (est : Bool) (lam : Lam K)
    (hc : g.Contiguous) {k : ℕ} (hk : k ∈ g.labels) (hv : g.stratumVar (g.drTerm lam est) k = 0) :
    weightedDrRound lam g.strata { g.toLog.roundIn est with estIw := [] } = .error .nonFinite := by
  rw [weightedDr_prefix h, varLoop_ok hc (g.stratumVar (g.drTerm lam est)) _ (weightedDr_var lam est), py_bind_ok,
    weightK_nonFinite hc hk hv]
  rfl

end MLog

end Obp
