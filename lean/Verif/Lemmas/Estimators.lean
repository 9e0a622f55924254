import Verif.Spec.Ope
import Verif.Lemmas.Numpy

set_option linter.unusedSectionVars false

/-! # The estimator models compute the textbook formulas on well-shaped logs -/

namespace Obp

variable {K : Type} [Field K] [LinearOrder K] [IsStrictOrderedRing K]
variable {n A L : ℕ}

theorem npMin_natCast (hn : 0 < n) (f : Fin n → ℕ) :
    ∃ m : ℕ, npMin (List.ofFn fun i => ((f i : ℕ) : ℤ)) = .ok (m : ℤ) := by
  obtain ⟨n, rfl⟩ : ∃ m, n = m + 1 := ⟨n - 1, by omega⟩
  rw [List.ofFn_succ]
  simp only [npMin]
  have : ∀ (xs : List ℕ) (a : ℕ), (xs.map (fun x : ℕ => (x : ℤ))).foldl min (a : ℤ) =
      ((xs.foldl min a : ℕ) : ℤ) := by
    intro xs
    induction xs with
    | nil => simp
    | cons x xs ih => intro a; simp only [List.map_cons, List.foldl_cons]; rw [← ih]; simp
  refine ⟨(List.ofFn fun i : Fin n => f i.succ).foldl min (f 0), ?_⟩
  rw [← this]
  congr 2
  apply List.ext_getElem <;> simp

theorem npMax_lt (hn : 0 < n) (b : ℕ) (f : Fin n → Fin b) :
    ∃ m : ℕ, npMax (List.ofFn fun i => ((f i : ℕ) : ℤ)) = .ok (m : ℤ) ∧ m < b := by
  obtain ⟨n, rfl⟩ : ∃ m, n = m + 1 := ⟨n - 1, by omega⟩
  rw [List.ofFn_succ]
  simp only [npMax]
  have : ∀ (xs : List (Fin b)) (a : Fin b),
      (xs.map (fun x : Fin b => ((x : ℕ) : ℤ))).foldl max ((a : ℕ) : ℤ) =
      (((xs.foldl max a : Fin b) : ℕ) : ℤ) := by
    intro xs
    induction xs with
    | nil => simp
    | cons x xs ih =>
      intro a; simp only [List.map_cons, List.foldl_cons]; rw [← ih]
      congr 1
      rcases le_total a x with h | h
      · rw [max_eq_right h, max_eq_right]; exact_mod_cast h
      · rw [max_eq_left h, max_eq_left]; exact_mod_cast h
  refine ⟨(((List.ofFn fun i : Fin n => f i.succ).foldl max (f 0) : Fin b) : ℕ), ?_, Fin.isLt _⟩
  rw [← this]
  congr 2
  apply List.ext_getElem <;> simp

theorem intInRange_ofFn (hn : 0 < n) (f : Fin n → Fin A) :
    intInRange (K := K) (.int (List.ofFn fun i => ((f i : ℕ) : ℤ))) A = .ok true := by
  obtain ⟨m, hm⟩ := npMin_natCast hn (fun i => (f i : ℕ))
  obtain ⟨M, hM, hlt⟩ := npMax_lt hn A f
  simp [intInRange, hm, hM, hlt]

theorem intNonneg_ofFn (hn : 0 < n) (f : Fin n → ℕ) :
    intNonneg (K := K) (.int (List.ofFn fun i => ((f i : ℕ) : ℤ))) = .ok true := by
  obtain ⟨m, hm⟩ := npMin_natCast hn f
  simp [intNonneg, hm]

theorem checkPosition_ofFn (hn : 0 < n) (x : Arr3 K) (hx : x.n = n) (f : Fin n → Fin x.L) :
    checkPosition x (.int (List.ofFn fun i => ((f i : ℕ) : ℤ))) = .ok () := by
  obtain ⟨M, hM, hlt⟩ := npMax_lt hn x.L f
  simp only [checkPosition, Arg1.isNone, if_true, checkArray1, py_bind_ok, Arg1.shape0,
    List.length_ofFn, Arg1.ints, intNonneg_ofFn hn (fun i => (f i : ℕ)), hM]
  rw [raiseIf_neg (by simp [hx]), raiseIf_neg (by simp)]
  simp only [py_bind_ok]
  rw [raiseIf_neg (by simpa using hlt)]

theorem checkActionReward_ofFn (hn : 0 < n) (x : Arr3 K) (f : Fin n → Fin x.A) (r : Fin n → K) :
    checkActionReward x (.int (List.ofFn fun i => ((f i : ℕ) : ℤ))) (.flt (List.ofFn r)) =
      .ok () := by
  simp only [checkActionReward, Arg1.isNone, true_or, if_true, checkArray1, py_bind_ok,
    Arg1.shape0, List.length_ofFn, intInRange_ofFn hn f]
  rw [raiseIf_neg (by simp), raiseIf_neg (by simp)]
  rfl

theorem checkPscore_ofFn (f : Fin n → ℤ) (r p : Fin n → K) (hp : ∀ i, 0 < p i) :
    checkPscore (.int (List.ofFn f)) (.flt (List.ofFn r)) (.flt (List.ofFn p)) = .ok () := by
  simp only [checkPscore, Arg1.shape0, List.length_ofFn, py_bind_ok]
  rw [raiseIf_neg (by simp), raiseIf_neg]
  · rfl
  · simp [Arg1.vals, hp]

theorem distSumsToOne_of {x : Arr3 K} (h : ∀ i l, closeToOne (∑ a, x.val i a l) = true) :
    distSumsToOne x = true := by
  simp [distSumsToOne, h]

namespace Log

/-- The input of the round-reward functions on a well-shaped log for estimators that use
propensities and reward predictions. -/
def roundIn (g : Log K n A L) (est : Bool) : RoundIn K where
  reward := List.ofFn g.reward
  action := List.ofFn fun i => ((g.action i : ℕ) : ℤ)
  pscore := List.ofFn fun i => if est then g.estPscore i else g.pscore i
  dist := ⟨n, A, L, g.piE⟩
  q := ⟨n, A, L, g.q⟩
  estIw := List.ofFn g.estIw
  position := List.ofFn fun i => ((g.position i : ℕ) : ℤ)

theorem ipwPrepare_eq {g : Log K n A L} (h : g.Valid) (est : Bool) :
    ipwPrepare est g.args = .ok { g.roundIn est with q := noArr, estIw := [] } := by
  have hn := h.nonempty
  simp only [ipwPrepare, args, checkArray1, py_bind_ok, choosePscore, py_pure]
  have hps : (if est = true then (Except.ok (Arg1.flt (List.ofFn g.estPscore)) : Py (Arg1 K))
      else Except.ok (Arg1.flt (List.ofFn g.pscore))) =
      .ok (.flt (List.ofFn fun i => if est then g.estPscore i else g.pscore i)) := by
    cases est <;> simp
  rw [hps]
  simp only [py_bind_ok, checkOpeInputs, checkArray3, checkRegModel, Arg3.isNone, checkEstIw,
    Arg1.isNone, if_false, Bool.true_eq_false]
  rw [raiseIf_neg (by simp [distSumsToOne_of (x := ⟨n, A, L, g.piE⟩) h.sum_one]),
    checkPosition_ofFn hn _ rfl, checkActionReward_ofFn hn ⟨n, A, L, g.piE⟩ g.action,
    checkPscore_ofFn _ _ _ (by intro i; split <;> simp [h.estPscore_pos, h.pscore_pos])]
  simp [positionOrZeros, Arg1.isNone, Arg1.ints, roundIn, Arg1.vals]

theorem rmPrepare_eq {g : Log K n A L} (h : g.Valid) (est : Bool) :
    rmPrepare g.args = .ok { g.roundIn est with q := noArr, estIw := [], pscore := [] } := by
  have hn := h.nonempty
  simp only [rmPrepare, args, checkArray1, py_bind_ok, checkOpeInputs, checkArray3, checkRegModel,
    Arg3.isNone, checkEstIw, Arg1.isNone, if_false, Bool.true_eq_false, checkPscore]
  rw [raiseIf_neg (by simp [distSumsToOne_of (x := ⟨n, A, L, g.piE⟩) h.sum_one]),
    checkPosition_ofFn hn _ rfl, checkActionReward_ofFn hn ⟨n, A, L, g.piE⟩ g.action]
  simp [positionOrZeros, Arg1.isNone, Arg1.ints, roundIn, Arg1.vals]

theorem dmPrepare_eq {g : Log K n A L} (h : g.Valid) (est : Bool) :
    dmPrepare g.args =
      .ok { g.roundIn est with reward := [], action := [], estIw := [], pscore := [] } := by
  have hn := h.nonempty
  simp only [dmPrepare, args, py_bind_ok, checkOpeInputs, checkArray3, checkRegModel,
    Arg3.isNone, checkEstIw, Arg1.isNone, if_false, Bool.true_eq_false, checkPscore,
    checkActionReward, Arg3.shape, or_self, if_true]
  rw [raiseIf_neg (by simp [distSumsToOne_of (x := ⟨n, A, L, g.piE⟩) h.sum_one]),
    checkPosition_ofFn hn _ rfl, raiseIf_neg (by simp)]
  simp [positionOrZeros, Arg1.isNone, Arg1.ints, roundIn]

theorem drPrepare_eq {g : Log K n A L} (h : g.Valid) (est : Bool) :
    drPrepare est g.args = .ok { g.roundIn est with estIw := [] } := by
  have hn := h.nonempty
  simp only [drPrepare, args, checkArray1, checkArray3, py_bind_ok, choosePscore, py_pure]
  have hps : (if est = true then (Except.ok (Arg1.flt (List.ofFn g.estPscore)) : Py (Arg1 K))
      else Except.ok (Arg1.flt (List.ofFn g.pscore))) =
      .ok (.flt (List.ofFn fun i => if est then g.estPscore i else g.pscore i)) := by
    cases est <;> simp
  rw [hps]
  simp only [py_bind_ok, checkOpeInputs, checkArray3, checkRegModel, Arg3.isNone, checkEstIw,
    Arg1.isNone, if_false, Bool.true_eq_false, Arg3.shape, if_true]
  rw [raiseIf_neg (by simp [distSumsToOne_of (x := ⟨n, A, L, g.piE⟩) h.sum_one]),
    checkPosition_ofFn hn _ rfl, checkActionReward_ofFn hn ⟨n, A, L, g.piE⟩ g.action,
    checkPscore_ofFn _ _ _ (by intro i; split <;> simp [h.estPscore_pos, h.pscore_pos]),
    raiseIf_neg (by simp)]
  simp [positionOrZeros, Arg1.isNone, Arg1.ints, roundIn, Arg1.vals]

theorem bIpwPrepare_eq {g : Log K n A L} (h : g.Valid) (est : Bool) :
    bIpwPrepare g.args = .ok { g.roundIn est with q := noArr, pscore := [] } := by
  have hn := h.nonempty
  simp only [bIpwPrepare, args, checkArray1, py_bind_ok, checkOpeInputs, checkArray3,
    checkRegModel, Arg3.isNone, checkEstIw, Arg1.isNone, if_false, Bool.true_eq_false, checkPscore,
    Arg1.shape0, List.length_ofFn, if_true]
  rw [raiseIf_neg (by simp [distSumsToOne_of (x := ⟨n, A, L, g.piE⟩) h.sum_one]),
    checkPosition_ofFn hn _ rfl, checkActionReward_ofFn hn ⟨n, A, L, g.piE⟩ g.action,
    raiseIf_neg (by simp), raiseIf_neg]
  · simp [positionOrZeros, Arg1.isNone, Arg1.ints, roundIn, Arg1.vals]
  · simp [Arg1.vals, h.estIw_nonneg]

/-! ### Round rewards -/

theorem usedPscore_pos {g : Log K n A L} (h : g.Valid) (est : Bool) (i : Fin n) :
    0 < (if est then g.estPscore i else g.pscore i) := by
  split
  · exact h.estPscore_pos i
  · exact h.pscore_pos i

theorem fancy_dist (g : Log K n A L) :
    fancy3 ⟨n, A, L, g.piE⟩ (arange (List.ofFn fun i => ((g.action i : ℕ) : ℤ)).length)
      (List.ofFn fun i => ((g.action i : ℕ) : ℤ)) (List.ofFn fun i => ((g.position i : ℕ) : ℤ)) =
      .ok (List.ofFn fun i => g.piE i (g.action i) (g.position i)) := by
  rw [List.length_ofFn]
  exact fancy3_ofFn ⟨n, A, L, g.piE⟩ g.action g.position

theorem iwOf_eq {g : Log K n A L} (h : g.Valid) (est : Bool) (q' : Arr3 K) (w' : List K) :
    iwOf { g.roundIn est with q := q', estIw := w' } = .ok (List.ofFn (g.weight est)) := by
  simp only [iwOf, roundIn, fancy_dist, py_bind_ok]
  exact bopM_ofFn_ok _ _ _ _ fun i => npDiv_ok (usedPscore_pos h est i).ne'

theorem map_ofFn' {α β : Type} (f : α → β) (x : Fin n → α) :
    (List.ofFn x).map f = List.ofFn fun i => f (x i) := by
  rw [List.map_ofFn]; rfl

theorem iadd_ofFn (x y : Fin n → K) :
    iadd (List.ofFn x) (List.ofFn y) = .ok (List.ofFn fun i => x i + y i) := by
  unfold iadd
  simp only [List.length_ofFn, if_true]
  congr 1
  apply List.ext_getElem <;> simp

theorem ipwRound_eq {g : Log K n A L} (h : g.Valid) (est : Bool) (lam : Lam K) :
    ipwRound lam { g.roundIn est with q := noArr, estIw := [] } =
      .ok (List.ofFn fun i => g.reward i * lam.clip (g.weight est i)) := by
  simp only [ipwRound, iwOf_eq h, py_bind_ok, map_ofFn']
  simp [roundIn]

theorem npMean_avg {g : Log K n A L} (h : g.Valid) (f : Fin n → K) :
    npMean (List.ofFn f) = .ok (avg f) := npMean_ofFn h.nonempty f

theorem snipwRound_eq {g : Log K n A L} (h : g.Valid) (est : Bool)
    (hw : avg (g.weight est) ≠ 0) :
    snipwRound { g.roundIn est with q := noArr, estIw := [] } =
      .ok (List.ofFn fun i => g.reward i * g.weight est i / avg (g.weight est)) := by
  simp only [snipwRound, iwOf_eq h, py_bind_ok, npMean_avg h]
  simp only [roundIn, bop_ofFn, py_bind_ok]
  exact mapM_ofFn_ok fun i => npDiv_ok hw

theorem snipwRound_nonFinite {g : Log K n A L} (h : g.Valid) (est : Bool)
    (hw : avg (g.weight est) = 0) :
    snipwRound { g.roundIn est with q := noArr, estIw := [] } = .error .nonFinite := by
  simp only [snipwRound, iwOf_eq h, py_bind_ok, npMean_avg h]
  simp only [roundIn, bop_ofFn, py_bind_ok]
  rw [hw]
  apply mapM_error_of
  · intro x _; exact Or.inr (npDiv_zero x)
  · exact ⟨g.reward ⟨0, h.nonempty⟩ * g.weight est ⟨0, h.nonempty⟩,
      by simp only [List.mem_ofFn]; exact ⟨_, rfl⟩, npDiv_zero _⟩

theorem sum_piE_ne {g : Log K n A L} (h : g.Valid) (i : Fin n) (l : Fin L) :
    ∑ a, g.piE i a l ≠ 0 := (closeToOne_ne_zero (h.sum_one i l)).ne'

theorem dmPart_eq {g : Log K n A L} (h : g.Valid) (r : RoundIn K)
    (hd : r.dist = ⟨n, A, L, g.piE⟩) (hq : r.q = ⟨n, A, L, g.q⟩)
    (hp : r.position = List.ofFn fun i => ((g.position i : ℕ) : ℤ)) :
    dmPart r n = .ok (List.ofFn g.modelValue) := by
  simp only [dmPart, hd, hq, hp]
  have h1 := fancyRow_ofFn ⟨n, A, L, g.q⟩ g.position
  have h2 := fancyRow_ofFn ⟨n, A, L, g.piE⟩ g.position
  simp only at h1 h2
  rw [h1, h2]
  simp only [py_bind_ok]
  exact npAverageRows_ofFn _ _ fun i => sum_piE_ne h i _

theorem dmRound_eq {g : Log K n A L} (h : g.Valid) (est : Bool) :
    dmRound { g.roundIn est with reward := [], action := [], estIw := [], pscore := [] } =
      .ok (List.ofFn g.modelValue) := by
  simp only [dmRound]
  rw [show ({ g.roundIn est with reward := [], action := [], estIw := [], pscore := [] } :
    RoundIn K).position.length = n from by simp [roundIn]]
  exact dmPart_eq h _ rfl rfl rfl

theorem qFactual_eq (g : Log K n A L) (est : Bool) :
    qFactual { g.roundIn est with estIw := [] } =
      .ok (List.ofFn fun i => g.q i (g.action i) (g.position i)) := by
  simp only [qFactual, roundIn, List.length_ofFn]
  exact fancy3_ofFn ⟨n, A, L, g.q⟩ g.action g.position

theorem drRound_eq {g : Log K n A L} (h : g.Valid) (est : Bool) (lam : Lam K) :
    drRound lam { g.roundIn est with estIw := [] } =
      .ok (List.ofFn fun i => g.modelValue i + lam.clip (g.weight est i) * g.residual i) := by
  simp only [drRound, iwOf_eq h, py_bind_ok, map_ofFn', qFactual_eq]
  rw [show ({ g.roundIn est with estIw := [] } : RoundIn K).action.length = n by simp [roundIn],
    dmPart_eq h _ rfl rfl rfl]
  simp only [py_bind_ok, roundIn, bop_ofFn, iadd_ofFn, residual]

theorem sndrRound_eq {g : Log K n A L} (h : g.Valid) (est : Bool)
    (hw : avg (g.weight est) ≠ 0) :
    sndrRound { g.roundIn est with estIw := [] } =
      .ok (List.ofFn fun i =>
        g.modelValue i + g.weight est i * g.residual i / avg (g.weight est)) := by
  simp only [sndrRound, iwOf_eq h, py_bind_ok, qFactual_eq, npMean_avg h]
  rw [show ({ g.roundIn est with estIw := [] } : RoundIn K).action.length = n by simp [roundIn],
    dmPart_eq h _ rfl rfl rfl]
  simp only [py_bind_ok, roundIn, bop_ofFn]
  rw [mapM_ofFn_ok (f := fun x => npDiv x (avg (g.weight est))) (fun i => npDiv_ok hw)]
  simp only [py_bind_ok, iadd_ofFn, residual]

theorem sndrRound_nonFinite {g : Log K n A L} (h : g.Valid) (est : Bool)
    (hw : avg (g.weight est) = 0) :
    sndrRound { g.roundIn est with estIw := [] } = .error .nonFinite := by
  simp only [sndrRound, iwOf_eq h, py_bind_ok, qFactual_eq, npMean_avg h]
  rw [show ({ g.roundIn est with estIw := [] } : RoundIn K).action.length = n by simp [roundIn],
    dmPart_eq h _ rfl rfl rfl]
  simp only [py_bind_ok, roundIn, bop_ofFn]
  rw [hw, mapM_error_of (e := .nonFinite)]
  · rfl
  · intro x _; exact Or.inr (npDiv_zero x)
  · exact ⟨g.weight est ⟨0, h.nonempty⟩ *
      (g.reward ⟨0, h.nonempty⟩ - g.q ⟨0, h.nonempty⟩ (g.action ⟨0, h.nonempty⟩)
        (g.position ⟨0, h.nonempty⟩)), by simp only [List.mem_ofFn]; exact ⟨_, rfl⟩, npDiv_zero _⟩

theorem switchDrRound_eq {g : Log K n A L} (h : g.Valid) (est : Bool) (lam : Lam K) :
    switchDrRound lam { g.roundIn est with estIw := [] } =
      .ok (List.ofFn fun i => g.modelValue i +
        (if lam.geB (g.weight est i) then (1 : K) else 0) * g.weight est i * g.residual i) := by
  simp only [switchDrRound, iwOf_eq h, py_bind_ok, map_ofFn', qFactual_eq]
  rw [show ({ g.roundIn est with estIw := [] } : RoundIn K).action.length = n by simp [roundIn],
    dmPart_eq h _ rfl rfl rfl]
  simp only [py_bind_ok, roundIn, bop_ofFn, iadd_ofFn, residual]

theorem weightedDr_eq {g : Log K n A L} (h : g.Valid) (est : Bool) (w' : Fin n → K) :
    (do
      let base ← dmPart { g.roundIn est with estIw := [] }
        ({ g.roundIn est with estIw := [] } : RoundIn K).action.length
      let qf ← qFactual { g.roundIn est with estIw := [] }
      let res ← bop (· - ·) ({ g.roundIn est with estIw := [] } : RoundIn K).reward qf
      let corr ← bop (· * ·) (List.ofFn w') res
      iadd base corr) =
      (.ok (List.ofFn fun i => g.modelValue i + w' i * g.residual i) : Py (List K)) := by
  rw [show ({ g.roundIn est with estIw := [] } : RoundIn K).action.length = n by simp [roundIn],
    dmPart_eq h _ rfl rfl rfl, qFactual_eq]
  simp only [py_bind_ok, roundIn, bop_ofFn, iadd_ofFn, residual]

theorem drOsRound_eq {g : Log K n A L} (h : g.Valid) (est : Bool) (lam : Lam K) (w' : Fin n → K)
    (hw : ∀ i, drOsWeight lam (g.weight est i) = .ok (w' i)) :
    drOsRound lam { g.roundIn est with estIw := [] } =
      .ok (List.ofFn fun i => g.modelValue i + w' i * g.residual i) := by
  simp only [drOsRound, iwOf_eq h, py_bind_ok, mapM_ofFn_ok hw]
  exact weightedDr_eq h est w'

theorem sgDrRound_eq {g : Log K n A L} (h : g.Valid) (est : Bool) (lam : Lam K) (w' : Fin n → K)
    (hw : ∀ i, sgWeight lam (g.weight est i) = .ok (w' i)) :
    sgDrRound lam { g.roundIn est with estIw := [] } =
      .ok (List.ofFn fun i => g.modelValue i + w' i * g.residual i) := by
  simp only [sgDrRound, iwOf_eq h, py_bind_ok, mapM_ofFn_ok hw]
  exact weightedDr_eq h est w'

theorem sgIpwRound_eq {g : Log K n A L} (h : g.Valid) (est : Bool) (lam : Lam K) (w' : Fin n → K)
    (hw : ∀ i, sgWeight lam (g.weight est i) = .ok (w' i)) :
    sgIpwRound lam { g.roundIn est with q := noArr, estIw := [] } =
      .ok (List.ofFn fun i => w' i * g.reward i) := by
  simp only [sgIpwRound, iwOf_eq h, py_bind_ok, mapM_ofFn_ok hw]
  simp only [roundIn, bop_ofFn]

theorem drOsWeight_cases (lam : Lam K) (w : K) :
    (∃ y, drOsWeight lam w = .ok y) ∨ drOsWeight lam w = .error .nonFinite := by
  cases lam with
  | inf => exact Or.inl ⟨w, rfl⟩
  | fin l =>
    simp only [drOsWeight, npDiv]
    split
    · exact Or.inr rfl
    · exact Or.inl ⟨_, rfl⟩

theorem sgWeight_cases (lam : Lam K) (w : K) :
    (∃ y, sgWeight lam w = .ok y) ∨ sgWeight lam w = .error .nonFinite := by
  cases lam with
  | inf => exact Or.inr rfl
  | fin l =>
    simp only [sgWeight, npDiv]
    split
    · exact Or.inr rfl
    · exact Or.inl ⟨_, rfl⟩

theorem drOsRound_nonFinite {g : Log K n A L} (h : g.Valid) (est : Bool) (lam : Lam K)
    (i : Fin n) (hw : drOsWeight lam (g.weight est i) = .error .nonFinite) :
    drOsRound lam { g.roundIn est with estIw := [] } = .error .nonFinite := by
  simp only [drOsRound, iwOf_eq h, py_bind_ok]
  rw [mapM_error_of (fun x _ => drOsWeight_cases lam x)
    ⟨_, by simp only [List.mem_ofFn]; exact ⟨i, rfl⟩, hw⟩]
  rfl

theorem sgDrRound_nonFinite {g : Log K n A L} (h : g.Valid) (est : Bool) (lam : Lam K)
    (i : Fin n) (hw : sgWeight lam (g.weight est i) = .error .nonFinite) :
    sgDrRound lam { g.roundIn est with estIw := [] } = .error .nonFinite := by
  simp only [sgDrRound, iwOf_eq h, py_bind_ok]
  rw [mapM_error_of (fun x _ => sgWeight_cases lam x)
    ⟨_, by simp only [List.mem_ofFn]; exact ⟨i, rfl⟩, hw⟩]
  rfl

theorem sgIpwRound_nonFinite {g : Log K n A L} (h : g.Valid) (est : Bool) (lam : Lam K)
    (i : Fin n) (hw : sgWeight lam (g.weight est i) = .error .nonFinite) :
    sgIpwRound lam { g.roundIn est with q := noArr, estIw := [] } = .error .nonFinite := by
  simp only [sgIpwRound, iwOf_eq h, py_bind_ok]
  rw [mapM_error_of (fun x _ => sgWeight_cases lam x)
    ⟨_, by simp only [List.mem_ofFn]; exact ⟨i, rfl⟩, hw⟩]
  rfl

theorem bIpwRound_eq {g : Log K n A L} (h : g.Valid) (est : Bool) (lam : Lam K)
    (hw : avg (fun i => lam.clip (g.estIw i)) ≠ 0) :
    bIpwRound lam { g.roundIn est with q := noArr, pscore := [] } =
      .ok (List.ofFn fun i => g.reward i * lam.clip (g.estIw i) /
        avg (fun i => lam.clip (g.estIw i))) := by
  simp only [bIpwRound, roundIn, map_ofFn', bop_ofFn, py_bind_ok, npMean_avg h]
  exact mapM_ofFn_ok fun i => npDiv_ok hw

theorem bIpwRound_nonFinite {g : Log K n A L} (h : g.Valid) (est : Bool) (lam : Lam K)
    (hw : avg (fun i => lam.clip (g.estIw i)) = 0) :
    bIpwRound lam { g.roundIn est with q := noArr, pscore := [] } = .error .nonFinite := by
  simp only [bIpwRound, roundIn, map_ofFn', bop_ofFn, py_bind_ok, npMean_avg h]
  rw [hw]
  apply mapM_error_of
  · intro x _; exact Or.inr (npDiv_zero x)
  · exact ⟨g.reward ⟨0, h.nonempty⟩ * lam.clip (g.estIw ⟨0, h.nonempty⟩),
      by simp only [List.mem_ofFn]; exact ⟨_, rfl⟩, npDiv_zero _⟩

theorem rmRound_eq {g : Log K n A L} (h : g.Valid) (est : Bool) (hm : ∃ i, g.matched i) :
    rmRound { g.roundIn est with q := noArr, estIw := [], pscore := [] } =
      .ok (List.ofFn fun i => (if g.matched i then 1 else 0) * g.reward i /
        avg (fun i => if g.matched i then (1 : K) else 0)) := by
  have hpos : 0 < ∑ i, (if g.matched i then (1 : K) else 0) := by
    obtain ⟨i, hi⟩ := hm
    apply Finset.sum_pos'
    · intro j _; split <;> norm_num
    · exact ⟨i, Finset.mem_univ _, by simp [hi]⟩
  have hn : (0 : K) < n := by exact_mod_cast h.nonempty
  simp only [rmRound, roundIn, fancy_dist, py_bind_ok, map_ofFn', List.sum_ofFn]
  change (if 0 < ∑ i, (if g.matched i then (1 : K) else 0) then _ else _) = _
  rw [if_pos hpos]
  simp only [bop_ofFn, py_bind_ok, npMean_avg h]
  exact mapM_ofFn_ok fun i => npDiv_ok (by
    change (∑ i, (if g.matched i then (1 : K) else 0)) / (n : K) ≠ 0
    positivity)

theorem rmRound_nomatch {g : Log K n A L} (est : Bool) (hm : ¬ ∃ i, g.matched i) :
    rmRound { g.roundIn est with q := noArr, estIw := [], pscore := [] } =
      .ok (List.ofFn fun _ : Fin n => 0) := by
  push Not at hm
  simp only [rmRound, roundIn, fancy_dist, py_bind_ok, map_ofFn', List.sum_ofFn]
  change (if 0 < ∑ i, (if g.matched i then (1 : K) else 0) then _ else _) = _
  rw [if_neg (by simp [hm])]
  rfl

end Log
end Obp
