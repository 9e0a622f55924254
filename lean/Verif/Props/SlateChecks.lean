import Verif.Lemmas.Slate

/-! # C11, C12: which slate logs the validators accept -/

set_option linter.unusedSectionVars false

namespace Obp

variable {K : Type} [Field K] [LinearOrder K]

/-- **C11.** `check_sips_inputs` returns normally iff the arguments are equally long arrays of a
well-formed slate log: non-negative integer slate ids and positions, propensities in `(0, 1]`,
evaluation propensities in `[0, 1]`, no position twice in a slate, both joint propensities constant
within each slate. -/
theorem C11_sips_accept_iff (a : SlateArgs K) :
    (∃ r, checkSipsInputs a = .ok r) ↔
      ∃ (N : ℕ) (g : SlateLog K N), a.Encodes g ∧ 0 < N ∧ g.InRange ∧ g.UniquePositions ∧
        g.ConstantPerSlate g.ps ∧ g.ConstantPerSlate g.eps := by
  constructor
  · rintro ⟨r, h⟩
    obtain ⟨N, g, E, h, -⟩ := (slateCheck_ok (k := .sips)).1 h
    exact ⟨N, g, E, h⟩
  · rintro ⟨N, g, E, h⟩
    exact ⟨_, (slateCheck_ok (k := .sips)).2 ⟨N, g, E, h, rfl⟩⟩

/-- **C11.** `check_iips_inputs` asks for the same, without conditions across rows of a slate. -/
theorem C11_iips_accept_iff (a : SlateArgs K) :
    (∃ r, checkIipsInputs a = .ok r) ↔
      ∃ (N : ℕ) (g : SlateLog K N), a.Encodes g ∧ 0 < N ∧ g.InRange ∧ g.UniquePositions := by
  constructor
  · rintro ⟨r, h⟩
    obtain ⟨N, g, E, h, -⟩ := (slateCheck_ok (k := .iips)).1 h
    exact ⟨N, g, E, h.1, h.2.1, h.2.2.1⟩
  · rintro ⟨N, g, E, h1, h2, h3⟩
    exact ⟨_, (slateCheck_ok (k := .iips)).2 ⟨N, g, E, ⟨h1, h2, h3, trivial⟩, rfl⟩⟩

/-- **C11.** `check_rips_inputs` asks for both cascade propensities to be non-increasing in position
within each slate. -/
theorem C11_rips_accept_iff (a : SlateArgs K) :
    (∃ r, checkRipsInputs a = .ok r) ↔
      ∃ (N : ℕ) (g : SlateLog K N), a.Encodes g ∧ 0 < N ∧ g.InRange ∧ g.UniquePositions ∧
        g.NonincreasingPerSlate g.ps ∧ g.NonincreasingPerSlate g.eps := by
  constructor
  · rintro ⟨r, h⟩
    obtain ⟨N, g, E, h, -⟩ := (slateCheck_ok (k := .rips)).1 h
    exact ⟨N, g, E, h⟩
  · rintro ⟨N, g, E, h⟩
    exact ⟨_, (slateCheck_ok (k := .rips)).2 ⟨N, g, E, h, rfl⟩⟩

/-- **C11.** Everything that is not accepted raises ValueError. -/
theorem C11_error_kind (k : SlateKind) (a : SlateArgs K) {err : PyErr} (h : k.check a = .error err) :
    err = .valueError := onlyVE_slateCheck k a err h

/-- The log that an encoding determines. -/
theorem encodes_unique {a : SlateArgs K} {N M : ℕ} {g : SlateLog K N} {h : SlateLog K M}
    (hg : a.Encodes g) (hh : a.Encodes h) : ∃ e : N = M, e ▸ g = h := by
  have hs := hg.slateId.symm.trans hh.slateId
  have hp := hg.position.symm.trans hh.position
  have hr := hg.reward.2.symm.trans hh.reward.2
  have hb := hg.pscore.2.symm.trans hh.pscore.2
  have he := hg.evalPscore.2.symm.trans hh.evalPscore.2
  simp only [Arg1.int.injEq] at hs hp
  have hNM : N = M := by simpa using congrArg List.length hs
  subst hNM
  refine ⟨rfl, ?_⟩
  obtain ⟨g1, g2, g3, g4, g5⟩ := g
  obtain ⟨h1, h2, h3, h4, h5⟩ := h
  simp only [List.ofFn_inj] at hs hp hr hb he
  have e1 : g1 = h1 := by funext i; simpa using congrFun hs i
  have e2 : g2 = h2 := by funext i; simpa using congrFun hp i
  subst e1 e2 hr hb he
  rfl

theorem accepts_args_iff {N : ℕ} (k : SlateKind) (g : SlateLog K N) :
    (∃ r, k.check g.args = .ok r) ↔ k.Accepts g := by
  constructor
  · rintro ⟨r, h⟩
    obtain ⟨M, g', E, h', -⟩ := slateCheck_ok.1 h
    obtain ⟨e, he⟩ := encodes_unique E g.args_encodes
    subst e; subst he
    exact h'
  · intro h; exact ⟨_, slateCheck_args k g h⟩

theorem accepts_permute {N : ℕ} (k : SlateKind) (g : SlateLog K N) (σ : Equiv.Perm (Fin N)) :
    k.Accepts (g.permute σ) ↔ k.Accepts g := by
  have hall : ∀ p : Fin N → Prop, (∀ i, p (σ i)) ↔ ∀ i, p i := fun p =>
    ⟨fun h i => by simpa using h (σ.symm i), fun h i => h _⟩
  have hall2 : ∀ p : Fin N → Fin N → Prop, (∀ i j, p (σ i) (σ j)) ↔ ∀ i j, p i j := fun p =>
    ⟨fun h i j => by simpa using h (σ.symm i) (σ.symm j), fun h i j => h _ _⟩
  have h1 : (g.permute σ).InRange ↔ g.InRange :=
    hall fun i => 0 < g.ps i ∧ g.ps i ≤ 1 ∧ 0 ≤ g.eps i ∧ g.eps i ≤ 1
  have h2 : (g.permute σ).UniquePositions ↔ g.UniquePositions := by
    refine Iff.trans ?_ (hall2 fun i j => g.slate i = g.slate j → g.pos i = g.pos j → i = j)
    simp only [SlateLog.UniquePositions, SlateLog.permute, Function.comp_apply, σ.injective.eq_iff]
  have h3 : ∀ f, (g.permute σ).ConstantPerSlate (f ∘ σ) ↔ g.ConstantPerSlate f := fun f =>
    hall2 fun i j => g.slate i = g.slate j → f i = f j
  have h4 : ∀ f, (g.permute σ).NonincreasingPerSlate (f ∘ σ) ↔ g.NonincreasingPerSlate f := fun f =>
    hall2 fun i j => g.slate i = g.slate j → g.pos i < g.pos j → f j ≤ f i
  unfold SlateKind.Accepts
  rw [h1, h2]
  have e1 : (g.permute σ).ps = g.ps ∘ σ := rfl
  have e2 : (g.permute σ).eps = g.eps ∘ σ := rfl
  cases k <;> simp only [e1, e2, h3, h4]

/-- **C11.** The verdict does not depend on the order of the rows. -/
theorem C11_row_order {N : ℕ} (k : SlateKind) (g : SlateLog K N) (σ : Equiv.Perm (Fin N)) :
    (∃ r, k.check (g.permute σ).args = .ok r) ↔ ∃ r, k.check g.args = .ok r := by
  rw [accepts_args_iff, accepts_args_iff, accepts_permute]

/-! ### C12 -/

omit [Field K] [LinearOrder K] in
theorem flatten2_length {N m : ℕ} (d : Fin N → Fin m → K) : (flatten2 d).length = N * m := by
  simp [flatten2]

omit [Field K] [LinearOrder K] in
theorem flatten2_getElem? {N m : ℕ} (d : Fin N → Fin m → K) (i : Fin N) (b : Fin m) :
    (flatten2 d)[(i : ℕ) * m + b]? = some (d i b) := by
  have hlt : (i : ℕ) * m + b < N * m := by
    have := i.isLt; have := b.isLt
    calc (i : ℕ) * m + b < (i : ℕ) * m + m := by omega
      _ = ((i : ℕ) + 1) * m := by ring
      _ ≤ N * m := Nat.mul_le_mul_right _ i.isLt
  have hm : 0 < m := lt_of_le_of_lt (Nat.zero_le _) b.isLt
  unfold flatten2
  rw [List.getElem?_ofFn, dif_pos hlt]
  congr 2
  · ext; simp [Fin.divNat, Nat.mul_comm _ m, Nat.mul_add_div hm, Nat.div_eq_of_lt b.isLt]
  · ext; simp [Fin.modNat, Nat.mul_comm _ m, Nat.mod_eq_of_lt b.isLt]

theorem exists_flatten2 {xs : List K} {N m : ℕ} (h : xs.length = N * m) :
    ∃ d : Fin N → Fin m → K, xs = flatten2 d := by
  obtain ⟨f, rfl⟩ := list_eq_ofFn h
  refine ⟨fun i b => f (finProdFinEquiv (i, b)), ?_⟩
  unfold flatten2
  congr 1; funext j
  have : finProdFinEquiv.symm j = (j.divNat, j.modNat) := rfl
  show f j = f (finProdFinEquiv (j.divNat, j.modNat))
  rw [← this, Equiv.apply_symm_apply]

theorem blockSums_flatten2 {N m : ℕ} (hm : 0 < m) (d : Fin N → Fin m → K) :
    blockSums m (flatten2 d) = List.ofFn fun i => ∑ b, d i b := by
  unfold blockSums
  rw [flatten2_length, Nat.mul_div_cancel _ hm]
  apply List.ext_getElem
  · simp
  · intro i h1 h2
    simp only [List.getElem_map, List.getElem_range, List.getElem_ofFn]
    have hi : i < N := by simpa using h2
    have : ((flatten2 d).drop (i * m)).take m = List.ofFn (d ⟨i, hi⟩) := by
      apply List.ext_getElem?
      intro b
      rw [List.getElem?_take]
      split
      · next hb =>
        rw [List.getElem?_drop, List.getElem?_ofFn, dif_pos hb]
        exact flatten2_getElem? d ⟨i, hi⟩ ⟨b, hb⟩
      · next hb => rw [List.getElem?_eq_none (by simpa using hb)]
    rw [this, List.sum_ofFn]

/-- **C12 (partial).** Beyond the cascade checks, `check_cascade_dr_inputs` accepts iff the actions
are integers in `[0, n_unique_action)`, one per row, `evaluation_policy_action_dist` has exactly
`n_unique_action` entries per row and each block sums to one (up to `np.allclose`), and `q_hat` has
at least `n_unique_action` entries per row but less than one more block. Missing: that `q_hat` has
exactly `n_unique_action` entries per row; the validator does not check this
(`C12_qhat_length_unchecked`). -/
theorem C12_accept_iff_partial {nU : ℕ} (hU : 0 < nU) (a : CascadeArgs K) :
    (∃ r, checkCascadeDrInputs nU a = .ok r) ↔
      ∃ (N : ℕ) (g : SlateLog K N), a.toSlateArgs.Encodes g ∧ SlateKind.rips.Accepts g ∧
        a.action.IsIndexVec N nU ∧
        (∃ m, a.qHat.IsVec m ∧ N * nU ≤ m ∧ m < (N + 1) * nU) ∧
        a.evalDist.IsVec (N * nU) ∧
        ∃ d : Fin N → Fin nU → K, a.evalDist.vals = flatten2 d ∧
          ∀ i, |∑ b, d i b - 1| ≤ 1 / 10 ^ 8 + 1 / 10 ^ 5 := by
  have hvl : ∀ {b : Arg1 K} {k : ℕ}, b.IsVec k → b.vals.length = k := by
    rintro b k (⟨xs, rfl, h⟩ | ⟨xs, rfl, h⟩)
    · simpa [Arg1.vals] using h
    · exact h
  have hdiv : ∀ m N : ℕ, m / nU = N ↔ N * nU ≤ m ∧ m < (N + 1) * nU := by
    intro m N
    constructor
    · rintro rfl
      exact ⟨Nat.div_mul_le_self _ _, by
        have := Nat.lt_mul_div_succ m hU; rwa [Nat.mul_comm] at this⟩
    · rintro ⟨h1, h2⟩; exact Nat.div_eq_of_lt_le h1 h2
  unfold checkCascadeDrInputs
  simp only [py_bind_eq_ok, exists_unit, raiseIf_ok, py_pure, Except.ok.injEq]
  constructor
  · rintro ⟨r, rows, hr, ha, hq, hd, oka, hoa, hok, n1, h1, n2, h2, n3, h3, n4, h4, hn, hmod, hs, -⟩
    obtain ⟨N, g, E, hg, rfl⟩ := (slateCheck_ok (k := .rips)).1 hr
    simp only [decide_eq_false_iff_not, not_not] at hn hmod
    have hok' : oka = true := by simpa using hok
    subst hok'
    obtain ⟨xs, hx, hxne, hx0⟩ := intInRange_ok_true.1 hoa
    have hN : n1 = N := by rw [E.slateId] at h1; simpa [Arg1.shape0] using h1.symm
    subst hN
    obtain ⟨rfl, e2, e3⟩ := hn
    have h4' : n4 = n1 * nU := by
      have := Nat.div_add_mod n4 nU
      rw [hmod, ← e3, ← e2] at this
      rw [← this]; ring
    subst h4'
    have hvec := isVec_of_checkArray1 hd (shape0_ok.1 h4)
    refine ⟨n1, g, E, hg, ⟨xs, hx, ?_, hxne, hx0⟩, ⟨n3, isVec_of_checkArray1 hq (shape0_ok.1 h3),
      (hdiv _ _).1 e2.symm⟩, hvec, ?_⟩
    · rw [hx] at h2; simpa [Arg1.shape0] using h2
    · obtain ⟨d, hd'⟩ := exists_flatten2 (hvl hvec)
      refine ⟨d, hd', fun i => ?_⟩
      rw [hd', blockSums_flatten2 hU] at hs
      simp only [decide_eq_false_iff_not, not_not, List.all_eq_true] at hs
      have := hs _ (List.mem_ofFn.2 ⟨i, rfl⟩)
      simpa [closeToOne] using this
  · rintro ⟨N, g, E, hg, ⟨xs, hx, hxl, hxne, hx0⟩, ⟨m, hm, hm1⟩, hd, d, hd', hsum⟩
    refine ⟨g.rows, g.rows, (slateCheck_ok (k := .rips)).2 ⟨N, g, E, hg, rfl⟩,
      by rw [hx]; rfl, checkArray1_ok.2 ⟨m, hm⟩, checkArray1_ok.2 ⟨_, hd⟩, true,
      intInRange_ok_true.2 ⟨xs, hx, hxne, hx0⟩, by simp, N, ?_, N, ?_, m, isVec_length hm, N * nU,
      isVec_length hd, ?_, by simp, ?_, rfl⟩
    · rw [E.slateId]; simp [Arg1.shape0]
    · rw [hx]; simp [Arg1.shape0, hxl]
    · simp [(hdiv m N).2 hm1, Nat.mul_div_cancel _ hU]
    · rw [hd', blockSums_flatten2 hU]
      simp only [decide_eq_false_iff_not, not_not, List.all_eq_true]
      intro x hx
      obtain ⟨i, rfl⟩ := List.mem_ofFn.1 hx
      simpa [closeToOne] using hsum i

/-- **C12.** Rejection is always ValueError. -/
theorem C12_error_kind (nU : ℕ) (a : CascadeArgs K) {err : PyErr}
    (h : checkCascadeDrInputs nU a = .error err) : err = .valueError := by
  refine (?_ : OnlyVE (checkCascadeDrInputs nU a)) err h
  unfold checkCascadeDrInputs
  refine .bind (onlyVE_slateCheck .rips _) fun rows hr => .bind (onlyVE_checkArray1 _) fun _ h1 =>
    .bind (onlyVE_checkArray1 _) fun _ h2 => .bind (onlyVE_checkArray1 _) fun _ h3 =>
    .bind (onlyVE_intInRange _ _) fun _ _ => .bind (.raiseIf _) fun _ _ => ?_
  obtain ⟨k1, h1⟩ := checkArray1_ok.1 h1
  obtain ⟨k2, h2⟩ := checkArray1_ok.1 h2
  obtain ⟨k3, h3⟩ := checkArray1_ok.1 h3
  obtain ⟨N, g, E, -, -⟩ := (slateCheck_ok (k := .rips)).1 hr
  refine .bind (by rw [E.slateId]; exact .ok _) fun _ _ =>
    .bind (onlyVE_shape0 (isVec_leading h1)) fun _ _ =>
    .bind (onlyVE_shape0 (isVec_leading h2)) fun _ _ =>
    .bind (onlyVE_shape0 (isVec_leading h3)) fun _ _ => .bind (.raiseIf _) fun _ _ =>
    .bind (.raiseIf _) fun _ _ => .bind (.raiseIf _) fun _ _ => .ok _

/-! Concrete logs: two slates of two positions, rows out of order. -/

/-- A log accepted by all three validators. -/
def exSlate : SlateLog ℚ 4 where
  slate := ![3, 0, 0, 3]
  pos := ![1, 1, 0, 0]
  reward := ![1, -2, 3, 5]
  ps := ![1 / 2, 1 / 4, 1 / 4, 1 / 2]
  eps := ![1 / 3, 0, 0, 1 / 3]

theorem exSlate_accepts (k : SlateKind) : k.Accepts exSlate := by
  have h1 : exSlate.InRange := by unfold SlateLog.InRange; decide +kernel
  have h2 : exSlate.UniquePositions := by unfold SlateLog.UniquePositions; decide +kernel
  have h3 : exSlate.ConstantPerSlate exSlate.ps := by unfold SlateLog.ConstantPerSlate; decide +kernel
  have h4 : exSlate.ConstantPerSlate exSlate.eps := by unfold SlateLog.ConstantPerSlate; decide +kernel
  cases k
  · exact ⟨by decide, h1, h2, h3, h4⟩
  · exact ⟨by decide, h1, h2, trivial⟩
  · exact ⟨by decide, h1, h2, fun i j h _ => (h3 i j h).ge, fun i j h _ => (h4 i j h).ge⟩
  · exact ⟨by decide, h1, h2, h3, h4⟩
  · exact ⟨by decide, h1, h2, trivial⟩
  · exact ⟨by decide, h1, h2, fun i j h _ => (h3 i j h).ge, fun i j h _ => (h4 i j h).ge⟩

example := (C11_sips_accept_iff exSlate.args).2
  ⟨4, exSlate, exSlate.args_encodes, exSlate_accepts .sips⟩
/-- a duplicated position, a propensity of zero, a joint propensity that varies, a cascade propensity
that increases are rejected -/
example : ¬ ∃ r, checkIipsInputs { exSlate with pos := ![1, 1, 1, 0] }.args = .ok r := by
  rw [show checkIipsInputs (K := ℚ) = SlateKind.iips.check from rfl, accepts_args_iff]
  rintro ⟨-, -, h, -⟩; exact absurd (h 1 2 (by decide) (by decide)) (by decide)
example : ¬ ∃ r, checkSipsInputs { exSlate with ps := ![1 / 2, 1 / 4, 1 / 5, 1 / 2] }.args = .ok r := by
  rw [show checkSipsInputs (K := ℚ) = SlateKind.sips.check from rfl, accepts_args_iff]
  rintro ⟨-, -, -, h, -⟩; exact absurd (h 1 2 (by decide)) (by decide +kernel)
example : ¬ ∃ r, checkRipsInputs { exSlate with ps := ![1 / 2, 1 / 4, 1 / 5, 1 / 2] }.args = .ok r := by
  rw [show checkRipsInputs (K := ℚ) = SlateKind.rips.check from rfl, accepts_args_iff]
  rintro ⟨-, -, -, h, -⟩; exact absurd (h 2 1 (by decide) (by decide)) (by decide +kernel)

/-- `exSlate` with two actions. -/
def exCascade : CascadeLog ℚ 4 2 where
  toSlateLog := exSlate
  action := ![0, 1, 1, 0]
  q := fun i a => i.val + 2 * a.val
  dist := fun i _ => if i = 0 then 1 / 2 else 1 / 2

/-- **C12, disagreement.** `q_hat` with one entry too many is accepted. -/
theorem C12_qhat_length_unchecked :
    (∃ r, checkCascadeDrInputs 2 { exCascade.args with qHat := .flt (List.replicate 9 0) } = .ok r) ∧
      List.length (List.replicate 9 (0 : ℚ)) ≠ 4 * 2 := by
  refine ⟨(C12_accept_iff_partial (by decide) _).2 ⟨4, exSlate, exSlate.args_encodes,
    exSlate_accepts .rips, ⟨_, rfl, rfl, by decide, by decide⟩, ⟨9, Or.inr ⟨_, rfl, by simp⟩, by decide,
    by decide⟩, Or.inr ⟨_, rfl, flatten2_length _⟩, exCascade.dist, rfl, ?_⟩, by simp⟩
  decide +kernel

end Obp
