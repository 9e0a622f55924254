import Verif.Model.NeuralFit
import Verif.Props.NeuralNet
import Verif.Props.NeuralPolicy
import Verif.Lemmas.Simulator

set_option linter.unusedSectionVars false

/-!
# Training of the neural learners

C147 (the data on which the networks are trained), C148 (validation rounds and early stopping).
-/

namespace Obp

section data
variable {K : Type} [Field K] [LinearOrder K]

/-- Arguments of `fit`: rounds with contexts `c`, non-negative actions `a` and rewards `r`. -/
structure BanditArgs.LoggedRounds (b : BanditArgs K) {n d : ℕ} (c : Fin n → Fin d → K) (a : Fin n → ℕ)
    (r : Fin n → K) : Prop where
  pos : 0 < n
  context : b.context = .arr ⟨n, d, c⟩
  action : b.action = .int (List.ofFn fun i => (a i : ℤ))
  reward : b.reward.IsVec n ∧ b.reward.vals = List.ofFn r

theorem isVec_vals_len {a : Arg1 K} {k : ℕ} (h : a.IsVec k) : a.vals.length = k := by
  cases a <;> simp_all [Arg1.IsVec, Arg1.vals]

theorem exists_ofFn_of_length {α : Type} {xs : List α} {n : ℕ} (h : xs.length = n) : ∃ f : Fin n → α, xs = List.ofFn f := by
  subst h
  exact ⟨xs.get, (List.ofFn_get xs).symm⟩

theorem exists_ofFn_nat {xs : List ℤ} {n : ℕ} (h : xs.length = n) (h0 : ∀ z ∈ xs, 0 ≤ z) :
    ∃ f : Fin n → ℕ, xs = List.ofFn fun i => (f i : ℤ) := by
  obtain ⟨g, rfl⟩ := exists_ofFn_of_length h
  refine ⟨fun i => (g i).toNat, ?_⟩
  congr 1
  funext i
  exact (Int.toNat_of_nonneg (h0 _ (List.mem_ofFn.2 ⟨i, rfl⟩))).symm

/-- The three arguments shared by both `fit`s. -/
theorem loggedRounds_of_wellFormed {b : BanditArgs K} {n : ℕ} {acts : List ℤ} {ps po : Arg1 K}
    (h : BanditArgs.WellFormed { context := b.context, action := b.action, reward := b.reward, position := po
                                 pscore := ps } n acts) :
    ∃ (d : ℕ) (c : Fin n → Fin d → K) (a : Fin n → ℕ) (r : Fin n → K), b.LoggedRounds c a r := by
  obtain ⟨⟨⟨n', d, c⟩, hc, rfl⟩, ⟨h1, h2, h3, h4⟩, h5, -, -, -, -⟩ := h
  simp only at hc h1 h5 h2
  obtain ⟨f, hf⟩ := exists_ofFn_nat h2 h4
  obtain ⟨r, hr⟩ := exists_ofFn_of_length (isVec_vals_len h5)
  have h6 : acts.length ≠ 0 := by simpa using h3
  have h7 : 0 < n' := by omega
  exact ⟨d, c, f, r, h7, hc, by rw [h1, hf], h5, hr⟩

theorem BanditArgs.LoggedRounds.wellFormed {b : BanditArgs K} {n d : ℕ} {c : Fin n → Fin d → K} {a : Fin n → ℕ} {r : Fin n → K}
    (h : b.LoggedRounds c a r) {ps po : Arg1 K} (hps : ps = .none ∨ (ps.IsVec n ∧ ∀ p ∈ ps.vals, 0 < p))
    (hpo : po = .none ∨ ∃ f : Fin n → ℕ, po = .int (List.ofFn fun i => (f i : ℤ))) :
    BanditArgs.WellFormed { context := b.context, action := b.action, reward := b.reward, position := po
                            pscore := ps } n (List.ofFn fun i => (a i : ℤ)) := by
  have hn : ∀ f : Fin n → ℤ, List.ofFn f ≠ [] := by
    intro f hf
    have := congrArg List.length hf
    have := h.pos
    simp at *
    omega
  refine ⟨⟨_, h.context, rfl⟩, ⟨h.action, by simp, hn _, by simp [List.mem_ofFn]⟩, h.reward.1, Or.inl rfl, hps, ?_,
    Or.inl rfl⟩
  rcases hpo with hpo | ⟨f, hf⟩
  · exact Or.inl hpo
  · exact Or.inr ⟨_, hf, by simp, hn _, by simp [List.mem_ofFn]⟩

theorem zip_ofFn {α β : Type} {n : ℕ} (f : Fin n → α) (g : Fin n → β) :
    (List.ofFn f).zip (List.ofFn g) = List.ofFn fun i => (f i, g i) := by
  apply List.ext_getElem <;> simp

/-- **C147.** `QFuncEstimator.fit` accepts exactly logged rounds whose contexts have the dimension of the network, and
trains on them: round `i` is the `i`-th context with the `i`-th action and the `i`-th reward. -/
theorem C147_reward_model_data (b : BanditArgs K) (dim : ℕ) (rows : List (List K × ℤ × K)) :
    qFitData dim b = .ok rows ↔ ∃ (n : ℕ) (c : Fin n → Fin dim → K) (a : Fin n → ℕ) (r : Fin n → K),
      b.LoggedRounds c a r ∧ rows = List.ofFn fun i => (List.ofFn (c i), (a i : ℤ), r i) := by
  have key : ∀ {n d : ℕ} {c : Fin n → Fin d → K} {a : Fin n → ℕ} {r : Fin n → K}, b.LoggedRounds c a r →
      qFitData dim b = if d = dim then .ok (List.ofFn fun i => (List.ofFn (c i), (a i : ℤ), r i))
        else .error .valueError := by
    intro n d c a r h
    have hw := C10_accept_iff.2 ⟨_, _, h.wellFormed (ps := .none) (po := .none) (Or.inl rfl) (Or.inl rfl)⟩
    unfold qFitData
    rw [hw, py_bind_ok, h.context, h.action, h.reward.2]
    simp only [checkArray2, py_bind_ok]
    by_cases hd : d = dim
    · rw [if_pos hd, raiseIf_neg (by simpa using hd), py_bind_ok]
      simp only [Arg1.ints, py_bind_ok]
      rw [raiseIf_neg (by simp), py_bind_ok, zip_ofFn, zip_ofFn]
      rfl
    · rw [if_neg hd, raiseIf_pos (by simpa using hd), py_bind_error]
  constructor
  · intro h
    have h' := h
    unfold qFitData at h
    rw [py_bind_eq_ok] at h
    obtain ⟨u, hu, -⟩ := h
    obtain ⟨n, acts, hw⟩ := C10_accept_iff.1 hu
    obtain ⟨d, c, a, r, hl⟩ := loggedRounds_of_wellFormed hw
    rw [key hl] at h'
    split at h'
    · subst d
      exact ⟨n, c, a, r, hl, by simpa using h'.symm⟩
    · simp at h'
  · rintro ⟨n, c, a, r, hl, rfl⟩
    rw [key hl, if_pos rfl]

example : qFitData 1 ({ context := .arr ⟨2, 1, fun i _ => (i : ℚ)⟩, action := .int [1, 0], reward := .flt [3, 4] } : BanditArgs ℚ) =
    .ok [([0], 1, 3), ([1], 0, 4)] := by decide +kernel

/-- Propensities of `fit`: those given, which must be positive, or 1 / n_actions. -/
def FitPscores (nActions : ℕ) {n : ℕ} (arg : Arg1 K) (p : Fin n → K) : Prop :=
  (arg = .none ∧ ∀ i, p i = 1 / (nActions : K)) ∨ (arg.IsVec n ∧ arg.vals = List.ofFn p ∧ ∀ i, 0 < p i)

/-- Positions of `fit`: one non-negative integer per round, or nothing if there is one position. -/
def FitPositionsOk (lenList n : ℕ) (arg : Arg1 K) : Prop :=
  (arg = .none ∧ lenList = 1) ∨ ∃ f : Fin n → ℕ, arg = .int (List.ofFn fun i => (f i : ℤ))

theorem fitPscores_iff [IsStrictOrderedRing K] {nActions n : ℕ} (hA : 0 < nActions) {a : Fin n → ℕ} {arg : Arg1 K}
    (hp : arg = .none ∨ (arg.IsVec n ∧ ∀ p ∈ arg.vals, 0 < p)) :
    ∃ p : Fin n → K, FitPscores nActions arg p ∧
      fitPscores nActions (List.ofFn fun i => (a i : ℤ)) arg = .ok (List.ofFn p) := by
  have hA' : (nActions : K) ≠ 0 := by positivity
  rcases hp with rfl | ⟨h1, h2⟩
  · refine ⟨fun _ => 1 / (nActions : K), Or.inl ⟨rfl, fun _ => rfl⟩, ?_⟩
    unfold fitPscores
    rw [if_pos (by rfl)]
    exact mapM_ofFn_ok fun i => by simp [npDiv, hA']
  · obtain ⟨p, hp⟩ := exists_ofFn_of_length (isVec_vals_len h1)
    refine ⟨p, Or.inr ⟨h1, hp, fun i => h2 _ (by rw [hp]; exact List.mem_ofFn.2 ⟨i, rfl⟩)⟩, ?_⟩
    unfold fitPscores
    rw [if_neg (by cases arg <;> simp_all [Arg1.IsVec, Arg1.isNone]), hp]

theorem fitPscores_unique {nActions n : ℕ} {arg : Arg1 K} {p q : Fin n → K} (hp : FitPscores nActions arg p)
    (hq : FitPscores nActions arg q) : p = q := by
  rcases hp with ⟨rfl, hp⟩ | ⟨h1, hp, -⟩ <;> rcases hq with ⟨h2, hq⟩ | ⟨h2, hq, -⟩
  · funext i; rw [hp, hq]
  · simp [Arg1.IsVec] at h2
  · rw [h2] at h1; simp [Arg1.IsVec] at h1
  · rw [hp] at hq; exact List.ofFn_injective hq

/-- **C147.** `NNPolicyLearner.fit` accepts exactly logged rounds whose contexts have the dimension of the network, with
positive propensities (1 / n_actions if there are none) and, if there are several positions, with positions. It trains
the policy on these rounds, and before that the reward model on the same rounds if and only if the objective is dm or
dr. -/
theorem C147_policy_data [IsStrictOrderedRing K] (obj : Objective) {nActions : ℕ} (hA : 0 < nActions) (lenList dim : ℕ)
    (b : BanditArgs K) (q : Option (List (List K × ℤ × K))) (rows : List (FitRow K)) :
    nnFitData obj nActions lenList dim b = .ok (q, rows) ↔
      ∃ (n : ℕ) (c : Fin n → Fin dim → K) (a : Fin n → ℕ) (r p : Fin n → K),
        b.LoggedRounds c a r ∧ FitPscores nActions b.pscore p ∧ FitPositionsOk lenList n b.position ∧
        rows = (List.ofFn fun i => ⟨List.ofFn (c i), (a i : ℤ), r i, p i⟩) ∧
        q = if obj = .dm ∨ obj = .dr then some (List.ofFn fun i => (List.ofFn (c i), (a i : ℤ), r i)) else none := by
  have hq : ∀ {n : ℕ} {c : Fin n → Fin dim → K} {a : Fin n → ℕ} {r : Fin n → K}, b.LoggedRounds c a r →
      (if obj.needsQ = true then (do let d ← qFitData dim b; pure (some d)) else (.ok none : Py _)) =
      .ok (if obj = .dm ∨ obj = .dr then some (List.ofFn fun i => (List.ofFn (c i), (a i : ℤ), r i)) else none) := by
    intro n c a r h
    rw [(C147_reward_model_data b dim _).2 ⟨n, c, a, r, h, rfl⟩]
    cases obj <;> rfl
  have hnone : b.position = .none ↔ b.position.isNone = true := by
    cases b.position <;> simp [Arg1.isNone]
  have hpos : ∀ {n : ℕ}, (b.position = .none ∨ ∃ f : Fin n → ℕ, b.position = .int (List.ofFn fun i => (f i : ℤ))) →
      fitPositions lenList n b.position =
        if b.position.isNone = true ∧ lenList ≠ 1 then .error .typeError else .ok n := by
    intro n h
    unfold fitPositions
    by_cases hl : lenList = 1
    · simp [hl]
    · rcases h with h | ⟨f, h⟩ <;> rw [h] <;> simp [hl, Arg1.isNone, Arg1.shape0]
  have key : ∀ {n d : ℕ} {c : Fin n → Fin d → K} {a : Fin n → ℕ} {r p : Fin n → K}, b.LoggedRounds c a r →
      FitPscores nActions b.pscore p →
      (b.position = .none ∨ ∃ f : Fin n → ℕ, b.position = .int (List.ofFn fun i => (f i : ℤ))) →
      (nnFitData obj nActions lenList dim b = .ok (q, rows) ↔
        d = dim ∧ ¬ (b.position = .none ∧ lenList ≠ 1) ∧
        rows = (List.ofFn fun i => ⟨List.ofFn (c i), (a i : ℤ), r i, p i⟩) ∧
        q = if obj = .dm ∨ obj = .dr then some (List.ofFn fun i => (List.ofFn (c i), (a i : ℤ), r i)) else none) := by
    intro n d c a r p h hps hpo
    have hps' : b.pscore = .none ∨ (b.pscore.IsVec n ∧ ∀ y ∈ b.pscore.vals, 0 < y) := by
      rcases hps with h | ⟨h1, h2, h3⟩
      · exact Or.inl h.1
      · refine Or.inr ⟨h1, ?_⟩
        rw [h2]
        intro y hy
        obtain ⟨i, rfl⟩ := List.mem_ofFn.1 hy
        exact h3 i
    have hw := C10_accept_iff.2 ⟨_, _, h.wellFormed hps' hpo⟩
    obtain ⟨p', hp1, hp2⟩ := fitPscores_iff hA (a := a) hps'
    obtain rfl := fitPscores_unique hps hp1
    unfold nnFitData
    rw [hw, py_bind_ok, h.action, h.reward.2]
    by_cases hd : d = dim
    · subst hd
      rw [hq h, h.context]
      simp only [checkArray2, py_bind_ok]
      rw [raiseIf_neg (by simp), py_bind_ok]
      simp only [Arg1.ints, py_bind_ok]
      rw [hp2, py_bind_ok, List.length_ofFn, hpos hpo]
      by_cases hl : b.position = .none ∧ lenList ≠ 1
      · rw [if_pos (by rwa [← hnone]), py_bind_error]
        simp [hl]
      · rw [if_neg (by rwa [← hnone]), py_bind_ok, raiseIf_neg (by simp), py_bind_ok, zip_ofFn, zip_ofFn, zipWith_ofFn]
        simp only [hl, py_pure, Except.ok.injEq, Prod.mk.injEq, not_false_eq_true, true_and]
        constructor
        · rintro ⟨h1, h2⟩; exact ⟨h2.symm, h1.symm⟩
        · rintro ⟨h1, h2⟩; exact ⟨h2.symm, h1.symm⟩
    · rw [h.context]
      simp only [checkArray2, py_bind_ok]
      rw [raiseIf_pos (by simpa using hd), py_bind_error]
      simp [hd]
  constructor
  · intro h
    have h' := h
    unfold nnFitData at h
    rw [py_bind_eq_ok] at h
    obtain ⟨u, hu, -⟩ := h
    obtain ⟨n, acts, hw⟩ := C10_accept_iff.1 hu
    obtain ⟨d, c, a, r, hl⟩ := loggedRounds_of_wellFormed hw
    have h5 := hw.pscore
    have h6 := hw.position
    simp only at h5 h6
    have h6' : b.position = .none ∨ ∃ f : Fin n → ℕ, b.position = .int (List.ofFn fun i => (f i : ℤ)) := by
      rcases h6 with h6 | ⟨ps, h1, h2, -, h3⟩
      · exact Or.inl h6
      · obtain ⟨f, rfl⟩ := exists_ofFn_nat h2 h3
        exact Or.inr ⟨f, h1⟩
    obtain ⟨p, hp, -⟩ := fitPscores_iff hA (a := a) h5
    obtain ⟨rfl, h1, h2, h3⟩ := (key hl hp h6').1 h'
    refine ⟨n, c, a, r, p, hl, hp, ?_, h2, h3⟩
    rcases h6' with h6' | h6'
    · exact Or.inl ⟨h6', by by_contra hne; exact h1 ⟨h6', hne⟩⟩
    · exact Or.inr h6'
  · rintro ⟨n, c, a, r, p, hl, hp, hpo, h2, h3⟩
    refine (key hl hp ?_).2 ⟨rfl, ?_, h2, h3⟩
    · rcases hpo with h | h
      · exact Or.inl h.1
      · exact Or.inr h
    · rintro ⟨h4, h5⟩
      rcases hpo with h | ⟨f, h⟩
      · exact h5 h.2
      · rw [h] at h4; simp at h4

set_option synthInstance.maxSize 1000 in
example : nnFitData .dr 4 1 1 ({ context := .arr ⟨2, 1, fun i _ => (i : ℚ)⟩, action := .int [1, 0], reward := .flt [3, 4] } : BanditArgs ℚ) =
    .ok (some [([0], 1, 3), ([1], 0, 4)], [⟨[0], 1, 3, 1 / 4⟩, ⟨[1], 0, 4, 1 / 4⟩]) := by decide +kernel

set_option synthInstance.maxSize 1000 in
example : nnFitData .ipw 4 2 1 ({ context := .arr ⟨2, 1, fun i _ => (i : ℚ)⟩, action := .int [1, 0], reward := .flt [3, 4]
                                  pscore := .flt [1 / 2, 1 / 3], position := .int [1, 0] } : BanditArgs ℚ) =
    .ok (none, [⟨[0], 1, 3, 1 / 2⟩, ⟨[1], 0, 4, 1 / 3⟩]) := by decide +kernel

/-- **C147.** With several positions, `fit` cannot be called without positions, although they are optional: the call
raises TypeError, after the reward model has been trained. -/
theorem C147_positions_needed [IsStrictOrderedRing K] (obj : Objective) {nActions lenList n dim : ℕ} (hA : 0 < nActions)
    (hl : lenList ≠ 1) {b : BanditArgs K} {c : Fin n → Fin dim → K} {a : Fin n → ℕ} {r p : Fin n → K}
    (h : b.LoggedRounds c a r) (hp : FitPscores nActions b.pscore p) (hpo : b.position = .none) :
    nnFitData obj nActions lenList dim b = .error .typeError := by
  have hps' : b.pscore = .none ∨ (b.pscore.IsVec n ∧ ∀ y ∈ b.pscore.vals, 0 < y) := by
    rcases hp with h | ⟨h1, h2, h3⟩
    · exact Or.inl h.1
    · refine Or.inr ⟨h1, ?_⟩
      rw [h2]
      intro y hy
      obtain ⟨i, rfl⟩ := List.mem_ofFn.1 hy
      exact h3 i
  have hw := C10_accept_iff.2 ⟨_, _, h.wellFormed hps' (Or.inl hpo)⟩
  obtain ⟨p', hp1, hp2⟩ := fitPscores_iff hA (a := a) hps'
  have hq : ∃ q', (if obj.needsQ = true then (do let d ← qFitData dim b; pure (some d)) else (.ok none : Py _)) = .ok q' := by
    rw [(C147_reward_model_data b dim _).2 ⟨n, c, a, r, h, rfl⟩]
    cases obj <;> exact ⟨_, rfl⟩
  obtain ⟨q', hq⟩ := hq
  unfold nnFitData
  rw [hw, py_bind_ok, h.action, h.reward.2, hq, h.context]
  simp only [checkArray2, py_bind_ok]
  rw [raiseIf_neg (by simp), py_bind_ok]
  simp only [Arg1.ints, py_bind_ok]
  rw [hp2, py_bind_ok, List.length_ofFn, hpo]
  simp [fitPositions, hl, Arg1.isNone, py_bind_error]

set_option synthInstance.maxSize 1000 in
example : nnFitData .ipw 4 2 1 ({ context := .arr ⟨2, 1, fun i _ => (i : ℚ)⟩, action := .int [1, 0], reward := .flt [3, 4] } : BanditArgs ℚ) =
    .error .typeError := by decide +kernel

end data

section loop
variable {S R F : Type}

/-! ### loaders -/

theorem flatten_blocks (b : ℕ) (xs : List R) (m : ℕ) :
    ((List.range m).map fun k => (xs.drop (k * b)).take b).flatten = xs.take (m * b) := by
  induction m with
  | zero => simp
  | succ m ih =>
    rw [List.range_succ, List.map_append, List.flatten_append, ih, Nat.succ_mul, List.take_add]
    simp

theorem miniBatches_flatten {b : ℕ} (hb : 0 < b) (xs : List R) : (miniBatches b xs).flatten = xs := by
  unfold miniBatches
  rw [flatten_blocks]
  apply List.take_of_length_le
  have h := Nat.div_add_mod (xs.length + b - 1) b
  have h2 := Nat.mod_lt (xs.length + b - 1) hb
  rw [Nat.mul_comm]
  omega

theorem miniBatches_length (b : ℕ) (xs : List R) : (miniBatches b xs).length = (xs.length + b - 1) / b := by
  simp [miniBatches]

theorem miniBatches_sizes {b : ℕ} (hb : 0 < b) (xs : List R) :
    (miniBatches b xs).map List.length = batchSizes xs.length b := by
  unfold miniBatches batchSizes
  rw [List.map_map]
  have hdm := Nat.div_add_mod xs.length b
  have hlt := Nat.mod_lt xs.length hb
  have hpre : ∀ m, m ≤ xs.length / b →
      (List.range m).map (List.length ∘ fun k => (xs.drop (k * b)).take b) = List.replicate m b := by
    intro m hm
    rw [List.eq_replicate_iff]
    refine ⟨by simp, ?_⟩
    intro x hx
    obtain ⟨k, hk, rfl⟩ := List.mem_map.1 hx
    have hk' := List.mem_range.1 hk
    have h1 : (k + 1) * b ≤ xs.length / b * b := Nat.mul_le_mul_right b (by omega)
    have h2 : xs.length / b * b ≤ xs.length := Nat.div_mul_le_self _ _
    rw [Nat.succ_mul] at h1
    simp only [Function.comp, List.length_take, List.length_drop]
    omega
  by_cases h0 : xs.length % b = 0
  · rw [if_pos h0, List.append_nil]
    have : (xs.length + b - 1) / b = xs.length / b := by
      rw [h0, Nat.add_zero] at hdm
      rw [Nat.div_eq_iff hb]
      rw [Nat.mul_comm] at hdm
      omega
    rw [this]
    exact hpre _ le_rfl
  · rw [if_neg h0]
    have : (xs.length + b - 1) / b = xs.length / b + 1 := by
      rw [Nat.div_eq_iff hb, Nat.succ_mul]
      rw [Nat.mul_comm] at hdm
      omega
    rw [this, List.range_succ, List.map_append, hpre _ le_rfl]
    congr 1
    simp only [List.map_cons, List.map_nil, Function.comp, List.length_take, List.length_drop]
    rw [Nat.mul_comm] at hdm
    congr 1
    omega

theorem rowsAt_range (xs : List R) : rowsAt xs (List.range xs.length) = xs := by
  induction xs with
  | nil => rfl
  | cons x xs ih =>
    unfold rowsAt at *
    rw [List.length_cons, List.range_succ_eq_map, List.filterMap_cons]
    simp only [List.getElem?_cons_zero, List.filterMap_map]
    congr 1

theorem rowsAt_perm {xs : List R} {idx : List ℕ} (h : idx.Perm (List.range xs.length)) : (rowsAt xs idx).Perm xs := by
  have := h.filterMap fun i => xs[i]?
  exact this.trans (by rw [show (List.range xs.length).filterMap (fun i => xs[i]?) = xs from rowsAt_range xs])

theorem rowsAt_append (xs : List R) (i j : List ℕ) : rowsAt xs (i ++ j) = rowsAt xs i ++ rowsAt xs j := by
  simp [rowsAt]

theorem rowsAt_length {xs : List R} {idx : List ℕ} (h : ∀ i ∈ idx, i < xs.length) : (rowsAt xs idx).length = idx.length := by
  induction idx with
  | nil => rfl
  | cons i idx ih =>
    have h1 := h i (by simp)
    have h2 := ih fun j hj => h j (by simp [hj])
    unfold rowsAt at *
    rw [List.filterMap_cons, List.getElem?_eq_getElem h1]
    simp [h2]

/-- **C147.** The mini-batches of a loader: together they are the rounds in the order of the loader, each round once, and
all of them have the batch size except a smaller last one. -/
theorem C147_batches {b : ℕ} (hb : 0 < b) (xs : List R) :
    (miniBatches b xs).flatten = xs ∧ (miniBatches b xs).map List.length = batchSizes xs.length b :=
  ⟨miniBatches_flatten hb xs, miniBatches_sizes hb xs⟩

example : miniBatches 2 [10, 11, 12, 13, 14] = [[10, 11], [12, 13], [14]] := by decide

section split
variable {K : Type} [Field K] [LinearOrder K] [IsStrictOrderedRing K] [FloorRing K]

/-- **C147.** Training and validation rounds: without early stopping all rounds are used for training. With it, they are
divided: no round is lost, none is in both parts, and the validation part has `validation_fraction` of the rounds,
rounded down, but at least one. -/
theorem C147_split {frac : K} (hf : frac ≤ 1) {early : Bool} {split : List ℕ} {rows : List R}
    (hs : split.Perm (List.range rows.length)) {train valid : List R}
    (h : splitRows frac early split rows = .ok (train, valid)) :
    (train ++ valid).Perm rows ∧ (early = false → train = rows ∧ valid = []) ∧
      (early = true → valid.length = max ⌊(rows.length : K) * frac⌋₊ 1 ∧ 2 ≤ rows.length) := by
  unfold splitRows splitSizes at h
  cases early with
  | false =>
    simp only [Bool.false_eq_true, if_false, py_bind_ok, py_pure, Except.ok.injEq, Prod.mk.injEq] at h
    obtain ⟨rfl, rfl⟩ := h
    simp
  | true =>
    simp only [if_true] at h
    by_cases hn : rows.length ≤ 1
    · simp [hn, py_bind_error] at h
    · have hle : ⌊(rows.length : K) * frac⌋₊ ≤ rows.length := by
        have : (rows.length : K) * frac ≤ (rows.length : K) :=
          mul_le_of_le_one_right (by positivity) hf
        exact (Nat.floor_mono this).trans (by rw [Nat.floor_natCast])
      simp only [hn, if_false, py_bind_ok, py_pure, Except.ok.injEq, Prod.mk.injEq] at h
      obtain ⟨rfl, rfl⟩ := h
      have hlen : split.length = rows.length := by simpa using hs.length_eq
      have htake : (split.drop (rows.length - max ⌊(rows.length : K) * frac⌋₊ 1)).take (max ⌊(rows.length : K) * frac⌋₊ 1) =
          split.drop (rows.length - max ⌊(rows.length : K) * frac⌋₊ 1) := by
        apply List.take_of_length_le
        rw [List.length_drop]
        omega
      rw [htake]
      refine ⟨?_, by simp, fun _ => ⟨?_, by omega⟩⟩
      · rw [← rowsAt_append, List.take_append_drop]
        exact rowsAt_perm hs
      · rw [rowsAt_length]
        · rw [List.length_drop]
          omega
        · intro i hi
          have := hs.subset (List.mem_of_mem_drop hi)
          simpa using this

example : splitRows (3 / 10 : ℚ) true [4, 2, 0, 1, 3] [10, 11, 12, 13, 14] = .ok ([14, 12, 10, 11], [13]) := by
  have h : ⌊((5 : ℕ) : ℚ) * (3 / 10)⌋₊ = 1 := by rw [Nat.floor_eq_iff (by norm_num)]; norm_num
  unfold splitRows splitSizes
  simp only [List.length_cons, List.length_nil, Nat.zero_add, Nat.reduceAdd, h]
  decide +kernel

end split

/-! ### the loop -/

variable {loss : S → List R → Py F} {step : S → List R → S} {low : F → F → Bool} {nic : ℕ}

theorem trainPass_used {bs : List (List R)} {s s' : FitState S F} (h : trainPass loss step low nic bs s = .ok s') :
    ∃ used, used <+: bs ∧ (bs ≠ [] → used ≠ []) ∧ s'.net = used.foldl step s.net ∧
      s'.steps = s.steps + used.length := by
  induction bs generalizing s with
  | nil =>
    simp only [trainPass, Except.ok.injEq] at h
    subst h
    exact ⟨[], List.prefix_rfl, by simp, rfl, rfl⟩
  | cons b bs ih =>
    unfold trainPass at h
    rw [py_bind_eq_ok] at h
    obtain ⟨l, -, h⟩ := h
    simp only at h
    split at h
    · simp only [py_pure, Except.ok.injEq] at h
      subst h
      exact ⟨[b], by simp, by simp, rfl, rfl⟩
    · obtain ⟨used, h1, -, h3, h4⟩ := ih h
      exact ⟨b :: used, by simpa using h1, by simp, h3, by simp [h4]; omega⟩

theorem fitLoop_used {early : Bool} {train valid : ℕ → List (List R)} {m e : ℕ} {s s' : FitState S F} {v : ℕ × Option F}
    (h : fitLoop loss step low nic early train valid m e s v = .ok s') :
    ∃ epochs : List (List (List R)),
      List.Forall₂ (fun u t => u <+: t ∧ (t ≠ [] → u ≠ [])) epochs ((List.range' e m).map train) ∧
      s'.net = epochs.flatten.foldl step s.net ∧ s'.steps = s.steps + epochs.flatten.length := by
  induction m generalizing e s v with
  | zero =>
    simp only [fitLoop, Except.ok.injEq] at h
    subst h
    exact ⟨[], by simp, rfl, rfl⟩
  | succ m ih =>
    unfold fitLoop at h
    rw [py_bind_eq_ok] at h
    obtain ⟨s1, h1, h⟩ := h
    rw [py_bind_eq_ok] at h
    obtain ⟨v1, -, h⟩ := h
    obtain ⟨used, u1, u2, u3, u4⟩ := trainPass_used h1
    obtain ⟨epochs, e1, e2, e3⟩ := ih h
    refine ⟨used :: epochs, ?_, ?_, ?_⟩
    · rw [List.range'_succ, List.map_cons]
      exact List.Forall₂.cons ⟨u1, u2⟩ e1
    · rw [e2, u3, List.flatten_cons, List.foldl_append]
    · rw [e3, u4, List.flatten_cons, List.length_append]
      omega

theorem fitLoop_without {train valid : ℕ → List (List R)} {m e : ℕ} {s s' : FitState S F} {v : ℕ × Option F}
    {early : Bool} (h : fitLoop loss step low nic early train valid m e s v = .ok s') (valid' : ℕ → List (List R))
    (v' : ℕ × Option F) : fitLoop loss step low nic false train valid' m e s v' = .ok s' := by
  induction m generalizing e s v v' with
  | zero => exact h
  | succ m ih =>
    unfold fitLoop at h ⊢
    rw [py_bind_eq_ok] at h
    obtain ⟨s1, h1, h⟩ := h
    rw [py_bind_eq_ok] at h
    obtain ⟨v1, -, h⟩ := h
    rw [h1, py_bind_ok]
    simp only [Bool.false_eq_true, if_false, py_bind_ok]
    exact ih h _

section network
variable {K : Type} [Field K] [LinearOrder K] [IsStrictOrderedRing K] [FloorRing K]

/-- The random choices are permutations of the places they choose from: `n` rounds, `t` of them for training. -/
structure FitDraws.Valid (d : FitDraws) (n t : ℕ) : Prop where
  split : d.split.Perm (List.range n)
  train : ∀ e, (d.trainOrder e).Perm (List.range t)

/-- **C147.** What training does, for every network, optimiser and loss. The rounds are divided into a training and a
validation part (the latter empty without early stopping). There are exactly `max_iter` epochs. In each of them the
training rounds are put into an order, in which each occurs once, cut into mini-batches, and the optimiser does one step
for each of the first few mini-batches, at least for one. Nothing else changes the network. -/
theorem C147_training {batch : Option ℕ} {frac : K} (hf : frac ≤ 1) {early shuffle : Bool} {maxIter : ℕ} {draws : FitDraws}
    {rows : List R} {net : S} {s : FitState S F}
    (h : fitNetwork loss step low batch frac early shuffle nic maxIter draws rows net = .ok s)
    (hd : draws.Valid rows.length (if early then rows.length - max ⌊(rows.length : K) * frac⌋₊ 1 else rows.length)) :
    ∃ (b : ℕ) (train valid : List R) (epochs : List (List (List R))),
      0 < b ∧ b = batch.getD (min 200 rows.length) ∧ (train ++ valid).Perm rows ∧ (early = false → train = rows) ∧
      (early = true → valid.length = max ⌊(rows.length : K) * frac⌋₊ 1) ∧
      epochs.length = maxIter ∧
      (∀ u ∈ epochs, ∃ order : List R, order.Perm train ∧ (shuffle = false → order = train) ∧
        u <+: miniBatches b order ∧ (train ≠ [] → u ≠ [])) ∧
      s.net = epochs.flatten.foldl step net ∧ s.steps = epochs.flatten.length := by
  unfold fitNetwork at h
  rw [py_bind_eq_ok] at h
  obtain ⟨⟨train, valid⟩, h1, h⟩ := h
  rw [py_bind_eq_ok] at h
  obtain ⟨u2, h2, h⟩ := h
  rw [py_bind_eq_ok] at h
  obtain ⟨u3, -, h⟩ := h
  have hb : batch.getD (autoBatch rows.length) ≠ 0 := by
    cases u2
    rw [raiseIf_ok] at h2
    simpa using h2
  obtain ⟨p1, p2, p3⟩ := C147_split hf hd.split h1
  obtain ⟨epochs, e1, e2, e3⟩ := fitLoop_used h
  refine ⟨_, train, valid, epochs, Nat.pos_of_ne_zero hb, rfl, p1, fun he => (p2 he).1, fun he => (p3 he).1, ?_, ?_, e2,
    by simpa using e3⟩
  · simpa using e1.length_eq
  · intro u hu
    have htl : train.length = if early then rows.length - max ⌊(rows.length : K) * frac⌋₊ 1 else rows.length := by
      cases early with
      | false => simp [(p2 rfl).1]
      | true =>
        have := p1.length_eq
        rw [List.length_append, (p3 rfl).1] at this
        simp only [if_true]
        omega
    obtain ⟨i, hi, rfl⟩ := List.getElem_of_mem hu
    have hi' : i < ((List.range' 0 maxIter).map
      fun e => miniBatches (batch.getD (autoBatch rows.length))
        (if shuffle = true then rowsAt train (draws.trainOrder e) else train)).length := by
      rw [← e1.length_eq]; exact hi
    have hp := e1.get hi hi'
    simp only [List.get_eq_getElem, List.getElem_map, List.getElem_range'] at hp
    refine ⟨_, ?_, ?_, hp.1, ?_⟩
    · cases shuffle with
      | false => exact List.Perm.refl _
      | true => exact rowsAt_perm (by rw [htl]; exact hd.train _)
    · intro hsh; simp [hsh]
    · intro hne
      apply hp.2
      intro hnil
      have hl := miniBatches_flatten (Nat.pos_of_ne_zero hb)
        (if shuffle = true then rowsAt train (draws.trainOrder (0 + 1 * i)) else train)
      rw [hnil] at hl
      cases shuffle with
      | false => simp at hl; exact hne hl
      | true =>
        have hperm : (rowsAt train (draws.trainOrder (0 + 1 * i))).Perm train :=
          rowsAt_perm (by rw [htl]; exact hd.train _)
        simp only [List.flatten_nil, if_true] at hl
        rw [← hl] at hperm
        exact hne hperm.symm.eq_nil


/-- A run on six rounds with validation: two epochs, four rounds for training, two of them per step. -/
example : (fitNetwork (fun (s : ℕ) (b : List ℕ) => (.ok (s + b.sum) : Py ℕ)) (fun s b => s + b.sum) (fun l p => decide (l < p))
      (some 2) (1 / 3 : ℚ) true true 10 2 ⟨[5, 0, 1, 2, 3, 4], fun e => if e = 0 then [0, 1, 2, 3] else [3, 2, 1, 0],
        fun _ => [0, 1]⟩ [1, 10, 100, 1000, 10000, 100000] 0).map (fun s => (s.net, s.steps)) = .ok (200222, 4) := by
  have h : ⌊((6 : ℕ) : ℚ) * (1 / 3)⌋₊ = 2 := by norm_num
  unfold fitNetwork splitRows splitSizes
  simp only [List.length_cons, List.length_nil, Nat.zero_add, Nat.reduceAdd, h]
  decide +kernel

/-- **C148.** With early stopping, the network after training is the one obtained by training without early stopping on
the training rounds alone: the validation rounds are only taken away. -/
theorem C148_only_drops_rounds {batch : Option ℕ} {frac : K} {shuffle : Bool} {maxIter : ℕ} {draws : FitDraws}
    {rows train valid : List R} {net : S} {s : FitState S F}
    (ht : splitRows frac true draws.split rows = .ok (train, valid))
    (h : fitNetwork loss step low batch frac true shuffle nic maxIter draws rows net = .ok s) :
    fitNetwork loss step low (some (batch.getD (min 200 rows.length))) frac false shuffle nic maxIter draws train net =
      .ok s := by
  unfold fitNetwork at h ⊢
  rw [ht, py_bind_ok] at h
  have hsp : splitRows frac false draws.split train = .ok (train, []) := by
    unfold splitRows splitSizes
    simp [py_bind_ok, py_pure]
  rw [hsp, py_bind_ok]
  simp only [Option.getD_some]
  rw [py_bind_eq_ok] at h
  obtain ⟨u, h2, h⟩ := h
  rw [py_bind_eq_ok] at h
  obtain ⟨u', h3, h⟩ := h
  rw [raiseIf_ok] at h2 h3
  rw [raiseIf_neg (decide_eq_false (p := batch.getD (min 200 rows.length) = 0) (of_decide_eq_false h2)), py_bind_ok, raiseIf_neg (by simpa using h3), py_bind_ok]
  exact fitLoop_without h _ _

/-- **C148.** The validation losses never have an effect: replacing the validation rounds by any others (`rows'` has the
same rounds in the training part), or changing the way in which the loss treats validation rounds, gives the same network
after the same number of steps. -/
theorem C148_validation_ignored {batch : Option ℕ} {frac : K} {shuffle : Bool} {maxIter : ℕ} {draws draws' : FitDraws}
    {rows rows' train valid valid' : List R} {net : S} {s s' : FitState S F}
    (hl : rows.length = rows'.length) (ho : draws.trainOrder = draws'.trainOrder)
    (ht : splitRows frac true draws.split rows = .ok (train, valid))
    (ht' : splitRows frac true draws'.split rows' = .ok (train, valid'))
    (h : fitNetwork loss step low batch frac true shuffle nic maxIter draws rows net = .ok s)
    (h' : fitNetwork loss step low batch frac true shuffle nic maxIter draws' rows' net = .ok s') : s = s' := by
  have h1 := C148_only_drops_rounds ht h
  have h2 := C148_only_drops_rounds ht' h'
  have hsp : ∀ d : FitDraws, splitRows frac false d.split train = .ok (train, []) := by
    intro d
    unfold splitRows splitSizes
    simp [py_bind_ok, py_pure]
  rw [← hl] at h2
  unfold fitNetwork at h1 h2
  rw [hsp, py_bind_ok] at h1 h2
  rw [← ho] at h2
  rw [py_bind_eq_ok] at h1 h2
  obtain ⟨u1, -, h1⟩ := h1
  obtain ⟨u2, -, h2⟩ := h2
  rw [py_bind_eq_ok] at h1 h2
  obtain ⟨u3, -, h1⟩ := h1
  obtain ⟨u4, -, h2⟩ := h2
  have h3 := fitLoop_without h1 (fun _ => []) (0, none)
  have h4 := fitLoop_without h2 (fun _ => []) (0, none)
  rw [h3] at h4
  exact Except.ok.inj h4

/-- **C148.** So training is never terminated: whatever the losses, with or without early stopping, if there is a round to
train on, the optimiser does at least one step in each of the `max_iter` epochs, and never more than one per mini-batch. -/
theorem C148_never_terminates {batch : Option ℕ} {frac : K} (hf : frac ≤ 1) {early shuffle : Bool} {maxIter : ℕ} {draws : FitDraws}
    {rows : List R} {net : S} {s : FitState S F}
    (h : fitNetwork loss step low batch frac early shuffle nic maxIter draws rows net = .ok s)
    (hd : draws.Valid rows.length (if early then rows.length - max ⌊(rows.length : K) * frac⌋₊ 1 else rows.length)) :
    ∃ train valid : List R, (train ++ valid).Perm rows ∧ (train ≠ [] → maxIter ≤ s.steps) ∧
      s.steps ≤ maxIter * (batchSizes train.length (batch.getD (min 200 rows.length))).length := by
  obtain ⟨b, train, valid, epochs, hb, hb', hp, -, -, hlen, hu, -, hs⟩ := C147_training hf h hd
  subst hb'
  refine ⟨train, valid, hp, ?_, ?_⟩
  · intro hne
    rw [hs, List.length_flatten, ← hlen]
    have : ∀ es : List (List (List R)), (∀ u ∈ es, u ≠ []) → es.length ≤ (es.map List.length).sum := by
      intro es hes
      induction es with
      | nil => simp
      | cons u es ih =>
        have h1 : u.length ≠ 0 := by simpa using hes u (by simp)
        have h2 := ih fun w hw => hes w (by simp [hw])
        simp only [List.length_cons, List.map_cons, List.sum_cons]
        omega
    exact this epochs fun u hu' => (hu u hu').choose_spec.2.2.2 hne
  · rw [hs, List.length_flatten, ← hlen]
    have : ∀ es : List (List (List R)), (∀ u ∈ es, u.length ≤ (batchSizes train.length (batch.getD (min 200 rows.length))).length) →
        (es.map List.length).sum ≤ es.length * (batchSizes train.length (batch.getD (min 200 rows.length))).length := by
      intro es hes
      induction es with
      | nil => simp
      | cons u es ih =>
        have h1 := hes u (by simp)
        have h2 := ih fun w hw => hes w (by simp [hw])
        simp only [List.length_cons, List.map_cons, List.sum_cons, Nat.succ_mul]
        omega
    apply this
    intro u hu'
    obtain ⟨order, o1, -, o2, -⟩ := hu u hu'
    have h1 := o2.length_le
    rw [← o1.length_eq, ← miniBatches_sizes hb order, List.length_map]
    exact h1

/-- A network whose only weight counts the steps; the training loss goes up by one in every step, the validation loss is
always zero. -/
def constantValidation (E : ℕ) : Py (FitState ℕ ℚ) :=
  fitNetwork (K := ℚ) (fun (s : ℕ) (b : List Bool) => .ok (if b = [true] then (s : ℚ) else 0)) (fun s _ => s + 1)
    (fun l p => decide (l - p < 1 / 2)) (some 1) (1 / 2) true false 1 E ⟨[0, 1], fun _ => [0], fun _ => [0]⟩ [true, false] 0

/-- **C148.** The documented early stopping ("terminate training when validation score is not improving") does not take
place: there is a network whose validation loss is the same in all epochs, so it does not improve by `tol` even once, and
which is nevertheless trained in every epoch, however many there are, with `n_iter_no_change=1`. -/
theorem not_C148_stops_when_validation_stalls (E : ℕ) :
    ∃ s, constantValidation E = .ok s ∧ s.steps = E ∧ s.net = E := by
  have hsp : splitRows (1 / 2 : ℚ) true [0, 1] [true, false] = .ok ([true], [false]) := by
    have h : ⌊((2 : ℕ) : ℚ) * (1 / 2)⌋₊ = 1 := by norm_num
    unfold splitRows splitSizes
    simp only [List.length_cons, List.length_nil, Nat.zero_add, Nat.reduceAdd, h]
    decide +kernel
  have hb1 : miniBatches 1 [true] = [[true]] := by decide
  have hb2 : miniBatches 1 [false] = [[false]] := by decide
  have key : ∀ (m e : ℕ) (s : FitState ℕ ℚ) (v : ℕ × Option ℚ), s.notImproving = 0 →
      (s.previous = none ∨ s.previous = some ((s.net : ℚ) - 1)) →
      ∃ s', fitLoop (fun (s : ℕ) (b : List Bool) => .ok (if b = [true] then (s : ℚ) else 0)) (fun s _ => s + 1)
        (fun l p => decide (l - p < (1 / 2 : ℚ))) 1 true (fun _ => [[true]]) (fun _ => [[false]]) m e s v = .ok s' ∧
        s'.steps = s.steps + m ∧ s'.net = s.net + m := by
    intro m
    induction m with
    | zero => intro e s v _ _; exact ⟨s, rfl, rfl, rfl⟩
    | succ m ih =>
      intro e s v h0 hp
      have hc : fitCount (fun l p => decide (l - p < (1 / 2 : ℚ))) s.previous s.notImproving (s.net : ℚ) = 0 := by
        unfold fitCount
        rcases hp with hp | hp
        · rw [hp]; exact h0
        · rw [hp]
          norm_num
      have ht : trainPass (fun (s : ℕ) (b : List Bool) => (.ok (if b = [true] then (s : ℚ) else 0) : Py ℚ)) (fun s _ => s + 1)
          (fun l p => decide (l - p < (1 / 2 : ℚ))) 1 [[true]] s =
          .ok ⟨s.net + 1, s.steps + 1, 0, some (s.net : ℚ)⟩ := by
        simp only [trainPass, py_bind_ok, if_true, hc]
        simp
      have hv : ∀ w : ℕ × Option ℚ, ∃ w', validPass (fun (s : ℕ) (b : List Bool) => (.ok (if b = [true] then (s : ℚ) else 0) : Py ℚ))
          (fun l p => decide (l - p < (1 / 2 : ℚ))) 1 (s.net + 1) [[false]] w = .ok w' := by
        intro w
        have hne : ¬ ([false] = [true]) := by decide
        simp only [validPass, py_bind_ok, if_neg hne]
        by_cases hc' : 1 < fitCount (fun l p => decide (l - p < (1 / 2 : ℚ))) w.2 w.1 0
        · rw [if_pos hc']; exact ⟨_, rfl⟩
        · rw [if_neg hc']; exact ⟨_, rfl⟩
      obtain ⟨w', hw⟩ := hv v
      unfold fitLoop
      rw [ht, py_bind_ok]
      simp only [if_true]
      rw [hw, py_bind_ok]
      obtain ⟨s', e1, e2, e3⟩ := ih (e + 1) ⟨s.net + 1, s.steps + 1, 0, some (s.net : ℚ)⟩ w' rfl (Or.inr (by simp))
      exact ⟨s', e1, by rw [e2]; simp only; omega, by rw [e3]; simp only; omega⟩
  unfold constantValidation fitNetwork
  rw [hsp, py_bind_ok]
  simp only [Option.getD_some, Bool.false_eq_true, if_false, hb1, hb2]
  obtain ⟨s', e1, e2, e3⟩ := key E 0 ⟨0, 0, 0, none⟩ (0, none) rfl (Or.inl rfl)
  refine ⟨s', ?_, by simpa using e2, by simpa using e3⟩
  rw [raiseIf_neg (by simp), py_bind_ok, raiseIf_neg (by simp), py_bind_ok]
  exact e1

/-! ### the counters, and C73 -/

/-- The variables of the loop of C73. -/
def FitState.counters (s : FitState S K) : TrainState K := ⟨s.steps, s.notImproving, s.previous⟩

theorem trainPass_counters {lossK : S → List R → Py K} {tol : K} {bs : List (List R)} {s s' : FitState S K}
    (h : trainPass lossK step (fun l p => decide (l - p < tol)) nic bs s = .ok s') :
    s.steps ≤ s'.steps ∧ ∃ f : ℕ → K, ∀ g : ℕ → K, (∀ k, s.steps ≤ k → k < s'.steps → g k = f k) →
      trainEpoch g tol nic bs.length s.counters = s'.counters := by
  induction bs generalizing s with
  | nil =>
    simp only [trainPass, Except.ok.injEq] at h
    subst h
    exact ⟨le_rfl, fun _ => 0, fun _ _ => rfl⟩
  | cons b bs ih =>
    unfold trainPass at h
    rw [py_bind_eq_ok] at h
    obtain ⟨l, -, h⟩ := h
    simp only at h
    have hcount : fitCount (fun l p => decide (l - p < tol)) s.previous s.notImproving l =
        nextCount tol s.previous s.notImproving l := by
      unfold fitCount nextCount
      cases s.previous <;> simp
    rw [hcount] at h
    split at h
    · rename_i hc
      simp only [py_pure, Except.ok.injEq] at h
      subst h
      refine ⟨by simp, fun _ => l, fun g hg => ?_⟩
      have hgl : g s.steps = l := hg s.steps le_rfl (by simp)
      simp only [List.length_cons, trainEpoch, FitState.counters, hgl, if_pos hc]
    · rename_i hc
      obtain ⟨h1, f, hf⟩ := ih h
      simp only at h1
      refine ⟨by omega, fun k => if k = s.steps then l else f k, fun g hg => ?_⟩
      have hgl : g s.steps = l := by
        rw [hg s.steps le_rfl (by omega)]; exact if_pos rfl
      have := hf g fun k hk1 hk2 => by
        simp only at hk1
        rw [hg k (by omega) hk2]; exact if_neg (by omega)
      rw [← this]
      simp only [List.length_cons, trainEpoch, FitState.counters, hgl, if_neg hc]

theorem fitLoop_counters {lossK : S → List R → Py K} {tol : K} {early : Bool} {train valid : ℕ → List (List R)} {B : ℕ}
    (hB : ∀ e, (train e).length = B) {m e : ℕ} {s s' : FitState S K} {v : ℕ × Option K}
    (h : fitLoop lossK step (fun l p => decide (l - p < tol)) nic early train valid m e s v = .ok s') :
    s.steps ≤ s'.steps ∧ ∃ f : ℕ → K, ∀ g : ℕ → K, (∀ k, s.steps ≤ k → k < s'.steps → g k = f k) →
      trainLoop g tol nic B m s.counters = s'.counters := by
  induction m generalizing e s v with
  | zero =>
    simp only [fitLoop, Except.ok.injEq] at h
    subst h
    exact ⟨le_rfl, fun _ => 0, fun _ _ => rfl⟩
  | succ m ih =>
    unfold fitLoop at h
    rw [py_bind_eq_ok] at h
    obtain ⟨s1, h1, h⟩ := h
    rw [py_bind_eq_ok] at h
    obtain ⟨v1, -, h⟩ := h
    obtain ⟨l1, f1, hf1⟩ := trainPass_counters h1
    obtain ⟨l2, f2, hf2⟩ := ih h
    refine ⟨by omega, fun k => if k < s1.steps then f1 k else f2 k, fun g hg => ?_⟩
    rw [hB] at hf1
    unfold trainLoop
    rw [hf1 g fun k hk1 hk2 => by rw [hg k hk1 (by omega)]; exact if_pos hk2]
    exact hf2 g fun k hk1 hk2 => by rw [hg k (by omega) hk2]; exact if_neg (by omega)

/-- **C147.** The number of optimiser steps of `fit` is that of the training loop of C73 for some sequence of losses, so what is
proved there about early stopping holds for every network, optimiser, loss and data. -/
theorem C147_step_count {lossK : S → List R → Py K} {tol : K} {batch : Option ℕ} {frac : K} (hf : frac ≤ 1)
    {early shuffle : Bool} {maxIter : ℕ} {draws : FitDraws} {rows : List R} {net : S} {s : FitState S K}
    (h : fitNetwork lossK step (fun l p => decide (l - p < tol)) batch frac early shuffle nic maxIter draws rows net = .ok s)
    (hd : draws.Valid rows.length (if early then rows.length - max ⌊(rows.length : K) * frac⌋₊ 1 else rows.length)) :
    ∃ losses : ℕ → K, s.steps = stepsDone losses tol nic
      (batchSizes (if early then rows.length - max ⌊(rows.length : K) * frac⌋₊ 1 else rows.length)
        (batch.getD (min 200 rows.length))).length maxIter := by
  unfold fitNetwork at h
  rw [py_bind_eq_ok] at h
  obtain ⟨⟨train, valid⟩, h1, h⟩ := h
  rw [py_bind_eq_ok] at h
  obtain ⟨u2, h2, h⟩ := h
  rw [py_bind_eq_ok] at h
  obtain ⟨u3, -, h⟩ := h
  have hb : batch.getD (autoBatch rows.length) ≠ 0 := by
    cases u2
    rw [raiseIf_ok] at h2
    simpa using h2
  obtain ⟨p1, p2, p3⟩ := C147_split hf hd.split h1
  have htl : train.length = if early then rows.length - max ⌊(rows.length : K) * frac⌋₊ 1 else rows.length := by
    cases early with
    | false => simp [(p2 rfl).1]
    | true =>
      have := p1.length_eq
      rw [List.length_append, (p3 rfl).1] at this
      simp only [if_true]
      omega
  obtain ⟨-, f, hf'⟩ := fitLoop_counters (B := (batchSizes train.length (batch.getD (autoBatch rows.length))).length)
    (fun e => by
      rw [← List.length_map (f := List.length), miniBatches_sizes (Nat.pos_of_ne_zero hb)]
      cases shuffle with
      | false => rfl
      | true =>
        have hperm : (rowsAt train (draws.trainOrder e)).Perm train := rowsAt_perm (by rw [htl]; exact hd.train _)
        simp only [if_true, hperm.length_eq]) h
  refine ⟨f, ?_⟩
  have := congrArg TrainState.steps (hf' f fun _ _ _ => rfl)
  rw [htl] at this
  exact this.symm

end network

end loop

/-! ### loss and predictions of the reward model -/

/-- **C147.** The loss of the reward model on a mini-batch: the mean squared difference of the rewards and the outputs of the
network at the logged actions. So it is never negative, it is zero exactly when all these rewards are fitted, and the
outputs for other actions do not matter. -/
theorem C147_reward_model_loss {n d A : ℕ} (hn : 0 < n) (f : List ℝ → Fin A → ℝ) (x : Fin n → Fin d → ℝ) (a : Fin n → Fin A)
    (r : Fin n → ℝ) :
    ∃ v, qBatchLoss (fun x => .ok (List.ofFn (f x))) (List.ofFn fun i => (List.ofFn (x i), ((a i : ℕ) : ℤ), r i)) = .ok v ∧
      v = (∑ i, (r i - f (List.ofFn (x i)) (a i)) ^ 2) / n ∧ 0 ≤ v ∧
      (v = 0 ↔ ∀ i, f (List.ofFn (x i)) (a i) = r i) := by
  have hn' : (0 : ℝ) < n := by exact_mod_cast hn
  have hs : 0 ≤ ∑ i, (r i - f (List.ofFn (x i)) (a i)) ^ 2 := Finset.sum_nonneg fun i _ => sq_nonneg _
  refine ⟨_, ?_, rfl, div_nonneg hs hn'.le, ?_⟩
  · unfold qBatchLoss
    rw [mapM_ofFn_ok (y := fun i => (r i - f (List.ofFn (x i)) (a i)) ^ 2)]
    · rw [py_bind_ok]
      unfold npMean
      simp [List.sum_ofFn, hn.ne']
    · intro i
      have : npIndex (List.ofFn (f (List.ofFn (x i)))) ((a i : ℕ) : ℤ) = .ok (f (List.ofFn (x i)) (a i)) := by
        rw [npIndex_natCast]
        simp
      simp only [py_bind_ok, this]
      rfl
  · rw [div_eq_zero_iff, or_iff_left hn'.ne', Finset.sum_eq_zero_iff_of_nonneg fun i _ => sq_nonneg _]
    constructor
    · intro h i
      have := h i (Finset.mem_univ _)
      rw [sq_eq_zero_iff, sub_eq_zero] at this
      exact this.symm
    · intro h i _
      rw [h i]
      simp

example : ∃ v, qBatchLoss (fun x => .ok (List.ofFn fun a : Fin 2 => x.sum + a))
    (List.ofFn fun i : Fin 2 => (List.ofFn fun _ : Fin 1 => (i : ℝ), (((1 : Fin 2) : ℕ) : ℤ), (3 : ℝ))) = .ok v ∧ v = 5 / 2 := by
  obtain ⟨v, h1, h2, -⟩ := C147_reward_model_loss (n := 2) (d := 1) (A := 2) (by norm_num) (fun x a => x.sum + a) (fun i _ => (i : ℝ))
    (fun _ => 1) (fun _ => 3)
  refine ⟨v, h1, ?_⟩
  rw [h2]
  simp [Fin.sum_univ_two]
  norm_num

/-- **C147.** A logged action that the network has no output for makes the training of the reward model fail with
IndexError. -/
theorem C147_unknown_action {A : ℕ} (f : List ℝ → Fin A → ℝ) (rows : List (List ℝ × ℤ × ℝ))
    (h : ∃ row ∈ rows, (A : ℤ) ≤ row.2.1) :
    qBatchLoss (fun x => .ok (List.ofFn (f x))) rows = .error .indexError := by
  unfold qBatchLoss
  rw [mapM_error_of (e := .indexError), py_bind_error]
  · intro row _
    unfold npIndex
    simp only [py_bind_ok]
    cases wrapIdx (List.ofFn (f row.1)).length row.2.1 with
    | none => right; rfl
    | some j => left; exact ⟨_, rfl⟩
  · obtain ⟨row, hr, ha⟩ := h
    refine ⟨row, hr, ?_⟩
    have : wrapIdx (List.ofFn (f row.1)).length row.2.1 = none := by
      unfold wrapIdx
      rw [List.length_ofFn]
      split
      · omega
      · split
        · omega
        · rfl
    unfold npIndex
    simp only [py_bind_ok, this, py_bind_error]

example : qBatchLoss (fun _ => .ok (List.ofFn fun _ : Fin 2 => (0 : ℝ))) [([1], 0, 1), ([1], 2, 1)] = .error .indexError :=
  C147_unknown_action (A := 2) (fun _ _ => 0) _ ⟨_, List.mem_cons_of_mem _ (List.mem_singleton.2 rfl), by norm_num⟩

/-- **C147.** `QFuncEstimator.predict` needs contexts of the dimension of the network and returns the outputs of the network
for them: one row per context, in order. -/
theorem C147_reward_model_predict (dim : ℕ) {A : ℕ} (f : List ℝ → Fin A → ℝ) (context : Arg2 ℝ) (out : List (List ℝ)) :
    qNetPredict dim (fun x => .ok (List.ofFn (f x))) context = .ok out ↔
      ∃ (n : ℕ) (c : Fin n → Fin dim → ℝ), context = .arr ⟨n, dim, c⟩ ∧
        out = List.ofFn fun i => List.ofFn (f (List.ofFn (c i))) := by
  have key : ∀ (n d : ℕ) (c : Fin n → Fin d → ℝ), qNetPredict dim (fun x => .ok (List.ofFn (f x))) (.arr ⟨n, d, c⟩) =
      if d = dim then .ok (List.ofFn fun i => List.ofFn (f (List.ofFn (c i)))) else .error .valueError := by
    intro n d c
    unfold qNetPredict
    simp only [checkArray2, py_bind_ok]
    by_cases hd : d = dim
    · rw [if_pos hd, raiseIf_neg (by simpa using hd), py_bind_ok]
      exact mapM_ofFn_ok fun i => rfl
    · rw [if_neg hd, raiseIf_pos (by simpa using hd), py_bind_error]
  constructor
  · intro h
    cases context with
    | none => simp [qNetPredict, checkArray2, py_bind_error] at h
    | notArray => simp [qNetPredict, checkArray2, py_bind_error] at h
    | nd _ => simp [qNetPredict, checkArray2, py_bind_error] at h
    | arr x =>
      obtain ⟨n, d, c⟩ := x
      rw [key] at h
      split at h
      · subst d
        exact ⟨n, c, rfl, by simpa using h.symm⟩
      · simp at h
  · rintro ⟨n, c, rfl, rfl⟩
    rw [key, if_pos rfl]

end Obp
