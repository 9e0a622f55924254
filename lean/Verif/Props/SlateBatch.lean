import Verif.Model.SlateBatch
import Verif.Props.DatasetInit
import Verif.Props.SlateReward
import Verif.Props.SlateInteraction
import Verif.Props.EndToEndSlate
import Verif.Props.RewardLaw

set_option linter.unusedSectionVars false

/-!
# `SyntheticSlateBanditDataset`: its settings (C180) and the batches it generates (C181)
-/

namespace Obp

/-! ### the documented settings -/

/-- The documented settings of `SyntheticSlateBanditDataset`: `n`, `l`, `d` are the values of `n_unique_action`, `len_list`, `dim_context`. Click
models need binary rewards and an exponent `eta` that is a float of at least zero. -/
structure SlateSettings (nUnique lenList dimContext : PyScalar ℝ) (seed : Seed) (rewardType structName decay : String)
    (click : Option String) (eta : PyScalar ℝ) (fact : Bool) (n l d : ℤ) : Prop where
  actions : nUnique.toInt? = some n ∧ 2 ≤ n
  positions : lenList.toInt? = some l ∧ 2 ≤ l ∧ (fact = false → l ≤ n)
  context : dimContext.toInt? = some d ∧ 1 ≤ d
  seed : seed ≠ .bad
  reward : rewardType = "binary" ∨ rewardType = "continuous"
  interaction : structName ∈ ["independent", "cascade_additive", "standard_additive", "cascade_decay", "standard_decay"]
  decay : decay = "exponential" ∨ decay = "inverse"
  click : click = none ∨ (click = some "pbm" ∨ click = some "cascade") ∧ rewardType = "binary" ∧ FloatIn 0 none eta

/-- `(1 / k)^eta` for position number `k + 1`; `eta` may be infinite. -/
noncomputable def decayWeight : PyScalar ℝ → ℕ → ℝ
  | .flt e, k => (1 / ((k : ℝ) + 1)) ^ e
  | .inf, k => if k = 0 then 1 else 0
  | _, _ => 1

theorem slateRewardBinary_iff {s : String} {b : Bool} : slateRewardBinary s = .ok b ↔ s = if b then "binary" else "continuous" := by
  unfold slateRewardBinary
  split <;> cases b <;> simp_all

theorem structureName_iff {s : String} {st : RewardStructure} : RewardStructure.ofName s = .ok st ↔
    (s, st) ∈ [("independent", .independent), ("cascade_additive", .cascadeAdditive), ("standard_additive", .standardAdditive),
      ("cascade_decay", .cascadeDecay), ("standard_decay", RewardStructure.standardDecay)] := by
  unfold RewardStructure.ofName
  split <;> simp_all [eq_comm]

theorem structureName_mem {s : String} {st : RewardStructure} (h : RewardStructure.ofName s = .ok st) :
    s ∈ ["independent", "cascade_additive", "standard_additive", "cascade_decay", "standard_decay"] := by
  have := List.mem_map_of_mem (f := Prod.fst) (structureName_iff.1 h)
  simpa only [List.map_cons, List.map_nil] using this

theorem decayExponential_iff {s : String} {b : Bool} : decayExponential s = .ok b ↔ s = if b then "exponential" else "inverse" := by
  unfold decayExponential
  split <;> cases b <;> simp_all

theorem checkSlateSeed_ok {s : Seed} {u : Unit} : checkSlateSeed s = .ok u ↔ s ≠ .bad := by
  cases s <;> simp [checkSlateSeed]

theorem clickWeights_ok {L : ℕ} {click : Option String} {eta : PyScalar ℝ} {w : List (PyNum ℝ) × List (PyNum ℝ)} :
    clickWeights L click eta = .ok w ↔
      (click = none ∨ (click = some "pbm" ∨ click = some "cascade") ∧ (FloatIn 0 none eta ∨ eta = .nan)) ∧
      w.1 = (if click = some "pbm" then (List.range L).map fun k => positionWeight (k + 1) eta else List.replicate L (.fin 1)) ∧
      w.2 = (if click = some "cascade" then (List.range L).map fun k => positionWeight (k + 1) eta else List.replicate L (.fin 1)) := by
  obtain ⟨x, y⟩ := w
  unfold clickWeights
  split
  · simp [eq_comm]
  · simp only [py_bind_eq_ok, checkFloatIn_ok, py_pure, Except.ok.injEq, Prod.mk.injEq]
    constructor
    · rintro ⟨e, ⟨rfl, h⟩, rfl, rfl⟩
      simp [h]
    · rintro ⟨h, h1, h2⟩
      simp at h h1 h2
      exact ⟨eta, ⟨rfl, h⟩, h1.symm, h2.symm⟩
  · simp only [py_bind_eq_ok, checkFloatIn_ok, py_pure, Except.ok.injEq, Prod.mk.injEq]
    constructor
    · rintro ⟨e, ⟨rfl, h⟩, rfl, rfl⟩
      simp [h]
    · rintro ⟨h, h1, h2⟩
      simp at h h1 h2
      exact ⟨eta, ⟨rfl, h⟩, h1.symm, h2.symm⟩
  · simp_all

/-- What `initSlate` accepts and keeps. -/
theorem initSlate_ok {nUnique lenList dimContext : PyScalar ℝ} {seed : Seed} {rewardType structName decay : String} {click : Option String}
    {eta : PyScalar ℝ} {fact : Bool} {B : ℕ → ℕ → ℝ} {c : SlateInit} :
    initSlate nUnique lenList dimContext seed rewardType structName decay click eta fact B = .ok c ↔
      (nUnique.toInt? = some c.nUnique ∧ 2 ≤ c.nUnique) ∧ (lenList.toInt? = some c.lenList ∧ 2 ≤ c.lenList ∧ (fact = false → c.lenList ≤ c.nUnique)) ∧
      (dimContext.toInt? = some c.dimContext ∧ 1 ≤ c.dimContext) ∧ seed ≠ .bad ∧ (rewardType = if c.binary then "binary" else "continuous") ∧
      (∃ st ex, RewardStructure.ofName structName = .ok st ∧ (decay = if ex then "exponential" else "inverse") ∧
        c.weights = initWeights c.nUnique.toNat c.lenList.toNat st ex B) ∧
      clickWeights c.lenList.toNat click eta = .ok (c.exam, c.attract) ∧ (click = none ∨ c.binary = true) ∧
      c.structName = structName ∧ c.fact = fact := by
  obtain ⟨n, l, d, bin, nm, f, e, a, w⟩ := c
  unfold initSlate
  simp only [py_bind_eq_ok, checkIntMin_ok, checkSlateSeed_ok, slateRewardBinary_iff, decayExponential_iff, raiseIf_ok_unit, py_pure,
    Except.ok.injEq, SlateInit.mk.injEq]
  have hl : ∀ n l : ℤ, ((if fact = true then checkIntMin 2 lenList else checkIntIn 2 n lenList) = .ok l ↔
      lenList.toInt? = some l ∧ 2 ≤ l ∧ (fact = false → l ≤ n)) := fun n l => by
    cases fact <;> simp [checkIntMin_ok, checkIntIn_ok]
  simp only [hl]
  have hb : ∀ b : Bool, (click.isSome && !b) = false ↔ (click = none ∨ b = true) := fun b => by
    cases click <;> simp
  simp only [hb]
  constructor
  · rintro ⟨n', h1, l', h2, d', h3, u, h4, b', h5, st, h6, ex, h7, w', h8, u', h9, rfl, rfl, rfl, rfl, rfl, rfl, rfl, rfl, rfl⟩
    exact ⟨h1, h2, h3, h4, h5, ⟨st, ex, h6, h7, rfl⟩, h8, h9, rfl, rfl⟩
  · rintro ⟨h1, h2, h3, h4, h5, ⟨st, ex, h6, h7, h10⟩, h8, h9, rfl, rfl⟩
    exact ⟨n, h1, l, h2, d, h3, (), h4, bin, h5, st, h6, ex, h7, _, h8, (), h9, rfl, rfl, rfl, rfl, rfl, rfl, rfl, rfl, h10.symm⟩

/-! ### C180 -/

/-- **C180.** The constructor accepts exactly the documented settings -- except that `eta = nan` passes for the documented "at least 0". -/
theorem C180_accepted_partial (nUnique lenList dimContext : PyScalar ℝ) (seed : Seed) (rewardType structName decay : String)
    (click : Option String) (eta : PyScalar ℝ) (fact : Bool) (B : ℕ → ℕ → ℝ) :
    (∃ c, initSlate nUnique lenList dimContext seed rewardType structName decay click eta fact B = .ok c) ↔
      ∃ n l d, SlateSettings nUnique lenList dimContext seed rewardType structName decay click
        (if eta = .nan then .flt 0 else eta) fact n l d := by
  have hnan : (FloatIn 0 none eta ∨ eta = .nan) ↔ FloatIn 0 none (if eta = .nan then .flt 0 else eta) := by
    by_cases h : eta = .nan
    · simp [h, FloatIn]
    · simp [h]
  constructor
  · rintro ⟨c, hc⟩
    obtain ⟨h1, h2, h3, h4, h5, ⟨st, ex, h6, h7, -⟩, h8, h9, -, -⟩ := initSlate_ok.1 hc
    refine ⟨_, _, _, h1, h2, h3, h4, by rw [h5]; cases c.binary <;> simp, structureName_mem h6, by rw [h7]; cases ex <;> simp, ?_⟩
    · rw [clickWeights_ok, hnan] at h8
      rcases h8.1 with h | ⟨h, h'⟩
      · exact .inl h
      · rcases h9 with h9 | h9
        · exact .inl h9
        · exact .inr ⟨h, by rw [h5, h9]; rfl, h'⟩
  · rintro ⟨n, l, d, h⟩
    obtain ⟨st, hst⟩ : ∃ st, RewardStructure.ofName structName = .ok st := by
      have := h.interaction
      simp only [List.mem_cons, List.not_mem_nil, or_false] at this
      rcases this with rfl | rfl | rfl | rfl | rfl <;> exact ⟨_, rfl⟩
    obtain ⟨ex, hex⟩ : ∃ ex : Bool, decay = if ex then "exponential" else "inverse" := by
      rcases h.decay with h | h
      · exact ⟨true, h⟩
      · exact ⟨false, h⟩
    refine ⟨⟨n, l, d, decide (rewardType = "binary"), structName, fact,
      if click = some "pbm" then (List.range l.toNat).map fun k => positionWeight (k + 1) eta else List.replicate l.toNat (.fin 1),
      if click = some "cascade" then (List.range l.toNat).map fun k => positionWeight (k + 1) eta else List.replicate l.toNat (.fin 1),
      initWeights n.toNat l.toNat st ex B⟩, initSlate_ok.2 ⟨h.actions, h.positions, h.context, h.seed, ?_,
      ⟨st, ex, hst, hex, rfl⟩, clickWeights_ok.2 ⟨?_, rfl, rfl⟩, ?_, rfl, rfl⟩⟩
    · rcases h.reward with rfl | rfl <;> simp
    · rw [hnan]
      rcases h.click with h | ⟨h, -, h'⟩
      · exact .inl h
      · exact .inr ⟨h, h'⟩
    · rcases h.click with h | ⟨-, h, -⟩
      · exact .inl h
      · exact .inr (by simp [h])

/-- Settings as in the documentation. -/
example (B : ℕ → ℕ → ℝ) :
    ∃ c, initSlate (.int 10) (.int 3) (.int 5) .ok "binary" "cascade_additive" "exponential" (some "pbm") (.flt (1 / 2)) false B = .ok c := by
  rw [C180_accepted_partial]
  exact ⟨10, 3, 5, ⟨rfl, by decide⟩, ⟨rfl, by decide, by decide⟩, ⟨rfl, by decide⟩, by decide, .inl rfl, by decide, .inl rfl,
    .inr ⟨.inl rfl, rfl, by rw [if_neg (by simp)]; exact .inl ⟨1 / 2, rfl, by norm_num, by simp⟩⟩⟩

theorem checkIntMin_error {lo : ℤ} {s : PyScalar ℝ} {e : PyErr} (h : checkIntMin lo s = .error e) : e = .typeError ∨ e = .valueError := by
  have key : ∀ w : ℤ, (if w < lo then .error .valueError else .ok w : Py ℤ) = .error e → e = .valueError := fun w hw => by
    split at hw
    · exact (Except.error.inj hw).symm
    · cases hw
  cases s with
  | int z => exact .inr (key z h)
  | bool b => exact .inr (key _ h)
  | _ => exact .inl (Except.error.inj h).symm

theorem checkIntIn_error {lo hi : ℤ} {s : PyScalar ℝ} {e : PyErr} (h : checkIntIn lo hi s = .error e) : e = .typeError ∨ e = .valueError := by
  have key : ∀ w : ℤ, (if w < lo then .error .valueError else if hi < w then .error .valueError else .ok w : Py ℤ) = .error e →
      e = .valueError := fun w hw => by
    split at hw
    · exact (Except.error.inj hw).symm
    · split at hw
      · exact (Except.error.inj hw).symm
      · cases hw
  cases s with
  | int z => exact .inr (key z h)
  | bool b => exact .inr (key _ h)
  | _ => exact .inl (Except.error.inj h).symm

theorem checkFloatIn_error {lo : ℝ} {hi : Option ℝ} {s : PyScalar ℝ} {e : PyErr} (h : checkFloatIn lo hi s = .error e) :
    e = .typeError ∨ e = .valueError := by
  unfold checkFloatIn at h
  split at h <;> (try split at h) <;> (try split at h) <;> (try split at h) <;> cases h <;> simp

theorem py_bind_eq_error {α β : Type} {x : Py α} {f : α → Py β} {e : PyErr} :
    (x >>= f) = .error e ↔ x = .error e ∨ ∃ a, x = .ok a ∧ f a = .error e := by
  cases x <;> simp

/-- **C180.** Refused settings raise TypeError or ValueError. -/
theorem C180_refused (nUnique lenList dimContext : PyScalar ℝ) (seed : Seed) (rewardType structName decay : String)
    (click : Option String) (eta : PyScalar ℝ) (fact : Bool) (B : ℕ → ℕ → ℝ) {e : PyErr}
    (h : initSlate nUnique lenList dimContext seed rewardType structName decay click eta fact B = .error e) :
    e = .typeError ∨ e = .valueError := by
  unfold initSlate at h
  rcases py_bind_eq_error.1 h with h | ⟨n, -, h⟩
  · exact checkIntMin_error h
  rcases py_bind_eq_error.1 h with h | ⟨l, -, h⟩
  · split at h
    · exact checkIntMin_error h
    · exact checkIntIn_error h
  rcases py_bind_eq_error.1 h with h | ⟨d, -, h⟩
  · exact checkIntMin_error h
  rcases py_bind_eq_error.1 h with h | ⟨_, -, h⟩
  · cases seed <;> (cases h <;> simp)
  rcases py_bind_eq_error.1 h with h | ⟨b, -, h⟩
  · unfold slateRewardBinary at h
    split at h <;> (cases h <;> simp)
  rcases py_bind_eq_error.1 h with h | ⟨st, -, h⟩
  · unfold RewardStructure.ofName at h
    split at h <;> (cases h <;> simp)
  rcases py_bind_eq_error.1 h with h | ⟨ex, -, h⟩
  · unfold decayExponential at h
    split at h <;> (cases h <;> simp)
  rcases py_bind_eq_error.1 h with h | ⟨w, -, h⟩
  · unfold clickWeights at h
    split at h
    · cases h
    · rcases py_bind_eq_error.1 h with h | ⟨_, -, h⟩
      · exact checkFloatIn_error h
      · cases h
    · rcases py_bind_eq_error.1 h with h | ⟨_, -, h⟩
      · exact checkFloatIn_error h
      · cases h
    · cases h; simp
  rcases py_bind_eq_error.1 h with h | ⟨_, -, h⟩
  · unfold raiseIf at h
    split at h <;> cases h; simp
  · cases h

/-- An integer `eta` is one of the refused settings, and so are more positions than actions. -/
example (B : ℕ → ℕ → ℝ) :
    initSlate (.int 3) (.int 2) (.int 1) .none "binary" "independent" "inverse" (some "pbm") (.int 1) false B = .error .typeError ∧
    initSlate (.int 2) (.int 3) (.int 1) .none "binary" "independent" "inverse" none (.flt 1) false B = .error .valueError := ⟨rfl, rfl⟩

theorem positionWeight_eq {eta : PyScalar ℝ} (h : FloatIn 0 none eta) (k : ℕ) : positionWeight (k + 1) eta = .fin (decayWeight eta k) := by
  rcases h with ⟨v, rfl, -, -⟩ | ⟨rfl, -⟩
  · simp [positionWeight, decayWeight]
  · by_cases hk : k = 0 <;> simp [positionWeight, decayWeight, hk]

/-- **C180.** The exception: with `eta = nan` the constructor succeeds with either click model, and then no batch can be drawn. -/
theorem C180_nan_eta {nUnique lenList dimContext : PyScalar ℝ} {seed : Seed} {structName decay : String} {click : Option String}
    {fact : Bool} {B : ℕ → ℕ → ℝ} {n l d : ℤ} (hclick : click ≠ none)
    (h : SlateSettings nUnique lenList dimContext seed "binary" structName decay click (.flt 0) fact n l d) :
    ∃ c, initSlate nUnique lenList dimContext seed "binary" structName decay click .nan fact B = .ok c ∧
      ∀ (src : SlateSource) (nRounds : PyScalar ℝ) (returnItem : Bool) (clip : Option (PyScalar ℝ)) (fb : SlateBatch),
        c.obtain src nRounds returnItem clip ≠ .ok fb := by
  obtain ⟨c, hc⟩ := (C180_accepted_partial nUnique lenList dimContext seed "binary" structName decay click .nan fact B).2
    ⟨n, l, d, by rwa [if_pos rfl]⟩
  refine ⟨c, hc, fun src nRounds returnItem clip fb hfb => ?_⟩
  obtain ⟨-, h2, -, -, -, -, h8, -⟩ := initSlate_ok.1 hc
  rw [clickWeights_ok] at h8
  obtain ⟨h8, he, ha⟩ := h8
  dsimp only at he ha
  unfold SlateInit.obtain at hfb
  simp only [py_bind_eq_ok] at hfb
  obtain ⟨-, -, -, -, -, -, -, -, -, -, -, -, ex, hex, at', hat, -⟩ := hfb
  have hmem : PyNum.nan ∈ (List.range c.lenList.toNat).map fun k => positionWeight (k + 1) (.nan : PyScalar ℝ) :=
    List.mem_map.2 ⟨1, List.mem_range.2 (by omega), by simp [positionWeight]⟩
  have hbad : ∀ {ws : List (PyNum ℝ)} {o : List ℝ}, PyNum.nan ∈ ws → ws.mapM clickFactor = .ok o → False := fun hm hw => by
    obtain ⟨hl, hg⟩ := List.forall₂_iff_get.1 (mapM_ok_iff.1 hw)
    obtain ⟨i, hi, hy⟩ := List.mem_iff_getElem.1 hm
    have := hg i hi (hl ▸ hi)
    simp [hy, clickFactor] at this
  rcases h8 with h | ⟨rfl | rfl, -⟩
  · exact hclick h
  · exact hbad (by rw [he]; simpa using hmem) hex
  · exact hbad (by rw [ha]; simpa using hmem) hat

/-- The position-based model with `eta = nan`. -/
example (B : ℕ → ℕ → ℝ) (src : SlateSource) :
    ∃ c, initSlate (.int 10) (.int 3) (.int 5) .ok "binary" "independent" "inverse" (some "pbm") .nan false B = .ok c ∧
      ∀ fb, c.obtain src (.int 100) true none ≠ .ok fb := by
  obtain ⟨c, h, h'⟩ := C180_nan_eta (B := B) (click := some "pbm") (by simp) (⟨⟨rfl, by decide⟩, ⟨rfl, by decide, by decide⟩, ⟨rfl, by decide⟩,
    by decide, .inl rfl, by decide, .inr rfl, .inr ⟨.inl rfl, rfl, .inl ⟨0, rfl, le_rfl, by simp⟩⟩⟩ :
    SlateSettings (.int 10) (.int 3) (.int 5) .ok "binary" "independent" "inverse" (some "pbm") (.flt 0) false 10 3 5)
  exact ⟨c, h, fun fb => h' src _ _ _ fb⟩

/-- **C180.** The arguments are kept, and the weights of the click model are those documented: at position number `k` the examination
probability `(1 / k)^eta` of the position-based model or the attractiveness `(1 / k)^eta` of the cascade model, everything else is 1. -/
theorem C180_click_weights {nUnique lenList dimContext : PyScalar ℝ} {seed : Seed} {rewardType structName decay : String} {click : Option String}
    {eta : PyScalar ℝ} {fact : Bool} {B : ℕ → ℕ → ℝ} {c : SlateInit} (heta : click ≠ none → eta ≠ .nan)
    (h : initSlate nUnique lenList dimContext seed rewardType structName decay click eta fact B = .ok c) :
    SlateSettings nUnique lenList dimContext seed rewardType structName decay click eta fact c.nUnique c.lenList c.dimContext ∧
    (rewardType = if c.binary then "binary" else "continuous") ∧ c.structName = structName ∧ c.fact = fact ∧
    (c.exam = (List.range c.lenList.toNat).map fun k => .fin (if click = some "pbm" then decayWeight eta k else 1)) ∧
    (c.attract = (List.range c.lenList.toNat).map fun k => .fin (if click = some "cascade" then decayWeight eta k else 1)) := by
  obtain ⟨h1, h2, h3, h4, h5, ⟨st, ex, h6, h7, -⟩, h8, h9, h10, h11⟩ := initSlate_ok.1 h
  rw [clickWeights_ok] at h8
  obtain ⟨h8, he, ha⟩ := h8
  have hf : click = none ∨ (click = some "pbm" ∨ click = some "cascade") ∧ FloatIn 0 none eta := by
    rcases h8 with h | ⟨h, h' | h'⟩
    · exact .inl h
    · exact .inr ⟨h, h'⟩
    · exact absurd h' (heta (by rcases h with h | h <;> simp [h]))
  refine ⟨⟨h1, h2, h3, h4, by rw [h5]; cases c.binary <;> simp, structureName_mem h6, by rw [h7]; cases ex <;> simp, ?_⟩,
    h5, h10, h11, ?_, ?_⟩
  · rcases hf with h | ⟨h, h'⟩
    · exact .inl h
    · rcases h9 with h9 | h9
      · exact .inl h9
      · exact .inr ⟨h, by rw [h5, h9]; rfl, h'⟩
  · rcases hf with rfl | ⟨rfl | rfl, h'⟩
    · simpa using he
    · simpa [positionWeight_eq h'] using he
    · simpa using he
  · rcases hf with rfl | ⟨rfl | rfl, h'⟩
    · simpa using ha
    · simpa using ha
    · simpa [positionWeight_eq h'] using ha

/-- Settings used in the examples: 10 actions, 3 positions, contexts of length 5. -/
theorem slateExample (structName decay : String) (hs : structName ∈ ["independent", "cascade_additive", "standard_additive", "cascade_decay", "standard_decay"])
    (hd : decay = "exponential" ∨ decay = "inverse") (B : ℕ → ℕ → ℝ) :
    ∃ c, initSlate (.int 10) (.int 3) (.int 5) .ok "binary" structName decay (some "pbm") (.flt (1 / 2)) false B = .ok c ∧
      c.nUnique = (10 : ℕ) ∧ c.lenList = (3 : ℕ) ∧ c.dimContext = (5 : ℕ) ∧ c.binary = true := by
  obtain ⟨c, hc⟩ := (C180_accepted_partial (.int 10) (.int 3) (.int 5) .ok "binary" structName decay (some "pbm") (.flt (1 / 2)) false B).2
    ⟨10, 3, 5, ⟨rfl, by decide⟩, ⟨rfl, by decide, by decide⟩, ⟨rfl, by decide⟩, by decide, .inl rfl, hs, hd,
      .inr ⟨.inl rfl, rfl, by rw [if_neg (by simp)]; exact .inl ⟨1 / 2, rfl, by norm_num, by simp⟩⟩⟩
  obtain ⟨h, hb, -⟩ := C180_click_weights (by simp) hc
  refine ⟨c, hc, ?_, ?_, ?_, ?_⟩
  · have := h.actions.1
    simpa [PyScalar.toInt?, eq_comm] using this
  · have := h.positions.1
    simpa [PyScalar.toInt?, eq_comm] using this
  · have := h.context.1
    simpa [PyScalar.toInt?, eq_comm] using this
  · cases h : c.binary with
    | true => rfl
    | false => rw [h] at hb; exact absurd hb (by decide)

/-- With `eta = 1/2` the second position is examined with probability `1/√2`. -/
example (B : ℕ → ℕ → ℝ) : ∃ c, initSlate (.int 10) (.int 3) (.int 5) .ok "binary" "independent" "inverse" (some "pbm") (.flt (1 / 2)) false B = .ok c ∧
    c.exam[1]? = some (.fin ((1 / 2) ^ (1 / 2 : ℝ))) := by
  obtain ⟨c, hc, -, hL, -⟩ := slateExample "independent" "inverse" (by decide) (.inr rfl) B
  obtain ⟨-, -, -, -, h, -⟩ := C180_click_weights (by simp) hc
  refine ⟨c, hc, ?_⟩
  rw [h, hL]
  simp [decayWeight]
  norm_num

/-- **C180.** The weights are probabilities, 1 at the first position and not increasing afterwards; they are positive unless `eta` is
infinite. -/
theorem C180_decay_weights {eta : PyScalar ℝ} (h : FloatIn 0 none eta) :
    decayWeight eta 0 = 1 ∧ (∀ k, 0 ≤ decayWeight eta k ∧ decayWeight eta k ≤ 1) ∧ Antitone (decayWeight eta) ∧
      ((∃ e, eta = .flt e) → ∀ k, 0 < decayWeight eta k) := by
  rcases h with ⟨v, rfl, hv, -⟩ | ⟨rfl, -⟩
  · have hp : ∀ k : ℕ, 0 < 1 / ((k : ℝ) + 1) := fun k => by positivity
    have h1 : ∀ k : ℕ, 1 / ((k : ℝ) + 1) ≤ 1 := fun k => by
      rw [div_le_one (by positivity)]
      linarith [Nat.cast_nonneg (α := ℝ) k]
    refine ⟨by simp [decayWeight], fun k => ⟨Real.rpow_nonneg (hp k).le _, Real.rpow_le_one (hp k).le (h1 k) hv⟩, fun j k hjk => ?_,
      fun _ k => Real.rpow_pos_of_pos (hp k) _⟩
    refine Real.rpow_le_rpow (hp k).le ?_ hv
    have : (j : ℝ) ≤ k := by exact_mod_cast hjk
    gcongr
  · refine ⟨by simp [decayWeight], fun k => by by_cases hk : k = 0 <;> simp [decayWeight, hk], fun j k hjk => ?_, by simp⟩
    by_cases hk : k = 0
    · have : j = 0 := by omega
      simp [hk, this]
    · by_cases hj : j = 0 <;> simp [decayWeight, hk, hj]

/-- With `eta = 1/2` the fourth position is examined half of the time. -/
example : decayWeight (.flt (1 / 2)) 3 = 1 / 2 := by
  simp only [decayWeight]
  rw [← Real.sqrt_eq_rpow, show (1 : ℝ) / ((3 : ℕ) + 1) = (1 / 2) ^ 2 by norm_num, Real.sqrt_sq (by norm_num)]

/-- **C180.** The weights between actions or positions: for the additive structures a symmetric matrix of actions whose entries on and below the
diagonal are the random numbers, for the decay structures minus the decay of the distance between positions, zero for independent rewards. The
shape is the one that the expected reward function requires (see C146); for `cascade_decay` the entries are on the wrong side of the diagonal, see C111. -/
theorem C180_interaction_weights {nUnique lenList dimContext : PyScalar ℝ} {seed : Seed} {rewardType structName decay : String}
    {click : Option String} {eta : PyScalar ℝ} {fact : Bool} {B : ℕ → ℕ → ℝ} {c : SlateInit} {A L : ℕ}
    (h : initSlate nUnique lenList dimContext seed rewardType structName decay click eta fact B = .ok c)
    (hA : c.nUnique = A) (hL : c.lenList = L) :
    let dec : ℕ → ℝ := fun x => if decay = "exponential" then Real.exp (-x) else 1 / (x + 1)
    ((structName = "cascade_additive" ∨ structName = "standard_additive") ∧ ∃ W : Fin A → Fin A → ℝ,
      c.weights = (List.ofFn fun i => List.ofFn (W i)) ∧ (∀ i j, W i j = W j i) ∧ ∀ i j, j ≤ i → W i j = B i j) ∨
    (¬ (structName = "cascade_additive" ∨ structName = "standard_additive") ∧ ∃ V : Fin L → Fin L → ℝ,
      c.weights = (List.ofFn fun i => List.ofFn (V i)) ∧ (structName = "independent" → ∀ i j, V i j = 0) ∧
      (structName = "standard_decay" → ∀ i j, V i j = if i = j then 0 else -dec (max (i : ℕ) j - min (i : ℕ) j)) ∧
      (structName = "cascade_decay" → ∀ i j, V i j = if j ≤ i then 0 else -dec (j - i))) := by
  intro dec
  obtain ⟨-, -, -, -, -, ⟨st, ex, h6, h7, hw⟩, -⟩ := initSlate_ok.1 h
  rw [hA, hL] at hw
  simp only [Int.toNat_natCast] at hw
  have hdec : ∀ x : ℕ, decayFunction Real.exp ex x = dec x := fun x => by
    simp only [dec, decayFunction, h7]
    cases ex <;> simp
  have hsym : ∀ i j : Fin A, symmetricMatrix (fun i j : Fin A => B i j) i j = symmetricMatrix (fun i j : Fin A => B i j) j i := fun i j => by
    unfold symmetricMatrix
    by_cases hij : i = j
    · rw [hij]
    · rw [if_neg hij, if_neg (Ne.symm hij)]; ring
  have hlow : ∀ i j : Fin A, j ≤ i → symmetricMatrix (fun i j : Fin A => B i j) i j = B i j := fun i j hji => by
    unfold symmetricMatrix
    rw [if_pos hji]
    by_cases hij : i = j
    · subst hij; simp
    · rw [if_neg hij, if_neg fun h => hij (le_antisymm h hji)]; ring
  rw [structureName_iff] at h6
  simp only [List.mem_cons, Prod.mk.injEq, List.not_mem_nil, or_false] at h6
  rcases h6 with ⟨rfl, rfl⟩ | ⟨rfl, rfl⟩ | ⟨rfl, rfl⟩ | ⟨rfl, rfl⟩ | ⟨rfl, rfl⟩
  · refine .inr ⟨by decide, fun _ _ => 0, ?_, by simp, by simp, by simp⟩
    rw [hw]
    simp [initWeights]
  · exact .inl ⟨by decide, _, hw, hsym, hlow⟩
  · exact .inl ⟨by decide, _, hw, hsym, hlow⟩
  · refine .inr ⟨by decide, fun i j => if j ≤ i then 0 else -dec (j - i), ?_, by simp, by simp, by simp⟩
    rw [hw]
    simp only [initWeights, cascadeDecay_ofFn, hdec]
    congr 1; funext i; congr 1; funext j
    split
    · rfl
    · next hij => rw [show ((i : ℤ) - (j : ℤ)).natAbs = (j : ℕ) - i by have := not_le.1 hij; have : (i : ℕ) < j := this; omega]
  · refine .inr ⟨by decide, fun i j => if i = j then 0 else -dec (max (i : ℕ) j - min (i : ℕ) j), ?_, by simp, by simp, by simp⟩
    rw [hw]
    simp only [initWeights, standardDecay_ofFn, hdec]
    congr 1; funext i; congr 1; funext j
    split
    · rfl
    · rw [show ((i : ℤ) - (j : ℤ)).natAbs = max (i : ℕ) j - min (i : ℕ) j by omega]

/-- Weights of the decay structure: two positions apart with inverse decay `-1/3`. -/
example (B : ℕ → ℕ → ℝ) : ∃ (c : SlateInit) (V : Fin 3 → Fin 3 → ℝ), initSlate (.int 10) (.int 3) (.int 5) .ok "binary" "standard_decay" "inverse" (some "pbm") (.flt (1 / 2)) false B = .ok c ∧
    c.weights = (List.ofFn fun i => List.ofFn (V i)) ∧ V (0 : Fin 3) (2 : Fin 3) = -1 / 3 := by
  obtain ⟨c, hc, hA, hL, -⟩ := slateExample "standard_decay" "inverse" (by decide) (.inr rfl) B
  rcases C180_interaction_weights hc hA hL with ⟨h, -⟩ | ⟨-, V, hV, -, h, -⟩
  · exact absurd h (by decide)
  · exact ⟨c, V, hc, hV, by rw [h rfl, if_neg (by decide)]; simp; norm_num⟩

/-! ### helper lemmas about batches -/

theorem slateMapM_zipIdx {α β : Type} {n : ℕ} (x : Fin n → α) (f : α × ℕ → Py β) (y : Fin n → β) (h : ∀ i : Fin n, f (x i, i) = .ok (y i)) :
    (List.ofFn x).zipIdx.mapM f = .ok (List.ofFn y) := by
  rw [mapM_ok_iff, List.forall₂_iff_get]
  refine ⟨by simp, fun k h1 h2 => ?_⟩
  have hk : k < n := by simpa using h2
  simpa using h ⟨k, hk⟩

theorem map_zipIdx_ofFn {α β : Type} {n : ℕ} (x : Fin n → α) (f : α × ℕ → β) :
    (List.ofFn x).zipIdx.map f = List.ofFn fun i => f (x i, i) := by
  refine List.ext_getElem (by simp) fun k h1 h2 => by simp

/-- The coins of a slate: the outcome at a position decides whether later positions are discounted. -/
theorem clickRound_ok (coin : ℕ → ℝ → Bool) (m : ℕ) : ∀ (k : ℕ) (d prev : ℝ) (q a : ℕ → ℝ), 0 ≤ d → d ≤ 1 → (prev = 0 ∨ prev = 1) →
    (∀ j < m, 0 ≤ q j ∧ q j ≤ 1) → (∀ j < m, 0 ≤ a j ∧ a j ≤ 1) →
    ∃ r : ℕ → ℝ, clickRound coin k d prev ((List.range m).map q) ((List.range m).map a) = .ok ((List.range m).map r) ∧
      ∀ j < m, let p := d * (prev * a 0 + (1 - prev)) * (∏ i ∈ Finset.range j, (r i * a (i + 1) + (1 - r i))) * q j
        0 ≤ p ∧ p ≤ 1 ∧ r j = if coin (k + j) p then 1 else 0 := by
  induction m with
  | zero => exact fun k d prev q a _ _ _ _ _ => ⟨fun _ => 0, rfl, fun j hj => by omega⟩
  | succ m ih =>
      intro k d prev q a hd hd1 hp hq ha
      have ha0 := ha 0 (by omega)
      have hq0 := hq 0 (by omega)
      have hd' : 0 ≤ d * (prev * a 0 + (1 - prev)) ∧ d * (prev * a 0 + (1 - prev)) ≤ 1 := by
        rcases hp with rfl | rfl
        · simpa using ⟨hd, hd1⟩
        · simp only [one_mul, sub_self, add_zero]
          exact ⟨mul_nonneg hd ha0.1, mul_le_one₀ hd1 ha0.1 ha0.2⟩
      set d' := d * (prev * a 0 + (1 - prev)) with hdd
      have hp0 : 0 ≤ d' * q 0 ∧ d' * q 0 ≤ 1 := ⟨mul_nonneg hd'.1 hq0.1, mul_le_one₀ hd'.2 hq0.1 hq0.2⟩
      set r0 : ℝ := if coin k (d' * q 0) then 1 else 0 with hr0
      have hr0' : r0 = 0 ∨ r0 = 1 := by
        rw [hr0]
        split
        · exact .inr rfl
        · exact .inl rfl
      obtain ⟨r, hr, hrj⟩ := ih (k + 1) d' r0 (fun j => q (j + 1)) (fun j => a (j + 1)) hd'.1 hd'.2 hr0' (fun j hj => hq _ (by omega))
        fun j hj => ha _ (by omega)
      obtain ⟨R, hR0, hRs⟩ : ∃ R : ℕ → ℝ, R 0 = r0 ∧ ∀ j, R (j + 1) = r j := ⟨fun j => j.casesOn r0 r, rfl, fun _ => rfl⟩
      refine ⟨R, ?_, fun j hj => ?_⟩
      · simp only [List.range_succ_eq_map, List.map_cons, List.map_map, Function.comp_def, Nat.succ_eq_add_one, clickRound, hR0, hRs]
        rw [raiseIf_neg (by simp only [← hdd]; simp [hp0.1, hp0.2]), py_bind_ok, ← hdd, ← hr0, hr, py_bind_ok, py_pure]
      · cases j with
        | zero => simpa [hR0] using ⟨hp0.1, hp0.2, hr0⟩
        | succ j =>
            have := hrj j (by omega)
            simp only [Finset.prod_range_succ', hR0, hRs] at this ⊢
            rw [show k + (j + 1) = k + 1 + j by omega,
              mul_comm (∏ i ∈ Finset.range j, (r i * a (i + 1 + 1) + (1 - r i))), ← mul_assoc d']
            exact this

theorem click_product {r : ℕ → ℝ} {k : ℕ} (hr : ∀ i < k, r i = 0 ∨ r i = 1) (a : ℕ → ℝ) :
    ∏ i ∈ Finset.range k, (r i * a (i + 1) + (1 - r i)) = ∏ i ∈ Finset.range k with r i = 1, a (i + 1) := by
  rw [Finset.prod_filter]
  refine Finset.prod_congr rfl fun i hi => ?_
  rcases hr i (Finset.mem_range.1 hi) with h | h <;> simp [h]

/-! ### C181 -/

section batch
variable {n A L : ℕ}

/-- The entries of rounds and positions, round by round. -/
def gridRows {α : Type} (f : Fin n → Fin L → α) : List α := List.ofFn fun j : Fin (n * L) => f j.divNat j.modNat

/-- The slate of a round as a list of action numbers. -/
def slateList (s : Fin L → Fin A) : List ℕ := List.ofFn fun k => (s k).val

/-- What a batch of `n` rounds with contexts `context` depends on: numbers of the uniform generator in `[0, 1)`; logits `l` of the behaviour
policy, all equal if no policy is given; base rewards `b`, or a table of numbers between 0 and 1 if no function is given. Base rewards of
binary problems lie strictly between 0 and 1, and there are at most 128 actions (see C111). -/
structure SlateInputs (src : SlateSource) (context : List (List ℝ)) (binary : Bool) (l : Fin n → ℕ → ℝ) (b : Fin n → Fin A → ℝ) : Prop where
  uniform : ∀ i k, 0 ≤ src.uniform i k ∧ src.uniform i k < 1
  behavior : (src.behavior = none ∧ l = fun _ _ => 1 / (A : ℝ)) ∨
    ∃ f, src.behavior = some f ∧ f context = List.ofFn fun i => (List.range A).map (l i)
  base : (src.base = none ∧ ∀ a k, 0 ≤ src.slot a k ∧ src.slot a k ≤ 1) ∨
    ∃ f, src.base = some f ∧ A ≤ 128 ∧ f context = (List.ofFn fun i => List.ofFn (b i)) ∧ (binary = true → ∀ i a, 0 < b i a ∧ b i a < 1)

theorem slate_toFin {fact : Bool} {t : List ℕ} (ht : t ∈ slates fact L (Finset.range A)) : ∃ s : Fin L → Fin A, t = slateList s := by
  obtain ⟨hl, -, hm⟩ := mem_slates.1 ht
  refine ⟨fun k => ⟨t[(k : ℕ)]'(by rw [hl]; exact k.2), Finset.mem_range.1 (hm _ (List.getElem_mem _))⟩, ?_⟩
  refine List.ext_getElem (by simp [slateList, hl]) fun k h1 h2 => by simp [slateList]

theorem flatten_gridRows {α : Type} (f : Fin n → Fin L → α) : (List.ofFn fun i => List.ofFn (f i)).flatten = gridRows f := flatten_grid f

theorem initWeights_form {st : RewardStructure} {ex : Bool} {B : ℕ → ℕ → ℝ} :
    ∃ (W : Fin A → Fin A → ℝ) (V : Fin L → Fin L → ℝ), initWeights A L st ex B =
      if st = .cascadeAdditive ∨ st = .standardAdditive then List.ofFn fun a => List.ofFn (W a) else List.ofFn fun a => List.ofFn (V a) := by
  cases st with
  | cascadeAdditive => exact ⟨_, fun _ _ => 0, rfl⟩
  | standardAdditive => exact ⟨_, fun _ _ => 0, rfl⟩
  | cascadeDecay => exact ⟨fun _ _ => 0, _, by rw [if_neg (by decide)]; exact cascadeDecay_ofFn L _⟩
  | standardDecay => exact ⟨fun _ _ => 0, _, by rw [if_neg (by decide)]; exact standardDecay_ofFn L _⟩
  | independent => exact ⟨fun _ _ => 0, fun _ _ => 0, by rw [if_neg (by decide)]; simp [initWeights]⟩

theorem slateReward_range (binary : Bool) (st : RewardStructure) (b : Fin A → ℝ) (W : Fin A → Fin A → ℝ) (V : Fin L → Fin L → ℝ)
    (s : Fin L → Fin A) (k : Fin L) : 0 ≤ slateReward binary st b W V s k ∧ (binary = true → slateReward binary st b W V s k ≤ 1) := by
  unfold slateReward
  generalize (slateLink binary (b (s k)) + _) = v
  cases binary with
  | false => simp [slateUnlink]
  | true =>
      have := Real.exp_pos (-v)
      simp only [slateUnlink, if_true]
      exact ⟨by positivity, fun _ => by rw [div_le_one (by positivity)]; linarith⟩

theorem truncRvs_nonneg {m u : ℝ} (hu : 0 ≤ u) : 0 ≤ truncRvs ((0 - m) / 1) ((10 ^ 10 - m) / 1) m 1 u := by
  have hab : (0 - m) / 1 < (10 ^ 10 - m) / 1 := reward_bounds_lt one_pos m
  have : (0 - m) / 1 ≤ truncPpf ((0 - m) / 1) ((10 ^ 10 - m) / 1) u := by
    refine le_csSup ⟨_, fun z hz => hz.2.1⟩ ⟨le_rfl, hab.le, ?_⟩
    rw [show normalMass ((0 - m) / 1) ((0 - m) / 1) = 0 by simp [normalMass]]
    exact mul_nonneg hu (normalMass_pos hab).le
  unfold truncRvs
  rw [div_one] at this ⊢
  linarith

/-- **C181.** A batch of the slate dataset. For every accepted setting a request for `n` rounds returns the batch described here: round `i` shows
the slate `s i`; the slate ids count the rounds and the positions count up within each round. -/
theorem C181_batch {nUnique lenList dimContext : PyScalar ℝ} {seed : Seed} {rewardType structName decay : String} {click : Option String}
    {eta : PyScalar ℝ} {fact : Bool} {B : ℕ → ℕ → ℝ} {c : SlateInit} (heta : click ≠ none → eta ≠ .nan)
    (hc : initSlate nUnique lenList dimContext seed rewardType structName decay click eta fact B = .ok c)
    (hA : c.nUnique = A) (hL : c.lenList = L) {D : ℕ} (hD : c.dimContext = D) (hn : 0 < n) {src : SlateSource} {context : List (List ℝ)}
    (hctx : context = List.ofFn fun i : Fin n => List.ofFn fun j : Fin D => src.normal (i * D + j))
    {l : Fin n → ℕ → ℝ} {b : Fin n → Fin A → ℝ} (hsrc : SlateInputs src context c.binary l b) (returnItem : Bool) (clip : Option (PyScalar ℝ))
    (hclip : returnItem = true → clip = none ∨ ∃ x ≤ 700, clip = some (.flt x)) :
    let e : ℕ → ℝ := fun k => if click = some "pbm" then decayWeight eta k else 1
    let a : ℕ → ℝ := fun k => if click = some "cascade" then decayWeight eta k else 1
    ∃ (s : Fin n → Fin L → Fin A) (q : Fin n → Fin L → ℝ) (r : Fin n → ℕ → ℝ) (fb : SlateBatch),
      c.obtain src (.int n) returnItem clip = .ok fb ∧ fb.nRounds = n ∧ fb.context = context ∧
      (fb.slateId = gridRows fun (i : Fin n) (_ : Fin L) => (i : ℤ)) ∧ (fb.position = gridRows fun (_ : Fin n) (k : Fin L) => (k : ℤ)) ∧
      (fb.action = gridRows fun i k => (s i k).val) ∧ (fact = false → ∀ i, Function.Injective (s i)) ∧
      (∀ i, ∀ t ∈ slates fact L (Finset.range A), t = slateList (s i) ↔ SlatePicks (l i) fact A t fun k : Fin L => src.uniform i k) ∧
      (fb.joint = gridRows fun i (_ : Fin L) => slateProb (l i) fact A (slateList (s i))) ∧
      (fb.cascade = gridRows fun i (k : Fin L) => slatePrefix (l i) fact A L (slateList (s i)) k) ∧
      (returnItem = false → fb.item = none) ∧
      (returnItem = true → (∀ x, clip = some (.flt x) → ∀ i, ∀ a < A, l i a ≤ x) →
        fb.item = some (gridRows fun i k => slateMarginal (l i) fact A L k (s i k))) ∧
      (fb.expected = gridRows fun i k => q i k * e k) ∧
      (src.base = none → ∀ i k, q i k = src.slot (s i k) k) ∧
      (src.base ≠ none → ∃ st W V, RewardStructure.ofName structName = .ok st ∧
        (c.weights = if st = .cascadeAdditive ∨ st = .standardAdditive then List.ofFn fun a => List.ofFn (W a) else List.ofFn fun a => List.ofFn (V a)) ∧
        ∀ i k, q i k = slateReward c.binary st (b ⟨i / L, (Nat.div_le_self _ _).trans_lt i.2⟩) W V (s i) k) ∧
      (fb.reward = gridRows fun i (k : Fin L) => r i k) ∧
      (c.binary = true → ∀ i, ∀ k : Fin L, let p := q i k * e k * ∏ j ∈ Finset.range k with r i j = 1, a (j + 1)
        0 ≤ p ∧ p ≤ 1 ∧ r i k = if src.coin i k p then 1 else 0) ∧
      (c.binary = false → ∀ i, ∀ k : Fin L, r i k = truncRvs (0 - q i k) (10 ^ 10 - q i k) (q i k) 1 (src.rvs i)) := by
  intro e a
  obtain ⟨hset, hrt, hname, hfact, hexam, hattr⟩ := C180_click_weights heta hc
  have hn2 : 2 ≤ A := by have := hset.actions.2; omega
  have hL2 : 2 ≤ L := by have := hset.positions.2.1; omega
  have hLA : fact = false → L ≤ A := fun h => by have := hset.positions.2.2 h; omega
  have hew : ∀ k, (0 ≤ e k ∧ e k ≤ 1) ∧ (0 ≤ a k ∧ a k ≤ 1) := fun k => by
    rcases hset.click with h | ⟨-, -, h⟩
    · simp [e, a, h]
    · have := (C180_decay_weights h).2.1 k
      simp only [e, a]
      constructor <;> split <;> first | exact this | exact ⟨zero_le_one, le_rfl⟩
  have he1 : c.binary = false → ∀ k, e k = 1 := fun hb k => by
    rcases hset.click with h | ⟨-, h, -⟩
    · simp [e, h]
    · rw [hrt, hb] at h
      exact absurd h (by decide)
  have hcl : ∃ cl : Option ℝ, (if returnItem then checkClip clip else .ok none : Py (Option ℝ)) = .ok cl ∧
      (returnItem = true → ∀ x, cl = some x → clip = some (.flt x)) := by
    cases returnItem with
    | false => exact ⟨none, rfl, by simp⟩
    | true =>
        rcases hclip rfl with rfl | ⟨x, hx, rfl⟩
        · exact ⟨none, rfl, by simp⟩
        · refine ⟨some x, ?_, by simp⟩
          simp only [checkClip, if_true]
          rw [if_neg (not_lt.2 hx)]
  obtain ⟨cl, hcl, hcl'⟩ := hcl
  -- the slates
  have huni : src.behavior.isNone = true → ∀ i, ∃ c, l i = fun _ => c := fun h i => by
    rcases hsrc.behavior with ⟨-, h'⟩ | ⟨f, h', -⟩
    · exact ⟨1 / (A : ℝ), by rw [h']⟩
    · rw [h'] at h
      exact absurd h (by simp)
  have hround := fun i : Fin n => slate_sampled (by omega) hLA cl (l i) (fun h => huni h i) (fun k : Fin L => src.uniform i k)
    fun k => hsrc.uniform i k
  choose t ht ps hok hps hpick using hround
  choose s hs using fun i => slate_toFin (ht i)
  have hps' : ∀ i, ps i = ⟨slateProb (l i) fact A (t i), (t i).mapIdx (itemOf fact cl (l i) A L),
      (List.range L).map (slatePrefix (l i) fact A L (t i))⟩ := fun i => by
    have := hps i
    rw [slatePscores_ok (by omega) hLA (ht i)] at this
    exact (Except.ok.inj this).symm
  -- the expected rewards
  have hexp : ∃ q : Fin n → Fin L → ℝ, c.expectedRewards src context (List.ofFn fun i => slateList (s i)) = .ok (List.ofFn fun i => List.ofFn (q i)) ∧
      (∀ i k, 0 ≤ q i k ∧ (c.binary = true → q i k ≤ 1)) ∧ (src.base = none → ∀ i k, q i k = src.slot (s i k) k) ∧
      (src.base ≠ none → ∃ st W V, RewardStructure.ofName structName = .ok st ∧
        (c.weights = if st = .cascadeAdditive ∨ st = .standardAdditive then List.ofFn fun a => List.ofFn (W a) else List.ofFn fun a => List.ofFn (V a)) ∧
        ∀ i k, q i k = slateReward c.binary st (b ⟨i / L, (Nat.div_le_self _ _).trans_lt i.2⟩) W V (s i) k) := by
    obtain ⟨-, -, -, -, -, ⟨st, ex, h6, h7, hw⟩, -⟩ := initSlate_ok.1 hc
    rw [hA, hL] at hw
    simp only [Int.toNat_natCast] at hw
    obtain ⟨W, V, hWV⟩ := initWeights_form (A := A) (L := L) (st := st) (ex := ex) (B := B)
    unfold SlateInit.expectedRewards
    rcases hsrc.base with ⟨h0, hsl⟩ | ⟨f, hf, hA128, hfb, hb⟩
    · refine ⟨fun i k => src.slot (s i k) k, ?_, fun i k => ⟨(hsl _ _).1, fun _ => (hsl _ _).2⟩, fun _ _ _ => rfl, fun h => absurd h0 h⟩
      rw [h0]
      simp only [List.map_ofFn, Function.comp_def, slateList, map_zipIdx_ofFn]
    · refine ⟨fun i k => slateReward c.binary st (b ⟨i / L, (Nat.div_le_self _ _).trans_lt i.2⟩) W V (s i) k, ?_,
        fun i k => slateReward_range c.binary st _ W V (s i) k, fun h => absurd (hf.symm.trans h) (by simp),
        fun _ => ⟨st, W, V, h6, hw.trans hWV, fun i k => rfl⟩⟩
      rw [hf]
      simp only [hfb, hA, hL, Int.toNat_natCast, hw.trans hWV, hname]
      exact C146_rewards_partial hn (by omega) hA128 c.binary (structureName_iff.1 h6) b hb W V s
  obtain ⟨q, hq, hqr, hq0, hq1⟩ := hexp
  have hQ : ∀ i, List.ofFn (q i) = (List.range L).map fun k => if h : k < L then q i ⟨k, h⟩ else 0 := fun i => by
    rw [range_map_ofFn]
    congr 1; funext k
    simp
  have hshown : (List.ofFn fun i => List.ofFn (q i)).map (fun r => List.zipWith (· * ·) r ((List.range L).map e)) =
      List.ofFn fun i => List.ofFn fun k : Fin L => q i k * e k := by
    rw [List.map_ofFn]
    congr 1; funext i
    refine List.ext_getElem (by simp) fun k h1 h2 => by simp
  -- the rewards
  have hrew : ∃ r : Fin n → ℕ → ℝ, (if c.binary then (List.ofFn fun i => List.ofFn fun k : Fin L => q i k * e k).zipIdx.mapM fun x =>
        clickRound (src.coin x.2) 0 1 0 x.1 ((List.range L).map a)
      else .ok ((List.ofFn fun i => List.ofFn fun k : Fin L => q i k * e k).zipIdx.map fun x => slateSharedSeedRound x.1 (src.rvs x.2)) :
        Py (List (List ℝ))) = .ok (List.ofFn fun i => List.ofFn fun k : Fin L => r i k) ∧
      (c.binary = true → ∀ i, ∀ k : Fin L, let p := q i k * e k * ∏ j ∈ Finset.range k with r i j = 1, a (j + 1)
        0 ≤ p ∧ p ≤ 1 ∧ r i k = if src.coin i k p then 1 else 0) ∧
      (c.binary = false → ∀ i, ∀ k : Fin L, r i k = truncRvs (0 - q i k) (10 ^ 10 - q i k) (q i k) 1 (src.rvs i)) := by
    cases hb : c.binary with
    | false =>
        refine ⟨fun i k => if h : k < L then truncRvs (0 - q i ⟨k, h⟩) (10 ^ 10 - q i ⟨k, h⟩) (q i ⟨k, h⟩) 1 (src.rvs i) else 0, ?_, by simp, ?_⟩
        · simp only [Bool.false_eq_true, if_false, map_zipIdx_ofFn, slateSharedSeedRound, List.map_ofFn, Function.comp_def, he1 hb, mul_one,
            div_one]
          simp
        · intro _ i k
          simp
    | true =>
        let Q : Fin n → ℕ → ℝ := fun i k => if h : k < L then q i ⟨k, h⟩ * e k else 0
        have hQr : ∀ i k, 0 ≤ Q i k ∧ Q i k ≤ 1 := fun i k => by
          simp only [Q]
          split
          · have h1 := hqr i ⟨k, by assumption⟩
            exact ⟨mul_nonneg h1.1 (hew k).1.1, mul_le_one₀ (h1.2 hb) (hew k).1.1 (hew k).1.2⟩
          · simp
        choose r hr hrj using fun i : Fin n => clickRound_ok (src.coin i) L 0 1 0 (Q i) a zero_le_one le_rfl (.inl rfl) (fun j _ => hQr i j)
          fun j _ => (hew j).2
        have h01 : ∀ i, ∀ k < L, r i k = 0 ∨ r i k = 1 := fun i k hk => by
          have := (hrj i k hk).2.2
          rw [this]
          split
          · exact .inr rfl
          · exact .inl rfl
        refine ⟨r, ?_, fun _ i k => ?_, by simp⟩
        · rw [if_pos rfl]
          refine slateMapM_zipIdx _ _ _ fun i => ?_
          have := hr i
          rw [range_map_ofFn L (Q i), range_map_ofFn L (r i)] at this
          rw [← this]
          simp [Q]
        · have := hrj i k k.2
          simp only [zero_mul, sub_zero, zero_add, mul_one, one_mul] at this
          rw [click_product (fun j hj => h01 i j (by omega)) a, mul_comm, show Q i k = q i k * e k by simp [Q]] at this
          exact this
  obtain ⟨r, hr, hrb, hrc⟩ := hrew
  have hinj : fact = false → ∀ i, Function.Injective (s i) := fun hf i x y hxy => by
    have := (mem_slates.1 (ht i)).2.1 hf
    rw [hs i, slateList, List.nodup_ofFn] at this
    exact this (by simp [hxy])
  have hlog : src.logits A n context = List.ofFn fun i => (List.range A).map (l i) := by
    unfold SlateSource.logits
    rcases hsrc.behavior with ⟨h, h'⟩ | ⟨f, h, h'⟩
    · rw [h, h']
      simp
    · rw [h]
      exact h'
  have hctx' : ((List.range n).map fun i => (List.range D).map fun j => src.normal (i * D + j)) = context := by
    rw [hctx, range_map_ofFn]
    simp only [range_map_ofFn]
  have hrounds : (List.ofFn fun i => (List.range A).map (l i)).zipIdx.mapM (fun x =>
      slateSampleRound A L src.behavior.isNone c.fact cl x.1 ((List.range L).map (src.uniform x.2))) = .ok (List.ofFn fun i => (t i, ps i)) := by
    refine slateMapM_zipIdx _ _ _ fun i => ?_
    simp only [hfact, range_map_ofFn L (src.uniform i)]
    exact hok i
  have hid : ((List.range n).map fun i : ℕ => List.replicate L (i : ℤ)).flatten = gridRows fun (i : Fin n) (_ : Fin L) => (i : ℤ) := by
    rw [← flatten_gridRows, range_map_ofFn]
    simp
  have hpos : (List.replicate n ((List.range L).map fun k : ℕ => (k : ℤ))).flatten = gridRows fun (_ : Fin n) (k : Fin L) => (k : ℤ) := by
    rw [← flatten_gridRows, range_map_ofFn, List.ofFn_const]
  have hmarg : returnItem = true → (∀ x, clip = some (.flt x) → ∀ i, ∀ a < A, l i a ≤ x) →
      (List.ofFn fun i => (ps i).item).flatten = gridRows fun i k => slateMarginal (l i) fact A L k (s i k) := fun hret hx => by
    rw [← flatten_gridRows]
    congr 2
    funext i
    rw [hps' i, itemOf_eq_marginal fun x hx' a ha => hx x (hcl' hret x hx') i a ha, hs i]
    refine List.ext_getElem (by simp [slateList]) fun k h1 h2 => by simp [slateList]
  refine ⟨s, q, r, ⟨n, gridRows fun (i : Fin n) (_ : Fin L) => (i : ℤ), context, gridRows fun i k => (s i k).val,
      gridRows fun (_ : Fin n) (k : Fin L) => (k : ℤ), gridRows fun i (k : Fin L) => r i k, gridRows fun i k => q i k * e k,
      gridRows fun i (k : Fin L) => slatePrefix (l i) fact A L (slateList (s i)) k,
      gridRows fun i (_ : Fin L) => slateProb (l i) fact A (slateList (s i)),
      if returnItem then some (List.ofFn fun i => (ps i).item).flatten else none⟩,
    ?_, rfl, rfl, rfl, rfl, rfl, hinj, fun i t' ht' => by rw [← hs i]; exact hpick i t' ht', rfl, rfl, fun h => by simp [h],
    fun h h' => by simp only [h, if_true, hmarg h h'], rfl, hq0, hq1, rfl, hrb, hrc⟩
  unfold SlateInit.obtain
  rw [show checkIntMin (K := ℝ) 1 (.int (n : ℤ)) = .ok (n : ℤ) from checkIntMin_ok.2 ⟨rfl, by omega⟩, py_bind_ok]
  simp only [Int.toNat_natCast, hA, hL, hD]
  rw [hctx', hlog, raiseIf_neg (by simp), py_bind_ok, hcl, py_bind_ok, hrounds, py_bind_ok, List.map_ofFn]
  simp only [Function.comp_def]
  rw [show (fun i => t i) = fun i => slateList (s i) from funext hs, hq, py_bind_ok, raiseIf_neg (by simp), py_bind_ok,
    show c.exam.mapM clickFactor = .ok ((List.range L).map e) by
      rw [hexam, hL, Int.toNat_natCast, List.mapM_map]
      exact mapM_map_ok fun k _ => rfl, py_bind_ok,
    show c.attract.mapM clickFactor = .ok ((List.range L).map a) by
      rw [hattr, hL, Int.toNat_natCast, List.mapM_map]
      exact mapM_map_ok fun k _ => rfl, py_bind_ok, hshown, hr, py_bind_ok, py_pure, hid, hpos]
  simp only [List.map_ofFn, Function.comp_def, hps', ← flatten_gridRows, slateList, range_map_ofFn, List.ofFn_const, hs]

/-- The arguments of a slate estimator made from a batch and evaluation propensities, as in the library's examples. -/
def SlateBatch.args (fb : SlateBatch) (ps eps : List ℝ) : SlateArgs ℝ where
  slateId := .int fb.slateId
  position := .int fb.position
  reward := .flt fb.reward
  pscore := .flt ps
  evalPscore := .flt eps

theorem slateList_mem {fact : Bool} {s : Fin L → Fin A} (h : fact = false → Function.Injective s) :
    slateList s ∈ slates fact L (Finset.range A) := by
  refine mem_slates.2 ⟨by simp [slateList], fun hf => ?_, fun a ha => ?_⟩
  · rw [slateList, List.nodup_ofFn]
    exact fun x y hxy => h hf (Fin.ext hxy)
  · obtain ⟨k, rfl⟩ := List.mem_ofFn.1 ha
    exact Finset.mem_range.2 (s k).2

theorem slatePrefix_bounds {fact : Bool} (hA : 0 < A) (hL : fact = false → L ≤ A) (l : ℕ → ℝ) {t : List ℕ} (ht : t ∈ slates fact L (Finset.range A))
    (k : ℕ) : slateProb l fact A t ≤ slatePrefix l fact A L t k ∧ 0 < slatePrefix l fact A L t k ∧ slatePrefix l fact A L t k ≤ 1 :=
  ⟨Finset.single_le_sum (f := slateProb l fact A) (fun _ hu => (slateProb_pos (Finset.mem_filter.1 hu).1).le) (Finset.mem_filter.2 ⟨ht, rfl⟩),
    slateClass_bounds hA hL l (fun u => u.take (k + 1) = t.take (k + 1)) ht rfl⟩

theorem slatePrefix_antitone {fact : Bool} (l : ℕ → ℝ) (t : List ℕ) : Antitone (slatePrefix l fact A L t) := fun j k hjk => by
  refine Finset.sum_le_sum_of_subset_of_nonneg (fun u hu => ?_) fun u hu _ => (slateProb_pos (Finset.mem_filter.1 hu).1).le
  obtain ⟨h1, h2⟩ := Finset.mem_filter.1 hu
  refine Finset.mem_filter.2 ⟨h1, ?_⟩
  have := congrArg (List.take (j + 1)) h2
  rwa [List.take_take, List.take_take, min_eq_left (by omega)] at this

theorem gridRows_args (r pb pe : Fin n → Fin L → ℝ) (fb : SlateBatch) (h1 : fb.slateId = gridRows fun (i : Fin n) (_ : Fin L) => (i : ℤ))
    (h2 : fb.position = gridRows fun (_ : Fin n) (k : Fin L) => (k : ℤ)) (h3 : fb.reward = gridRows r) :
    fb.args (gridRows pb) (gridRows pe) = (gridLog r pb pe).args := by
  unfold SlateBatch.args
  rw [h1, h2, h3]
  rfl

/-- **C181.** In particular every row of a batch is well formed: all columns have one entry per round and position, logged actions exist and
are not repeated in a slate unless the policy is factorizable, propensities lie in (0, 1], are constant within slates (`pscore`) or do not
increase with the position (`pscore_cascade`), and rewards are 0 or 1, or at least 0 for continuous rewards. -/
theorem C181_well_formed {nUnique lenList dimContext : PyScalar ℝ} {seed : Seed} {rewardType structName decay : String} {click : Option String}
    {eta : PyScalar ℝ} {fact : Bool} {B : ℕ → ℕ → ℝ} {c : SlateInit} (heta : click ≠ none → eta ≠ .nan)
    (hc : initSlate nUnique lenList dimContext seed rewardType structName decay click eta fact B = .ok c)
    (hA : c.nUnique = A) (hL : c.lenList = L) {D : ℕ} (hD : c.dimContext = D) (hn : 0 < n) {src : SlateSource} {context : List (List ℝ)}
    (hctx : context = List.ofFn fun i : Fin n => List.ofFn fun j : Fin D => src.normal (i * D + j))
    {l : Fin n → ℕ → ℝ} {b : Fin n → Fin A → ℝ} (hsrc : SlateInputs src context c.binary l b)
    (hrvs : ∀ i, 0 ≤ src.rvs i) (returnItem : Bool) (clip : Option (PyScalar ℝ))
    (hclip : returnItem = true → clip = none ∨ ∃ x ≤ 700, clip = some (.flt x)) :
    ∃ fb, c.obtain src (.int n) returnItem clip = .ok fb ∧
      ∃ (s : Fin n → Fin L → Fin A) (r joint cascade : Fin n → Fin L → ℝ), (fb.action = gridRows fun i k => (s i k).val) ∧
        fb.reward = gridRows r ∧ fb.joint = gridRows joint ∧ fb.cascade = gridRows cascade ∧ fb.slateId.length = n * L ∧
        fb.position.length = n * L ∧ fb.expected.length = n * L ∧ (∀ x ∈ fb.expected, 0 ≤ x) ∧
        ((fact = false → ∀ i, Function.Injective (s i)) ∧ (∀ i k, 0 < joint i k ∧ joint i k ≤ 1) ∧ (∀ i k k', joint i k = joint i k') ∧
          (∀ i k, joint i k ≤ cascade i k ∧ cascade i k ≤ 1) ∧ (∀ i, Antitone (cascade i))) ∧
        (c.binary = true → ∀ i k, r i k = 0 ∨ r i k = 1) ∧ (c.binary = false → ∀ i k, 0 ≤ r i k) := by
  have hex := C181_batch heta hc hA hL hD hn hctx hsrc returnItem clip hclip
  dsimp only at hex
  obtain ⟨s, q, r, fb, hok, -, -, hid, hpos, hact, hinj, -, hj, hcas, -, -, hex, hq0, hq1, hr, hrb, hrc⟩ := hex
  have hset := (C180_click_weights heta hc).1
  have hA0 : 0 < A := by have := hset.actions.2; omega
  have hLA : fact = false → L ≤ A := fun h => by have := hset.positions.2.2 h; omega
  have hmem := fun i => slateList_mem (fact := fact) fun h => hinj h i
  refine ⟨fb, hok, s, fun i k => r i k, _, _, hact, hr, hj, hcas, by rw [hid]; simp [gridRows], by rw [hpos]; simp [gridRows],
    by rw [hex]; simp [gridRows], fun x hx => ?_, ⟨hinj, fun i k => ⟨slateProb_pos (hmem i), ?_⟩, fun _ _ _ => rfl, fun i k => ?_,
    fun i j k hjk => slatePrefix_antitone _ _ hjk⟩, fun hb i k => ?_, fun hb i k => ?_⟩
  · rw [hex] at hx
    obtain ⟨j, rfl⟩ := List.mem_ofFn.1 hx
    have hq : ∀ i k, 0 ≤ q i k := fun i k => by
      rcases hsrc.base with ⟨h0, h⟩ | ⟨f, hf, -⟩
      · rw [hq0 h0]
        exact (h _ _).1
      · obtain ⟨st, W, V, -, -, h⟩ := hq1 (by rw [hf]; simp)
        rw [h]
        exact (slateReward_range _ _ _ _ _ _ _).1
    refine mul_nonneg (hq _ _) ?_
    split
    · rcases hset.click with h | ⟨-, -, h⟩
      · simp_all
      · exact ((C180_decay_weights h).2.1 _).1
    · exact zero_le_one
  · have := slateClass_bounds hA0 hLA (l i) (fun t => t = slateList (s i)) (hmem i) rfl
    simpa [Finset.filter_eq', hmem i] using this.2
  · have := slatePrefix_bounds hA0 hLA (l i) (hmem i) k
    exact ⟨this.1, this.2.2⟩
  · change r i k = 0 ∨ r i k = 1
    rw [(hrb hb i k).2.2]
    exact (ite_eq_or_eq _ 1 0).symm
  · change 0 ≤ r i k
    rw [hrc hb i k]
    have := truncRvs_nonneg (m := q i k) (hrvs i)
    rwa [div_one, div_one] at this

/-- **C181.** The estimators accept a batch together with the propensities that the dataset computes for an evaluation policy with logits `lE`, and
weight the rewards of round `i` by the ratio of the probabilities of its slate (SIPS), of its beginning up to the position (RIPS) or of the action at
the position (IIPS). The on-policy value is the average over the rounds of the sum of the rewards. -/
theorem C181_estimates {nUnique lenList dimContext : PyScalar ℝ} {seed : Seed} {rewardType structName decay : String} {click : Option String}
    {eta : PyScalar ℝ} {fact : Bool} {B : ℕ → ℕ → ℝ} {c : SlateInit} (heta : click ≠ none → eta ≠ .nan)
    (hc : initSlate nUnique lenList dimContext seed rewardType structName decay click eta fact B = .ok c)
    (hA : c.nUnique = A) (hL : c.lenList = L) {D : ℕ} (hD : c.dimContext = D) (hn : 0 < n) {src : SlateSource} {context : List (List ℝ)}
    (hctx : context = List.ofFn fun i : Fin n => List.ofFn fun j : Fin D => src.normal (i * D + j))
    {l : Fin n → ℕ → ℝ} {b : Fin n → Fin A → ℝ} (hsrc : SlateInputs src context c.binary l b)
    (lE : Fin n → ℕ → ℝ) :
    ∃ (fb : SlateBatch) (s : Fin n → Fin L → Fin A) (r : Fin n → Fin L → ℝ) (item joint' item' cascade' : List ℝ),
      c.obtain src (.int n) true none = .ok fb ∧ (fb.action = gridRows fun i k => (s i k).val) ∧
      (fact = false → ∀ i, Function.Injective (s i)) ∧ fb.reward = gridRows r ∧ fb.item = some item ∧
      obtainSlatePscores A L fact none fb.action (List.ofFn fun i => (List.range A).map (lE i)) = .ok (joint', item', cascade') ∧
      SlateKind.sips.estimatePolicyValue L (fb.args fb.joint joint') =
        .ok ((∑ i, ∑ k, r i k * (slateProb (lE i) fact A (slateList (s i)) / slateProb (l i) fact A (slateList (s i)))) / n) ∧
      SlateKind.rips.estimatePolicyValue L (fb.args fb.cascade cascade') =
        .ok ((∑ i, ∑ k : Fin L, r i k * (slatePrefix (lE i) fact A L (slateList (s i)) k / slatePrefix (l i) fact A L (slateList (s i)) k)) / n) ∧
      SlateKind.iips.estimatePolicyValue L (fb.args item item') =
        .ok ((∑ i, ∑ k : Fin L, r i k * (slateMarginal (lE i) fact A L k (s i k) / slateMarginal (l i) fact A L k (s i k))) / n) ∧
      slateOnPolicyValue fb.reward fb.slateId = .ok ((∑ i, ∑ k, r i k) / n) := by
  have hex := C181_batch heta hc hA hL hD hn hctx hsrc true none (fun _ => .inl rfl)
  dsimp only at hex
  obtain ⟨s, q, r, fb, hok, -, -, hid, hpos, hact, hinj, -, hj, hcas, -, hitem, -, -, -, hr, -, -⟩ := hex
  have hset := (C180_click_weights heta hc).1
  have hA0 : 0 < A := by have := hset.actions.2; omega
  have hL0 : 0 < L := by have := hset.positions.2.1; omega
  have hLA : fact = false → L ≤ A := fun h => by have := hset.positions.2.2 h; omega
  have hmem := fun i => slateList_mem (fact := fact) fun h => hinj h i
  obtain ⟨e, he, hobt⟩ := C85_rounds hA0 fact hLA none (by simp) lE (fun i => slateList (s i)) hmem
  have he' : ∀ i, e i = ⟨slateProb (lE i) fact A (slateList (s i)), (slateList (s i)).mapIdx (itemOf fact none (lE i) A L),
      (List.range L).map (slatePrefix (lE i) fact A L (slateList (s i)))⟩ := fun i => by
    have := he i
    rw [slatePscores_ok hA0 hLA (hmem i)] at this
    exact (Except.ok.inj this).symm
  have hbounds : ∀ (l : Fin n → ℕ → ℝ) i, 0 < slateProb (l i) fact A (slateList (s i)) ∧ slateProb (l i) fact A (slateList (s i)) ≤ 1 := fun l i => by
    have := slateClass_bounds hA0 hLA (l i) (fun t => t = slateList (s i)) (hmem i) rfl
    simpa [Finset.filter_eq', hmem i] using this
  have hmb : ∀ (l : Fin n → ℕ → ℝ) i (k : Fin L), 0 < slateMarginal (l i) fact A L k (s i k) ∧ slateMarginal (l i) fact A L k (s i k) ≤ 1 :=
    fun l i k => slateClass_bounds hA0 hLA (l i) (fun t => t[(k : ℕ)]? = some (s i k : ℕ)) (hmem i) (by simp [slateList])
  have hrange : ∀ {pb pe : Fin n → Fin L → ℝ}, (∀ i l, 0 < pb i l ∧ pb i l ≤ 1) → (∀ i l, 0 < pe i l ∧ pe i l ≤ 1) →
      (gridLog (fun i (k : Fin L) => r i k) pb pe).InRange := fun h1 h2 j => ⟨(h1 _ _).1, (h1 _ _).2, (h2 _ _).1.le, (h2 _ _).2⟩
  have huniq : ∀ pb pe : Fin n → Fin L → ℝ, (gridLog (fun i (k : Fin L) => r i k) pb pe).UniquePositions := fun _ _ _ _ h1 h2 =>
    grid_eq (Fin.ext h1) (Fin.ext h2)
  refine ⟨fb, s, fun i k => r i k, _, gridRows fun i (_ : Fin L) => slateProb (lE i) fact A (slateList (s i)),
    gridRows fun i k => slateMarginal (lE i) fact A L k (s i k), gridRows fun i (k : Fin L) => slatePrefix (lE i) fact A L (slateList (s i)) k,
    hok, hact, hinj, hr, hitem rfl (by simp), ?_, ?_, ?_, ?_, ?_⟩
  · rw [hact, ← flatten_gridRows]
    refine hobt.trans ?_
    simp only [he', ← flatten_gridRows, List.ofFn_const, range_map_ofFn, itemOf_eq_marginal (clip := none) (by simp)]
    congr 5
    funext i
    refine List.ext_getElem (by simp [slateList]) fun k h1 h2 => by simp [slateList]
  · rw [hj, gridRows_args _ _ _ fb hid hpos hr]
    exact gridLog_value (.inl rfl) hL0 ⟨Nat.mul_pos hn hL0, hrange (fun i _ => hbounds l i) (fun i _ => hbounds lE i), huniq _ _,
      fun j k h => by simp only [gridLog, show j.divNat = k.divNat from Fin.ext h],
      fun j k h => by simp only [gridLog, show j.divNat = k.divNat from Fin.ext h]⟩
  · rw [hcas, gridRows_args _ _ _ fb hid hpos hr]
    refine gridLog_value (.inr (.inr rfl)) hL0 ⟨Nat.mul_pos hn hL0, hrange (fun i k => (slatePrefix_bounds hA0 hLA (l i) (hmem i) k).2)
      (fun i k => (slatePrefix_bounds hA0 hLA (lE i) (hmem i) k).2), huniq _ _, fun j k h h' => ?_, fun j k h h' => ?_⟩
    · simp only [gridLog, show j.divNat = k.divNat from Fin.ext h]
      exact slatePrefix_antitone _ _ (le_of_lt h')
    · simp only [gridLog, show j.divNat = k.divNat from Fin.ext h]
      exact slatePrefix_antitone _ _ (le_of_lt h')
  · rw [gridRows_args _ _ _ fb hid hpos hr]
    exact gridLog_value (.inr (.inl rfl)) hL0 ⟨Nat.mul_pos hn hL0, hrange (hmb l) (hmb lE), huniq _ _, trivial⟩
  · rw [hr, hid, ← flatten_gridRows, ← flatten_gridRows]
    have := C117_on_policy_value hn hL0 (fun i (k : Fin L) => r i k) (fun i : Fin n => (i : ℤ)) fun x y h => Fin.ext (by simpa using h)
    simpa using this

/-- **C181.** With the behaviour policy as evaluation policy all three return the on-policy value. -/
theorem C181_on_policy {nUnique lenList dimContext : PyScalar ℝ} {seed : Seed} {rewardType structName decay : String} {click : Option String}
    {eta : PyScalar ℝ} {fact : Bool} {B : ℕ → ℕ → ℝ} {c : SlateInit} (heta : click ≠ none → eta ≠ .nan)
    (hc : initSlate nUnique lenList dimContext seed rewardType structName decay click eta fact B = .ok c)
    (hA : c.nUnique = A) (hL : c.lenList = L) {D : ℕ} (hD : c.dimContext = D) (hn : 0 < n) {src : SlateSource} {context : List (List ℝ)}
    (hctx : context = List.ofFn fun i : Fin n => List.ofFn fun j : Fin D => src.normal (i * D + j))
    {l : Fin n → ℕ → ℝ} {b : Fin n → Fin A → ℝ} (hsrc : SlateInputs src context c.binary l b) :
    ∃ (fb : SlateBatch) (item joint' item' cascade' : List ℝ) (v : ℝ),
      c.obtain src (.int n) true none = .ok fb ∧ fb.item = some item ∧
      obtainSlatePscores A L fact none fb.action (List.ofFn fun i => (List.range A).map (l i)) = .ok (joint', item', cascade') ∧
      slateOnPolicyValue fb.reward fb.slateId = .ok v ∧
      SlateKind.sips.estimatePolicyValue L (fb.args fb.joint joint') = .ok v ∧
      SlateKind.rips.estimatePolicyValue L (fb.args fb.cascade cascade') = .ok v ∧
      SlateKind.iips.estimatePolicyValue L (fb.args item item') = .ok v := by
  obtain ⟨fb, s, r, item, joint', item', cascade', h1, -, hinj, -, h4, h5, h6, h7, h8, h9⟩ := C181_estimates heta hc hA hL hD hn hctx hsrc l
  have hset := (C180_click_weights heta hc).1
  have hA0 : 0 < A := by have := hset.actions.2; omega
  have hLA : fact = false → L ≤ A := fun h => by have := hset.positions.2.2 h; omega
  have hmem := fun i => slateList_mem (fact := fact) fun h => hinj h i
  have hmb : ∀ i (k : Fin L), slateMarginal (l i) fact A L k (s i k) ≠ 0 := fun i k =>
    (slateClass_bounds hA0 hLA (l i) (fun t => t[(k : ℕ)]? = some (s i k : ℕ)) (hmem i) (by simp [slateList])).1.ne'
  refine ⟨fb, item, joint', item', cascade', _, h1, h4, h5, h9, h6.trans ?_, h7.trans ?_, h8.trans ?_⟩
  · simp [div_self (slateProb_pos (hmem _)).ne']
  · simp [div_self (slatePrefix_bounds hA0 hLA (l _) (hmem _) _).2.1.ne']
  · simp [div_self (hmb _ _)]

/-- **C181.** A number of rounds that is not a positive integer is refused with TypeError or ValueError, and logits of a wrong shape with
ValueError. -/
theorem C181_refused (c : SlateInit) (src : SlateSource) (nRounds : PyScalar ℝ) (returnItem : Bool) (clip : Option (PyScalar ℝ)) :
    ((¬ ∃ n : ℤ, nRounds.toInt? = some n ∧ 1 ≤ n) →
      c.obtain src nRounds returnItem clip = .error .typeError ∨ c.obtain src nRounds returnItem clip = .error .valueError) ∧
    (∀ n : ℤ, nRounds.toInt? = some n → 1 ≤ n → ∀ f, src.behavior = some f →
      (∀ context, ¬ ((f context).length = n.toNat ∧ ∀ r ∈ f context, r.length = c.nUnique.toNat)) →
      c.obtain src nRounds returnItem clip = .error .valueError) := by
  constructor
  · intro h
    cases hn : checkIntMin 1 nRounds with
    | ok n => exact absurd ⟨n, checkIntMin_ok.1 hn⟩ h
    | error e =>
        unfold SlateInit.obtain
        rw [hn]
        rcases checkIntMin_error hn with rfl | rfl
        · exact .inl rfl
        · exact .inr rfl
  · intro n hn hn1 f hf hbad
    unfold SlateInit.obtain
    rw [show checkIntMin 1 nRounds = .ok n from checkIntMin_ok.2 ⟨hn, hn1⟩, py_bind_ok]
    have hl : ∀ context, src.logits c.nUnique.toNat n.toNat context = f context := fun context => by
      unfold SlateSource.logits
      rw [hf]
    simp only [hl]
    rw [show raiseIf _ _ = Except.error PyErr.valueError from ?_]
    · rfl
    · have := hbad ((List.range n.toNat).map fun i => (List.range c.dimContext.toNat).map fun j => src.normal (i * c.dimContext.toNat + j))
      unfold raiseIf
      rw [if_pos]
      rw [not_and_or] at this
      rcases this with h | h
      · simp [h]
      · simp only [Bool.not_eq_true', Bool.and_eq_false_iff]
        refine .inr (Bool.eq_false_iff.2 fun h' => h fun r hr => ?_)
        simpa using List.all_eq_true.1 h' r hr

/-- Without user functions every request for a positive number of rounds is answered. -/
example (B : ℕ → ℕ → ℝ) (normal : ℕ → ℝ) (coin : ℕ → ℕ → ℝ → Bool) :
    ∃ c, initSlate (.int 10) (.int 3) (.int 5) .ok "binary" "independent" "inverse" (some "pbm") (.flt (1 / 2)) false B = .ok c ∧
      let src : SlateSource := ⟨normal, fun _ _ => 1 / 3, fun _ _ => 1 / 2, coin, fun _ => 0, none, none⟩
      (∃ fb, c.obtain src (.int 7) true none = .ok fb ∧ fb.reward.length = 21 ∧ fb.joint.length = 21) ∧
      (∃ (fb : SlateBatch) (joint' : List ℝ) (v : ℝ), c.obtain src (.int 7) true none = .ok fb ∧ slateOnPolicyValue fb.reward fb.slateId = .ok v ∧
        SlateKind.sips.estimatePolicyValue 3 (fb.args fb.joint joint') = .ok v) ∧
      c.obtain src (.int 0) true none = .error .valueError := by
  obtain ⟨c, hc, hA, hL, hD, hb⟩ := slateExample "independent" "inverse" (by decide) (.inr rfl) B
  refine ⟨c, hc, ?_⟩
  intro src
  have hin : SlateInputs (n := 7) (A := 10) src (List.ofFn fun i : Fin 7 => List.ofFn fun j : Fin 5 => src.normal (i * 5 + j)) c.binary
      (fun _ _ => 1 / ((10 : ℕ) : ℝ)) (fun _ _ => 0) :=
    ⟨fun _ _ => by norm_num [src], .inl ⟨rfl, rfl⟩, .inl ⟨rfl, fun _ _ => by norm_num [src]⟩⟩
  refine ⟨?_, ?_, rfl⟩
  · obtain ⟨fb, h, s, r, joint, cascade, -, h1, h2, -⟩ := C181_well_formed (by simp) hc hA hL hD (by norm_num) rfl hin
      (fun _ => le_rfl) true none (fun _ => .inl rfl)
    exact ⟨fb, h, by rw [h1]; simp [gridRows], by rw [h2]; simp [gridRows]⟩
  · obtain ⟨fb, item, joint', item', cascade', v, h1, -, -, h4, h5, -⟩ := C181_on_policy (by simp) hc hA hL hD (by norm_num) rfl hin
    exact ⟨fb, joint', v, h1, h4, h5⟩

end batch

end Obp
