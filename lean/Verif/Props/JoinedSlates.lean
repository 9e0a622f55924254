import Verif.Props.JoinedLogs
import Verif.Props.SlateChecks
import Verif.Props.Slate

/-!
# C199 for slates

A slate log is evaluated in parts only if the slate ids of the parts are kept apart.
-/

set_option linter.unusedSectionVars false

namespace Obp
variable {K : Type} [Field K] [LinearOrder K] [IsStrictOrderedRing K] {N N' : ℕ}
variable {g : SlateLog K N} {g' : SlateLog K N'}

theorem slate_left (i : Fin N) : (g.join g').slate (Fin.castAdd N' i) = g.slate i := Fin.append_left _ _ i
theorem slate_right (i : Fin N') : (g.join g').slate (Fin.natAdd N i) = g'.slate i := Fin.append_right _ _ i

/-- The slates of a joined log are the slates of either part. -/
theorem slates_join : Finset.univ.image (g.join g').slate = Finset.univ.image g.slate ∪ Finset.univ.image g'.slate := by
  ext s
  simp only [Finset.mem_image, Finset.mem_univ, true_and, Finset.mem_union]
  constructor
  · rintro ⟨i, rfl⟩
    refine forall_join (p := fun i => (∃ j, g.slate j = (g.join g').slate i) ∨ ∃ j, g'.slate j = (g.join g').slate i)
      (fun i => Or.inl ⟨i, (slate_left i).symm⟩) (fun i => Or.inr ⟨i, (slate_right i).symm⟩) i
  · rintro (⟨i, rfl⟩ | ⟨i, rfl⟩)
    · exact ⟨_, slate_left i⟩
    · exact ⟨_, slate_right i⟩

/-- **C199 (slates).** Whenever SIPS, IIPS or RIPS accepts the joined log, its estimate is the sum of the estimates of the parts times
their numbers of slates, divided by the number of different slate ids: an id that occurs in both parts is counted once. -/
theorem C199_slate (kind : SlateKind) (hk : kind = .sips ∨ kind = .iips ∨ kind = .rips) (lenList : ℕ)
    (hj : kind.Accepts (g.join g')) {v v' : K}
    (hv : kind.estimatePolicyValue lenList g.args = .ok v) (hv' : kind.estimatePolicyValue lenList g'.args = .ok v') :
    kind.estimatePolicyValue lenList (g.join g').args =
      .ok (((g.numSlates : K) * v + g'.numSlates * v') /
        (Finset.univ.image g.slate ∪ Finset.univ.image g'.slate).card) := by
  have hr : ∀ {M : ℕ} (g : SlateLog K M), kind.rowVals lenList g = some fun i => g.reward i * g.weight i := by
    intro M g
    rcases hk with rfl | rfl | rfl <;> rfl
  have key : ∀ {M : ℕ} {g : SlateLog K M} {v : K}, kind.estimatePolicyValue lenList g.args = .ok v →
      (g.numSlates : K) * v = ∑ i, g.reward i * g.weight i := by
    intro M g v hv
    have hacc : kind.Accepts g := by
      by_contra hn
      unfold SlateKind.estimatePolicyValue at hv
      rw [slateError kind hn] at hv
      cases hv
    rw [slateValue_eq kind lenList hacc, hr] at hv
    have h0 : (g.numSlates : K) ≠ 0 := by exact_mod_cast (g.numSlates_pos hacc.1).ne'
    rw [← Except.ok.inj hv, mul_div_cancel₀ _ h0]
  rw [slateValue_eq kind lenList hj, hr, key hv, key hv']
  refine congrArg Except.ok ?_
  rw [SlateLog.numSlates, slates_join]
  congr 1
  rw [Fin.sum_univ_add]
  simp [SlateLog.join, SlateLog.weight]

/-- **C199 (slates with different ids).** If no slate id occurs in both parts, every slate estimator that accepts both parts accepts
the joined log, and SIPS, IIPS and RIPS return the average of the two estimates weighted by the numbers of slates. -/
theorem C199_slate_distinct_ids (kind : SlateKind) (lenList : ℕ) (hd : ∀ i j, g.slate i ≠ g'.slate j)
    (h : kind.Accepts g) (h' : kind.Accepts g') :
    kind.Accepts (g.join g') ∧
    (kind = .sips ∨ kind = .iips ∨ kind = .rips → ∀ v v' : K,
      kind.estimatePolicyValue lenList g.args = .ok v → kind.estimatePolicyValue lenList g'.args = .ok v' →
      kind.estimatePolicyValue lenList (g.join g').args =
        .ok (((g.numSlates : K) * v + g'.numSlates * v') / (g.numSlates + g'.numSlates))) := by
  have pair : ∀ {p : Fin (N + N') → Fin (N + N') → Prop},
      (∀ i j, g.slate i = g.slate j → p (Fin.castAdd N' i) (Fin.castAdd N' j)) →
      (∀ i j, g'.slate i = g'.slate j → p (Fin.natAdd N i) (Fin.natAdd N j)) →
      ∀ i j, (g.join g').slate i = (g.join g').slate j → p i j := by
    intro p h1 h2
    refine forall_join (fun i => forall_join (fun j hij => ?_) fun j hij => ?_)
      (fun i => forall_join (fun j hij => ?_) fun j hij => ?_)
    · rw [slate_left, slate_left] at hij; exact h1 i j hij
    · rw [slate_left, slate_right] at hij; exact absurd hij (hd i j)
    · rw [slate_left, slate_right] at hij; exact absurd hij.symm (hd j i)
    · rw [slate_right, slate_right] at hij; exact h2 i j hij
  have hcon : ∀ {f : Fin N → K} {f' : Fin N' → K}, g.ConstantPerSlate f → g'.ConstantPerSlate f' →
      (g.join g').ConstantPerSlate (Fin.append f f') := fun hf hf' =>
    pair (fun i j hij => by simpa using hf i j hij) fun i j hij => by simpa using hf' i j hij
  have hmon : ∀ {f : Fin N → K} {f' : Fin N' → K}, g.NonincreasingPerSlate f → g'.NonincreasingPerSlate f' →
      (g.join g').NonincreasingPerSlate (Fin.append f f') := fun hf hf' =>
    pair (p := fun i j => (g.join g').pos i < (g.join g').pos j → _)
      (fun i j hij => by simpa [SlateLog.join] using hf i j hij) fun i j hij => by simpa [SlateLog.join] using hf' i j hij
  have hacc : kind.Accepts (g.join g') := by
    refine ⟨Nat.add_pos_left h.1 _, ?_, ?_, ?_⟩
    · exact forall_join (fun i => by simpa [SlateLog.join] using h.2.1 i) fun i => by simpa [SlateLog.join] using h'.2.1 i
    · exact pair (p := fun i j => (g.join g').pos i = (g.join g').pos j → i = j)
        (fun i j hij hp => congrArg _ (h.2.2.1 i j hij (by simpa [SlateLog.join] using hp)))
        fun i j hij hp => congrArg _ (h'.2.2.1 i j hij (by simpa [SlateLog.join] using hp))
    · have h1 := h.2.2.2
      have h2 := h'.2.2.2
      cases kind
      · exact ⟨hcon h1.1 h2.1, hcon h1.2 h2.2⟩
      · trivial
      · exact ⟨hmon h1.1 h2.1, hmon h1.2 h2.2⟩
      · exact ⟨hcon h1.1 h2.1, hcon h1.2 h2.2⟩
      · trivial
      · exact ⟨hmon h1.1 h2.1, hmon h1.2 h2.2⟩
  refine ⟨hacc, fun hk v v' hv hv' => ?_⟩
  rw [C199_slate kind hk lenList hacc hv hv', Finset.card_union_of_disjoint, Nat.cast_add]
  · rfl
  · rw [Finset.disjoint_left]
    intro s hs hs'
    obtain ⟨i, -, rfl⟩ := Finset.mem_image.1 hs
    obtain ⟨j, -, hj⟩ := Finset.mem_image.1 hs'
    exact hd i j hj.symm

/-- **C199 (repeated ids).** If both parts number their slates alike, so that some slate id has the same position in both, every slate
estimator refuses the joined log with ValueError. -/
theorem C199_slate_repeated (kind : SlateKind) (lenList : ℕ) {i : Fin N} {j : Fin N'} (hs : g.slate i = g'.slate j)
    (hp : g.pos i = g'.pos j) : kind.estimatePolicyValue lenList (g.join g').args = .error .valueError := by
  have hn : ¬ kind.Accepts (g.join g') := fun h => by
    have := h.2.2.1 (Fin.castAdd N' i) (Fin.natAdd N j) (by rw [slate_left, slate_right, hs]) (by simpa [SlateLog.join] using hp)
    have := congrArg Fin.val this
    simp only [Fin.val_castAdd, Fin.val_natAdd] at this
    omega
  unfold SlateKind.estimatePolicyValue
  rw [slateError kind hn]
  rfl

/-- one slate with one item, at position `p` -/
def exSlatePart (s p : ℕ) (r : ℚ) : SlateLog ℚ 1 where
  slate := fun _ => s
  pos := fun _ => p
  reward := fun _ => r
  ps := fun _ => 1 / 2
  eps := fun _ => 1 / 2

theorem exSlatePart_accepts (s p : ℕ) (r : ℚ) (kind : SlateKind) : kind.Accepts (exSlatePart s p r) := by
  refine ⟨by decide, fun _ => by norm_num [exSlatePart], fun i j _ _ => Subsingleton.elim i j, ?_⟩
  cases kind <;> simp [SlateLog.ConstantPerSlate, SlateLog.NonincreasingPerSlate, exSlatePart]

/-- **C199 (ids merged silently).** Parts whose slates share an id but no position are accepted and read as one slate: both parts
have estimate 3 and the joined log has estimate 6. -/
theorem C199_slate_merged :
    (∀ kind ∈ [SlateKind.sips, .iips, .rips],
      kind.estimatePolicyValue 2 (exSlatePart 0 0 3).args = .ok 3 ∧ kind.estimatePolicyValue 2 (exSlatePart 0 1 3).args = .ok 3 ∧
      kind.estimatePolicyValue 2 ((exSlatePart 0 0 3).join (exSlatePart 0 1 3)).args = .ok 6) := by
  decide +kernel

/-- parts with different ids meet the hypotheses -/
example : (∀ i j, (exSlatePart 0 0 3).slate i ≠ (exSlatePart 1 0 5).slate j) ∧
    SlateKind.rips.estimatePolicyValue 1 ((exSlatePart 0 0 3).join (exSlatePart 1 0 5)).args = .ok 4 := by
  refine ⟨fun _ _ => by simp [exSlatePart], ?_⟩
  decide +kernel

end Obp
