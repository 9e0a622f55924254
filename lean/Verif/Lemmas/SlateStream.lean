import Verif.Spec.SlateStream
import Verif.Lemmas.LogStream
import Verif.Props.SlateUnbiased

set_option linter.unusedSectionVars false

namespace Obp
open MeasureTheory ProbabilityTheory Filter Topology Log

section propensity
variable {L A : ℕ} {pi piB piE : (Fin L → Fin A) → ℝ}

theorem SlateKind.agree_equiv (k : SlateKind) (l : Fin L) : Equivalence fun b a : Fin L → Fin A => k.Agree l b a := by
  cases k
  · exact ⟨fun _ => rfl, fun h => h.symm, fun h h' => h.trans h'⟩
  · exact ⟨fun _ => rfl, fun h => h.symm, fun h h' => h.trans h'⟩
  · exact agree_le_equiv l
  · exact ⟨fun _ => rfl, fun h => h.symm, fun h h' => h.trans h'⟩
  · exact ⟨fun _ => rfl, fun h => h.symm, fun h h' => h.trans h'⟩
  · exact agree_le_equiv l

theorem propensity_nonneg (h : IsDist pi) (k : SlateKind) (a : Fin L → Fin A) (l : Fin L) : 0 ≤ k.propensity pi a l := by
  classical
  exact class_nonneg (n := 1) (pi := fun _ => pi) (fun _ => h) 0 _

theorem propensity_le_one (h : IsDist pi) (k : SlateKind) (a : Fin L → Fin A) (l : Fin L) : k.propensity pi a l ≤ 1 := by
  classical
  exact class_le_one (n := 1) (pi := fun _ => pi) (fun _ => h) 0 _

theorem propensity_pos (h : IsDist pi) (k : SlateKind) {a : Fin L → Fin A} (ha : pi a ≠ 0) (l : Fin L) :
    0 < k.propensity pi a l := by
  classical
  exact class_pos (n := 1) (pi := fun _ => pi) (fun _ => h) (i := 0) ha _ ((k.agree_equiv l).refl a)

theorem le_propensity (h : IsDist pi) (k : SlateKind) (a : Fin L → Fin A) (l : Fin L) : pi a ≤ k.propensity pi a l := by
  classical
  unfold SlateKind.propensity
  have := Finset.single_le_sum (f := fun b => if k.Agree l b a then pi b else 0) (s := Finset.univ)
    (fun b _ => by
      split
      · exact h.nonneg b
      · exact le_refl _) (Finset.mem_univ a)
  simpa [(k.agree_equiv l).refl a] using this

theorem propensity_reweight (k : SlateKind) (l : Fin L) (f : (Fin L → Fin A) → ℝ) (hf : ∀ a b, k.Agree l a b → f a = f b)
    (hs : ∀ a, piE a ≠ 0 → k.propensity piB a l ≠ 0) :
    ∑ a, piB a * (k.propensity piE a l / k.propensity piB a l * f a) = ∑ a, piE a * f a := by
  classical
  exact reweight (fun b a => k.Agree l b a) (k.agree_equiv l) piB piE f hf hs

theorem propensity_mono (h : IsDist pi) {k : SlateKind} (hk : k = .rips ∨ k = .snRips) (a : Fin L → Fin A) {l l' : Fin L}
    (hl : l ≤ l') : k.propensity pi a l' ≤ k.propensity pi a l := by
  classical
  refine class_mono (n := 1) (pi := fun _ => pi) (fun _ => h) 0 fun b hb => ?_
  rcases hk with rfl | rfl <;> exact fun m hm => hb m (hm.trans hl)

theorem propensity_const {k : SlateKind} (hk : k = .sips ∨ k = .snSips) (a : Fin L → Fin A) (l : Fin L) :
    k.propensity pi a l = pi a := by
  unfold SlateKind.propensity
  rw [Finset.sum_eq_single a]
  · rcases hk with rfl | rfl <;> simp [SlateKind.Agree]
  · intro b _ hb
    rcases hk with rfl | rfl <;> simp [SlateKind.Agree, hb]
  · simp

theorem propensity_meas {C : Type} [MeasurableSpace C] {pi : C → (Fin L → Fin A) → ℝ} (h : ∀ a, Measurable fun c => pi c a)
    (k : SlateKind) (a : Fin L → Fin A) (l : Fin L) : Measurable fun c => k.propensity (pi c) a l := by
  unfold SlateKind.propensity
  refine Finset.measurable_sum _ fun b _ => ?_
  split
  · exact h b
  · exact measurable_const

end propensity

namespace SlateStream
variable {Ω C : Type} [MeasurableSpace Ω] [MeasurableSpace C] {L A : ℕ} {P : Measure Ω} [IsProbabilityMeasure P]
variable {s : SlateStream Ω C L A} {piB piE : C → (Fin L → Fin A) → ℝ} {m : C → (Fin L → Fin A) → Fin L → ℝ}

/-- Numbering of the slates. -/
def code : (Fin L → Fin A) ≃ᵐ Fin (A ^ L) where
  toEquiv := finFunctionFinEquiv
  measurable_toFun := measurable_of_finite _
  measurable_invFun := measurable_of_finite _

/-- The rounds as seen from slot `l`. -/
def slot (s : SlateStream Ω C L A) (l : Fin L) : LogStream Ω C (A ^ L) where
  ctx := s.ctx
  act i ω := code (s.slate i ω)
  rew i ω := s.rew i ω l

theorem LoggedBy.slot (hs : s.LoggedBy P piB m) (l : Fin L) :
    (s.slot l).LoggedBy P (fun c x => piB c (code.symm x)) fun c x => m c (code.symm x) l := by
  have hmap : Measurable fun x : C × (Fin L → Fin A) × (Fin L → ℝ) => (x.1, (code x.2.1 : Fin (A ^ L)), x.2.2 l) :=
    measurable_fst.prodMk ((code.measurable.comp (measurable_fst.comp measurable_snd)).prodMk
      ((measurable_pi_apply l).comp (measurable_snd.comp measurable_snd)))
  refine ⟨hs.ctx_meas, fun i => code.measurable.comp (hs.slate_meas i), fun i => (measurable_pi_apply l).comp (hs.rew_meas i),
    hs.indep.comp (fun _ => _) fun _ => hmap, fun i => (hs.ident i).comp hmap, fun c => ⟨fun x => (hs.piB_dist c).nonneg _, ?_⟩,
    fun x => hs.piB_meas _, fun x => hs.m_meas _ l, fun x B hB => ?_, hs.rew_int l, ?_⟩
  · rw [← (hs.piB_dist c).sum_one]
    exact Equiv.sum_comp code.symm.toEquiv fun a => piB c a
  · have h := hs.policy (code.symm x) B hB
    have e : {ω | (s.slot l).ctx 0 ω ∈ B ∧ (s.slot l).act 0 ω = x} = {ω | s.ctx 0 ω ∈ B ∧ s.slate 0 ω = code.symm x} := by
      ext ω
      simp only [SlateStream.slot, Set.mem_ofPred_eq]
      refine and_congr_right fun _ => ⟨fun h => ?_, fun h => ?_⟩
      · rw [← h, code.symm_apply_apply]
      · rw [h, code.apply_symm_apply]
    rw [e]
    exact h
  · have h := hs.rew_mean l
    have e : MeasurableSpace.comap (fun ω => ((s.slot l).ctx 0 ω, (s.slot l).act 0 ω)) inferInstance =
        MeasurableSpace.comap (fun ω => (s.ctx 0 ω, s.slate 0 ω)) inferInstance := by
      have hc := ((MeasurableEquiv.refl C).prodCongr (code (L := L) (A := A))).measurableEmbedding.comap_eq
      rw [← hc, MeasurableSpace.comap_comp]
      rfl
    rw [e]
    filter_upwards [h] with ω hω
    refine hω.trans ?_
    simp [SlateStream.slot]

theorem sum_code (f : (Fin L → Fin A) → ℝ) : ∑ x : Fin (A ^ L), f (code.symm x) = ∑ a, f a :=
  Equiv.sum_comp code.symm.toEquiv f

/-- The law of large numbers for a function of context and slate. -/
theorem LoggedBy.lln_fn (hs : s.LoggedBy P piB m) (l : Fin L) {w : C → (Fin L → Fin A) → ℝ} (hw : ∀ a, Measurable fun c => w c a)
    (hi : ∀ a, Integrable (fun ω => piB (s.ctx 0 ω) a * w (s.ctx 0 ω) a) P) :
    ∀ᵐ ω ∂P, Tendsto (fun n : ℕ => avg fun i : Fin n => w (s.ctx i ω) (s.slate i ω)) atTop
      (𝓝 (∫ ω, ∑ a, piB (s.ctx 0 ω) a * w (s.ctx 0 ω) a ∂P)) := by
  have h := hs.slot l
  have hm : Measurable fun x : C × Fin (A ^ L) => w x.1 (code.symm x.2) := measurable_from_prod_countable_left fun x => hw (code.symm x)
  have h1 := h.integral_eq (h := fun c x => w c (code.symm x)) (fun x => hw _) fun x => hi _
  have h2 := h.lln (f := fun c x _ => w c (code.symm x)) (hm.comp (measurable_fst.prodMk (measurable_fst.comp measurable_snd)))
    ((h.integrable_iff (h := fun c x => w c (code.symm x)) fun x => hw _).2 fun x => hi _)
  filter_upwards [h2] with ω hω
  rw [h1] at hω
  have e : ∀ c, ∑ x : Fin (A ^ L), piB c (code.symm x) * w c (code.symm x) = ∑ a, piB c a * w c a := fun c =>
    sum_code fun a => piB c a * w c a
  simp only [SlateStream.slot, e, code.symm_apply_apply] at hω
  exact hω

/-- The law of large numbers for weighted rewards of a slot. -/
theorem LoggedBy.lln_reward (hs : s.LoggedBy P piB m) (l : Fin L) {w : C → (Fin L → Fin A) → ℝ}
    (hw : ∀ a, Measurable fun c => w c a)
    (hi : Integrable (fun ω => w (s.ctx 0 ω) (s.slate 0 ω) * s.rew 0 ω l) P) :
    (∀ a, Integrable (fun ω => piB (s.ctx 0 ω) a * (w (s.ctx 0 ω) a * m (s.ctx 0 ω) a l)) P) ∧
    ∀ᵐ ω ∂P, Tendsto (fun n : ℕ => avg fun i : Fin n => w (s.ctx i ω) (s.slate i ω) * s.rew i ω l) atTop
      (𝓝 (∫ ω, ∑ a, piB (s.ctx 0 ω) a * (w (s.ctx 0 ω) a * m (s.ctx 0 ω) a l) ∂P)) := by
  have h := hs.slot l
  have hm : Measurable fun x : C × Fin (A ^ L) => w x.1 (code.symm x.2) := measurable_from_prod_countable_left fun x => hw (code.symm x)
  have hi' : Integrable (fun ω => w ((s.slot l).ctx 0 ω) (code.symm ((s.slot l).act 0 ω)) * (s.slot l).rew 0 ω) P := by
    simpa [SlateStream.slot] using hi
  obtain ⟨h1, h2⟩ := h.integral_reward (h := fun c x => w c (code.symm x)) (fun x => hw _) hi'
  have h3 := (h.integrable_iff (h := fun c x => w c (code.symm x) * m c (code.symm x) l)
    fun x => (hw _).mul (hs.m_meas _ l)).1 h1
  have h4 := h.integral_eq (h := fun c x => w c (code.symm x) * m c (code.symm x) l)
    (fun x => (hw _).mul (hs.m_meas _ l)) h3
  refine ⟨fun a => by simpa [SlateStream.slot] using h3 (code a), ?_⟩
  have h5 := h.lln (f := fun c x r => w c (code.symm x) * r)
    ((hm.comp (measurable_fst.prodMk (measurable_fst.comp measurable_snd))).mul (measurable_snd.comp measurable_snd)) hi'
  filter_upwards [h5] with ω hω
  rw [h2, h4] at hω
  have e : ∀ c, ∑ x : Fin (A ^ L), piB c (code.symm x) * (w c (code.symm x) * m c (code.symm x) l) =
      ∑ a, piB c a * (w c a * m c a l) := fun c => sum_code fun a => piB c a * (w c a * m c a l)
  simp only [SlateStream.slot, e, code.symm_apply_apply] at hω
  exact hω

/-- All shown slates have positive probability. -/
theorem LoggedBy.piB_ne (hs : s.LoggedBy P piB m) (hL : 0 < L) : ∀ᵐ ω ∂P, ∀ i, piB (s.ctx i ω) (s.slate i ω) ≠ 0 := by
  filter_upwards [(hs.slot ⟨0, hL⟩).pscore_pos] with ω hω i
  have := hω i
  simp only [SlateStream.slot, code.symm_apply_apply] at this
  exact this.ne'

/-- The process behind the first `n` rounds. -/
noncomputable def process (s : SlateStream Ω C L A) (piB : C → (Fin L → Fin A) → ℝ) (n : ℕ) (ω : Ω) : SlateProcess ℝ n L A 1 where
  piB i := piB (s.ctx i ω)
  law _ _ _ := 1
  val i _ _ l := s.rew i ω l

theorem log_eq (s : SlateStream Ω C L A) (pb pe : C → (Fin L → Fin A) → Fin L → ℝ) (n : ℕ) (ω : Ω) :
    s.log pb pe n ω = (s.process piB n ω).log (fun i => (s.slate i ω, 0)) (fun i => pb (s.ctx i ω)) fun i => pe (s.ctx i ω) := rfl

theorem log_accepts (hpiB : ∀ c, IsDist (piB c)) (hE : ∀ c, IsDist (piE c)) (hL : 0 < L) {n : ℕ} (hn : 0 < n) {ω : Ω}
    (hω : ∀ i, piB (s.ctx i ω) (s.slate i ω) ≠ 0) (k : SlateKind) :
    k.Accepts (s.log (fun c => k.propensity (piB c)) (fun c => k.propensity (piE c)) n ω) := by
  have hr : (s.log (fun c => k.propensity (piB c)) (fun c => k.propensity (piE c)) n ω).InRange := fun j =>
    ⟨propensity_pos (hpiB _) k (hω _) _, propensity_le_one (hpiB _) k _ _, propensity_nonneg (hE _) k _ _,
      propensity_le_one (hE _) k _ _⟩
  have hu : (s.log (fun c => k.propensity (piB c)) (fun c => k.propensity (piE c)) n ω).UniquePositions :=
    fun _ _ h1 h2 => grid_eq (Fin.ext h1) (Fin.ext h2)
  refine ⟨Nat.mul_pos hn hL, hr, hu, ?_⟩
  have hc : ∀ (pi : C → (Fin L → Fin A) → ℝ) (k : SlateKind), k = .sips ∨ k = .snSips → ∀ j j' : Fin (n * L),
      (j.divNat : ℕ) = j'.divNat → k.propensity (pi (s.ctx j.divNat ω)) (s.slate j.divNat ω) j.modNat =
        k.propensity (pi (s.ctx j'.divNat ω)) (s.slate j'.divNat ω) j'.modNat := by
    intro pi k hk j j' h
    rw [propensity_const hk, propensity_const hk, h]
  have hmn : ∀ (pi : C → (Fin L → Fin A) → ℝ), (∀ c, IsDist (pi c)) → ∀ (k : SlateKind), k = .rips ∨ k = .snRips →
      ∀ j j' : Fin (n * L), (j.divNat : ℕ) = j'.divNat → (j.modNat : ℕ) < j'.modNat →
      k.propensity (pi (s.ctx j'.divNat ω)) (s.slate j'.divNat ω) j'.modNat ≤
        k.propensity (pi (s.ctx j.divNat ω)) (s.slate j.divNat ω) j.modNat := by
    intro pi hpi k hk j j' h h'
    rw [h]
    exact propensity_mono (hpi _) hk _ (Fin.le_def.2 h'.le)
  cases k
  · exact ⟨hc _ _ (.inl rfl), hc _ _ (.inl rfl)⟩
  · trivial
  · exact ⟨hmn _ hpiB _ (.inl rfl), hmn _ hE _ (.inl rfl)⟩
  · exact ⟨hc _ _ (.inr rfl), hc _ _ (.inr rfl)⟩
  · trivial
  · exact ⟨hmn _ hpiB _ (.inr rfl), hmn _ hE _ (.inr rfl)⟩

theorem log_complete {pb pe : C → (Fin L → Fin A) → Fin L → ℝ} {n : ℕ} {ω : Ω} : (s.log pb pe n ω).Complete L := by
  intro j p hp
  refine ⟨finProdFinEquiv (j.divNat, ⟨p, hp⟩), ?_, ?_⟩
  · show ((finProdFinEquiv (j.divNat, (⟨p, hp⟩ : Fin L))).divNat : ℕ) = j.divNat
    have := congrArg (fun x => (x.1 : ℕ)) (finProdFinEquiv.symm_apply_apply (j.divNat, (⟨p, hp⟩ : Fin L)))
    exact this
  · show ((finProdFinEquiv (j.divNat, (⟨p, hp⟩ : Fin L))).modNat : ℕ) = p
    have := congrArg (fun x => (x.2 : ℕ)) (finProdFinEquiv.symm_apply_apply (j.divNat, (⟨p, hp⟩ : Fin L)))
    exact this

end SlateStream
end Obp
