import Verif.Lemmas.StrataBootstrap
import Verif.Lemmas.ResamplingExists
import Verif.Props.BootstrapCoverage
import Verif.Props.NormalMulti

set_option linter.unusedSectionVars false

/-!
# Intervals for estimates from several loggers

C187: with larger and larger logs of independent loggers, the bootstrap intervals of the naive estimates contain the value of the
evaluation policy with a probability of about `1 - alpha`, those of the weighted estimates with at least that probability.
-/

namespace Obp
open MeasureTheory ProbabilityTheory Filter Topology Log LogStream MultiStream

variable {Ω C : Type} [MeasurableSpace Ω] [MeasurableSpace C] {A L M : ℕ} {P : Measure Ω} [IsProbabilityMeasure P] {D : Measure C}
variable {s : Fin M → LogStream Ω C A} {piB : Fin M → C → Fin A → ℝ} {m : C → Fin A → ℝ} {pos : C → Fin L}
variable {piE q : C → Fin A → Fin L → ℝ} {N : ℕ → Fin M → ℕ} {rho : Fin M → ℝ}

/-! ### Rounds -/

section rounds
variable {K : Type} [Field K] [LinearOrder K] [IsStrictOrderedRing K] {n : ℕ}

theorem rounds_naiveIpw {g : MLog K n A L} (h : g.toLog.Valid) (lam : Lam K) (est : Bool) :
    (MultiEstimator.mk .naiveIpw lam est).rounds g.margs = .ok (List.ofFn fun i => g.reward i * lam.clip (g.weight est i)) := by
  have e : ipwPrepare est g.margs.single = ipwPrepare est g.args := rfl
  simp only [MultiEstimator.rounds, e, ipwPrepare_eq h, py_bind_ok, ipwRound_eq h]

theorem rounds_naiveDr {g : MLog K n A L} (h : g.toLog.Valid) (lam : Lam K) (est : Bool) :
    (MultiEstimator.mk .naiveDr lam est).rounds g.margs =
      .ok (List.ofFn fun i => g.modelValue i + lam.clip (g.weight est i) * g.residual i) := by
  have e : drPrepare est g.margs.single = drPrepare est g.args := rfl
  simp only [MultiEstimator.rounds, e, drPrepare_eq h, py_bind_ok, drRound_eq h]

theorem rounds_weightedIpw {g : MLog K n A L} (h : g.toLog.Valid) (lam : Lam K) (est : Bool) (hc : g.Contiguous)
    (hv : ∀ i, g.stratumVar (fun i => g.reward i * lam.clip (g.weight est i)) (g.stratum i) ≠ 0) :
    ∃ omega : ℕ → K, g.VarianceWeights (fun i => g.reward i * lam.clip (g.weight est i)) omega ∧
      (MultiEstimator.mk .weightedIpw lam est).rounds g.margs =
        .ok (List.ofFn fun i => g.reward i * lam.clip (g.weight est i) * omega (g.stratum i)) := by
  have hv' : ∀ k ∈ g.labels, g.stratumVar (g.ipwTerm lam est) k ≠ 0 := by
    intro k hk
    obtain ⟨i, -, rfl⟩ := Finset.mem_image.1 hk
    exact hv i
  refine ⟨g.omega (g.ipwTerm lam est), MLog.omega_weights h.nonempty hv', ?_⟩
  simp only [MultiEstimator.rounds]
  rw [MLog.weightedIpwPrepare_eq h, py_bind_ok]
  dsimp only
  rw [MLog.weightedIpwRound_eq h est lam hc hv']
  rfl

theorem rounds_weightedDr {g : MLog K n A L} (h : g.toLog.Valid) (lam : Lam K) (est : Bool) (hc : g.Contiguous)
    (hv : ∀ i, g.stratumVar (fun i => g.modelValue i + lam.clip (g.weight est i) * g.residual i) (g.stratum i) ≠ 0) :
    ∃ omega : ℕ → K, g.VarianceWeights (fun i => g.modelValue i + lam.clip (g.weight est i) * g.residual i) omega ∧
      (MultiEstimator.mk .weightedDr lam est).rounds g.margs =
        .ok (List.ofFn fun i => g.modelValue i + lam.clip (g.weight est i) * g.residual i * omega (g.stratum i)) := by
  have hv' : ∀ k ∈ g.labels, g.stratumVar (g.drTerm lam est) k ≠ 0 := by
    intro k hk
    obtain ⟨i, -, rfl⟩ := Finset.mem_image.1 hk
    exact hv i
  refine ⟨g.omega (g.drTerm lam est), MLog.omega_weights h.nonempty hv', ?_⟩
  simp only [MultiEstimator.rounds]
  rw [MLog.weightedDrPrepare_eq h, py_bind_ok]
  dsimp only
  rw [MLog.weightedDrRound_eq h est lam hc hv']

end rounds

theorem MultiStream.pooled_omega {N : Fin M → ℕ} (hN : ∀ k, 0 < N k) {ω : Ω} {f : Fin M → ℕ → ℝ} {omega : ℕ → ℝ}
    (ho : (pooled s rho piB pos piE q N ω).VarianceWeights (column N f) omega) (hv : ∀ k, sampleVar (f k) (N k) ≠ 0) (k : Fin M) :
    omega k = precisionWeight N (fun k => sampleVar (f k) (N k)) k := by
  have hn : 0 < ∑ j, N j := Finset.sum_pos (fun k _ => hN k) ⟨k, Finset.mem_univ _⟩
  have hn' : ((∑ j, N j : ℕ) : ℝ) ≠ 0 := by exact_mod_cast hn.ne'
  have hk' : (N k : ℝ) ≠ 0 := by exact_mod_cast (hN k).ne'
  have h := ho.eq hn (k := k) (fun j h0 => hv _ ((pooled_stratumVar ω f _).symm.trans h0))
    (by rw [pooled_labels hN]; exact Finset.mem_range.2 k.isLt)
  rw [MLog.precisionShare, pooled_labels hN, ← Fin.sum_univ_eq_sum_range
    (fun k => (pooled s rho piB pos piE q N ω).size k / (pooled s rho piB pos piE q N ω).stratumVar (column N f) k)] at h
  simp only [pooled_size, pooled_stratumVar] at h
  have e : ∑ j, (N j : ℝ) / (∑ i, N i : ℕ) / sampleVar (f j) (N j) = (∑ j, (N j : ℝ) / sampleVar (f j) (N j)) / (∑ i, N i : ℕ) := by
    rw [Finset.sum_div]
    exact Finset.sum_congr rfl fun j _ => by ring
  unfold precisionWeight
  rw [e, div_div_eq_mul_div]
  generalize (∑ j, (N j : ℝ) / sampleVar (f j) (N j)) = T at h ⊢
  have h2 : omega k = ((∑ i, N i : ℕ) : ℝ) / N k * ((N k : ℝ) / (∑ i, N i : ℕ) * omega k) := by field_simp
  rw [h2, h]
  field_simp

section strata
variable {S : Type} [MeasurableSpace S] {Z : Fin M → ℕ → Ω → S}

theorem covers_multi (hZ : ∀ k, Iid P (Z k)) (hg : Grows N rho) {G H : Fin M → S → ℝ} (hG : ∀ k, Measurable (G k))
    (hH : ∀ k, Measurable (H k)) (hG2 : ∀ k, MemLp (fun ω => G k (Z k 0 ω)) 2 P) (hH2 : ∀ k, MemLp (fun ω => H k (Z k 0 ω)) 2 P)
    {W : ℕ → (Fin M → ℕ → S) → Fin M → ℝ} (hWm : ∀ t k, Measurable fun z => W t z k) {w : Fin M → ℝ}
    (hW : ∀ᵐ ω ∂P, ∀ k, Tendsto (fun t => W t (fun k i => Z k i ω) k) atTop (𝓝 (w k)))
    {E : ℕ → Set Ω} (hE : Tendsto (fun t => P.real (E t)) atTop (𝓝 0)) {e : MultiEstimator ℝ}
    (hk : e.kind ≠ .balancedIpw ∧ e.kind ≠ .balancedDr) {g : ℕ → Ω → MultiArgs ℝ} {v a : ℝ}
    (hr : NormalErrorsOver P (fun t => ∑ k, N t k) (fun t ω => e.estimatePolicyValue (g t ω)) v a)
    (hvar : ∑ k, rho k * Var[fun ω => G k (Z k 0 ω) + w k * H k (Z k 0 ω); P] = a)
    (hround : ∀ᵐ ω ∂P, ∀ t, (∀ k, 0 < N t k) → ω ∉ E t → e.rounds (g t ω) = .ok (List.ofFn
      (column (N t) fun k i => G k (Z k i ω) + W t (fun k i => Z k i ω) k * H k (Z k i ω))))
    {B : ℕ} (hB : 1 ≤ B) (R : IndependentDraws P (fun ω k i => Z k i ω) B) {alpha : ℝ} (h0 : 0 ≤ alpha) (h1 : alpha ≤ 1) :
    CoversAtLeast (fun t => P.real {ω | ReturnsAround
        (e.estimateInterval (g t ω) (ciCall alpha B) (R.draws (∑ k, N t k) ω)) v}) alpha B ∧
      ((∀ k k', ∫ ω, G k (Z k 0 ω) + w k * H k (Z k 0 ω) ∂P = ∫ ω, G k' (Z k' 0 ω) + w k' * H k' (Z k' 0 ω) ∂P) →
        NearlyCovers (fun t => P.real {ω | ReturnsAround
          (e.estimateInterval (g t ω) (ciCall alpha B) (R.draws (∑ k, N t k) ω)) v}) alpha B) := by
  obtain ⟨k0⟩ := hg.loggers
  refine covers_strata hZ hg hG hH hG2 hH2 hWm hW hE hr hvar ?_ (iv := fun t ω c draws => e.estimateInterval (g t ω) c draws) ?_ hB R h0 h1
  · filter_upwards [hround] with ω hω t hN hb
    have hn : 0 < ∑ k, N t k := Finset.sum_pos (fun k _ => hN k) ⟨k0, Finset.mem_univ _⟩
    rw [MultiEstimator.estimatePolicyValue, hω t hN hb, py_bind_ok, npMean_ofFn hn]
    rfl
  · filter_upwards [hround] with ω hω t hN hb c draws
    have hi : e.intervalRounds (g t ω) = e.rounds (g t ω) := by
      unfold MultiEstimator.intervalRounds
      split
      · exact absurd ‹_› hk.1
      · exact absurd ‹_› hk.2
      · rfl
    rw [MultiEstimator.estimateInterval, hi, hω t hN hb, py_bind_ok]

/-- Estimates that are averages over the pooled log. -/
theorem covers_pooled (hZ : ∀ k, Iid P (Z k)) (hg : Grows N rho) {F : Fin M → S → ℝ} (hF : ∀ k, Measurable (F k))
    (h2 : ∀ k, MemLp (fun ω => F k (Z k 0 ω)) 2 P) {e : MultiEstimator ℝ}
    (hk : e.kind ≠ .balancedIpw ∧ e.kind ≠ .balancedDr) {g : ℕ → Ω → MultiArgs ℝ} {v : ℝ}
    (hr : NormalErrorsOver P (fun t => ∑ k, N t k) (fun t ω => e.estimatePolicyValue (g t ω)) v
      (∑ k, rho k * Var[fun ω => F k (Z k 0 ω); P]))
    (hround : ∀ᵐ ω ∂P, ∀ t, (∀ k, 0 < N t k) → e.rounds (g t ω) = .ok (List.ofFn (column (N t) fun k i => F k (Z k i ω))))
    (hm : ∀ k, ∫ ω, F k (Z k 0 ω) ∂P = v)
    {B : ℕ} (hB : 1 ≤ B) (R : IndependentDraws P (fun ω k i => Z k i ω) B) {alpha : ℝ} (h0 : 0 ≤ alpha) (h1 : alpha ≤ 1) :
    NearlyCovers (fun t => P.real {ω | ReturnsAround
      (e.estimateInterval (g t ω) (ciCall alpha B) (R.draws (∑ k, N t k) ω)) v}) alpha B := by
  refine (covers_multi hZ hg hF (H := fun _ _ => 0) (fun _ => measurable_const) h2 (fun _ => memLp_const 0) (W := fun _ _ _ => 0)
    (fun _ _ => measurable_const) (w := fun _ => 0) (ae_of_all _ fun _ _ => tendsto_const_nhds) (E := fun _ => ∅) (by simp) hk hr ?_
    ?_ hB R h0 h1).2 fun k k' => ?_
  · simp
  · filter_upwards [hround] with ω hω t hN _
    simpa using hω t hN
  · simp only [mul_zero, add_zero, hm]

/-- Estimates that add corrections weighted by precision. -/
theorem covers_precision (hZ : ∀ k, Iid P (Z k)) (hg : Grows N rho)
    {F G H : Fin M → S → ℝ} (hF : ∀ k, Measurable (F k)) (hG : ∀ k, Measurable (G k)) (hH : ∀ k, Measurable (H k))
    (h2 : ∀ k, MemLp (fun ω => F k (Z k 0 ω)) 2 P) (hG2 : ∀ k, MemLp (fun ω => G k (Z k 0 ω)) 2 P)
    (hH2 : ∀ k, MemLp (fun ω => H k (Z k 0 ω)) 2 P)
    (hv : ∀ k, Var[fun ω => F k (Z k 0 ω); P] ≠ 0) {e : MultiEstimator ℝ}
    (hk : e.kind ≠ .balancedIpw ∧ e.kind ≠ .balancedDr) {g : ℕ → Ω → MultiArgs ℝ} {v a : ℝ}
    (hr : NormalErrorsOver P (fun t => ∑ k, N t k) (fun t ω => e.estimatePolicyValue (g t ω)) v a)
    (hvar : ∑ k, rho k * Var[fun ω => G k (Z k 0 ω) + 1 / Var[fun ω => F k (Z k 0 ω); P] /
      precision rho (fun j => Var[fun ω => F j (Z j 0 ω); P]) * H k (Z k 0 ω); P] = a)
    (hround : ∀ᵐ ω ∂P, ∀ t, (∀ k, 0 < N t k) → (∀ k, sampleVar (fun i => F k (Z k i ω)) (N t k) ≠ 0) →
      e.rounds (g t ω) = .ok (List.ofFn (column (N t) fun k i => G k (Z k i ω) +
        precisionWeight (N t) (fun k => sampleVar (fun i => F k (Z k i ω)) (N t k)) k * H k (Z k i ω))))
    {B : ℕ} (hB : 1 ≤ B) (R : IndependentDraws P (fun ω k i => Z k i ω) B) {alpha : ℝ} (h0 : 0 ≤ alpha) (h1 : alpha ≤ 1) :
    CoversAtLeast (fun t => P.real {ω | ReturnsAround
      (e.estimateInterval (g t ω) (ciCall alpha B) (R.draws (∑ k, N t k) ω)) v}) alpha B := by
  obtain ⟨k0⟩ := hg.loggers
  have hvpos : ∀ k, 0 < Var[fun ω => F k (Z k 0 ω); P] := fun k => lt_of_le_of_ne (variance_nonneg _ _) (hv k).symm
  have hprec : 0 < precision rho (fun j => Var[fun ω => F j (Z j 0 ω); P]) :=
    Finset.sum_pos (fun k _ => div_pos (hg.pos k) (hvpos k)) ⟨k0, Finset.mem_univ _⟩
  have hVm : ∀ (k : Fin M) t, Measurable fun ω => sampleVar (fun i => F k (Z k i ω)) (N t k) := fun k t =>
    sampleVar_meas (fun i => ((hZ k).fn (hF k)).1 i) _
  have hV : ∀ k, ∀ᵐ ω ∂P, Tendsto (fun t => sampleVar (fun i => F k (Z k i ω)) (N t k)) atTop (𝓝 (Var[fun ω => F k (Z k 0 ω); P])) :=
    fun k => by
      filter_upwards [(hZ k).sampleVar_tendsto (hF k) (h2 k)] with ω hω
      exact hω.comp (hg.size k)
  have hN1 : ∀ k, Tendsto (fun t => P.real {ω | sampleVar (fun i => F k (Z k i ω)) (N t k) = 0}) atTop (𝓝 0) := fun k => by
    have h1 := tendstoInMeasure_of_tendsto_ae (fun t => (hVm k t).aestronglyMeasurable) (hV k)
    rw [tendstoInMeasure_iff_measureReal_norm] at h1
    refine squeeze_zero (fun t => measureReal_nonneg) (fun t => measureReal_mono fun ω hω => ?_)
      (h1 |Var[fun ω => F k (Z k 0 ω); P]| (abs_pos.2 (hv k)))
    simp only [Set.mem_ofPred_eq] at hω ⊢
    rw [hω, zero_sub, norm_neg, Real.norm_eq_abs]
  have hE : Tendsto (fun t => P.real {ω | ∃ k, sampleVar (fun i => F k (Z k i ω)) (N t k) = 0}) atTop (𝓝 0) := by
    have h1 := tendsto_finsetSum (Finset.univ : Finset (Fin M)) fun k _ => hN1 k
    simp only [Finset.sum_const_zero] at h1
    refine squeeze_zero (fun t => measureReal_nonneg) (fun t => ?_) h1
    have h2 : {ω | ∃ k, sampleVar (fun i => F k (Z k i ω)) (N t k) = 0} =
        ⋃ k ∈ (Finset.univ : Finset (Fin M)), {ω | sampleVar (fun i => F k (Z k i ω)) (N t k) = 0} := by
      ext ω
      simp
    rw [h2]
    exact measureReal_biUnion_finset_le _ _
  have hz : ∀ (k : Fin M) t, Measurable fun z : Fin M → ℕ → S => sampleVar (fun i => F k (z k i)) (N t k) := fun k t =>
    sampleVar_meas (X := fun i (z : Fin M → ℕ → S) => F k (z k i))
      (fun i => (hF k).comp ((measurable_pi_apply i).comp (measurable_pi_apply k))) _
  refine (covers_multi hZ hg hG hH hG2 hH2
    (W := fun t z k => precisionWeight (N t) (fun k => sampleVar (fun i => F k (z k i)) (N t k)) k) (fun t k => ?_)
    (w := fun k => 1 / Var[fun ω => F k (Z k 0 ω); P] / precision rho (fun j => Var[fun ω => F j (Z j 0 ω); P])) ?_
    hE hk hr hvar ?_ hB R h0 h1).1
  · unfold precisionWeight
    exact (measurable_const.div (hz k t)).div (Finset.measurable_fun_sum _ fun j _ => measurable_const.div (hz j t))
  · filter_upwards [ae_all_iff.2 hV] with ω hω k
    exact ((tendsto_const_nhds (x := (1 : ℝ))).div (hω k) (hv k)).div
      (tendsto_finsetSum _ fun j _ => (hg.share j).div (hω j) (hv j)) hprec.ne'
  · filter_upwards [hround] with ω hω t hN hb
    exact hω t hN fun k h0 => hb ⟨k, h0⟩

end strata

/-- The variance of averages by precision. -/
theorem weighted_variance (hg : Grows N rho) {X : Fin M → Ω → ℝ} (hv : ∀ k, 0 < Var[X k; P]) :
    ∑ k, rho k * Var[fun ω => 1 / Var[X k; P] / (precision rho fun j => Var[X j; P]) * X k ω; P] =
      (precision rho fun k => Var[X k; P])⁻¹ := by
  obtain ⟨k0⟩ := hg.loggers
  have hprec : 0 < precision rho fun k => Var[X k; P] :=
    Finset.sum_pos (fun k _ => div_pos (hg.pos k) (hv k)) ⟨k0, Finset.mem_univ _⟩
  simp only [variance_const_mul]
  have e : ∀ k, rho k * ((1 / Var[X k; P] / (precision rho fun k => Var[X k; P])) ^ 2 * Var[X k; P]) =
      rho k / Var[X k; P] / (precision rho fun k => Var[X k; P]) ^ 2 := fun k => by
    have := (hv k).ne'
    generalize (precision rho fun k => Var[X k; P]) = T
    field_simp
  simp only [e, ← Finset.sum_div]
  change (precision rho fun k => Var[X k; P]) / _ = _
  field_simp

/-! ### C187 -/

/-- **C187.** Naive inverse propensity weighting. -/
theorem C187_naive_ipw (hs : LoggedBy s P D piB m) (hind : Independent s P) (hg : Grows N rho) (hE : ∀ k, Covers (piB k) pos piE)
    (h2 : ∀ k, MemLp ((s k).ipwTerm (piB k) pos piE 0) 2 P) (hv : ∃ k, Var[(s k).ipwTerm (piB k) pos piE 0; P] ≠ 0) {lam : Lam ℝ}
    (hl : ∀ k, NotClipped lam (piB k) pos piE) {B : ℕ} (hB : 1 ≤ B) (R : IndependentDraws P (MultiStream.rounds s) B) {alpha : ℝ}
    (h0 : 0 ≤ alpha) (h1 : alpha ≤ 1) :
    NearlyCovers (fun t => P.real {ω | ReturnsAround ((MultiEstimator.mk .naiveIpw lam false).estimateInterval
      (pooled s rho piB pos piE q (N t) ω).margs (ciCall alpha B) (R.draws (∑ k, N t k) ω)) (value D pos piE m)}) alpha B := by
  obtain ⟨k0⟩ := hg.loggers
  refine covers_pooled (Z := fun k i ω => ((s k).ctx i ω, (s k).act i ω, (s k).rew i ω)) (fun k => (hs.logger k).iid) hg
    (F := fun k x => x.2.2 * (piE x.1 x.2.1 (pos x.1) / piB k x.1 x.2.1))
    (fun k => (measurable_snd.comp measurable_snd).mul ((hs.logger k).weightFn_meas (hE k))) h2 (by simp)
    (C186_naive_ipw (q := q) hs hind hg hE h2 hv hl) ?_ (fun k => ?_) hB R h0 h1
  · filter_upwards [hs.pooled_valid (pos := pos) (q := q) hg.pos (hE k0).dist] with ω hva t hN
    have hn : 0 < ∑ k, N t k := Finset.sum_pos (fun k _ => hN k) ⟨k0, Finset.mem_univ _⟩
    rw [rounds_naiveIpw (hva _ hn).base]
    congr 2
    funext j
    rw [pooled_clip hl]
    rfl
  · rw [← hs.value_eq k (hE k).meas (hs.logger k).m_meas]
    exact (hs.logger k).ipwTerm_mean (hE k) ((h2 k).integrable one_le_two)

/-- **C187.** Naive doubly robust estimates, for every reward model. -/
theorem C187_naive_dr (hs : LoggedBy s P D piB m) (hind : Independent s P) (hg : Grows N rho) (hE : ∀ k, Covers (piB k) pos piE)
    (hi : ∀ k, Integrable ((s k).ipwTerm (piB k) pos piE 0) P) (hq : ∀ a, Measurable fun c => q c a (pos c))
    (hqi : ∀ a, Integrable (fun c => piE c a (pos c) * q c a (pos c)) D) (h2 : ∀ k, MemLp ((s k).drTerm (piB k) pos piE q 0) 2 P)
    (hv : ∃ k, Var[(s k).drTerm (piB k) pos piE q 0; P] ≠ 0) {lam : Lam ℝ} (hl : ∀ k, NotClipped lam (piB k) pos piE) {B : ℕ}
    (hB : 1 ≤ B) (R : IndependentDraws P (MultiStream.rounds s) B) {alpha : ℝ} (h0 : 0 ≤ alpha) (h1 : alpha ≤ 1) :
    NearlyCovers (fun t => P.real {ω | ReturnsAround ((MultiEstimator.mk .naiveDr lam false).estimateInterval
      (pooled s rho piB pos piE q (N t) ω).margs (ciCall alpha B) (R.draws (∑ k, N t k) ω)) (value D pos piE m)}) alpha B := by
  obtain ⟨k0⟩ := hg.loggers
  refine covers_pooled (Z := fun k i ω => ((s k).ctx i ω, (s k).act i ω, (s k).rew i ω)) (fun k => (hs.logger k).iid) hg
    (F := fun k x => (∑ a, piE x.1 a (pos x.1) * q x.1 a (pos x.1)) +
      piE x.1 x.2.1 (pos x.1) / piB k x.1 x.2.1 * (x.2.2 - q x.1 x.2.1 (pos x.1)))
    (fun k => (model_meas (hE k).meas hq).add (((hs.logger k).weightFn_meas (hE k)).mul (residual_meas hq))) h2 (by simp)
    (C186_naive_dr hs hind hg hE hi hq hqi h2 hv hl) ?_ (fun k => ?_) hB R h0 h1
  · filter_upwards [hs.pooled_valid (pos := pos) (q := q) hg.pos (hE k0).dist] with ω hva t hN
    have hn : 0 < ∑ k, N t k := Finset.sum_pos (fun k _ => hN k) ⟨k0, Finset.mem_univ _⟩
    rw [rounds_naiveDr (hva _ hn).base]
    congr 2
    funext j
    rw [pooled_clip hl, pooled_modelValue (hE k0).dist]
    rfl
  · rw [← hs.value_eq k (hE k).meas (hs.logger k).m_meas]
    exact (hs.logger k).drTerm_mean (hE k) (hi k) hq (hs.model_int hqi k)

/-- **C187.** Weighted inverse propensity weighting. (The bootstrap takes the weighted rounds of all loggers for draws from one
distribution. So the interval may be wider than necessary.) -/
theorem C187_weighted_ipw (hs : LoggedBy s P D piB m) (hind : Independent s P) (hg : Grows N rho)
    (hE : ∀ k, Covers (piB k) pos piE) (h2 : ∀ k, MemLp ((s k).ipwTerm (piB k) pos piE 0) 2 P)
    (hv : ∀ k, Var[(s k).ipwTerm (piB k) pos piE 0; P] ≠ 0) {lam : Lam ℝ} (hl : ∀ k, NotClipped lam (piB k) pos piE) {B : ℕ}
    (hB : 1 ≤ B) (R : IndependentDraws P (MultiStream.rounds s) B) {alpha : ℝ} (h0 : 0 ≤ alpha) (h1 : alpha ≤ 1) :
    CoversAtLeast (fun t => P.real {ω | ReturnsAround ((MultiEstimator.mk .weightedIpw lam false).estimateInterval
      (pooled s rho piB pos piE q (N t) ω).margs (ciCall alpha B) (R.draws (∑ k, N t k) ω)) (value D pos piE m)}) alpha B := by
  obtain ⟨k0⟩ := hg.loggers
  have hFm : ∀ k, Measurable fun x : C × Fin A × ℝ => x.2.2 * (piE x.1 x.2.1 (pos x.1) / piB k x.1 x.2.1) := fun k =>
    (measurable_snd.comp measurable_snd).mul ((hs.logger k).weightFn_meas (hE k))
  refine covers_precision (Z := fun k i ω => ((s k).ctx i ω, (s k).act i ω, (s k).rew i ω)) (fun k => (hs.logger k).iid) hg
    (F := fun k x => x.2.2 * (piE x.1 x.2.1 (pos x.1) / piB k x.1 x.2.1)) (G := fun _ _ => 0)
    (H := fun k x => x.2.2 * (piE x.1 x.2.1 (pos x.1) / piB k x.1 x.2.1)) hFm (fun _ => measurable_const) hFm h2
    (fun _ => memLp_const 0) h2 hv (by simp) (C186_weighted_ipw (q := q) hs hind hg hE h2 hv hl) ?_ ?_ hB R h0 h1
  · simp only [zero_add]
    exact weighted_variance hg fun k => lt_of_le_of_ne (variance_nonneg _ _) (hv k).symm
  · filter_upwards [hs.pooled_valid (pos := pos) (q := q) hg.pos (hE k0).dist] with ω hva t hk hne
    have hn : 0 < ∑ k, N t k := Finset.sum_pos (fun k _ => hk k) ⟨k0, Finset.mem_univ _⟩
    have hterm : (fun j => (pooled s rho piB pos piE q (N t) ω).reward j *
        lam.clip ((pooled s rho piB pos piE q (N t) ω).weight false j)) = column (N t) fun k i => (s k).ipwTerm (piB k) pos piE i ω := by
      funext j
      rw [pooled_clip hl]
      rfl
    obtain ⟨omega, ho, h⟩ := rounds_weightedIpw (hva _ hn).base lam false (pooled_contiguous hk ω) (by
      rw [hterm]
      intro j
      exact fun h0 => hne _ ((pooled_stratumVar ω (fun k i => (s k).ipwTerm (piB k) pos piE i ω) _).symm.trans h0))
    rw [hterm] at ho
    rw [h]
    congr 2
    funext j
    rw [congrFun hterm j]
    have e2 := pooled_omega hk ho hne (finSigmaFinEquiv.symm j).1
    refine (congrArg (column (N t) (fun k i => (s k).ipwTerm (piB k) pos piE i ω) j * ·) e2).trans ?_
    rw [mul_comm]
    exact (zero_add _).symm

/-- **C187.** Weighted doubly robust estimates, for every reward model. -/
theorem C187_weighted_dr (hs : LoggedBy s P D piB m) (hind : Independent s P) (hg : Grows N rho)
    (hE : ∀ k, Covers (piB k) pos piE) (hi : ∀ k, Integrable ((s k).ipwTerm (piB k) pos piE 0) P)
    (hq : ∀ a, Measurable fun c => q c a (pos c)) (hqi : ∀ a, Integrable (fun c => piE c a (pos c) * q c a (pos c)) D)
    (hm2 : ∀ k, MemLp ((s k).partDrTerm (piB k) pos piE q 0 0) 2 P) (h2 : ∀ k, MemLp ((s k).drTerm (piB k) pos piE q 0) 2 P)
    (hv : ∀ k, Var[(s k).drTerm (piB k) pos piE q 0; P] ≠ 0)
    (hpos : 0 < ∑ k, rho k * Var[(s k).partDrTerm (piB k) pos piE q (1 / Var[(s k).drTerm (piB k) pos piE q 0; P] /
      precision rho fun j => Var[(s j).drTerm (piB j) pos piE q 0; P]) 0; P])
    {lam : Lam ℝ} (hl : ∀ k, NotClipped lam (piB k) pos piE) {B : ℕ}
    (hB : 1 ≤ B) (R : IndependentDraws P (MultiStream.rounds s) B) {alpha : ℝ} (h0 : 0 ≤ alpha) (h1 : alpha ≤ 1) :
    CoversAtLeast (fun t => P.real {ω | ReturnsAround ((MultiEstimator.mk .weightedDr lam false).estimateInterval
      (pooled s rho piB pos piE q (N t) ω).margs (ciCall alpha B) (R.draws (∑ k, N t k) ω)) (value D pos piE m)}) alpha B := by
  obtain ⟨k0⟩ := hg.loggers
  have hGm := fun k => model_meas (hE k).meas hq
  have hHm := fun k => ((hs.logger k).weightFn_meas (hE k)).mul (residual_meas (pos := pos) hq)
  have hG2 : ∀ k, MemLp (fun ω => ∑ a, piE ((s k).ctx 0 ω) a (pos ((s k).ctx 0 ω)) * q ((s k).ctx 0 ω) a (pos ((s k).ctx 0 ω))) 2 P :=
    fun k => (hm2 k).ae_eq (ae_of_all _ fun ω => by simp [partDrTerm])
  have hH2 : ∀ k, MemLp (fun ω => piE ((s k).ctx 0 ω) ((s k).act 0 ω) (pos ((s k).ctx 0 ω)) /
      piB k ((s k).ctx 0 ω) ((s k).act 0 ω) * ((s k).rew 0 ω - q ((s k).ctx 0 ω) ((s k).act 0 ω) (pos ((s k).ctx 0 ω)))) 2 P :=
    fun k => ((h2 k).sub (hG2 k)).ae_eq (ae_of_all _ fun ω => by simp [LogStream.drTerm])
  refine covers_precision (Z := fun k i ω => ((s k).ctx i ω, (s k).act i ω, (s k).rew i ω)) (fun k => (hs.logger k).iid) hg
    (F := fun k x => (∑ a, piE x.1 a (pos x.1) * q x.1 a (pos x.1)) +
      piE x.1 x.2.1 (pos x.1) / piB k x.1 x.2.1 * (x.2.2 - q x.1 x.2.1 (pos x.1)))
    (G := fun k x => ∑ a, piE x.1 a (pos x.1) * q x.1 a (pos x.1))
    (H := fun k x => piE x.1 x.2.1 (pos x.1) / piB k x.1 x.2.1 * (x.2.2 - q x.1 x.2.1 (pos x.1)))
    (fun k => (hGm k).add (hHm k)) hGm hHm h2 hG2 hH2 hv (by simp)
    (C186_weighted_dr_partial hs hind hg hE hi hq hqi hm2 h2 hv rfl hpos hl) rfl ?_ hB R h0 h1
  filter_upwards [hs.pooled_valid (pos := pos) (q := q) hg.pos (hE k0).dist] with ω hva t hk hne
  have hn : 0 < ∑ k, N t k := Finset.sum_pos (fun k _ => hk k) ⟨k0, Finset.mem_univ _⟩
  have hterm : (fun j => (pooled s rho piB pos piE q (N t) ω).modelValue j +
      lam.clip ((pooled s rho piB pos piE q (N t) ω).weight false j) * (pooled s rho piB pos piE q (N t) ω).residual j) =
      column (N t) fun k i => (s k).drTerm (piB k) pos piE q i ω := by
    funext j
    rw [pooled_clip hl, pooled_modelValue (hE k0).dist]
    rfl
  obtain ⟨omega, ho, h⟩ := rounds_weightedDr (hva _ hn).base lam false (pooled_contiguous hk ω) (by
    rw [hterm]
    intro j
    exact fun h0 => hne _ ((pooled_stratumVar ω (fun k i => (s k).drTerm (piB k) pos piE q i ω) _).symm.trans h0))
  rw [hterm] at ho
  rw [h]
  congr 2
  funext j
  have e2 := pooled_omega hk ho hne (finSigmaFinEquiv.symm j).1
  have e3 : omega ((pooled s rho piB pos piE q (N t) ω).stratum j) = precisionWeight (N t) (fun k => sampleVar
    (fun i => (s k).drTerm (piB k) pos piE q i ω) (N t k)) (finSigmaFinEquiv.symm j).1 := e2
  rw [e3, pooled_clip hl, pooled_modelValue (hE k0).dist, mul_comm]
  rfl

/-- **C187.** With many bootstrap samples the probability is at least about `1 - alpha`. -/
theorem C187_many_resamples {cov : ℕ → ℝ} {alpha : ℝ} {B : ℕ} (h : CoversAtLeast cov alpha B) (hB : 1 ≤ B) (h0 : 0 ≤ alpha) :
    ∀ᶠ t in atTop, 1 - alpha - 5 / (B + 1) < cov t := by
  have hB' : (1 : ℝ) ≤ B := by exact_mod_cast hB
  have hp0 : 0 ≤ alpha / 2 * ((B : ℝ) - 1) := mul_nonneg (by linarith) (by linarith)
  have hB1 : (0 : ℝ) < B + 1 := by linarith
  filter_upwards [h (1 / (B + 1)) (by positivity)] with t ht
  rw [← sub_div, div_lt_iff₀ hB1] at ht
  have h3 := Nat.ceil_lt_add_one hp0
  rw [sub_lt_iff_lt_add, ← sub_lt_iff_lt_add', lt_div_iff₀ hB1]
  nlinarith

/-! ### The two loggers of C186, and a random generator -/

/-- Resampling draws beside given data. -/
noncomputable def IndependentDraws.beside {T : Type} [MeasurableSpace T] (Z : Ω → T) (B : ℕ) :
    IndependentDraws (P.prod (tablesLaw B)) (fun ω => Z ω.1) B where
  idx n j i ω := ω.2 n j i
  idx_meas n j i := by
    have h1 : Measurable fun ω : Ω × Tables B => ω.2 n := (measurable_pi_apply n).comp measurable_snd
    exact (measurable_of_finite fun f : Fin B → Fin n → Fin n => f j i).comp h1
  equally_likely n f S hS := by
    have h1 : {ω : Ω × Tables B | Z ω.1 ∈ S ∧ ∀ j i, ω.2 n j i = f j i} = {ω | Z ω ∈ S} ×ˢ {u : Tables B | u n = f} := by
      ext ω
      simp [funext_iff]
    have h2 : {ω : Ω × Tables B | Z ω.1 ∈ S} = {ω | Z ω ∈ S} ×ˢ Set.univ := by
      ext ω
      simp
    rw [h1, h2, measureReal_prod_prod, measureReal_prod_prod, tablesLaw_eq]
    simp [div_eq_mul_inv]

theorem MultiStream.LoggedBy.besideDraws (hs : LoggedBy s P D piB m) (B : ℕ) :
    LoggedBy (fun k => (s k).besideDraws B) (P.prod (tablesLaw B)) D piB m where
  logger k := (hs.logger k).besideDraws B
  ctx_law k := by
    have h := (measurePreserving_fst (μ := P) (ν := tablesLaw B)).map_eq
    rw [← hs.ctx_law k]
    conv_rhs => rw [← h]
    exact (Measure.map_map ((hs.logger k).ctx_meas 0) measurable_fst).symm

theorem MultiStream.Independent.besideDraws (h : Independent s P) (hs : LoggedBy s P D piB m) (B : ℕ) :
    Independent (fun k => (s k).besideDraws B) (P.prod (tablesLaw B)) := by
  have hmp := measurePreserving_fst (μ := P) (ν := tablesLaw B)
  have hround : ∀ k, Measurable fun ω (i : ℕ) => ((s k).ctx i ω, (s k).act i ω, (s k).rew i ω) := fun k =>
    measurable_pi_lambda _ fun i => (hs.logger k).iid.meas i
  unfold Independent at h ⊢
  rw [iIndepFun_iff_measure_inter_preimage_eq_mul] at h ⊢
  intro T sets hsets
  have h1 := h T hsets
  have e : ∀ (U : Set Ω), MeasurableSet U → (P.prod (tablesLaw B)) (Prod.fst ⁻¹' U) = P U := fun U hU =>
    hmp.measure_preimage hU.nullMeasurableSet
  have e1 : (⋂ k ∈ T, (fun (ω : Ω × Tables B) (i : ℕ) => (((s k).besideDraws B).ctx i ω, ((s k).besideDraws B).act i ω,
      ((s k).besideDraws B).rew i ω)) ⁻¹' sets k) =
      Prod.fst ⁻¹' (⋂ k ∈ T, (fun ω (i : ℕ) => ((s k).ctx i ω, (s k).act i ω, (s k).rew i ω)) ⁻¹' sets k) := by
    ext ω
    simp [LogStream.besideDraws]
  rw [e1, e _ (Finset.measurableSet_biInter _ fun k hk => hround k (hsets k hk)), h1]
  refine Finset.prod_congr rfl fun k hk => ?_
  rw [← e _ (hround k (hsets k hk))]
  rfl

theorem variance_besideDraws {X : Ω → ℝ} (hX : AEMeasurable X P) (B : ℕ) : Var[fun ω => X ω.1; P.prod (tablesLaw B)] = Var[X; P] := by
  have h := (measurePreserving_fst (μ := P) (ν := tablesLaw B)).map_eq
  conv_rhs => rw [← h]
  rw [variance_map (by rwa [h]) measurable_fst.aemeasurable]
  rfl

/-- Law of the example logs and the draws of the random generator. -/
noncomputable abbrev exLoggersLaw (B : ℕ) : Measure ((ℕ → ExDie) × Tables B) := exDieMeasure.prod (tablesLaw B)

/-- The draws do not depend on the rounds of the loggers. -/
noncomputable def exLoggersDraws (B : ℕ) :
    IndependentDraws (exLoggersLaw B) (MultiStream.rounds fun k : Fin 2 => (exLogger (exDice k) k).besideDraws B) B :=
  IndependentDraws.beside (P := exDieMeasure) (MultiStream.rounds fun k : Fin 2 => exLogger (exDice k) k) B

/-- Probability that the interval of a kind of estimator contains 9/4, with `t` rounds of the first logger and `2 t` of the second. -/
noncomputable def exLoggersCoverage (kind : MultiKind) (alpha : ℝ) (B t : ℕ) : ℝ :=
  (exLoggersLaw B).real {ω | ReturnsAround ((MultiEstimator.mk kind .inf false).estimateInterval
    (pooled (fun k => (exLogger (exDice k) k).besideDraws B) ![1 / 3, 2 / 3] (fun k => exDiePolicy (exDice k)) (fun _ => (0 : Fin 1))
      exHalf exFar (fun k : Fin 2 => (k + 1 : ℕ) * t) ω).margs (ciCall alpha B)
    ((exLoggersDraws B).draws (∑ k : Fin 2, (k + 1 : ℕ) * t) ω)) (9 / 4)}

theorem exLoggers_memLp {B : ℕ} {X : (ℕ → ExDie) → ℝ} (h : MemLp X 2 exDieMeasure) : MemLp (fun ω => X ω.1) 2 (exLoggersLaw B) :=
  h.comp_measurePreserving measurePreserving_fst

theorem exLoggersCoverage_ipw {B : ℕ} (hB : 1 ≤ B) {alpha : ℝ} (h0 : 0 ≤ alpha) (h1 : alpha ≤ 1) :
    NearlyCovers (exLoggersCoverage .naiveIpw alpha B) alpha B ∧ CoversAtLeast (exLoggersCoverage .weightedIpw alpha B) alpha B := by
  have hl := exLoggers_logged exDice
  have h2 : ∀ (k : Fin 2), MemLp ((exLogger (exDice k) k).ipwTerm (exDiePolicy (exDice k)) (fun _ => (0 : Fin 1)) exHalf 0) 2
      exDieMeasure := fun k => exDie_memLp (2 * 0 + k) (exIpw _ k)
  have hn : ∀ k, NotClipped .inf (exDiePolicy (exDice k)) (fun _ => (0 : Fin 1)) exHalf := fun k l h => by cases h
  have hv : ∀ k : Fin 2, Var[((exLogger (exDice k) k).besideDraws B).ipwTerm (exDiePolicy (exDice k)) (fun _ => (0 : Fin 1)) exHalf 0;
      exLoggersLaw B] ≠ 0 := fun k => by
    refine ne_of_eq_of_ne ((variance_besideDraws (h2 k).aestronglyMeasurable.aemeasurable B).trans (exIpw_own k)) ?_
    fin_cases k <;> norm_num
  unfold exLoggersCoverage
  rw [← exHalf_value]
  exact ⟨C187_naive_ipw (hl.besideDraws B) ((exLoggers_independent exDice).besideDraws hl B) exLoggers_grow exHalf_covers
      (fun k => exLoggers_memLp (h2 k)) ⟨0, hv 0⟩ hn hB (exLoggersDraws B) h0 h1,
    C187_weighted_ipw (hl.besideDraws B) ((exLoggers_independent exDice).besideDraws hl B) exLoggers_grow exHalf_covers
      (fun k => exLoggers_memLp (h2 k)) hv hn hB (exLoggersDraws B) h0 h1⟩

theorem exLoggersCoverage_dr {B : ℕ} (hB : 1 ≤ B) {alpha : ℝ} (h0 : 0 ≤ alpha) (h1 : alpha ≤ 1) :
    NearlyCovers (exLoggersCoverage .naiveDr alpha B) alpha B ∧ CoversAtLeast (exLoggersCoverage .weightedDr alpha B) alpha B := by
  have hl := exLoggers_logged exDice
  have hfin : IsProbabilityMeasure exCtxLaw := by
    unfold exCtxLaw
    exact Measure.isProbabilityMeasure_map (measurable_of_finite _).aemeasurable
  have hi : ∀ k : Fin 2, MemLp ((exLogger (exDice k) k).ipwTerm (exDiePolicy (exDice k)) (fun _ => (0 : Fin 1)) exHalf 0) 2
      exDieMeasure := fun k => exDie_memLp (2 * 0 + k) (exIpw _ k)
  have hq : ∀ a : Fin 2, Measurable fun c : Bool => exFar c a 0 := fun _ => measurable_of_finite _
  have hqi : ∀ a, Integrable (fun c : Bool => exHalf c a 0 * exFar c a 0) exCtxLaw := fun a => Integrable.of_finite
  have hn : ∀ k, NotClipped .inf (exDiePolicy (exDice k)) (fun _ => (0 : Fin 1)) exHalf := fun k l h => by cases h
  have h2 : ∀ (k : Fin 2) (w : ℝ), MemLp ((exLogger (exDice k) k).partDrTerm (exDiePolicy (exDice k)) (fun _ => (0 : Fin 1)) exHalf
      exFar w 0) 2 exDieMeasure := fun k w => exDie_memLp (2 * 0 + k) (exPart k w)
  have h2' : ∀ k : Fin 2, MemLp ((exLogger (exDice k) k).drTerm (exDiePolicy (exDice k)) (fun _ => (0 : Fin 1)) exHalf exFar 0) 2
      exDieMeasure := fun k => (h2 k 1).ae_eq (ae_of_all _ fun ω => by simp [LogStream.drTerm, partDrTerm])
  have hv : ∀ k : Fin 2, Var[((exLogger (exDice k) k).besideDraws B).drTerm (exDiePolicy (exDice k)) (fun _ => (0 : Fin 1)) exHalf
      exFar 0; exLoggersLaw B] = ![27 / 16, 2165 / 48] k := fun k =>
    (variance_besideDraws (h2' k).aestronglyMeasurable.aemeasurable B).trans (exDr_variance k)
  have hv0 : ∀ k : Fin 2, Var[((exLogger (exDice k) k).besideDraws B).drTerm (exDiePolicy (exDice k)) (fun _ => (0 : Fin 1)) exHalf
      exFar 0; exLoggersLaw B] ≠ 0 := fun k => by
    rw [hv]
    fin_cases k <;> norm_num
  have hw : ∀ (k : Fin 2) (w : ℝ), Var[((exLogger (exDice k) k).besideDraws B).partDrTerm (exDiePolicy (exDice k))
      (fun _ => (0 : Fin 1)) exHalf exFar w 0; exLoggersLaw B] = ∑ o, (exPart k w o - ∑ o, exPart k w o / 16) ^ 2 / 16 := fun k w =>
    (variance_besideDraws (h2 k w).aestronglyMeasurable.aemeasurable B).trans (exPart_variance k w)
  unfold exLoggersCoverage
  rw [← exHalf_value]
  refine ⟨C187_naive_dr (hl.besideDraws B) ((exLoggers_independent exDice).besideDraws hl B) exLoggers_grow exHalf_covers
      (fun k => (exLoggers_memLp (hi k)).integrable one_le_two) hq hqi (fun k => exLoggers_memLp (h2' k)) ⟨0, hv0 0⟩ hn hB
      (exLoggersDraws B) h0 h1,
    C187_weighted_dr (hl.besideDraws B) ((exLoggers_independent exDice).besideDraws hl B) exLoggers_grow exHalf_covers
      (fun k => (exLoggers_memLp (hi k)).integrable one_le_two) hq hqi (fun k => exLoggers_memLp (h2 k 0))
      (fun k => exLoggers_memLp (h2' k)) hv0 ?_ hn hB (exLoggersDraws B) h0 h1⟩
  simp only [hw, hv, precision, Fin.sum_univ_two, exPart_first, exPart_second]
  norm_num

/-- 399 bootstrap samples: the "95%" intervals of the naive estimates contain 9/4 with a probability that is in the end within 0.0125
of 0.95, those of the weighted estimates with a probability that is in the end above 0.9375. -/
example : (∀ᶠ t in atTop, |exLoggersCoverage .naiveIpw (1 / 20) 399 t - (1 - 1 / 20)| < 5 / ((399 : ℕ) + 1)) ∧
    (∀ᶠ t in atTop, |exLoggersCoverage .naiveDr (1 / 20) 399 t - (1 - 1 / 20)| < 5 / ((399 : ℕ) + 1)) ∧
    (∀ᶠ t in atTop, 1 - 1 / 20 - 5 / ((399 : ℕ) + 1) < exLoggersCoverage .weightedIpw (1 / 20) 399 t) ∧
    ∀ᶠ t in atTop, 1 - 1 / 20 - 5 / ((399 : ℕ) + 1) < exLoggersCoverage .weightedDr (1 / 20) 399 t := by
  have h1 := exLoggersCoverage_ipw (B := 399) (by norm_num) (alpha := 1 / 20) (by norm_num) (by norm_num)
  have h2 := exLoggersCoverage_dr (B := 399) (by norm_num) (alpha := 1 / 20) (by norm_num) (by norm_num)
  exact ⟨C175_many_resamples h1.1 (by norm_num) (by norm_num) (by norm_num), C175_many_resamples h2.1 (by norm_num) (by norm_num) (by norm_num),
    C187_many_resamples h1.2 (by norm_num) (by norm_num), C187_many_resamples h2.2 (by norm_num) (by norm_num)⟩

end Obp
