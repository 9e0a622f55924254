import Verif.Lemmas.StrataNormal
import Verif.Props.ConsistencyMulti
import Verif.Props.MultiPrecision
import Verif.Props.AsymptoticNormality

set_option linter.unusedSectionVars false

/-!
# Distribution of the errors with several loggers

C186: with independent loggers the errors of the estimates are asymptotically normal; weighting by precision gives the smallest
variance for inverse propensity weighting, and may increase it for doubly robust estimates.
-/

namespace Obp
open MeasureTheory ProbabilityTheory Filter Topology Log LogStream MultiStream

variable {Ω C : Type} [MeasurableSpace Ω] [MeasurableSpace C] {A L M : ℕ} {P : Measure Ω} [IsProbabilityMeasure P] {D : Measure C}
variable {s : Fin M → LogStream Ω C A} {piB : Fin M → C → Fin A → ℝ} {m : C → Fin A → ℝ} {pos : C → Fin L}
variable {piE q : C → Fin A → Fin L → ℝ} {N : ℕ → Fin M → ℕ} {rho : Fin M → ℝ}

theorem LogStream.LoggedBy.iid {s : LogStream Ω C A} {piB m : C → Fin A → ℝ} (hs : s.LoggedBy P piB m) :
    Iid P fun i ω => (s.ctx i ω, s.act i ω, s.rew i ω) :=
  ⟨fun i => (hs.ctx_meas i).prodMk ((hs.act_meas i).prodMk (hs.rew_meas i)), hs.indep, hs.ident⟩

section strata
variable {S : Type} [MeasurableSpace S] {Z : Fin M → ℕ → Ω → S}

theorem avg_column_meanTo (N : Fin M → ℕ) (f : Fin M → ℕ → ℝ) :
    avg (column N f) = ∑ k, (N k : ℝ) / (∑ j, N j : ℕ) * meanTo (f k) (N k) := by
  rw [avg_column]
  exact Finset.sum_congr rfl fun k _ => by rw [avg_meanTo (f k)]

theorem sum_share {N : Fin M → ℕ} (h : 0 < ∑ k, N k) : ∑ k, (N k : ℝ) / (∑ j, N j : ℕ) = 1 := by
  have : ((∑ j, N j : ℕ) : ℝ) ≠ 0 := by exact_mod_cast h.ne'
  rw [← Finset.sum_div, ← Nat.cast_sum, div_self this]

theorem meanTo_sub_const {x : ℕ → ℝ} {n : ℕ} (hn : 0 < n) (c : ℝ) : meanTo (fun i => x i - c) n = meanTo x n - c := by
  have : (n : ℝ) ≠ 0 := by exact_mod_cast hn.ne'
  simp only [meanTo, Finset.sum_sub_distrib, Finset.sum_const, Finset.card_range, nsmul_eq_mul]
  field_simp

/-- Estimates that are averages over the pooled log. -/
theorem normalErrors_pooled (hZ : ∀ k, Iid P (Z k)) (hind : iIndepFun (fun k ω (i : ℕ) => Z k i ω) P) (hg : Grows N rho)
    {F : Fin M → S → ℝ} (hF : ∀ k, Measurable (F k)) (h2 : ∀ k, MemLp (fun ω => F k (Z k 0 ω)) 2 P) {r : ℕ → Ω → Py ℝ} {v : ℝ}
    (hm : Tendsto (fun t => √(∑ k, N t k : ℕ) * (∑ k, (N t k : ℝ) / (∑ j, N t j : ℕ) * (∫ ω, F k (Z k 0 ω) ∂P) - v)) atTop (𝓝 0))
    (hpos : 0 < ∑ k, rho k * Var[fun ω => F k (Z k 0 ω); P])
    (hest : ∀ᵐ ω ∂P, ∀ t, 0 < ∑ k, N t k → r t ω = .ok (avg (column (N t) fun k i => F k (Z k i ω)))) :
    NormalErrorsOver P (fun t => ∑ k, N t k) r v (∑ k, rho k * Var[fun ω => F k (Z k 0 ω); P]) := by
  obtain ⟨k0⟩ := hg.loggers
  refine normalErrors_strata hZ hind hg (FA := fun k x => F k x - ∫ ω, F k (Z k 0 ω) ∂P) (FB := fun _ _ => 0)
    (fun k => (hF k).sub_const _) (fun _ => measurable_const) (fun k => (h2 k).sub (memLp_const _)) (fun _ => memLp_const 0)
    (fun k => ?_) (fun k => by simp) (V := fun _ _ _ => 1) (W := fun _ _ _ => 1) (vl := fun _ => 1) (w := fun _ => 1)
    (fun _ _ => measurable_const) (fun _ _ => measurable_const) (fun _ => one_ne_zero)
    (fun _ => ae_of_all _ fun _ => tendsto_const_nhds) (fun _ => ae_of_all _ fun _ => tendsto_const_nhds) hm ?_ hpos ?_
  · rw [integral_sub ((h2 k).integrable one_le_two) (integrable_const _)]
    simp
  · refine Finset.sum_congr rfl fun k _ => ?_
    simp only [mul_zero, add_zero]
    rw [variance_sub_const (h2 k).aestronglyMeasurable]
  · filter_upwards [hest] with ω hω t hk _
    have hn : 0 < ∑ k, N t k := Finset.sum_pos (fun k _ => hk k) ⟨k0, Finset.mem_univ _⟩
    rw [hω t hn, avg_column_meanTo]
    congr 1
    have e1 : ∀ k, meanTo (fun i => F k (Z k i ω) - ∫ ω, F k (Z k 0 ω) ∂P) (N t k) + 1 * meanTo (fun _ => (0 : ℝ)) (N t k) =
        meanTo (fun i => F k (Z k i ω)) (N t k) - ∫ ω, F k (Z k 0 ω) ∂P := fun k => by
      rw [meanTo_sub_const (hk k)]
      simp [meanTo]
    simp only [e1, mul_sub, Finset.sum_sub_distrib]
    ring

/-- The variance of the first `n` numbers. -/
noncomputable def sampleVar (x : ℕ → ℝ) (n : ℕ) : ℝ := meanTo (fun i => (x i - meanTo x n) ^ 2) n

theorem sampleVar_eq (x : ℕ → ℝ) {n : ℕ} (hn : 0 < n) : sampleVar x n = meanTo (fun i => x i ^ 2) n - meanTo x n ^ 2 := by
  have hn' : (n : ℝ) ≠ 0 := by exact_mod_cast hn.ne'
  unfold sampleVar
  generalize hc : meanTo x n = c
  have e : ∀ i, (x i - c) ^ 2 = x i ^ 2 - 2 * c * x i + c ^ 2 := fun i => by ring
  have hs : ∑ i ∈ Finset.range n, x i = c * n := by rw [← hc, meanTo]; field_simp
  simp only [meanTo, e, Finset.sum_add_distrib, Finset.sum_sub_distrib, ← Finset.mul_sum, hs, Finset.sum_const, Finset.card_range,
    nsmul_eq_mul]
  field_simp
  ring

theorem sampleVar_nonneg (x : ℕ → ℝ) (n : ℕ) : 0 ≤ sampleVar x n :=
  div_nonneg (Finset.sum_nonneg fun _ _ => sq_nonneg _) (Nat.cast_nonneg _)

theorem sampleVar_meas {X : ℕ → Ω → ℝ} (hX : ∀ i, Measurable (X i)) (n : ℕ) : Measurable fun ω => sampleVar (fun i => X i ω) n := by
  unfold sampleVar meanTo
  exact (Finset.measurable_fun_sum _ fun i _ => ((hX i).sub ((Finset.measurable_fun_sum _ fun i _ => hX i).div_const _)).pow_const 2).div_const _

theorem Iid.sampleVar_tendsto {Z : ℕ → Ω → S} (h : Iid P Z) {F : S → ℝ} (hF : Measurable F) (h2 : MemLp (fun ω => F (Z 0 ω)) 2 P) :
    ∀ᵐ ω ∂P, Tendsto (fun n => sampleVar (fun i => F (Z i ω)) n) atTop (𝓝 (Var[fun ω => F (Z 0 ω); P])) := by
  rw [variance_eq_sub h2]
  filter_upwards [h.lln hF (h2.integrable one_le_two), h.lln (hF.pow_const 2) h2.integrable_sq] with ω h1 h3
  refine (h3.sub (h1.pow 2)).congr' ?_
  filter_upwards [eventually_gt_atTop 0] with n hn
  rw [sampleVar_eq _ hn]

/-- The weight of a logger: its precision over the average precision. -/
noncomputable def precisionWeight (N : Fin M → ℕ) (V : Fin M → ℝ) (k : Fin M) : ℝ :=
  1 / V k / ∑ j, (N j : ℝ) / (∑ i, N i : ℕ) / V j

/-- Estimates that add corrections weighted by precision. -/
theorem normalErrors_precision (hZ : ∀ k, Iid P (Z k)) (hind : iIndepFun (fun k ω (i : ℕ) => Z k i ω) P) (hg : Grows N rho)
    {F G H : Fin M → S → ℝ} (hF : ∀ k, Measurable (F k)) (hG : ∀ k, Measurable (G k)) (hH : ∀ k, Measurable (H k))
    (h2 : ∀ k, MemLp (fun ω => F k (Z k 0 ω)) 2 P) (hG2 : ∀ k, MemLp (fun ω => G k (Z k 0 ω)) 2 P)
    (hH2 : ∀ k, MemLp (fun ω => H k (Z k 0 ω)) 2 P) {a b v : ℝ} (hab : a + b = v)
    (ha : ∀ k, ∫ ω, G k (Z k 0 ω) ∂P = a) (hb : ∀ k, ∫ ω, H k (Z k 0 ω) ∂P = b)
    (hv : ∀ k, Var[fun ω => F k (Z k 0 ω); P] ≠ 0) {r : ℕ → Ω → Py ℝ} {var : ℝ}
    (hvar : ∑ k, rho k * Var[fun ω => G k (Z k 0 ω) + 1 / Var[fun ω => F k (Z k 0 ω); P] /
      precision rho (fun j => Var[fun ω => F j (Z j 0 ω); P]) * H k (Z k 0 ω); P] = var) (hpos : 0 < var)
    (hest : ∀ᵐ ω ∂P, ∀ t, (∀ k, 0 < N t k) → (∀ k, sampleVar (fun i => F k (Z k i ω)) (N t k) ≠ 0) →
      r t ω = .ok (avg (column (N t) fun k i => G k (Z k i ω)) + ∑ k, (N t k : ℝ) / (∑ j, N t j : ℕ) *
        (precisionWeight (N t) (fun k => sampleVar (fun i => F k (Z k i ω)) (N t k)) k *
          meanTo (fun i => H k (Z k i ω)) (N t k)))) :
    NormalErrorsOver P (fun t => ∑ k, N t k) r v var := by
  obtain ⟨k0⟩ := hg.loggers
  have hvpos : ∀ k, 0 < Var[fun ω => F k (Z k 0 ω); P] := fun k => lt_of_le_of_ne (variance_nonneg _ _) (hv k).symm
  have hprec : 0 < precision rho (fun j => Var[fun ω => F j (Z j 0 ω); P]) :=
    Finset.sum_pos (fun k _ => div_pos (hg.pos k) (hvpos k)) ⟨k0, Finset.mem_univ _⟩
  have hVm : ∀ (k : Fin M) t, Measurable fun ω => sampleVar (fun i => F k (Z k i ω)) (N t k) := fun k t =>
    sampleVar_meas (fun i => ((hZ k).fn (hF k)).1 i) _
  have hV : ∀ k, ∀ᵐ ω ∂P, Tendsto (fun t => sampleVar (fun i => F k (Z k i ω)) (N t k)) atTop (𝓝 (Var[fun ω => F k (Z k 0 ω); P])) :=
    fun k => by
      filter_upwards [(hZ k).sampleVar_tendsto (hF k) (h2 k)] with ω hω
      exact hω.comp (hg.size k)
  refine normalErrors_strata hZ hind hg (FA := fun k x => G k x - a) (FB := fun k x => H k x - b)
    (fun k => (hG k).sub_const _) (fun k => (hH k).sub_const _) (fun k => (hG2 k).sub (memLp_const _))
    (fun k => (hH2 k).sub (memLp_const _)) (fun k => ?_) (fun k => ?_)
    (V := fun k t ω => sampleVar (fun i => F k (Z k i ω)) (N t k))
    (W := fun k t ω => precisionWeight (N t) (fun k => sampleVar (fun i => F k (Z k i ω)) (N t k)) k)
    (w := fun k => 1 / Var[fun ω => F k (Z k 0 ω); P] / precision rho (fun j => Var[fun ω => F j (Z j 0 ω); P]))
    hVm (fun k t => ?_) hv hV (fun k => ?_) (e := fun _ => 0) (by simp) (hvar := ?_) hpos ?_
  · rw [integral_sub ((hG2 k).integrable one_le_two) (integrable_const _), ha]
    simp
  · rw [integral_sub ((hH2 k).integrable one_le_two) (integrable_const _), hb]
    simp
  · unfold precisionWeight
    exact ((measurable_const.div (hVm k t))).div (Finset.measurable_fun_sum _ fun j _ => measurable_const.div (hVm j t))
  · filter_upwards [ae_all_iff.2 hV] with ω hω
    exact ((tendsto_const_nhds (x := (1 : ℝ))).div (hω k) (hv k)).div
      (tendsto_finsetSum _ fun j _ => (hg.share j).div (hω j) (hv j)) hprec.ne'
  · rw [← hvar]
    refine Finset.sum_congr rfl fun k _ => ?_
    congr 1
    set w := 1 / Var[fun ω => F k (Z k 0 ω); P] / precision rho (fun j => Var[fun ω => F j (Z j 0 ω); P])
    have e : (fun ω => G k (Z k 0 ω) - a + w * (H k (Z k 0 ω) - b)) = fun ω => (G k (Z k 0 ω) + w * H k (Z k 0 ω)) - (a + w * b) := by
      funext ω
      ring
    rw [e]
    exact variance_sub_const ((hG2 k).add ((hH2 k).const_mul w)).aestronglyMeasurable _
  · filter_upwards [hest] with ω hω t hk hne
    have hn : 0 < ∑ k, N t k := Finset.sum_pos (fun k _ => hk k) ⟨k0, Finset.mem_univ _⟩
    have hn' : (0 : ℝ) < (∑ k, N t k : ℕ) := by exact_mod_cast hn
    rw [hω t hk hne, avg_column_meanTo]
    congr 1
    have hsum : ∑ k, (N t k : ℝ) / (∑ j, N t j : ℕ) *
        precisionWeight (N t) (fun k => sampleVar (fun i => F k (Z k i ω)) (N t k)) k = 1 := by
      have hp : 0 < ∑ j, (N t j : ℝ) / (∑ i, N t i : ℕ) / sampleVar (fun i => F j (Z j i ω)) (N t j) :=
        Finset.sum_pos (fun k _ => div_pos (div_pos (by exact_mod_cast hk k) hn')
          (lt_of_le_of_ne (sampleVar_nonneg _ _) (hne k).symm)) ⟨k0, Finset.mem_univ _⟩
      rw [← div_self hp.ne', Finset.sum_div]
      refine Finset.sum_congr rfl fun k _ => ?_
      unfold precisionWeight
      ring
    have hs := sum_share hn
    have e1 : ∀ k, (N t k : ℝ) / (∑ j, N t j : ℕ) * (meanTo (fun i => G k (Z k i ω) - a) (N t k) +
        precisionWeight (N t) (fun k => sampleVar (fun i => F k (Z k i ω)) (N t k)) k * meanTo (fun i => H k (Z k i ω) - b) (N t k)) =
        (N t k : ℝ) / (∑ j, N t j : ℕ) * meanTo (fun i => G k (Z k i ω)) (N t k) + (N t k : ℝ) / (∑ j, N t j : ℕ) *
          (precisionWeight (N t) (fun k => sampleVar (fun i => F k (Z k i ω)) (N t k)) k * meanTo (fun i => H k (Z k i ω)) (N t k)) -
          ((N t k : ℝ) / (∑ j, N t j : ℕ) * a + (N t k : ℝ) / (∑ j, N t j : ℕ) *
            precisionWeight (N t) (fun k => sampleVar (fun i => F k (Z k i ω)) (N t k)) k * b) := fun k => by
      rw [meanTo_sub_const (hk k), meanTo_sub_const (hk k)]
      ring
    simp only [e1, Finset.sum_sub_distrib, Finset.sum_add_distrib, ← Finset.sum_mul, hs, hsum]
    rw [← hab]
    ring

end strata

namespace MultiStream

theorem pooled_labels {N : Fin M → ℕ} (hN : ∀ k, 0 < N k) (ω : Ω) : (pooled s rho piB pos piE q N ω).labels = Finset.range M := by
  ext x
  simp only [MLog.labels, Finset.mem_image, Finset.mem_univ, true_and, Finset.mem_range]
  constructor
  · rintro ⟨j, rfl⟩
    exact (finSigmaFinEquiv.symm j).1.isLt
  · intro hx
    refine ⟨finSigmaFinEquiv ⟨⟨x, hx⟩, ⟨0, hN _⟩⟩, ?_⟩
    simp [pooled, column]

theorem pooled_sum_stratum {N : Fin M → ℕ} (ω : Ω) (f : Fin M → ℕ → ℝ) (k : Fin M) :
    ∑ j with (pooled s rho piB pos piE q N ω).stratum j = k, column N f j = ∑ i ∈ Finset.range (N k), f k i := by
  rw [Finset.sum_filter]
  have h := sum_column N fun l i => if l = k then f l i else 0
  have h' : (∑ l, ∑ i : Fin (N l), if l = k then f l i else 0) = ∑ i : Fin (N k), f k i := by
    rw [Finset.sum_eq_single k (fun l _ hl => by simp [hl]) (by simp)]
    simp
  rw [← Fin.sum_univ_eq_sum_range, ← h', ← h]
  refine Finset.sum_congr rfl fun j _ => ?_
  simp only [pooled, column, Fin.val_inj]

theorem pooled_size {N : Fin M → ℕ} (ω : Ω) (k : Fin M) : (pooled s rho piB pos piE q N ω).size k = N k := by
  have := pooled_sum_stratum (s := s) (rho := rho) (piB := piB) (pos := pos) (piE := piE) (q := q) (N := N) ω (fun _ _ => 1) k
  simp only [column, Finset.sum_const, nsmul_eq_mul, mul_one, Finset.card_range] at this
  exact_mod_cast this

theorem pooled_stratumMean {N : Fin M → ℕ} (ω : Ω) (f : Fin M → ℕ → ℝ) (k : Fin M) :
    (pooled s rho piB pos piE q N ω).stratumMean (column N f) k = meanTo (f k) (N k) := by
  unfold MLog.stratumMean
  rw [pooled_sum_stratum, pooled_size, meanTo]

theorem pooled_stratumVar {N : Fin M → ℕ} (ω : Ω) (f : Fin M → ℕ → ℝ) (k : Fin M) :
    (pooled s rho piB pos piE q N ω).stratumVar (column N f) k = sampleVar (f k) (N k) := by
  unfold MLog.stratumVar sampleVar
  rw [pooled_stratumMean]
  exact pooled_stratumMean ω (fun l i => (f l i - meanTo (f k) (N k)) ^ 2) k

/-- Averages by precision over the pooled log. -/
theorem pooled_precision {N : Fin M → ℕ} (hN : ∀ k, 0 < N k) (ω : Ω) (f u : Fin M → ℕ → ℝ) :
    ∑ k ∈ (pooled s rho piB pos piE q N ω).labels, (pooled s rho piB pos piE q N ω).precisionShare (column N f) k *
      (pooled s rho piB pos piE q N ω).stratumMean (column N u) k =
    ∑ k, (N k : ℝ) / (∑ j, N j : ℕ) * (precisionWeight N (fun k => sampleVar (f k) (N k)) k * meanTo (u k) (N k)) := by
  unfold MLog.precisionShare
  rw [pooled_labels hN, ← Fin.sum_univ_eq_sum_range
    (fun k => (pooled s rho piB pos piE q N ω).size k / (pooled s rho piB pos piE q N ω).stratumVar (column N f) k),
    ← Fin.sum_univ_eq_sum_range (fun k => (pooled s rho piB pos piE q N ω).size k /
      (pooled s rho piB pos piE q N ω).stratumVar (column N f) k / (∑ j : Fin M, (pooled s rho piB pos piE q N ω).size j /
        (pooled s rho piB pos piE q N ω).stratumVar (column N f) j) * (pooled s rho piB pos piE q N ω).stratumMean (column N u) k)]
  simp only [pooled_size, pooled_stratumVar, pooled_stratumMean]
  refine Finset.sum_congr rfl fun k _ => ?_
  have hn : 0 < ∑ j, N j := Finset.sum_pos (fun k _ => hN k) ⟨k, Finset.mem_univ _⟩
  have hn' : ((∑ j, N j : ℕ) : ℝ) ≠ 0 := by exact_mod_cast hn.ne'
  have e : ∑ j, (N j : ℝ) / (∑ i, N i : ℕ) / sampleVar (f j) (N j) = (∑ j, (N j : ℝ) / sampleVar (f j) (N j)) / (∑ i, N i : ℕ) := by
    rw [Finset.sum_div]
    exact Finset.sum_congr rfl fun j _ => by ring
  unfold precisionWeight
  rw [e, div_div_eq_mul_div]
  generalize (∑ j, (N j : ℝ) / sampleVar (f j) (N j)) = T
  field_simp

end MultiStream

/-! ### C186 -/

theorem naive_mean {v : ℝ} (hg : Grows N rho) {μ : Fin M → ℝ} (hμ : ∀ k, μ k = v) :
    Tendsto (fun t => √(∑ k, N t k : ℕ) * (∑ k, (N t k : ℝ) / (∑ j, N t j : ℕ) * μ k - v)) atTop (𝓝 0) := by
  refine tendsto_const_nhds.congr' ?_
  filter_upwards [hg.total.eventually_gt_atTop 0] with t ht
  simp only [hμ, ← Finset.sum_mul, sum_share ht]
  ring

theorem sum_rho_var_pos (hg : Grows N rho) {σ : Fin M → ℝ} (h0 : ∀ k, 0 ≤ σ k) (h : ∃ k, σ k ≠ 0) : 0 < ∑ k, rho k * σ k := by
  obtain ⟨k, hk⟩ := h
  exact Finset.sum_pos' (fun k _ => mul_nonneg (hg.pos k).le (h0 k))
    ⟨k, Finset.mem_univ _, mul_pos (hg.pos k) (lt_of_le_of_ne (h0 k) hk.symm)⟩

/-- **C186.** Naive inverse propensity weighting: the variance is the average of the loggers' variances, weighted by their shares
of the rounds. -/
theorem C186_naive_ipw (hs : LoggedBy s P D piB m) (hind : Independent s P) (hg : Grows N rho) (hE : ∀ k, Covers (piB k) pos piE)
    (h2 : ∀ k, MemLp ((s k).ipwTerm (piB k) pos piE 0) 2 P) (hv : ∃ k, Var[(s k).ipwTerm (piB k) pos piE 0; P] ≠ 0) {lam : Lam ℝ}
    (hl : ∀ k, NotClipped lam (piB k) pos piE) :
    NormalErrorsOver P (fun t => ∑ k, N t k) (fun t ω => (MultiEstimator.mk .naiveIpw lam false).estimatePolicyValue
      (pooled s rho piB pos piE q (N t) ω).margs) (value D pos piE m)
      (∑ k, rho k * Var[(s k).ipwTerm (piB k) pos piE 0; P]) := by
  obtain ⟨k0⟩ := hg.loggers
  refine normalErrors_pooled (fun k => (hs.logger k).iid) hind hg
    (F := fun k x => x.2.2 * (piE x.1 x.2.1 (pos x.1) / piB k x.1 x.2.1))
    (fun k => (measurable_snd.comp measurable_snd).mul ((hs.logger k).weightFn_meas (hE k))) h2 (naive_mean hg fun k => ?_)
    (sum_rho_var_pos hg (fun k => variance_nonneg _ _) hv) ?_
  · rw [← hs.value_eq k (hE k).meas (hs.logger k).m_meas]
    exact (hs.logger k).ipwTerm_mean (hE k) ((h2 k).integrable one_le_two)
  · filter_upwards [hs.pooled_valid (pos := pos) (q := q) hg.pos (hE k0).dist] with ω hva t hn
    rw [value_naiveIpw (hva _ hn).base]
    congr 2
    funext j
    rw [pooled_clip hl]
    rfl

theorem model_meas (hE : ∀ a, Measurable fun c => piE c a (pos c)) (hq : ∀ a, Measurable fun c => q c a (pos c)) :
    Measurable fun x : C × Fin A × ℝ => ∑ a, piE x.1 a (pos x.1) * q x.1 a (pos x.1) :=
  (Finset.measurable_fun_sum _ fun a _ => (hE a).mul (hq a)).comp measurable_fst

theorem residual_meas (hq : ∀ a, Measurable fun c => q c a (pos c)) :
    Measurable fun x : C × Fin A × ℝ => x.2.2 - q x.1 x.2.1 (pos x.1) := by
  have hqm : Measurable fun x : C × Fin A => q x.1 x.2 (pos x.1) := measurable_from_prod_countable_left hq
  exact (measurable_snd.comp measurable_snd).sub (hqm.comp (measurable_fst.prodMk (measurable_fst.comp measurable_snd)))

theorem MultiStream.LoggedBy.model_int (hs : LoggedBy s P D piB m)
    (hqi : ∀ a, Integrable (fun c => piE c a (pos c) * q c a (pos c)) D) (k : Fin M) (a : Fin A) :
    Integrable (fun ω => piE ((s k).ctx 0 ω) a (pos ((s k).ctx 0 ω)) * q ((s k).ctx 0 ω) a (pos ((s k).ctx 0 ω))) P := by
  have := hqi a
  rw [← hs.ctx_law k] at this
  exact (integrable_map_measure this.aestronglyMeasurable ((hs.logger k).ctx_meas 0).aemeasurable).1 this

/-- **C186.** Naive doubly robust estimates, for every reward model. -/
theorem C186_naive_dr (hs : LoggedBy s P D piB m) (hind : Independent s P) (hg : Grows N rho) (hE : ∀ k, Covers (piB k) pos piE)
    (hi : ∀ k, Integrable ((s k).ipwTerm (piB k) pos piE 0) P) (hq : ∀ a, Measurable fun c => q c a (pos c))
    (hqi : ∀ a, Integrable (fun c => piE c a (pos c) * q c a (pos c)) D) (h2 : ∀ k, MemLp ((s k).drTerm (piB k) pos piE q 0) 2 P)
    (hv : ∃ k, Var[(s k).drTerm (piB k) pos piE q 0; P] ≠ 0) {lam : Lam ℝ} (hl : ∀ k, NotClipped lam (piB k) pos piE) :
    NormalErrorsOver P (fun t => ∑ k, N t k) (fun t ω => (MultiEstimator.mk .naiveDr lam false).estimatePolicyValue
      (pooled s rho piB pos piE q (N t) ω).margs) (value D pos piE m)
      (∑ k, rho k * Var[(s k).drTerm (piB k) pos piE q 0; P]) := by
  obtain ⟨k0⟩ := hg.loggers
  refine normalErrors_pooled (fun k => (hs.logger k).iid) hind hg
    (F := fun k x => (∑ a, piE x.1 a (pos x.1) * q x.1 a (pos x.1)) +
      piE x.1 x.2.1 (pos x.1) / piB k x.1 x.2.1 * (x.2.2 - q x.1 x.2.1 (pos x.1)))
    (fun k => (model_meas (hE k).meas hq).add (((hs.logger k).weightFn_meas (hE k)).mul (residual_meas hq))) h2
    (naive_mean hg fun k => ?_) (sum_rho_var_pos hg (fun k => variance_nonneg _ _) hv) ?_
  · rw [← hs.value_eq k (hE k).meas (hs.logger k).m_meas]
    exact (hs.logger k).drTerm_mean (hE k) (hi k) hq (hs.model_int hqi k)
  · filter_upwards [hs.pooled_valid (pos := pos) (q := q) hg.pos (hE k0).dist] with ω hva t hn
    rw [value_naiveDr (hva _ hn).base]
    congr 2
    funext j
    rw [pooled_clip hl, pooled_modelValue (hE k0).dist]
    rfl

/-- **C186.** Weighted inverse propensity weighting: the variance is one over the total precision. -/
theorem C186_weighted_ipw (hs : LoggedBy s P D piB m) (hind : Independent s P) (hg : Grows N rho) (hE : ∀ k, Covers (piB k) pos piE)
    (h2 : ∀ k, MemLp ((s k).ipwTerm (piB k) pos piE 0) 2 P) (hv : ∀ k, Var[(s k).ipwTerm (piB k) pos piE 0; P] ≠ 0) {lam : Lam ℝ}
    (hl : ∀ k, NotClipped lam (piB k) pos piE) :
    NormalErrorsOver P (fun t => ∑ k, N t k) (fun t ω => (MultiEstimator.mk .weightedIpw lam false).estimatePolicyValue
      (pooled s rho piB pos piE q (N t) ω).margs) (value D pos piE m)
      (precision rho fun k => Var[(s k).ipwTerm (piB k) pos piE 0; P])⁻¹ := by
  obtain ⟨k0⟩ := hg.loggers
  have hvpos : ∀ k, 0 < Var[(s k).ipwTerm (piB k) pos piE 0; P] := fun k => lt_of_le_of_ne (variance_nonneg _ _) (hv k).symm
  have hprec : 0 < precision rho fun k => Var[(s k).ipwTerm (piB k) pos piE 0; P] :=
    Finset.sum_pos (fun k _ => div_pos (hg.pos k) (hvpos k)) ⟨k0, Finset.mem_univ _⟩
  have hFm : ∀ k, Measurable fun x : C × Fin A × ℝ => x.2.2 * (piE x.1 x.2.1 (pos x.1) / piB k x.1 x.2.1) := fun k =>
    (measurable_snd.comp measurable_snd).mul ((hs.logger k).weightFn_meas (hE k))
  refine normalErrors_precision (fun k => (hs.logger k).iid) hind hg
    (F := fun k x => x.2.2 * (piE x.1 x.2.1 (pos x.1) / piB k x.1 x.2.1)) (G := fun _ _ => 0)
    (H := fun k x => x.2.2 * (piE x.1 x.2.1 (pos x.1) / piB k x.1 x.2.1)) hFm (fun _ => measurable_const) hFm h2
    (fun _ => memLp_const 0) h2 (zero_add (value D pos piE m)) (fun k => by simp) (fun k => ?_) hv ?_ (inv_pos.2 hprec) ?_
  · rw [← hs.value_eq k (hE k).meas (hs.logger k).m_meas]
    exact (hs.logger k).ipwTerm_mean (hE k) ((h2 k).integrable one_le_two)
  · simp only [zero_add]
    change ∑ k, rho k * Var[fun ω => 1 / Var[(s k).ipwTerm (piB k) pos piE 0; P] /
      (precision rho fun k => Var[(s k).ipwTerm (piB k) pos piE 0; P]) * (s k).ipwTerm (piB k) pos piE 0 ω; P] = _
    simp only [variance_const_mul]
    have e : ∀ k, rho k * ((1 / Var[(s k).ipwTerm (piB k) pos piE 0; P] /
        (precision rho fun k => Var[(s k).ipwTerm (piB k) pos piE 0; P])) ^ 2 * Var[(s k).ipwTerm (piB k) pos piE 0; P]) =
        rho k / Var[(s k).ipwTerm (piB k) pos piE 0; P] / (precision rho fun k => Var[(s k).ipwTerm (piB k) pos piE 0; P]) ^ 2 :=
      fun k => by
        have := (hvpos k).ne'
        generalize (precision rho fun k => Var[(s k).ipwTerm (piB k) pos piE 0; P]) = T
        field_simp
    simp only [e, ← Finset.sum_div]
    change (precision rho fun k => Var[(s k).ipwTerm (piB k) pos piE 0; P]) / _ = _
    field_simp
  · filter_upwards [hs.pooled_valid (pos := pos) (q := q) hg.pos (hE k0).dist] with ω hva t hk hne
    have hn : 0 < ∑ k, N t k := Finset.sum_pos (fun k _ => hk k) ⟨k0, Finset.mem_univ _⟩
    have hterm : (fun j => (pooled s rho piB pos piE q (N t) ω).reward j *
        lam.clip ((pooled s rho piB pos piE q (N t) ω).weight false j)) = column (N t) fun k i => (s k).ipwTerm (piB k) pos piE i ω := by
      funext j
      rw [pooled_clip hl]
      rfl
    have h := (C185_weighted_ipw (hva _ hn).base lam false (pooled_contiguous hk ω) (by
      rw [hterm]
      intro j
      exact fun h0 => hne _ ((pooled_stratumVar ω (fun k i => (s k).ipwTerm (piB k) pos piE i ω) _).symm.trans h0))).1
    rw [hterm] at h
    rw [h]
    congr 1
    have e0 : avg (column (N t) fun (_ : Fin M) (_ : ℕ) => (0 : ℝ)) = 0 := by simp [avg, column]
    rw [e0, zero_add]
    exact pooled_precision hk ω (fun k i => (s k).ipwTerm (piB k) pos piE i ω) fun k i => (s k).ipwTerm (piB k) pos piE i ω

/-- **C186.** This is the smallest variance of all ways to weight the loggers: the average with weights `c` (which count each
logger by its share of the rounds, and sum to one) has the variance `∑ rho c² var`. Equal weights are those of the naive estimate. -/
theorem C186_precision_smallest (hg : Grows N rho) {var c : Fin M → ℝ} (hv : ∀ k, 0 < var k) (hc : ∑ k, rho k * c k = 1) :
    (precision rho var)⁻¹ ≤ ∑ k, rho k * (c k ^ 2 * var k) := by
  obtain ⟨k0⟩ := hg.loggers
  have hprec : 0 < precision rho var :=
    Finset.sum_pos (fun k _ => div_pos (hg.pos k) (hv k)) ⟨k0, Finset.mem_univ _⟩
  rw [inv_le_iff_one_le_mul₀ hprec]
  have h := Finset.sum_sq_le_sum_mul_sum_of_sq_le_mul Finset.univ (r := fun k => rho k * c k)
    (f := fun k => rho k * (c k ^ 2 * var k)) (g := fun k => rho k / var k)
    (fun k _ => mul_nonneg (hg.pos k).le (mul_nonneg (sq_nonneg _) (hv k).le)) (fun k _ => (div_pos (hg.pos k) (hv k)).le)
    fun k _ => le_of_eq <| by
      have := (hv k).ne'
      field_simp
  rw [hc, one_pow] at h
  exact h

/-- **C186.** In particular weighting by precision never increases the variance of inverse propensity weighting. -/
theorem C186_weighted_ipw_no_worse (hg : Grows N rho) (hv : ∀ k, Var[(s k).ipwTerm (piB k) pos piE 0; P] ≠ 0) :
    (precision rho fun k => Var[(s k).ipwTerm (piB k) pos piE 0; P])⁻¹ ≤ ∑ k, rho k * Var[(s k).ipwTerm (piB k) pos piE 0; P] := by
  have h := C186_precision_smallest hg (c := fun _ => 1) (var := fun k => Var[(s k).ipwTerm (piB k) pos piE 0; P])
    (fun k => lt_of_le_of_ne (variance_nonneg _ _) (hv k).symm) (by simpa using hg.sum_rho)
  simpa using h

/-- **C186** (what is missing: this variance can be larger than without weights). Weighted doubly robust estimates: only the
corrections are weighted, by the precisions of the loggers' doubly robust estimates. -/
theorem C186_weighted_dr_partial (hs : LoggedBy s P D piB m) (hind : Independent s P) (hg : Grows N rho)
    (hE : ∀ k, Covers (piB k) pos piE) (hi : ∀ k, Integrable ((s k).ipwTerm (piB k) pos piE 0) P)
    (hq : ∀ a, Measurable fun c => q c a (pos c)) (hqi : ∀ a, Integrable (fun c => piE c a (pos c) * q c a (pos c)) D)
    (hm2 : ∀ k, MemLp ((s k).partDrTerm (piB k) pos piE q 0 0) 2 P) (h2 : ∀ k, MemLp ((s k).drTerm (piB k) pos piE q 0) 2 P)
    (hv : ∀ k, Var[(s k).drTerm (piB k) pos piE q 0; P] ≠ 0) {var : ℝ}
    (hvar : ∑ k, rho k * Var[(s k).partDrTerm (piB k) pos piE q (1 / Var[(s k).drTerm (piB k) pos piE q 0; P] /
      precision rho fun j => Var[(s j).drTerm (piB j) pos piE q 0; P]) 0; P] = var) (hpos : 0 < var)
    {lam : Lam ℝ} (hl : ∀ k, NotClipped lam (piB k) pos piE) :
    NormalErrorsOver P (fun t => ∑ k, N t k) (fun t ω => (MultiEstimator.mk .weightedDr lam false).estimatePolicyValue
      (pooled s rho piB pos piE q (N t) ω).margs) (value D pos piE m) var := by
  obtain ⟨k0⟩ := hg.loggers
  have hGm := fun k => model_meas (hE k).meas hq
  have hHm := fun k => ((hs.logger k).weightFn_meas (hE k)).mul (residual_meas (pos := pos) hq)
  have hG2 : ∀ k, MemLp (fun ω => ∑ a, piE ((s k).ctx 0 ω) a (pos ((s k).ctx 0 ω)) * q ((s k).ctx 0 ω) a (pos ((s k).ctx 0 ω))) 2 P :=
    fun k => (hm2 k).ae_eq (ae_of_all _ fun ω => by simp [partDrTerm])
  have hH2 : ∀ k, MemLp (fun ω => piE ((s k).ctx 0 ω) ((s k).act 0 ω) (pos ((s k).ctx 0 ω)) /
      piB k ((s k).ctx 0 ω) ((s k).act 0 ω) * ((s k).rew 0 ω - q ((s k).ctx 0 ω) ((s k).act 0 ω) (pos ((s k).ctx 0 ω)))) 2 P :=
    fun k => ((h2 k).sub (hG2 k)).ae_eq (ae_of_all _ fun ω => by simp [LogStream.drTerm])
  have ha : ∀ k, ∫ ω, ∑ a, piE ((s k).ctx 0 ω) a (pos ((s k).ctx 0 ω)) * q ((s k).ctx 0 ω) a (pos ((s k).ctx 0 ω)) ∂P =
      value D pos piE fun c a => q c a (pos c) := fun k => hs.value_eq k (hE k).meas hq
  refine normalErrors_precision (fun k => (hs.logger k).iid) hind hg
    (F := fun k x => (∑ a, piE x.1 a (pos x.1) * q x.1 a (pos x.1)) +
      piE x.1 x.2.1 (pos x.1) / piB k x.1 x.2.1 * (x.2.2 - q x.1 x.2.1 (pos x.1)))
    (G := fun k x => ∑ a, piE x.1 a (pos x.1) * q x.1 a (pos x.1))
    (H := fun k x => piE x.1 x.2.1 (pos x.1) / piB k x.1 x.2.1 * (x.2.2 - q x.1 x.2.1 (pos x.1)))
    (fun k => (hGm k).add (hHm k)) hGm hHm h2 hG2 hH2 (add_sub_cancel (value D pos piE fun c a => q c a (pos c)) _) ha
    (fun k => ?_) hv hvar hpos ?_
  · have h := (hs.logger k).drTerm_mean (hE k) (hi k) hq (hs.model_int hqi k)
    rw [hs.value_eq k (hE k).meas (hs.logger k).m_meas] at h
    rw [← h, ← ha k, ← integral_sub ((h2 k).integrable one_le_two) ((hG2 k).integrable one_le_two)]
    refine integral_congr_ae (ae_of_all _ fun ω => ?_)
    simp [LogStream.drTerm]
  · filter_upwards [hs.pooled_valid (pos := pos) (q := q) hg.pos (hE k0).dist] with ω hva t hk hne
    have hn : 0 < ∑ k, N t k := Finset.sum_pos (fun k _ => hk k) ⟨k0, Finset.mem_univ _⟩
    have hres : (fun j => lam.clip ((pooled s rho piB pos piE q (N t) ω).weight false j) * (pooled s rho piB pos piE q (N t) ω).residual j) =
        column (N t) (residualTerm s piB pos piE q ω) := by
      funext j
      rw [pooled_clip hl]
      rfl
    have hterm : (fun j => (pooled s rho piB pos piE q (N t) ω).modelValue j +
        lam.clip ((pooled s rho piB pos piE q (N t) ω).weight false j) * (pooled s rho piB pos piE q (N t) ω).residual j) =
        column (N t) fun k i => (s k).drTerm (piB k) pos piE q i ω := by
      funext j
      rw [pooled_clip hl, pooled_modelValue (hE k0).dist]
      rfl
    have h := C185_weighted_dr_partial (hva _ hn).base lam false (pooled_contiguous hk ω) (by
      rw [hterm]
      intro j
      exact fun h0 => hne _ ((pooled_stratumVar ω (fun k i => (s k).drTerm (piB k) pos piE q i ω) _).symm.trans h0))
    rw [hterm, hres] at h
    rw [h]
    congr 2
    · exact congrArg avg (funext fun j => pooled_modelValue (hE k0).dist _ _ _)
    · exact pooled_precision hk ω (fun k i => (s k).drTerm (piB k) pos piE q i ω) (residualTerm s piB pos piE q ω)

/-- The average of the means is the limit of the estimates. -/
theorem balanced_mean {v : ℝ} (hsh : ∀ k, Tendsto (fun t => √(∑ k, N t k : ℕ) *
      ((N t k : ℝ) / (∑ j, N t j : ℕ) - rho k)) atTop (𝓝 0)) {μ : Fin M → ℝ} (hμ : ∑ k, rho k * μ k = v) :
    Tendsto (fun t => √(∑ k, N t k : ℕ) * (∑ k, (N t k : ℝ) / (∑ j, N t j : ℕ) * μ k - v)) atTop (𝓝 0) := by
  have h : Tendsto (fun t => ∑ k, √(∑ k, N t k : ℕ) * ((N t k : ℝ) / (∑ j, N t j : ℕ) - rho k) * μ k) atTop
      (𝓝 (∑ k, 0 * μ k)) := tendsto_finsetSum _ fun k _ => (hsh k).mul_const (μ k)
  simp only [zero_mul, Finset.sum_const_zero] at h
  refine h.congr fun t => ?_
  rw [← hμ, ← Finset.sum_sub_distrib, Finset.mul_sum]
  exact Finset.sum_congr rfl fun k _ => by ring

theorem mean_of_consistent {S : Type} [MeasurableSpace S] {Z : Fin M → ℕ → Ω → S} (hZ : ∀ k, Iid P (Z k)) (hg : Grows N rho)
    {F : Fin M → S → ℝ} (hF : ∀ k, Measurable (F k)) (h1 : ∀ k, Integrable (fun ω => F k (Z k 0 ω)) P) {r : ℕ → Ω → Py ℝ} {v : ℝ}
    (hest : ∀ᵐ ω ∂P, ∀ t, 0 < ∑ k, N t k → r t ω = .ok (avg (column (N t) fun k i => F k (Z k i ω))))
    (hc : ∀ᵐ ω ∂P, ResultsTendTo (fun t => r t ω) v) : ∑ k, rho k * (∫ ω, F k (Z k 0 ω) ∂P) = v := by
  obtain ⟨ω, ⟨h2, x, h3, h4⟩, h5⟩ := ((hest.and hc).and (ae_all_iff.2 fun k => (hZ k).lln (hF k) (h1 k))).exists
  have h6 : Tendsto (fun t => avg (column (N t) fun k i => F k (Z k i ω))) atTop (𝓝 (∑ k, rho k * ∫ ω, F k (Z k 0 ω) ∂P)) :=
    hg.pooled_tendsto fun k => by simpa only [avg_meanTo (fun i => F k (Z k i ω))] using h5 k
  refine tendsto_nhds_unique h6 (h4.congr' ?_)
  filter_upwards [h3, hg.total.eventually_gt_atTop 0] with t ht hn
  rw [h2 t hn] at ht
  exact (Except.ok.inj ht).symm

/-- **C186.** Balanced inverse propensity weighting, if the loggers' shares of the rounds are the limiting shares up to less than
`1 / √n`: the average policy is the one of the limiting shares. -/
theorem C186_balanced_ipw (hs : LoggedBy s P D piB m) (hind : Independent s P) (hg : Grows N rho)
    (hsh : ∀ k, Tendsto (fun t => √(∑ k, N t k : ℕ) * ((N t k : ℝ) / (∑ j, N t j : ℕ) - rho k)) atTop (𝓝 0))
    (hE : Covers (average rho piB) pos piE) (h2 : ∀ k, MemLp ((s k).ipwTerm (average rho piB) pos piE 0) 2 P)
    (hv : ∃ k, Var[(s k).ipwTerm (average rho piB) pos piE 0; P] ≠ 0) {lam : Lam ℝ}
    (hl : NotClipped lam (average rho piB) pos piE) :
    NormalErrorsOver P (fun t => ∑ k, N t k) (fun t ω => (MultiEstimator.mk .balancedIpw lam false).estimatePolicyValue
      (pooled s rho piB pos piE q (N t) ω).margs) (value D pos piE m)
      (∑ k, rho k * Var[(s k).ipwTerm (average rho piB) pos piE 0; P]) := by
  have hFm : ∀ _ : Fin M, Measurable fun x : C × Fin A × ℝ => x.2.2 * (piE x.1 x.2.1 (pos x.1) / average rho piB x.1 x.2.1) :=
    fun _ => (measurable_snd.comp measurable_snd).mul (hs.weightAvg_meas hE)
  have hest : ∀ᵐ ω ∂P, ∀ t, 0 < ∑ k, N t k → (MultiEstimator.mk .balancedIpw lam false).estimatePolicyValue
      (pooled s rho piB pos piE q (N t) ω).margs = .ok (avg (column (N t) fun k i => (s k).ipwTerm (average rho piB) pos piE i ω)) := by
    filter_upwards [hs.pooled_valid (pos := pos) (q := q) hg.pos hE.dist] with ω hva t hn
    rw [value_balancedIpw (hva _ hn)]
    congr 2
    funext j
    rw [pooled_clip_avg hl]
    rfl
  have hi : ∀ k, Integrable (fun ω => (s k).weight (average rho piB) pos piE ω * (s k).rew 0 ω) P := fun k =>
    ((h2 k).integrable one_le_two).congr (ae_of_all _ fun ω => by simp [LogStream.ipwTerm, LogStream.weight, mul_comm])
  exact normalErrors_pooled (fun k => (hs.logger k).iid) hind hg hFm h2
    (balanced_mean hsh (mean_of_consistent (fun k => (hs.logger k).iid) hg hFm (fun k => (h2 k).integrable one_le_two) hest
      (C162_balanced_ipw hs hg hE hi hl)))
    (sum_rho_var_pos hg (fun k => variance_nonneg _ _) hv) hest

/-- **C186.** Balanced doubly robust estimates, for every reward model. -/
theorem C186_balanced_dr (hs : LoggedBy s P D piB m) (hind : Independent s P) (hg : Grows N rho)
    (hsh : ∀ k, Tendsto (fun t => √(∑ k, N t k : ℕ) * ((N t k : ℝ) / (∑ j, N t j : ℕ) - rho k)) atTop (𝓝 0))
    (hE : Covers (average rho piB) pos piE) (hi : ∀ k, Integrable ((s k).ipwTerm (average rho piB) pos piE 0) P)
    (hq : ∀ a, Measurable fun c => q c a (pos c)) (hqi : ∀ a, Integrable (fun c => piE c a (pos c) * q c a (pos c)) D)
    (h2 : ∀ k, MemLp ((s k).drTerm (average rho piB) pos piE q 0) 2 P)
    (hv : ∃ k, Var[(s k).drTerm (average rho piB) pos piE q 0; P] ≠ 0) {lam : Lam ℝ}
    (hl : NotClipped lam (average rho piB) pos piE) :
    NormalErrorsOver P (fun t => ∑ k, N t k) (fun t ω => (MultiEstimator.mk .balancedDr lam false).estimatePolicyValue
      (pooled s rho piB pos piE q (N t) ω).margs) (value D pos piE m)
      (∑ k, rho k * Var[(s k).drTerm (average rho piB) pos piE q 0; P]) := by
  have hFm : ∀ _ : Fin M, Measurable fun x : C × Fin A × ℝ => (∑ a, piE x.1 a (pos x.1) * q x.1 a (pos x.1)) +
      piE x.1 x.2.1 (pos x.1) / average rho piB x.1 x.2.1 * (x.2.2 - q x.1 x.2.1 (pos x.1)) :=
    fun _ => (model_meas hE.meas hq).add ((hs.weightAvg_meas hE).mul (residual_meas hq))
  have hest : ∀ᵐ ω ∂P, ∀ t, 0 < ∑ k, N t k → (MultiEstimator.mk .balancedDr lam false).estimatePolicyValue
      (pooled s rho piB pos piE q (N t) ω).margs = .ok (avg (column (N t) fun k i => (s k).drTerm (average rho piB) pos piE q i ω)) := by
    filter_upwards [hs.pooled_valid (pos := pos) (q := q) hg.pos hE.dist] with ω hva t hn
    rw [value_balancedDr (hva _ hn)]
    congr 2
    funext j
    rw [pooled_clip_avg hl, pooled_modelValue hE.dist]
    rfl
  have hi' : ∀ k, Integrable (fun ω => (s k).weight (average rho piB) pos piE ω * (s k).rew 0 ω) P := fun k =>
    (hi k).congr (ae_of_all _ fun ω => by simp [LogStream.ipwTerm, LogStream.weight, mul_comm])
  exact normalErrors_pooled (fun k => (hs.logger k).iid) hind hg hFm h2
    (balanced_mean hsh (mean_of_consistent (fun k => (hs.logger k).iid) hg hFm (fun k => (h2 k).integrable one_le_two) hest
      (C162_balanced_dr hs hg hE hi' hq hqi hl)))
    (sum_rho_var_pos hg (fun k => variance_nonneg _ _) hv) hest

/-! ### Two loggers

The loggers of C162: the second one contributes twice as many rounds. -/

/-- Processes made of disjoint parts of independent variables are independent. -/
theorem iIndepFun_curry {I J S : Type} [MeasurableSpace S] {X : I → J → Ω → S} (hX : ∀ i j, Measurable (X i j))
    (h : iIndepFun (fun (p : (_ : I) × J) ω => X p.1 p.2 ω) P) : iIndepFun (fun i ω j => X i j ω) P := by
  have : ∀ i j, IsProbabilityMeasure (P.map (X i j)) := fun i j => Measure.isProbabilityMeasure_map (hX i j).aemeasurable
  have hm : ∀ i, Measurable fun ω j => X i j ω := fun i => measurable_pi_lambda _ fun j => hX i j
  have h2 : ∀ i, iIndepFun (X i) P := fun i =>
    h.precomp (g := fun j => (⟨i, j⟩ : (_ : I) × J)) fun a b hab => by simpa using hab
  rw [iIndepFun_iff_map_fun_eq_infinitePi_map hm]
  have e1 : P.map (fun ω i j => X i j ω) = (P.map fun ω (p : (_ : I) × J) => X p.1 p.2 ω).map
      (MeasurableEquiv.piCurry fun (_ : I) (_ : J) => S) := by
    exact (Measure.map_map (MeasurableEquiv.measurable (MeasurableEquiv.piCurry fun (_ : I) (_ : J) => S))
      (f := fun ω (p : (_ : I) × J) => X p.1 p.2 ω) (measurable_pi_lambda _ fun p => hX p.1 p.2)).symm
  have e2 : (P.map fun ω (p : (_ : I) × J) => X p.1 p.2 ω) = Measure.infinitePi fun p : (_ : I) × J => P.map (X p.1 p.2) :=
    h.map_fun_eq_infinitePi_map (X := fun (p : (_ : I) × J) ω => X p.1 p.2 ω) fun p => hX p.1 p.2
  rw [e1, e2]
  refine (Measure.infinitePi_map_piCurry fun i j => P.map (X i j)).trans ?_
  congr 1
  funext i
  rw [(h2 i).map_fun_eq_infinitePi_map (hX i)]

theorem exLoggers_independent (d : Fin 2 → Bool → Fin 4 → Fin 2) : Independent (fun k => exLogger (d k) k) exDieMeasure := by
  have hp : ∀ (k : Fin 2) (i : ℕ), Measurable fun ω : ℕ → ExDie =>
      ((exLogger (d k) k).ctx i ω, (exLogger (d k) k).act i ω, (exLogger (d k) k).rew i ω) := fun k i =>
    ((exLogger_logged (d k) k).ctx_meas i).prodMk (((exLogger_logged (d k) k).act_meas i).prodMk ((exLogger_logged (d k) k).rew_meas i))
  refine iIndepFun_curry hp ?_
  have h1 : iIndepFun (fun (j : ℕ) (ω : ℕ → ExDie) => ω j) exDieMeasure :=
    iIndepFun_infinitePi (X := fun _ x => x) fun _ => measurable_id
  have h2 := h1.precomp (g := fun p : (_ : Fin 2) × ℕ => 2 * p.2 + p.1) fun a b h => by
    obtain ⟨a1, a2⟩ := a
    obtain ⟨b1, b2⟩ := b
    have h0 : 2 * a2 + (a1 : ℕ) = 2 * b2 + b1 := h
    have e1 : a1 = b1 := Fin.ext (by omega)
    have e2 : a2 = b2 := by omega
    rw [e1, e2]
  exact h2.comp (fun p o => (o.1, d p.1 o.1 o.2.1, exMean o.1 (d p.1 o.1 o.2.1) + if o.2.2 then 1 else -1)) fun p =>
    measurable_of_finite _

theorem exDie_memLp (j : ℕ) (g : ExDie → ℝ) : MemLp (fun ω => g (ω j)) 2 exDieMeasure := by
  obtain ⟨B, hB⟩ := (Set.finite_range fun o : ExDie => ‖g o‖).bddAbove
  exact MemLp.of_bound ((measurable_of_finite g).comp (measurable_pi_apply j)).aestronglyMeasurable B
    (ae_of_all _ fun ω => hB ⟨ω j, rfl⟩)

theorem exDie_variance (j : ℕ) (g : ExDie → ℝ) : Var[fun ω => g (ω j); exDieMeasure] = ∑ o, (g o - ∑ o, g o / 16) ^ 2 / 16 := by
  rw [variance_eq_integral (exDie_memLp j g).aestronglyMeasurable.aemeasurable, exDie_integral]
  exact exDie_integral j fun o => (g o - ∑ o, g o / 16) ^ 2

theorem exLoggers_shares (k : Fin 2) : Tendsto (fun t => √(∑ k : Fin 2, (k + 1 : ℕ) * t : ℕ) *
    ((((k + 1 : ℕ) * t : ℕ) : ℝ) / (∑ j : Fin 2, (j + 1 : ℕ) * t : ℕ) - ![1 / 3, 2 / 3] k)) atTop (𝓝 0) := by
  refine tendsto_const_nhds.congr' ?_
  filter_upwards [eventually_gt_atTop 0] with t ht
  have : (t : ℝ) ≠ 0 := by exact_mod_cast ht.ne'
  have e : (((k + 1 : ℕ) * t : ℕ) : ℝ) / (∑ j : Fin 2, (j + 1 : ℕ) * t : ℕ) - ![1 / 3, 2 / 3] k = 0 := by
    fin_cases k <;> simp [Fin.sum_univ_two] <;> field_simp <;> norm_num
  rw [e, mul_zero]

/-- An evaluation policy that takes both actions equally often, as the first logger does. -/
noncomputable def exHalf (_ : Bool) (_ : Fin 2) (_ : Fin 1) : ℝ := 1 / 2

/-- A reward model that is far off. -/
def exFar (c : Bool) (_ : Fin 2) (_ : Fin 1) : ℝ := if c then 10 else -10

theorem exHalf_covers (k : Fin 2) : LogStream.Covers (exDiePolicy (exDice k)) (fun _ : Bool => (0 : Fin 1)) exHalf :=
  ⟨fun c l => ⟨fun a => by norm_num [exHalf], by norm_num [exHalf]⟩, fun _ => measurable_of_finite _, fun c a h => by
    exfalso
    rw [exDice_policy] at h
    revert h
    fin_cases k <;> fin_cases a <;> simp⟩

noncomputable def exPart (k : Fin 2) (w : ℝ) (o : ExDie) : ℝ :=
  (∑ a, exHalf o.1 a 0 * exFar o.1 a 0) + w * (exHalf o.1 (exDice k o.1 o.2.1) 0 / exDiePolicy (exDice k) o.1 (exDice k o.1 o.2.1) *
    (exMean o.1 (exDice k o.1 o.2.1) + (if o.2.2 then 1 else -1) - exFar o.1 (exDice k o.1 o.2.1) 0))

theorem exPart_variance (k : Fin 2) (w : ℝ) :
    Var[(exLogger (exDice k) k).partDrTerm (exDiePolicy (exDice k)) (fun _ => (0 : Fin 1)) exHalf exFar w 0; exDieMeasure] =
      ∑ o, (exPart k w o - ∑ o, exPart k w o / 16) ^ 2 / 16 :=
  exDie_variance (2 * 0 + k) (exPart k w)

theorem exDice_values (c : Bool) : (exDice 0 c 0 = 0 ∧ exDice 0 c 1 = 0 ∧ exDice 0 c 2 = 1 ∧ exDice 0 c 3 = 1) ∧
    exDice 1 c 0 = 0 ∧ exDice 1 c 1 = 1 ∧ exDice 1 c 2 = 1 ∧ exDice 1 c 3 = 1 := by
  revert c
  decide

theorem exPart_first (w : ℝ) : ∑ o, (exPart 0 w o - ∑ o, exPart 0 w o / 16) ^ 2 / 16 = 100 - 215 * w + 1867 / 16 * w ^ 2 := by
  simp only [exPart, exDice_policy]
  simp only [Fintype.sum_prod_type, Fintype.sum_bool, Fin.sum_univ_two, Fin.sum_univ_four, (exDice_values _).1]
  norm_num [exHalf, exFar, exMean]
  ring

theorem exPart_second (w : ℝ) : ∑ o, (exPart 1 w o - ∑ o, exPart 1 w o / 16) ^ 2 / 16 = 100 - 215 * w + 7685 / 48 * w ^ 2 := by
  simp only [exPart, exDice_policy]
  simp only [Fintype.sum_prod_type, Fintype.sum_bool, Fin.sum_univ_two, Fin.sum_univ_four, (exDice_values _).2]
  norm_num [exHalf, exFar, exMean]
  ring

theorem exDr_variance (k : Fin 2) :
    Var[(exLogger (exDice k) k).drTerm (exDiePolicy (exDice k)) (fun _ => (0 : Fin 1)) exHalf exFar 0; exDieMeasure] =
      ![27 / 16, 2165 / 48] k := by
  have e : (exLogger (exDice k) k).drTerm (exDiePolicy (exDice k)) (fun _ => (0 : Fin 1)) exHalf exFar 0 =
      (exLogger (exDice k) k).partDrTerm (exDiePolicy (exDice k)) (fun _ => (0 : Fin 1)) exHalf exFar 1 0 := by
    funext ω
    simp [LogStream.drTerm, partDrTerm]
  rw [e, exPart_variance]
  match k with
  | 0 => rw [exPart_first]; norm_num
  | 1 => rw [exPart_second]; norm_num

theorem exHalf_value : MultiStream.value exCtxLaw (fun _ => (0 : Fin 1)) exHalf exMean = 9 / 4 := by
  rw [← (exLoggers_logged exDice).value_eq 0 (fun _ => measurable_of_finite _) fun _ => measurable_of_finite _]
  have := exDie_integral (2 * 0 + 0) fun o => ∑ a, exHalf o.1 a 0 * exMean o.1 a
  refine Eq.trans this ?_
  simp only [Fintype.sum_prod_type, Fintype.sum_bool, Fin.sum_univ_two, Fin.sum_univ_four]
  norm_num [exHalf, exMean]

noncomputable def exIpw (b : Bool → Fin 2 → ℝ) (k : Fin 2) (o : ExDie) : ℝ :=
  (exMean o.1 (exDice k o.1 o.2.1) + if o.2.2 then 1 else -1) * (exHalf o.1 (exDice k o.1 o.2.1) 0 / b o.1 (exDice k o.1 o.2.1))

theorem exIpw_variance (b : Bool → Fin 2 → ℝ) (k : Fin 2) :
    Var[(exLogger (exDice k) k).ipwTerm b (fun _ => (0 : Fin 1)) exHalf 0; exDieMeasure] =
      ∑ o, (exIpw b k o - ∑ o, exIpw b k o / 16) ^ 2 / 16 :=
  exDie_variance (2 * 0 + k) (exIpw b k)

theorem exIpw_own (k : Fin 2) :
    Var[(exLogger (exDice k) k).ipwTerm (exDiePolicy (exDice k)) (fun _ => (0 : Fin 1)) exHalf 0; exDieMeasure] =
      ![27 / 16, 55 / 16] k := by
  rw [exIpw_variance]
  simp only [exIpw, exDice_policy]
  match k with
  | 0 =>
    simp only [Fintype.sum_prod_type, Fintype.sum_bool, Fin.sum_univ_four, (exDice_values _).1]
    norm_num [exHalf, exMean]
  | 1 =>
    simp only [Fintype.sum_prod_type, Fintype.sum_bool, Fin.sum_univ_four, (exDice_values _).2]
    norm_num [exHalf, exMean]

theorem exAverage (c : Bool) (a : Fin 2) : average ![1 / 3, 2 / 3] (fun k => exDiePolicy (exDice k)) c a = ![1 / 3, 2 / 3] a := by
  simp only [MultiStream.average, exDice_policy, Fin.sum_univ_two]
  fin_cases a <;> norm_num

theorem exIpw_average (k : Fin 2) : Var[(exLogger (exDice k) k).ipwTerm (average ![1 / 3, 2 / 3] fun k => exDiePolicy (exDice k))
    (fun _ => (0 : Fin 1)) exHalf 0; exDieMeasure] = ![747 / 256, 1935 / 1024] k := by
  rw [exIpw_variance]
  simp only [exIpw, exAverage]
  match k with
  | 0 =>
    simp only [Fintype.sum_prod_type, Fintype.sum_bool, Fin.sum_univ_four, (exDice_values _).1]
    norm_num [exHalf, exMean]
  | 1 =>
    simp only [Fintype.sum_prod_type, Fintype.sum_bool, Fin.sum_univ_four, (exDice_values _).2]
    norm_num [exHalf, exMean]

/-- The estimates of a kind from the two example loggers, `t` rounds of the first and `2 t` of the second. -/
noncomputable def exEstimates (kind : MultiKind) (t : ℕ) (ω : ℕ → Bool × Fin 4 × Bool) : Py ℝ :=
  (MultiEstimator.mk kind .inf false).estimatePolicyValue (pooled (fun k => exLogger (exDice k) k) ![1 / 3, 2 / 3]
    (fun k => exDiePolicy (exDice k)) (fun _ => (0 : Fin 1)) exHalf exFar (fun k : Fin 2 => (k + 1 : ℕ) * t) ω).margs

/-- The variance falls from 137/48 (2.85…) for naive to 4455/1744 (2.55…) for weighted inverse propensity weighting, and to
1143/512 (2.23…) for balanced. -/
example :
    NormalErrorsOver exDieMeasure (fun t => ∑ k : Fin 2, (k + 1 : ℕ) * t) (exEstimates .naiveIpw) (9 / 4) (137 / 48) ∧
      NormalErrorsOver exDieMeasure (fun t => ∑ k : Fin 2, (k + 1 : ℕ) * t) (exEstimates .weightedIpw) (9 / 4) (4455 / 1744) ∧
      NormalErrorsOver exDieMeasure (fun t => ∑ k : Fin 2, (k + 1 : ℕ) * t) (exEstimates .balancedIpw) (9 / 4) (1143 / 512) := by
  have hl := exLoggers_logged exDice
  have h2 : ∀ (b : Bool → Fin 2 → ℝ) (k : Fin 2), MemLp ((exLogger (exDice k) k).ipwTerm b (fun _ => (0 : Fin 1)) exHalf 0) 2
      exDieMeasure := fun b k => exDie_memLp (2 * 0 + k) (exIpw b k)
  have hn : ∀ k, NotClipped .inf (exDiePolicy (exDice k)) (fun _ => (0 : Fin 1)) exHalf := fun k l h => by cases h
  rw [← exHalf_value]
  refine ⟨?_, ?_, ?_⟩
  · have h := C186_naive_ipw (q := exFar) hl (exLoggers_independent exDice) exLoggers_grow exHalf_covers (fun k => h2 _ k)
      ⟨0, by rw [exIpw_own]; norm_num⟩ hn
    simp only [exIpw_own] at h
    have e : ∑ k : Fin 2, (![1 / 3, 2 / 3] : Fin 2 → ℝ) k * (![27 / 16, 55 / 16] : Fin 2 → ℝ) k = 137 / 48 := by
      norm_num [Fin.sum_univ_two]
    rw [e] at h
    exact h
  · have h := C186_weighted_ipw (q := exFar) hl (exLoggers_independent exDice) exLoggers_grow exHalf_covers (fun k => h2 _ k)
      (fun k => by rw [exIpw_own]; fin_cases k <;> norm_num) hn
    simp only [exIpw_own] at h
    have e : (precision (![1 / 3, 2 / 3] : Fin 2 → ℝ) fun k => (![27 / 16, 55 / 16] : Fin 2 → ℝ) k)⁻¹ = 4455 / 1744 := by
      norm_num [precision, Fin.sum_univ_two]
    rw [e] at h
    exact h
  · have h := C186_balanced_ipw (q := exFar) (lam := .inf) hl (exLoggers_independent exDice) exLoggers_grow exLoggers_shares
      ⟨fun c l => ⟨fun a => by norm_num [exHalf], by norm_num [exHalf]⟩, fun _ => measurable_of_finite _, fun c a h => by
        exfalso
        rw [exAverage] at h
        revert h
        fin_cases a <;> norm_num⟩ (fun k => h2 _ k) ⟨0, by rw [exIpw_average]; norm_num⟩ fun l h => by cases h
    simp only [exIpw_average] at h
    have e : ∑ k : Fin 2, (![1 / 3, 2 / 3] : Fin 2 → ℝ) k * (![747 / 256, 1935 / 1024] : Fin 2 → ℝ) k = 1143 / 512 := by
      norm_num [Fin.sum_univ_two]
    rw [e] at h
    exact h

/-- **C186 fails** for weighted doubly robust estimation, here with a reward model that is far off: weighting by precision
increases the variance of the errors from 4411/144 (30.6…) to 16390520435/86638864 (189.1…). -/
theorem not_C186_weighted_dr :
    NormalErrorsOver exDieMeasure (fun t => ∑ k : Fin 2, (k + 1 : ℕ) * t) (exEstimates .naiveDr) (9 / 4) (4411 / 144) ∧
      NormalErrorsOver exDieMeasure (fun t => ∑ k : Fin 2, (k + 1 : ℕ) * t) (exEstimates .weightedDr) (9 / 4)
        (16390520435 / 86638864) ∧
      (4411 / 144 : ℝ) < 16390520435 / 86638864 := by
  have hl := exLoggers_logged exDice
  have hfin : IsProbabilityMeasure exCtxLaw := by
    unfold exCtxLaw
    exact Measure.isProbabilityMeasure_map (measurable_of_finite _).aemeasurable
  have hi : ∀ k : Fin 2, Integrable ((exLogger (exDice k) k).ipwTerm (exDiePolicy (exDice k)) (fun _ => (0 : Fin 1)) exHalf 0)
      exDieMeasure := fun k => exDie_integrable (2 * 0 + k) fun o => (exMean o.1 (exDice k o.1 o.2.1) + if o.2.2 then 1 else -1) *
    (exHalf o.1 (exDice k o.1 o.2.1) 0 / exDiePolicy (exDice k) o.1 (exDice k o.1 o.2.1))
  have hq : ∀ a : Fin 2, Measurable fun c : Bool => exFar c a 0 := fun _ => measurable_of_finite _
  have hqi : ∀ a, Integrable (fun c : Bool => exHalf c a 0 * exFar c a 0) exCtxLaw := fun a => Integrable.of_finite
  have hn : ∀ k, NotClipped .inf (exDiePolicy (exDice k)) (fun _ => (0 : Fin 1)) exHalf := fun k l h => by cases h
  have h2 : ∀ (k : Fin 2) (w : ℝ), MemLp ((exLogger (exDice k) k).partDrTerm (exDiePolicy (exDice k)) (fun _ => (0 : Fin 1)) exHalf
      exFar w 0) 2 exDieMeasure := fun k w => exDie_memLp (2 * 0 + k) (exPart k w)
  have h2' : ∀ k : Fin 2, MemLp ((exLogger (exDice k) k).drTerm (exDiePolicy (exDice k)) (fun _ => (0 : Fin 1)) exHalf exFar 0) 2
      exDieMeasure := fun k => (h2 k 1).ae_eq (ae_of_all _ fun ω => by simp [LogStream.drTerm, partDrTerm])
  rw [← exHalf_value]
  refine ⟨?_, ?_, by norm_num⟩
  · have h := C186_naive_dr hl (exLoggers_independent exDice) exLoggers_grow exHalf_covers hi hq hqi h2'
      ⟨0, by rw [exDr_variance]; norm_num⟩ hn
    simp only [exDr_variance] at h
    have e : ∑ k : Fin 2, (![1 / 3, 2 / 3] : Fin 2 → ℝ) k * (![27 / 16, 2165 / 48] : Fin 2 → ℝ) k = 4411 / 144 := by
      norm_num [Fin.sum_univ_two]
    rw [e] at h
    exact h
  · refine C186_weighted_dr_partial hl (exLoggers_independent exDice) exLoggers_grow exHalf_covers hi hq hqi (fun k => h2 k 0) h2'
      (fun k => by rw [exDr_variance]; fin_cases k <;> norm_num) ?_ (by norm_num) hn
    simp only [exPart_variance, exDr_variance, precision, Fin.sum_univ_two, exPart_first, exPart_second]
    norm_num

end Obp
