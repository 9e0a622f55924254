import Verif.Spec.MultiResampling
import Verif.Lemmas.BootstrapArray
import Verif.Lemmas.IidClt
import Verif.Lemmas.MultiStream

set_option linter.unusedSectionVars false

/-!
# Bootstrap intervals of logs pooled from several loggers
-/

namespace Obp
open MeasureTheory ProbabilityTheory Filter Topology MultiStream Log

variable {Ω : Type} [mΩ : MeasurableSpace Ω] {P : Measure Ω} [IsProbabilityMeasure P]

/-- Draws that do not depend on the log do not depend on samples computed from it. -/
def IndependentDraws.samples {T : Type} [MeasurableSpace T] {Z : Ω → T} {B : ℕ} (R : IndependentDraws P Z B) {F : T → ℕ → ℝ}
    (hF : Measurable F) : Resampling P (fun i ω => F (Z ω) i) B where
  idx := R.idx
  idx_meas := R.idx_meas
  equally_likely n f S hS := R.equally_likely n f (F ⁻¹' S) (hF hS)

theorem ceil_bound {B : ℕ} (p : ℕ) : ((B : ℝ) - 1 - 2 * p) / (B + 1) ≤ ((B - 1 - 2 * p : ℕ) : ℝ) / (B + 1) := by
  gcongr
  rw [sub_le_iff_le_add, sub_le_iff_le_add]
  norm_cast
  omega

theorem floor_bound {B : ℕ} (hB : 1 ≤ B) {alpha : ℝ} (h0 : 0 ≤ alpha) (h1 : alpha ≤ 1) :
    ((B - 1 - 2 * ⌊alpha / 2 * ((B : ℝ) - 1)⌋₊ : ℕ) : ℝ) / (B + 1) =
      ((B : ℝ) - 1 - 2 * ⌊alpha / 2 * ((B : ℝ) - 1)⌋₊) / (B + 1) := by
  have hB' : (1 : ℝ) ≤ B := by exact_mod_cast hB
  have hp0 : 0 ≤ alpha / 2 * ((B : ℝ) - 1) := mul_nonneg (by linarith) (by linarith)
  have hfl := Nat.floor_le hp0
  have h3 : 2 * ⌊alpha / 2 * ((B : ℝ) - 1)⌋₊ ≤ B - 1 := by
    have : (2 * ⌊alpha / 2 * ((B : ℝ) - 1)⌋₊ : ℝ) ≤ ((B - 1 : ℕ) : ℝ) := by
      rw [Nat.cast_sub hB, Nat.cast_one]
      nlinarith
    exact_mod_cast this
  rw [Nat.cast_sub h3, Nat.cast_sub hB]
  push_cast
  rfl

namespace Resampling
variable {X : ℕ → ℕ → Ω → ℝ} {B : ℕ}

/-- Samples whose average has normal errors with at most their variance. -/
theorem covers_array (R : ∀ t, Resampling P (X t) B) (hX : ∀ t i, Measurable (X t i)) {n : ℕ → ℕ}
    (hn : Tendsto n atTop atTop) {v a m s2 : ℝ} (ha : 0 < a) (hab : a ≤ s2 - m ^ 2)
    (hcdf : ∀ x, Tendsto (fun t => P.real {ω | √(n t) * (meanTo (fun i => X t i ω) (n t) - v) ≤ x}) atTop
      (𝓝 ((gaussianReal 0 a.toNNReal).real (Set.Iic x))))
    (h1 : ∀ᵐ ω ∂P, Tendsto (fun t => meanTo (fun i => X t i ω) (n t)) atTop (𝓝 m))
    (h2 : ∀ᵐ ω ∂P, Tendsto (fun t => meanTo (fun i => X t i ω ^ 2) (n t)) atTop (𝓝 s2))
    (h3 : ∀ᵐ ω ∂P, ∀ ε : ℝ, 0 < ε → ∀ᶠ t in atTop, ∀ k < n t, |X t k ω| ≤ ε * √(n t)) (hB : 1 ≤ B) {alpha : ℝ} (g0 : 0 ≤ alpha)
    (g1 : alpha ≤ 1) :
    CoversAtLeast (fun t => P.real {ω | (R t).Contains alpha v (n t) ω}) alpha B ∧
      (a = s2 - m ^ 2 → NearlyCovers (fun t => P.real {ω | (R t).Contains alpha v (n t) ω}) alpha B) := by
  have hlim := tendsto_midRank_array R hX hn ha (ha.trans_le hab) hcdf h1 h2 h3
  have hlow : CoversAtLeast (fun t => P.real {ω | (R t).Contains alpha v (n t) ω}) alpha B := by
    intro ε hε
    have hg := gaussian_midRank (a := a.toNNReal) (b := (s2 - m ^ 2).toNNReal)
      (by rw [ne_eq, Real.toNNReal_eq_zero, not_le]; exact ha) (Real.toNNReal_le_toNNReal hab) B ⌈alpha / 2 * ((B : ℝ) - 1)⌉₊
    have hlo := (tendsto_order.1 (hlim ⌈alpha / 2 * ((B : ℝ) - 1)⌉₊)).1 _ (sub_lt_self _ hε)
    filter_upwards [hlo, hn.eventually_gt_atTop 0] with t ht hnt
    refine lt_of_lt_of_le (((sub_le_sub_right ((ceil_bound _).trans hg) ε)).trans_lt ht) (measureReal_mono fun ω hω => ?_)
    exact (R t).contains_of_midRank hnt hB g0 g1 hω
  refine ⟨hlow, fun he ε hε => ?_⟩
  have heq : (Measure.pi (mixedLaw (gaussianReal 0 a.toNNReal) (gaussianReal 0 (s2 - m ^ 2).toNNReal) B)).real
      (midRank ⌊alpha / 2 * ((B : ℝ) - 1)⌋₊ none) = ((B - 1 - 2 * ⌊alpha / 2 * ((B : ℝ) - 1)⌋₊ : ℕ) : ℝ) / (B + 1) := by
    rw [← he]
    have : NullSingletonClass (gaussianReal 0 a.toNNReal) :=
      nullSingletonClass_gaussianReal (by rw [ne_eq, Real.toNNReal_eq_zero, not_le]; exact ha)
    have e1 : mixedLaw (gaussianReal 0 a.toNNReal) (gaussianReal 0 a.toNNReal) B = fun _ => gaussianReal 0 a.toNNReal := by
      funext o
      cases o <;> rfl
    have e2 := pi_midRank (gaussianReal 0 a.toNNReal) ⌊alpha / 2 * ((B : ℝ) - 1)⌋₊ (none : Option (Fin B))
    rw [e1, e2, Fintype.card_option, Fintype.card_fin]
    push_cast
    congr 2
  have hup := (tendsto_order.1 (hlim ⌊alpha / 2 * ((B : ℝ) - 1)⌋₊)).2 _ (lt_add_of_pos_right _ hε)
  filter_upwards [hlow ε hε, hup, hn.eventually_gt_atTop 0] with t ht1 ht2 hnt
  refine ⟨ht1, ?_⟩
  rw [heq, floor_bound hB g0 g1] at ht2
  exact lt_of_le_of_lt (measureReal_mono fun ω hω => (R t).midRank_of_contains hnt hB g0 g1 hω) ht2

end Resampling

/-! ### Events that differ with vanishing probability -/

theorem real_diff {S T E : Set Ω} (h : ∀ᵐ ω ∂P, ω ∉ E → (ω ∈ S ↔ ω ∈ T)) : |P.real S - P.real T| ≤ P.real E := by
  have key : ∀ S T : Set Ω, (∀ᵐ ω ∂P, ω ∉ E → (ω ∈ S ↔ ω ∈ T)) → P.real S - P.real T ≤ P.real E := by
    intro S T h
    have h1 : P.real S ≤ P.real (T ∪ E) := by
      refine ENNReal.toReal_mono (measure_ne_top _ _) (measure_mono_ae ?_)
      filter_upwards [h] with ω hω hS
      by_cases hb : ω ∈ E
      · exact Or.inr hb
      · exact Or.inl ((hω hb).1 hS)
    have h2 := measureReal_union_le (μ := P) T E
    linarith
  rw [abs_le]
  refine ⟨?_, key S T h⟩
  have := key T S (by filter_upwards [h] with ω hω hb using (hω hb).symm)
  linarith

theorem CoversAtLeast.of_diff {c c' e : ℕ → ℝ} {alpha : ℝ} {B : ℕ} (h : CoversAtLeast c alpha B)
    (hd : ∀ᶠ t in atTop, |c' t - c t| ≤ e t) (he : Tendsto e atTop (𝓝 0)) : CoversAtLeast c' alpha B := by
  intro ε hε
  filter_upwards [h (ε / 2) (by positivity), hd, (tendsto_order.1 he).2 (ε / 2) (by positivity)] with t h1 h2 h3
  have := (abs_le.1 h2).1
  linarith

theorem NearlyCovers.of_diff {c c' e : ℕ → ℝ} {alpha : ℝ} {B : ℕ} (h : NearlyCovers c alpha B)
    (hd : ∀ᶠ t in atTop, |c' t - c t| ≤ e t) (he : Tendsto e atTop (𝓝 0)) : NearlyCovers c' alpha B := by
  intro ε hε
  filter_upwards [h (ε / 2) (by positivity), hd, (tendsto_order.1 he).2 (ε / 2) (by positivity)] with t h1 h2 h3
  have h4 := abs_le.1 h2
  constructor
  · linarith [h1.1, h4.1]
  · linarith [h1.2, h4.2]

/-! ### Strata -/

/-- The first `n` numbers of a sequence. -/
def padded {n : ℕ} (c : Fin n → ℝ) (i : ℕ) : ℝ := if h : i < n then c ⟨i, h⟩ else 0

theorem padded_mean {n : ℕ} (c : Fin n → ℝ) (g : ℝ → ℝ) : meanTo (fun i => g (padded c i)) n = avg fun i => g (c i) := by
  rw [meanTo, avg, Finset.sum_range]
  simp [padded]

variable {M : ℕ} {N : ℕ → Fin M → ℕ} {rho : Fin M → ℝ} {S : Type} [MeasurableSpace S] {Z : Fin M → ℕ → Ω → S}

theorem avg_index (x : ℕ → ℝ) (n : ℕ) : (avg fun i : Fin n => x i) = meanTo x n := (meanTo_avg x n).symm

/-- Means of rounds with weights per logger that converge. -/
theorem MultiStream.Grows.mean_weights (hg : Grows N rho) {f g : Fin M → ℕ → ℝ} {W : ℕ → Fin M → ℝ} {a b w : Fin M → ℝ}
    (hf : ∀ k, Tendsto (meanTo (f k)) atTop (𝓝 (a k))) (hh : ∀ k, Tendsto (meanTo (g k)) atTop (𝓝 (b k)))
    (hW : ∀ k, Tendsto (fun t => W t k) atTop (𝓝 (w k))) :
    Tendsto (fun t => ∑ k, (N t k : ℝ) / (∑ j, N t j : ℕ) * (meanTo (f k) (N t k) + W t k * meanTo (g k) (N t k))) atTop
      (𝓝 (∑ k, rho k * (a k + w k * b k))) :=
  tendsto_finsetSum _ fun k _ => (hg.share k).mul (((hf k).comp (hg.size k)).add ((hW k).mul ((hh k).comp (hg.size k))))

theorem avg_column_weights (N : Fin M → ℕ) (f : Fin M → ℕ → ℝ) :
    avg (column N f) = ∑ k, (N k : ℝ) / (∑ j, N j : ℕ) * meanTo (f k) (N k) := by
  rw [avg_column]
  exact Finset.sum_congr rfl fun k _ => by rw [avg_index (f k)]

theorem jensen_shares {c : Fin M → ℝ} (h0 : ∀ k, 0 < rho k) (h1 : ∑ k, rho k = 1) : (∑ k, rho k * c k) ^ 2 ≤ ∑ k, rho k * c k ^ 2 := by
  have h := Finset.sum_sq_le_sum_mul_sum_of_sq_le_mul Finset.univ (r := fun k => rho k * c k)
    (f := rho) (g := fun k => rho k * c k ^ 2) (fun k _ => (h0 k).le) (fun k _ => mul_nonneg (h0 k).le (sq_nonneg _))
    fun k _ => le_of_eq (by ring)
  rwa [h1, one_mul] at h

theorem lln_strata (hZ : ∀ k, Iid P (Z k)) (F : Fin M → S → ℝ) (hF : ∀ k, Measurable (F k))
    (hi : ∀ k, Integrable (fun ω => F k (Z k 0 ω)) P) :
    ∀ᵐ ω ∂P, ∀ k, Tendsto (fun n => meanTo (fun i => F k (Z k i ω)) n) atTop (𝓝 (∫ ω, F k (Z k 0 ω) ∂P)) :=
  ae_all_iff.2 fun k => Iid.lln (hZ k) (hF k) (hi k)

/-- Intervals bootstrapped from the pooled rounds of independent loggers. -/
theorem covers_strata (hZ : ∀ k, Iid P (Z k)) (hg : Grows N rho) {G H : Fin M → S → ℝ} (hG : ∀ k, Measurable (G k))
    (hH : ∀ k, Measurable (H k)) (hG2 : ∀ k, MemLp (fun ω => G k (Z k 0 ω)) 2 P) (hH2 : ∀ k, MemLp (fun ω => H k (Z k 0 ω)) 2 P)
    {W : ℕ → (Fin M → ℕ → S) → Fin M → ℝ} (hWm : ∀ t k, Measurable fun z => W t z k) {w : Fin M → ℝ}
    (hW : ∀ᵐ ω ∂P, ∀ k, Tendsto (fun t => W t (fun k i => Z k i ω) k) atTop (𝓝 (w k)))
    {E : ℕ → Set Ω} (hE : Tendsto (fun t => P.real (E t)) atTop (𝓝 0)) {r : ℕ → Ω → Py ℝ} {v a : ℝ}
    (hr : NormalErrorsOver P (fun t => ∑ k, N t k) r v a)
    (hvar : ∑ k, rho k * Var[fun ω => G k (Z k 0 ω) + w k * H k (Z k 0 ω); P] = a)
    (hest : ∀ᵐ ω ∂P, ∀ t, (∀ k, 0 < N t k) → ω ∉ E t → r t ω =
      .ok (avg (column (N t) fun k i => G k (Z k i ω) + W t (fun k i => Z k i ω) k * H k (Z k i ω))))
    {iv : ℕ → Ω → CiArgs ℝ → List (List ℕ) → Py (CiOut ℝ)}
    (hiv : ∀ᵐ ω ∂P, ∀ t, (∀ k, 0 < N t k) → ω ∉ E t → ∀ c draws, iv t ω c draws = bootstrapCI
      (List.ofFn (column (N t) fun k i => G k (Z k i ω) + W t (fun k i => Z k i ω) k * H k (Z k i ω))) c draws)
    {B : ℕ} (hB : 1 ≤ B) (R : IndependentDraws P (fun ω k i => Z k i ω) B) {alpha : ℝ} (h0 : 0 ≤ alpha) (h1 : alpha ≤ 1) :
    CoversAtLeast (fun t => P.real {ω | ReturnsAround (iv t ω (ciCall alpha B) (R.draws (∑ k, N t k) ω)) v}) alpha B ∧
      ((∀ k k', ∫ ω, G k (Z k 0 ω) + w k * H k (Z k 0 ω) ∂P = ∫ ω, G k' (Z k' 0 ω) + w k' * H k' (Z k' 0 ω) ∂P) →
        NearlyCovers (fun t => P.real {ω | ReturnsAround (iv t ω (ciCall alpha B) (R.draws (∑ k, N t k) ω)) v}) alpha B) := by
  -- the samples
  let n : ℕ → ℕ := fun t => ∑ k, N t k
  let col : ℕ → (Fin M → ℕ → S) → ℕ → ℝ := fun t z => padded (column (N t) fun k i => G k (z k i) + W t z k * H k (z k i))
  have hcol : ∀ t, Measurable (col t) := fun t => by
    refine measurable_pi_lambda _ fun i => ?_
    simp only [col, padded]
    split_ifs with h
    · have hz : ∀ (k : Fin M) (i : ℕ), Measurable fun z : Fin M → ℕ → S => z k i := fun k i =>
        (measurable_pi_apply i).comp (measurable_pi_apply k)
      exact ((hG _).comp (hz _ _)).add ((hWm t _).mul ((hH _).comp (hz _ _)))
    · exact measurable_const
  have hZm : Measurable fun ω k i => Z k i ω := measurable_pi_lambda _ fun k => measurable_pi_lambda _ fun i => (hZ k).meas i
  let X : ℕ → ℕ → Ω → ℝ := fun t i ω => col t (fun k i => Z k i ω) i
  let Q : ∀ t, Resampling P (X t) B := fun t => R.samples (hcol t)
  have hX : ∀ t i, Measurable (X t i) := fun t i => ((measurable_pi_apply i).comp (hcol t)).comp hZm
  have hpad : ∀ (g : ℝ → ℝ) t ω, meanTo (fun i => g (X t i ω)) (n t) =
      ∑ k, (N t k : ℝ) / (n t : ℕ) * meanTo (fun i => g (G k (Z k i ω) + W t (fun k i => Z k i ω) k * H k (Z k i ω))) (N t k) :=
    fun g t ω => (padded_mean _ g).trans
      (avg_column_weights (N t) fun k i => g (G k (Z k i ω) + W t (fun k i => Z k i ω) k * H k (Z k i ω)))
  -- means and mean squares
  have hi2 : ∀ k, Integrable (fun ω => G k (Z k 0 ω) * H k (Z k 0 ω)) P := fun k => (hG2 k).integrable_mul (hH2 k)
  have l1 := lln_strata hZ G hG fun k => (hG2 k).integrable one_le_two
  have l2 := lln_strata hZ H hH fun k => (hH2 k).integrable one_le_two
  have l3 := lln_strata hZ (fun k x => G k x ^ 2) (fun k => (hG k).pow_const 2) fun k => (hG2 k).integrable_sq
  have l4 := lln_strata hZ (fun k x => H k x ^ 2) (fun k => (hH k).pow_const 2) fun k => (hH2 k).integrable_sq
  have l5 := lln_strata hZ (fun k x => G k x * H k x) (fun k => (hG k).mul (hH k)) hi2
  let mu : Fin M → ℝ := fun k => (∫ ω, G k (Z k 0 ω) ∂P) + w k * ∫ ω, H k (Z k 0 ω) ∂P
  have hmu : ∀ k, ∫ ω, G k (Z k 0 ω) + w k * H k (Z k 0 ω) ∂P = mu k := fun k => by
    rw [integral_add ((hG2 k).integrable one_le_two) (((hH2 k).integrable one_le_two).const_mul _), MeasureTheory.integral_const_mul]
  have m1 : ∀ᵐ ω ∂P, Tendsto (fun t => meanTo (fun i => X t i ω) (n t)) atTop (𝓝 (∑ k, rho k * mu k)) := by
    filter_upwards [l1, l2, hW] with ω a1 a2 a3
    refine (hg.mean_weights (W := fun t k => W t (fun k i => Z k i ω) k) a1 a2 a3).congr fun t => ?_
    rw [hpad fun x => x]
    refine Finset.sum_congr rfl fun k _ => ?_
    simp only [meanTo, Finset.sum_add_distrib, ← Finset.mul_sum, n]
    ring
  have hsq : ∀ k, (∫ ω, G k (Z k 0 ω) ^ 2 ∂P) + 2 * w k * (∫ ω, G k (Z k 0 ω) * H k (Z k 0 ω) ∂P) +
      w k ^ 2 * (∫ ω, H k (Z k 0 ω) ^ 2 ∂P) = Var[fun ω => G k (Z k 0 ω) + w k * H k (Z k 0 ω); P] + mu k ^ 2 := fun k => by
    have hm : MemLp (fun ω => G k (Z k 0 ω) + w k * H k (Z k 0 ω)) 2 P := (hG2 k).add ((hH2 k).const_mul (w k))
    have e2 : ∫ ω, (fun ω => G k (Z k 0 ω) + w k * H k (Z k 0 ω)) ω ^ 2 ∂P =
        (∫ ω, G k (Z k 0 ω) ^ 2 ∂P) + 2 * w k * (∫ ω, G k (Z k 0 ω) * H k (Z k 0 ω) ∂P) +
          w k ^ 2 * (∫ ω, H k (Z k 0 ω) ^ 2 ∂P) := by
      rw [← MeasureTheory.integral_const_mul, ← MeasureTheory.integral_const_mul,
        ← integral_add (hG2 k).integrable_sq ((hi2 k).const_mul _),
        ← integral_add (f := fun ω => G k (Z k 0 ω) ^ 2 + 2 * w k * (G k (Z k 0 ω) * H k (Z k 0 ω)))
          ((hG2 k).integrable_sq.add ((hi2 k).const_mul _)) ((hH2 k).integrable_sq.const_mul _)]
      refine integral_congr_ae (ae_of_all _ fun ω => ?_)
      simp only
      ring
    have e3 := variance_eq_sub hm
    rw [hmu k] at e3
    rw [e3]
    simp only [Pi.pow_apply]
    rw [e2]
    ring
  have m2 : ∀ᵐ ω ∂P, Tendsto (fun t => meanTo (fun i => X t i ω ^ 2) (n t)) atTop
      (𝓝 (∑ k, rho k * (Var[fun ω => G k (Z k 0 ω) + w k * H k (Z k 0 ω); P] + mu k ^ 2))) := by
    filter_upwards [l3, l4, l5, hW] with ω a3 a4 a5 a6
    simp only [← hsq]
    have hlim : Tendsto (fun t => ∑ k, (N t k : ℝ) / (∑ j, N t j : ℕ) * (meanTo (fun i => G k (Z k i ω) ^ 2) (N t k) +
        2 * W t (fun k i => Z k i ω) k * meanTo (fun i => G k (Z k i ω) * H k (Z k i ω)) (N t k) +
          W t (fun k i => Z k i ω) k ^ 2 * meanTo (fun i => H k (Z k i ω) ^ 2) (N t k))) atTop
        (𝓝 (∑ k, rho k * ((∫ ω, G k (Z k 0 ω) ^ 2 ∂P) + 2 * w k * (∫ ω, G k (Z k 0 ω) * H k (Z k 0 ω) ∂P) +
          w k ^ 2 * (∫ ω, H k (Z k 0 ω) ^ 2 ∂P)))) :=
      tendsto_finsetSum _ fun k _ => (hg.share k).mul ((((a3 k).comp (hg.size k)).add
        (((a6 k).const_mul 2).mul ((a5 k).comp (hg.size k)))).add (((a6 k).pow 2).mul ((a4 k).comp (hg.size k))))
    refine hlim.congr fun t => ?_
    rw [hpad fun x => x ^ 2]
    refine Finset.sum_congr rfl fun k _ => ?_
    generalize W t (fun k i => Z k i ω) k = c
    have e : ∀ i, (G k (Z k i ω) + c * H k (Z k i ω)) ^ 2 = G k (Z k i ω) ^ 2 + 2 * c * (G k (Z k i ω) * H k (Z k i ω)) +
        c ^ 2 * H k (Z k i ω) ^ 2 := fun i => by ring
    simp only [e, meanTo, Finset.sum_add_distrib, ← Finset.mul_sum, n]
    ring
  have m3 : ∀ᵐ ω ∂P, ∀ ε : ℝ, 0 < ε → ∀ᶠ t in atTop, ∀ k < n t, |X t k ω| ≤ ε * √(n t) := by
    filter_upwards [l3, l4, hW] with ω a3 a4 a6 ε hε
    have hk : ∀ k, ∀ᶠ t in atTop, ∀ i < N t k, |G k (Z k i ω) + W t (fun k i => Z k i ω) k * H k (Z k i ω)| ≤ ε * √(N t k : ℝ) := by
      intro k
      have hpos : 0 < ε / (2 * (|w k| + 1)) := by positivity
      have c1 := (hg.size k).eventually (eventually_small (x := fun i => G k (Z k i ω)) (mean_term_tendsto (a3 k)) (half_pos hε))
      have c2 := (hg.size k).eventually (eventually_small (x := fun i => H k (Z k i ω)) (mean_term_tendsto (a4 k)) hpos)
      have c3 := (tendsto_order.1 (a6 k).abs).2 (|w k| + 1) (by linarith)
      filter_upwards [c1, c2, c3] with t d1 d2 d3 i hi
      refine (abs_add_le _ _).trans ?_
      rw [abs_mul]
      have d4 : |W t (fun k i => Z k i ω) k| * |H k (Z k i ω)| ≤ (|w k| + 1) * (ε / (2 * (|w k| + 1)) * √(N t k : ℝ)) :=
        mul_le_mul d3.le (d2 i hi) (abs_nonneg _) (by positivity)
      have d5 : (|w k| + 1) * (ε / (2 * (|w k| + 1)) * √(N t k : ℝ)) = ε / 2 * √(N t k : ℝ) := by
        have : |w k| + 1 ≠ 0 := by positivity
        field_simp
      have := d1 i hi
      rw [d5] at d4
      linarith
    filter_upwards [eventually_all.2 hk] with t ht i hi
    change |padded (column (N t) fun k i => G k (Z k i ω) + W t (fun k i => Z k i ω) k * H k (Z k i ω)) i| ≤ _
    rw [padded, dif_pos hi]
    refine (ht _ _ (finSigmaFinEquiv.symm ⟨i, hi⟩).2.isLt).trans ?_
    refine mul_le_mul_of_nonneg_left (Real.sqrt_le_sqrt ?_) hε.le
    exact_mod_cast Finset.single_le_sum (f := N t) (fun _ _ => Nat.zero_le _) (Finset.mem_univ (finSigmaFinEquiv.symm ⟨i, hi⟩).1)
  -- variances
  have hb : ∑ k, rho k * (Var[fun ω => G k (Z k 0 ω) + w k * H k (Z k 0 ω); P] + mu k ^ 2) - (∑ k, rho k * mu k) ^ 2 =
      a + (∑ k, rho k * mu k ^ 2 - (∑ k, rho k * mu k) ^ 2) := by
    rw [← hvar]
    simp only [mul_add, Finset.sum_add_distrib]
    ring
  have hj := jensen_shares (c := mu) hg.pos hg.sum_rho
  have hsz : ∀ᶠ t in atTop, ∀ k, 0 < N t k := eventually_all.2 fun k => (hg.size k).eventually_gt_atTop 0
  have hcdf : ∀ x, Tendsto (fun t => P.real {ω | √(n t) * (meanTo (fun i => X t i ω) (n t) - v) ≤ x}) atTop
      (𝓝 ((gaussianReal 0 a.toNNReal).real (Set.Iic x))) := fun x => by
    refine tendsto_of_diff (hr.2 x) hE ?_
    filter_upwards [hsz] with t ht
    filter_upwards [hest] with ω hω hb
    have e : meanTo (fun i => X t i ω) (n t) =
        avg (column (N t) fun k i => G k (Z k i ω) + W t (fun k i => Z k i ω) k * H k (Z k i ω)) := padded_mean _ fun x => x
    change √(n t) * (meanTo (fun i => X t i ω) (n t) - v) ≤ x ↔ ∃ y, r t ω = .ok y ∧ √(n t) * (y - v) ≤ x
    rw [e, hω t ht hb]
    constructor
    · exact fun h => ⟨_, rfl, h⟩
    · rintro ⟨y, hy, h⟩
      cases hy
      exact h
  obtain ⟨c1, c2⟩ := Resampling.covers_array Q hX hg.total hr.1 (by rw [hb]; linarith) hcdf m1 m2 m3 hB h0 h1
  have hdiff : ∀ᶠ t in atTop, |P.real {ω | ReturnsAround (iv t ω (ciCall alpha B) (R.draws (∑ k, N t k) ω)) v} -
      P.real {ω | (Q t).Contains alpha v (n t) ω}| ≤ P.real (E t) := by
    filter_upwards [hsz] with t ht
    refine real_diff ?_
    filter_upwards [hiv] with ω hω hb
    have e : (List.ofFn fun i : Fin (n t) => X t i ω) =
        List.ofFn (column (N t) fun k i => G k (Z k i ω) + W t (fun k i => Z k i ω) k * H k (Z k i ω)) := by
      congr 1
      funext i
      exact dif_pos i.isLt
    unfold ReturnsAround Resampling.Contains
    rw [hω t ht hb, e]
    rfl
  refine ⟨c1.of_diff hdiff hE, fun he => NearlyCovers.of_diff (c2 ?_) hdiff hE⟩
  obtain ⟨k0⟩ : Nonempty (Fin M) := by
    by_contra hno
    rw [not_nonempty_iff] at hno
    have := hg.sum_rho
    simp at this
  have he' : ∀ k, mu k = mu k0 := fun k => by rw [← hmu, ← hmu]; exact he k k0
  rw [hb]
  simp only [he', ← Finset.sum_mul, hg.sum_rho]
  ring

end Obp
