import Verif.Props.EmbedDataset
import Verif.Props.Embed
import Verif.Props.EndToEndSlate

set_option linter.unusedSectionVars false

/-! # From simulated data with action embeddings to the estimates

`SlateDraws` is in `Spec/SlateDraws`, `EmbedRewardDraws` and `mipsArgs` in `Spec/EmbedDraws`. -/

namespace Obp
open MeasureTheory ProbabilityTheory Log

variable {Ω : Type} [MeasurableSpace Ω] {P : Measure Ω} [IsProbabilityMeasure P] {n A D E : ℕ}

theorem picks_meas (p : Fin A → ℝ) (a : Fin A) : MeasurableSet {x : ℝ | Picks p x a} :=
  (measurableSet_le measurable_const measurable_id).inter (measurableSet_lt measurable_id measurable_const)

/-- The draws of a round with which action `a` and embedding `e` are logged. -/
def EmbPicks (pi : Fin A → ℝ) (p : Fin A → Fin D → Fin E → ℝ) (a : Fin A) (e : Fin D → Fin E) (z : Fin (D + 1) → ℝ) : Prop :=
  Picks pi (z 0) a ∧ ∀ d, Picks (p a d) (z d.succ) (e d)

theorem embPicks_meas (pi : Fin A → ℝ) (p : Fin A → Fin D → Fin E → ℝ) (a : Fin A) (e : Fin D → Fin E) :
    MeasurableSet {z | EmbPicks pi p a e z} := by
  have : {z | EmbPicks pi p a e z} = ((fun z : Fin (D + 1) → ℝ => z 0) ⁻¹' {x | Picks pi x a}) ∩
      ⋂ d : Fin D, (fun z : Fin (D + 1) → ℝ => z d.succ) ⁻¹' {x | Picks (p a d) x (e d)} := by
    ext z
    simp only [Set.mem_inter_iff, Set.mem_iInter]
    rfl
  rw [this]
  exact (measurable_pi_apply 0 (picks_meas pi a)).inter
    (MeasurableSet.iInter fun d => measurable_pi_apply d.succ (picks_meas (p a d) (e d)))

/-- The probability of logging action `a` with embedding `e`. -/
theorem embPicks_prob {Z : Fin n → Fin (D + 1) → Ω → ℝ} (hZ : SlateDraws P Z) (i : Fin n) {pi : Fin A → ℝ} (hpi : IsDist pi)
    {p : Fin A → Fin D → Fin E → ℝ} (hp : ∀ a d, IsDist (p a d)) (a : Fin A) (e : Fin D → Fin E) :
    P.real {ω | EmbPicks pi p a e fun k => Z i k ω} = pi a * ∏ d, p a d (e d) := by
  let S : Fin (D + 1) → Set ℝ := Fin.cases {x | Picks pi x a} fun d => {x | Picks (p a d) x (e d)}
  have hS : ∀ k, MeasurableSet (S k) := Fin.cases (picks_meas pi a) fun d => picks_meas (p a d) (e d)
  have hset : {ω | EmbPicks pi p a e fun k => Z i k ω} = ⋂ k ∈ (Finset.univ : Finset (Fin (D + 1))), Z i k ⁻¹' S k := by
    ext ω
    simp only [Set.mem_ofPred_eq, Set.mem_iInter, Finset.mem_univ, true_implies, Set.mem_preimage]
    rw [Fin.forall_fin_succ]
    rfl
  rw [hset, Measure.real, (hZ.indep i).measure_inter_preimage_eq_mul Finset.univ (sets := S) (fun k _ => hS k), ENNReal.toReal_prod,
    Fin.prod_univ_succ]
  congr 1
  · exact picks_prob (hZ.uniform i) 0 hpi a
  · exact Finset.prod_congr rfl fun d _ => picks_prob (hZ.uniform i) d.succ (hp a d) (e d)

open Classical in
/-- The expectation of a function of the logged action and embedding times the reward. -/
theorem embed_draw_expect {Z : Fin n → Fin (D + 1) → Ω → ℝ} (hZ : SlateDraws P Z) (i : Fin n) {pi : Fin A → ℝ} (hpi : IsDist pi)
    {p : Fin A → Fin D → Fin E → ℝ} (hp : ∀ a d, IsDist (p a d)) {R : (Fin D → Fin E) → Ω → ℝ} (hi : ∀ e, Integrable (R e) P)
    (hind : ∀ e, IndepFun (fun ω k => Z i k ω) (R e) P) {act : Ω → Fin A} {emb : Ω → Fin D → Fin E}
    (ho : ∀ ω, EmbPicks pi p (act ω) (emb ω) fun k => Z i k ω) (h : Fin A → (Fin D → Fin E) → ℝ) :
    Integrable (fun ω => h (act ω) (emb ω) * R (emb ω) ω) P ∧
      ∫ ω, h (act ω) (emb ω) * R (emb ω) ω ∂P = ∑ a, pi a * ∑ e, jointProb (p a) e * (h a e * ∫ ω, R e ω ∂P) := by
  have hev : ∀ ω (j : Fin A × (Fin D → Fin E)), (fun k => Z i k ω) ∈ {z | EmbPicks pi p j.1 j.2 z} ↔ (act ω, emb ω) = j := fun ω j => by
    constructor
    · rintro ⟨ha, he⟩
      have h1 : act ω = j.1 := picks_unique hpi ((hZ.uniform i).range 0 ω) (ho ω).1 ha
      refine Prod.ext h1 (funext fun d => ?_)
      have h2 := (ho ω).2 d
      rw [h1] at h2
      exact picks_unique (hp _ d) ((hZ.uniform i).range d.succ ω) h2 (he d)
    · rintro rfl
      exact ho ω
  obtain ⟨h1, h2⟩ := outcome_expect (P := P) (V := fun ω k => Z i k ω) (measurable_pi_lambda _ fun k => (hZ.uniform i).meas k)
    (fun j => embPicks_meas _ _ _ _) hev (R := fun j => R j.2) (fun j => hi j.2) (fun j => hind j.2) fun j => h j.1 j.2
  refine ⟨h1, h2.trans ?_⟩
  rw [Fintype.sum_prod_type]
  refine Finset.sum_congr rfl fun a _ => ?_
  rw [Finset.mul_sum]
  refine Finset.sum_congr rfl fun e _ => ?_
  have := embPicks_prob hZ i hpi hp a e
  rw [show ((fun ω k => Z i k ω) ⁻¹' {z | EmbPicks pi p a e z}) = {ω | EmbPicks pi p a e fun k => Z i k ω} from rfl, this]
  unfold jointProb
  ring

/-- Without positions the marginalised estimator reads the log as with all positions zero. -/
theorem mips_position_none {C : ℕ} {g : EmbLog ℝ n A 1 C D} (hg : g.Valid) (k : EmbKind) (nA : ℕ) (lrn) :
    k.plainValue nA lrn { g.args with position := .none } = k.plainValue nA lrn g.args := by
  have hzero : (List.ofFn fun i => ((g.position i : ℕ) : ℤ)) = List.replicate n 0 := by
    rw [List.eq_replicate_iff]
    refine ⟨by simp, fun z hz => ?_⟩
    obtain ⟨i, rfl⟩ := List.mem_ofFn.1 hz
    simp
  have hcheck : ∀ pi : Fin n → Fin A → Fin 1 → ℝ, (∀ i l, closeToOne (∑ a, pi i a l) = true) →
      checkOpeInputs { actionDist := .arr ⟨n, A, 1, pi⟩, position := .none, action := g.args.action, reward := g.args.reward } =
        .ok (⟨n, A, 1, pi⟩ : Arr3 ℝ) := fun pi h => by
    have := g.check_eq hg.nonempty pi h
    simp only [checkOpeInputs, checkArray3, py_bind_ok, EmbLog.args] at this ⊢
    rw [checkPosition_none le_rfl]
    rw [checkPosition_ofFn hg.nonempty ⟨n, A, 1, pi⟩ rfl g.position] at this
    exact this
  have hprep : embPrepare { g.args with position := .none } = embPrepare g.args := by
    rw [EmbLog.prepare_eq hg]
    simp only [embPrepare]
    rw [show g.args.piB = .arr ⟨n, A, 1, g.piB⟩ from rfl, show g.args.actionDist = .arr ⟨n, A, 1, g.piE⟩ from rfl,
      hcheck g.piB hg.piB_sum, hcheck g.piE hg.piE_sum]
    simp only [EmbLog.embIn, hzero]
    rfl
  unfold EmbKind.plainValue
  rw [hprep]

/-- The weight of MIPS for the observed categories `e` of a round: the product over the observed dimensions of the probabilities of
the logged categories under the evaluation policy `w`, divided by that under the behaviour policy `pi`. -/
noncomputable def mipsWeight {D : ℕ} (pi w : Fin A → ℝ) (p : Fin A → Fin D → Fin E → ℝ) (e : Fin D → Fin E) : ℝ :=
  (∏ d, ∑ a, w a * p a d (e d)) / ∏ d, ∑ a, pi a * p a d (e d)

/-- Everything about the simulated log with action embeddings: see the theorems below. -/
theorem embed_pipeline (hn : 0 < n) (beta : ℝ) {nDef : ℕ} (hd : nDef < A) (nUn : ℕ) (w : Fin (nUn + 1 + D) → ℝ)
    (p : Fin A → Fin (nUn + 1 + D) → Fin E → ℝ) (hp : ∀ a d, IsDist (p a d)) (hpos : ∀ a d c, 0 < p a d c)
    (reg : Fin (nUn + 1 + D) → Fin A → Fin E) (q : Fin n → Fin (nUn + 1 + D) → Fin E → ℝ) (behavior : Option (Fin n → Fin A → ℝ))
    (orders : Fin n → List ℕ) (ho : ∀ i, (orders i).Perm (List.range A)) {Z : Fin n → Fin (nUn + 1 + D + 1) → Ω → ℝ}
    (hZ : SlateDraws P Z) {R : Fin n → (Fin (nUn + 1 + D) → Fin E) → Ω → ℝ}
    (hR : EmbedRewardDraws P Z (fun i e => embedFactualReward w (fun c d => q i d c) e) R)
    {piE : Fin n → Fin A → ℝ} (hE : ∀ i, IsDist (piE i)) (qhat : Fin n → Fin A → ℝ) (nA : ℕ) (lrn) :
    ∃ (pi : Fin n → Fin A → ℝ) (supp : Fin n → Finset (Fin A)) (vI vD vM : Ω → ℝ), (∀ i, IsDist (pi i)) ∧
      (∀ i, (supp i).card = A - nDef) ∧ (∀ i a, a ∈ supp i ↔ 0 < pi i a) ∧
      (∀ i, ∀ a ∈ supp i, pi i a = Real.exp (beta * behavior.getD
        (fun i a => embedExpectedReward w (fun c d => q i d c) fun c d => p a d c) i a) / ∑ b ∈ supp i, Real.exp (beta * behavior.getD
        (fun i a => embedExpectedReward w (fun c d => q i d c) fun c d => p a d c) i b)) ∧
      (∀ ω, ∃ (fb : EmbedFeedback) (act : Fin n → Fin A) (emb : Fin n → Fin (nUn + 1 + D) → Fin E),
        embedFeedback beta nDef nUn (List.ofFn w) (List.ofFn fun a => List.ofFn fun d => List.ofFn (p a d))
          (List.ofFn fun d => List.ofFn fun a => (reg d a : ℕ)) (List.ofFn fun i => List.ofFn fun d => List.ofFn (q i d))
          (behavior.map fun l => List.ofFn fun i => List.ofFn (l i)) (List.ofFn orders) (List.ofFn fun i => Z i 0 ω)
          (List.ofFn fun d => List.ofFn fun i => Z i d.succ ω) = .ok fb ∧
        fb.action = List.ofFn (fun i => (act i : ℕ)) ∧
        fb.embed = (List.ofFn fun d : Fin D => List.ofFn fun i => (emb i (Fin.natAdd _ d) : ℕ)) ∧
        fb.rewardMean = (List.ofFn fun i => embedFactualReward w (fun c d => q i d c) (emb i)) ∧
        fb.expectedReward = (List.ofFn fun i => List.ofFn fun a => embedExpectedReward w (fun c d => q i d c) fun c d => p a d c) ∧
        (Estimator.mk .ipw .inf false).estimatePolicyValue
          (opeArgs fb.action (List.ofFn fun i => R i (emb i) ω) fb.pscore piE qhat) = .ok (vI ω) ∧
        (Estimator.mk .dr .inf false).estimatePolicyValue
          (opeArgs fb.action (List.ofFn fun i => R i (emb i) ω) fb.pscore piE qhat) = .ok (vD ω) ∧
        EmbKind.mipw.plainValue nA lrn (mipsArgs fb E D (List.ofFn fun i => R i (emb i) ω) piE) = .ok (vM ω)) ∧
      Integrable vI P ∧ Integrable vD P ∧ Integrable vM P ∧
      ∫ ω, vI ω ∂P = (∑ i, ∑ a, pi i a * (piE i a / pi i a *
        embedExpectedReward w (fun c d => q i d c) fun c d => p a d c)) / n ∧
      ∫ ω, vD ω ∂P = (∑ i, (expect1 (piE i) (qhat i) + ∑ a, pi i a * (piE i a / pi i a *
        ((embedExpectedReward w (fun c d => q i d c) fun c d => p a d c) - qhat i a)))) / n ∧
      ∫ ω, vM ω ∂P = (∑ i, ∑ a, pi i a * ∑ e, jointProb (p a) e *
        (mipsWeight (pi i) (piE i) (fun a d => p a (Fin.natAdd (nUn + 1) d)) (fun d => e (Fin.natAdd _ d)) *
          embedFactualReward w (fun c d => q i d c) e)) / n := by
  obtain ⟨pi, supp, hpi, hcard, hsupp, hval, hfb⟩ := C157_feedback beta hd nUn w p hp reg q behavior orders ho
  have h := fun ω => hfb (fun i => Z i 0 ω) (fun d i => Z i d.succ ω) (fun i => (hZ.uniform i).range 0 ω)
    fun d i => (hZ.uniform i).range d.succ ω
  choose act emb hok hact hemb using h
  have hpk : ∀ i ω, EmbPicks (pi i) p (act ω i) (emb ω i) fun k => Z i k ω := fun i ω => ⟨(hact ω i).2, hemb ω i⟩
  have hexp : ∀ i a, ∑ e, jointProb (p a) e * embedFactualReward w (fun c d => q i d c) e =
      embedExpectedReward w (fun c d => q i d c) fun c d => p a d c := fun i a =>
    C106_expected_reward w (fun c d => q i d c) (p a) (hp a)
  have hsum : ∀ a, ∑ e, jointProb (p a) e = 1 := fun a => sum_jointProb fun d => (hp a d).sum_one
  have hround := fun i => embed_draw_expect hZ i (hpi i) hp (hR.integrable i) (hR.indep i) (hpk i)
    fun a _ => piE i a / pi i a
  have hround1 := fun i => embed_draw_expect hZ i (hpi i) hp (R := fun _ _ => 1) (fun _ => integrable_const _)
    (fun _ => indepFun_const_right _ _) (hpk i) fun a _ => piE i a / pi i a * qhat i a
  have hroundM := fun i => embed_draw_expect hZ i (hpi i) hp (hR.integrable i) (hR.indep i) (hpk i)
    fun _ e => mipsWeight (pi i) (piE i) (fun a d => p a (Fin.natAdd (nUn + 1) d)) fun d => e (Fin.natAdd _ d)
  obtain ⟨vI, vD, hv, hI, hD, hIv, hDv⟩ := logged_value (P := P) hn (act := act) (r := fun ω i => R i (emb ω i) ω) (ps := pi)
    (fun ω i => (hact ω i).1) hE qhat (cI := fun i => ∑ a, pi i a * (piE i a / pi i a *
        embedExpectedReward w (fun c d => q i d c) fun c d => p a d c))
    (cD := fun i => ∑ a, pi i a * (piE i a / pi i a * qhat i a))
    (fun i => ⟨(hround i).1, (hround i).2.trans <| Finset.sum_congr rfl fun a _ => by
      simp only [hR.mean]
      rw [← hexp i a, Finset.mul_sum, Finset.mul_sum, Finset.mul_sum]
      exact Finset.sum_congr rfl fun e _ => by ring⟩)
    (fun i => ⟨by simpa using (hround1 i).1, by
      have := (hround1 i).2
      simp only [mul_one, integral_const, probReal_univ, one_smul] at this
      refine this.trans <| Finset.sum_congr rfl fun a _ => ?_
      rw [← Finset.sum_mul, hsum, one_mul]⟩)
  let g : Ω → EmbLog ℝ n A 1 E D := fun ω =>
    { action := act ω, reward := fun i => R i (emb ω i) ω, embed := fun i d => emb ω i (Fin.natAdd _ d), piB := fun i a _ => pi i a
      piE := fun i a _ => piE i a, position := fun _ => 0, pEA := fun a c d => p a (Fin.natAdd _ d) c }
  have hg : ∀ ω, (g ω).Valid := fun ω => ⟨hn, fun i _ => by simp only [g, (hpi i).sum_one, closeToOne_one], fun i _ => by
    simp only [g, (hE i).sum_one, closeToOne_one]⟩
  have hden : ∀ i (d : Fin (nUn + 1 + D)) c, 0 < ∑ a, pi i a * p a d c := fun i d c => by
    obtain ⟨a, ha⟩ : (supp i).Nonempty := by
      rw [← Finset.card_pos, hcard]
      omega
    refine Finset.sum_pos' (fun a _ => mul_nonneg ((hpi i).nonneg a) (hpos a d c).le) ⟨a, Finset.mem_univ _, ?_⟩
    exact mul_pos ((hsupp i a).1 ha) (hpos a d c)
  refine ⟨pi, supp, vI, vD, fun ω => (∑ i, mipsWeight (pi i) (piE i) (fun a d => p a (Fin.natAdd (nUn + 1) d))
    (fun d => emb ω i (Fin.natAdd _ d)) * R i (emb ω i) ω) / n, hpi, hcard, hsupp, hval, fun ω => ⟨_, act ω, emb ω, hok ω, rfl, rfl, rfl, rfl,
    (hv ω).1, (hv ω).2, ?_⟩, hI, hD, (integrable_finsetSum _ fun i _ => (hroundM i).1).div_const _, hIv, hDv.trans ?_, ?_⟩
  · refine Eq.trans (congrArg (EmbKind.mipw.plainValue nA lrn) ?_) ((mips_position_none (hg ω) .mipw nA lrn).trans ?_)
    · simp [mipsArgs, EmbLog.args, g, List.map_ofFn, Function.comp_def, List.getD_eq_getElem?_getD]
    · rw [EmbLog.value_mipw (hg ω) fun i d => (hden i _ _).ne']
      congr 1
      simp only [avg]
      congr 1
      exact Finset.sum_congr rfl fun i _ => mul_comm _ _
  · congr 1
    refine Finset.sum_congr rfl fun i _ => ?_
    rw [← Finset.sum_sub_distrib]
    congr 1
    exact Finset.sum_congr rfl fun a _ => by ring
  · rw [integral_div, integral_finsetSum _ fun i _ => (hroundM i).1]
    congr 1
    refine Finset.sum_congr rfl fun i _ => ?_
    rw [(hroundM i).2]
    simp only [hR.mean]

/-- **C157.** For every draw the constructor and the simulation succeed, and the reported expected rewards give the ground truth `V`.
Inverse propensity weighting and the doubly robust estimator accept the log, and their estimates have the expectation `V`, except
for the part of the evaluation policy on the `nDef` deficient actions, although rewards are drawn given the embeddings. -/
theorem C157_ipw_dr (hn : 0 < n) (hE0 : 0 < E) (beta : ℝ) {nDef : ℕ} (hd : nDef < A) (nUn : ℕ) (w : Fin (nUn + 1 + D) → ℝ)
    (x : Fin A → Fin (nUn + 1 + D) → Fin E → ℝ) (us : Fin (nUn + 1 + D) → Fin A → ℝ) (hu : ∀ d a, 0 ≤ us d a ∧ us d a < 1)
    (q : Fin n → Fin (nUn + 1 + D) → Fin E → ℝ) (behavior : Option (Fin n → Fin A → ℝ))
    (orders : Fin n → List ℕ) (ho : ∀ i, (orders i).Perm (List.range A)) {Z : Fin n → Fin (nUn + 1 + D + 1) → Ω → ℝ}
    (hZ : SlateDraws P Z) {R : Fin n → (Fin (nUn + 1 + D) → Fin E) → Ω → ℝ}
    (hR : EmbedRewardDraws P Z (fun i e => embedFactualReward w (fun c d => q i d c) e) R)
    {piE : Fin n → Fin A → ℝ} (hE : ∀ i, IsDist (piE i)) (qhat : Fin n → Fin A → ℝ) :
    ∃ (p : List (List (List ℝ))) (reg : List (List ℕ)) (expected : Fin n → Fin A → ℝ) (supp : Fin n → Finset (Fin A)) (V : ℝ)
      (vI vD : Ω → ℝ),
      embedDefine (List.ofFn fun a => List.ofFn fun d => List.ofFn (x a d)) (List.ofFn fun d => List.ofFn (us d)) = .ok (p, reg) ∧
      (∀ i, (supp i).card = A - nDef) ∧
      datasetGroundTruth (.arr ⟨n, A, expected⟩) (.arr ⟨n, A, 1, fun i a _ => piE i a⟩) = .ok V ∧
      (∀ ω, ∃ (fb : EmbedFeedback) (act : Fin n → Fin A) (emb : Fin n → Fin (nUn + 1 + D) → Fin E),
        embedFeedback beta nDef nUn (List.ofFn w) p reg (List.ofFn fun i => List.ofFn fun d => List.ofFn (q i d))
          (behavior.map fun l => List.ofFn fun i => List.ofFn (l i)) (List.ofFn orders) (List.ofFn fun i => Z i 0 ω)
          (List.ofFn fun d => List.ofFn fun i => Z i d.succ ω) = .ok fb ∧
        fb.action = List.ofFn (fun i => (act i : ℕ)) ∧
        fb.rewardMean = (List.ofFn fun i => embedFactualReward w (fun c d => q i d c) (emb i)) ∧
        fb.expectedReward = (List.ofFn fun i => List.ofFn (expected i)) ∧
        (Estimator.mk .ipw .inf false).estimatePolicyValue
          (opeArgs fb.action (List.ofFn fun i => R i (emb i) ω) fb.pscore piE qhat) = .ok (vI ω) ∧
        (Estimator.mk .dr .inf false).estimatePolicyValue
          (opeArgs fb.action (List.ofFn fun i => R i (emb i) ω) fb.pscore piE qhat) = .ok (vD ω)) ∧
      Integrable vI P ∧ Integrable vD P ∧
      ∫ ω, vI ω ∂P = V - (∑ i, ∑ a with a ∉ supp i, piE i a * expected i a) / n ∧
      ∫ ω, vD ω ∂P = V - (∑ i, ∑ a with a ∉ supp i, piE i a * (expected i a - qhat i a)) / n := by
  obtain ⟨p, reg, hdef, hp, hpos, -⟩ := C157_constructor hE0 x us hu
  obtain ⟨pi, supp, vI, vD, vM, hpi, hcard, hsupp, -, hlog, hI, hD, -, hIv, hDv, -⟩ := embed_pipeline hn beta hd nUn w p hp
    (fun a d c => (hpos a d c).1) reg q behavior orders ho hZ hR hE qhat 0 fun _ _ => []
  have hcancel : ∀ i (f : Fin A → ℝ), ∑ a, pi i a * (piE i a / pi i a * f a) =
      expect1 (piE i) f - ∑ a with a ∉ supp i, piE i a * f a := fun i f => by
    unfold expect1
    rw [eq_sub_iff_add_eq, Finset.sum_filter, ← Finset.sum_add_distrib]
    refine Finset.sum_congr rfl fun a _ => ?_
    by_cases h0 : a ∈ supp i
    · have := (hsupp i a).1 h0
      rw [if_neg (by simpa using h0)]
      field_simp
      ring
    · have : pi i a = 0 := le_antisymm (not_lt.1 fun h => h0 ((hsupp i a).2 h)) ((hpi i).nonneg a)
      simp [h0, this]
  refine ⟨_, _, fun i a => embedExpectedReward w (fun c d => q i d c) fun c d => p a d c, supp, _, vI, vD, hdef, hcard,
    C84_policy_value hn one_pos _ (fun i a _ => piE i a) hE, fun ω => ?_, hI, hD, ?_, ?_⟩
  · obtain ⟨fb, act, emb, h1, h2, -, h3, h4, h5, h6, -⟩ := hlog ω
    exact ⟨fb, act, emb, h1, h2, h3, h4, h5, h6⟩
  · rw [hIv, ← sub_div, ← Finset.sum_sub_distrib]
    congr 1
    exact Finset.sum_congr rfl fun i _ => hcancel i _
  · rw [hDv, ← sub_div, ← Finset.sum_sub_distrib]
    congr 1
    refine Finset.sum_congr rfl fun i _ => ?_
    rw [hcancel]
    unfold expect1
    simp only [mul_sub, Finset.sum_sub_distrib]
    ring

/-- **C157, marginalised estimator.** With one observed dimension and at least as many irrelevant as hidden dimensions, MIPS with the
category distributions that the log reports accepts the log and is unbiased for the ground truth, also with deficient actions. -/
theorem C157_mips_partial (hn : 0 < n) (hE0 : 0 < E) (beta : ℝ) {nDef : ℕ} (hd : nDef < A) {nUn nIrr : ℕ} (hirr : nUn ≤ nIrr) (dir : ℕ → ℝ)
    (x : Fin A → Fin (nUn + 1 + 1) → Fin E → ℝ) (us : Fin (nUn + 1 + 1) → Fin A → ℝ) (hu : ∀ d a, 0 ≤ us d a ∧ us d a < 1)
    (q : Fin n → Fin (nUn + 1 + 1) → Fin E → ℝ) (behavior : Option (Fin n → Fin A → ℝ))
    (orders : Fin n → List ℕ) (ho : ∀ i, (orders i).Perm (List.range A)) {Z : Fin n → Fin (nUn + 1 + 1 + 1) → Ω → ℝ}
    (hZ : SlateDraws P Z) {R : Fin n → (Fin (nUn + 1 + 1) → Fin E) → Ω → ℝ}
    (hR : EmbedRewardDraws P Z (fun i e => embedFactualReward (catDimImportance (nUn + 1) nIrr dir) (fun c d => q i d c) e) R)
    {piE : Fin n → Fin A → ℝ} (hE : ∀ i, IsDist (piE i)) (nA : ℕ) (lrn) :
    ∃ (p : List (List (List ℝ))) (reg : List (List ℕ)) (expected : Fin n → Fin A → ℝ) (V : ℝ) (vM : Ω → ℝ),
      embedDefine (List.ofFn fun a => List.ofFn fun d => List.ofFn (x a d)) (List.ofFn fun d => List.ofFn (us d)) = .ok (p, reg) ∧
      datasetGroundTruth (.arr ⟨n, A, expected⟩) (.arr ⟨n, A, 1, fun i a _ => piE i a⟩) = .ok V ∧
      (∀ ω, ∃ (fb : EmbedFeedback) (emb : Fin n → Fin (nUn + 1 + 1) → Fin E),
        embedFeedback beta nDef nUn (List.ofFn (catDimImportance (nUn + 1) nIrr dir)) p reg
          (List.ofFn fun i => List.ofFn fun d => List.ofFn (q i d))
          (behavior.map fun l => List.ofFn fun i => List.ofFn (l i)) (List.ofFn orders) (List.ofFn fun i => Z i 0 ω)
          (List.ofFn fun d => List.ofFn fun i => Z i d.succ ω) = .ok fb ∧
        fb.rewardMean = (List.ofFn fun i => embedFactualReward (catDimImportance (nUn + 1) nIrr dir) (fun c d => q i d c) (emb i)) ∧
        fb.expectedReward = (List.ofFn fun i => List.ofFn (expected i)) ∧
        EmbKind.mipw.plainValue nA lrn (mipsArgs fb E 1 (List.ofFn fun i => R i (emb i) ω) piE) = .ok (vM ω)) ∧
      Integrable vM P ∧ ∫ ω, vM ω ∂P = V := by
  set w := catDimImportance (nUn + 1) nIrr dir with hw
  obtain ⟨p, reg, hdef, hp, hpos, -⟩ := C157_constructor hE0 x us hu
  obtain ⟨pi, supp, vI, vD, vM, hpi, hcard, hsupp, -, hlog, -, -, hM, -, -, hMv⟩ := embed_pipeline hn beta hd nUn w p hp
    (fun a d c => (hpos a d c).1) reg q behavior orders ho hZ hR hE (fun _ _ => 0) nA lrn
  refine ⟨_, _, fun i a => embedExpectedReward w (fun c d => q i d c) fun c d => p a d c, _, vM, hdef,
    C84_policy_value hn one_pos _ (fun i a _ => piE i a) hE, fun ω => ?_, hM, ?_⟩
  · obtain ⟨fb, act, emb, h1, h2, -, h3, h4, -, -, h5⟩ := hlog ω
    exact ⟨fb, emb, h1, h3, h4, h5⟩
  rw [hMv]
  congr 1
  refine Finset.sum_congr rfl fun i _ => ?_
  let o : Fin (nUn + 1 + 1) := Fin.natAdd (nUn + 1) 0
  have hother : ∀ d, d ≠ o → w d = 0 := fun d hdo => by
    rw [hw]
    unfold catDimImportance
    rw [if_pos]
    have h1 := d.isLt
    have h2 : (d : ℕ) ≠ nUn + 1 := fun h => hdo (Fin.ext (by simpa [o] using h))
    omega
  have hfact : ∀ e : Fin (nUn + 1 + 1) → Fin E, embedFactualReward w (fun c d => q i d c) e = w o * q i o (e o) := fun e => by
    unfold embedFactualReward
    exact Finset.sum_eq_single o (fun d _ hdo => by rw [hother d hdo, zero_mul]) (by simp)
  have hexp : ∀ a, embedExpectedReward w (fun c d => q i d c) (fun c d => p a d c) = ∑ c, p a o c * (w o * q i o c) := fun a => by
    unfold embedExpectedReward
    rw [Finset.sum_eq_single o (fun d _ hdo => by rw [hother d hdo, mul_zero]) (by simp), Finset.sum_mul]
    exact Finset.sum_congr rfl fun c _ => by ring
  have hden : ∀ c, 0 < ∑ a, pi i a * p a o c := fun c => by
    obtain ⟨a, ha⟩ : (supp i).Nonempty := by
      rw [← Finset.card_pos, hcard]
      omega
    refine Finset.sum_pos' (fun a _ => mul_nonneg ((hpi i).nonneg a) (hpos a o c).1.le) ⟨a, Finset.mem_univ _, ?_⟩
    exact mul_pos ((hsupp i a).1 ha) (hpos a o c).1
  let rho : Fin E → ℝ := fun c => (∑ a, piE i a * p a o c) / ∑ a, pi i a * p a o c
  have hstep : ∀ a, ∑ e, jointProb (p a) e *
      (mipsWeight (pi i) (piE i) (fun a d => p a (Fin.natAdd (nUn + 1) d)) (fun d => e (Fin.natAdd _ d)) *
        embedFactualReward w (fun c d => q i d c) e) = ∑ c, p a o c * (rho c * (w o * q i o c)) := fun a => by
    have := expect_single (p := p a) (fun d => (hp a d).sum_one) o fun c => rho c * (w o * q i o c)
    unfold expect expect1 at this
    rw [← this]
    refine Finset.sum_congr rfl fun e _ => ?_
    rw [hfact]
    simp only [mipsWeight, rho, Fin.prod_univ_one, o]
  simp only [hstep, hexp]
  unfold expect1
  simp only [Finset.mul_sum]
  rw [Finset.sum_comm]
  conv_rhs => rw [Finset.sum_comm]
  refine Finset.sum_congr rfl fun c _ => ?_
  have h1 : ∑ a, pi i a * (p a o c * (rho c * (w o * q i o c))) = (∑ a, pi i a * p a o c) * rho c * (w o * q i o c) := by
    rw [Finset.sum_mul, Finset.sum_mul]
    exact Finset.sum_congr rfl fun a _ => by ring
  have h2 : ∑ a, piE i a * (p a o c * (w o * q i o c)) = (∑ a, piE i a * p a o c) * (w o * q i o c) := by
    rw [Finset.sum_mul]
    exact Finset.sum_congr rfl fun a _ => by ring
  rw [h1, h2, mul_div_cancel₀ _ (hden c).ne']

/-! ### such draws exist, and two observed dimensions are too many -/

/-- Independent uniform numbers. -/
noncomputable def exUnifs (m : ℕ) : Measure (Fin m → ℝ) := Measure.pi fun _ => volume.restrict (Set.Ico (0 : ℝ) 1)

instance exUnifs_prob (m : ℕ) : IsProbabilityMeasure (exUnifs m) := by unfold exUnifs; infer_instance

theorem exUnifs_draws (m : ℕ) : SlateDraws (exUnifs m) (fun (_ : Fin n) (k : Fin m) ω => Int.fract (ω k)) := by
  refine ⟨fun _ => ⟨fun k => measurable_fract.comp (measurable_pi_apply k), fun k ω => ⟨Int.fract_nonneg _, Int.fract_lt_one _⟩,
    fun k t h0 h1 => ?_⟩, fun _ => ?_⟩
  · have hm : MeasurableSet {x : ℝ | Int.fract x < t} := measurableSet_lt measurable_fract measurable_const
    have := (measurePreserving_eval (fun _ : Fin m => volume.restrict (Set.Ico (0 : ℝ) 1)) k).measureReal_preimage hm.nullMeasurableSet
    rw [exUnif_cdf t h0 h1] at this
    exact this
  · exact iIndepFun_pi (μ := fun _ : Fin m => volume.restrict (Set.Ico (0 : ℝ) 1)) (X := fun _ x => Int.fract x)
      fun k => measurable_fract.aemeasurable

/-- Both theorems applied: one round, two actions of which one is deficient, two categories with rewards zero and one. -/
example : ∃ (V : ℝ) (vM : (Fin 3 → ℝ) → ℝ), Integrable vM (exUnifs 3) ∧ ∫ ω, vM ω ∂(exUnifs 3) = V := by
  obtain ⟨-, -, -, V, vM, -, -, -, h1, h2⟩ := C157_mips_partial (P := exUnifs 3) (n := 1) (A := 2) (E := 2) (nUn := 0) (nIrr := 0) one_pos two_pos
    1 (nDef := 1) (by norm_num) le_rfl (fun _ => 1) (fun a _ c => if a = c then Real.log 3 else 0) (fun _ _ => 0) (by simp)
    (fun _ _ c => (c : ℝ)) none (fun _ => [0, 1]) (fun _ => .refl _) (exUnifs_draws 3)
    (R := fun _ e _ => embedFactualReward (catDimImportance 1 0 fun _ => 1) (fun c _ => (c : ℝ)) e)
    ⟨fun _ _ => integrable_const _, fun _ _ => by simp, fun _ _ => indepFun_const_right _ _⟩ (piE := fun _ _ => 1 / 2)
    (fun _ => ⟨fun _ => by norm_num, by norm_num⟩) 2 fun _ _ => []
  exact ⟨V, vM, h1, h2⟩

/-- **C157, limit.** With two observed dimensions, no hidden dimension and no deficient action, MIPS with the reported category
distributions is biased: all rewards and all expected rewards are one, the behaviour policy is uniform, every action prefers its own
category three to one, and the expectation of the estimate for the policy that always takes the first action is 17/16. -/
theorem C157_mips_biased_two_dims : ∃ (p : List (List (List ℝ))) (reg : List (List ℕ)) (vM : (Fin 4 → ℝ) → ℝ),
    embedDefine (List.ofFn fun a : Fin 2 => List.ofFn fun _ : Fin 3 => List.ofFn fun c : Fin 2 => if a = c then Real.log 3 else 0)
      (List.ofFn fun _ : Fin 3 => List.ofFn fun _ : Fin 2 => 0) = .ok (p, reg) ∧
    (∀ ω : Fin 4 → ℝ, ∃ fb : EmbedFeedback,
      embedFeedback 1 0 0 (List.ofFn (catDimImportance 2 0 fun _ => (1 / 2 : ℝ))) p reg
        (List.ofFn fun _ : Fin 1 => List.ofFn fun _ : Fin 3 => List.ofFn fun _ : Fin 2 => 1) (some [[0, 0]]) [[0, 1]]
        [Int.fract (ω 0)] [[Int.fract (ω 1)], [Int.fract (ω 2)], [Int.fract (ω 3)]] = .ok fb ∧
      fb.rewardMean = [1] ∧ fb.expectedReward = [[1, 1]] ∧
      EmbKind.mipw.plainValue 2 (fun _ _ => []) (mipsArgs fb 2 2 [1] fun (_ : Fin 1) (a : Fin 2) => if a = 0 then 1 else 0) = .ok (vM ω)) ∧
    Integrable vM (exUnifs 4) ∧ ∫ ω, vM ω ∂(exUnifs 4) = 17 / 16 := by
  have hw : ∀ e : Fin 3 → Fin 2, embedFactualReward (catDimImportance 2 0 fun _ => (1 / 2 : ℝ)) (fun _ _ => 1) e = 1 := fun e => by
    unfold embedFactualReward catDimImportance
    rw [Fin.sum_univ_three]
    norm_num
  obtain ⟨p, reg, hdef, hp, hpos, -⟩ := C157_constructor (A := 2) (D := 3) (E := 2) two_pos
    (fun a _ c => if a = c then Real.log 3 else 0) (fun _ _ => 0) (by simp)
  have hpv : ∀ a d c, p a d c = if a = c then 3 / 4 else 1 / 4 := fun a d c => by
    rw [(hpos a d c).2, Fin.sum_univ_two]
    fin_cases a <;> fin_cases c <;> simp [Real.exp_log] <;> norm_num
  have hone : ∀ a, embedExpectedReward (catDimImportance 2 0 fun _ => (1 / 2 : ℝ)) (fun _ _ => 1) (fun c d => p a d c) = 1 := fun a => by
    rw [← C106_expected_reward _ _ _ (hp a)]
    simp only [hw]
    unfold expect
    simp only [mul_one]
    exact sum_jointProb fun d => (hp a d).sum_one
  obtain ⟨pi, supp, vI, vD, vM, hpi, hcard, hsupp, hval, hlog, -, -, hM, -, -, hMv⟩ := embed_pipeline (P := exUnifs 4) (n := 1) (A := 2)
    (D := 2) (E := 2) one_pos 1 (nDef := 0) two_pos 0 (catDimImportance 2 0 fun _ => (1 / 2 : ℝ)) p hp (fun a d c => (hpos a d c).1) reg
    (fun _ _ _ => 1) (some fun _ _ => 0) (fun _ => [0, 1]) (fun _ => .refl _) (exUnifs_draws 4)
    (R := fun _ _ _ => 1) ⟨fun _ _ => integrable_const _, fun _ e => by rw [hw e]; simp, fun _ _ => indepFun_const_right _ _⟩
    (piE := fun _ a => if a = 0 then 1 else 0) (fun _ => ⟨fun a => by split_ifs <;> norm_num, by simp⟩) (fun _ _ => 0) 2 fun _ _ => []
  refine ⟨_, _, vM, hdef, fun ω => ?_, hM, ?_⟩
  · obtain ⟨fb, act, emb, h1, -, -, h2, h3, -, -, h4⟩ := hlog ω
    refine ⟨fb, ?_, ?_, ?_, h4⟩
    · simpa [List.ofFn_succ] using h1
    · exact h2.trans ((congrArg List.ofFn (funext fun i => hw (emb i))).trans rfl)
    · exact h3.trans ((congrArg List.ofFn (funext fun i => congrArg List.ofFn (funext fun a => hone a))).trans (by simp [List.ofFn_succ]))
  · have hsu : ∀ i a, a ∈ supp i := fun i a => by
      have := Finset.eq_univ_of_card (supp i) (by rw [hcard]; rfl)
      rw [this]
      exact Finset.mem_univ a
    have hpv2 : ∀ i a, pi i a = 1 / 2 := fun i a => by
      rw [hval i a (hsu i a), Finset.eq_univ_of_forall (hsu i)]
      simp
    have huniv : (Finset.univ : Finset (Fin 3 → Fin 2)) = {![0, 0, 0], ![0, 0, 1], ![0, 1, 0], ![0, 1, 1], ![1, 0, 0], ![1, 0, 1],
      ![1, 1, 0], ![1, 1, 1]} := by decide
    have hcalc : ∀ a : Fin 2, ∑ e : Fin 3 → Fin 2, (∏ d, if a = e d then (3 / 4 : ℝ) else 1 / 4) *
        (((if 0 = e 1 then 3 / 4 else 1 / 4) * if 0 = e 2 then 3 / 4 else 1 / 4) / (1 / 2 * (1 / 2))) =
        if a = 0 then 25 / 16 else 9 / 16 := fun a => by
      rw [huniv]
      simp only [Fin.prod_univ_three]
      fin_cases a <;> simp [Finset.sum_insert] <;> norm_num
    have hterm : ∀ a, ∑ e : Fin 3 → Fin 2, jointProb (p a) e *
        (mipsWeight (pi 0) (fun a => if a = 0 then 1 else 0) (fun a (d : Fin 2) => p a (Fin.natAdd 1 d)) (fun d => e (Fin.natAdd 1 d)) *
          embedFactualReward (catDimImportance 2 0 fun _ => (1 / 2 : ℝ)) (fun _ _ => 1) e) = if a = 0 then 25 / 16 else 9 / 16 := fun a => by
      rw [← hcalc a]
      refine Finset.sum_congr rfl fun e _ => ?_
      rw [hw, mul_one]
      unfold jointProb mipsWeight
      have hd : ∀ c : Fin 2, ∑ b : Fin 2, 1 / 2 * (if b = c then (3 / 4 : ℝ) else 1 / 4) = 1 / 2 := fun c => by
        rw [Fin.sum_univ_two]
        fin_cases c <;> simp <;> norm_num
      simp only [hpv, hpv2, hd, Fin.prod_univ_two, ite_mul, one_mul, zero_mul, Finset.sum_ite_eq', Finset.mem_univ, if_true]
      rfl
    refine hMv.trans ?_
    rw [Fin.sum_univ_one]
    refine (congrArg (· / _) (Finset.sum_congr rfl fun a _ => congrArg (pi 0 a * ·) (hterm a))).trans ?_
    simp only [hpv2, Fin.sum_univ_two]
    norm_num

end Obp
