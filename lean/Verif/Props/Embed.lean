import Verif.Lemmas.Embed
import Verif.Lemmas.Prob
import Verif.Props.EstimatorValues
import Verif.Props.Bootstrap

/-! # C47, C48, C97: evaluation with action embeddings -/

set_option linter.unusedSectionVars false

namespace Obp
open Log

variable {K : Type} [Field K] [LinearOrder K] [IsStrictOrderedRing K]
variable {n A L C D S : ℕ}

/-! ### C47: unbiasedness -/

namespace EmbProcess

theorem sum_embProb {P : EmbProcess K n A C D S} (hP : P.Valid) (a : Fin A) : ∑ e, P.embProb a e = 1 :=
  sum_jointProb (p := fun d c => P.pEA a c d) fun d => (hP.pEA_dist a d).sum_one

theorem embProb_nonneg {P : EmbProcess K n A C D S} (hP : P.Valid) (a : Fin A) (e : Fin D → Fin C) :
    0 ≤ P.embProb a e := Finset.prod_nonneg fun d _ => (hP.pEA_dist a d).nonneg _

theorem sum_prob {P : EmbProcess K n A C D S} (hP : P.Valid) (i : Fin n) : ∑ o, P.prob i o = 1 := by
  simp only [Fintype.sum_prod_type, prob, ← Finset.mul_sum, (hP.law_dist i _).sum_one, mul_one,
    sum_embProb hP]
  exact (hP.piB_dist i).sum_one

end EmbProcess

/-- What MIPS computes on a log of positive probability. -/
theorem EmbProcess.mips_value {P : EmbProcess K n A C D S} (hP : P.Valid) (hn : 0 < n)
    (pos : Fin n → Fin L) (piB piE : Fin n → Fin A → Fin L → K)
    (hB : ∀ i l, IsDist fun a => piB i a l) (hE : ∀ i l, IsDist fun a => piE i a l)
    (hBP : ∀ i a, piB i a (pos i) = P.piB i a)
    (hindB : ∀ i, P.Independent (P.piB i)) (hindE : ∀ i, P.Independent fun a => piE i a (pos i))
    (nActions : ℕ) (learner) (w : Fin n → Fin A × (Fin D → Fin C) × Fin S) (hw : jointProb P.prob w ≠ 0) :
    EmbKind.mipw.plainValue nActions learner (P.log w piB piE pos).args =
      .ok ((∑ i, P.val i (w i).2.1 (w i).2.2 *
        (P.embMarginal (fun a => piE i a (pos i)) (w i).2.1 / P.embMarginal (P.piB i) (w i).2.1)) / (n : K)) := by
  have hv : (P.log w piB piE pos).Valid := ⟨hn, fun i l => by
      simp only [EmbProcess.log, (hB i l).sum_one, closeToOne_one], fun i l => by
      simp only [EmbProcess.log, (hE i l).sum_one, closeToOne_one]⟩
  have hBe : ∀ i, (∏ d, (P.log w piB piE pos).marginal piB i d) = P.embMarginal (P.piB i) (w i).2.1 := by
    intro i
    rw [hindB i]
    refine Finset.prod_congr rfl fun d _ => ?_
    simp only [EmbLog.marginal, EmbProcess.log, hBP]
  have hEe : ∀ i, (∏ d, (P.log w piB piE pos).marginal piE i d) =
      P.embMarginal (fun a => piE i a (pos i)) (w i).2.1 := by
    intro i
    rw [hindE i]
    rfl
  have hpos : ∀ i, P.embMarginal (P.piB i) (w i).2.1 ≠ 0 := by
    intro i
    have h1 := jointProb_ne_zero hw i
    have h2 : P.piB i (w i).1 * P.embProb (w i).1 (w i).2.1 ≠ 0 := left_ne_zero_of_mul h1
    have h3 : 0 < P.piB i (w i).1 * P.embProb (w i).1 (w i).2.1 := lt_of_le_of_ne
      (mul_nonneg ((hP.piB_dist i).nonneg _) (EmbProcess.embProb_nonneg hP _ _)) h2.symm
    refine (lt_of_lt_of_le h3 ?_).ne'
    exact Finset.single_le_sum (f := fun a => P.piB i a * P.embProb a (w i).2.1)
      (fun a _ => mul_nonneg ((hP.piB_dist i).nonneg _) (EmbProcess.embProb_nonneg hP _ _))
      (Finset.mem_univ _)
  rw [EmbLog.value_mipw hv fun i d hd => hpos i (by
    rw [← hBe i]; exact Finset.prod_eq_zero (Finset.mem_univ d) hd)]
  refine congrArg Except.ok ?_
  simp only [avg, EmbLog.weight]
  refine congrArg (· / (n : K)) (Finset.sum_congr rfl fun i _ => ?_)
  rw [show (P.log w piB piE pos).piB = piB from rfl, show (P.log w piB piE pos).piE = piE from rfl,
    hBe, hEe]
  rfl

/-- **C47** (under the extra hypothesis that, for the actions drawn from either policy, the
embedding dimensions are independent of each other — automatic for one dimension, see
`C47_mips_unbiased_one_dim`; false without it, see `C47_mips_biased_two_dims`). If rewards depend on
the action only through the embedding, `p_e_a` is the true embedding law and every embedding the
evaluation policy can produce is produced by the behaviour policy, MIPS is unbiased. The behaviour
policy need not support every action. -/
theorem C47_mips_unbiased_partial {P : EmbProcess K n A C D S} (hP : P.Valid) (hn : 0 < n)
    (pos : Fin n → Fin L) (piB piE : Fin n → Fin A → Fin L → K)
    (hB : ∀ i l, IsDist fun a => piB i a l) (hE : ∀ i l, IsDist fun a => piE i a l)
    (hBP : ∀ i a, piB i a (pos i) = P.piB i a)
    (hindB : ∀ i, P.Independent (P.piB i)) (hindE : ∀ i, P.Independent fun a => piE i a (pos i))
    (hsupp : ∀ i e, P.embMarginal (fun a => piE i a (pos i)) e ≠ 0 → P.embMarginal (P.piB i) e ≠ 0)
    (nActions : ℕ) (learner) :
    ∃ v : (Fin n → Fin A × (Fin D → Fin C) × Fin S) → K,
      (∀ w, jointProb P.prob w ≠ 0 →
        EmbKind.mipw.plainValue nActions learner (P.log w piB piE pos).args = .ok (v w)) ∧
      expect P.prob v = P.policyValue fun i a => piE i a (pos i) := by
  refine ⟨fun w => (∑ i, P.val i (w i).2.1 (w i).2.2 *
    (P.embMarginal (fun a => piE i a (pos i)) (w i).2.1 / P.embMarginal (P.piB i) (w i).2.1)) / (n : K),
    fun w hw => ?_, ?_⟩
  · exact EmbProcess.mips_value hP hn pos piB piE hB hE hBP hindB hindE nActions learner w hw
  · rw [expect_avg (EmbProcess.sum_prob hP) (fun i o => P.val i o.2.1 o.2.2 *
      (P.embMarginal (fun a => piE i a (pos i)) o.2.1 / P.embMarginal (P.piB i) o.2.1))]
    unfold EmbProcess.policyValue
    refine congrArg (· / (n : K)) (Finset.sum_congr rfl fun i _ => ?_)
    unfold expect1
    rw [Fintype.sum_prod_type, Finset.sum_comm, Fintype.sum_prod_type]
    simp only [Finset.mul_sum]
    rw [Finset.sum_comm]
    conv_rhs => rw [Finset.sum_comm]
    have : ∀ e : Fin D → Fin C, ∑ s, ∑ a, P.prob i (a, e, s) * (P.val i e s *
        (P.embMarginal (fun a => piE i a (pos i)) e / P.embMarginal (P.piB i) e)) =
        ∑ a, piE i a (pos i) * (P.embProb a e * P.meanReward i e) := by
      intro e
      have h1 : ∀ s, ∑ a, P.prob i (a, e, s) * (P.val i e s *
          (P.embMarginal (fun a => piE i a (pos i)) e / P.embMarginal (P.piB i) e)) =
          P.embMarginal (P.piB i) e * (P.law i e s * P.val i e s) *
          (P.embMarginal (fun a => piE i a (pos i)) e / P.embMarginal (P.piB i) e) := by
        intro s
        generalize P.embMarginal (fun a => piE i a (pos i)) e / P.embMarginal (P.piB i) e = ρ
        rw [EmbProcess.embMarginal, Finset.sum_mul, Finset.sum_mul]
        refine Finset.sum_congr rfl fun a _ => ?_
        simp only [EmbProcess.prob]; ring
      simp only [h1, ← Finset.sum_mul, ← Finset.mul_sum]
      rw [← EmbProcess.meanReward]
      have h2 : ∑ a, piE i a (pos i) * (P.embProb a e * P.meanReward i e) =
          P.embMarginal (fun a => piE i a (pos i)) e * P.meanReward i e := by
        rw [EmbProcess.embMarginal, Finset.sum_mul]
        exact Finset.sum_congr rfl fun a _ => by ring
      rw [h2]
      by_cases h0 : P.embMarginal (fun a => piE i a (pos i)) e = 0
      · simp [h0]
      · have := hsupp i e h0
        field_simp
    rw [Finset.sum_comm]
    exact Finset.sum_congr rfl fun e _ => this e

/-- **C47** for one-dimensional embeddings: no further hypothesis is needed. -/
theorem C47_mips_unbiased_one_dim {P : EmbProcess K n A C 1 S} (hP : P.Valid) (hn : 0 < n)
    (pos : Fin n → Fin L) (piB piE : Fin n → Fin A → Fin L → K)
    (hB : ∀ i l, IsDist fun a => piB i a l) (hE : ∀ i l, IsDist fun a => piE i a l)
    (hBP : ∀ i a, piB i a (pos i) = P.piB i a)
    (hsupp : ∀ i e, P.embMarginal (fun a => piE i a (pos i)) e ≠ 0 → P.embMarginal (P.piB i) e ≠ 0)
    (nActions : ℕ) (learner) :
    ∃ v : (Fin n → Fin A × (Fin 1 → Fin C) × Fin S) → K,
      (∀ w, jointProb P.prob w ≠ 0 →
        EmbKind.mipw.plainValue nActions learner (P.log w piB piE pos).args = .ok (v w)) ∧
      expect P.prob v = P.policyValue fun i a => piE i a (pos i) := by
  have : ∀ pi, P.Independent pi := fun pi e => by
    simp [EmbProcess.embMarginal, EmbProcess.embProb]
  exact C47_mips_unbiased_partial hP hn pos piB piE hB hE hBP (fun _ => this _) (fun _ => this _)
    hsupp nActions learner

/-- Two actions, each with its own embedding, written with two perfectly correlated dimensions; the
reward is always 1. -/
def exRedundant : EmbProcess ℚ 1 2 2 2 1 where
  piB := fun _ _ => 1 / 2
  pEA := fun a c _ => if a = c then 1 else 0
  law := fun _ _ _ => 1
  val := fun _ _ _ => 1

/-- An evaluation policy for `exRedundant`. -/
def exRedundantE : Fin 1 → Fin 2 → Fin 1 → ℚ := fun _ a _ => (![1 / 3, 2 / 3] a : ℚ)

theorem exRedundant_valid : exRedundant.Valid where
  piB_dist := fun i => ⟨fun _ => by norm_num [exRedundant], by norm_num [exRedundant]⟩
  pEA_dist := fun a d => ⟨by revert a d; decide +kernel, by revert a d; decide +kernel⟩
  law_dist := fun i e => ⟨fun _ => by norm_num [exRedundant], by norm_num [exRedundant]⟩

/-- The value of MIPS on `exRedundant` for a logged embedding. -/
def exRedundantV (w : Fin 1 → Fin 2 × (Fin 2 → Fin 2) × Fin 1) : ℚ :=
  (exRedundant.log w (fun _ _ (_ : Fin 1) => 1 / 2) exRedundantE fun _ => 0).weight 0

/-- **C47 is false for several embedding dimensions.** The code multiplies the marginal probabilities
of the dimensions, which is the probability of the embedding only if the dimensions are independent
after averaging over actions. On `exRedundant` all hypotheses of C47 hold, the true value is 1, and
the expectation of the estimate is 10/9. -/
theorem C47_mips_biased_two_dims (nActions : ℕ) (learner) :
    exRedundant.Valid ∧
    (∀ e, exRedundant.embMarginal (exRedundant.piB 0) e = 0 → exRedundant.embMarginal (fun a => exRedundantE 0 a 0) e = 0) ∧
    (exRedundant.policyValue fun i a => exRedundantE i a 0) = 1 ∧
    (∀ w, jointProb exRedundant.prob w ≠ 0 → EmbKind.mipw.plainValue nActions learner
      (exRedundant.log w (fun _ _ (_ : Fin 1) => 1 / 2) exRedundantE fun _ => 0).args = .ok (exRedundantV w)) ∧
    expect exRedundant.prob exRedundantV = 10 / 9 := by
  refine ⟨exRedundant_valid, by decide +kernel, by decide +kernel, fun w _ => ?_, by decide +kernel⟩
  have hv : (exRedundant.log w (fun _ _ (_ : Fin 1) => 1 / 2) exRedundantE fun _ => 0).Valid :=
    ⟨by decide, fun i l => by revert i l; unfold EmbProcess.log; dsimp only; decide +kernel,
      fun i l => by revert i l; unfold EmbProcess.log; dsimp only; decide +kernel⟩
  rw [EmbLog.value_mipw hv (by
    intro i d
    simp only [EmbLog.marginal, EmbProcess.log, exRedundant, Fin.sum_univ_two]
    generalize (w i).2.1 d = c
    revert c; decide +kernel)]
  refine congrArg Except.ok ?_
  simp [avg, EmbProcess.log, exRedundantV, exRedundant]

/-! ### C48 -/

/-- The log with propensities as an ordinary log, for comparison with IPW. -/
def EmbLog.toLog (g : EmbLog K n A L C D) : Log K n A L where
  action := g.action
  reward := g.reward
  pscore i := g.piB i (g.action i) (g.position i)
  estPscore _ := 1
  position := g.position
  piE := g.piE
  q := fun _ _ _ => 0
  estIw _ := 1

/-- **C48**, first half, for one embedding dimension: if each action has its own embedding with
probability one, MIPS and IPW give the same estimate. (False with redundant dimensions:
`C48_redundant_dims_differ`.) -/
theorem C48_one_to_one_partial {g : EmbLog K n A L C 1} (hg : g.Valid) (f : Fin A → Fin C)
    (hf : Function.Injective f) (hp : ∀ a c, g.pEA a c 0 = if c = f a then 1 else 0)
    (he : ∀ i, g.embed i 0 = f (g.action i))
    (hpos : ∀ i, 0 < g.piB i (g.action i) (g.position i)) (nActions : ℕ) (learner) :
    EmbKind.mipw.plainValue nActions learner g.args =
      (Estimator.mk .ipw .inf false).estimatePolicyValue g.toLog.args := by
  have hm : ∀ pi i, g.marginal pi i 0 = pi i (g.action i) (g.position i) := by
    intro pi i
    unfold EmbLog.marginal
    rw [Finset.sum_eq_single (g.action i)]
    · simp [hp, he]
    · intro a _ ha
      rw [hp, he, if_neg (fun h => ha (hf h.symm)), mul_zero]
    · simp
  rw [EmbLog.value_mipw hg fun i d => by rw [Subsingleton.elim d 0, hm]; exact (hpos i).ne',
    value_ipw ⟨hg.nonempty, hpos, fun _ => one_pos, fun _ => zero_le_one, hg.piE_sum⟩]
  refine congrArg Except.ok (avg_congr fun i => ?_)
  simp only [EmbLog.weight, Fin.prod_univ_one, hm]
  rfl

/-- With two perfectly correlated dimensions each action still has its own embedding with
probability one, but MIPS and IPW differ. -/
def exRedundantLog : EmbLog ℚ 1 2 1 2 2 where
  action := fun _ => 0
  reward := fun _ => 1
  embed := fun _ _ => 0
  piB := fun _ _ _ => 1 / 2
  piE := exRedundantE
  position := fun _ => 0
  pEA := fun a c _ => if a = c then 1 else 0

/-- **C48 is false for several embedding dimensions**: MIPS gives 4/9, IPW 2/3. -/
theorem C48_redundant_dims_differ (nActions : ℕ) (learner) :
    EmbKind.mipw.plainValue nActions learner exRedundantLog.args = .ok (4 / 9) ∧
      (Estimator.mk .ipw .inf false).estimatePolicyValue exRedundantLog.toLog.args = .ok (2 / 3) := by
  constructor
  · rw [EmbLog.value_mipw ⟨by decide, by decide +kernel, by decide +kernel⟩ (by decide +kernel)]
    exact congrArg Except.ok (by decide +kernel)
  · rw [value_ipw ⟨by decide, by decide +kernel, by decide +kernel, by decide +kernel, by decide +kernel⟩]
    exact congrArg Except.ok (by decide +kernel)

/-- **C48**, second half, for any number of embedding dimensions: if all actions share the same
embedding law, every weight is one and both estimators return the mean reward. -/
theorem C48_shared_law {g : EmbLog K n A L C D} (hn : 0 < n) (p : Fin C → Fin D → K)
    (hp : ∀ a c d, g.pEA a c d = p c d) (hpos : ∀ i d, p (g.embed i d) d ≠ 0)
    (hB : ∀ i l, ∑ a, g.piB i a l = 1) (hE : ∀ i l, ∑ a, g.piE i a l = 1) (k : EmbKind)
    (nActions : ℕ) (learner) : k.plainValue nActions learner g.args = .ok (avg g.reward) := by
  have hg : g.Valid := ⟨hn, fun i l => by rw [hB, closeToOne_one], fun i l => by rw [hE, closeToOne_one]⟩
  have hmB : ∀ i d, g.marginal g.piB i d = p (g.embed i d) d := by
    intro i d; simp only [EmbLog.marginal, hp, ← Finset.sum_mul, hB, one_mul]
  have hmE : ∀ i d, g.marginal g.piE i d = p (g.embed i d) d := by
    intro i d; simp only [EmbLog.marginal, hp, ← Finset.sum_mul, hE, one_mul]
  have hw : ∀ i, g.weight i = 1 := by
    intro i
    simp only [EmbLog.weight, hmB, hmE]
    exact div_self (Finset.prod_ne_zero_iff.2 fun d _ => hpos i d)
  have ha : avg g.weight = 1 := by rw [avg_congr hw, avg_const hn]
  have hb : ∀ i d, g.marginal g.piB i d ≠ 0 := fun i d => by rw [hmB]; exact hpos i d
  cases k
  · rw [EmbLog.value_mipw hg hb]
    exact congrArg Except.ok (avg_congr fun i => by rw [hw, mul_one])
  · rw [EmbLog.value_snmipw hg hb (by rw [ha]; exact one_ne_zero)]
    exact congrArg Except.ok (avg_congr fun i => by rw [hw, ha, mul_one, div_one])

/-- The estimate in closed form (general number of dimensions): rewards weighted by the ratio of
products of marginal embedding probabilities. -/
theorem C48_weight_formula {g : EmbLog K n A L C D} (hg : g.Valid)
    (hb : ∀ i d, ∑ a, g.piB i a (g.position i) * g.pEA a (g.embed i d) d ≠ 0) (nActions : ℕ) (learner) :
    EmbKind.mipw.plainValue nActions learner g.args = .ok (avg fun i => g.reward i *
      ((∏ d, ∑ a, g.piE i a (g.position i) * g.pEA a (g.embed i d) d) /
        ∏ d, ∑ a, g.piB i a (g.position i) * g.pEA a (g.embed i d) d)) :=
  EmbLog.value_mipw hg hb nActions learner

/-- A logged embedding that is impossible under the behaviour policy makes the estimate
non-finite. -/
theorem C48_impossible_embedding {g : EmbLog K n A L C D} (hg : g.Valid) (k : EmbKind)
    (h0 : ∃ i d, ∑ a, g.piB i a (g.position i) * g.pEA a (g.embed i d) d = 0) (nActions : ℕ) (learner) :
    k.plainValue nActions learner g.args = .error .nonFinite := by
  have := g.weightsGiven_zero (some ⟨A, C, D, g.pEA⟩) ⟨0, 0, fun i _ => i.elim0⟩ h0
  unfold EmbKind.plainValue EmbKind.round embWeights
  rw [EmbLog.prepare_eq hg, py_bind_ok]
  simp only [EmbLog.embIn] at this ⊢
  rw [this]
  rfl

/-! ### Examples -/

/-- Three actions, two embeddings (actions 1 and 2 look alike), the behaviour policy never plays
action 2 but the evaluation policy does. -/
def exEmb : EmbProcess ℚ 2 3 2 1 2 where
  piB := fun _ => ![1 / 4, 3 / 4, 0]
  pEA := fun a c _ => (![![1, 0], ![1 / 3, 2 / 3], ![1 / 3, 2 / 3]] a c : ℚ)
  law := fun _ e s => if e 0 = 0 then ![1 / 2, 1 / 2] s else ![1 / 5, 4 / 5] s
  val := fun i e s => i.val + 2 * (e 0).val + s.val

theorem exEmb_valid : exEmb.Valid where
  piB_dist := fun i => ⟨by revert i; decide +kernel, by revert i; decide +kernel⟩
  pEA_dist := fun a d => ⟨by revert a d; decide +kernel, by revert a d; decide +kernel⟩
  law_dist := fun i e => ⟨by revert i e; decide +kernel, by revert i e; decide +kernel⟩

/-- the evaluation policy of `exEmb` -/
def exEmbE : Fin 2 → Fin 3 → Fin 1 → ℚ := fun _ a _ => (![1 / 2, 0, 1 / 2] a : ℚ)

example (learner) := C47_mips_unbiased_one_dim exEmb_valid (by decide) (fun _ => (0 : Fin 1))
  (fun i a _ => exEmb.piB i a) exEmbE
  (fun i l => ⟨by revert i l; decide +kernel, by revert i l; decide +kernel⟩)
  (fun i l => ⟨by revert i l; decide +kernel, by revert i l; decide +kernel⟩)
  (fun _ _ => rfl) (by decide +kernel) 3 learner

/-- two dimensions of which the second is the same for all actions are independent -/
def exIndep : EmbProcess ℚ 1 2 2 2 1 where
  piB := fun _ => ![1 / 4, 3 / 4]
  pEA := fun a c d => if d = 0 then (if a = c then 1 else 0) else 1 / 2
  law := fun _ _ _ => 1
  val := fun _ e _ => (e 0).val + 5 * (e 1).val

theorem exIndep_valid : exIndep.Valid where
  piB_dist := fun i => ⟨by revert i; decide +kernel, by revert i; decide +kernel⟩
  pEA_dist := fun a d => ⟨by revert a d; decide +kernel, by revert a d; decide +kernel⟩
  law_dist := fun i e => ⟨by revert i e; decide +kernel, by revert i e; decide +kernel⟩

example (learner) := C47_mips_unbiased_partial exIndep_valid (by decide) (fun _ => (0 : Fin 1))
  (fun i a _ => exIndep.piB i a) exRedundantE
  (fun i l => ⟨by revert i l; decide +kernel, by revert i l; decide +kernel⟩)
  (fun i l => ⟨by revert i l; decide +kernel, by revert i l; decide +kernel⟩)
  (fun _ _ => rfl) (by unfold EmbProcess.Independent; decide +kernel)
  (by unfold EmbProcess.Independent; decide +kernel) (by decide +kernel) 2 learner

/-- one dimension, two actions with their own embeddings (swapped) -/
def exEmbLog : EmbLog ℚ 2 2 1 2 1 where
  action := ![0, 1]
  reward := ![3, 5]
  embed := fun i _ => ![1, 0] i
  piB := fun _ a _ => (![1 / 4, 3 / 4] a : ℚ)
  piE := fun _ a _ => (![1 / 2, 1 / 2] a : ℚ)
  position := fun _ => 0
  pEA := fun a c _ => if c = ![1, 0] a then 1 else 0

example (learner) := C48_one_to_one_partial (g := exEmbLog)
  ⟨by decide, by decide +kernel, by decide +kernel⟩ ![1, 0] (by decide) (by decide +kernel)
  (by decide +kernel) (by decide +kernel) 2 learner
example (learner) := C48_shared_law (g := { exEmbLog with pEA := fun _ c _ => ![1 / 4, 3 / 4] c })
  (by decide) (fun c _ => ![1 / 4, 3 / 4] c) (fun _ _ _ => rfl) (by decide +kernel) (by decide +kernel)
  (by decide +kernel) .snmipw 2 learner

end Obp
