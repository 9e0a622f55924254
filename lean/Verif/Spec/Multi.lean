import Verif.Model.Multi
import Verif.Spec.Process
import Mathlib.Data.Finset.Card

/-!
# Specification vocabulary for evaluation with several loggers
-/

namespace Obp

variable {K : Type} [Field K] [LinearOrder K]

/-- A pooled log: every round carries the label of the stratum (logger) it came from and the
propensity under the average policy. -/
structure MLog (K : Type) (n A L : ℕ) extends Log K n A L where
  stratum : Fin n → ℕ
  pscoreAvg : Fin n → K
  estPscoreAvg : Fin n → K

namespace MLog
variable {n A L : ℕ}

/-- The keyword arguments of an API call. -/
def margs (g : MLog K n A L) : MultiArgs K where
  reward := .flt (List.ofFn g.reward)
  action := .int (List.ofFn fun i => ((g.action i : ℕ) : ℤ))
  actionDist := .arr ⟨n, A, L, g.piE⟩
  stratumIdx := .int (List.ofFn fun i => ((g.stratum i : ℕ) : ℤ))
  pscore := .flt (List.ofFn g.pscore)
  pscoreAvg := .flt (List.ofFn g.pscoreAvg)
  position := .int (List.ofFn fun i => ((g.position i : ℕ) : ℤ))
  estimatedPscore := .flt (List.ofFn g.estPscore)
  estimatedPscoreAvg := .flt (List.ofFn g.estPscoreAvg)
  regModel := .arr ⟨n, A, L, g.q⟩

/-- What the validators require. -/
structure MValid (g : MLog K n A L) : Prop where
  base : g.toLog.Valid
  avg_pos : ∀ i, 0 < g.pscoreAvg i
  estAvg_pos : ∀ i, 0 < g.estPscoreAvg i

/-- The importance weight with respect to the average policy. -/
def weightAvg (g : MLog K n A L) (est : Bool) (i : Fin n) : K :=
  g.piE i (g.action i) (g.position i) / (if est then g.estPscoreAvg i else g.pscoreAvg i)

/-- The distinct labels. -/
def labels (g : MLog K n A L) : Finset ℕ := Finset.univ.image g.stratum

/-- Number of rounds with label `k`. -/
def size (g : MLog K n A L) (k : ℕ) : ℕ := (Finset.univ.filter fun i => g.stratum i = k).card

/-- Mean of `f` over the rounds with label `k`. -/
def stratumMean (g : MLog K n A L) (f : Fin n → K) (k : ℕ) : K :=
  (∑ i with g.stratum i = k, f i) / (g.size k : K)

/-- Variance of `f` over the rounds with label `k`. -/
def stratumVar (g : MLog K n A L) (f : Fin n → K) (k : ℕ) : K :=
  g.stratumMean (fun i => (f i - g.stratumMean f k) ^ 2) k

/-- The labels are `0, ..., m - 1`: every label is smaller than the number of distinct labels. -/
def Contiguous (g : MLog K n A L) : Prop := ∀ i, g.stratum i < g.labels.card

/-- `omega` are weights per stratum that average to one over the pooled log and are inversely
proportional to the stratum variances of `f`. -/
structure VarianceWeights (g : MLog K n A L) (f : Fin n → K) (omega : ℕ → K) : Prop where
  pos : ∀ i, 0 < omega (g.stratum i)
  avg_one : (∑ i, omega (g.stratum i)) / (n : K) = 1
  inverse : ∀ i j, omega (g.stratum i) * g.stratumVar f (g.stratum i) =
    omega (g.stratum j) * g.stratumVar f (g.stratum j)

end MLog

/-- Logging with `M` loggers. The logger of each of the `n` rounds is fixed. The context of every
round is drawn from `ctx`; the logger of the round draws the action; a reward outcome is drawn from
`law`. -/
structure MultiProcess (K : Type) (n A S X M : ℕ) where
  ctx : Fin X → K
  logger : Fin n → Fin M
  piB : Fin M → Fin X → Fin A → K
  law : Fin X → Fin A → Fin S → K
  val : Fin X → Fin A → Fin S → K

namespace MultiProcess
variable {n A S X M L : ℕ}

/-- All components are probability distributions. -/
structure Valid (P : MultiProcess K n A S X M) : Prop where
  ctx_dist : IsDist P.ctx
  piB_dist : ∀ m x, IsDist (P.piB m x)
  law_dist : ∀ x a, IsDist (P.law x a)

/-- Probability that round `i` logs (context, action, reward outcome) `o`. -/
def prob (P : MultiProcess K n A S X M) (i : Fin n) (o : Fin X × Fin A × Fin S) : K :=
  P.ctx o.1 * P.piB (P.logger i) o.1 o.2.1 * P.law o.1 o.2.1 o.2.2

/-- The average policy: each logger counts with its share of the rounds. -/
def mixture (P : MultiProcess K n A S X M) (x : Fin X) (a : Fin A) : K :=
  (∑ i, P.piB (P.logger i) x a) / (n : K)

/-- Expected reward. -/
def meanReward (P : MultiProcess K n A S X M) (x : Fin X) (a : Fin A) : K :=
  ∑ s, P.law x a s * P.val x a s

/-- Value of a policy. -/
def policyValue (P : MultiProcess K n A S X M) (pi : Fin X → Fin A → K) : K :=
  ∑ x, P.ctx x * ∑ a, pi x a * P.meanReward x a

/-- The pooled log, with true propensities of the logger and of the average policy. -/
def log (P : MultiProcess K n A S X M) (w : Fin n → Fin X × Fin A × Fin S)
    (piE q : Fin X → Fin A → K) : MLog K n A 1 where
  action i := (w i).2.1
  reward i := P.val (w i).1 (w i).2.1 (w i).2.2
  pscore i := P.piB (P.logger i) (w i).1 (w i).2.1
  estPscore _ := 1
  position _ := 0
  piE i a _ := piE (w i).1 a
  q i a _ := q (w i).1 a
  estIw _ := 1
  stratum i := P.logger i
  pscoreAvg i := P.mixture (w i).1 (w i).2.1
  estPscoreAvg _ := 1

end MultiProcess

end Obp
