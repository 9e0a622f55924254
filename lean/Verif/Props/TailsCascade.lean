import Verif.Lemmas.Tails
import Verif.Props.NormalCascade

set_option linter.unusedSectionVars false

/-!
# Large errors of the cascade doubly robust estimator

C189: see `Verif/Props/Tails.lean`.
-/

namespace Obp
open MeasureTheory ProbabilityTheory Filter Topology Log SlateStream

variable {Ω C : Type} [MeasurableSpace Ω] [MeasurableSpace C] {L A : ℕ} {P : Measure Ω} [IsProbabilityMeasure P]
variable {s : SlateStream Ω C L A} {piB piE : C → (Fin L → Fin A) → ℝ} {m : C → (Fin L → Fin A) → Fin L → ℝ}

/-- **C189.** Cascade-DR, with any bounded reward model that looks only at a slot and the actions above it: corrected predictions for a
slate in `[x, y]`. -/
theorem C189_cascade_dr (hs : s.LoggedBy P piB m) (hL : 0 < L) (hE : Covers .rips piB piE m)
    (hi : ∀ l, Integrable (fun ω => slotWeight .rips piB piE l (s.ctx 0 ω) (s.slate 0 ω) * s.rew 0 ω l) P)
    {q dist : C → (Fin L → Fin A) → Fin L → Fin A → ℝ}
    (hq : ∀ c l a b, (∀ m < l, a m = b m) → q c a l = q c b l) (hqm : ∀ a l b, Measurable fun c => q c a l b)
    {Q : ℝ} (hQ : ∀ c a l b, |q c a l b| ≤ Q)
    (hd : ∀ c a l, IsDist (dist c a l)) (hdp : ∀ c l a b, (∀ m < l, a m = b m) → dist c a l = dist c b l)
    (hdm : ∀ a l b, Measurable fun c => dist c a l b)
    (hcond : ∀ c a l b, prefixPscore (fun _ : Fin 1 => piE c) 0 a l * dist c a l b =
      cascadePscore (fun _ : Fin 1 => piE c) 0 (Function.update a l b) l) {x y : ℝ}
    (hb : ∀ᵐ ω ∂P, s.cascadeTerm piB piE q dist 0 ω ∈ Set.Icc x y) {n : ℕ} (hn : 0 < n) {t : ℝ} (ht : 0 ≤ t) :
    P.real {ω | Misses (cascadeDrValue L A
      (s.cascadeLog (fun c => SlateKind.rips.propensity (piB c)) (fun c => SlateKind.rips.propensity (piE c)) q dist n ω).args)
      (s.value P piE m) t} ≤ 2 * Real.exp (-(2 * n * t ^ 2 / (y - x) ^ 2)) := by
  have hF := cascadeFn_meas (q := q) (dist := dist) hs hE.meas hqm hdm
  have hest := hs.cascade_mean (q := q) hL hE hd
  simp only [cascadeTerm_eq] at hb hest
  have hint : Integrable (fun ω => cascadeFn piB piE q dist (s.ctx 0 ω, s.slate 0 ω, s.rew 0 ω)) P :=
    Integrable.of_mem_Icc x y (hF.comp (hs.iid.meas 0)).aemeasurable hb
  have hm := hs.iid.mean_of_results (F := cascadeFn piB piE q dist) hF hint hest
    (C160_cascade_dr hs hL hE hi hq hqm hQ hd hdp hdm hcond)
  exact misses_mean (F := cascadeFn piB piE q dist) hs.iid hF hb hm hn ht (hest.mono fun ω hω => hω n hn)

/-- The reward model of `Verif/Props/NormalCascade.lean`, which is wrong: the terms are bounded by some `M`, as there are finitely many
rounds. -/
example : ∃ M : ℝ, ∀ (n : ℕ) (t : ℝ), 0 < n → 0 ≤ t → (exSlateMeasure 2 2).real {ω | Misses (cascadeDrValue 2 2
    ((exSlateStream exSlateMean).cascadeLog (fun _ => SlateKind.rips.propensity fun _ => 1 / Fintype.card (Fin 2 → Fin 2))
      (fun c => SlateKind.rips.propensity (exSlatePolicy c)) exCascadeQ exCascadeDist n ω).args) 3 t} ≤
    2 * Real.exp (-(2 * n * t ^ 2 / (M - -M) ^ 2)) := by
  obtain ⟨M, hM⟩ := (Set.finite_range fun o : ExSlateRound 2 2 => |cascadeFn (fun _ _ => 1 / Fintype.card (Fin 2 → Fin 2)) exSlatePolicy
    exCascadeQ exCascadeDist (o.1, o.2.1, fun l => exSlateMean o.1 o.2.1 l + if o.2.2 then 1 else -1)|).bddAbove
  refine ⟨M, fun n t hn ht => ?_⟩
  rw [← exSlate_value]
  refine C189_cascade_dr (Q := 100) (exSlateStream_logged _) two_pos (exSlate_covers exSlate_rips) (exSlate_weighted _)
    (fun c l a b h => ?_) (fun a l b => measurable_of_finite _) (fun c a l b => ?_) (fun c a l => ⟨fun b => ?_, ?_⟩)
    (fun c l a b h => ?_) (fun a l b => measurable_of_finite _) (fun c a l b => ?_) (ae_of_all _ fun ω => ?_) hn ht
  · funext x
    unfold exCascadeQ
    split
    · rfl
    · rw [h 0 (by omega)]
  · unfold exCascadeQ
    split
    · norm_num
    · have h1 : ((a 0 : ℕ) : ℝ) ≤ 1 := by exact_mod_cast (by omega : (a 0 : ℕ) ≤ 1)
      have h2 : ((b : ℕ) : ℝ) ≤ 1 := by exact_mod_cast (by omega : (b : ℕ) ≤ 1)
      have h3 : (0 : ℝ) ≤ (a 0 : ℕ) := Nat.cast_nonneg _
      have h4 : (0 : ℝ) ≤ (b : ℕ) := Nat.cast_nonneg _
      rw [abs_le]
      constructor <;> linarith
  · unfold exCascadeDist
    split
    · split <;> norm_num
    · norm_num
  · rw [Fin.sum_univ_two]
    unfold exCascadeDist
    by_cases hl : l = 0 <;> cases c <;> simp [hl]
    all_goals norm_num
  · rfl
  · unfold prefixPscore cascadePscore exCascadeDist
    simp only [sum_slates]
    fin_cases l <;> fin_cases b <;> cases c <;> (obtain ⟨x, y, rfl⟩ : ∃ x y, a = ![x, y] := ⟨a 0, a 1, by ext i; fin_cases i <;> rfl⟩) <;>
      fin_cases x <;> fin_cases y <;> simp [exSlatePolicy, Fin.forall_fin_two, Function.update] <;> norm_num
  · rw [cascadeTerm_eq]
    exact abs_le.1 (hM ⟨ω 0, rfl⟩)

end Obp
