import Verif.Model.Tuning
import Verif.Spec.Tuning
import Verif.Props.Mse
import Verif.Props.EstimatorApi
import Verif.Props.InputChecks
import Mathlib.Data.List.Sort

/-! # C33-C37: hyperparameter tuning (`obp/ope/estimators_tuning.py`) -/

set_option linter.unusedSectionVars false

namespace Obp
open Log

/-! ### C33: MSE tuning -/

section argmin
variable {K : Type} [Field K] [LinearOrder K] {α : Type}

theorem foldl_argmin (xs : List (α × K)) (b : α × K) :
    ∃ pre post, b :: xs = pre ++ xs.foldl (fun b y => if y.2 < b.2 then y else b) b :: post ∧
      (∀ y ∈ pre, (xs.foldl (fun b y => if y.2 < b.2 then y else b) b).2 < y.2) ∧
      ∀ y ∈ post, (xs.foldl (fun b y => if y.2 < b.2 then y else b) b).2 ≤ y.2 := by
  induction xs generalizing b with
  | nil => exact ⟨[], [], by simp⟩
  | cons x xs ih =>
    simp only [List.foldl_cons]
    split
    · next hlt =>
      obtain ⟨pre, post, h1, h2, h3⟩ := ih x
      refine ⟨b :: pre, post, by rw [h1]; rfl, ?_, h3⟩
      intro y hy
      rcases List.mem_cons.1 hy with rfl | hy
      · have hx : (xs.foldl (fun b y => if y.2 < b.2 then y else b) x).2 ≤ x.2 := by
          have : x ∈ pre ++ xs.foldl (fun b y => if y.2 < b.2 then y else b) x :: post := by
            rw [← h1]; simp
          rcases List.mem_append.1 this with h | h
          · exact (h2 x h).le
          · rcases List.mem_cons.1 h with h | h
            · rw [← h]
            · exact h3 x h
        exact hx.trans_lt hlt
      · exact h2 y hy
    · next hlt =>
      rw [not_lt] at hlt
      obtain ⟨pre, post, h1, h2, h3⟩ := ih b
      cases pre with
      | nil =>
        simp only [List.nil_append, List.cons.injEq] at h1
        refine ⟨[], x :: post, ?_, by simp, ?_⟩
        · rw [List.nil_append]; rw [← h1.1, ← h1.2]
        · intro y hy
          rcases List.mem_cons.1 hy with rfl | hy
          · rw [← h1.1]; exact hlt
          · exact h3 y hy
      | cons p pre =>
        simp only [List.cons_append, List.cons.injEq] at h1
        obtain ⟨rfl, h1⟩ := h1
        have hb := h2 b (by simp)
        refine ⟨b :: x :: pre, post, ?_, ?_, h3⟩
        · simp only [List.cons_append, List.cons.injEq, true_and]; exact h1
        intro y hy
        rcases List.mem_cons.1 hy with rfl | hy
        · exact hb
        · rcases List.mem_cons.1 hy with rfl | hy
          · exact hb.trans_le hlt
          · exact h2 y (by simp [hy])

/-- Python's `min` with a key: the first of the minimal items. -/
theorem argminFirst_spec {xs : List (α × K)} (h : xs ≠ []) :
    ∃ a s pre post, argminFirst xs = .ok a ∧ xs = pre ++ (a, s) :: post ∧
      (∀ y ∈ pre, s < y.2) ∧ ∀ y ∈ post, s ≤ y.2 := by
  cases xs with
  | nil => exact absurd rfl h
  | cons x xs =>
    obtain ⟨pre, post, h1, h2, h3⟩ := foldl_argmin xs x
    exact ⟨_, _, pre, post, rfl, h1, h2, h3⟩

end argmin

theorem mapM_pair {α β : Type} {f : α → Py β} {xs : List α} {ys : List (α × β)}
    (h : (xs.mapM fun x => do let y ← f x; pure (x, y)) = .ok ys) :
    xs = ys.map Prod.fst ∧ ∀ p ∈ ys, f p.1 = .ok p.2 := by
  rw [mapM_ok_iff] at h
  induction h with
  | nil => simp
  | cons h1 _ ih =>
    simp only [py_bind_eq_ok, py_pure, Except.ok.injEq] at h1
    obtain ⟨y, hy, rfl⟩ := h1
    refine ⟨by simp [← ih.1], ?_⟩
    intro p hp
    rcases List.mem_cons.1 hp with rfl | hp
    · exact hy
    · exact ih.2 p hp

/-- **C33.** If every candidate has a finite score, `tuning_method="mse"` chooses a candidate `l`
whose score is minimal, and every candidate before it in the object's candidate order has a strictly
larger score. -/
theorem C33_mse_minimiser (t : Tuner) (r : RoundIn ℝ) {score : Lam ℝ → ℝ} (hne : t.lambdas ≠ [])
    (hs : ∀ l ∈ t.lambdas, (Estimator.mk t.kind l t.est).mseScore r t.useUB t.delta = .ok (score l)) :
    ∃ l pre post, t.tuneMse r = .ok l ∧ t.lambdas = pre ++ l :: post ∧
      (∀ l' ∈ t.lambdas, score l ≤ score l') ∧ ∀ l' ∈ pre, score l < score l' := by
  have hitems : (t.lambdas.mapM fun l => do
      let s ← (Estimator.mk t.kind l t.est).mseScore r t.useUB t.delta
      pure (l, s)) = .ok (t.lambdas.map fun l => (l, score l)) :=
    mapM_map_ok fun l hl => by rw [hs l hl]; rfl
  obtain ⟨l, s, pre, post, h1, h2, h3, h4⟩ :=
    argminFirst_spec (xs := t.lambdas.map fun l => (l, score l)) (by simpa using hne)
  have h2' := congrArg (List.map Prod.fst) h2
  simp only [List.map_map, Function.comp_def, List.map_id', List.map_append, List.map_cons] at h2'
  have hmem : ∀ p ∈ t.lambdas.map (fun l => (l, score l)), p.2 = score p.1 := by
    intro p hp; obtain ⟨l', -, rfl⟩ := List.mem_map.1 hp; rfl
  have hsl : s = score l := hmem (l, s) (by rw [h2]; simp)
  subst hsl
  refine ⟨l, pre.map Prod.fst, post.map Prod.fst, ?_, h2', ?_, ?_⟩
  · unfold Tuner.tuneMse; rw [hitems]; exact h1
  · intro l' hl'
    have : (l', score l') ∈ pre ++ (l, score l) :: post := by
      rw [← h2]; exact List.mem_map.2 ⟨l', hl', rfl⟩
    rcases List.mem_append.1 this with h | h
    · exact (h3 _ h).le
    · rcases List.mem_cons.1 h with h | h
      · simp only [Prod.mk.injEq] at h; rw [h.1]
      · exact h4 _ h
  · intro l' hl'
    obtain ⟨p, hp, rfl⟩ := List.mem_map.1 hl'
    have := hmem p (by rw [h2]; simp [hp])
    rw [← this]; exact h3 p hp

/-- **C33.** In general (scores that are not all finite included): what is returned is a candidate
with a minimal score. -/
theorem C33_mse_candidate {t : Tuner} {r : RoundIn ℝ} {l : Lam ℝ} (h : t.tuneMse r = .ok l) :
    l ∈ t.lambdas ∧ ∃ s, (Estimator.mk t.kind l t.est).mseScore r t.useUB t.delta = .ok s ∧
      ∀ l' ∈ t.lambdas, ∃ s', (Estimator.mk t.kind l' t.est).mseScore r t.useUB t.delta = .ok s' ∧
        s ≤ s' := by
  unfold Tuner.tuneMse at h
  rw [py_bind_eq_ok] at h
  obtain ⟨items, hi, h⟩ := h
  obtain ⟨h1, h2⟩ := mapM_pair hi
  have hne : items ≠ [] := by rintro rfl; simp [argminFirst] at h
  obtain ⟨a, s, pre, post, h3, h4, h5, h6⟩ := argminFirst_spec hne
  rw [h3] at h; cases h
  refine ⟨by rw [h1, h4]; simp, s, h2 (l, s) (by rw [h4]; simp), fun l' hl' => ?_⟩
  rw [h1] at hl'
  obtain ⟨p, hp, rfl⟩ := List.mem_map.1 hl'
  refine ⟨p.2, h2 p hp, ?_⟩
  rw [h4] at hp
  rcases List.mem_append.1 hp with h | h
  · exact (h5 _ h).le
  · rcases List.mem_cons.1 h with h | h
    · rw [h]
    · exact h6 _ h

/-! ### C34: SLOPE -/

section slope
variable {K : Type} [Field K] [LinearOrder K]

theorem slopeLoop_spec (C : K) (stats : List (K × K)) (done rest : List ℕ) (acc : List (K × K))
    (hacc : done.map (stats[·]?) = acc.map some) (hlt : ∀ i ∈ rest, i < stats.length)
    (hne : done ++ rest ≠ [])
    (hok : ∀ i (hi : i < acc.length) j (hj : j < i), Compatible C acc[j] acc[i]) :
    ∃ m, ∃ hm : m < (done ++ rest).length,
      slopeLoop C stats acc done.getLast? rest = .ok (done ++ rest)[m] ∧
      (∀ i ≤ m, ∀ j < i, ∀ s t, ((done ++ rest)[i]?.bind (stats[·]?)) = some s →
        ((done ++ rest)[j]?.bind (stats[·]?)) = some t → Compatible C t s) ∧
      (m + 1 < (done ++ rest).length → ∃ j ≤ m, ∃ s t,
        ((done ++ rest)[m + 1]?.bind (stats[·]?)) = some s ∧
        ((done ++ rest)[j]?.bind (stats[·]?)) = some t ∧ ¬ Compatible C t s) := by
  induction rest generalizing done acc with
  | nil =>
    have hd : done ≠ [] := by simpa using hne
    have hlen : acc.length = done.length := by simpa using (congrArg List.length hacc).symm
    have hpos : 0 < done.length := List.length_pos_iff.2 hd
    have hget : ∀ i (hi : i < done.length), stats[done[i]]? = some (acc[i]'(by omega)) := by
      intro i hi
      have := congrArg (·[i]?) hacc
      simpa [hi, hlen] using this
    refine ⟨done.length - 1, by simp; omega, ?_, ?_, by simp; omega⟩
    · simp [slopeLoop, List.getLast?_eq_getElem?, List.getElem?_eq_getElem (show done.length - 1 < done.length by omega)]
    · intro i hi j hj s t hs ht
      have hi' : i < done.length := by omega
      have hj' : j < done.length := by omega
      simp only [List.append_nil, List.getElem?_eq_getElem hi', Option.bind_some, hget i hi',
        Option.some.injEq] at hs
      simp only [List.append_nil, List.getElem?_eq_getElem hj', Option.bind_some, hget j hj',
        Option.some.injEq] at ht
      subst hs ht
      exact hok i (by omega) j hj
  | cons i is ih =>
    have hlen : acc.length = done.length := by simpa using (congrArg List.length hacc).symm
    have hget : ∀ k (hk : k < done.length), stats[done[k]]? = some (acc[k]'(by omega)) := by
      intro k hk
      have := congrArg (·[k]?) hacc
      simpa [hk, hlen] using this
    have hi : i < stats.length := hlt i (by simp)
    rw [slopeLoop.eq_def]
    simp only [List.getElem?_eq_getElem hi]
    split
    · next hall =>
      have hcons : done ++ i :: is = (done ++ [i]) ++ is := by simp
      have := ih (done ++ [i]) (acc ++ [stats[i]]) (by simp [hacc, hi])
        (fun k hk => hlt k (by simp [hk])) (by simp) ?_
      · simp only [← hcons] at this
        simpa [List.getLast?_append] using this
      · intro a ha b hb
        by_cases hal : a < acc.length
        · rw [List.getElem_append_left hal, List.getElem_append_left (by omega)]
          exact hok a hal b hb
        · have hae : a = acc.length := by simp at ha; omega
          subst hae
          rw [List.getElem_append_left (by omega)]
          simp only [List.getElem_append_right le_rfl, Nat.sub_self, List.getElem_cons_zero]
          rw [List.all_eq_true] at hall
          have := hall _ (List.getElem_mem (l := acc) (n := b) (by omega))
          rw [decide_eq_true_eq] at this
          exact this
    · next hall =>
      have hd : done ≠ [] := by
        rintro rfl
        have : acc = [] := by simpa using hlen
        simp [this] at hall
      have hpos : 0 < done.length := List.length_pos_iff.2 hd
      refine ⟨done.length - 1, by simp; omega, ?_, ?_, ?_⟩
      · rw [List.getLast?_eq_getElem?, List.getElem?_eq_getElem (show done.length - 1 < done.length by omega)]
        simp only
        rw [List.getElem_append_left]
      · intro a ha b hb s t hs ht
        have ha' : a < done.length := by omega
        have hb' : b < done.length := by omega
        simp only [List.getElem?_append_left ha', List.getElem?_eq_getElem ha', Option.bind_some,
          hget a ha', Option.some.injEq] at hs
        simp only [List.getElem?_append_left hb', List.getElem?_eq_getElem hb', Option.bind_some,
          hget b hb', Option.some.injEq] at ht
        subst hs ht
        exact hok a (by omega) b hb
      · intro _
        simp only [List.all_eq_true, decide_eq_true_eq, not_forall] at hall
        obtain ⟨t, ht, hnot⟩ := hall
        obtain ⟨j, hj, rfl⟩ := List.mem_iff_getElem.1 ht
        refine ⟨j, by omega, stats[i], acc[j], ?_, ?_, hnot⟩
        · have he : done.length - 1 + 1 = done.length := by omega
          rw [he]
          simp [hi]
        · have hj' : j < done.length := by omega
          simp [List.getElem?_append_left hj', List.getElem?_eq_getElem hj', hget j hj']

/-- **C34.** Lepski's rule. For every list of `(theta, width)` statistics and every `argsort`: let
`idx` be the candidates in order of non-increasing width. The chosen candidate is `idx[m]` for an `m`
such that every candidate up to `m` is compatible with all earlier ones, and candidate `m + 1`, if
there is one, is incompatible with some earlier one. -/
theorem C34_slope_rule (C : K) {argsort : List K → List ℕ} (hsort : IsArgsort argsort)
    {stats : List (K × K)} (hne : stats ≠ []) :
    ∃ (idx : List ℕ) (m : ℕ) (hm : m < idx.length), idx.Perm (List.range stats.length) ∧
      idx.Pairwise (fun i j => ∀ s t, stats[i]? = some s → stats[j]? = some t → t.2 ≤ s.2) ∧
      slopeSelect C argsort stats = .ok idx[m] ∧
      (∀ i ≤ m, ∀ j < i, ∀ s t, idx[i]?.bind (stats[·]?) = some s →
        idx[j]?.bind (stats[·]?) = some t → Compatible C t s) ∧
      (m + 1 < idx.length → ∃ j ≤ m, ∃ s t, idx[m + 1]?.bind (stats[·]?) = some s ∧
        idx[j]?.bind (stats[·]?) = some t ∧ ¬ Compatible C t s) := by
  obtain ⟨hp, hpw⟩ := hsort (stats.map Prod.snd)
  rw [List.length_map] at hp
  have hperm : (argsort (stats.map Prod.snd)).reverse.Perm (List.range stats.length) :=
    (List.reverse_perm _).trans hp
  have hlen : 0 < stats.length := List.length_pos_iff.2 hne
  obtain ⟨m, hm, h1, h2, h3⟩ := slopeLoop_spec C stats [] (argsort (stats.map Prod.snd)).reverse []
    rfl (fun i hi => by simpa using hperm.mem_iff.1 hi)
    (by
      intro h
      have := hperm.length_eq
      rw [List.nil_append] at h
      simp [h] at this
      omega)
    (by simp)
  simp only [List.nil_append] at hm h1 h2 h3
  refine ⟨_, m, hm, hperm, ?_, h1, h2, h3⟩
  rw [List.pairwise_reverse]
  refine hpw.imp fun {i j} h s t hs ht => ?_
  exact h _ _ (by simp [ht]) (by simp [hs])

end slope

/-- **C34.** The SLOPE tuner returns a candidate. -/
theorem C34_slope_candidate {argsort : List ℝ → List ℕ} {tq : ℝ → ℝ → ℝ} {t : Tuner} {r : RoundIn ℝ}
    {l : Lam ℝ} (h : t.tuneSlope argsort tq r = .ok l) : l ∈ t.lambdas := by
  simp only [Tuner.tuneSlope, py_bind_eq_ok] at h
  obtain ⟨stats, -, i, -, h⟩ := h
  split at h
  · next l' hl' => cases h; exact List.mem_of_getElem? hl'
  · cases h

/-- **C34.** The statistics that the rule compares are the base estimator's value at the candidate and
the half-width of its Student-t interval, scaled from the standard error of the per-round values. -/
theorem C34_slope_statistics {n A L : ℕ} {g : Log ℝ n A L} (h : g.Valid) (hn : 2 ≤ n)
    (tq : ℝ → ℝ → ℝ) {t : Tuner} (hd : 0 ≤ t.delta ∧ t.delta ≤ 1)
    {r : RoundIn ℝ} {l : Lam ℝ} (hr : (t.base l).prepare g.args = .ok r) {s : Fin n → ℝ}
    (hs : roundReward (t.base l) g = some s) :
    t.slopeStat tq r l =
      .ok (avg s, √(popVar s / (n - 1)) * tq (n - 1) (1 - t.delta)) ∧
    (t.base l).estimatePolicyValue g.args = .ok (avg s) := by
  have hround : (Estimator.mk t.kind l false).round r = .ok (List.ofFn s) := by
    have := rounds_eq (e := t.base l) h
    rw [hr, py_bind_ok, hs] at this
    exact this
  have hn1 : (n : ℝ) - 1 ≠ 0 := by
    have : (2 : ℝ) ≤ n := by exact_mod_cast hn
    intro h0; linarith
  have hsq : ¬ popVar s / ((n : ℝ) - 1) < 0 := by
    have : (2 : ℝ) ≤ n := by exact_mod_cast hn
    have h0 := popVar_nonneg s
    have : 0 < (n : ℝ) - 1 := by linarith
    exact not_lt.2 (by positivity)
  constructor
  · unfold Tuner.slopeStat estimateStudentTLowerBound
    rw [hround, py_bind_ok, npMean_avg h, py_bind_ok, checkDelta_ok.2 hd, py_bind_ok,
      npVar_ofFn h.nonempty, py_bind_ok, List.length_ofFn, npDiv_ok hn1, py_bind_ok, npSqrt,
      if_neg hsq, py_bind_ok, py_bind_ok]
    simp
  · rw [value_eq_rounds, rounds_eq h, hs]; exact npMean_avg h s

example : slopeSelect (1 / 2 : ℚ) (fun xs => if xs = [3, 1, 2] then [1, 2, 0] else [])
    [(0, 3), (10, 1), (1, 2)] = .ok 2 := by decide +kernel

/-! ### C35-C37: the tuned estimator -/

/-- `action_dist` has at least one round and one position. -/
def EstArgs.NonemptyDist (a : EstArgs ℝ) : Prop :=
  ∀ x, a.actionDist = .arr x → 0 < x.n ∧ 0 < x.L

theorem forward_prepare {t : Tuner} (hk : t.kind.IsTunable) {a : EstArgs ℝ} (hx : a.NonemptyDist)
    (hsg : t.est = true → t.kind ≠ .sgIpw ∧ t.kind ≠ .sgDr) {r : RoundIn ℝ} {l : Lam ℝ}
    (hr : (t.base .inf).prepare a = .ok r) :
    (t.base l).prepare (t.forward a r.position) = .ok r ∧
      choosePscore t.est (t.forward a r.position) = choosePscore t.est a ∧
      ∃ ps, choosePscore t.est a = .ok ps ∧ ps.vals = r.pscore := by
  have hch : ∀ pos, choosePscore t.est (t.forward a pos) = choosePscore t.est a := by
    intro pos
    obtain ⟨k, ls, m, ub, d, est, b⟩ := t
    unfold choosePscore Tuner.forward
    cases est
    · simp
    · simp only [if_true]
      have := hsg rfl
      rcases hk with h | h | h | h | h | h <;> simp only at h <;> subst h <;> simp_all
  have hpos : ∀ {args : OpeArgs ℝ} {x : Arr3 ℝ} {pos : List ℤ}, args.regModel.WF →
      args.actionDist = a.actionDist → checkOpeInputs args = .ok x →
      positionOrZeros x args.position = .ok pos →
      checkOpeInputs { args with position := .int pos } = .ok x ∧
        positionOrZeros x (.int pos) = .ok pos := by
    intro args x pos hwf h1 hc hp
    have W := (checkOpeInputs_ok hwf).1 hc
    obtain ⟨hn, hL⟩ := hx x (by rw [← h1]; exact W.dist)
    obtain ⟨f, hf⟩ := positionOrZeros_ofFn hL W.position
    rw [hp] at hf; cases hf
    refine ⟨(checkOpeInputs_ok (by exact hwf)).2 ⟨W.dist, W.dist_sum, Or.inr ⟨_, rfl, by simp, ?_, ?_⟩,
      W.regModel, W.estIw, W.action, W.pscore⟩, rfl⟩
    · intro h'; have := congrArg List.length h'; simp at this; omega
    · intro z hz
      obtain ⟨i, rfl⟩ := List.mem_ofFn.1 hz
      have := (f i).isLt
      constructor <;> omega
  have hipw : ipwPrepare t.est a = .ok r → t.kind.usesModel = false →
      ipwPrepare t.est (t.forward a r.position) = .ok r ∧
      ∃ ps, choosePscore t.est a = .ok ps ∧ ps.vals = r.pscore := by
    intro h hm
    simp only [ipwPrepare, py_bind_eq_ok, exists_unit, py_pure, Except.ok.injEq] at h
    obtain ⟨hrw, ha, ps, hps, x, hc, pos, hp, act, hact, rfl⟩ := h
    refine ⟨?_, ps, hps, rfl⟩
    obtain ⟨h1, h2⟩ := hpos (by trivial) rfl hc hp
    unfold ipwPrepare
    rw [hch]
    simp only at h1 h2 ⊢
    simp only [Tuner.forward, hrw, ha, hps, py_bind_ok, h1, h2, hact]
    rfl
  have hdr : drPrepare t.est a = .ok r → t.kind.usesModel = true →
      drPrepare t.est (t.forward a r.position) = .ok r ∧
      ∃ ps, choosePscore t.est a = .ok ps ∧ ps.vals = r.pscore := by
    intro h hm
    simp only [drPrepare, py_bind_eq_ok, exists_unit, py_pure, Except.ok.injEq] at h
    obtain ⟨q, hq, hrw, ha, ps, hps, x, hc, pos, hp, act, hact, rfl⟩ := h
    refine ⟨?_, ps, hps, rfl⟩
    have hq' := checkArray3_ok.1 hq
    have hwf : a.regModel.WF := by rw [hq']; trivial
    obtain ⟨h1, h2⟩ := hpos (by exact hwf) rfl hc hp
    unfold drPrepare
    rw [hch]
    simp only at h1 h2 ⊢
    simp only [Tuner.forward, hm, if_true, hrw, ha, hq, hps, py_bind_ok, h1, h2, hact]
    rfl
  obtain ⟨k, ls, m, ub, d, est, b⟩ := t
  rcases hk with h | h | h | h | h | h <;> simp only at h <;> subst h <;>
    first
      | exact ⟨(hipw hr rfl).1, hch _, (hipw hr rfl).2⟩
      | exact ⟨(hdr hr rfl).1, hch _, (hdr hr rfl).2⟩

/-- **C35.** A call of a tuned estimator on inputs that pass validation either fails while tuning
(and leaves the object unchanged), or fixes a hyperparameter `l` and returns exactly what the base
estimator with `lambda_ = l` returns on the same arguments. `l` is the cached one if there is one, and
otherwise the result of tuning on these arguments. -/
theorem C35_tuned_value {argsort : List ℝ → List ℕ} {tq : ℝ → ℝ → ℝ} {t : Tuner}
    (hk : t.kind.IsTunable) {a : EstArgs ℝ} (hx : a.NonemptyDist)
    (hsg : t.est = true → t.kind ≠ .sgIpw ∧ t.kind ≠ .sgDr) {r : RoundIn ℝ}
    (hr : (t.base .inf).prepare a = .ok r) :
    (∃ l, (t.best = some l ∨ (t.best = none ∧ t.tune argsort tq r = .ok l)) ∧
      t.estimatePolicyValue argsort tq a =
        ((t.base l).estimatePolicyValue a, { t with best := some l })) ∨
    ∃ err, t.best = none ∧ t.tune argsort tq r = .error err ∧
      t.estimatePolicyValue argsort tq a = (.error err, t) := by
  have hp : ∀ l, (t.base l).prepare a = .ok r := fun l => by
    obtain ⟨k, ls, m, ub, d, est, b⟩ := t; exact hr
  have hval : ∀ l, (t.base l).estimatePolicyValue (t.forward a r.position) =
      (t.base l).estimatePolicyValue a := fun l => by
    unfold Estimator.estimatePolicyValue
    rw [(forward_prepare hk hx hsg hr).1, hp]
  obtain ⟨-, h2, ps, h3, h4⟩ := forward_prepare (l := .inf) hk hx hsg hr
  unfold Tuner.estimatePolicyValue
  simp only [hr, Tuner.ensureTuned, h2, h3, py_bind_ok, h4]
  cases hb : t.best with
  | some l => exact Or.inl ⟨l, Or.inl rfl, by simp [hval]⟩
  | none =>
    simp only
    cases ht : t.tune argsort tq r with
    | ok l => exact Or.inl ⟨l, Or.inr ⟨trivial, rfl⟩, by simp [hval]⟩
    | error err => exact Or.inr ⟨err, by trivial, by trivial, rfl⟩

/-- **C35.** Likewise for confidence intervals. -/
theorem C35_tuned_interval {argsort : List ℝ → List ℕ} {tq : ℝ → ℝ → ℝ} {t : Tuner}
    (hk : t.kind.IsTunable) {a : EstArgs ℝ} (hx : a.NonemptyDist)
    (hsg : t.est = true → t.kind ≠ .sgIpw ∧ t.kind ≠ .sgDr) {r : RoundIn ℝ}
    (hr : (t.base .inf).prepare a = .ok r) (c : CiArgs ℝ) (draws : List (List ℕ)) :
    (∃ l, (t.best = some l ∨ (t.best = none ∧ t.tune argsort tq r = .ok l)) ∧
      t.estimateInterval argsort tq a c draws =
        ((t.base l).estimateInterval a c draws, { t with best := some l })) ∨
    ∃ err, t.best = none ∧ t.tune argsort tq r = .error err ∧
      t.estimateInterval argsort tq a c draws = (.error err, t) := by
  have hp : ∀ l, (t.base l).prepare a = .ok r := fun l => by
    obtain ⟨k, ls, m, ub, d, est, b⟩ := t; exact hr
  obtain ⟨-, h2, ps, h3, h4⟩ := forward_prepare (l := .inf) hk hx hsg hr
  have hval : ∀ l, (Estimator.mk t.kind l false).estimateInterval
      { t.forward a r.position with pscore := ps } c draws =
      (t.base l).estimateInterval a c draws := fun l => by
    have hps : ps = if t.est then a.estimatedPscore else a.pscore := by
      unfold choosePscore at h3
      split at h3 <;> simp only [py_bind_eq_ok, exists_unit, py_pure, Except.ok.injEq] at h3 <;>
        rw [← h3.2] <;> simp_all
    have hq : (Estimator.mk t.kind l false).prepare { t.forward a r.position with pscore := ps } =
        .ok r := by
      rw [← (forward_prepare (l := l) hk hx hsg hr).1]
      have hc : choosePscore false { t.forward a r.position with pscore := ps } = .ok ps := by
        have : checkArray1 ps = .ok () := by
          unfold choosePscore at h3
          split at h3 <;> simp only [py_bind_eq_ok, exists_unit, py_pure, Except.ok.injEq] at h3 <;>
            rw [← h3.2] <;> exact h3.1
        simp [choosePscore, this]
      have hc' : choosePscore t.est (t.forward a r.position) = .ok ps := by rw [h2, h3]
      obtain ⟨k, ls, m, ub, d, est, b⟩ := t
      rcases hk with h | h | h | h | h | h <;> simp only at h <;> subst h <;>
        simp only [Estimator.prepare, Tuner.base] <;>
        simp only [ipwPrepare, drPrepare, hc, hc']
    unfold Estimator.estimateInterval
    rw [hq, hp]
    rfl
  unfold Tuner.estimateInterval
  simp only [hr, Tuner.ensureTuned, h2, h3, py_bind_ok, h4]
  cases hb : t.best with
  | some l => exact Or.inl ⟨l, Or.inl rfl, by simp only [py_pure]; rw [hval]⟩
  | none =>
    simp only
    cases ht : t.tune argsort tq r with
    | ok l => exact Or.inl ⟨l, Or.inr ⟨trivial, rfl⟩, by simp only; rw [hval]⟩
    | error err => exact Or.inr ⟨err, by trivial, by trivial, rfl⟩

/-- Tuning returns a candidate, whichever method is used. -/
theorem tune_mem {argsort : List ℝ → List ℕ} {tq : ℝ → ℝ → ℝ} {t : Tuner} {r : RoundIn ℝ} {l : Lam ℝ}
    (h : t.tune argsort tq r = .ok l) : l ∈ t.lambdas := by
  unfold Tuner.tune at h
  split at h
  · exact (C33_mse_candidate h).1
  · exact C34_slope_candidate h

/-- The states that an object can reach: constructed, then any number of value or interval calls. -/
inductive Tuner.Reachable (argsort : List ℝ → List ℕ) (tq : ℝ → ℝ → ℝ) (t₀ : Tuner) : Tuner → Prop
  | init : Tuner.Reachable argsort tq t₀ t₀
  | value {t} (a : EstArgs ℝ) : Tuner.Reachable argsort tq t₀ t →
      Tuner.Reachable argsort tq t₀ (t.estimatePolicyValue argsort tq a).2
  | interval {t} (a : EstArgs ℝ) (c : CiArgs ℝ) (draws : List (List ℕ)) :
      Tuner.Reachable argsort tq t₀ t →
      Tuner.Reachable argsort tq t₀ (t.estimateInterval argsort tq a c draws).2

/-- One call changes at most the cached hyperparameter, and only from absent to a candidate. -/
theorem step_best {argsort : List ℝ → List ℕ} {tq : ℝ → ℝ → ℝ} (t : Tuner) (a : EstArgs ℝ)
    (c : CiArgs ℝ) (draws : List (List ℕ)) :
    ((t.estimatePolicyValue argsort tq a).2 = t ∨
      (t.best = none ∧ ∃ l ∈ t.lambdas, (t.estimatePolicyValue argsort tq a).2 =
        { t with best := some l })) ∧
    ((t.estimateInterval argsort tq a c draws).2 = t ∨
      (t.best = none ∧ ∃ l ∈ t.lambdas, (t.estimateInterval argsort tq a c draws).2 =
        { t with best := some l })) := by
  have hens : ∀ r a' l, t.ensureTuned argsort tq r a' = .ok l →
      ({ t with best := some l } : Tuner) = t ∨ (t.best = none ∧ l ∈ t.lambdas) := by
    intro r a' l h
    simp only [Tuner.ensureTuned, py_bind_eq_ok] at h
    obtain ⟨ps, -, h⟩ := h
    cases hb : t.best with
    | some l' =>
      rw [hb] at h; simp only [py_pure, Except.ok.injEq] at h; subst h
      left; rw [← hb]
    | none => rw [hb] at h; exact Or.inr ⟨by trivial, tune_mem h⟩
  constructor
  · unfold Tuner.estimatePolicyValue
    split
    · exact Or.inl rfl
    · next r hr =>
      simp only
      split
      · exact Or.inl rfl
      · next l hl =>
        rcases hens _ _ _ hl with h | ⟨h1, h2⟩
        · exact Or.inl h
        · exact Or.inr ⟨h1, l, h2, rfl⟩
  · unfold Tuner.estimateInterval
    split
    · exact Or.inl rfl
    · next r hr =>
      simp only
      split
      · exact Or.inl rfl
      · next l hl =>
        rcases hens _ _ _ hl with h | ⟨h1, h2⟩
        · exact Or.inl h
        · exact Or.inr ⟨h1, l, h2, rfl⟩

/-- **C35.** Over any history of calls the hyperparameter in use is always one of the candidates and
the configuration of the object never changes. -/
theorem C35_best_is_candidate {argsort : List ℝ → List ℕ} {tq : ℝ → ℝ → ℝ} {t₀ t : Tuner}
    (h0 : t₀.best = none) (h : Tuner.Reachable argsort tq t₀ t) :
    (t.best = none ∨ ∃ l ∈ t₀.lambdas, t.best = some l) ∧ { t with best := none } = t₀ := by
  induction h with
  | init => exact ⟨Or.inl h0, by rw [← h0]⟩
  | @value t a _ ih =>
    have hl : t.lambdas = t₀.lambdas := by rw [← ih.2]
    rcases (step_best (argsort := argsort) (tq := tq) t a ⟨.nan, .nan, true⟩ []).1 with h | ⟨h1, l, h2, h3⟩
    · rw [h]; exact ih
    · rw [h3]; exact ⟨Or.inr ⟨l, hl ▸ h2, rfl⟩, ih.2⟩
  | @interval t a c d _ ih =>
    have hl : t.lambdas = t₀.lambdas := by rw [← ih.2]
    rcases (step_best (argsort := argsort) (tq := tq) t a c d).2 with h | ⟨h1, l, h2, h3⟩
    · rw [h]; exact ih
    · rw [h3]; exact ⟨Or.inr ⟨l, hl ▸ h2, rfl⟩, ih.2⟩

/-- **C36 (partial).** A call on an object that has not been used tunes on the data of that call.
Missing: the same for later calls, which is false (`C36_history_dependent`). -/
theorem C36_first_call_partial {argsort : List ℝ → List ℕ} {tq : ℝ → ℝ → ℝ} {t : Tuner}
    (hk : t.kind.IsTunable) {a : EstArgs ℝ} (hx : a.NonemptyDist)
    (hsg : t.est = true → t.kind ≠ .sgIpw ∧ t.kind ≠ .sgDr) {r : RoundIn ℝ}
    (hr : (t.base .inf).prepare a = .ok r) (hb : t.best = none) {l : Lam ℝ}
    (ht : t.tune argsort tq r = .ok l) :
    (t.estimatePolicyValue argsort tq a).1 = (t.base l).estimatePolicyValue a := by
  rcases C35_tuned_value (argsort := argsort) (tq := tq) hk hx hsg hr with
    ⟨l', h, h'⟩ | ⟨err, -, h, -⟩
  · rcases h with h | ⟨-, h⟩
    · rw [hb] at h; simp at h
    · rw [ht] at h; cases h; rw [h']
  · rw [ht] at h; simp at h

/-- **C36, disagreement.** Once a hyperparameter is stored, every later call uses it, whatever the
data. -/
theorem C36_cached_forever {argsort : List ℝ → List ℕ} {tq : ℝ → ℝ → ℝ} {t₀ t : Tuner} {l : Lam ℝ}
    (h0 : t₀.best = some l) (h : Tuner.Reachable argsort tq t₀ t) : t = t₀ := by
  induction h with
  | init => rfl
  | @value t a _ ih =>
    subst ih
    rcases (step_best (argsort := argsort) (tq := tq) t a ⟨.nan, .nan, true⟩ []).1 with h | ⟨h1, -⟩
    · exact h
    · rw [h0] at h1; simp at h1
  | @interval t a c d _ ih =>
    subst ih
    rcases (step_best (argsort := argsort) (tq := tq) t a c d).2 with h | ⟨h1, -⟩
    · exact h
    · rw [h0] at h1; simp at h1

/-- A two-round log with one action and given rewards. -/
noncomputable def exTune (x y : ℝ) : Log ℝ 2 1 1 where
  action := fun _ => 0
  reward := ![x, y]
  pscore := fun _ => 1
  estPscore := fun _ => 1
  position := fun _ => 0
  piE := fun _ _ _ => 1
  q := fun _ _ _ => 0
  estIw := fun _ => 1

theorem exTune_valid (x y : ℝ) : (exTune x y).Valid := by
  refine ⟨by norm_num, fun i => by simp [exTune], fun i => by simp [exTune], fun i => by simp [exTune],
    fun i l => ?_⟩
  have : ∑ a, (exTune x y).piE i a l = 1 := by simp [exTune]
  rw [this]; exact closeToOne_one

/-- An IPW tuner with candidates `inf` and `0`, tuned by the direct MSE estimate. -/
noncomputable def exTuner : Tuner := ⟨.ipw, [.inf, .fin 0], .mse, false, 1 / 10, false, none⟩

theorem exTuner_score (x y : ℝ) {r : RoundIn ℝ}
    (hr : (Estimator.mk .ipw .inf false).prepare (exTune x y).args = .ok r) :
    (Estimator.mk .ipw .inf false).mseScore r false (1 / 10) =
      .ok (((x - (x + y) / 2) ^ 2 + (y - (x + y) / 2) ^ 2) / 2 / 2) ∧
    (Estimator.mk .ipw (.fin 0) false).mseScore r false (1 / 10) =
      .ok (((x + y) / 2) ^ 2) := by
  have hw : ∀ i, (exTune x y).weight false i = 1 := by intro i; simp [exTune, weight]
  have hM : IsGreatest (Set.range ((exTune x y).weight false)) 1 :=
    ⟨⟨0, hw 0⟩, by rintro _ ⟨i, rfl⟩; rw [hw]⟩
  constructor
  · rw [C31_unclipped (exTune_valid x y) hr (by norm_num) (by norm_num)]
    simp [popVar, avg, hw, Fin.sum_univ_two]
    simp [exTune]
  · rw [C31_mse_value (e := ⟨.ipw, .fin 0, false⟩) (exTune_valid x y) (Or.inl rfl) rfl
      (by exact hr) hM (by norm_num) (by norm_num)]
    simp only [popVar, biasTerm, biasEstimate, shrunkWeight, weighted, avg, hw, Lam.clip]
    simp [exTune, Fin.sum_univ_two]

theorem exTuner_tune (argsort : List ℝ → List ℕ) (tq : ℝ → ℝ → ℝ) (x y : ℝ) {r : RoundIn ℝ}
    (hr : (Estimator.mk .ipw .inf false).prepare (exTune x y).args = .ok r) :
    exTuner.tune argsort tq r = .ok (if ((x + y) / 2) ^ 2 <
      ((x - (x + y) / 2) ^ 2 + (y - (x + y) / 2) ^ 2) / 2 / 2 then .fin 0 else .inf) := by
  obtain ⟨h1, h2⟩ := exTuner_score x y hr
  simp only [Tuner.tune, exTuner, Tuner.tuneMse, List.mapM_cons, List.mapM_nil, h1, h2, py_pure,
    py_bind_ok, argminFirst, List.foldl_cons, List.foldl_nil]
  split <;> rfl

/-- **C36, disagreement.** There are a tuner and two valid data sets such that the estimate on the
second one depends on whether the object has seen the first one. -/
theorem C36_history_dependent (argsort : List ℝ → List ℕ) (tq : ℝ → ℝ → ℝ) :
    (exTuner.estimatePolicyValue argsort tq (exTune 1 1).args).1 = .ok 1 ∧
    ((exTuner.estimatePolicyValue argsort tq (exTune 1 (-1)).args).2.estimatePolicyValue argsort tq
      (exTune 1 1).args).1 = .ok 0 := by
  have hk : exTuner.kind.IsTunable := Or.inl rfl
  have hx : ∀ x y, (exTune x y).args.NonemptyDist := by
    intro x y z hz
    simp only [args, Arg3.arr.injEq] at hz
    subst hz; simp
  have hsg : exTuner.est = true → exTuner.kind ≠ .sgIpw ∧ exTuner.kind ≠ .sgDr := by
    simp [exTuner]
  have hr : ∀ x y, (exTuner.base .inf).prepare (exTune x y).args =
      .ok { (exTune x y).roundIn false with q := noArr, estIw := [] } := fun x y =>
    ipwPrepare_eq (exTune_valid x y) false
  have hv : ∀ l x y, (exTuner.base l).estimatePolicyValue (exTune x y).args =
      .ok ((x * l.clip 1 + y * l.clip 1) / 2) := by
    intro l x y
    rw [Tuner.base, show exTuner.kind = .ipw from rfl, show exTuner.est = false from rfl,
      value_ipw (exTune_valid x y)]
    simp [avg, Fin.sum_univ_two, exTune, weight]
  constructor
  · rw [C36_first_call_partial hk (hx 1 1) hsg (hr 1 1) rfl (exTuner_tune argsort tq 1 1 (hr 1 1)), hv]
    norm_num [Lam.clip]
  · rcases C35_tuned_value (argsort := argsort) (tq := tq) hk (hx 1 (-1)) hsg (hr 1 (-1)) with
      ⟨l, h, h'⟩ | ⟨err, -, h, -⟩
    · rcases h with h | ⟨-, h⟩
      · simp [exTuner] at h
      · rw [exTuner_tune argsort tq 1 (-1) (hr 1 (-1))] at h
        norm_num at h
        subst h
        rw [h']
        have hk' : ({ exTuner with best := some (.fin 0) } : Tuner).kind.IsTunable := Or.inl rfl
        rcases C35_tuned_value (t := { exTuner with best := some (.fin 0) }) (argsort := argsort)
          (tq := tq) hk' (hx 1 1) hsg (hr 1 1) with ⟨l, h, h'⟩ | ⟨err, h, -⟩
        · rcases h with h | ⟨h, -⟩
          · simp only [Option.some.injEq] at h
            subst h
            rw [h']
            have := hv (.fin 0) 1 1
            simp only [Tuner.base] at this ⊢
            rw [this]
            norm_num [Lam.clip]
          · simp at h
        · simp at h
    · rw [exTuner_tune argsort tq 1 (-1) (hr 1 (-1))] at h; simp at h

/-- **C37 (partial).** For IPW, DR, Switch-DR and DRos, tuning with `use_estimated_pscore=True` runs,
and gives what the base estimator gives with `estimated_pscore` as `pscore`. Missing: the two
sub-Gaussian classes, for which it is false (`C37_subgaussian_raises`). -/
theorem C37_estimated_partial {argsort : List ℝ → List ℕ} {tq : ℝ → ℝ → ℝ} {t : Tuner}
    (hk : t.kind = .ipw ∨ t.kind = .dr ∨ t.kind = .switchDr ∨ t.kind = .drOs) (he : t.est = true)
    {a : EstArgs ℝ} (hx : a.NonemptyDist) {r : RoundIn ℝ} (hr : (t.base .inf).prepare a = .ok r)
    (hb : t.best = none) {l : Lam ℝ} (ht : t.tune argsort tq r = .ok l) :
    (t.estimatePolicyValue argsort tq a).1 =
      (Estimator.mk t.kind l false).estimatePolicyValue { a with pscore := a.estimatedPscore } := by
  have hk' : t.kind.IsTunable := by unfold Kind.IsTunable; tauto
  have hsg : t.est = true → t.kind ≠ .sgIpw ∧ t.kind ≠ .sgDr := by
    intro _; rcases hk with h | h | h | h <;> simp [h]
  rw [C36_first_call_partial hk' hx hsg hr hb ht, Tuner.base, he, C28_estimated_used]

/-- **C37, disagreement.** The sub-Gaussian tuning classes with `use_estimated_pscore=True` raise
ValueError on every input, in every state. -/
theorem C37_subgaussian_raises (argsort : List ℝ → List ℕ) (tq : ℝ → ℝ → ℝ) {t : Tuner}
    (hk : t.kind = .sgIpw ∨ t.kind = .sgDr) (he : t.est = true) (a : EstArgs ℝ) :
    t.estimatePolicyValue argsort tq a = (.error .valueError, t) := by
  unfold Tuner.estimatePolicyValue
  split
  · next err h => rw [C09_rejections_are_value_errors _ _ h]
  · next r h =>
    have : t.ensureTuned argsort tq r (t.forward a r.position) = .error .valueError := by
      obtain ⟨k, ls, m, ub, d, est, b⟩ := t
      simp only at he; subst he
      rcases hk with h | h <;> simp only at h <;> subst h <;>
        simp [Tuner.ensureTuned, choosePscore, Tuner.forward, checkArray1]
    simp only [this]

example := C37_estimated_partial (t := { exTuner with est := true }) (argsort := fun _ => [])
  (tq := fun _ _ => 0) (Or.inl rfl) rfl (a := (exTune 1 1).args)

/-! ### C30 for the tuning classes -/

/-- The hyperparameters of a class: in `[0, 1]` for the sub-Gaussian classes, in `[0, inf]` for the others. -/
def Kind.LamOk (k : Kind) (l : Lam ℝ) : Prop :=
  if k = .sgIpw ∨ k = .sgDr then l.InUnit else l.Nonneg

theorem lamOk_iff (k : Kind) (l : Lam ℝ) : k.LamOk l ↔
    match k.lamMax with
    | none => l.Nonneg
    | some h => ∃ x, l = .fin x ∧ 0 ≤ x ∧ x ≤ h := by
  cases k <;> cases l <;> simp [Kind.LamOk, Kind.lamMax, Lam.InUnit]

theorem checkLambda_lamOk (k : Kind) (s : PyScalar ℝ) (l : Lam ℝ) :
    checkLambda k.lamMax s = .ok l ↔ s.toLam = some l ∧ k.LamOk l := by
  rw [checkLambda_ok, lamOk_iff]
  cases k.lamMax <;> rfl

/-- **C30 (tuning classes).** The constructor of a tuning class succeeds exactly on a non-empty list
of admissible hyperparameters, a known method, Boolean flags and a float `delta` in `[0, 1]`; the
object then holds these candidates in the order of the class. -/
theorem C30_tuner {k : Kind} {ls : Option (List (PyScalar ℝ))} {m : Option TuneMethod}
    {ub : Option Bool} {d : PyScalar ℝ} {e : Option Bool} {t : Tuner} :
    mkTuner k ls m ub d e = .ok t ↔
      ∃ (raw : List (PyScalar ℝ)) (lams : List (Lam ℝ)), ls = some raw ∧ raw ≠ [] ∧
        List.Forall₂ (fun s l => s.toLam = some l ∧ k.LamOk l) raw lams ∧
        m = some t.method ∧ ub = some t.useUB ∧ d = .flt t.delta ∧ 0 ≤ t.delta ∧ t.delta ≤ 1 ∧
        e = some t.est ∧ t.kind = k ∧ t.best = none ∧ t.lambdas = sortLambdas k lams := by
  have hf : ∀ raw lams, List.mapM (checkLambda k.lamMax) raw = .ok lams ↔
      List.Forall₂ (fun s l => s.toLam = some l ∧ k.LamOk l) raw lams := by
    intro raw lams
    rw [mapM_ok_iff]
    simp only [checkLambda_lamOk]
  have hd : ∀ (x y : ℝ), (do
      raiseIf (decide (x < 0)) .valueError
      raiseIf (decide (1 < x)) .valueError
      pure x : Py ℝ) = .ok y ↔ 0 ≤ x ∧ x ≤ 1 ∧ x = y := by
    intro x y
    simp only [py_bind_eq_ok, exists_unit, raiseIf_ok, py_pure, Except.ok.injEq,
      decide_eq_false_iff_not, not_lt]
  obtain ⟨tk, tl, tm, tu, td, te, tb⟩ := t
  constructor
  · intro h
    simp only [mkTuner] at h
    rcases ls with _ | (_ | ⟨l, ls⟩)
    · simp at h
    · simp at h
    · simp only [py_bind_eq_ok] at h
      obtain ⟨lams, hl, h⟩ := h
      cases m with
      | none => simp at h
      | some m =>
      cases ub with
      | none => simp at h
      | some ub =>
      cases d with
      | flt x =>
        simp only [py_pure, py_bind_ok, py_bind_eq_ok, exists_unit, raiseIf_ok,
          decide_eq_false_iff_not, not_lt] at h
        obtain ⟨h0, h1, h⟩ := h
        cases e with
        | none => simp at h
        | some e =>
          simp only [Except.ok.injEq] at h
          cases h
          exact ⟨l :: ls, lams, rfl, by simp, (hf _ _).1 hl, rfl, rfl, rfl, h0, h1, rfl, rfl, rfl, rfl⟩
      | _ => simp at h
  · rintro ⟨raw, lams, rfl, hne, hl, rfl, rfl, rfl, h0, h1, rfl, rfl, h2, h3⟩
    simp only at h2 h3 h0 h1
    subst h2 h3
    cases raw with
    | nil => exact absurd rfl hne
    | cons l ls =>
      simp only [mkTuner, (hf _ _).2 hl, py_bind_ok, py_pure]
      have h0' : ¬ td < 0 := not_lt.2 h0
      have h1' : ¬ 1 < td := not_lt.2 h1
      simp [h0', h1', raiseIf]

/-- **C30 (tuning classes).** The stored candidates are a permutation of the given ones. -/
theorem C30_tuner_candidates (k : Kind) (lams : List (Lam ℝ)) : (sortLambdas k lams).Perm lams := by
  cases k <;> exact List.mergeSort_perm _ _

theorem leB_iff (a b : Lam ℝ) : a.leB b = true ↔ a.Le b := by
  cases a <;> cases b <;> simp [Lam.leB, Lam.Le]

/-- **C30 (tuning classes).** IPW, DR and Switch-DR hold their candidates from the largest to the smallest, the other classes
from the smallest to the largest. -/
theorem C30_tuner_order (k : Kind) (lams : List (Lam ℝ)) :
    (k = .ipw ∨ k = .dr ∨ k = .switchDr → (sortLambdas k lams).Pairwise fun a b => b.Le a) ∧
    (¬ (k = .ipw ∨ k = .dr ∨ k = .switchDr) → (sortLambdas k lams).Pairwise fun a b => a.Le b) := by
  have htr : ∀ a b c : Lam ℝ, a.leB b = true → b.leB c = true → a.leB c = true := by
    intro a b c
    cases a <;> cases b <;> cases c <;> simp [Lam.leB]
    intro h1 h2
    exact h1.trans h2
  have hto : ∀ a b : Lam ℝ, (a.leB b || b.leB a) = true := by
    intro a b
    cases a <;> cases b <;> simp [Lam.leB, le_total]
  have h1 := List.pairwise_mergeSort (le := fun a b : Lam ℝ => a.leB b) htr hto lams
  have h2 := List.pairwise_mergeSort (le := fun a b : Lam ℝ => b.leB a) (fun a b c h1 h2 => htr c b a h2 h1)
    (fun a b => hto b a) lams
  have h1' : (lams.mergeSort fun a b => a.leB b).Pairwise fun a b => a.Le b := h1.imp fun {a b} h => (leB_iff a b).1 h
  have h2' : (lams.mergeSort fun a b => b.leB a).Pairwise fun a b => b.Le a := h2.imp fun {a b} h => (leB_iff b a).1 h
  constructor <;> intro hk <;> cases k <;> simp at hk <;> first | exact h2' | exact h1'

/-- **C30 (tuning classes).** What the constructor refuses: a wrong type raises TypeError, a wrong value ValueError. -/
theorem C30_tuner_rejects (k : Kind) {ls : List (PyScalar ℝ)} {lams : List (Lam ℝ)} (hne : ls ≠ [])
    (hl : List.Forall₂ (fun s l => s.toLam = some l ∧ k.LamOk l) ls lams) (m : TuneMethod) (ub : Bool) (d : PyScalar ℝ)
    (m' : Option TuneMethod) (ub' e' : Option Bool) :
    mkTuner k none m' ub' d e' = .error .typeError ∧
    mkTuner k (some []) m' ub' d e' = .error .valueError ∧
    (∀ s ∈ [PyScalar.nan, .negInf], mkTuner k (some (s :: ls)) m' ub' d e' = .error .valueError) ∧
    mkTuner k (some (.other :: ls)) m' ub' d e' = .error .typeError ∧
    mkTuner k (some ls) none ub' d e' = .error .valueError ∧
    mkTuner k (some ls) (some m) none d e' = .error .typeError ∧
    (∀ x : ℝ, x < 0 ∨ 1 < x → mkTuner k (some ls) (some m) (some ub) (.flt x) e' = .error .valueError) ∧
    (∀ s ∈ [PyScalar.inf, .negInf], mkTuner k (some ls) (some m) (some ub) s e' = .error .valueError) ∧
    (∀ z b, ∀ s ∈ [PyScalar.int z, .bool b, .other], mkTuner k (some ls) (some m) (some ub) s e' = .error .typeError) ∧
    ∀ x : ℝ, 0 ≤ x → x ≤ 1 → mkTuner k (some ls) (some m) (some ub) (.flt x) none = .error .typeError := by
  have hf : List.mapM (checkLambda k.lamMax) ls = .ok lams := by
    rw [mapM_ok_iff]
    simp only [checkLambda_lamOk]
    exact hl
  cases ls with
  | nil => exact absurd rfl hne
  | cons l ls =>
    have hc : ∀ s ∈ [PyScalar.nan, .negInf], List.mapM (checkLambda k.lamMax) (s :: l :: ls) = .error .valueError := by
      intro s hs
      simp only [List.mem_cons, List.not_mem_nil, or_false] at hs
      rcases hs with rfl | rfl <;> rw [List.mapM_cons] <;> rfl
    have ho : List.mapM (checkLambda k.lamMax) (.other :: l :: ls) = .error .typeError := by
      rw [List.mapM_cons]; rfl
    refine ⟨rfl, rfl, fun s hs => ?_, ?_, ?_, ?_, fun x hx => ?_, fun s hs => ?_, fun z b s hs => ?_, fun x h0 h1 => ?_⟩
    · simp only [mkTuner, hc s hs, py_bind_error]
    · simp only [mkTuner, ho, py_bind_error]
    · simp only [mkTuner, hf, py_bind_ok, py_bind_error]
    · simp only [mkTuner, hf, py_bind_ok, py_bind_error, py_pure]
    · simp only [mkTuner, hf, py_bind_ok, py_pure]
      rcases hx with hx | hx
      · simp [raiseIf, hx, py_bind_error]
      · have : ¬ x < 0 := by linarith
        simp [raiseIf, hx, this, py_bind_error, py_bind_ok]
    · simp only [List.mem_cons, List.not_mem_nil, or_false] at hs
      rcases hs with rfl | rfl <;> simp only [mkTuner, hf, py_bind_ok, py_bind_error, py_pure]
    · simp only [List.mem_cons, List.not_mem_nil, or_false] at hs
      rcases hs with rfl | rfl | rfl <;> simp only [mkTuner, hf, py_bind_ok, py_bind_error, py_pure]
    · simp only [mkTuner, hf, py_bind_ok, py_pure]
      simp [raiseIf, not_lt.2 h0, not_lt.2 h1, py_bind_ok, py_bind_error]

/-- The sub-Gaussian classes refuse a candidate of 2, the others accept it. -/
example : (∃ t, mkTuner .ipw (some [.int 2]) (some .mse) (some true) (.flt (1 / 10)) (some false) = .ok t) ∧
    ¬ ∃ t, mkTuner .sgIpw (some [.int 2]) (some .mse) (some true) (.flt (1 / 10)) (some false) = .ok t := by
  constructor
  · refine ⟨⟨.ipw, sortLambdas .ipw [.fin 2], .mse, true, 1 / 10, false, none⟩, C30_tuner.2 ⟨_, [.fin 2], rfl, by simp, ?_, rfl, rfl, rfl, ?_, ?_, rfl, rfl, rfl, rfl⟩⟩
    · simp [PyScalar.toLam, Kind.LamOk, Lam.Nonneg]
    · norm_num
    · norm_num
  · rintro ⟨t, ht⟩
    obtain ⟨raw, lams, h1, -, h2, -⟩ := C30_tuner.1 ht
    cases h1
    cases h2 with
    | cons h t =>
      obtain ⟨h1, h2⟩ := h
      simp only [PyScalar.toLam, Option.some.injEq] at h1
      subst h1
      norm_num [Kind.LamOk, Lam.InUnit] at h2

end Obp
