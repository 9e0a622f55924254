import Verif.Spec.Environment
import Verif.Props.Simulator
import Verif.Props.DatasetInit
import Verif.Props.Drifter

/-! # C144, C145: batches of bandit rounds and the environment that produces them -/

set_option linter.unusedSectionVars false

namespace Obp

section
variable {R C D S K : Type} [Field K] [LinearOrder K] [IsStrictOrderedRing K]

/-! ### drawing -/

theorem drawEach_length {α β : Type} (f : α → R → β × R) (as : List α) (r : R) :
    (drawEach f as r).1.length = as.length := by
  induction as generalizing r with
  | nil => rfl
  | cons a as ih => simp [drawEach, ih]

theorem drawEach_getElem? {α β : Type} (f : α → R → β × R) (as : List α) (r : R) {i : ℕ} {y : β}
    (h : (drawEach f as r).1[i]? = some y) : ∃ a, as[i]? = some a ∧ ∃ r', y = (f a r').1 := by
  induction as generalizing r i with
  | nil => simp [drawEach] at h
  | cons a as ih =>
    cases i with
    | zero => simp only [drawEach, List.getElem?_cons_zero, Option.some.injEq] at h; exact ⟨a, rfl, r, h.symm⟩
    | succ i => simp only [drawEach, List.getElem?_cons_succ] at h ⊢; exact ih _ h

theorem drawEach_mem {α β : Type} (f : α → R → β × R) (as : List α) (r : R) {y : β}
    (h : y ∈ (drawEach f as r).1) : ∃ a ∈ as, ∃ r', y = (f a r').1 := by
  obtain ⟨i, hi⟩ := List.mem_iff_getElem?.1 h
  obtain ⟨a, ha, q⟩ := drawEach_getElem? f as r hi
  exact ⟨a, List.mem_of_getElem? ha, q⟩

theorem drawN_length {β : Type} (f : R → β × R) (n : ℕ) (r : R) : (drawN f n r).1.length = n := by
  simp [drawN, drawEach_length]

theorem drawN_mem {β : Type} (f : R → β × R) (n : ℕ) (r : R) {y : β} (h : y ∈ (drawN f n r).1) :
    ∃ r', y = (f r').1 := by
  obtain ⟨_, -, q⟩ := drawEach_mem _ _ _ h
  exact q

theorem drawMat_isMat (f : R → K × R) (n d : ℕ) (r : R) : IsMat n d (drawMat f n d r).1 := by
  refine ⟨by simp [drawMat, drawEach_length], fun row h => ?_⟩
  obtain ⟨_, -, r', rfl⟩ := drawEach_mem _ _ _ h
  exact drawN_length _ _ _

/-! ### C144: iterating over a batch -/

theorem npIndex_getElem? {α : Type} {xs : List α} {i : ℕ} {x : α} (h : xs[i]? = some x) :
    npIndex xs (i : ℤ) = .ok x :=
  (npIndex_natCast xs i x).2 h

theorem rounds_get {b : EnvRounds K} (hb : b.Full) {i : ℕ} (hi : i < b.nRounds) :
    ∃ r, b.get i = .ok r ∧ b.IsRow i r := by
  obtain ⟨c, hc⟩ : ∃ c, b.context[i]? = some c := ⟨_, List.getElem?_eq_getElem (by rw [hb.context]; exact hi)⟩
  obtain ⟨w, hw⟩ : ∃ c, b.rewards[i]? = some c := ⟨_, List.getElem?_eq_getElem (by rw [hb.rewards]; exact hi)⟩
  obtain ⟨p, hp⟩ : ∃ c, b.expected[i]? = some c := ⟨_, List.getElem?_eq_getElem (by rw [hb.expected]; exact hi)⟩
  unfold EnvRounds.get
  cases hd : b.delays with
  | none =>
    simp only [npIndex_getElem? hc, npIndex_getElem? hw, npIndex_getElem? hp, py_pure, py_bind_ok]
    exact ⟨_, rfl, rfl, rfl, ⟨c, hc, rfl⟩, hw, hp, by rw [hd]⟩
  | some ds =>
    obtain ⟨d, hdi⟩ : ∃ c, ds[i]? = some c :=
      ⟨_, List.getElem?_eq_getElem (by rw [hb.delays ds (by simp [hd])]; exact hi)⟩
    simp only [npIndex_getElem? hc, npIndex_getElem? hw, npIndex_getElem? hp, npIndex_getElem? hdi, py_pure, py_bind_ok]
    exact ⟨_, rfl, rfl, rfl, ⟨c, hc, rfl⟩, hw, hp, by rw [hd]; exact ⟨d, hdi, rfl⟩⟩

theorem isRow_get {b : EnvRounds K} {i : ℕ} {r : EnvRound K} (h : b.IsRow i r) : b.get i = .ok r := by
  obtain ⟨n, c, ac, w, p, d⟩ := r
  obtain ⟨h1, h2, ⟨c', h3, h3'⟩, h4, h5, h6⟩ := h
  dsimp only at h1 h2 h3' h4 h5 h6
  subst h1 h2 h3'
  unfold EnvRounds.get
  cases hd : b.delays with
  | none =>
    rw [hd] at h6
    dsimp only at h6
    subst h6
    simp only [npIndex_getElem? h3, npIndex_getElem? h4, npIndex_getElem? h5, py_pure, py_bind_ok]
  | some ds =>
    rw [hd] at h6
    obtain ⟨d', h6, rfl⟩ := h6
    simp only [npIndex_getElem? h3, npIndex_getElem? h4, npIndex_getElem? h5, npIndex_getElem? h6, py_pure, py_bind_ok]

/-- the rounds of a batch -/
theorem rounds_all {b : EnvRounds K} (hb : b.Full) :
    ∃ rs, b.AllRows rs ∧ ∀ i r, rs[i]? = some r → b.get i = .ok r := by
  choose f hf hr using fun i => rounds_get hb (i := i)
  refine ⟨List.ofFn fun i : Fin b.nRounds => f i i.2, ⟨by simp, ?_⟩, ?_⟩ <;>
  · intro i r h
    obtain ⟨hi, h⟩ := List.getElem?_eq_some_iff.1 h
    simp only [List.length_ofFn] at hi
    simp only [List.getElem_ofFn] at h
    subst h
    first | exact hr i hi | exact hf i hi

theorem get_idx (b : EnvRounds K) (o : Option ℕ) (i : ℕ) : ({ b with idx := o } : EnvRounds K).get i = b.get i := rfl

/-- A loop whose body leaves the batch alone runs the body on the remaining rounds in order. -/
theorem loop_eq {α : Type} {b : EnvRounds K} {rs : List (EnvRound K)} (hl : rs.length = b.nRounds)
    (hg : ∀ i r, rs[i]? = some r → b.get i = .ok r) (g : EnvRound K → α → Py α) :
    ∀ (k i : ℕ), i + k = b.nRounds → ∀ (fuel : ℕ), k < fuel → ∀ x,
      EnvRounds.loop (fun r x b => do let y ← g r x; pure (y, b)) fuel x { b with idx := some i } =
        (do let y ← (rs.drop i).foldlM (fun x r => g r x) x
            pure (some (y, { b with idx := some b.nRounds }))) := by
  intro k
  induction k with
  | zero =>
    intro i hi fuel hf x
    obtain ⟨fuel, rfl⟩ : ∃ m, fuel = m + 1 := ⟨fuel - 1, by omega⟩
    have hi' : i = b.nRounds := by omega
    subst hi'
    have : rs.drop b.nRounds = [] := by rw [← hl]; simp
    simp [EnvRounds.loop, EnvRounds.next, this]
  | succ k ih =>
    intro i hi fuel hf x
    obtain ⟨fuel, rfl⟩ : ∃ m, fuel = m + 1 := ⟨fuel - 1, by omega⟩
    have hlt : i < rs.length := by omega
    have hd : rs.drop i = rs[i] :: rs.drop (i + 1) := List.drop_eq_getElem_cons hlt
    rw [hd]
    have hn : i < b.nRounds := by omega
    simp only [EnvRounds.loop, EnvRounds.next, hn, if_true, get_idx, hg i _ (List.getElem?_eq_getElem hlt), py_bind_ok,
      py_pure, List.foldlM_cons, bind_assoc]
    cases hx : g rs[i] x with
    | error e => simp only [py_bind_error]
    | ok y =>
      simp only [py_bind_ok]
      exact ih (i + 1) (by omega) fuel (by omega) y

theorem foldlM_snoc {α : Type} (rs xs : List α) :
    rs.foldlM (m := Py) (fun x r => .ok (x ++ [r])) xs = .ok (xs ++ rs) := by
  induction rs generalizing xs with
  | nil => simp [py_pure]
  | cons r rs ih => rw [List.foldlM_cons, py_bind_ok, ih]; simp

theorem toList_from {b : EnvRounds K} {rs : List (EnvRound K)} (hl : rs.length = b.nRounds)
    (hg : ∀ i r, rs[i]? = some r → b.get i = .ok r) {fuel : ℕ} (hf : b.nRounds < fuel) :
    b.toList fuel = .ok (some (rs, { b with idx := some b.nRounds })) := by
  have := loop_eq hl hg (fun r (xs : List (EnvRound K)) => .ok (xs ++ [r])) b.nRounds 0 (by omega) fuel hf []
  simp only [py_bind_ok, List.drop_zero, foldlM_snoc, py_pure, List.nil_append] at this
  exact this

/-- **C144.** A loop over a batch visits every round once, in order, with the rows of the arrays; it ends after as many calls of
`next` as there are rounds plus one. The cursor left by earlier loops, finished or not, does not matter. -/
theorem C144_visits_all {b : EnvRounds K} (hb : b.Full) {fuel : ℕ} (hf : b.nRounds < fuel) :
    ∃ rs b', b.AllRows rs ∧ b.toList fuel = .ok (some (rs, b')) ∧
      ∀ (idx : Option ℕ) {fuel' : ℕ}, b.nRounds < fuel' →
        ∃ b'', ({ b with idx := idx } : EnvRounds K).toList fuel' = .ok (some (rs, b'')) := by
  obtain ⟨rs, h1, h2⟩ := rounds_all hb
  exact ⟨rs, _, h1, toList_from h1.1 h2 hf, fun idx fuel' hf' =>
    ⟨_, toList_from (b := { b with idx := idx }) h1.1 h2 hf'⟩⟩

/-- **C144, one cursor per batch.** A loop over a batch inside the body of a loop over the same batch visits all rounds and thereby
ends the outer loop after its first round. -/
theorem C144_nested_loops {b : EnvRounds K} (hb : b.Full) (h0 : 0 < b.nRounds) {fuel fuel' : ℕ} (hf : b.nRounds < fuel)
    (hf' : 1 < fuel') :
    ∃ rs b', b.AllRows rs ∧ b.forEach (fun r (seen : List (EnvRound K × List (EnvRound K))) b => do
        let inner ← b.toList fuel
        match inner with
        | some q => pure (seen ++ [(r, q.1)], q.2)
        | none => .error .runtimeError) fuel' [] =
      .ok (some ((rs.take 1).map fun r => (r, rs), b')) := by
  obtain ⟨rs, h1, h2⟩ := rounds_all hb
  obtain ⟨r, rs, rfl⟩ : ∃ r rs', rs = r :: rs' := by
    cases rs with
    | nil => have := h1.1; simp at this; omega
    | cons r rs' => exact ⟨r, rs', rfl⟩
  obtain ⟨m, rfl⟩ : ∃ m, fuel' = m + 2 := ⟨fuel' - 2, by omega⟩
  refine ⟨r :: rs, { b with idx := some b.nRounds }, h1, ?_⟩
  have hin := toList_from (b := { b with idx := some 1 }) h1.1 h2 hf
  simp only [EnvRounds.forEach, EnvRounds.loop, EnvRounds.next, EnvRounds.iter, h0, if_true, get_idx, h2 0 r rfl, py_bind_ok,
    py_pure, hin, lt_irrefl, if_false, zero_add, List.nil_append]
  rfl

/-- **C144.** `next` without `iter` fails. -/
theorem C144_next_needs_iter {b : EnvRounds K} (h : b.idx = none) : b.next = .error .attributeError := by
  simp [EnvRounds.next, h]

/-- the loop up to the first round that is missing -/
theorem loop_missing {α : Type} {b : EnvRounds K} {n : ℕ} (hn : n < b.nRounds) {rs : List (EnvRound K)} (hl : rs.length = n)
    (hg : ∀ i r, rs[i]? = some r → b.get i = .ok r) (he : b.get n = .error .indexError) (g : EnvRound K → α → α) :
    ∀ (k i : ℕ), i + k = n → ∀ (fuel : ℕ), k < fuel → ∀ x,
      EnvRounds.loop (fun r x b => .ok (g r x, b)) fuel x { b with idx := some i } = .error .indexError := by
  intro k
  induction k with
  | zero =>
    intro i hi fuel hf x
    obtain ⟨fuel, rfl⟩ : ∃ m, fuel = m + 1 := ⟨fuel - 1, by omega⟩
    obtain rfl : i = n := by omega
    simp only [EnvRounds.loop, EnvRounds.next, hn, if_true, get_idx, he, py_bind_error]
  | succ k ih =>
    intro i hi fuel hf x
    obtain ⟨fuel, rfl⟩ : ∃ m, fuel = m + 1 := ⟨fuel - 1, by omega⟩
    have hlt : i < rs.length := by omega
    have hn' : i < b.nRounds := by omega
    simp only [EnvRounds.loop, EnvRounds.next, hn', if_true, get_idx, hg i _ (List.getElem?_eq_getElem hlt), py_bind_ok,
      py_pure]
    exact ih (i + 1) (by omega) fuel (by omega) _

theorem npIndex_end {α : Type} {xs : List α} {i : ℕ} (h : xs.length ≤ i) : npIndex xs (i : ℤ) = .error .indexError := by
  unfold npIndex
  have : wrapIdx xs.length (i : ℤ) = none := by
    unfold wrapIdx
    split
    · omega
    · split
      · omega
      · rfl
  rw [this]

theorem npIndex_cases {α : Type} (xs : List α) (i : ℕ) :
    (∃ x, npIndex xs (i : ℤ) = .ok x) ∨ npIndex xs (i : ℤ) = .error .indexError := by
  unfold npIndex
  split
  · exact Or.inl ⟨_, rfl⟩
  · exact Or.inr rfl

/-- **C144.** A batch one of whose arrays has fewer rows than `n_rounds` makes the loop fail with IndexError; no round is made up. -/
theorem C144_short_arrays {b : EnvRounds K} (h : b.context.length < b.nRounds ∨ b.rewards.length < b.nRounds ∨
      b.expected.length < b.nRounds ∨ ∃ ds ∈ b.delays, ds.length < b.nRounds) {fuel : ℕ} (hf : b.nRounds < fuel) :
    b.toList fuel = .error .indexError := by
  have hcases : ∀ i, (∃ r, b.get i = .ok r) ∨ b.get i = .error .indexError := by
    intro i
    unfold EnvRounds.get
    have h1 : ∀ o : Option (List K), (∃ r, (do
        let c ← npIndex b.context i
        let w ← npIndex b.rewards i
        let p ← npIndex b.expected i
        pure ⟨b.nActions, .vec c, .mat b.actionContext, w, p, o⟩ : Py (EnvRound K)) = .ok r) ∨ (do
        let c ← npIndex b.context i
        let w ← npIndex b.rewards i
        let p ← npIndex b.expected i
        pure ⟨b.nActions, .vec c, .mat b.actionContext, w, p, o⟩ : Py (EnvRound K)) = .error .indexError := by
      intro o
      rcases npIndex_cases b.context i with ⟨c, hc⟩ | hc <;> rw [hc]
      · rcases npIndex_cases b.rewards i with ⟨w, hw⟩ | hw <;> rw [hw]
        · rcases npIndex_cases b.expected i with ⟨p, hp⟩ | hp <;> rw [hp]
          · exact Or.inl ⟨_, rfl⟩
          · exact Or.inr rfl
        · exact Or.inr rfl
      · exact Or.inr rfl
    cases hd : b.delays with
    | none => exact h1 none
    | some ds =>
      dsimp only
      rcases npIndex_cases ds i with ⟨d, hd'⟩ | hd' <;> rw [hd']
      · exact h1 (some d)
      · exact Or.inr rfl
  have hsome : ∃ m, m < b.nRounds ∧ ¬ ∃ r, b.get m = .ok r := by
    obtain ⟨m, hm, q⟩ : ∃ m, m < b.nRounds ∧ (b.context.length ≤ m ∨ b.rewards.length ≤ m ∨ b.expected.length ≤ m ∨
        ∃ ds ∈ b.delays, ds.length ≤ m) := by
      refine ⟨b.nRounds - 1, by rcases h with h | h | h | ⟨ds, -, h⟩ <;> omega, ?_⟩
      rcases h with h | h | h | ⟨ds, h, h'⟩
      · exact Or.inl (by omega)
      · exact Or.inr (Or.inl (by omega))
      · exact Or.inr (Or.inr (Or.inl (by omega)))
      · exact Or.inr (Or.inr (Or.inr ⟨ds, h, by omega⟩))
    refine ⟨m, hm, ?_⟩
    rintro ⟨r, hr⟩
    unfold EnvRounds.get at hr
    cases hd : b.delays with
    | none =>
      rw [hd] at hr q
      simp only [py_pure, py_bind_ok, py_bind_eq_ok] at hr
      obtain ⟨c, hc, w, hw, p, hp, -⟩ := hr
      rcases q with q | q | q | ⟨ds, hds, q⟩
      · rw [npIndex_end q] at hc; cases hc
      · rw [npIndex_end q] at hw; cases hw
      · rw [npIndex_end q] at hp; cases hp
      · cases hds
    | some ds =>
      rw [hd] at hr q
      simp only [py_pure, py_bind_ok, py_bind_eq_ok] at hr
      obtain ⟨d, hd', c, hc, w, hw, p, hp, -⟩ := hr
      rcases q with q | q | q | ⟨ds', hds, q⟩
      · rw [npIndex_end q] at hc; cases hc
      · rw [npIndex_end q] at hw; cases hw
      · rw [npIndex_end q] at hp; cases hp
      · cases hds
        rw [npIndex_end q] at hd'; cases hd'
  classical
  obtain ⟨hm, hne⟩ := Nat.find_spec hsome
  have hmin := fun i (hi : i < Nat.find hsome) => Nat.find_min hsome hi
  generalize Nat.find hsome = m at hm hne hmin
  have hok : ∀ i, i < m → ∃ r, b.get i = .ok r := by
    intro i hi
    by_contra hc
    exact hmin i hi ⟨by omega, hc⟩
  choose f hf' using hok
  have hg : ∀ i r, (List.ofFn fun i : Fin m => f i i.2)[i]? = some r → b.get i = .ok r := by
    intro i r h
    obtain ⟨hi, h⟩ := List.getElem?_eq_some_iff.1 h
    simp only [List.length_ofFn] at hi
    simp only [List.getElem_ofFn] at h
    subst h
    exact hf' i hi
  exact loop_missing hm (List.length_ofFn) hg ((hcases m).resolve_left hne)
    (fun r (xs : List (EnvRound K)) => xs ++ [r]) m 0 (by omega) fuel (by omega) []

/-! ### C144: `steps` -/

theorem stepsFresh_ok {ops : EnvRng R K} {e : Env C D K} {pol : SimPolicy S K} {n : ℕ} {s s' : SimState S K}
    {t t' : EnvState R C D} : simStepsFresh ops e pol n s t = .ok (s', t') ↔
      ∃ bs, bs.length = n ∧ FreshRounds ops e t bs t' ∧ bs.foldlM (fun s b => simStep pol b.sim s) s = .ok s' := by
  induction n generalizing s t with
  | zero =>
    constructor
    · intro h
      simp only [simStepsFresh, Except.ok.injEq, Prod.mk.injEq] at h
      obtain ⟨rfl, rfl⟩ := h
      exact ⟨[], rfl, .nil _, rfl⟩
    · rintro ⟨bs, h1, h2, h3⟩
      obtain rfl : bs = [] := List.length_eq_zero_iff.1 h1
      cases h2
      cases h3
      rfl
  | succ n ih =>
    simp only [simStepsFresh, py_bind_eq_ok]
    constructor
    · rintro ⟨⟨b, u⟩, hb, s1, hs1, h⟩
      obtain ⟨bs, h1, h2, h3⟩ := ih.1 h
      refine ⟨b :: bs, by simp [h1], .cons hb h2, ?_⟩
      rw [List.foldlM_cons]
      exact py_bind_eq_ok.2 ⟨s1, hs1, h3⟩
    · rintro ⟨bs, h1, h2, h3⟩
      cases h2 with
      | nil => simp at h1
      | cons hb hs =>
        rw [List.foldlM_cons] at h3
        obtain ⟨s1, hs1, h3⟩ := py_bind_eq_ok.1 h3
        exact ⟨_, hb, s1, hs1, ih.2 ⟨_, by simpa using h1, hs, h3⟩⟩

/-- **C144, `steps`.** `steps(n_rounds, batch_bandit_rounds)` plays `n_rounds` rounds freshly produced by the environment, then the
rounds of the batch, each once and in order, and nothing else. -/
theorem C144_steps {ops : EnvRng R K} {e : Env C D K} {pol : SimPolicy S K} {n : Option ℕ} {batch : Option (EnvRounds K)}
    (hb : ∀ b ∈ batch, b.Full) {fuel : ℕ} (hf : ∀ b ∈ batch, b.nRounds < fuel) {s s' : SimState S K}
    {t t' : EnvState R C D} :
    (∃ o, simStepsCall ops e pol n batch fuel s t = .ok (some (s', t', o))) ↔
      ∃ bs rs, bs.length = n.getD 0 ∧ FreshRounds ops e t bs t' ∧
        (match batch with
          | none => rs = []
          | some b => b.AllRows rs) ∧
        (simSteps ((bs ++ rs).map EnvRound.sim)).foldlM (simOp pol) s = .ok s' := by
  have hfold : ∀ (l : List (EnvRound K)) s, (simSteps (l.map EnvRound.sim)).foldlM (simOp pol) s =
      l.foldlM (fun s b => simStep pol b.sim s) s := by
    intro l
    induction l with
    | nil => intro s; rfl
    | cons b l ih =>
      intro s
      simp only [simSteps, List.map_cons, List.foldlM_cons]
      congr 1
      funext u
      exact ih u
  simp only [hfold, List.foldlM_append, simStepsCall, py_bind_eq_ok]
  cases batch with
  | none =>
    constructor
    · rintro ⟨o, ⟨s1, t1⟩, h1, h2⟩
      simp only [py_pure, Except.ok.injEq, Option.some.injEq, Prod.mk.injEq] at h2
      obtain ⟨rfl, rfl, rfl⟩ := h2
      obtain ⟨bs, q1, q2, q3⟩ := stepsFresh_ok.1 h1
      exact ⟨bs, [], q1, q2, rfl, s1, q3, rfl⟩
    · rintro ⟨bs, rs, q1, q2, rfl, s1, q3, q4⟩
      obtain rfl : s1 = s' := Except.ok.inj q4
      exact ⟨none, (s1, t'), stepsFresh_ok.2 ⟨bs, q1, q2, q3⟩, rfl⟩
  | some b =>
    obtain ⟨rs0, h1, h2⟩ := rounds_all (hb b rfl)
    have huniq : ∀ rs, b.AllRows rs → rs = rs0 := by
      intro rs g1
      have g2 := fun i r h => isRow_get (g1.2 i r h)
      apply List.ext_getElem?
      intro i
      by_cases hi : i < b.nRounds
      · have e1 := List.getElem?_eq_getElem (l := rs) (i := i) (by rw [g1.1]; exact hi)
        have e2 := List.getElem?_eq_getElem (l := rs0) (i := i) (by rw [h1.1]; exact hi)
        rw [e1, e2]
        have := (g2 i _ e1).symm.trans (h2 i _ e2)
        rw [Except.ok.inj this]
      · rw [List.getElem?_eq_none (by rw [g1.1]; omega), List.getElem?_eq_none (by rw [h1.1]; omega)]
    have hloop := fun x => loop_eq h1.1 h2 (fun r (s : SimState S K) => simStep pol r.sim s) b.nRounds 0 (by omega) fuel
      (hf b rfl) x
    simp only [List.drop_zero] at hloop
    by_cases h0 : b.nRounds = 0
    · have hz : rs0 = [] := by have := h1.1; rw [h0] at this; exact List.length_eq_zero_iff.1 this
      simp only [h0, if_true]
      constructor
      · rintro ⟨o, ⟨s1, t1⟩, g1, g2⟩
        simp only [py_pure, Except.ok.injEq, Option.some.injEq, Prod.mk.injEq] at g2
        obtain ⟨rfl, rfl, rfl⟩ := g2
        obtain ⟨bs, q1, q2, q3⟩ := stepsFresh_ok.1 g1
        exact ⟨bs, rs0, q1, q2, h1, s1, q3, by rw [hz]; rfl⟩
      · rintro ⟨bs, rs, q1, q2, g1, s1, q3, q4⟩
        rw [huniq rs g1, hz] at q4
        obtain rfl : s1 = s' := Except.ok.inj q4
        exact ⟨some b, (s1, t'), stepsFresh_ok.2 ⟨bs, q1, q2, q3⟩, rfl⟩
    · simp only [h0, if_false, EnvRounds.forEach, EnvRounds.iter]
      constructor
      · rintro ⟨o, ⟨s1, t1⟩, g1, g2⟩
        obtain ⟨u, g3, g4⟩ := py_bind_eq_ok.1 g2
        rw [hloop s1] at g3
        obtain ⟨y, g5, g6⟩ := py_bind_eq_ok.1 g3
        simp only [py_pure, Except.ok.injEq] at g6 g4
        subst g6
        simp only [Option.map_some, Option.some.injEq, Prod.mk.injEq] at g4
        obtain ⟨rfl, rfl, rfl⟩ := g4
        obtain ⟨bs, q1, q2, q3⟩ := stepsFresh_ok.1 g1
        exact ⟨bs, rs0, q1, q2, h1, s1, q3, g5⟩
      · rintro ⟨bs, rs, q1, q2, g1, s1, q3, q4⟩
        rw [huniq rs g1] at q4
        refine ⟨some { b with idx := some b.nRounds }, (s1, t'), stepsFresh_ok.2 ⟨bs, q1, q2, q3⟩, ?_⟩
        rw [hloop s1]
        refine py_bind_eq_ok.2 ⟨some (s', { b with idx := some b.nRounds }), ?_, rfl⟩
        exact py_bind_eq_ok.2 ⟨s', q4, rfl⟩

/-! ### C145: what the environment produces -/

theorem any_not_prob {p : List (List K)} :
    (p.any fun row => row.any fun x => decide (x < 0) || decide (1 < x)) = true ↔ ¬ AreProbs p := by
  simp only [List.any_eq_true, Bool.or_eq_true, decide_eq_true_eq, AreProbs]
  push Not
  constructor
  · rintro ⟨row, h, x, hx, h'⟩
    refine ⟨row, h, x, hx, fun h0 => ?_⟩
    rcases h' with h' | h'
    · exact absurd h' (not_lt.2 h0)
    · exact h'
  · rintro ⟨row, h, x, hx, h'⟩
    refine ⟨row, h, x, hx, ?_⟩
    by_cases h0 : 0 ≤ x
    · exact Or.inr (h' h0)
    · exact Or.inl (not_le.1 h0)

theorem envRewards_ok {ops : EnvRng R K} {p w : List (List K)} {s s' : EnvState R C D}
    (h : envRewards ops p s = .ok (w, s')) : AreProbs p ∧ w.length = p.length ∧ s'.coef = s.coef ∧ s'.delay = s.delay ∧
      ∀ (i : ℕ) (row : List K), w[i]? = some row → ∃ prow : List K, p[i]? = some prow ∧ row.length = prow.length ∧
        ∀ (a : ℕ) (y : K), row[a]? = some y → ∃ x, prow[a]? = some x ∧ ∃ r, y = if (ops.bernoulli x r).1 then 1 else 0 := by
  simp only [envRewards, py_bind_eq_ok, exists_unit, py_pure, Except.ok.injEq, Prod.mk.injEq] at h
  obtain ⟨h1, rfl, rfl⟩ := h
  refine ⟨?_, drawEach_length _ _ _, rfl, rfl, ?_⟩
  · by_contra hc
    rw [raiseIf_pos (any_not_prob.2 hc)] at h1
    cases h1
  · intro i row hrow
    obtain ⟨prow, hp, r, rfl⟩ := drawEach_getElem? _ _ _ hrow
    refine ⟨prow, hp, drawEach_length _ _ _, fun a y hy => ?_⟩
    obtain ⟨x, hx, r', rfl⟩ := drawEach_getElem? _ _ _ hy
    exact ⟨x, hx, r', rfl⟩

theorem envRewards_total {ops : EnvRng R K} {p : List (List K)} (hp : AreProbs p) (s : EnvState R C D) :
    ∃ w s', envRewards ops p s = .ok (w, s') := by
  unfold envRewards
  rw [raiseIf_neg (by rw [Bool.eq_false_iff]; exact fun h => any_not_prob.1 h hp), py_bind_ok]
  exact ⟨_, _, rfl⟩

/-- **C145, a batch.** Whatever `reward_type` and `reward_std` say, a batch of `n` rounds has `n` contexts and binary rewards, each
drawn with the expected reward of its own round and action as success probability; the expected rewards are those of
the constructor in every round, or what the reward function returns for exactly these contexts and the action contexts;
the delays are what the delay function returns for `n`, the number of actions and these expected rewards. -/
theorem C145_batch {ops : EnvRng R K} {e : Env C D K} {n : ℤ} {s s' : EnvState R C D} {b : EnvRounds K}
    (h : e.nextBatch ops (.int n) s = .ok (b, s')) :
    1 ≤ n ∧ (b.nRounds : ℤ) = n ∧ b.nActions = e.nActions ∧ b.actionContext = e.actionContext ∧ b.idx = none ∧
      b.Binary e.dimContext ∧
      (∀ (i a : ℕ) (row : List K) (y : K), b.rewards[i]? = some row → row[a]? = some y → ∃ (prow : List K) (x : K), b.expected[i]? = some prow ∧ prow[a]? = some x ∧
        ∃ r, y = if (ops.bernoulli x r).1 then 1 else 0) ∧
      (match e.rewardFn with
        | none => b.expected = List.replicate b.nRounds e.expected ∧ s'.coef = s.coef
        | some f => f s.coef b.context e.actionContext = .ok (b.expected, s'.coef)) ∧
      (match e.delayFn with
        | none => b.delays = none ∧ s'.delay = s.delay
        | some f => ∃ ds, b.delays = some ds ∧ f s.delay b.nRounds e.nActions b.expected = .ok (ds, s'.delay)) := by
  simp only [Env.nextBatch, py_bind_eq_ok, py_pure, Except.ok.injEq, Prod.mk.injEq] at h
  obtain ⟨m, hm, ⟨p, s1⟩, hp, ⟨w, s2⟩, hw, ⟨d, s3⟩, hd, rfl, rfl⟩ := h
  have hn : 1 ≤ n ∧ m = n := by
    simp only [checkIntMin] at hm
    split at hm
    · cases hm
    · exact ⟨by omega, (Except.ok.inj hm).symm⟩
  obtain ⟨hn, rfl⟩ := hn
  have hmat := drawMat_isMat ops.normal m.toNat e.dimContext s.rng
  obtain ⟨g1, g2, g3, g4, g5⟩ := envRewards_ok hw
  have hx : (e.contexts ops m.toNat s).1 = (drawMat ops.normal m.toNat e.dimContext s.rng).1 := rfl
  have hlen : (e.contexts ops m.toNat s).1.length = m.toNat := hmat.1
  refine ⟨hn, by simp; omega, rfl, rfl, rfl, ⟨hmat, g2, ?_, ?_, g1⟩, ?_, ?_, ?_⟩
  · intro i row prow h1 h2
    obtain ⟨prow', h3, h4, -⟩ := g5 i row h1
    dsimp only at h2
    rw [h2] at h3
    rw [h4, Option.some.inj h3]
  · intro row hrow y hy
    obtain ⟨i, hi⟩ := List.mem_iff_getElem?.1 hrow
    obtain ⟨a, ha⟩ := List.mem_iff_getElem?.1 hy
    obtain ⟨_, -, -, q⟩ := g5 i row hi
    obtain ⟨x, -, r, rfl⟩ := q a y ha
    split
    · exact Or.inr rfl
    · exact Or.inl rfl
  · intro i a row y hi ha
    obtain ⟨prow, h3, -, q⟩ := g5 i row hi
    obtain ⟨x, hx, r, hr⟩ := q a y ha
    exact ⟨prow, x, h3, hx, r, hr⟩
  · have hcoef : s3.coef = s1.coef := by
      cases hdf : e.delayFn with
      | none =>
        simp only [Env.delays, hdf, Except.ok.injEq, Prod.mk.injEq] at hd
        rw [← hd.2, g3]
      | some f =>
        simp only [Env.delays, hdf, py_bind_eq_ok, py_pure, Except.ok.injEq, Prod.mk.injEq] at hd
        obtain ⟨q, -, -, rfl⟩ := hd
        exact g3
    cases hrf : e.rewardFn with
    | none =>
      simp only [Env.expectedReward, hrf, Except.ok.injEq, Prod.mk.injEq, hlen] at hp
      obtain ⟨rfl, rfl⟩ := hp
      exact ⟨rfl, hcoef⟩
    | some f =>
      simp only [Env.expectedReward, hrf, py_bind_eq_ok, py_pure, Except.ok.injEq, Prod.mk.injEq] at hp
      obtain ⟨⟨p', c'⟩, hq, rfl, rfl⟩ := hp
      dsimp only
      rw [hcoef]
      exact hq
  · have hdel : s1.delay = s.delay := by
      cases hrf : e.rewardFn with
      | none =>
        simp only [Env.expectedReward, hrf, Except.ok.injEq, Prod.mk.injEq] at hp
        rw [← hp.2]; rfl
      | some f =>
        simp only [Env.expectedReward, hrf, py_bind_eq_ok, py_pure, Except.ok.injEq, Prod.mk.injEq] at hp
        obtain ⟨q, -, -, rfl⟩ := hp
        rfl
    cases hdf : e.delayFn with
    | none =>
      simp only [Env.delays, hdf, Except.ok.injEq, Prod.mk.injEq] at hd
      obtain ⟨rfl, rfl⟩ := hd
      exact ⟨rfl, by rw [g4, hdel]⟩
    | some f =>
      simp only [Env.delays, hdf, py_bind_eq_ok, py_pure, Except.ok.injEq, Prod.mk.injEq, hlen] at hd
      obtain ⟨⟨ds, d'⟩, hq, rfl, rfl⟩ := hd
      refine ⟨ds, rfl, ?_⟩
      rw [g4, hdel] at hq
      exact hq

/-- **C145, context-free environments.** Without a reward function the constructor draws one expected reward per action, once; they
stay the expected rewards of every later round, and no request of a positive number of rounds fails (if the delay function does
not). -/
theorem C145_contextfree {ops : EnvRng R K} (hu : ∀ r, 0 ≤ (ops.uniform r).1 ∧ (ops.uniform r).1 ≤ 1)
    {nActions dimContext : PyScalar K} {seed : Seed} {r : R} {rt : String} {std : K} {df : Option (EnvDelayFn D K)}
    {ac : Option (Arg2 K)} {c : C} {d : D} {e : Env C D K} {s₀ : EnvState R C D}
    (h : mkEnv ops nActions dimContext seed r rt std none df ac c d = .ok (e, s₀)) (hdf : ∀ f ∈ df, f.Fits e.nActions) :
    nActions.toInt? = some (e.nActions : ℤ) ∧ dimContext.toInt? = some (e.dimContext : ℤ) ∧ e.actionContext.n = e.nActions ∧
      e.expected.length = e.nActions ∧ (∀ x ∈ e.expected, 0 ≤ x ∧ x ≤ 1) ∧
      ∀ (n : ℤ) (s : EnvState R C D), 1 ≤ n → ∃ b s', e.nextBatch ops (.int n) s = .ok (b, s') ∧ b.Full ∧
        b.expected = List.replicate b.nRounds e.expected ∧ IsMat b.nRounds e.nActions b.rewards ∧
        ∀ ds ∈ b.delays, IsMat b.nRounds e.nActions ds := by
  simp only [mkEnv, py_bind_eq_ok, py_pure, Except.ok.injEq, Prod.mk.injEq] at h
  obtain ⟨⟨n0, d0, x0⟩, hi, he, -⟩ := h
  obtain ⟨i1, i2, i3, i4, -, i6⟩ := (C130_environment _ _ _ _ _ _ _).1 hi
  dsimp only at he
  have hlen : (drawN ops.uniform n0.toNat r).1.length = n0.toNat := drawN_length _ _ _
  have e1 : e.rewardFn = none := by rw [← he]
  have e2 : e.delayFn = df := by rw [← he]
  have e3 : e.expected = (drawN ops.uniform n0.toNat r).1 := by rw [← he]
  have e4 : e.nActions = n0.toNat := by rw [← he]
  have e5 : e.dimContext = d0.toNat := by rw [← he]
  have e6 : e.actionContext = x0 := by rw [← he]
  have hpr : ∀ x ∈ e.expected, 0 ≤ x ∧ x ≤ 1 := by
    intro x hx
    rw [e3] at hx
    obtain ⟨r', rfl⟩ := drawN_mem _ _ _ hx
    exact hu r'
  have hxn : x0.n = n0.toNat := by
    unfold ActionContextOk at i6
    cases ac with
    | none => rw [i6]
    | some a => exact i6.2
  refine ⟨by rw [i1, e4]; simp; omega, by rw [i3, e5]; simp; omega, by rw [e6, e4, hxn], by rw [e3, e4, hlen], hpr,
    fun n s hn => ?_⟩
  have hcl : (e.contexts ops n.toNat s).1.length = n.toNat := (drawMat_isMat ops.normal n.toNat e.dimContext s.rng).1
  have hprobs : AreProbs (List.replicate n.toNat e.expected) := by
    intro row hrow x hx
    rw [List.eq_of_mem_replicate hrow] at hx
    exact hpr x hx
  have hmat : IsMat n.toNat e.nActions (List.replicate n.toNat e.expected) := by
    refine ⟨by simp, fun row hrow => ?_⟩
    rw [List.eq_of_mem_replicate hrow, e3, e4, hlen]
  obtain ⟨w, s', hw⟩ := envRewards_total (ops := ops) hprobs (e.contexts ops n.toNat s).2
  have hdel : ∃ o s'', e.delays n.toNat (List.replicate n.toNat e.expected) s' = .ok (o, s'') ∧
      ∀ ds ∈ o, IsMat n.toNat e.nActions ds := by
    unfold Env.delays
    rw [e2]
    cases df with
    | none => exact ⟨none, s', rfl, by rintro ds ⟨⟩⟩
    | some f =>
      obtain ⟨ds, d', hf, hm⟩ := hdf f rfl s'.delay n.toNat _ hmat hprobs
      refine ⟨some ds, { s' with delay := d' }, ?_, ?_⟩
      · simp only [hf, py_bind_ok, py_pure]
      · rintro ds' ⟨⟩; exact hm
  obtain ⟨o, s'', ho, hom⟩ := hdel
  have hok : e.nextBatch ops (.int n) s =
      .ok (⟨n.toNat, e.nActions, (e.contexts ops n.toNat s).1, e.actionContext, w,
        List.replicate n.toNat e.expected, o, none⟩, s'') := by
    have : checkIntMin (K := K) 1 (.int n) = .ok n := by simp [checkIntMin, not_lt.2 hn]
    simp only [Env.nextBatch, this, py_bind_ok, Env.expectedReward, e1, hcl, hw, ho, py_pure]
  refine ⟨_, _, hok, ?_⟩
  obtain ⟨-, -, -, -, -, hb, -, -, -⟩ := C145_batch hok
  have hwl : w.length = n.toNat := by have := hb.rewards; simpa using this
  refine ⟨⟨hb.context.1, hwl, by simp, fun ds hds => (hom ds hds).1⟩, rfl, ⟨hwl, ?_⟩, hom⟩
  intro row hrow
  obtain ⟨j, hj⟩ := List.mem_iff_getElem?.1 hrow
  have hjl : j < n.toNat := by rw [← hwl]; exact (List.getElem?_eq_some_iff.1 hj).1
  rw [hb.rows j row e.expected hj (by simp [hjl]), e3, hlen, e4]

/-- **C145, rejected requests.** A number of rounds below one is a ValueError, one that is not an integer a TypeError, and a reward
function with a value outside `[0, 1]` makes every request a ValueError. -/
theorem C145_rejects (ops : EnvRng R K) (e : Env C D K) (s : EnvState R C D) :
    (∀ n : ℤ, n < 1 → e.nextBatch ops (.int n) s = .error .valueError) ∧
    (∀ v : PyScalar K, (∀ z, v ≠ .int z) → (∀ z, v ≠ .bool z) → e.nextBatch ops v s = .error .typeError) ∧
    (∀ f, e.rewardFn = some f → (∀ c x p c', f c x e.actionContext = .ok (p, c') → ¬ AreProbs p) →
      (∀ c x, ∃ p c', f c x e.actionContext = .ok (p, c')) →
      (∀ n : ℤ, e.nextBatch ops (.int n) s = .error .valueError) ∧ e.nextRound ops s = .error .valueError) := by
  refine ⟨fun n hn => ?_, fun v h1 h2 => ?_, fun f hf hnp htot => ?_⟩
  · simp only [Env.nextBatch, checkIntMin, if_pos hn, py_bind_error]
  · cases v <;> first | exact absurd rfl (h1 _) | exact absurd rfl (h2 _) | rfl
  · have key : ∀ p (t : EnvState R C D), ¬ AreProbs p → envRewards ops p t = .error .valueError := by
      intro p t hp
      unfold envRewards
      rw [raiseIf_pos (any_not_prob.2 hp)]
      rfl
    constructor
    · intro n
      by_cases hn : n < 1
      · simp only [Env.nextBatch, checkIntMin, if_pos hn, py_bind_error]
      · obtain ⟨p, c', hp⟩ := htot (e.contexts ops n.toNat s).2.coef (e.contexts ops n.toNat s).1
        simp only [Env.nextBatch, checkIntMin, if_neg hn, py_bind_ok, Env.expectedReward, hf, hp, py_pure,
          key p _ (hnp _ _ _ _ hp), py_bind_error]
    · obtain ⟨p, c', hp⟩ := htot (e.contexts ops 1 s).2.coef (e.contexts ops 1 s).1
      simp only [Env.nextRound, py_bind_ok, Env.expectedReward, hf, hp, py_pure, key p _ (hnp _ _ _ _ hp), py_bind_error]

/-- **C145, disagreement.** `reward_type` and `reward_std` have no effect: an environment asked for continuous rewards produces the same
binary rewards as one asked for binary rewards. -/
theorem C145_reward_type_ignored (ops : EnvRng R K) (e : Env C D K) (t : String) (σ : K) (n : PyScalar K)
    (s : EnvState R C D) :
    ({ e with rewardType := t, rewardStd := σ } : Env C D K).nextBatch ops n s = e.nextBatch ops n s ∧
    ({ e with rewardType := t, rewardStd := σ } : Env C D K).nextRound ops s = e.nextRound ops s ∧
    ∀ x, ({ e with rewardType := t, rewardStd := σ } : Env C D K).sampleReward ops x s = e.sampleReward ops x s :=
  ⟨rfl, rfl, fun _ => rfl⟩

/-- **C145, one round.** `next_bandit_round` is the only round of a batch of one, except that its context keeps the axis of the batch and its
`action_context` is the row of the first action instead of the whole table. -/
theorem C145_one_round {ops : EnvRng R K} {e : Env C D K} {s s' : EnvState R C D} {r : EnvRound K}
    (h : e.nextRound ops s = .ok (r, s')) :
    ∃ b r' c, e.nextBatch ops (.int 1) s = .ok (b, s') ∧ b.IsRow 0 r' ∧ r'.context = .vec c ∧
      r.context = .mat ⟨1, c.length, fun _ j => c.get j⟩ ∧ r.rewards = r'.rewards ∧ r.expected = r'.expected ∧
      r.delays = r'.delays ∧ r.nActions = r'.nActions ∧ r'.actionContext = .mat e.actionContext ∧
      ∃ h0 : 0 < e.actionContext.n, r.actionContext = .vec (List.ofFn (e.actionContext.val ⟨0, h0⟩)) := by
  simp only [Env.nextRound, py_bind_eq_ok] at h
  obtain ⟨⟨p, s1⟩, hp, ⟨w, s2⟩, hw, ⟨d, s3⟩, hd, h⟩ := h
  have hlen : (e.contexts ops 1 s).1.length = 1 := (drawMat_isMat ops.normal 1 e.dimContext s.rng).1
  have hb : e.nextBatch ops (.int 1) s =
      .ok (⟨1, e.nActions, (e.contexts ops 1 s).1, e.actionContext, w, p, d, none⟩, s3) := by
    have : checkIntMin (K := K) 1 (.int 1) = .ok 1 := rfl
    simp only [Env.nextBatch, this, py_bind_ok, Int.toNat_one, hp, hw, hlen, hd, py_pure]
  have h0 : ((0 : ℕ) : ℤ) = 0 := rfl
  cases d with
  | none =>
    simp only [py_pure, py_bind_ok, py_bind_eq_ok, Except.ok.injEq, Prod.mk.injEq] at h
    obtain ⟨a0, ha, w0, hw0, p0, hp0, c0, hc0, rfl, rfl⟩ := h
    rw [← h0, npIndex_natCast] at ha hw0 hp0 hc0
    refine ⟨_, ⟨e.nActions, .vec c0, .mat e.actionContext, w0, p0, none⟩, c0, hb, ⟨rfl, rfl, ⟨c0, hc0, rfl⟩, hw0, hp0, rfl⟩,
      rfl, rfl, rfl, rfl, rfl, rfl, rfl, ?_⟩
    obtain ⟨hi, rfl⟩ := List.getElem?_eq_some_iff.1 ha
    exact ⟨by simpa using hi, by simp⟩
  | some ds =>
    simp only [py_pure, py_bind_ok, py_bind_eq_ok, Except.ok.injEq, Prod.mk.injEq] at h
    obtain ⟨row, hrow, a0, ha, w0, hw0, p0, hp0, c0, hc0, rfl, rfl⟩ := h
    rw [← h0, npIndex_natCast] at ha hw0 hp0 hc0 hrow
    refine ⟨_, ⟨e.nActions, .vec c0, .mat e.actionContext, w0, p0, some row⟩, c0, hb,
      ⟨rfl, rfl, ⟨c0, hc0, rfl⟩, hw0, hp0, ⟨row, hrow, rfl⟩⟩, rfl, rfl, rfl, rfl, rfl, rfl, rfl, ?_⟩
    obtain ⟨hi, rfl⟩ := List.getElem?_eq_some_iff.1 ha
    exact ⟨by simpa using hi, by simp⟩

theorem nextRound_of_batch {ops : EnvRng R K} {e : Env C D K} {s s' : EnvState R C D} {b : EnvRounds K}
    (h : e.nextBatch ops (.int 1) s = .ok (b, s')) (hb : b.Full) (ha : 0 < e.actionContext.n) :
    ∃ r, e.nextRound ops s = .ok (r, s') ∧ b.rewards[0]? = some r.rewards ∧
      ∀ ds ∈ r.delays, ∃ dm, b.delays = some dm ∧ dm[0]? = some ds := by
  have hlen : (e.contexts ops 1 s).1.length = 1 := (drawMat_isMat ops.normal 1 e.dimContext s.rng).1
  have hm : checkIntMin (K := K) 1 (.int 1) = .ok 1 := rfl
  simp only [Env.nextBatch, hm, py_bind_ok, Int.toNat_one, hlen, py_bind_eq_ok, py_pure, Except.ok.injEq, Prod.mk.injEq] at h
  obtain ⟨⟨p, s1⟩, hp, ⟨w, s2⟩, hw, ⟨d, s3⟩, hd, rfl, rfl⟩ := h
  have g1 := hb.context
  have g2 := hb.rewards
  have g3 := hb.expected
  have g4 := hb.delays
  dsimp only at g1 g2 g3 g4
  have hnp : ∀ {α : Type} {xs : List α}, xs.length = 1 → ∃ x, xs[0]? = some x ∧ npIndex xs 0 = .ok x := by
    intro α xs hx
    have := List.getElem?_eq_getElem (l := xs) (i := 0) (by omega)
    exact ⟨_, this, npIndex_getElem? this⟩
  obtain ⟨c0, hc, hc'⟩ := hnp g1
  obtain ⟨w0, hw0, hw'⟩ := hnp g2
  obtain ⟨p0, hp0, hp'⟩ := hnp g3
  have ha0 : npIndex (List.ofFn fun i => List.ofFn (e.actionContext.val i)) 0 =
      .ok (List.ofFn (e.actionContext.val ⟨0, ha⟩)) :=
    npIndex_getElem? (i := 0) (by simp [ha])
  cases d with
  | none =>
    refine ⟨_, by simp only [Env.nextRound, hp, hw, hd, py_bind_ok, py_pure, hc', hw', hp', ha0]; rfl, hw0, by rintro ds ⟨⟩⟩
  | some ds =>
    obtain ⟨d0, hd0, hd'⟩ := hnp (g4 ds rfl)
    refine ⟨_, by simp only [Env.nextRound, hp, hw, hd, py_bind_ok, py_pure, hc', hw', hp', ha0, hd']; rfl, hw0, ?_⟩
    rintro ds' ⟨⟩
    exact ⟨ds, rfl, hd0⟩

/-- **C145, simulations.** A simulation of a context-free environment with a policy that always selects one of the actions and accepts
all updates can be continued for any number of rounds; every round is counted, its reward is zero or one and added to the total. -/
theorem C145_simulation {ops : EnvRng R K} (hu : ∀ r, 0 ≤ (ops.uniform r).1 ∧ (ops.uniform r).1 ≤ 1)
    {nActions dimContext : PyScalar K} {seed : Seed} {r : R} {rt : String} {std : K} {df : Option (EnvDelayFn D K)}
    {ac : Option (Arg2 K)} {c : C} {d : D} {e : Env C D K} {s₀ : EnvState R C D}
    (h : mkEnv ops nActions dimContext seed r rt std none df ac c d = .ok (e, s₀)) (hdf : ∀ f ∈ df, f.Fits e.nActions)
    {pol : SimPolicy S K} (hp : pol.Total e.nActions) (p : S) (n : ℕ) :
    ∃ s t, simStepsCall ops e pol (some n) none 0 (simInit p) s₀ = .ok (some (s, t, none)) ∧
      s.played = n ∧ s.obtained.length = n ∧ s.total = s.obtained.sum ∧ ∀ y ∈ s.obtained, y = 0 ∨ y = 1 := by
  obtain ⟨f1, -, f3, -, -, f6⟩ := C145_contextfree hu h hdf
  have hA : 0 < e.nActions := by
    obtain ⟨a, -⟩ := hp.select p none
    exact Nat.lt_of_le_of_lt (Nat.zero_le _) a.2
  have hround : ∀ t : EnvState R C D, ∃ b t', e.nextRound ops t = .ok (b, t') ∧ b.rewards.length = e.nActions ∧
      (∀ ds ∈ b.delays, ds.length = e.nActions) ∧ ∀ y ∈ b.rewards, y = 0 ∨ y = 1 := by
    intro t
    obtain ⟨b, t', g1, g2, -, g4, g5⟩ := f6 1 t le_rfl
    obtain ⟨r, q1, q2, q3⟩ := nextRound_of_batch g1 g2 (by rw [f3]; exact hA)
    refine ⟨r, t', q1, g4.2 _ (List.mem_of_getElem? q2), fun ds hds => ?_, ?_⟩
    · obtain ⟨dm, w1, w2⟩ := q3 ds hds
      exact (g5 dm w1).2 _ (List.mem_of_getElem? w2)
    · obtain ⟨-, -, -, -, -, hb, -⟩ := C145_batch g1
      exact hb.binary _ (List.mem_of_getElem? q2)
  have hrounds : ∀ (n : ℕ) (t : EnvState R C D), ∃ bs t', bs.length = n ∧ FreshRounds ops e t bs t' ∧
      ∀ b ∈ bs, b.rewards.length = e.nActions ∧ (∀ ds ∈ b.delays, ds.length = e.nActions) ∧ ∀ y ∈ b.rewards, y = 0 ∨ y = 1 := by
    intro n
    induction n with
    | zero => exact fun t => ⟨[], t, rfl, .nil t, by simp⟩
    | succ n ih =>
      intro t
      obtain ⟨b, u, h1, h2⟩ := hround t
      obtain ⟨bs, v, h3, h4, h5⟩ := ih u
      refine ⟨b :: bs, v, by simp [h3], .cons h1 h4, ?_⟩
      intro b' hb'
      rcases List.mem_cons.1 hb' with rfl | hb'
      · exact h2
      · exact h5 b' hb'
  obtain ⟨bs, t', h1, h2, h3⟩ := hrounds n s₀
  have hop : ∀ l : List (BanditRound K), opRounds (simSteps l) = l := fun l => opRounds_steps l
  obtain ⟨s, hs⟩ := C76_total hp p (simSteps (bs.map EnvRound.sim)) (by
    intro b hb
    rw [hop, List.mem_map] at hb
    obtain ⟨b, hb, rfl⟩ := hb
    exact ⟨(h3 b hb).1, (h3 b hb).2.1⟩)
  obtain ⟨q1, -, -, q4, q5, q6, q7⟩ := C76_bookkeeping hp.kind p _ hs
  rw [hop, List.length_map, h1] at q1
  obtain ⟨o, ho⟩ := (C144_steps (ops := ops) (e := e) (pol := pol) (n := some n) (batch := none) (by rintro b ⟨⟩) (fuel := 0)
    (by rintro b ⟨⟩) (s := simInit p) (s' := s) (t := s₀) (t' := t')).2 ⟨bs, [], h1, h2, rfl, by rw [List.append_nil]; exact hs⟩
  have ho' : o = none := by
    simp only [simStepsCall, py_bind_eq_ok, py_pure, Except.ok.injEq, Option.some.injEq, Prod.mk.injEq] at ho
    obtain ⟨q, -, -, -, h⟩ := ho
    exact h.symm
  subst ho'
  refine ⟨s, t', ho, q1, by rw [q5, q1], q7, ?_⟩
  intro y hy
  obtain ⟨i, hi⟩ := List.mem_iff_getElem?.1 hy
  have hil : i < n := by
    have := (List.getElem?_eq_some_iff.1 hi).1
    omega
  have hb := List.getElem?_eq_getElem (l := bs.map EnvRound.sim) (i := i) (by simp [h1, hil])
  have ha := List.getElem?_eq_getElem (l := s.selected) (i := i) (by omega)
  obtain ⟨j, hj, rfl⟩ := q6 i _ _ y (by rw [hop]; exact hb) ha hi
  have hmem := List.mem_of_getElem? hb
  obtain ⟨b, hbm, hbe⟩ := List.mem_map.1 hmem
  apply (h3 b hbm).2.2
  have : b.rewards = ((bs.map EnvRound.sim)[i]'(by simp [h1, hil])).rewards := by rw [← hbe]; rfl
  rw [this]
  exact List.get_mem _ _

/-! ### C145: delays -/

/-- **C145, delays.** Both delay functions of `ExponentialDelaySampler` give every round and action a delay that is a non-negative whole number,
whatever the expected rewards, if the scales are not negative; the unweighted one gives all actions of a round the same delay. -/
theorem C145_delay_functions [FloorRing K] (exponential : R → K × R) (hexp : ∀ r, 0 ≤ (exponential r).1) {lo hi : K} (h0 : 0 ≤ lo)
    (h1 : 0 ≤ hi) (A : ℕ) :
    EnvDelayFn.Fits (delayFnPerRound exponential hi) A ∧ EnvDelayFn.Fits (delayFnWeighted exponential lo hi) A ∧
    (∀ r n p ds r', delayFnPerRound exponential hi r n A p = .ok (ds, r') →
      ∀ row ∈ ds, ∃ k : ℕ, row = List.replicate A (k : K)) ∧
    (∀ r n p ds r', AreProbs p → delayFnWeighted exponential lo hi r n A p = .ok (ds, r') →
      ∀ row ∈ ds, ∀ x ∈ row, ∃ k : ℕ, x = (k : K)) := by
  have hscale : ∀ x : K, 0 ≤ x → x ≤ 1 → 0 ≤ lo + (1 - x) * (hi - lo) := by
    intro x hx hx'
    have e : lo + (1 - x) * (hi - lo) = x * lo + (1 - x) * hi := by ring
    rw [e]
    exact add_nonneg (mul_nonneg hx h0) (mul_nonneg (sub_nonneg.2 hx') h1)
  have hw : ∀ r n (p : List (List K)), AreProbs p → delayFnWeighted exponential lo hi r n A p =
      .ok (List.zipWith (fun ss es => List.zipWith (fun s e => ((⌈s * e⌉ : ℤ) : K)) ss es) (delayScale lo hi p)
        (drawEach (fun row => drawEach (fun _ => exponential) row) p r).1,
        (drawEach (fun row => drawEach (fun _ => exponential) row) p r).2) := by
    intro r n p hp
    simp only [delayFnWeighted, delayWeighted]
    rw [raiseIf_neg]
    · rfl
    · rw [List.any_eq_false]
      intro row hrow
      obtain ⟨row, hr, rfl⟩ := List.mem_map.1 hrow
      rw [Bool.not_eq_true, List.any_eq_false]
      intro y hy
      obtain ⟨x, hx, rfl⟩ := List.mem_map.1 hy
      simp only [decide_eq_true_eq, not_lt]
      exact hscale x (hp row hr x hx).1 (hp row hr x hx).2
  have hpr : ∀ r n p, delayFnPerRound exponential hi r n A p =
      .ok (delayPerRound A ((drawN exponential n r).1.map (hi * ·)), (drawN exponential n r).2) := by
    intro r n p
    simp only [delayFnPerRound]
    rw [raiseIf_neg (by simpa using h1)]
    rfl
  have hnn : ∀ r n, ∀ x ∈ (drawN exponential n r).1.map (hi * ·), 0 ≤ x := by
    intro r n x hx
    obtain ⟨y, hy, rfl⟩ := List.mem_map.1 hx
    obtain ⟨r', rfl⟩ := drawN_mem _ _ _ hy
    exact mul_nonneg h1 (hexp r')
  refine ⟨?_, ?_, ?_, ?_⟩
  · intro r n p _ _
    refine ⟨_, _, hpr r n p, ?_, ?_⟩
    · rw [(C94_delays_per_round A _ (hnn r n)).1]
      simp [drawN_length]
    · intro row hrow
      obtain ⟨k, rfl⟩ := (C94_delays_per_round A _ (hnn r n)).2 row hrow
      simp
  · intro r n p hm hp
    refine ⟨_, _, hw r n p hp, ?_, ?_⟩
    · simp [delayScale, drawEach_length, hm.1]
    · intro row hrow
      obtain ⟨i, hi'⟩ := List.mem_iff_getElem?.1 hrow
      rw [List.getElem?_zipWith] at hi'
      simp only [delayScale, List.getElem?_map] at hi'
      cases hpi : p[i]? with
      | none => simp [hpi] at hi'
      | some prow =>
        cases hdi : (drawEach (fun row => drawEach (fun _ => exponential) row) p r).1[i]? with
        | none => simp [hpi, hdi] at hi'
        | some drow =>
          simp only [hpi, hdi, Option.map_some, Option.some.injEq] at hi'
          obtain ⟨a, ha, r', rfl⟩ := drawEach_getElem? _ _ _ hdi
          rw [hpi] at ha
          obtain rfl := Option.some.inj ha
          subst hi'
          simp [drawEach_length, hm.2 prow (List.mem_of_getElem? hpi)]
  · intro r n p ds r' h
    rw [hpr] at h
    simp only [Except.ok.injEq, Prod.mk.injEq] at h
    obtain ⟨rfl, -⟩ := h
    exact (C94_delays_per_round A _ (hnn r n)).2
  · intro r n p ds r' hp h row hrow x hx
    rw [hw r n p hp] at h
    simp only [Except.ok.injEq, Prod.mk.injEq] at h
    obtain ⟨rfl, -⟩ := h
    obtain ⟨i, hi'⟩ := List.mem_iff_getElem?.1 hrow
    rw [List.getElem?_zipWith] at hi'
    simp only [delayScale, List.getElem?_map] at hi'
    cases hpi : p[i]? with
    | none => simp [hpi] at hi'
    | some prow =>
      cases hdi : (drawEach (fun row => drawEach (fun _ => exponential) row) p r).1[i]? with
      | none => simp [hpi, hdi] at hi'
      | some drow =>
        simp only [hpi, hdi, Option.map_some, Option.some.injEq] at hi'
        obtain ⟨a, ha, r', rfl⟩ := drawEach_getElem? _ _ _ hdi
        subst hi'
        obtain ⟨j, hj⟩ := List.mem_iff_getElem?.1 hx
        rw [List.getElem?_zipWith, List.getElem?_map] at hj
        cases hpj : prow[j]? with
        | none => simp [hpj] at hj
        | some y =>
          cases hdj : (drawEach (fun _ => exponential) a r').1[j]? with
          | none => simp [hpj, hdj] at hj
          | some z =>
            simp only [hpj, hdj, Option.map_some, Option.some.injEq] at hj
            obtain ⟨-, -, r'', rfl⟩ := drawEach_getElem? _ _ _ hdj
            have hy := hp prow (List.mem_of_getElem? hpi) y (List.mem_of_getElem? hpj)
            have hnn' : 0 ≤ ⌈(lo + (1 - y) * (hi - lo)) * (exponential r'').1⌉ :=
              Int.ceil_nonneg (mul_nonneg (hscale y hy.1 hy.2) (hexp r''))
            obtain ⟨k, hk⟩ := Int.eq_ofNat_of_zero_le hnn'
            exact ⟨k, by rw [← hj, hk]; simp⟩

end

/-! ### examples -/

/-- A generator that counts its draws. -/
def exEnvRng : EnvRng ℕ ℚ where
  normal r := (r, r + 1)
  uniform r := ((r % 3 : ℕ) / 3, r + 1)
  bernoulli p r := (decide ((r % 2 : ℕ) < 2 * p), r + 1)

theorem exEnvRng_uniform (r : ℕ) : 0 ≤ (exEnvRng.uniform r).1 ∧ (exEnvRng.uniform r).1 ≤ 1 := by
  have h : r % 3 < 3 := Nat.mod_lt _ (by decide)
  have h' : ((r % 3 : ℕ) : ℚ) < 3 := by exact_mod_cast h
  constructor
  · exact div_nonneg (by positivity) (by norm_num)
  · show ((r % 3 : ℕ) : ℚ) / 3 ≤ 1
    rw [div_le_one (by norm_num)]
    exact le_of_lt h'

/-- An environment with three actions and delays, asked for continuous rewards. -/
def exEnv : Py (Env Unit ℕ ℚ × EnvState ℕ Unit ℕ) :=
  mkEnv exEnvRng (.int 3) (.int 2) .ok 1 "continuous" 1 none
    (some (delayFnPerRound (fun r : ℕ => ((r : ℚ) / 2, r + 1)) 3)) none () 0

example : exEnv.map (fun q => (q.1.expected, q.2.rng)) = .ok ([1 / 3, 2 / 3, 0], 4) := by decide +kernel

/-- Two rounds: contexts, binary rewards, expected rewards, delays. -/
example : (exEnv >>= fun q => q.1.nextBatch exEnvRng (.int 2) q.2).map
      (fun q => ([q.1.context, q.1.rewards, q.1.expected, q.1.delays.getD []], q.2.rng)) =
    .ok ([[[4, 5], [6, 7]], [[1, 1, 0], [0, 1, 0]], [[1 / 3, 2 / 3, 0], [1 / 3, 2 / 3, 0]],
      [[0, 0, 0], [2, 2, 2]]], 14) := by decide +kernel

example (p : Env Unit ℕ ℚ × EnvState ℕ Unit ℕ) (h : exEnv = .ok p) :=
  C145_contextfree exEnvRng_uniform h (by
    rintro f ⟨⟩
    exact (C145_delay_functions _ (fun r => by positivity) (le_refl (0 : ℚ)) (by norm_num) _).1)

example : ∃ p, exEnv = .ok p := by
  have : exEnv.isOk = true := by decide +kernel
  cases h : exEnv with
  | ok p => exact ⟨p, rfl⟩
  | error e => rw [h] at this; cases this

/-- A batch of three rounds, left in the middle of a loop. -/
def exEnvRounds : EnvRounds ℚ :=
  ⟨3, 2, [[1], [2], [3]], eye 2, [[0, 1], [1, 1], [0, 0]], [[1 / 2, 1], [1, 1], [0, 0]], some [[1, 2], [0, 0], [3, 3]], some 2⟩

theorem exEnvRounds_full : exEnvRounds.Full := ⟨rfl, rfl, rfl, by rintro ds ⟨⟩; rfl⟩

example := C144_visits_all exEnvRounds_full (fuel := 4) (by decide)
example := C144_nested_loops exEnvRounds_full (by decide) (fuel := 4) (fuel' := 2) (by decide) (by decide)
example : ({ exEnvRounds with nRounds := 4 } : EnvRounds ℚ).toList 5 = .error .indexError :=
  C144_short_arrays (Or.inl (by decide)) (by decide)
example : (exEnvRounds.toList 4).map (fun o => o.map fun q => q.1.map fun r => (r.rewards, r.delays)) =
    .ok (some [([0, 1], some [1, 2]), ([1, 1], some [0, 0]), ([0, 0], some [3, 3])]) := by decide +kernel

end Obp
