import Verif.Model.RewardFunction
import Verif.Spec.RewardFunction
import Verif.Props.Utils
import Verif.Lemmas.Estimators

set_option linter.unusedSectionVars false

/-! # C128, C129: built-in reward and behaviour policy functions -/

namespace Obp
open scoped BigOperators

theorem dot_ofFn {d : ℕ} (x y : Fin d → ℝ) : dot (List.ofFn x) (List.ofFn y) = ∑ j, x j * y j := by
  rw [dot, show List.zipWith (· * ·) (List.ofFn x) (List.ofFn y) = List.ofFn fun j => x j * y j from ?_, List.sum_ofFn]
  apply List.ext_getElem <;> simp

theorem vecMat_ofFn {dc da : ℕ} (x : Fin dc → ℝ) (W : Fin dc → Fin da → ℝ) :
    vecMat da (List.ofFn x) (List.ofFn fun j => List.ofFn (W j)) = List.ofFn fun k => ∑ j, x j * W j k := by
  rw [vecMat]
  apply List.ext_getElem
  · simp
  · intro k h1 h2
    have hk : k < da := by simpa using h1
    rw [List.getElem_map, List.getElem_range, List.map_ofFn, List.getElem_ofFn, ← dot_ofFn]
    congr 2
    funext j
    simp [hk]

theorem bilinear_entry {dc da : ℕ} (θ : Fin dc → ℝ) (ψ : Fin da → ℝ) (W : Fin dc → Fin da → ℝ) (x : Fin dc → ℝ)
    (z : Fin da → ℝ) :
    dot (List.ofFn x) (List.ofFn θ) + dot (List.ofFn ψ) (List.ofFn z)
      + dot (vecMat da (List.ofFn x) (List.ofFn fun j => List.ofFn (W j))) (List.ofFn z) = bilinearReward θ ψ W x z := by
  rw [vecMat_ofFn, dot_ofFn, dot_ofFn, dot_ofFn, bilinearReward]
  congr 1
  · congr 1
    exact Finset.sum_congr rfl fun k _ => mul_comm _ _
  · simp only [Finset.sum_mul]
    rw [Finset.sum_comm]

theorem zipWith_rows_ofFn {n A : ℕ} (c : Fin n → ℝ) (a b : Fin n → Fin A → ℝ) :
    List.zipWith (fun c (rest : List ℝ × List ℝ) => List.zipWith (· + ·) (rest.1.map fun a => c + a) rest.2) (List.ofFn c)
      (List.zip (List.ofFn fun i => List.ofFn (a i)) (List.ofFn fun i => List.ofFn (b i)))
      = List.ofFn fun i => List.ofFn fun k => c i + a i k + b i k := by
  apply List.ext_getElem
  · simp
  · intro i h1 h2
    simp only [List.getElem_zipWith, List.getElem_zip, List.getElem_ofFn]
    apply List.ext_getElem <;> simp

theorem replicate_ofFn {α : Type} {n : ℕ} (v : α) : List.replicate n v = List.ofFn fun _ : Fin n => v := by
  apply List.ext_getElem <;> simp

theorem rewardParts_static {n A dc da : ℕ} (θ : Fin dc → ℝ) (ψ : Fin da → ℝ) (W : Fin dc → Fin da → ℝ)
    (x : Fin n → Fin dc → ℝ) (z : Fin A → Fin da → ℝ) :
    rewardParts (.static (List.ofFn θ) (List.ofFn ψ) (List.ofFn fun j => List.ofFn (W j)))
      (List.ofFn fun i => List.ofFn (x i)) (List.ofFn fun a => List.ofFn (z a))
      = .ok (List.ofFn fun i => List.ofFn fun a => bilinearReward θ ψ W (x i) (z a)) := by
  simp only [rewardParts, ite_self]
  rw [show (fun r => (List.zipWith (· * ·) r (List.ofFn θ)).sum) = fun r => dot r (List.ofFn θ) from rfl, ite_self]
  simp only [List.length_ofFn, List.map_ofFn, replicate_ofFn, Function.comp_def]
  rw [zipWith_rows_ofFn]
  simp only [bilinear_entry]

theorem rewardParts_perRound {n A dc da : ℕ} (θ : Fin n → Fin dc → ℝ) (ψ : Fin n → Fin da → ℝ)
    (W : Fin n → Fin dc → Fin da → ℝ) (x : Fin n → Fin dc → ℝ) (z : Fin A → Fin da → ℝ) :
    rewardParts (.perRound (List.ofFn fun i => (List.ofFn (θ i), List.ofFn (ψ i), List.ofFn fun j => List.ofFn (W i j))))
      (List.ofFn fun i => List.ofFn (x i)) (List.ofFn fun a => List.ofFn (z a))
      = .ok (List.ofFn fun i => List.ofFn fun a => bilinearReward (θ i) (ψ i) (W i) (x i) (z a)) := by
  have hz : ∀ {β γ δ : Type} (f : β → γ → δ) (b : Fin n → β) (c : Fin n → γ),
      List.zipWith f (List.ofFn b) (List.ofFn c) = List.ofFn fun i => f (b i) (c i) := fun f b c => by
    apply List.ext_getElem <;> simp
  simp only [rewardParts, List.length_ofFn, ne_eq, not_true_eq_false, if_false, hz, List.map_ofFn, Function.comp_def]
  have h := zipWith_rows_ofFn (fun i => (List.zipWith (· * ·) (List.ofFn (x i)) (List.ofFn (θ i))).sum)
    (fun i a => dot (List.ofFn (ψ i)) (List.ofFn (z a)))
    (fun i a => dot (vecMat da (List.ofFn (x i)) (List.ofFn fun j => List.ofFn (W i j))) (List.ofFn (z a)))
  refine congrArg Except.ok (h.trans ?_)
  congr 1
  funext i
  congr 1
  funext a
  rw [← bilinear_entry]
  rfl

/-- **C128.** With coefficients shared by all rounds, the expected reward of round i and action a is `degree` times the
bilinear form of the (selected) polynomial features of the round's context and of the action, for every number of rounds -
also when a number of features happens to equal the number of rounds, which the code tests for. -/
theorem C128_static {n A dc da degree : ℕ} {selC selA : Option (List ℕ)} {ctx : Fin n → List ℝ} {act : Fin A → List ℝ}
    {x : Fin n → Fin dc → ℝ} {z : Fin A → Fin da → ℝ}
    (hx : ∀ i, selectCols selC (polyFeatures degree (ctx i)) = List.ofFn (x i))
    (hz : ∀ a, selectCols selA (polyFeatures degree (act a)) = List.ofFn (z a))
    (θ : Fin dc → ℝ) (ψ : Fin da → ℝ) (W : Fin dc → Fin da → ℝ) :
    baseReward degree selC selA false (.static (List.ofFn θ) (List.ofFn ψ) (List.ofFn fun j => List.ofFn (W j)))
      (List.ofFn ctx) (List.ofFn act)
      = .ok (List.ofFn fun i => List.ofFn fun a => degree * bilinearReward θ ψ W (x i) (z a)) := by
  simp only [baseReward, List.map_ofFn, Function.comp_def, hx, hz, rewardParts_static, py_bind_ok]
  rfl

/-- **C128.** With one set of coefficients per round (a drifting environment), round i uses the i-th set. -/
theorem C128_per_round {n A dc da degree : ℕ} {selC selA : Option (List ℕ)} {ctx : Fin n → List ℝ} {act : Fin A → List ℝ}
    {x : Fin n → Fin dc → ℝ} {z : Fin A → Fin da → ℝ}
    (hx : ∀ i, selectCols selC (polyFeatures degree (ctx i)) = List.ofFn (x i))
    (hz : ∀ a, selectCols selA (polyFeatures degree (act a)) = List.ofFn (z a))
    (θ : Fin n → Fin dc → ℝ) (ψ : Fin n → Fin da → ℝ) (W : Fin n → Fin dc → Fin da → ℝ) :
    baseReward degree selC selA false
      (.perRound (List.ofFn fun i => (List.ofFn (θ i), List.ofFn (ψ i), List.ofFn fun j => List.ofFn (W i j))))
      (List.ofFn ctx) (List.ofFn act)
      = .ok (List.ofFn fun i => List.ofFn fun a => degree * bilinearReward (θ i) (ψ i) (W i) (x i) (z a)) := by
  simp only [baseReward, List.map_ofFn, Function.comp_def, hx, hz, rewardParts_perRound, py_bind_ok]
  rfl

/-! ### polynomial features -/

theorem mem_combsWR (d : ℕ) (is : List ℕ) (hs : is.Pairwise (· < ·)) (c : List ℕ) :
    c ∈ combsWR d is ↔ c.length = d ∧ c.Pairwise (· ≤ ·) ∧ ∀ j ∈ c, j ∈ is := by
  induction d, is using combsWR.induct generalizing c with
  | case1 is => simp [combsWR]; rintro rfl; simp
  | case2 d =>
    simp only [combsWR, List.not_mem_nil, false_iff]
    rintro ⟨h1, _, h3⟩
    rcases c with _ | ⟨j, c⟩
    · simp at h1
    · exact h3 j (by simp)
  | case3 d i is ih1 ih2 =>
    have hs' := (List.pairwise_cons.1 hs).2
    have hi := (List.pairwise_cons.1 hs).1
    simp only [combsWR, List.mem_append, List.mem_map, ih1 hs, ih2 hs']
    constructor
    · rintro (⟨c, ⟨h1, h2, h3⟩, rfl⟩ | ⟨h1, h2, h3⟩)
      · refine ⟨by simp [h1], List.pairwise_cons.2 ⟨fun j hj => ?_, h2⟩, fun j hj => ?_⟩
        · rcases List.mem_cons.1 (h3 j hj) with rfl | h
          · exact le_rfl
          · exact (hi j h).le
        · rcases List.mem_cons.1 hj with rfl | h
          · simp
          · exact h3 j h
      · exact ⟨h1, h2, fun j hj => List.mem_cons_of_mem _ (h3 j hj)⟩
    · rintro ⟨h1, h2, h3⟩
      rcases c with _ | ⟨j, c⟩
      · simp at h1
      · have h2' := List.pairwise_cons.1 h2
        rcases List.mem_cons.1 (h3 j (by simp)) with rfl | hj
        · exact Or.inl ⟨c, ⟨by simpa using h1, h2'.2, fun k hk => h3 k (by simp [hk])⟩, rfl⟩
        · refine Or.inr ⟨h1, h2, fun k hk => ?_⟩
          have hik : i < k := by
            rcases List.mem_cons.1 hk with rfl | hk'
            · exact hi _ hj
            · exact (hi j hj).trans_le (h2'.1 k hk')
          rcases List.mem_cons.1 (h3 k hk) with rfl | h
          · exact absurd hik (lt_irrefl _)
          · exact h

/-- **C128.** The features are the products of at most `degree` context variables (each product listed by its variables in
order): a number is a feature exactly if it is such a product. -/
theorem C128_features (degree : ℕ) (x : List ℝ) (y : ℝ) :
    y ∈ polyFeatures degree x ↔
      ∃ c : List ℕ, c.length ≤ degree ∧ c.Pairwise (· ≤ ·) ∧ (∀ j ∈ c, j < x.length) ∧ y = (c.map fun j => x.getD j 0).prod := by
  simp only [polyFeatures, List.mem_flatMap, List.mem_range, List.mem_map, mem_combsWR _ _ List.pairwise_lt_range,
    Nat.lt_succ_iff]
  constructor
  · rintro ⟨d, hd, c, ⟨h1, h2, h3⟩, rfl⟩
    exact ⟨c, h1 ▸ hd, h2, h3, rfl⟩
  · rintro ⟨c, h1, h2, h3, rfl⟩
    exact ⟨c.length, h1, c, ⟨rfl, h2, h3⟩, rfl⟩

theorem combsWR_one (is : List ℕ) : combsWR 1 is = is.map fun i => [i] := by
  induction is with
  | nil => simp [combsWR]
  | cons i is ih => simp [combsWR, ih]

/-- **C128.** The linear functions use a constant and the context variables themselves. -/
theorem C128_linear_features (x : List ℝ) : polyFeatures 1 x = 1 :: x := by
  have h : List.range (1 + 1) = [0, 1] := by decide
  rw [polyFeatures, h]
  simp only [List.flatMap_cons, List.flatMap_nil, combsWR_one, combsWR, List.map_cons, List.map_nil, List.prod_nil,
    List.append_nil, List.singleton_append, List.map_map, List.cons.injEq, true_and]
  apply List.ext_getElem
  · simp
  · intro i h1 h2
    simp [h2]

theorem polyFeatures_length_pos (degree : ℕ) (x : List ℝ) : 1 ≤ (polyFeatures degree x).length := by
  have : (1:ℝ) ∈ polyFeatures degree x := (C128_features degree x 1).2 ⟨[], by simp⟩
  exact List.length_pos_of_mem this

theorem polyFeatures_length_congr (degree : ℕ) {x y : List ℝ} (h : x.length = y.length) :
    (polyFeatures degree x).length = (polyFeatures degree y).length := by
  simp [polyFeatures, List.length_flatMap, h]

/-- **C128.** The sparse functions keep at least one and at most all of the features, so drawing that many columns without
replacement always succeeds; a selection of that many columns has that many features, taken from the full set. -/
theorem C128_sparse (degree : ℕ) (x : List ℝ) :
    1 ≤ effectiveDim (polyFeatures degree x).length ∧
    effectiveDim (polyFeatures degree x).length ≤ (polyFeatures degree x).length ∧
    ∀ cols : List ℕ, (∀ j ∈ cols, j < (polyFeatures degree x).length) →
      (selectCols (some cols) (polyFeatures degree x)).length = cols.length ∧
      ∀ y ∈ selectCols (some cols) (polyFeatures degree x), y ∈ polyFeatures degree x := by
  have h := polyFeatures_length_pos degree x
  refine ⟨le_max_right _ _, max_le (by omega) h, fun cols hc => ⟨by simp [selectCols], fun y hy => ?_⟩⟩
  simp only [selectCols, List.mem_map] at hy
  obtain ⟨j, hj, rfl⟩ := hy
  have : (polyFeatures degree x).getD j 0 = (polyFeatures degree x)[j]'(hc j hj) := by simp [hc j hj]
  rw [this]
  exact List.getElem_mem _

example : polyFeatures 1 [2, 3] = [1, 2, 3] := C128_linear_features _

/-- Two rounds, one action, two context features (the constant and the variable): as many features as rounds. -/
example : baseReward 1 none none false (.static [0, 1] [0, 1] [[0, 0], [0, 2]]) [[5], [7]] [[1]]
    = .ok [[5 + 1 + 5 * 2], [7 + 1 + 7 * 2]] := by
  have h := C128_static (n := 2) (A := 1) (degree := 1) (selC := none) (selA := none) (ctx := ![[5], [7]]) (act := ![[1]])
    (x := ![![1, 5], ![1, 7]]) (z := ![![1, 1]])
    (fun i => by fin_cases i <;> simp [selectCols, C128_linear_features])
    (fun i => by fin_cases i; simp [selectCols, C128_linear_features]) ![0, 1] ![0, 1] ![![0, 0], ![0, 2]]
  simpa [bilinearReward, Fin.sum_univ_two] using h

/-- The second round has other coefficients than the first. -/
example : baseReward 1 none none false
    (.perRound [([0, 1], [0, 1], [[0, 0], [0, 2]]), ([0, 3], [0, 0], [[0, 0], [0, 0]])]) [[5], [7]] [[1]]
    = .ok [[5 + 1 + 5 * 2], [7 * 3]] := by
  have h := C128_per_round (n := 2) (A := 1) (degree := 1) (selC := none) (selA := none) (ctx := ![[5], [7]]) (act := ![[1]])
    (x := ![![1, 5], ![1, 7]]) (z := ![![1, 1]])
    (fun i => by fin_cases i <;> simp [selectCols, C128_linear_features])
    (fun i => by fin_cases i; simp [selectCols, C128_linear_features]) ![![0, 1], ![0, 3]] ![![0, 1], ![0, 0]]
    ![![![0, 0], ![0, 2]], ![![0, 0], ![0, 0]]]
  simpa [bilinearReward, Fin.sum_univ_two] using h

/-! ### the six functions -/

/-- **C128.** The logistic functions always return probabilities strictly between 0 and 1, whatever the coefficients and with
or without z-scores, so that binary rewards can be sampled. -/
theorem C128_logistic_range {f : RewardFn} (hf : f = .logistic ∨ f = .logisticPolynomial ∨ f = .logisticSparse)
    {cols : List ℕ × List ℕ} {zScore : Bool} {coefs : Coefs} {context actionContext : List (List ℝ)} {q : List (List ℝ)}
    (h : rewardFn f cols zScore coefs context actionContext = .ok q) : ∀ row ∈ q, ∀ p ∈ row, 0 < p ∧ p < 1 := by
  have hl : f.isLogistic = true := by rcases hf with rfl | rfl | rfl <;> rfl
  simp only [rewardFn, hl, if_true] at h
  obtain ⟨l, _, h2⟩ := py_bind_eq_ok.1 h
  cases h2
  intro row hrow p hp
  simp only [logisticReward, List.mem_map] at hrow
  obtain ⟨r, _, rfl⟩ := hrow
  obtain ⟨v, _, rfl⟩ := List.mem_map.1 hp
  exact C07_sigmoid_shape.1 v

/-- **C128.** The six functions: degree 1, 3 or 4, all features or the selected ones, with or without the sigmoid. -/
theorem C128_functions {n A dc da : ℕ} (f : RewardFn) {cols : List ℕ × List ℕ} {ctx : Fin n → List ℝ} {act : Fin A → List ℝ}
    {d : ℕ} (hd : d = match f with
      | .logistic | .linear => 1 | .logisticPolynomial | .polynomial => 3 | .logisticSparse | .sparse => 4)
    {x : Fin n → Fin dc → ℝ} {z : Fin A → Fin da → ℝ}
    (hx : ∀ i, (if f = .sparse ∨ f = .logisticSparse then cols.1.map fun j => (polyFeatures d (ctx i)).getD j 0
      else polyFeatures d (ctx i)) = List.ofFn (x i))
    (hz : ∀ a, (if f = .sparse ∨ f = .logisticSparse then cols.2.map fun j => (polyFeatures d (act a)).getD j 0
      else polyFeatures d (act a)) = List.ofFn (z a))
    (θ : Fin dc → ℝ) (ψ : Fin da → ℝ) (W : Fin dc → Fin da → ℝ) :
    rewardFn f cols false (.static (List.ofFn θ) (List.ofFn ψ) (List.ofFn fun j => List.ofFn (W j))) (List.ofFn ctx) (List.ofFn act)
      = .ok (List.ofFn fun i => List.ofFn fun a =>
          if f = .logistic ∨ f = .logisticPolynomial ∨ f = .logisticSparse then
            1 / (1 + Real.exp (-(d * bilinearReward θ ψ W (x i) (z a))))
          else d * bilinearReward θ ψ W (x i) (z a)) := by
  have hdeg : f.degree = d := by rw [hd]; cases f <;> rfl
  have hsp : (f = .sparse ∨ f = .logisticSparse) ↔ f.isSparse = true := by cases f <;> simp [RewardFn.isSparse]
  have hlo : (f = .logistic ∨ f = .logisticPolynomial ∨ f = .logisticSparse) ↔ f.isLogistic = true := by
    cases f <;> simp [RewardFn.isLogistic]
  have hx' : ∀ i, selectCols (if f.isSparse then some cols.1 else none) (polyFeatures d (ctx i)) = List.ofFn (x i) := fun i => by
    rw [← hx i]; simp only [hsp]; split <;> rfl
  have hz' : ∀ a, selectCols (if f.isSparse then some cols.2 else none) (polyFeatures d (act a)) = List.ofFn (z a) := fun a => by
    rw [← hz a]; simp only [hsp]; split <;> rfl
  rw [rewardFn, hdeg, C128_static hx' hz', py_bind_ok]
  simp only [hlo]
  by_cases h : f.isLogistic = true
  · simp only [h, if_true, logisticReward, List.map_ofFn, Function.comp_def, C07_sigmoid_value]; rfl
  · simp only [h]; rfl

/-- The logistic function with context variable 2 and value `2 - 2 = 0`: probability one half. -/
example : rewardFn .logistic ([], []) false (.static [-2, 1] [0, 0] [[0, 0], [0, 0]]) [[2]] [[0]] = .ok [[1 / (1 + 1)]] := by
  have h := C128_functions (n := 1) (A := 1) .logistic (cols := ([], [])) (d := 1) rfl (ctx := ![[2]]) (act := ![[0]])
    (x := ![![1, 2]]) (z := ![![1, 0]]) (fun i => by fin_cases i; simp [C128_linear_features])
    (fun i => by fin_cases i; simp [C128_linear_features]) ![-2, 1] ![0, 0] ![![0, 0], ![0, 0]]
  simpa [bilinearReward, Fin.sum_univ_two] using h

/-- **C128.** With `z_score`, every entry is shifted by the same number: the mean over all rounds and actions divided by their
standard deviation (not standardised, see C108); rewards without spread give no numbers. -/
theorem C128_z_score {n A dc da degree : ℕ} {selC selA : Option (List ℕ)} {ctx : Fin n → List ℝ} {act : Fin A → List ℝ}
    {x : Fin n → Fin dc → ℝ} {z : Fin A → Fin da → ℝ}
    (hx : ∀ i, selectCols selC (polyFeatures degree (ctx i)) = List.ofFn (x i))
    (hz : ∀ a, selectCols selA (polyFeatures degree (act a)) = List.ofFn (z a))
    (θ : Fin dc → ℝ) (ψ : Fin da → ℝ) (W : Fin dc → Fin da → ℝ) {l : List ℝ}
    (hl : l = (List.ofFn fun i => List.ofFn fun a => bilinearReward θ ψ W (x i) (z a)).flatten) (hne : l ≠ []) :
    baseReward degree selC selA true (.static (List.ofFn θ) (List.ofFn ψ) (List.ofFn fun j => List.ofFn (W j)))
      (List.ofFn ctx) (List.ofFn act)
      = if npStd l = 0 then .error .nonFinite
        else .ok (List.ofFn fun i => List.ofFn fun a =>
          degree * (bilinearReward θ ψ W (x i) (z a) - l.sum / l.length / npStd l)) := by
  simp only [baseReward, List.map_ofFn, Function.comp_def, hx, hz, rewardParts_static, py_bind_ok, if_true, ← hl]
  rw [npMean, if_neg (by simpa using hne), py_bind_ok]
  by_cases h : npStd l = 0
  · rw [h, npDiv_zero, if_pos rfl]; rfl
  · rw [npDiv_ok h, py_bind_ok, if_neg h]; rfl

/-- **C129.** Without z-scores and with coefficients shared by the rounds, the expected rewards of a round are a function of
its context alone: they are the same in every batch. (Full property: so are the expected rewards with `z_score=True`, the
default, and the behaviour policy. That is false, see `C129_z_score` and `C129_behavior`.) -/
theorem C129_local_partial (f : RewardFn) (cols : List ℕ × List ℕ) (cc ac : List ℝ) (w acts : List (List ℝ)) :
    ∃ g : List ℝ → List ℝ, ∀ context, rewardFn f cols false (.static cc ac w) context acts = .ok (context.map g) := by
  have key : ∀ {degree : ℕ} {selC selA : Option (List ℕ)}, ∃ g : List ℝ → List ℝ,
      ∀ context, baseReward degree selC selA false (.static cc ac w) context acts = .ok (context.map g) := by
    intro degree selC selA
    refine ⟨fun r => (List.zipWith (· + ·) ((acts.map fun t => dot ac (selectCols selA (polyFeatures degree t))).map
        fun a => dot (selectCols selC (polyFeatures degree r)) cc + a)
      (acts.map fun t => dot (vecMat ac.length (selectCols selC (polyFeatures degree r)) w)
        (selectCols selA (polyFeatures degree t)))).map fun v => degree * v, fun context => ?_⟩
    simp only [baseReward, rewardParts, ite_self]
    rw [show (fun r => (List.zipWith (· * ·) r cc).sum) = fun r => dot r cc from rfl, ite_self]
    simp only [py_bind_ok, List.length_map, List.map_map, Function.comp_def]
    refine congrArg Except.ok ?_
    apply List.ext_getElem
    · simp
    · intro i h1 h2
      simp
  obtain ⟨g, hg⟩ := key (degree := f.degree) (selC := if f.isSparse then some cols.1 else none)
    (selA := if f.isSparse then some cols.2 else none)
  by_cases h : f.isLogistic = true
  · refine ⟨fun r => (g r).map fun v => sigmoidWith Real.exp v, fun context => ?_⟩
    rw [rewardFn, hg, py_bind_ok, if_pos h]
    simp only [logisticReward, List.map_map, Function.comp_def]
    rfl
  · refine ⟨g, fun context => ?_⟩
    rw [rewardFn, hg, py_bind_ok, if_neg h]
    rfl

theorem npStd_eq {l : List ℝ} {s : ℝ} (hs : 0 ≤ s)
    (h : (l.map fun x => (x - l.sum / l.length) ^ 2).sum / l.length = s ^ 2) : npStd l = s := by
  rw [npStd, h, Real.sqrt_sq hs]

/-- **C129, disagreement.** With `z_score=True` (the default) the same context has different expected rewards in different
batches: here with the linear reward function whose value is the context variable itself. -/
theorem C129_z_score :
    rewardFn .linear ([], []) true (.static [0, 1] [0, 0] [[0, 0], [0, 0]]) [[1], [5]] [[0]] = .ok [[-(1 / 2)], [7 / 2]] ∧
    rewardFn .linear ([], []) true (.static [0, 1] [0, 0] [[0, 0], [0, 0]]) [[1], [3]] [[0]] = .ok [[-1], [1]] := by
  have key : ∀ y : ℝ, npStd [1, y] ≠ 0 →
      rewardFn .linear ([], []) true (.static [0, 1] [0, 0] [[0, 0], [0, 0]]) [[1], [y]] [[0]]
        = .ok [[1 - (1 + y) / 2 / npStd [1, y]], [y - (1 + y) / 2 / npStd [1, y]]] := by
    intro y hy
    have h := C128_z_score (n := 2) (A := 1) (degree := 1) (selC := none) (selA := none) (ctx := ![[1], [y]])
      (act := ![[0]]) (x := ![![1, 1], ![1, y]]) (z := ![![1, 0]])
      (fun i => by fin_cases i <;> simp [selectCols, C128_linear_features])
      (fun i => by fin_cases i; simp [selectCols, C128_linear_features]) ![0, 1] ![0, 0] ![![0, 0], ![0, 0]]
      (l := [1, y]) (by simp [bilinearReward, Fin.sum_univ_two]) (by simp)
    rw [if_neg hy] at h
    rw [rewardFn]
    simp [bilinearReward, Fin.sum_univ_two] at h
    simp [RewardFn.degree, RewardFn.isSparse, RewardFn.isLogistic, h, py_bind_ok]
  constructor
  · have hs : npStd [1, 5] = 2 := npStd_eq (by norm_num) (by norm_num)
    rw [key 5 (by rw [hs]; norm_num), hs]
    norm_num
  · have hs : npStd [1, 3] = 1 := npStd_eq (by norm_num) (by norm_num)
    rw [key 3 (by rw [hs]; norm_num), hs]
    norm_num

/-! ### behaviour policies -/

/-- **C128.** The logits of the behaviour policy functions: `degree` times the standardised bilinear form (without the part that
depends only on the context). -/
theorem C128_behavior {n A dc da degree : ℕ} {ctx : Fin n → List ℝ} {act : Fin A → List ℝ}
    {x : Fin n → Fin dc → ℝ} {z : Fin A → Fin da → ℝ} (hx : ∀ i, polyFeatures degree (ctx i) = List.ofFn (x i))
    (hz : ∀ a, polyFeatures degree (act a) = List.ofFn (z a)) (ψ : Fin da → ℝ) (W : Fin dc → Fin da → ℝ) {l : List ℝ}
    (hl : l = (List.ofFn fun i => List.ofFn fun a => bilinearReward (fun _ => 0) ψ W (x i) (z a)).flatten)
    (hs : npStd l ≠ 0) :
    behaviorLogits degree (List.ofFn ψ) (List.ofFn fun j => List.ofFn (W j)) (List.ofFn ctx) (List.ofFn act)
      = .ok (List.ofFn fun i => List.ofFn fun a =>
          degree * (bilinearReward (fun _ => 0) ψ W (x i) (z a) - l.sum / l.length) / npStd l) := by
  have hne : l ≠ [] := by rintro rfl; simp [npStd] at hs
  have he : ∀ i a, dot (vecMat da (List.ofFn (x i)) (List.ofFn fun j => List.ofFn (W j))) (List.ofFn (z a))
      + dot (List.ofFn ψ) (List.ofFn (z a)) = bilinearReward (fun _ => 0) ψ W (x i) (z a) := fun i a => by
    rw [← bilinear_entry, dot_ofFn (x i)]
    simp only [mul_zero, Finset.sum_const_zero, zero_add]
    ring
  simp only [behaviorLogits, List.map_ofFn, Function.comp_def, hx, hz, List.length_ofFn, he]
  rw [← hl, npMean, if_neg (by simpa using hne), py_bind_ok]
  exact mapM_ofFn_ok fun i => mapM_ofFn_ok fun a => npDiv_ok hs

/-- **C129, disagreement.** The behaviour policy functions standardise over the batch, so the log-odds of two actions for the
same context differ between batches: here 2 and 2/3. -/
theorem C129_behavior :
    behaviorLogits 1 [0, 0] [[0, 0], [0, 1]] [[2], [2]] [[0], [1]] = .ok [[-1, 1], [-1, 1]] ∧
    behaviorLogits 1 [0, 0] [[0, 0], [0, 1]] [[2], [-6]] [[0], [1]] = .ok [[1 / 3, 1], [1 / 3, -(5 / 3)]] := by
  have key : ∀ y : ℝ, npStd [0, 2, 0, y] ≠ 0 →
      behaviorLogits 1 [0, 0] [[0, 0], [0, 1]] [[2], [y]] [[0], [1]]
        = .ok [[(0 - (2 + y) / 4) / npStd [0, 2, 0, y], (2 - (2 + y) / 4) / npStd [0, 2, 0, y]],
            [(0 - (2 + y) / 4) / npStd [0, 2, 0, y], (y - (2 + y) / 4) / npStd [0, 2, 0, y]]] := by
    intro y hy
    have h := C128_behavior (n := 2) (A := 2) (degree := 1) (ctx := ![[2], [y]])
      (act := ![[0], [1]]) (x := ![![1, 2], ![1, y]]) (z := ![![1, 0], ![1, 1]])
      (fun i => by fin_cases i <;> simp [C128_linear_features])
      (fun i => by fin_cases i <;> simp [C128_linear_features]) ![0, 0] ![![0, 0], ![0, 1]]
      (l := [0, 2, 0, y]) (by simp [bilinearReward, Fin.sum_univ_two]) hy
    simpa [bilinearReward, Fin.sum_univ_two] using h
  constructor
  · have hs : npStd [0, 2, 0, 2] = 1 := npStd_eq (by norm_num) (by norm_num)
    rw [key 2 (by rw [hs]; norm_num), hs]
    norm_num
  · have hs : npStd [0, 2, 0, -6] = 3 := npStd_eq (by norm_num) (by norm_num)
    rw [key (-6) (by rw [hs]; norm_num), hs]
    norm_num

end Obp
