import Verif.DTree.RefitProps

/-!
# Property C108: a certified tree run is as accurate as any other run

If `fit` ends with `mp_optimal_` and the selected paths are worth nearly as much as the relaxation, no other tree over the same questions is more
accurate on the training data, in particular no tree that another classifier was fitted to: on any data, of smaller depth, with other solvers,
initial paths, cuts, limits, preparation or numbers for the splits.
-/

set_option linter.unusedSectionVars false
set_option linter.unusedSimpArgs false

namespace Verif.DTree

open MP Spec
open Fit.Spec
open Verif.Fit (Ev Guided)

namespace Spec

/-- A complete decision tree: a question `feature <= threshold` for every node (numbered as in `_dtree_classifier.py:22-25`), and a label for every
leaf. -/
structure Questions where
  depth : ℕ
  feature : ℕ → ℕ
  threshold : ℕ → ℚ
  label : ℕ → ℤ

/-- The label of the leaf in which the row ends. -/
def Questions.answer (t : Questions) (row : List ℚ) : ℤ :=
  t.label (walkLeaf (fun n => decide (row.getD (t.feature n) 0 ≤ t.threshold n)) t.depth)

/-- The tree is not deeper than `d`, and its questions are candidates of their nodes. -/
def Questions.Within (t : Questions) (d : ℕ) (nodes : List Node) (splits : List Split) : Prop :=
  t.depth ≤ d ∧ ∀ n < 2 ^ t.depth - 1, ∃ i ∈ cand nodes n, (splitAt splits i).feature = t.feature n ∧ (splitAt splits i).threshold = t.threshold n

/-- The candidates of every node of the first tree are, as questions, among those of the second. -/
def FewerQuestions (d' : ℕ) (nodes' : List Node) (splits' : List Split) (nodes : List Node) (splits : List Split) : Prop :=
  ∀ n < 2 ^ d' - 1, ∀ i' ∈ cand nodes' n, ∃ i ∈ cand nodes n, (splitAt splits i).feature = (splitAt splits' i').feature ∧
    (splitAt splits i).threshold = (splitAt splits' i').threshold

/-- The weighted number of training rows with `ok row label`. -/
noncomputable def rowsWith (d : ℕ) (A : Args) (X : List (List ℚ)) (y : List ℤ) (ok : List ℚ → ℤ → Prop) : ℚ :=
  keptSum (Args.base A d X (encoded y)) (fun r => ok (X.getD r []) (y.getD r 0)) (rowWeight (Args.base A d X (encoded y)))

end Spec

/-! ## Trees of smaller depth -/

theorem walkLeaf_half (left : ℕ → Bool) (k : ℕ) : walkLeaf left (k + 1) / 2 = walkLeaf left k := by
  have h := (walk_bounds left k).1
  have h2 : 2 ^ (k + 1) = 2 * 2 ^ k := by ring
  have := Nat.two_pow_pos k
  unfold walkLeaf
  rw [h2]
  simp only [walk]
  split <;> omega

theorem walkLeaf_div (left : ℕ → Bool) (e : ℕ) : ∀ j, walkLeaf left (e + j) / 2 ^ j = walkLeaf left e
  | 0 => by simp
  | j + 1 => by
    rw [pow_succ', ← Nat.div_div_eq_div_mul, ← Nat.add_assoc, walkLeaf_half, walkLeaf_div left e j]

theorem walk_congr {left left' : ℕ → Bool} : ∀ {k : ℕ}, (∀ n < 2 ^ k - 1, left n = left' n) → walk left k = walk left' k
  | 0, _ => rfl
  | k + 1, h => by
    have hp : 2 ^ (k + 1) = 2 * 2 ^ k := by ring
    have := Nat.two_pow_pos k
    have ih := walk_congr (k := k) (fun n hn => h n (by omega))
    have hb := (walk_bounds left' k).2
    simp only [walk]
    rw [ih, h (walk left' k) (by rw [hp] at *; omega)]

theorem walkLeaf_congr {left left' : ℕ → Bool} {k : ℕ} (h : ∀ n < 2 ^ k - 1, left n = left' n) : walkLeaf left k = walkLeaf left' k := by
  unfold walkLeaf
  rw [walk_congr h]

/-! ## Sums over rows -/

theorem keptSum_imp {c : SubConf} {P Q : ℕ → Prop} {f : ℕ → ℚ} (hf : ∀ r, 0 ≤ f r) (h : ∀ r < c.X.length, P r → Q r) :
    keptSum c P f ≤ keptSum c Q f := by
  classical
  unfold keptSum
  refine sum_le_sum' _ _ _ ?_
  intro r hr
  have hr := List.mem_range.1 hr
  by_cases hp : Kept c r ∧ P r
  · rw [if_pos hp, if_pos ⟨hp.1, h r hr hp.2⟩]
  · rw [if_neg hp]
    split
    · exact hf r
    · exact le_refl _

theorem keptSum_isNat (c : SubConf) (P : ℕ → Prop) : ∃ n : ℕ, keptSum c P (rowWeight c) = n := by
  classical
  unfold keptSum
  induction List.range c.X.length with
  | nil => exact ⟨0, by simp⟩
  | cons r rs ih =>
    obtain ⟨n, hn⟩ := ih
    obtain ⟨m, hm⟩ := rowWeight_nat c r
    rw [List.map_cons, List.sum_cons, hn]
    by_cases h : Kept c r ∧ P r
    · exact ⟨m + n, by rw [if_pos h, hm]; push_cast; rfl⟩
    · exact ⟨n, by rw [if_neg h, zero_add]⟩

variable {Ω Ω' : Type} {d d' : ℕ} {A A' : Args} {X X' : List (List ℚ)} {y y' : List ℤ} {o : FitOracle Ω} {o' : FitOracle Ω'} {tol tol' : ℚ}
  {maxIt maxIt' : ℤ} {limit limit' : ℚ} {fuel fuel' : ℕ} {e0 e0' : Fit.Est} {w : World Ω} {w' : World Ω'} {u u' : Unit}
  {s : Fit.St (World Ω) Duals Path} {s' : Fit.St (World Ω') Duals Path}

theorem encoded_getD (hl : y.length = X.length) {r : ℕ} (hr : r < X.length) :
    (encoded y).getD r 0 = (Sk.uniqueLabels y).idxOf (y.getD r 0) ∧ y.getD r 0 ∈ y := by
  have hr' : r < y.length := by omega
  constructor
  · unfold encoded Sk.transform
    simp [List.getD_eq_getElem?_getD, List.getElem?_map, List.getElem?_eq_getElem hr']
  · rw [List.getD_eq_getElem?_getD, List.getElem?_eq_getElem hr']
    exact List.getElem_mem hr'

/-! ## The theorems -/

/-- **C108.** If `fit` ends with `mp_optimal_` and the CP-SAT pricing problems were solved to optimality, no tree over the candidate questions, of the depth of
the classifier or less and with any labels, is right for more training rows (counted with their weights) than `rmp_objective_` plus
the tolerances of C74. -/
theorem C108_bound (hf : FitOk d A X (encoded y)) (hc : FitContract d A X o tol) (hy : TwoClasses y) (hl : y.length = X.length)
    (hpo : PriceOptimal o) (hnew : A.useOld = false) (hs : Session o A X y w)
    (hr : Fit.fit (env o A X) (config A maxIt limit) fuel y e0 w = some (.ok u, s)) (hopt : s.est.mpOptimal = true)
    (t : Questions) (ht : t.Within d A.nodes A.splits) :
    rowsWith d A X y (fun row label => t.answer row = label) ≤ s.world.master.rmpObj +
      2 ^ d * (1 / 1000000 + ((2 * X.length + s.world.master.cutCons.length + d * A.splits.length : ℕ) : ℚ) / 100000) + (2 ^ d - 1) * tol := by
  classical
  have hinv := session_inv hf hc hy hs
  obtain ⟨σ0, P, -, hσ0, -, -⟩ := tree_from hf hc hy hinv hr
  obtain ⟨hd, hq⟩ := ht
  have hex : ∀ n, ∃ i, (n < 2 ^ d - 1 → i ∈ cand A.nodes n) ∧ (n < 2 ^ t.depth - 1 →
      (splitAt A.splits i).feature = t.feature n ∧ (splitAt A.splits i).threshold = t.threshold n) := by
    intro n
    by_cases hn : n < 2 ^ t.depth - 1
    · obtain ⟨i, h1, h2⟩ := hq n hn
      exact ⟨i, fun _ => h1, fun _ => h2⟩
    · exact ⟨σ0 n, hσ0 n, fun h => absurd h hn⟩
  choose σ hσ using hex
  have hk : 0 < A.targets.length := by
    have h0 : 0 < X.length := by
      obtain ⟨a, ha, -⟩ := hy
      rw [← hl]
      exact List.length_pos_of_mem ha
    exact lt_of_le_of_lt (Nat.zero_le _) (hf.y_lt 0 h0)
  let τ : ℕ → ℕ := fun l => if (Sk.uniqueLabels y).idxOf (t.label (l / 2 ^ (d - t.depth))) < A.targets.length then
    (Sk.uniqueLabels y).idxOf (t.label (l / 2 ^ (d - t.depth))) else 0
  have hτ : ∀ l < 2 ^ d, τ l ∈ A.targets := by
    intro l _
    refine hf.targets.mem_iff.2 (List.mem_range.2 ?_)
    dsimp only [τ]
    split
    · assumption
    · exact hk
  refine le_trans ?_ (bound_from hf hc hy hpo hnew hinv hr hopt (σ := σ) (τ := τ) (fun n hn => (hσ n).1 hn) hτ)
  unfold rowsWith treeHits
  refine keptSum_imp (rowWeight_nonneg _) ?_
  intro r hrl ha
  have hrl : r < X.length := hrl
  change (encoded y).getD r 0 = τ (walkLeaf (fun n => takesLeft (X.getD r []) (splitAt A.splits (σ n))) d)
  have h1 : walkLeaf (fun n => takesLeft (X.getD r []) (splitAt A.splits (σ n))) d / 2 ^ (d - t.depth) =
      walkLeaf (fun n => decide ((X.getD r []).getD (t.feature n) 0 ≤ t.threshold n)) t.depth := by
    have := walkLeaf_div (fun n => takesLeft (X.getD r []) (splitAt A.splits (σ n))) t.depth (d - t.depth)
    rw [Nat.add_sub_cancel' hd] at this
    rw [this]
    refine walkLeaf_congr ?_
    intro n hn
    obtain ⟨h2, h3⟩ := (hσ n).2 hn
    unfold takesLeft feat
    rw [h2, h3]
  dsimp only [τ]
  rw [h1]
  have ha : t.label (walkLeaf (fun n => decide ((X.getD r []).getD (t.feature n) 0 ≤ t.threshold n)) t.depth) = y.getD r 0 := ha
  rw [ha, ← (encoded_getD hl hrl).1, if_pos (hf.y_lt r hrl)]

/-- **C108.** A fitted classifier is such a tree, over its own candidate questions: whenever `predict` answers, it answers as the tree. -/
theorem C108_fitted_is_tree (hf : FitOk d A X (encoded y)) (hc : FitContract d A X o tol) (hy : TwoClasses y) (hs : Session o A X y w)
    (hr : Fit.fit (env o A X) (config A maxIt limit) fuel y e0 w = some (.ok u, s)) :
    ∃ t : Questions, t.depth = d ∧ t.Within d A.nodes A.splits ∧ ∀ row label, predictFitted A s [row] = .ok [label] → t.answer row = label := by
  obtain ⟨σ, P, -, hσ, -, hpred⟩ := tree_from hf hc hy (session_inv hf hc hy hs) hr
  refine ⟨⟨d, fun n => (splitAt A.splits (σ n)).feature, fun n => (splitAt A.splits (σ n)).threshold,
    fun l => match Sk.inverseOne s.est.classes (P l).target with
      | .ok v => v
      | .error _ => 0⟩, rfl, ⟨le_refl _, fun n hn => ⟨σ n, hσ n hn, rfl, rfl⟩⟩, ?_⟩
  intro row label h
  unfold predictFitted predict Sk.inverseTransform at h
  rw [List.map_cons, List.map_nil, hpred] at h
  change (match Sk.inverseOne s.est.classes (P (walkLeaf (fun n => takesLeft row (splitAt A.splits (σ n))) d)).target with
      | .ok v => v
      | .error _ => 0) = label
  rcases hv : Sk.inverseOne s.est.classes (P (walkLeaf (fun n => takesLeft row (splitAt A.splits (σ n))) d)).target with e | v
  · rw [List.mapM_cons, hv] at h
    cases h
  · rw [List.mapM_cons, hv] at h
    cases h
    rfl

theorem predict_right (hl : y.length = X.length) (hr : Fit.fit (env o A X) (config A maxIt limit) fuel y e0 w = some (.ok u, s)) {r : ℕ}
    (hrl : r < X.length) (h : (((encoded y).getD r 0 : ℕ) : ℤ) = predictRow A.leaves s.world.master.splits (X.getD r []) s.world.master.selected) :
    predictFitted A s [X.getD r []] = .ok [y.getD r 0] := by
  obtain ⟨h1, h2⟩ := encoded_getD hl hrl
  unfold predictFitted predict Sk.inverseTransform
  rw [List.map_cons, List.map_nil, ← h, Fit.fit_classes hr, h1, List.mapM_cons, Sk.inverse_transform_one y _ h2]
  rfl

/-- **C108.** If moreover the selected paths are worth more than `rmp_objective_` plus tolerances minus 1, the fitted classifier is right for as many
training rows as any other tree over the candidate questions. -/
theorem C108_best_tree (hf : FitOk d A X (encoded y)) (hc : FitContract d A X o tol) (hy : TwoClasses y) (hl : y.length = X.length)
    (hpo : PriceOptimal o) (hnew : A.useOld = false) (h0 : ∀ p ∈ A.paths, p.cost ≤ hitsOf d (Args.base A d X (encoded y)) p p.target)
    (hs : Session o A X y w) (hr : Fit.fit (env o A X) (config A maxIt limit) fuel y e0 w = some (.ok u, s)) (hopt : s.est.mpOptimal = true)
    (hgap : s.world.master.rmpObj + 2 ^ d * (1 / 1000000 + ((2 * X.length + s.world.master.cutCons.length + d * A.splits.length : ℕ) : ℚ) / 100000) +
      (2 ^ d - 1) * tol < (s.world.master.selected.map (·.cost)).sum + 1)
    (t : Questions) (ht : t.Within d A.nodes A.splits) :
    rowsWith d A X y (fun row label => t.answer row = label) ≤ rowsWith d A X y (fun row label => predictFitted A s [row] = .ok [label]) := by
  have h1 := C108_bound hf hc hy hl hpo hnew hs hr hopt t ht
  have h2 := attained_from hf hc hy h0 (session_inv hf hc hy hs) hr
  have h3 : trainHits d A X (encoded y) s.world.master.splits s.world.master.selected ≤
      rowsWith d A X y (fun row label => predictFitted A s [row] = .ok [label]) :=
    keptSum_imp (rowWeight_nonneg _) (fun r hrl h => predict_right hl hr hrl h)
  obtain ⟨n, hn⟩ := keptSum_isNat (Args.base A d X (encoded y)) (fun r => t.answer (X.getD r []) = y.getD r 0)
  obtain ⟨m, hm⟩ := keptSum_isNat (Args.base A d X (encoded y)) (fun r => predictFitted A s [X.getD r []] = .ok [y.getD r 0])
  have hn' : rowsWith d A X y (fun row label => t.answer row = label) = n := hn
  have hm' : rowsWith d A X y (fun row label => predictFitted A s [row] = .ok [label]) = m := hm
  rw [hn'] at h1 ⊢
  rw [hm'] at h3 ⊢
  have : (n : ℚ) < (m : ℚ) + 1 := by linarith
  have : n < m + 1 := by exact_mod_cast this
  exact_mod_cast Nat.lt_succ_iff.1 this

/-- **C108.** So it is right for at least as many of its training rows as any other fitted classifier that is not deeper and whose candidate questions are
among its own, whatever data that one was fitted to. -/
theorem C108_beats_other_runs (hf : FitOk d A X (encoded y)) (hc : FitContract d A X o tol) (hy : TwoClasses y) (hl : y.length = X.length)
    (hpo : PriceOptimal o) (hnew : A.useOld = false) (h0 : ∀ p ∈ A.paths, p.cost ≤ hitsOf d (Args.base A d X (encoded y)) p p.target)
    (hs : Session o A X y w) (hr : Fit.fit (env o A X) (config A maxIt limit) fuel y e0 w = some (.ok u, s)) (hopt : s.est.mpOptimal = true)
    (hgap : s.world.master.rmpObj + 2 ^ d * (1 / 1000000 + ((2 * X.length + s.world.master.cutCons.length + d * A.splits.length : ℕ) : ℚ) / 100000) +
      (2 ^ d - 1) * tol < (s.world.master.selected.map (·.cost)).sum + 1)
    (hf' : FitOk d' A' X' (encoded y')) (hc' : FitContract d' A' X' o' tol') (hy' : TwoClasses y') (hs' : Session o' A' X' y' w')
    (hr' : Fit.fit (env o' A' X') (config A' maxIt' limit') fuel' y' e0' w' = some (.ok u', s')) (hd : d' ≤ d)
    (hq : FewerQuestions d' A'.nodes A'.splits A.nodes A.splits) :
    rowsWith d A X y (fun row label => predictFitted A' s' [row] = .ok [label]) ≤
      rowsWith d A X y (fun row label => predictFitted A s [row] = .ok [label]) := by
  obtain ⟨t, h1, ⟨-, h2⟩, h3⟩ := C108_fitted_is_tree hf' hc' hy' hs' hr'
  have ht : t.Within d A.nodes A.splits := by
    refine ⟨h1 ▸ hd, fun n hn => ?_⟩
    obtain ⟨i', hi', e1, e2⟩ := h2 n hn
    obtain ⟨i, hi, e3, e4⟩ := hq n (h1 ▸ hn) i' hi'
    exact ⟨i, hi, e3.trans e1, e4.trans e2⟩
  refine le_trans (keptSum_imp (rowWeight_nonneg _) ?_) (C108_best_tree hf hc hy hl hpo hnew h0 hs hr hopt hgap t ht)
  intro r _ h
  exact h3 _ _ h

open Classical in
/-- **C108.** Without prepared rows (`data_rows=None`) the weighted number of rows is the number of rows. -/
theorem C108_count (hl : y.length = X.length) (hrows : A.dataRows = none) (ok : List ℚ → ℤ → Prop) :
    rowsWith d A X y ok = ((X.zip y).countP (fun q => ok q.1 q.2) : ℕ) := by
  unfold rowsWith keptSum
  have hw : ∀ r, rowWeight (Args.base A d X (encoded y)) r = 1 := by
    intro r
    unfold rowWeight
    change (A.dataRows.map _).getD 1 = 1
    rw [hrows]; rfl
  have hk : ∀ r < X.length, Kept (Args.base A d X (encoded y)) r := by
    intro r hr
    refine ⟨hr, fun rows h => ?_⟩
    have h : A.dataRows = some rows := h
    rw [hrows] at h
    cases h
  have e1 : (List.range X.length).map (fun r => if Kept (Args.base A d X (encoded y)) r ∧ ok (X.getD r []) (y.getD r 0) then
      rowWeight (Args.base A d X (encoded y)) r else 0) = (X.zip y).map (fun q => if ok q.1 q.2 then (1 : ℚ) else 0) := by
    refine List.ext_getElem (by simp [hl]) ?_
    intro r h1 h2
    have hr : r < X.length := by simpa using h1
    have hr' : r < y.length := by omega
    simp only [List.getElem_map, List.getElem_range, List.getElem_zip, hw, hk r hr, true_and]
    rw [List.getD_eq_getElem?_getD, List.getD_eq_getElem?_getD, List.getElem?_eq_getElem hr, List.getElem?_eq_getElem hr']
    rfl
  have e2 : (Args.base A d X (encoded y)).X.length = X.length := rfl
  rw [e2, e1]
  clear e1 e2 hk hw hl
  induction X.zip y with
  | nil => simp
  | cons q qs ih =>
    rw [List.map_cons, List.sum_cons, ih, List.countP_cons]
    by_cases h : ok q.1 q.2
    · simp [h]; ring
    · simp [h]

end Verif.DTree
