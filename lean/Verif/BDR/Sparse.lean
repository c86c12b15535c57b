import Verif.BDR.StrictProps

/-!
# Property C129 (rules): `predict` on sparse matrices

`fit` calls `check_X_y`, which rejects sparse matrices, but `predict` calls `check_array(X, accept_sparse=True)`, which lets them pass, and then
indexes the rows as if they were arrays. A row `X[i]` of a SciPy `csr_matrix` is a matrix of one row: `X[i][0]` is that row again and `X[i][j]` raises
`IndexError` for `j ≥ 1`; its comparison with a number is a matrix of truth values, and `if` raises `ValueError` unless that matrix has one entry. These
facts about SciPy are trusted (its documentation of `csr_matrix` and `__bool__`). Formats without indexing (`coo`, `dia`, `bsr`) are not modelled.
-/

set_option linter.unusedSectionVars false

namespace Verif

open Verif.DTree (Reads Safe atIndex firstFault guardedE guardedE_safe atIndex_ok)

/-- `if test(X_row[j])` for a row of a `csr_matrix`: `_bdr_classifier.py:367`, `_dtree_classifier.py:447` and `450`. The row is given by its entries. -/
def sparseIf (row : List ℚ) (j : ℕ) (test : ℚ → Bool) : Except Err Bool :=
  if j ≠ 0 then .error .indexError else if row.length = 1 then .ok (test (row.getD 0 0)) else .error .valueError

/-- The exception that `sparseIf` raises on a row with several columns. -/
def sparseErr (j : ℕ) : Err := if j = 0 then .valueError else .indexError

theorem sparseIf_wide {row : List ℚ} (h : 2 ≤ row.length) (j : ℕ) (test : ℚ → Bool) : sparseIf row j test = .error (sparseErr j) := by
  unfold sparseIf sparseErr
  by_cases hj : j = 0
  · rw [if_neg (by simpa using hj), if_neg (by omega), if_pos hj]
  · rw [if_pos hj, if_neg hj]

theorem sparseIf_one {row : List ℚ} (h : row.length = 1) (j : ℕ) (test : ℚ → Bool) :
    sparseIf row j test = if j < row.length then .ok (test (row.getD j 0)) else .error .indexError := by
  unfold sparseIf
  by_cases hj : j = 0
  · subst hj
    rw [if_neg (by simp), if_pos h, if_pos (by omega)]
  · rw [if_pos hj, if_neg (by omega)]

/-- A loop over rows that raises `IndexError` where an access fails is the guarded loop. -/
theorem mapM_guarded {α β : Type} (f : α → Except Err β) (g : α → β) (reads : α → Reads) : ∀ (R : List α),
    (∀ r ∈ R, (Safe (reads r) → f r = .ok (g r)) ∧ (¬ Safe (reads r) → f r = .error .indexError)) →
    (Safe (R.flatMap reads) → R.mapM f = .ok (R.map g)) ∧ (¬ Safe (R.flatMap reads) → R.mapM f = .error .indexError)
  | [], _ => ⟨fun _ => rfl, fun h => absurd Safe.nil h⟩
  | r :: R, h => by
    have ih := mapM_guarded f g reads R fun r' hr' => h r' (by simp [hr'])
    have h0 := h r (by simp)
    rw [List.flatMap_cons, List.mapM_cons]
    constructor
    · intro hs
      have := BDR.safe_append.1 hs
      rw [h0.1 this.1, ih.1 this.2]
      rfl
    · intro hs
      by_cases h1 : Safe (reads r)
      · rw [h0.1 h1, ih.2 fun h2 => hs (BDR.safe_append.2 ⟨h1, h2⟩)]
        rfl
      · rw [h0.2 h1]
        rfl

end Verif

namespace Verif.BDR

open MP Spec
open Fit.Spec
open Verif.DTree (Reads Safe atIndex firstFault guardedE guardedE_safe atIndex_ok)

/-! ## Model -/

/-- `satisfies_clause`, `_bdr_classifier.py:356-369`, on a row of a `csr_matrix`. -/
def satisfiesClauseSp (row : List ℚ) : Clause → Except Err ℕ
  | [] => .ok 1
  | j :: js => match sparseIf row j (fun x => decide (x = 0)) with
    | .error e => .error e
    | .ok true => .ok 0
    | .ok false => satisfiesClauseSp row js

/-- The inner loop of `predict`, `_bdr_classifier.py:697-701`. -/
def predictRowSp (row : List ℚ) : List Clause → Except Err ℕ
  | [] => .ok 0
  | c :: cs => match satisfiesClauseSp row c with
    | .error e => .error e
    | .ok 0 => predictRowSp row cs
    | .ok (_ + 1) => .ok 1

/-- `predict`, `_bdr_classifier.py:677-703`, of a `csr_matrix` with the rows `R`. -/
def predictSp (classes : List ℤ) (explanation : List Clause) (R : List (List ℚ)) : Except Err (List ℤ) :=
  match R.mapM (fun row => predictRowSp row explanation) with
  | .error e => .error e
  | .ok ys => Sk.inverseTransform classes (ys.map (fun (v : ℕ) => (v : ℤ)))

/-! ## Lemmas -/

theorem predictRowSp_wide {row : List ℚ} (h : 2 ≤ row.length) (j : ℕ) (js : Clause) (cs : List Clause) :
    predictRowSp row ((j :: js) :: cs) = .error (sparseErr j) := by
  have h1 : satisfiesClauseSp row (j :: js) = .error (sparseErr j) := by
    rw [satisfiesClauseSp, sparseIf_wide h]
  rw [predictRowSp, h1]

theorem satisfiesClauseSp_one {row : List ℚ} (h : row.length = 1) : ∀ (c : Clause),
    (Safe (clauseReads row c) → satisfiesClauseSp row c = .ok (satisfiesClause row c)) ∧
    (¬ Safe (clauseReads row c) → satisfiesClauseSp row c = .error .indexError)
  | [] => ⟨fun _ => rfl, fun h => absurd Safe.nil h⟩
  | j :: js => by
    have ih := satisfiesClauseSp_one h js
    rw [satisfiesClauseSp, sparseIf_one h, clauseReads, satisfiesClause]
    by_cases hj : j < row.length
    · rw [if_pos hj]
      have hg : row.getD j 0 = get row j := rfl
      rw [hg]
      by_cases h0 : get row j = 0
      · simp only [h0, if_true, decide_true]
        exact ⟨fun _ => trivial, fun hn => absurd (Safe.cons (atIndex_ok hj) Safe.nil) hn⟩
      · simp only [h0, if_false, decide_false]
        exact ⟨fun hs => ih.1 fun r hr => hs r (by simp [hr]), fun hn => ih.2 fun hs => hn (Safe.cons (atIndex_ok hj) hs)⟩
    · rw [if_neg hj]
      refine ⟨fun hs => ?_, fun _ => rfl⟩
      have := hs _ (List.mem_cons_self ..)
      simp [atIndex, hj] at this

theorem predictRowSp_one {row : List ℚ} (h : row.length = 1) : ∀ (K : List Clause),
    (Safe (rowReads row K) → predictRowSp row K = .ok (predictRow K row)) ∧
    (¬ Safe (rowReads row K) → predictRowSp row K = .error .indexError)
  | [] => ⟨fun _ => rfl, fun h => absurd Safe.nil h⟩
  | c :: cs => by
    have ih := predictRowSp_one h cs
    have hc := satisfiesClauseSp_one h c
    rw [predictRowSp, rowReads, predictRow]
    by_cases h1 : Safe (clauseReads row c)
    · rw [hc.1 h1]
      rcases hk : satisfiesClause row c with _ | k
      · simp only [ne_eq, not_true, if_false]
        exact ⟨fun hs => ih.1 (safe_append.1 hs).2, fun hn => ih.2 fun hs => hn (safe_append.2 ⟨h1, hs⟩)⟩
      · simp only [ne_eq, Nat.succ_ne_zero, not_false_eq_true, if_true]
        exact ⟨fun _ => trivial, fun hn => absurd (safe_append.2 ⟨h1, Safe.nil⟩) hn⟩
    · rw [hc.2 h1]
      exact ⟨fun hs => absurd (safe_append.1 hs).1 h1, fun _ => rfl⟩

/-! ## Theorems -/

/-- **C129.** A sparse matrix with several columns: with an empty rule, or if the first clause of the rule is empty, `predict` answers as for an array;
otherwise it raises, `ValueError` if the first index of the first clause is 0 and `IndexError` if not. Nothing else about the data matters. -/
theorem C129_rule (classes : List ℤ) (K : List Clause) (R : List (List ℚ)) (hR : R ≠ []) (hw : ∀ row ∈ R, 2 ≤ row.length) :
    ((K = [] ∨ K.head? = some []) → predictSp classes K R = predict classes K R) ∧
    ∀ j js cs, K = (j :: js) :: cs → predictSp classes K R = .error (if j = 0 then .valueError else .indexError) := by
  constructor
  · intro h
    have hrow : ∀ row, predictRowSp row K = .ok (predictRow K row) := by
      intro row
      rcases h with rfl | h
      · rfl
      · cases K with
        | nil => cases h
        | cons c cs =>
          obtain rfl : c = [] := by simpa using h
          rfl
    have hm : R.mapM (fun row => predictRowSp row K) = .ok (R.map (predictRow K)) :=
      (mapM_guarded (fun row => predictRowSp row K) (predictRow K) (fun _ => []) R fun r _ =>
        ⟨fun _ => hrow r, fun h => absurd Safe.nil h⟩).1 (fun r hr => by obtain ⟨_, -, h⟩ := List.mem_flatMap.1 hr; cases h)
    unfold predictSp
    rw [hm]
    simp only [predict, List.map_map]
    rfl
  · rintro j js cs rfl
    cases R with
    | nil => exact absurd rfl hR
    | cons r R =>
      unfold predictSp
      rw [List.mapM_cons, predictRowSp_wide (hw r (by simp))]
      rfl

/-- **C129.** A sparse matrix with one column: `predict` does what it does for an array, also when it raises `IndexError`. -/
theorem C129_rule_one (classes : List ℤ) (K : List Clause) (R : List (List ℚ)) (h1 : ∀ row ∈ R, row.length = 1) :
    predictSp classes K R = predictS classes K R := by
  have hm := mapM_guarded (fun row => predictRowSp row K) (predictRow K) (fun row => rowReads row K) R fun r hr => predictRowSp_one (h1 r hr) K
  unfold predictSp predictS
  by_cases hs : Safe (R.flatMap (fun row => rowReads row K))
  · rw [hm.1 hs, guardedE_safe hs]
    simp only [predict, List.map_map]
    rfl
  · rw [hm.2 hs]
    have hp : Plain (R.flatMap (fun row => rowReads row K)) := fun r hr => by
      obtain ⟨row, -, hr⟩ := List.mem_flatMap.1 hr
      exact rowReads_plain K r hr
    unfold guardedE
    rw [firstFault_plain hp hs]

end Verif.BDR
