import Verif.Exp.PreprocessProps

/-!
# C44, C45: the split sets recorded for a row

`left_splits` and `right_splits` of a row after preprocessing, by the class (`_dtree_classifier.py:764-772`) and by the experiment script
(`dtree_experiment.py:417-423`). The code reads only `left_splits` afterwards.
-/

set_option linter.unusedSectionVars false
set_option linter.unusedSimpArgs false

namespace Verif.DTree

open Spec

theorem mem_rightSplitsOf (splits : List Split) (row : List ℚ) (s : ℕ) :
    s ∈ rightSplitsOf splits row ↔ ∃ sp ∈ splits, sp.id = s ∧ takesLeft row sp = false := by
  have key : ∀ (l : List Split) (acc : List ℕ),
      s ∈ l.foldl (fun acc sp => if feat row sp.feature ≤ sp.threshold then acc else setAdd acc sp.id) acc ↔
      s ∈ acc ∨ ∃ sp ∈ l, sp.id = s ∧ takesLeft row sp = false := by
    intro l
    induction l with
    | nil => simp
    | cons a l ih =>
      intro acc
      rw [List.foldl_cons, ih]
      simp only [List.mem_cons, takesLeft, decide_eq_false_iff_not, exists_eq_or_imp]
      by_cases h : feat row a.feature ≤ a.threshold
      · rw [if_pos h]
        constructor
        · rintro (h1 | h1)
          · exact .inl h1
          · exact .inr (.inr h1)
        · rintro (h1 | h1 | h1)
          · exact .inl h1
          · exact absurd h h1.2
          · exact .inr h1
      · rw [if_neg h, mem_setAdd]
        constructor
        · rintro ((h1 | h1) | h1)
          · exact .inl h1
          · exact .inr (.inl ⟨h1.symm, h⟩)
          · exact .inr (.inr h1)
        · rintro (h1 | h1 | h1)
          · exact .inl (.inl h1)
          · exact .inl (.inr h1.1.symm)
          · exact .inr h1
  unfold rightSplitsOf
  rw [key]
  simp

/-- C44: after `preprocess_rows` the left splits of a row are the ids of the splits whose question the row answers with yes, the right splits
those it answers with no. -/
theorem C44_split_sets {d : ℕ} {nodes : List Node} {splits : List Split} (paths : List Path) (X : List (List ℚ)) (aggressive : Bool)
    (i : ℕ) (r : Row) (row : List ℚ) (hX : X[i]? = some row)
    (hr : (preprocessRows (fullLeaves d) nodes splits paths X aggressive)[i]? = some r) (s : ℕ) :
    (s ∈ r.leftSplits ↔ ∃ sp ∈ splits, sp.id = s ∧ row.getD sp.feature 0 ≤ sp.threshold) ∧
    (s ∈ r.rightSplits ↔ ∃ sp ∈ splits, sp.id = s ∧ sp.threshold < row.getD sp.feature 0) := by
  have hf := preprocessRows_fields (leaves := fullLeaves d) (nodes := nodes) (splits := splits) (paths := paths) rfl X aggressive i
  rw [hr, hX] at hf
  simp only [Option.map_some, Option.some.injEq] at hf
  have e1 : r.leftSplits = leftSplitsOf splits row := congrArg Row.leftSplits hf
  have e2 : r.rightSplits = rightSplitsOf splits row := congrArg Row.rightSplits hf
  rw [e1, e2, mem_leftSplitsOf, mem_rightSplitsOf]
  unfold takesLeft
  simp only [decide_eq_true_eq, decide_eq_false_iff_not, not_le]
  exact ⟨Iff.rfl, Iff.rfl⟩

/-- The middle row of the demo answers the first question with no, the others with yes. -/
example : ((preprocessRows (fullLeaves 2) demoNodes demoSplits [] [[1], [2], [5]] false).map (fun r => (r.leftSplits, r.rightSplits))) =
    [([0, 1, 2], []), ([1, 2], [0]), ([], [0, 1, 2])] := by decide +kernel

end Verif.DTree

namespace Verif.Exp

open Verif.DTree Verif.DTree.Spec

theorem mem_rightSplits (splits : List Split) (r s : ℕ) : s ∈ rightSplits splits r ↔ ∃ sp ∈ splits, sp.id = s ∧ r ∉ sp.leftRows := by
  have key : ∀ (l : List Split) (acc : List ℕ),
      s ∈ l.foldl (fun acc sp => if r ∈ sp.leftRows then acc else setAdd acc sp.id) acc ↔
      s ∈ acc ∨ ∃ sp ∈ l, sp.id = s ∧ r ∉ sp.leftRows := by
    intro l
    induction l with
    | nil => simp
    | cons a l ih =>
      intro acc
      rw [List.foldl_cons, ih]
      simp only [List.mem_cons, exists_eq_or_imp]
      by_cases h : r ∈ a.leftRows
      · rw [if_pos h]
        constructor
        · rintro (h1 | h1)
          · exact .inl h1
          · exact .inr (.inr h1)
        · rintro (h1 | h1 | h1)
          · exact .inl h1
          · exact absurd h h1.2
          · exact .inr h1
      · rw [if_neg h, mem_setAdd]
        constructor
        · rintro ((h1 | h1) | h1)
          · exact .inl h1
          · exact .inr (.inl ⟨h1.symm, h⟩)
          · exact .inr (.inr h1)
        · rintro (h1 | h1 | h1)
          · exact .inl (.inl h1)
          · exact .inl (.inr h1.1.symm)
          · exact .inr h1
  unfold rightSplits
  rw [key]
  simp

theorem merge_static (same : Bool) (r1 r2 : ℕ) (rows : List Row) (i : ℕ) :
    ((merge same r1 r2 rows)[i]?).map static = (rows[i]?).map static := by
  have hm : ∀ (k : ℕ) (f : Row → Row) (l : List Row), (∀ r, static (f r) = static r) → ((l.modify k f)[i]?).map static = (l[i]?).map static := by
    intro k f l hf
    rw [List.getElem?_modify]
    by_cases h : k = i
    · simp only [h, if_true]
      cases l[i]? with
      | none => rfl
      | some x => exact congrArg some (hf x)
    · simp only [h, if_false]
      cases l[i]? <;> rfl
  unfold merge
  have h1 : ((if (rowAt rows r1).removedFromMaster then rows
      else rows.modify r2 (fun r => { r with removedFromMaster := true }))[i]?).map static = (rows[i]?).map static := by
    split_ifs
    · rfl
    · exact hm _ _ _ fun _ => rfl
  cases same
  · exact h1
  · refine Eq.trans ?_ h1
    refine (hm r1 (fun r => { r with weight := r.weight + 1 }) _ (fun _ => rfl)).trans ?_
    exact hm r2 (fun r => { r with removedFromSp := true }) _ (fun _ => rfl)

theorem mergeInner_static (nodes : List Node) (y : List ℤ) (limit : ℚ) (elapsed : ℕ → ℚ) (r1 : ℕ) (l : List ℕ) (st : ℕ × List Row) (i : ℕ) :
    ((mergeInner nodes y limit elapsed r1 l st).2[i]?).map static = (st.2[i]?).map static := by
  induction l generalizing st with
  | nil => rfl
  | cons a l ih =>
    rw [mergeInner]
    split_ifs
    · rfl
    · exact ih _
    · rw [ih, merge_static]
    · exact ih _

theorem mergeLoop_static (nodes : List Node) (y : List ℤ) (limit : ℚ) (elapsed : ℕ → ℚ) (n : ℕ) (l : List ℕ) (st : ℕ × List Row) (i : ℕ) :
    ((mergeLoop nodes y limit elapsed n l st).2[i]?).map static = (st.2[i]?).map static := by
  induction l generalizing st with
  | nil => rfl
  | cons a l ih =>
    rw [mergeLoop]
    split_ifs
    · rfl
    · exact ih _
    · rw [ih, mergeInner_static]

/-- C45: after the preprocessing of the experiment the left splits of a row are the ids of the splits whose question the row answers with yes,
the right splits those it answers with no, whatever was merged and whenever the time limit struck. -/
theorem C45_split_sets {nodes : List Node} {splits : List Split} {X : List (List ℚ)} (hf : RowsFilled splits X) {y : List ℤ} {depth : ℕ}
    {aggressive : Bool} {limit : ℚ} {elapsed : ℕ → ℚ} {rows : List Row}
    (h : preprocess nodes splits X.length y depth aggressive limit elapsed = .ok rows) {i : ℕ} {row : List ℚ} (hX : X[i]? = some row)
    (s : ℕ) : ∃ r, rows[i]? = some r ∧
    (s ∈ r.leftSplits ↔ ∃ sp ∈ splits, sp.id = s ∧ row.getD sp.feature 0 ≤ sp.threshold) ∧
    (s ∈ r.rightSplits ↔ ∃ sp ∈ splits, sp.id = s ∧ sp.threshold < row.getD sp.feature 0) := by
  have hi : i < X.length := by
    by_contra hc
    rw [List.getElem?_eq_none (by omega)] at hX
    cases hX
  have hg : X.getD i [] = row := by rw [List.getD_eq_getElem?_getD, hX]; rfl
  have key : (rows[i]?).map static = some (static (makeRow (preprocessNodes nodes depth) splits i)) := by
    unfold preprocess at h
    simp only at h
    rw [if_neg (by omega)] at h
    have h0 : ((((List.range X.length).map (makeRow (preprocessNodes nodes depth) splits))[i]?).map static) =
        some (static (makeRow (preprocessNodes nodes depth) splits i)) := by
      rw [List.getElem?_map, List.getElem?_range hi]; rfl
    cases aggressive
    · simp only [Bool.false_eq_true, if_false, Except.ok.injEq] at h
      rw [← h]; exact h0
    · simp only [if_true, Except.ok.injEq] at h
      rw [← h, mergeLoop_static]; exact h0
  rcases hr : rows[i]? with _ | r
  · rw [hr] at key; cases key
  · rw [hr] at key
    simp only [Option.map_some, Option.some.injEq] at key
    have e1 : r.leftSplits = leftSplits splits i := congrArg Row.leftSplits key
    have e2 : r.rightSplits = rightSplits splits i := congrArg Row.rightSplits key
    refine ⟨r, rfl, ?_, ?_⟩
    · rw [e1, mem_leftSplits]
      refine exists_congr fun sp => and_congr_right fun hsp => and_congr_right fun _ => ?_
      rw [← hg]
      have := (hf sp hsp i).1
      unfold takesLeft at this
      rw [decide_eq_true_eq] at this
      exact this.trans (and_iff_right hi)
    · rw [e2, mem_rightSplits]
      refine exists_congr fun sp => and_congr_right fun hsp => and_congr_right fun _ => ?_
      rw [← hg, ← not_le]
      have := (hf sp hsp i).1
      unfold takesLeft at this
      rw [decide_eq_true_eq] at this
      exact not_congr (this.trans (and_iff_right hi))

/-- The sets recorded for three rows. -/
example : (match preprocess demoNodes (addRowsToSplits demoSplits [[1], [2], [5]]) 3 [0, 1, 1] 2 true 5 (fun _ => 0) with
    | .ok rows => rows.map (fun r => (r.leftSplits, r.rightSplits))
    | .error _ => []) = [([0, 1, 2], []), ([1, 2], [0]), ([], [0, 1, 2])] := by decide +kernel

end Verif.Exp
