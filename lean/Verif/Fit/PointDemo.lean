import Verif.Fit.PointProps
import Verif.DTree.NarrowDemo

/-!
# C135 on a rule and on a fitted tree
-/

namespace Verif.Point

open Spec

/-- The rule `x0 and x2, or x1`. -/
example : BDR.predictS [3, 7] [[0, 2], [1]] [[1, 0, 1], [0, 1, 0], [1, 0, 0]] = .ok [7, 7, 3] ∧
    BDR.predictS [3, 7] [[0, 2], [1]] [[1, 0, 0]] = .ok [3] ∧ BDR.predictS [3, 7] [[0, 2], [1]] [[1, 0, 0], [0, 1, 0], [1, 0, 1]] = .ok [3, 7, 7] := by
  decide +kernel

/-- In two batches. -/
example : ∃ a b, [7, 7, 3] = a ++ b ∧ BDR.predictS [3, 7] [[0, 2], [1]] [[1, 0, 1]] = .ok a ∧
    BDR.predictS [3, 7] [[0, 2], [1]] [[0, 1, 0], [1, 0, 0]] = .ok b :=
  (C135_append (C135_rule_checked _ _).1 [[1, 0, 1]] [[0, 1, 0], [1, 0, 0]] _).1 (by decide +kernel)

/-- One row that is too narrow spoils the batch; the same row is answered if it does not come to the feature. -/
example : BDR.predictS [3, 7] [[0, 2], [1]] [[1, 0, 1], [1, 0]] = .error .indexError ∧ BDR.predictS [3, 7] [[0, 2], [1]] [[1, 0]] = .error .indexError ∧
    BDR.predictS [3, 7] [[0, 2], [1]] [[0, 1]] = .ok [7] := by decide +kernel

/-- A row may raise another exception alone than the batch does: a rule trained on one class and used on a narrow row. -/
example : BDR.predictS [3] [[0]] [[1], []] = .error .indexError ∧ BDR.predictS [3] [[0]] [[1]] = .error .valueError ∧
    BDR.predictS [3] [[0]] [[]] = .error .indexError := by decide +kernel

/-- The fitted tree of `NarrowDemo`. -/
example : ∃ s, DTree.NarrowDemo.nRun = some (.ok (), s) ∧ DTree.predictFittedX DTree.NarrowDemo.nArgs s [[0, 0, 0], [0, 0, 1]] = .ok [0, 1] ∧
    ∃ row ∈ [[0, 0, 1, 7], [1, 1]], DTree.predictFittedX DTree.NarrowDemo.nArgs s [row] = .error .indexError := by
  obtain ⟨s, h1, h2⟩ := DTree.Demo.returned_spec DTree.NarrowDemo.nRun_facts
  simp only [Bool.and_eq_true, decide_eq_true_eq] at h2
  refine ⟨s, h1, ?_, (C135_tree_checked _ s).2 _ _ h2.1.1.2⟩
  obtain ⟨a, b, h3, h4, -⟩ := (C135_append (C135_tree_checked DTree.NarrowDemo.nArgs s).1 [[0, 0, 0], [0, 0, 1]] [[1, 0, 0], [1, 1, 0]] _).1 h2.1.1.1.2
  have h5 := C135_length (C135_tree_checked DTree.NarrowDemo.nArgs s).1 h4
  have h6 : a = [0, 1] := by
    match a, h5 with
    | [x, y], _ => simp only [DTree.NarrowDemo.ny, List.cons_append, List.nil_append, List.cons.injEq] at h3; rw [← h3.1, ← h3.2.1]
  rw [h4, h6]

end Verif.Point
