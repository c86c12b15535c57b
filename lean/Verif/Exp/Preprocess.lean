import Verif.DTree.Model

/-!
# Model of `preprocess` of `examples/dtree_experiment.py`

The experiment computes the `data_rows` argument of `DTreeClassifier` itself. In aggressive mode rows that no candidate split can tell
apart are merged until the time limit is reached. `Row.id` and `Row.target` are not modelled: the package never reads them.
-/

namespace Verif.Exp

open Verif.DTree

/-- The loop over the splits, `dtree_experiment.py:419-423`: ids of the splits with the row among their left rows. -/
def leftSplits (splits : List Split) (r : ℕ) : List ℕ :=
  splits.foldl (fun acc sp => if r ∈ sp.leftRows then setAdd acc sp.id else acc) []

/-- The same loop: ids of the other splits. -/
def rightSplits (splits : List Split) (r : ℕ) : List ℕ :=
  splits.foldl (fun acc sp => if r ∈ sp.leftRows then acc else setAdd acc sp.id) []

/-- The body of the row loop, `dtree_experiment.py:415-451`; `nodes` are the preprocessed nodes. -/
def makeRow (nodes : List Node) (splits : List Split) (r : ℕ) : Row :=
  let left := leftSplits splits r
  let st := reach nodes left
  { reachableNodes := st.1
    reachablePaths := []
    reachableLeaves := st.2
    leftSplits := left
    rightSplits := rightSplits splits r
    removedFromMaster := fewLeaves st.2
    removedFromSp := false
    weight := 1 }

/-- `time_limit > 0 and time()-t_start > time_limit`, `dtree_experiment.py:461, 466`; `elapsed k` is `time()-t_start` at the `k`-th
evaluation of this test. -/
def timeOver (limit : ℚ) (elapsed : ℕ → ℚ) (k : ℕ) : Bool := decide (limit > 0) && decide (elapsed k > limit)

/-- What happens to two rows that are found similar, `dtree_experiment.py:490-496`. `same` is `y[r1] == y[r2]`. -/
def merge (same : Bool) (r1 r2 : ℕ) (rows : List Row) : List Row :=
  let rows := if (rowAt rows r1).removedFromMaster then rows else rows.modify r2 (fun r => { r with removedFromMaster := true })
  if same then
    (rows.modify r2 (fun r => { r with removedFromSp := true })).modify r1 (fun r => { r with weight := r.weight + 1 })
  else rows

/-- The inner loop, `dtree_experiment.py:465-496`; `k` counts the evaluations of the time test. -/
def mergeInner (nodes : List Node) (y : List ℤ) (limit : ℚ) (elapsed : ℕ → ℚ) (r1 : ℕ) : List ℕ → ℕ × List Row → ℕ × List Row
  | [], st => st
  | r2 :: rest, st =>
    if timeOver limit elapsed st.1 then (st.1 + 1, st.2)
    else if (rowAt st.2 r2).removedFromSp then mergeInner nodes y limit elapsed r1 rest (st.1 + 1, st.2)
    else if similar nodes (rowAt st.2 r1) (rowAt st.2 r2) then
      mergeInner nodes y limit elapsed r1 rest (st.1 + 1, merge (decide (y.getD r1 0 = y.getD r2 0)) r1 r2 st.2)
    else mergeInner nodes y limit elapsed r1 rest (st.1 + 1, st.2)

/-- The outer loop, `dtree_experiment.py:460-496`. -/
def mergeLoop (nodes : List Node) (y : List ℤ) (limit : ℚ) (elapsed : ℕ → ℚ) (n : ℕ) : List ℕ → ℕ × List Row → ℕ × List Row
  | [], st => st
  | r1 :: rest, st =>
    if timeOver limit elapsed st.1 then (st.1 + 1, st.2)
    else if (rowAt st.2 r1).removedFromSp then mergeLoop nodes y limit elapsed n rest (st.1 + 1, st.2)
    else mergeLoop nodes y limit elapsed n rest
      (mergeInner nodes y limit elapsed r1 (List.range' (r1 + 1) (n - (r1 + 1))) (st.1 + 1, st.2))

/-- `preprocess`, `dtree_experiment.py:400-502`; the data set enters through the row sets of the splits, `n` is `X.shape[0]`. The average
of the number of reachable leaves is only printed, but its division raises for an empty data set. -/
def preprocess (nodes : List Node) (splits : List Split) (n : ℕ) (y : List ℤ) (depth : ℕ) (aggressive : Bool) (limit : ℚ)
    (elapsed : ℕ → ℚ) : Except Err (List Row) :=
  let nodes := preprocessNodes nodes depth
  let rows := (List.range n).map (makeRow nodes splits)
  if n = 0 then .error .zeroDivisionError
  else if aggressive then .ok (mergeLoop nodes y limit elapsed n (List.range n) (0, rows)).2
  else .ok rows

end Verif.Exp
