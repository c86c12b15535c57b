import Mathlib.Data.Nat.Log
import Mathlib.Data.Rat.Defs
import Mathlib.Algebra.Order.Ring.Rat
import Verif.Sk

/-!
# Model of the data objects of `col_gen_estimator/_dtree_classifier.py`

`Row`, `Path`, `Node`, `Leaf`, `Split`, the functions on them, row preprocessing and `predict`. Python sets of integers are lists used
through membership only (`setAdd` keeps them duplicate free). A list index that is out of range raises in Python; where the model reads a
default value instead this is said at the definition, and the theorems assume well-formed objects (C104 shows that such objects suffice).
`print` is dropped.
-/

namespace Verif.DTree

/-- `set.add`. -/
def setAdd (s : List ℕ) (x : ℕ) : List ℕ := if x ∈ s then s else s ++ [x]

/-- `Path`, `_dtree_classifier.py:174-195`. Ids of leaves, nodes and splits are natural numbers (`-1` only occurs before they are set);
the target may be `-1`. -/
structure Path where
  leafId : ℕ
  nodeIds : List ℕ
  splits : List ℕ
  cost : ℚ
  id : ℕ
  target : ℤ
  initial : Bool
  deriving DecidableEq

/-- The pairs `(path.node_ids[i], path.splits[i])`. -/
def Path.pairs (p : Path) : List (ℕ × ℕ) := p.nodeIds.zip p.splits

/-- `Path.is_same_as`, `_dtree_classifier.py:197-228` (`splits` as long as `node_ids`; otherwise Python raises `IndexError`). -/
def Path.isSameAs (self path : Path) : Bool :=
  if self.leafId ≠ path.leafId then false
  else if self.target ≠ path.target then false
  else if self.cost ≠ path.cost then false
  else if self.nodeIds.length ≠ path.nodeIds.length then false
  else (List.range self.nodeIds.length).all fun i =>
    (List.range path.nodeIds.length).any fun j =>
      path.nodeIds.getD j 0 == self.nodeIds.getD i 0 && path.splits.getD j 0 == self.splits.getD i 0

/-- The loop of `Path.set_leaf`, `_dtree_classifier.py:254-257`. -/
def fathers : ℕ → ℕ → List ℕ
  | 0, _ => []
  | fuel + 1, count => if count > 0 then (count - 1) / 2 :: fathers fuel ((count - 1) / 2) else []

/-- `Path.set_leaf`, `_dtree_classifier.py:241-257`. `count` decreases, so `count` rounds suffice. `math.floor((count-1) / 2)` is integer
division (the float quotient is exact for depths up to 52). -/
def Path.setLeaf (p : Path) (leafId depth : ℕ) : Path :=
  { p with
    leafId := leafId
    nodeIds := fathers (2 ^ depth - 1 + leafId) (2 ^ depth - 1 + leafId) }

/-- `Node`, `_dtree_classifier.py:260-290`. -/
structure Node where
  id : ℕ
  candidateSplits : List ℕ
  candidateSplitsCount : List ℕ
  lastSplit : ℤ
  parent : ℤ
  leftChild : ℕ
  rightChild : ℕ
  childrenAreLeaves : Bool
  deriving DecidableEq

/-- `Leaf`, `_dtree_classifier.py:293-308`. -/
structure Leaf where
  id : ℕ
  leftNodes : List ℕ
  rightNodes : List ℕ
  deriving DecidableEq

/-- The loop of `Leaf.create_leaf`, `_dtree_classifier.py:323-329`. -/
def leafLoop : ℕ → ℕ → List ℕ × List ℕ → List ℕ × List ℕ
  | 0, _, acc => acc
  | fuel + 1, count, acc =>
    if count > 0 then
      let father := (count - 1) / 2
      leafLoop fuel father (if count % 2 = 0 then (acc.1, acc.2 ++ [father]) else (acc.1 ++ [father], acc.2))
    else acc

/-- `Leaf.create_leaf`, `_dtree_classifier.py:310-329`. -/
def createLeaf (id depth : ℕ) : Leaf :=
  let r := leafLoop (2 ^ depth - 1 + id) (2 ^ depth - 1 + id) ([], [])
  ⟨id, r.1, r.2⟩

/-- `Split`, `_dtree_classifier.py:332-362`. -/
structure Split where
  id : ℕ
  feature : ℕ
  threshold : ℚ
  removed : Bool
  leftRows : List ℕ
  rightRows : List ℕ
  leftCuts : List ℕ
  rightCuts : List ℕ
  deriving DecidableEq

/-- Value read for a split id outside the list (Python raises `IndexError`). -/
def Split.none : Split := ⟨0, 0, 0, false, [], [], [], []⟩

/-- `splits[i]`. -/
def splitAt (splits : List Split) (i : ℕ) : Split := splits.getD i Split.none

/-- `get_satisfied_rows` and `get_satisfied_cuts`, `_dtree_classifier.py:365-393` and `396-424`, which differ only in the sets used
(`side split true` for left, `side split false` for right). An empty path raises `IndexError`. -/
def satisfiedBy (side : Split → Bool → List ℕ) (path : Path) (leaf : Leaf) (splits : List Split) : Except Err (List ℕ) :=
  match path.pairs with
  | [] => .error .indexError
  | (n, s) :: rest =>
    .ok (rest.foldl (fun acc q => acc.filter (fun r => r ∈ side (splitAt splits q.2) (decide (q.1 ∈ leaf.leftNodes))))
      (side (splitAt splits s) (decide (n ∈ leaf.leftNodes))))

/-- `get_satisfied_rows`, `_dtree_classifier.py:365-393`. -/
def getSatisfiedRows (path : Path) (leaf : Leaf) (splits : List Split) : Except Err (List ℕ) :=
  satisfiedBy (fun sp left => if left then sp.leftRows else sp.rightRows) path leaf splits

/-- `get_satisfied_cuts`, `_dtree_classifier.py:396-424`. -/
def getSatisfiedCuts (path : Path) (leaf : Leaf) (splits : List Split) : Except Err (List ℕ) :=
  satisfiedBy (fun sp left => if left then sp.leftCuts else sp.rightCuts) path leaf splits

/-- `row[feature]` (in range for validated inputs). -/
def feat (row : List ℚ) (f : ℕ) : ℚ := row.getD f 0

/-- The loop of `row_satisfies_path`, `_dtree_classifier.py:442-452`. -/
def rowLoop (row : List ℚ) (leaf : Leaf) (splits : List Split) : List (ℕ × ℕ) → Bool
  | [] => true
  | (n, s) :: rest =>
    let split := splitAt splits s
    if n ∈ leaf.leftNodes then
      if feat row split.feature > split.threshold then false else rowLoop row leaf splits rest
    else
      if feat row split.feature ≤ split.threshold then false else rowLoop row leaf splits rest

/-- `row_satisfies_path`, `_dtree_classifier.py:427-452`. -/
def rowSatisfiesPath (row : List ℚ) (leaf : Leaf) (splits : List Split) (path : Path) : Bool :=
  rowLoop row leaf splits path.pairs

/-- Value read for a leaf id outside the list. -/
def Leaf.none : Leaf := ⟨0, [], []⟩

/-- `leaves[i]`. -/
def leafAt (leaves : List Leaf) (i : ℕ) : Leaf := leaves.getD i Leaf.none

/-- Value read for a node id outside the list. -/
def Node.none : Node := ⟨0, [], [], -1, -1, 0, 0, false⟩

/-- `nodes[i]`. -/
def nodeAt (nodes : List Node) (i : ℕ) : Node := nodes.getD i Node.none

/-- `add_rows_to_splits`, `examples/dtree_experiment.py:386-397`: fills the row sets of the splits from the data. The Python loops have
the row loop outside; each split is updated independently of the others. -/
def addRowsToSplits (splits : List Split) (X : List (List ℚ)) : List Split :=
  splits.map fun sp => (List.range X.length).foldl (fun sp r =>
    if feat (X.getD r []) sp.feature ≤ sp.threshold then { sp with leftRows := setAdd sp.leftRows r }
    else { sp with rightRows := setAdd sp.rightRows r }) sp

/-- `DTreeMasterProblem.add_cuts`, `_dtree_classifier.py:954-962`: the patterns `cutRows` are entered in the cut sets of the splits under
the indices `first`, `first + 1`, .... The Python loops have the cut loop outside; each split is updated independently. -/
def addCutsToSplits (splits : List Split) (first : ℕ) (cutRows : List (List Bool)) : List Split :=
  splits.map fun sp => (cutRows.zipIdx first).foldl (fun sp c =>
    if c.1.getD sp.id false then { sp with leftCuts := setAdd sp.leftCuts c.2 }
    else { sp with rightCuts := setAdd sp.rightCuts c.2 }) sp

/-! ## Preprocessing of rows -/

/-- `Row`, `_dtree_classifier.py:133-171`. -/
structure Row where
  reachableNodes : List ℕ
  reachablePaths : List ℕ
  reachableLeaves : List ℕ
  leftSplits : List ℕ
  rightSplits : List ℕ
  removedFromMaster : Bool
  removedFromSp : Bool
  weight : ℕ
  deriving DecidableEq

/-- The first loop of `DTreeMasterProblem.preprocess_rows`, `_dtree_classifier.py:739-750`, which is also
`preprocess_nodes` of `examples/dtree_experiment.py:505-519`. -/
def preprocessNodes (nodes : List Node) (depth : ℕ) : List Node :=
  nodes.map fun node =>
    let parent : ℤ := if node.id = 0 then -1 else (((node.id - 1) / 2 : ℕ) : ℤ)
    let left := 2 * node.id + 1
    let right := 2 * node.id + 2
    if left ≥ 2 ^ depth - 1 then
      { node with
        parent := parent
        leftChild := left - (2 ^ depth - 1)
        rightChild := right - (2 ^ depth - 1)
        childrenAreLeaves := true }
    else
      { node with
        parent := parent
        leftChild := left
        rightChild := right }

/-- The loop over the splits, `_dtree_classifier.py:766-772`: ids of the splits whose left branch the row takes. -/
def leftSplitsOf (splits : List Split) (row : List ℚ) : List ℕ :=
  splits.foldl (fun acc sp => if feat row sp.feature ≤ sp.threshold then setAdd acc sp.id else acc) []

/-- The same loop: ids of the splits whose right branch the row takes. -/
def rightSplitsOf (splits : List Split) (row : List ℚ) : List ℕ :=
  splits.foldl (fun acc sp => if feat row sp.feature ≤ sp.threshold then acc else setAdd acc sp.id) []

/-- One node of the loop `_dtree_classifier.py:774-791` (`dtree_experiment.py:425-442`); state (reachable nodes, reachable leaves). -/
def reachStep (left : List ℕ) (st : List ℕ × List ℕ) (node : Node) : List ℕ × List ℕ :=
  if node.parent = -1 ∨ node.id ∈ st.1 then
    node.candidateSplits.foldl (fun st s =>
      let child := if s ∈ left then node.leftChild else node.rightChild
      if node.childrenAreLeaves then (st.1, setAdd st.2 child) else (setAdd st.1 child, st.2))
      (setAdd st.1 node.id, st.2)
  else st

/-- The whole loop over the nodes. -/
def reach (nodes : List Node) (left : List ℕ) : List ℕ × List ℕ := nodes.foldl (reachStep left) ([], [])

/-- `len(data_row.reachable_leaves) <= 2`. -/
def fewLeaves (leaves : List ℕ) : Bool := leaves.length ≤ 2

/-- The body of the row loop of `preprocess_rows`, `_dtree_classifier.py:764-810`; `nodes` are the preprocessed nodes. -/
def makeRow (leaves : List Leaf) (nodes : List Node) (splits : List Split) (paths : List Path) (row : List ℚ) : Row :=
  let left := leftSplitsOf splits row
  let st := reach nodes left
  { reachableNodes := st.1
    reachablePaths := paths.foldl (fun acc p =>
      if rowSatisfiesPath row (leafAt leaves p.leafId) splits p then setAdd acc p.id else acc) []
    reachableLeaves := st.2
    leftSplits := left
    rightSplits := rightSplitsOf splits row
    removedFromMaster := fewLeaves st.2
    removedFromSp := false
    weight := 1 }

/-- Equality of Python sets. -/
def setEq (a b : List ℕ) : Bool := a.all (· ∈ b) && b.all (· ∈ a)

/-- `valid_splits`, `_dtree_classifier.py:831-835`. -/
def validSplits (nodes : List Node) (reachable : List ℕ) : List ℕ :=
  reachable.foldl (fun acc n => (nodeAt nodes n).candidateSplits.foldl setAdd acc) []

/-- The comparison of two rows, `_dtree_classifier.py:826-842` (`dtree_experiment.py:471-487`). -/
def similar (nodes : List Node) (r1 r2 : Row) : Bool :=
  setEq r1.reachableNodes r2.reachableNodes &&
    (validSplits nodes r1.reachableNodes).all (fun s => decide (s ∈ r1.leftSplits) == decide (s ∈ r2.leftSplits))

/-- Default of a row lookup. -/
def Row.none : Row := ⟨[], [], [], [], [], false, false, 1⟩

/-- `data_rows[i]`. -/
def rowAt (rows : List Row) (i : ℕ) : Row := rows.getD i Row.none

/-- Inner loop of the aggressive part of `preprocess_rows`, `_dtree_classifier.py:822-846`. -/
def aggressiveInner (nodes : List Node) (r1 : ℕ) : List ℕ → List Row → List Row
  | [], rows => rows
  | r2 :: rest, rows =>
    if (rowAt rows r2).removedFromMaster then aggressiveInner nodes r1 rest rows
    else if similar nodes (rowAt rows r1) (rowAt rows r2) then
      aggressiveInner nodes r1 rest (rows.modify r2 (fun r => { r with removedFromMaster := true }))
    else aggressiveInner nodes r1 rest rows

/-- Outer loop, `_dtree_classifier.py:819-846`. -/
def aggressiveLoop (nodes : List Node) (n : ℕ) : List ℕ → List Row → List Row
  | [], rows => rows
  | r1 :: rest, rows =>
    if (rowAt rows r1).removedFromMaster then aggressiveLoop nodes n rest rows
    else aggressiveLoop nodes n rest (aggressiveInner nodes r1 (List.range' (r1 + 1) (n - (r1 + 1))) rows)

/-- `DTreeMasterProblem.preprocess_rows`, `_dtree_classifier.py:734-850`. `int(math.log2(n_leaves))` is the integer logarithm (for
no leaves Python raises `ValueError`, which `generateMpS` models). The division by the number of rows is dropped (only printed). -/
def preprocessRows (leaves : List Leaf) (nodes : List Node) (splits : List Split) (paths : List Path) (X : List (List ℚ))
    (aggressive : Bool) : List Row :=
  let nodes := preprocessNodes nodes (Nat.log 2 leaves.length)
  let rows := X.map (makeRow leaves nodes splits paths)
  if aggressive then aggressiveLoop nodes X.length (List.range X.length) rows else rows

/-! ## `predict` -/

/-- The inner loop of `predict`, `_dtree_classifier.py:2540-2544`. -/
def predictRow (leaves : List Leaf) (splits : List Split) (row : List ℚ) : List Path → ℤ
  | [] => 0
  | p :: ps => if rowSatisfiesPath row (leafAt leaves p.leafId) splits p then p.target else predictRow leaves splits row ps

/-- `DTreeClassifier.predict`, `_dtree_classifier.py:2519-2545`. -/
def predict (classes : List ℤ) (leaves : List Leaf) (splits : List Split) (selected : List Path) (X : List (List ℚ)) :
    Except Err (List ℤ) :=
  Sk.inverseTransform classes (X.map (fun row => predictRow leaves splits row selected))

/-! ## Constructor validation -/

/-- The checks of one initial path, `_dtree_classifier.py:2460-2469`. -/
def pathOk (leafIds nodeIds splitIds : List ℕ) (targets : List ℤ) (depth : ℕ) (p : Path) : Bool :=
  decide (p.leafId ∈ leafIds) && p.nodeIds.all (· ∈ nodeIds) && p.splits.all (· ∈ splitIds) && decide (p.target ∈ targets) &&
    decide (p.nodeIds.length = depth) && decide (p.splits.length = depth)

/-- Ids in sequence, `_dtree_classifier.py:2445-2458`: the loops with their counters. -/
def inSequence : ℕ → List ℕ → Bool
  | _, [] => true
  | k, i :: is => if i = k then inSequence (k + 1) is else false

/-- The assertions of `DTreeClassifier.__init__`, `_dtree_classifier.py:2441-2469`. -/
def initChecks (paths : List Path) (leaves : List Leaf) (nodes : List Node) (splits : List Split) (depth : ℕ) (targets : List ℤ) :
    Except Err Unit :=
  if inSequence 0 (nodes.map (·.id)) = false then .error .assertionError
  else if inSequence 0 (leaves.map (·.id)) = false then .error .assertionError
  else if paths.all (pathOk (leaves.map (·.id)) (nodes.map (·.id)) (splits.map (·.id)) targets depth) = false then .error .assertionError
  else .ok ()

end Verif.DTree
