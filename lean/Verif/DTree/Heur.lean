import Verif.DTree.Master

/-!
# Model of `DTreeSubProblemHeuristic`, `col_gen_estimator/_dtree_classifier.py:1921-2068`

Random draws are arguments: any function may stand for `random.choice`. A Python set is iterated in some order, which is an argument too.
`X`, `y` are the same in every call; `print` is dropped.
-/

namespace Verif.DTree

/-- Constructor arguments (`_dtree_classifier.py:1924-1935`) and the data. `self.targets_` and `self.tree_depth_` are never read. -/
structure HConf where
  leaves : List Leaf
  nodes : List Node
  X : List (List ℚ)
  y : List ℕ
  dataRows : Option (List Row)

/-- Attributes that change. `splits` are the split objects, which the master problem updates as well. -/
structure HeurSt where
  splits : List Split
  numCuts : ℕ
  failed : ℕ
  success : ℕ

/-- The random draws and the iteration order of one call: `choice i k` is the `k`-th draw in round `i`, `order` lists the elements of a set. -/
structure Draws where
  choice : ℕ → ℕ → ℕ
  order : List ℕ → List ℕ

/-- `random.choice(l)` for the draw `k` of a list that is not empty. -/
def choose (l : List ℕ) (k : ℕ) : ℕ := l.getD (k % l.length) 0

/-- The removal of the used splits, `_dtree_classifier.py:1957-1959`. -/
def removeUsed (used cands : List ℕ) : List ℕ := used.foldl (fun c u => if u ∈ c then c.erase u else c) cands

/-- The loop over the nodes, `_dtree_classifier.py:1954-1964`: `none` when a node has no split left. -/
def pickSplits (nodes : List Node) (draw : ℕ → ℕ) : ℕ → List ℕ → List ℕ → Option (List ℕ)
  | _, [], acc => some acc
  | k, n :: ns, acc =>
    let c := removeUsed acc (nodeAt nodes n).candidateSplits
    if c.isEmpty then none else pickSplits nodes draw (k + 1) ns (acc ++ [choose c (draw k)])

/-- `possible_targets`, `best_target`, `best_target_count`. A class that is not in the dictionary has count 0. -/
structure Best where
  counts : ℕ → ℕ
  target : ℤ
  count : ℕ

/-- `row_weight`, `_dtree_classifier.py:1982-1984`. -/
def HConf.weight (c : HConf) (r : ℕ) : ℕ :=
  match c.dataRows with
  | none => 1
  | some rows => (rowAt rows r).weight

/-- `self.data_rows[row].removed_from_sp`. -/
def HConf.removed (c : HConf) (r : ℕ) : Bool :=
  match c.dataRows with
  | none => false
  | some rows => (rowAt rows r).removedFromSp

/-- One row of the loop `_dtree_classifier.py:1980-1996`. -/
def HConf.countRow (c : HConf) (b : Best) (r : ℕ) : Best :=
  if c.removed r then b
  else
    let t := c.y.getD r 0
    let n := b.counts t + c.weight r
    let counts := Function.update b.counts t n
    if n > b.count then ⟨counts, t, n⟩ else { b with counts := counts }

/-- The loop `_dtree_classifier.py:1980-1996`. -/
def HConf.bestTarget (c : HConf) (rows : List ℕ) : Best := rows.foldl c.countRow ⟨fun _ => 0, -1, 0⟩

/-- Subtracting `duals[i]` for all `i` in a list; `IndexError` outside the list. -/
def subtractAll (duals : List ℚ) : List ℕ → ℚ → Except Err ℚ
  | [], acc => .ok acc
  | i :: is, acc =>
    match duals[i]? with
    | none => .error .indexError
    | some x => subtractAll duals is (acc - x)

/-- The loop over the nodes of the path, `_dtree_classifier.py:2063-2066`; `KeyError` for a missing entry. -/
def subtractNs (ns : ℕ → ℕ → Option ℚ) : List (ℕ × ℕ) → ℚ → Except Err ℚ
  | [], acc => .ok acc
  | q :: qs, acc =>
    match ns q.1 q.2 with
    | none => .error .keyError
    | some x => subtractNs ns qs (acc - x)

/-- `get_reduced_cost`, `_dtree_classifier.py:2036-2068`. A missing leaf dual is caught (nothing is subtracted). -/
def HConf.reducedCost (c : HConf) (splits : List Split) (D : Duals) (path : Path) (satisfied : List ℕ) : Except Err ℚ :=
  match subtractAll D.row ((List.range c.X.length).filter (fun r => r ∈ satisfied)) (0 - D.leaf.getD path.leafId 0 + path.cost) with
  | .error e => .error e
  | .ok x =>
    match getSatisfiedCuts path (leafAt c.leaves path.leafId) splits with
    | .error e => .error e
    | .ok cs =>
      match subtractAll D.cut cs.dedup x with
      | .error e => .error e
      | .ok x => subtractNs (D.ns path.leafId) path.pairs x

/-- One round of the loop, `_dtree_classifier.py:1944-2018`: a new path, or `none` for a failed round. `random.choice` of an empty list
raises `IndexError`. -/
def HConf.round (c : HConf) (splits : List Split) (D : Duals) (dr : Draws) (i : ℕ) (gen : List Path) : Except Err (Option Path) :=
  if c.leaves.isEmpty then .error .indexError
  else
    let leaf := leafAt c.leaves (dr.choice i 0 % c.leaves.length)
    let nodeIds := leaf.leftNodes ++ leaf.rightNodes
    match pickSplits c.nodes (dr.choice i) 1 nodeIds [] with
    | none => .ok none
    | some sp =>
      let path : Path := ⟨leaf.id, nodeIds, sp, 0, 0, -1, false⟩
      match getSatisfiedRows path leaf splits with
      | .error e => .error e
      | .ok rows =>
        let b := c.bestTarget (dr.order rows.dedup)
        let path := { path with
          target := b.target
          cost := (b.count : ℚ) }
        if gen.any (fun old => path.isSameAs old) then .ok none
        else
          match c.reducedCost splits D path rows with
          | .error e => .error e
          | .ok rc => if rc > 1 / 1000000 then .ok (some path) else .ok none

/-- The rounds with the given numbers: the paths and the number of failed rounds, or the exception with the failed rounds before it. -/
def HConf.rounds (c : HConf) (splits : List Split) (D : Duals) (dr : Draws) : List ℕ → List Path → ℕ → Except Err (List Path) × ℕ
  | [], gen, failed => (.ok gen, failed)
  | i :: is, gen, failed =>
    match c.round splits D dr i gen with
    | .error e => (.error e, failed)
    | .ok none => c.rounds splits D dr is gen (failed + 1)
    | .ok (some p) => c.rounds splits D dr is (gen ++ [p]) failed

/-- `generate_columns`, `_dtree_classifier.py:1937-2022`. -/
def HConf.generate (c : HConf) (D : Duals) (dr : Draws) (st : HeurSt) : Except Err (List Path) × HeurSt :=
  match c.rounds st.splits D dr (List.range 100) [] st.failed with
  | (.error e, f) => (.error e, { st with failed := f })
  | (.ok ps, f) =>
    (.ok ps, { st with
      failed := f
      success := st.success + ps.length })

/-- `update_subproblem`, `_dtree_classifier.py:2024-2034` (a cut row is as long as the list of splits). -/
def HConf.update (D : Duals) (st : HeurSt) : HeurSt :=
  { st with
    splits := addCutsToSplits st.splits st.numCuts D.newCuts
    numCuts := st.numCuts + D.newCuts.length }

end Verif.DTree
