import Mathlib.Data.List.Sort
import Mathlib.Data.Prod.Lex
import Verif.DTree.Model
import Verif.Exp.Preprocess

/-!
# Model of the preparation of a decision tree run in `examples/dtree_experiment.py`

From the fitted CART trees to the arguments of `DTreeClassifier`. Fitting the CART trees (scikit-learn), reading the files and printing
the results are not modelled: the trees are arguments. A Python dictionary is the list of its entries in insertion order.
-/

namespace Verif.Exp

open Verif.DTree

/-- The arrays of a fitted `sklearn.tree` object that the experiment reads, `dtree_experiment.py:158-162`. The entry `-2` of `feature` at a
leaf is never used; here any natural number may stand there. -/
structure Cart where
  left : List ℤ
  right : List ℤ
  feature : List ℕ
  threshold : List ℚ

/-- `node_count`. -/
def Cart.size (c : Cart) : ℕ := c.left.length

/-- `get_is_leaves`, `dtree_experiment.py:658-663`. -/
def Cart.isLeaf (c : Cart) (i : ℕ) : Bool := c.left.getD i (-1) == c.right.getD i (-1)

/-- `(feature[n_id], threshold[n_id])`. -/
def Cart.key (c : Cart) (i : ℕ) : ℕ × ℚ := (c.feature.getD i 0, c.threshold.getD i 0)

/-- `dict.get(key)`. -/
def dictGet {κ α : Type} [DecidableEq κ] : List (κ × α) → κ → Option α
  | [], _ => none
  | e :: d, k => if e.1 = k then some e.2 else dictGet d k

/-- The dictionary of splits. -/
abbrev Splits := List ((ℕ × ℚ) × Split)

/-- A new split enters the dictionary unless its key is there, `dtree_experiment.py:674-679` and `687-695`. -/
def addSplit (all : Splits) (key : ℕ × ℚ) : Splits :=
  if (dictGet all key).isSome then all
  else all ++ [(key, ⟨all.length, key.1, key.2, false, [], [], [], []⟩)]

/-- `get_all_splits`, `dtree_experiment.py:666-681`. -/
def getAllSplits (c : Cart) : Splits :=
  (List.range c.size).foldl (fun all i => if c.isLeaf i then all else addSplit all (c.key i)) []

/-- `merge_all_splits`, `dtree_experiment.py:684-696`. -/
def mergeAllSplits (d1 d2 : Splits) : Splits := d2.foldl (fun all e => addSplit all e.1) d1

/-- `get_splits_list`, `dtree_experiment.py:522-530`; `none` stands for `None`. -/
def getSplitsList (all : Splits) : Except Err (List (Option Split)) :=
  all.foldlM (fun l e => if e.2.id < l.length then .ok (l.set e.2.id (some e.2)) else .error .indexError)
    (List.replicate all.length none)

/-- `dict[key] = value`. -/
def dictSet {κ α : Type} [DecidableEq κ] (d : List (κ × α)) (k : κ) (v : α) : List (κ × α) :=
  if d.any (fun e => decide (e.1 = k)) then d.map (fun e => if e.1 = k then (k, v) else e) else d ++ [(k, v)]

/-- The node created for an inner node of a CART tree, `dtree_experiment.py:707-717`. -/
def cartNode (all : Splits) (id : ℕ) (key : ℕ × ℚ) : Node :=
  match dictGet all key with
  | some sp => ⟨id, [sp.id], [1], sp.id, -1, 0, 0, false⟩
  | none => ⟨id, [], [], -1, -1, 0, 0, false⟩

/-- One round of the loop of `get_all_nodes`, `dtree_experiment.py:704-721`; state (all_nodes, node_id_mapping). -/
def nodesStep (c : Cart) (all : Splits) (st : List (ℕ × Node) × List (ℤ × ℕ)) (i : ℕ) : Except Err (List (ℕ × Node) × List (ℤ × ℕ)) :=
  if c.isLeaf i then .ok st
  else match dictGet st.2 (i : ℤ) with
    | none => .error .keyError
    | some id =>
      .ok (dictSet st.1 id (cartNode all id (c.key i)),
        dictSet (dictSet st.2 (c.left.getD i (-1)) (2 * id + 1)) (c.right.getD i (-1)) (2 * id + 2))

/-- `get_all_nodes`, `dtree_experiment.py:699-722`. -/
def getAllNodes (c : Cart) (all : Splits) : Except Err (List (ℕ × Node)) :=
  ((List.range c.size).foldlM (nodesStep c all) ([], [((0 : ℤ), 0)])).map Prod.fst

/-- One candidate split enters a node, `dtree_experiment.py:734-739`. -/
def addCand (count : ℕ) (node : Node) (s : ℕ) : Node :=
  if s ∈ node.candidateSplits then
    { node with candidateSplitsCount := node.candidateSplitsCount.modify (node.candidateSplits.idxOf s) (· + count) }
  else
    { node with
      candidateSplits := node.candidateSplits ++ [s]
      candidateSplitsCount := node.candidateSplitsCount ++ [count] }

/-- The body of the loop of `merge_all_nodes`, `dtree_experiment.py:731-740`. -/
def mergeNode (count : ℕ) (node node2 : Node) : Node :=
  node2.candidateSplits.foldl (addCand count) { node with lastSplit := node2.lastSplit }

/-- `merge_all_nodes`, `dtree_experiment.py:725-743`. The dictionary of combined nodes has the keys `0, ..., n-1` in this order, created in
lines 141-145 and never changed; it is the list of its values. Other keys are only reported. -/
def mergeAllNodes (nodes : List Node) (dict : List (ℕ × Node)) (count : ℕ) : List Node :=
  dict.foldl (fun nodes e => nodes.modify e.1 (fun n => mergeNode count n e.2)) nodes

/-- The nodes before the first tree, `dtree_experiment.py:139-145`. -/
def freshNodes (d : ℕ) : List Node := (List.range (2 ^ d - 1)).map fun i => ⟨i, [], [], -1, -1, 0, 0, false⟩

/-- The treatment of one fitted tree, `dtree_experiment.py:164-171` (`count = 1`) and `199-210` (`count = 1000`). -/
def mergeCart (count : ℕ) (st : Splits × List Node) (c : Cart) : Except Err (Splits × List Node) :=
  match getAllNodes c (mergeAllSplits st.1 (getAllSplits c)) with
  | .error e => .error e
  | .ok dict => .ok (mergeAllSplits st.1 (getAllSplits c), mergeAllNodes st.2 dict count)

/-- Nodes that never appeared, `dtree_experiment.py:213-217`. -/
def fillEmpty (nodes : List Node) : List Node :=
  nodes.map fun n => if n.candidateSplits = [] then
      { n with
        candidateSplits := [0]
        candidateSplitsCount := n.candidateSplitsCount ++ [0]
        lastSplit := 0 }
    else n

/-- The loop of `row_satisfies_path` of the experiment, `dtree_experiment.py:642-655`; `left` are the left nodes of the leaf. -/
def rowFollows (splits : List Split) (row : List ℚ) (left : List ℕ) : List (ℕ × ℕ) → Except Err Bool
  | [] => .ok true
  | (n, s) :: rest =>
    match splits[s]? with
    | none => .error .indexError
    | some sp =>
      if n ∈ left then
        if feat row sp.feature > sp.threshold then .ok false else rowFollows splits row left rest
      else
        if feat row sp.feature ≤ sp.threshold then .ok false else rowFollows splits row left rest

/-- `target_counts`, `best_cost`, `best_target`. A missing key of `target_counts` is the count 0. -/
structure Score where
  counts : ℤ → ℕ
  cost : ℕ
  target : ℤ

/-- Counting a row with the given target, `dtree_experiment.py:589-596`. -/
def Score.add (s : Score) (t : ℤ) : Score :=
  let k := s.counts t + 1
  ⟨fun u => if u = t then k else s.counts u, if k > s.cost then k else s.cost, if k > s.cost then t else s.target⟩

/-- The loop over the rows, `dtree_experiment.py:587-596` and `627-636`. -/
def scoreLoop (splits : List Split) (X : List (List ℚ)) (y : List ℤ) (path : Path) (left : List ℕ) : List ℕ → Score → Except Err Score
  | [], s => .ok s
  | r :: rest, s =>
    match rowFollows splits (X.getD r []) left path.pairs with
    | .error e => .error e
    | .ok true => scoreLoop splits X y path left rest (s.add (y.getD r 0))
    | .ok false => scoreLoop splits X y path left rest s

/-- Target and cost of a path, `dtree_experiment.py:584-598` and `624-638`; `y` is as long as the data. -/
def scorePath (splits : List Split) (X : List (List ℚ)) (y : List ℤ) (path : Path) (left : List ℕ) : Except Err Path :=
  match y with
  | [] => .error .indexError
  | y0 :: _ =>
    match scoreLoop splits X y path left (List.range X.length) ⟨fun _ => 0, 0, y0⟩ with
    | .error e => .error e
    | .ok s => .ok { path with
        cost := s.cost
        target := s.target }

/-- The body of the loop of `get_all_leaves_paths`, `dtree_experiment.py:566-601`. The walk up to the root is that of `Leaf.create_leaf` and
`Path.set_leaf` (`count == 2*father + 1` says that `count` is odd). Every `last_split` is a natural number here. -/
def leafPath (nodes : List Node) (depth : ℕ) (splits : List Split) (X : List (List ℚ)) (y : List ℤ) (l : ℕ) : Except Err Path :=
  let ns := fathers (2 ^ depth - 1 + l) (2 ^ depth - 1 + l)
  if ns.all (fun n => decide (n < nodes.length)) then
    scorePath splits X y ⟨l, ns, ns.map (fun n => (nodeAt nodes n).lastSplit.toNat), 0, l, 0, false⟩ (createLeaf l depth).leftNodes
  else .error .keyError

/-- `get_all_leaves_paths`, `dtree_experiment.py:559-602`, with `get_leaves_list` and `get_paths_list`, `542-556`: the dictionaries have the
keys `0, ..., 2^depth - 1` in this order. -/
def getAllLeavesPaths (nodes : List Node) (depth : ℕ) (splits : List Split) (X : List (List ℚ)) (y : List ℤ) :
    Except Err (List Leaf × List Path) :=
  match (List.range (2 ^ depth)).mapM (leafPath nodes depth splits X y) with
  | .error e => .error e
  | .ok paths => .ok ((List.range (2 ^ depth)).map (fun l => createLeaf l depth), paths)

/-- Python's order on pairs, turned around: `sorted(..., reverse=True)`. -/
def geLex (a b : ℕ × ℕ) : Prop := b.1 < a.1 ∨ (b.1 = a.1 ∧ b.2 ≤ a.2)

instance : DecidableRel geLex := fun a b => inferInstanceAs (Decidable (_ ∨ _))

/-- The body of the first loop of `reduce_splits`, `dtree_experiment.py:765-776`. Unpacking `zip(*[])` raises. -/
def reduceNode (qRoot qNode : ℕ) (node : Node) : Except Err Node :=
  let q := if node.id = 0 then qRoot else qNode
  let sorted := (node.candidateSplitsCount.zip node.candidateSplits).insertionSort geLex
  if sorted = [] then .error .valueError
  else .ok { node with
    candidateSplitsCount := (sorted.map Prod.fst).take q
    candidateSplits := (sorted.map Prod.snd).take q }

/-- `reduce_splits`, `dtree_experiment.py:760-787`; the splits are modified in place. -/
def reduceSplits (nodes : List Node) (splits : List Split) (qRoot qNode : ℕ) : Except Err (List Node × List Split) :=
  match nodes.mapM (reduceNode qRoot qNode) with
  | .error e => .error e
  | .ok nodes' => .ok (nodes', splits.map fun sp => { sp with removed := !decide (sp.id ∈ nodes'.flatMap (·.candidateSplits)) })

/-- The walk up of `get_path_for_leaf`, `dtree_experiment.py:611-622`: the splits met, or `none` for `return None`. -/
def walkUp (tree : List (ℕ × Node)) (splits : List Split) : List ℕ → Except Err (Option (List ℕ))
  | [] => .ok (some [])
  | n :: ns =>
    match dictGet tree n with
    | none => .ok none
    | some node =>
      if node.lastSplit = -1 then .ok none
      else match splits[node.lastSplit.toNat]? with
        | none => .error .indexError
        | some sp =>
          if sp.removed then .ok none
          else match walkUp tree splits ns with
            | .error e => .error e
            | .ok none => .ok none
            | .ok (some ss) => .ok (some (node.lastSplit.toNat :: ss))

/-- `get_path_for_leaf`, `dtree_experiment.py:605-639`; the id `-1` is replaced by the caller before use. -/
def getPathForLeaf (leaf : Leaf) (tree : List (ℕ × Node)) (depth : ℕ) (splits : List Split) (X : List (List ℚ)) (y : List ℤ) :
    Except Err (Option Path) :=
  let ns := fathers (2 ^ depth - 1 + leaf.id) (2 ^ depth - 1 + leaf.id)
  match walkUp tree splits ns with
  | .error e => .error e
  | .ok none => .ok none
  | .ok (some ss) => (scorePath splits X y ⟨leaf.id, ns, ss, 0, 0, 0, false⟩ leaf.leftNodes).map some

/-- One leaf of one further tree, `dtree_experiment.py:263-276`. -/
def addLeafPath (tree : List (ℕ × Node)) (depth : ℕ) (splits : List Split) (X : List (List ℚ)) (y : List ℤ) (paths : List Path)
    (leaf : Leaf) : Except Err (List Path) :=
  match getPathForLeaf leaf tree depth splits X y with
  | .error e => .error e
  | .ok none => .ok paths
  | .ok (some path) => .ok (if paths.any (fun p => path.isSameAs p) then paths else paths ++ [{ path with id := paths.length }])

/-- One further tree, `dtree_experiment.py:252-276`. -/
def addTreePaths (all : Splits) (depth : ℕ) (splits : List Split) (X : List (List ℚ)) (y : List ℤ) (leaves : List Leaf)
    (paths : List Path) (c : Cart) : Except Err (List Path) :=
  match getAllNodes c all with
  | .error e => .error e
  | .ok tree => leaves.foldlM (addLeafPath tree depth splits X y) paths

/-- `int(a / b)` for `b > 0`. The float quotient is not far enough off to change the integer part for the numbers in question. -/
def quota (a b : ℕ) : ℕ := a / b

/-- The list of splits when no entry is `None`. -/
def known (l : List (Option Split)) : List Split := l.filterMap id

/-- What the preparation hands over to `DTreeClassifier`. -/
structure Prepared where
  paths : List Path
  leaves : List Leaf
  nodes : List Node
  splits : List Split
  targets : List ℤ
  rows : List Row

/-- Lines 205 and 213-229 of `dtree_experiment.py`: list of splits, nodes without candidates, leaves, initial paths, reduction. -/
def finish (depth : ℕ) (st : Splits × List Node) (X : List (List ℚ)) (y : List ℤ) : Except Err (List Path × List Leaf × List Node × List Split) :=
  match getSplitsList st.1 with
  | .error e => .error e
  | .ok l =>
    match getAllLeavesPaths (fillEmpty st.2) depth (known l) X y with
    | .error e => .error e
    | .ok (leaves, paths) =>
      match reduceSplits (fillEmpty st.2) (known l) (quota 150 (2 ^ depth - 1)) (quota 100 (2 ^ depth - 1)) with
      | .error e => .error e
      | .ok (nodes, splits) => .ok (paths, leaves, nodes, splits)

/-- The preparation, `dtree_experiment.py:138-289`. `carts` are the trees of the first loop (line 149; as many as the time limit allows),
`final` the tree fitted to all data (line 178), `extra` the trees of the second loop (line 235). `y` are the encoded labels. -/
def prepare (depth : ℕ) (carts : List Cart) (final : Cart) (extra : List Cart) (X : List (List ℚ)) (y : List ℤ) (aggressive : Bool)
    (limit : ℚ) (elapsed : ℕ → ℚ) : Except Err Prepared :=
  if 2 ^ depth - 1 = 0 then .error .zeroDivisionError
  else match carts.foldlM (mergeCart 1) ([], freshNodes depth) with
    | .error e => .error e
    | .ok st =>
      match mergeCart 1000 st final with
      | .error e => .error e
      | .ok st =>
        match finish depth st X y with
        | .error e => .error e
        | .ok (paths, leaves, nodes, splits) =>
          match extra.foldlM (addTreePaths st.1 depth splits X y leaves) paths with
          | .error e => .error e
          | .ok paths =>
            match preprocess nodes (addRowsToSplits splits X) X.length y depth aggressive limit elapsed with
            | .error e => .error e
            | .ok rows =>
              .ok ⟨paths, leaves, preprocessNodes nodes depth, addRowsToSplits splits X, Sk.uniqueLabels y, rows⟩

end Verif.Exp
