import Verif.DTree.Master

/-!
# Model of the integer pricing problems of `col_gen_estimator/_dtree_classifier.py`

`DTreeSubProblem` (lines 1166-1499), `DTreeSubProblemSat` with `PathGenerator` (1502-1918) and `DTreeSubProblemOld` (2071-2367). The three
classes build the same program up to the differences in `Kind`; each definition cites the lines of all classes it stands for. The `pywraplp`
solvers and the `CpModel` are both represented by `MP.Model` (all variables Boolean, linear constraints). `CpModel` adds up repeated terms
of a linear expression where `SetCoefficient` overwrites; the terms are distinct when the candidate splits of a node are. The attributes
`z_vars_`, `y_vars_`, `yc_vars_`, `u_vars_`, `w_vars_` are one dictionary from the variable's description to its index. `X_`, `y_` are the
same in every call (`fit` passes the same data). Node ids are list positions (`DTreeClassifier.__init__` asserts it). Time limits, threads
and `print` are dropped.
-/

namespace Verif.DTree

open MP

/-- The class: `DTreeSubProblem`, `DTreeSubProblemSat`, `DTreeSubProblemOld` (with its `target_`). -/
inductive Kind where
  | mip | sat | old (target : ℕ)
  deriving DecidableEq

/-- Constructor arguments (`_dtree_classifier.py:1169-1185`, `1594-1610`, `2074-2089`) and the data. -/
structure SubConf where
  kind : Kind
  leaf : Leaf
  nodes : List Node
  splits : List Split
  targets : List ℕ
  depth : ℕ
  X : List (List ℚ)
  y : List ℕ
  dataRows : Option (List Row)

/-- Descriptions of the variables: `z_vars_[i]`, `y_vars_[i]`, `yc_vars_[k]`, `u_vars_[n][s]`, `w_vars_[t]`. -/
inductive SV where
  | z (i : ℕ) | y (i : ℕ) | yc (k : ℕ) | u (n s : ℕ) | w (t : ℕ)
  deriving DecidableEq

/-- Attributes. `cuts` is `len(self.yc_vars_)`, `orig` is `orig_obj_coeffs` (only used by `DTreeSubProblemSat`). -/
structure SubSt where
  generated : Bool
  m : Model
  var : SV → Option ℕ
  cuts : ℕ
  cutStart : ℕ
  orig : ℕ → ℚ

/-- State after the constructor. -/
def SubSt.new : SubSt := ⟨false, Model.empty, fun _ => none, 0, 0, fun _ => 0⟩

/-- The index of a variable. -/
def SubSt.idx (st : SubSt) (o : SV) : ℕ := (st.var o).getD 0

/-- `BoolVar` / `NewBoolVar`, stored under its description. -/
def SubSt.newVar (st : SubSt) (o : SV) : SubSt :=
  { st with
    m := st.m.addVar boolVar
    var := Function.update st.var o (some st.m.vars.length) }

def SubSt.newVars (st : SubSt) (l : List SV) : SubSt := l.foldl SubSt.newVar st

/-- A linear constraint to add. -/
structure Lin where
  lb : Option ℚ
  ub : Option ℚ
  terms : List (SV × ℚ)

def SubSt.addLin (st : SubSt) (k : Lin) : SubSt :=
  { st with m := addRow st.m k.lb k.ub (k.terms.map (fun t => (st.idx t.1, t.2))) }

def SubSt.addLins (st : SubSt) (l : List Lin) : SubSt := l.foldl SubSt.addLin st

/-- `self.data_rows[i].removed_from_sp`. -/
def SubConf.removed (c : SubConf) (i : ℕ) : Bool :=
  match c.dataRows with
  | none => false
  | some rows => (rowAt rows i).removedFromSp

/-- `obj_coeff`: 1 or `self.data_rows[i].weight`. -/
def SubConf.weight (c : SubConf) (i : ℕ) : ℚ :=
  match c.dataRows with
  | none => 1
  | some rows => ((rowAt rows i).weight : ℚ)

/-- Indices of the rows that are not skipped. -/
def SubConf.kept (c : SubConf) : List ℕ := (List.range c.X.length).filter (fun i => !c.removed i)

/-- `self.leaf_.left_nodes + self.leaf_.right_nodes`. -/
def SubConf.leafNodes (c : SubConf) : List ℕ := c.leaf.leftNodes ++ c.leaf.rightNodes

def SubConf.cands (c : SubConf) (n : ℕ) : List ℕ := (nodeAt c.nodes n).candidateSplits

/-- `row_satisfies_split`, `_dtree_classifier.py:1492-1499`, `1877-1884`, `2360-2367`. -/
def SubConf.rowSatisfiesSplit (c : SubConf) (i s : ℕ) : Bool :=
  decide (feat (c.X.getD i []) (splitAt c.splits s).feature ≤ (splitAt c.splits s).threshold)

def SubConf.isOld (c : SubConf) : Bool :=
  match c.kind with
  | .old _ => true
  | _ => false

/-- Variables of the rows, `_dtree_classifier.py:1201-1214`, `1631-1651`, `2102-2115` (`DTreeSubProblemOld` has no `z`). -/
def SubConf.rowVars (c : SubConf) : List SV := c.kept.flatMap (fun i => if c.isOld then [.y i] else [.z i, .y i])

/-- Variables of the splits, `_dtree_classifier.py:1227-1240`, `1667-1684`, `2128-2141`. -/
def SubConf.splitVars (c : SubConf) : List SV := c.leafNodes.flatMap (fun n => (c.cands n).map (fun s => SV.u n s))

/-- Exactly one split per node, `_dtree_classifier.py:1247-1253`, `1692-1698`, `2148-2154`. -/
def SubConf.oneSplit (c : SubConf) : List Lin := c.leafNodes.map (fun n => ⟨some 1, some 1, (c.cands n).map (fun s => (SV.u n s, 1))⟩)

/-- The splits of node `n` that send the pattern `left` towards the leaf. -/
def SubConf.towards (c : SubConf) (left : ℕ → Bool) (n : ℕ) : List ℕ :=
  if n ∈ c.leaf.leftNodes then (c.cands n).filter left else (c.cands n).filter (fun s => !left s)

/-- "Row follows correct path" for a row or a cut row with variable `o`, `_dtree_classifier.py:1268-1296`, `1713-1736`, `2169-2197` and
`1377-1403`, `1835-1855`, `2251-2277`. `DTreeSubProblemSat` adds the `y_lb` constraint after the others. -/
def SubConf.follow (c : SubConf) (left : ℕ → Bool) (o : SV) : List Lin :=
  ⟨none, some ((c.depth : ℚ) - 1), (o, -1) :: c.leafNodes.flatMap (fun n => (c.towards left n).map (fun s => (SV.u n s, (1 : ℚ))))⟩ ::
    c.leafNodes.map (fun n => ⟨none, some 0, (o, 1) :: (c.towards left n).map (fun s => (SV.u n s, (-1 : ℚ)))⟩)

/-- One class selected, `_dtree_classifier.py:1300-1306` (`0 <= sum <= 1`), `1740-1746` (`sum == 1`). The `pywraplp` class creates the
constraint before the variables. -/
def SubConf.single (c : SubConf) : Lin :=
  ⟨if c.kind = .sat then some 1 else some 0, some 1, (List.range c.targets.length).map (fun t => (SV.w t, 1))⟩

/-- `z <= y` and `z <= w`, `_dtree_classifier.py:1308-1324`, `1749-1758`. -/
def SubConf.zCons (c : SubConf) : List Lin :=
  c.kept.flatMap (fun i => [⟨none, some 0, [(.z i, 1), (.y i, -1)]⟩, ⟨none, some 0, [(.z i, 1), (.w (c.y.getD i 0), -1)]⟩])

/-- Python's `round`: to the nearest integer, halves to the even neighbour. -/
def pyRound (x : ℚ) : ℤ :=
  if x - ⌊x⌋ < 1 / 2 then ⌊x⌋ else if x - ⌊x⌋ > 1 / 2 then ⌊x⌋ + 1 else if ⌊x⌋ % 2 = 0 then ⌊x⌋ else ⌊x⌋ + 1

/-- `scale_obj_coeff`, `_dtree_classifier.py:1612-1613`. -/
def scaleObj (x : ℚ) : ℚ := pyRound (x * 100000)

/-- Objective coefficients: rows `_dtree_classifier.py:1201-1214`, `1631-1651`, `2102-2115` (the old class ignores the weight), cuts
`1216-1223`, `1653-1663`, `2117-2124`, splits `1238-1239`, `1677-1684`, `2139-2140`. -/
def SubConf.objTerms (c : SubConf) (D : Duals) (cuts : ℕ) : List (SV × ℚ) :=
  c.kept.flatMap (fun i =>
    match c.kind with
    | .old t => [(SV.y i, if c.y.getD i 0 = t then 1 - D.row.getD i 0 else -D.row.getD i 0)]
    | _ => [(SV.z i, c.weight i), (SV.y i, -D.row.getD i 0)]) ++
  (List.range cuts).map (fun k => (SV.yc k, -D.cut.getD k 0)) ++
  c.leafNodes.flatMap (fun n => (c.cands n).map (fun s => (SV.u n s, -(D.ns c.leaf.id n s).getD 0)))

/-- Setting the objective. `Maximize` of the `CpModel` replaces the old objective; `DTreeSubProblemSat` scales the coefficients, but not the
offset `leaf_dual` (`_dtree_classifier.py:1686-1688`). -/
def SubConf.setObjective (c : SubConf) (D : Duals) (st : SubSt) : SubSt :=
  let terms := (c.objTerms D D.cut.length).map (fun t => (st.idx t.1, t.2))
  { st with
    m := { st.m with
      obj := if c.kind = .sat then terms.foldl (fun f t => Function.update f t.1 (scaleObj t.2)) (fun _ => 0)
        else terms.foldl (fun f t => Function.update f t.1 t.2) st.m.obj
      offset := -D.leaf.getD c.leaf.id 0
      maximize := true }
    orig := terms.foldl (fun f t => Function.update f t.1 t.2) st.orig }

/-- `create_submip`, `_dtree_classifier.py:1187-1326`, `1615-1760`, `2091-2199`. -/
def SubConf.create (c : SubConf) (D : Duals) (st : SubSt) : SubSt :=
  let s1 := ((st.newVars c.rowVars).newVars ((List.range D.cut.length).map .yc)).newVars c.splitVars
  let s2 := (s1.addLins c.oneSplit).addLins (c.kept.flatMap (fun i => c.follow (c.rowSatisfiesSplit i) (.y i)))
  let s3 := if c.isOld then s2 else ((s2.newVars ((List.range c.targets.length).map .w)).addLin c.single).addLins c.zCons
  { c.setObjective D s3 with
    generated := true
    cuts := D.cut.length }

/-- `update_objective`, `_dtree_classifier.py:1328-1369`, `1762-1828`, `2201-2243`. -/
def SubConf.updateObjective (c : SubConf) (D : Duals) (st : SubSt) : SubSt :=
  c.setObjective D { st.newVars ((List.range' st.cuts (D.cut.length - st.cuts)).map .yc) with cuts := max st.cuts D.cut.length }

/-- `add_cut_rows`, `_dtree_classifier.py:1371-1404`, `1830-1856`, `2245-2278`. -/
def SubConf.addCutRows (c : SubConf) (rows : List (List Bool)) (st : SubSt) : SubSt :=
  let st1 := st.addLins ((rows.zipIdx st.cutStart).flatMap (fun r => c.follow (fun s => r.1.getD s false) (.yc r.2)))
  { st1 with cutStart := st.cutStart + rows.length }

/-- `dual_costs[0][self.leaf_id_]` followed by `update_objective` or `create_submip`. -/
def SubConf.refresh (c : SubConf) (D : Duals) (st : SubSt) : Except Err SubSt :=
  if c.leaf.id < D.leaf.length then .ok (if st.generated then c.updateObjective D st else c.create D st) else .error .indexError

/-- `update_subproblem`, `_dtree_classifier.py:1475-1490`, `1858-1875`, `2343-2358`. `DTreeSubProblemSat` returns at once without new cut
rows. -/
def SubConf.update (c : SubConf) (D : Duals) (st : SubSt) : Except Err Unit × SubSt :=
  if c.kind = .sat ∧ D.newCuts.length = 0 then (.ok (), st)
  else
    match c.refresh D st with
    | .error e => (.error e, st)
    | .ok st1 => (.ok (), if D.newCuts.length > 0 then c.addCutRows D.newCuts st1 else st1)

/-- `1e-6`. -/
def tol : ℚ := 1 / 1000000

/-- The path described by a solution, `_dtree_classifier.py:1440-1460`, `1567-1587`, `2314-2330`: `order` is the order in which the nodes
are listed. -/
def SubConf.pathOf (c : SubConf) (st : SubSt) (val : ℕ → ℚ) (order : List ℕ) (cost : ℚ) : Path where
  leafId := c.leaf.id
  nodeIds := order
  splits := order.filterMap (fun n => (c.cands n).find? (fun s => decide (val (st.idx (.u n s)) > 1 / 2)))
  cost := cost
  id := 0
  target := match c.kind with
    | .old t => t
    | _ => match c.targets.find? (fun t => decide (val (st.idx (.w t)) > 1 / 2)) with
      | some t => t
      | none => -1
  initial := false

/-- The cost of the path, `_dtree_classifier.py:1461-1470` and `1534-1539` (weighted sum of `z`), `2331-2340` (number of rows of the target
with `y = 1`). -/
def SubConf.costOf (c : SubConf) (st : SubSt) (val : ℕ → ℚ) : ℚ :=
  match c.kind with
  | .old t => ((c.kept.filter (fun i => c.y.getD i 0 = t)).map (fun i => val (st.idx (.y i)))).sum
  | _ => (c.kept.map (fun i => c.weight i * val (st.idx (.z i)))).sum

/-- `generate_columns` of the two `pywraplp` classes, `_dtree_classifier.py:1406-1473`, `2280-2341`, with the answer of the solver. The nodes
are listed in the order of `self.nodes_`. -/
def SubConf.generateMip (c : SubConf) (st : SubSt) (ans : Answer) : List Path :=
  if ans.status = .optimal ∨ ans.status = .feasible then
    if ans.objective ≤ tol then []
    else [c.pathOf st ans.values ((List.range c.nodes.length).filter (fun n => n ∈ c.leafNodes)) (c.costOf st ans.values)]
  else []

/-- `original_objective` of `PathGenerator`, `_dtree_classifier.py:1533-1563`. -/
def SubConf.origObjective (c : SubConf) (D : Duals) (st : SubSt) (val : ℕ → ℚ) : ℚ :=
  c.costOf st val + (c.kept.map (fun i => st.orig (st.idx (.y i)) * val (st.idx (.y i)))).sum +
    ((List.range st.cuts).map (fun k => st.orig (st.idx (.yc k)) * val (st.idx (.yc k)))).sum +
    (c.leafNodes.map (fun n => ((c.cands n).map (fun s => st.orig (st.idx (.u n s)) * val (st.idx (.u n s)))).sum)).sum -
    D.leaf.getD c.leaf.id 0

/-- `PathGenerator.on_solution_callback`, `_dtree_classifier.py:1531-1587`. -/
def SubConf.callback (c : SubConf) (D : Duals) (st : SubSt) (acc : List Path) (val : ℕ → ℚ) : List Path :=
  if c.origObjective D st val ≤ tol then acc else acc ++ [c.pathOf st val c.leafNodes (c.costOf st val)]

/-- `DTreeSubProblemSat.generate_columns`, `_dtree_classifier.py:1886-1918`: `sols` are the solutions that the solver passes to the callback
for a model. -/
def SubConf.generateSat (c : SubConf) (D : Duals) (sols : Model → List (ℕ → ℚ)) (st : SubSt) : Except Err (List Path) × SubSt :=
  match c.refresh D st with
  | .error e => (.error e, st)
  | .ok st1 => (.ok ((sols st1.m).foldl (c.callback D st1) []), st1)

end Verif.DTree
