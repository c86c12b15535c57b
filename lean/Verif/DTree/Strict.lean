import Verif.DTree.Fit

/-!
# The decision tree plug-ins with checked accesses

`Verif/DTree/Master.lean`, `Heur.lean` and `Sub.lean` read a default value where Python would raise `IndexError`, `KeyError` or (method of
`None`) `AttributeError`. Here every operation called by `fit` first checks its accesses and raises at the first one that fails. An access that
Python may skip (because a loop ends early or a branch is not taken) is checked all the same, so a run without a failed check is a run
without an exception in Python. The state after a failed call is not modelled (it is the state before the failed step).
-/

namespace Verif.DTree

open MP

/-- The accesses of an operation in order: whether each succeeds, and the exception if it does not. -/
abbrev Reads := List (Bool × Err)

/-- The exception of the first access that fails. -/
def firstFault : Reads → Option Err
  | [] => none
  | (true, _) :: rs => firstFault rs
  | (false, e) :: _ => some e

/-- `l[i]` for a list of length `n`. -/
def atIndex (i n : ℕ) : Bool × Err := (decide (i < n), .indexError)

/-- `d[k]`, where `v` is what the dictionary has under `k`. -/
def atKey {α : Type} (v : Option α) : Bool × Err := (v.isSome, .keyError)

/-- A method of the entry `v` of a list that was filled with `None`. -/
def notNone {α : Type} (v : Option α) : Bool × Err := (v.isSome, .attributeError)

/-- An operation that is only performed if its accesses succeed. -/
def guarded {α σ : Type} (reads : Reads) (s : σ) (r : Except Err α × σ) : Except Err α × σ :=
  match firstFault reads with
  | some e => (.error e, s)
  | none => r

/-- The same for an operation without state. -/
def guardedE {α : Type} (reads : Reads) (r : Except Err α) : Except Err α :=
  match firstFault reads with
  | some e => .error e
  | none => r

/-! ## Accesses of the helper functions -/

/-- `leaves[path.leaf_id]`, and `split_ids[i]`, `splits[split_ids[i]]` for all positions `i` of `node_ids`: `get_satisfied_rows`,
`get_satisfied_cuts`, `row_satisfies_path`, `_dtree_classifier.py:365-452`, and the literals `577-589`, `908-916`. `n` is the length of the list
that the split ids index. -/
def pathReads (leaves : List Leaf) (n : ℕ) (p : Path) : Reads :=
  atIndex p.leafId leaves.length :: (decide (p.nodeIds.length ≤ p.splits.length), .indexError) :: p.pairs.map (fun q => atIndex q.2 n)

/-- `X_row[feature]` of `row_satisfies_path`, `_dtree_classifier.py:442-452`. -/
def featReads (splits : List Split) (row : List ℚ) (p : Path) : Reads := p.pairs.map (fun q => atIndex (splitAt splits q.2).feature row.length)

/-- `nodes[node_id]` for the nodes above the leaves. -/
def nodeReads (leaves : List Leaf) (nodes : List Node) : Reads :=
  leaves.flatMap (fun leaf => (leaf.leftNodes ++ leaf.rightNodes).map (fun n => atIndex n nodes.length))

/-- `d[leaf.id][node.id][split]` for the nodes above the leaves and their candidate splits. -/
def nsReads {α : Type} (leaves : List Leaf) (nodes : List Node) (ns : ℕ → ℕ → ℕ → Option α) : Reads :=
  leaves.flatMap (fun leaf => (leaf.leftNodes ++ leaf.rightNodes).flatMap (fun n =>
    (nodeAt nodes n).candidateSplits.map (fun s => atKey (ns leaf.id (nodeAt nodes n).id s))))

/-! ## The master problem -/

/-- Accesses of `preprocess_rows` (`_dtree_classifier.py:734-815`): `math.log2` of the number of leaves (`ValueError` for 0), the features of all
splits and of all paths, and the division by the number of rows; of `compute_satisfied_paths` (`727-732`): the row of `X` for every data row. -/
def dataReads (c : Conf) (s : MS) : Reads :=
  match s.dataRows with
  | none => (decide (c.leaves.length ≠ 0), .valueError) :: c.X.flatMap (fun row => s.splits.map (fun sp => atIndex sp.feature row.length)) ++
      [(decide (c.X.length ≠ 0), .zeroDivisionError)]
  | some rows => [(decide (rows.length ≤ c.X.length), .indexError)]

/-- `data_rows[r]` in the loop over the rows, `_dtree_classifier.py:657-673`. -/
def rowLoopReads (c : Conf) (s : MS) : Reads :=
  match s.dataRows with
  | none => []
  | some rows => if c.betaAsCuts then [] else [(decide (c.X.length ≤ rows.length), .indexError)]

/-- Accesses of `generate_mp`, `_dtree_classifier.py:620-717`, and `create_cut_gen_model`, `566-618`. -/
def generateReads (c : Conf) (s : MS) : Reads :=
  s.paths.flatMap (pathReads c.leaves s.splits.length) ++ c.leaves.map (fun leaf => atIndex leaf.id c.leaves.length) ++ dataReads c s ++
    c.X.flatMap (fun row => s.paths.flatMap (featReads s.splits row)) ++ rowLoopReads c s ++ nodeReads c.leaves c.nodes

/-- `generate_mp`. -/
def generateMpS (c : Conf) (s : MS) : Except Err Unit × MS :=
  if s.generated then (.ok (), s) else guarded (generateReads c s) s (generateMp c s)

/-- The accesses to a row `r` that is satisfied by a path, `_dtree_classifier.py:875-879`. -/
def colRowReads (s : MS) (r : ℕ) : Reads :=
  [atIndex r (s.dataRows.getD []).length, atIndex r s.addedRow.length] ++ (if s.addedRow.getD r false then [notNone (s.rowCons r)] else [])

/-- Accesses of `add_column`, `_dtree_classifier.py:852-925`. -/
def addColumnReads (c : Conf) (p : Path) (s : MS) : Reads :=
  (c.leaves.filter (fun leaf => p.leafId = leaf.id)).map (fun leaf => notNone (s.leafCons leaf.id)) ++
    pathReads c.leaves s.splits.length p ++
    (match getSatisfiedRows p (leafAt c.leaves p.leafId) s.splits with
      | .error _ => []
      | .ok rows => rows.flatMap (colRowReads s)) ++
    nodeReads c.leaves c.nodes ++ nsReads c.leaves c.nodes s.nsCons ++
    (match getSatisfiedCuts p (leafAt c.leaves p.leafId) s.splits with
      | .error _ => []
      | .ok cuts => cuts.map (fun k => atIndex k s.cutCons.length)) ++
    pathReads c.leaves s.cutSplitVars.length p

/-- `add_column`. -/
def addColumnS (c : Conf) (p : Path) (s : MS) : Except Err Bool × MS := guarded (addColumnReads c p s) s (addColumn c p s)

/-- `solver_.variable(xp_var_id)` in `store_lp_solution`, `_dtree_classifier.py:719-725`. -/
def storeReads (s : MS) : Reads := s.pathVars.map (fun v => atIndex v s.m.vars.length)

/-- The loop of `add_beta_cuts`, `_dtree_classifier.py:995-1013`, with the accesses to `data_rows`, `added_row` and `path_solution_values`,
which has the keys `keys`. -/
def betaLoopS (rows : List Row) (keys : List ℕ) (sol : ℕ → ℚ) : List ℕ → BS → Except Err BS
  | [], b => .ok b
  | r :: rest, b =>
    if r < rows.length then
      if (rowAt rows r).removedFromMaster then betaLoopS rows keys sol rest b
      else if b.num ≥ 10 then .ok b
      else if r < b.addedRow.length then
        if b.addedRow.getD r false then betaLoopS rows keys sol rest b
        else if (rowAt rows r).reachablePaths.all (· ∈ keys) then
          if violatedRow sol (rowAt rows r).reachablePaths then
            betaLoopS rows keys sol rest
              ⟨addRow b.m none (some 1) ((rowAt rows r).reachablePaths.map (fun i => (i, 1))), Function.update b.rowCons r (some b.m.cons.length),
                b.addedRow.set r true, b.num + 1⟩
          else betaLoopS rows keys sol rest b
        else .error .keyError
      else .error .indexError
    else .error .indexError

/-- `add_beta_cuts`, `_dtree_classifier.py:990-1013`; it is called after `store_lp_solution`, which stores a value for every path variable. -/
def addBetaCutsS (c : Conf) (s : MS) : Except Err (ℕ × MS) :=
  match betaLoopS (s.dataRows.getD []) s.pathVars s.pathSol (List.range c.X.length) ⟨s.m, s.rowCons, s.addedRow, 0⟩ with
  | .error e => .error e
  | .ok b => .ok (b.num, { s with
      m := b.m
      rowCons := b.rowCons
      addedRow := b.addedRow })

/-- Accesses of `add_cuts`, `_dtree_classifier.py:927-975`, and of the callback `510-526`: the value of every path, as many path variables
as paths, an entry of the cut row for every split. -/
def addCutsReads (s : MS) : Reads :=
  s.paths.map (fun p => (decide (p.id ∈ s.pathVars), .keyError)) ++
    [(decide (s.cutPathVars.length ≤ s.paths.length), .indexError), (decide (s.paths.length ≤ s.cutPathVars.length), .indexError)] ++
    s.splits.map (fun sp => atIndex sp.id s.cutSplitVars.length)

/-- `add_cuts`. -/
def addCutsS (o : Oracle) (s : MS) : Except Err (List (List Bool) × MS) := guardedE (addCutsReads s) (.ok (addCuts o s))

/-- The beta cuts of a cut round. -/
def betaS (c : Conf) (s : MS) : Except Err (ℕ × MS) := if c.betaAsCuts then addBetaCutsS c s else .ok (0, s)

/-- The cut round, `_dtree_classifier.py:1041-1072`. -/
def cutRoundS (c : Conf) (o : Oracle) (s : MS) : Except Err (ℕ × List (List Bool) × MS) :=
  guardedE (storeReads s) (match betaS c (storeLp s) with
    | .error e => .error e
    | .ok b =>
      match (if c.generateCuts && b.1 == 0 then addCutsS o b.2 else .ok ([], b.2)) with
      | .error e => .error e
      | .ok g => .ok (b.1, g.1, { g.2 with totalCuts := g.2.totalCuts + (g.1.length + b.1) }))

/-- The loop over the cut rounds. -/
def cutRoundsS (c : Conf) (o : Oracle) : ℕ → List (List Bool) → MS → Except Err (List (List Bool) × MS)
  | 0, acc, s => .ok (acc, s)
  | n + 1, acc, s =>
    if s.last.status = .optimal then
      match cutRoundS c o s with
      | .error e => .error e
      | .ok r => if r.2.1.length > 0 ∨ r.1 > 0 then cutRoundsS c o n (acc ++ r.2.1) (lpSolve o r.2.2) else .ok (acc, r.2.2)
    else .ok (acc, s)

/-- The accesses when the duals are read, `_dtree_classifier.py:1076-1107`. -/
def dualReads (c : Conf) (s : MS) : Reads :=
  storeReads s ++ (List.range c.leaves.length).map (fun l => notNone (s.leafCons l)) ++
    (List.range c.X.length).flatMap (fun r =>
      atIndex r s.addedRow.length :: (if s.addedRow.getD r false then [notNone (s.rowCons r)] else [])) ++
    nodeReads c.leaves c.nodes ++ nsReads c.leaves c.nodes s.nsCons

/-- `solve_rmp`, `_dtree_classifier.py:1024-1113`. -/
def solveRmpS (c : Conf) (o : Oracle) (s : MS) : Except Err Duals × MS :=
  if s.generated then
    let s1 := lpSolve o { s with
      prevRmpObj := s.rmpObj
      iter := s.iter + 1 }
    match (if s1.iter % 10 = 0 then cutRoundsS c o c.numCutsRound [] s1 else .ok ([], s1)) with
    | .error e => (.error e, s1)
    | .ok r =>
      if r.2.last.status = .optimal then guarded (dualReads c r.2) r.2 (.ok (readDuals c r.2 r.1), storeLp r.2)
      else (.ok ⟨[], [], fun _ _ _ => none, [], r.1⟩, r.2)
  else (.error .assertionError, s)

/-- `solver.variable(path.id)` in `solve_ip`, `_dtree_classifier.py:1159-1162`. -/
def solveIpS (o : Oracle) (s : MS) : Except Err Bool × MS :=
  guarded (if s.generated then s.paths.map (fun p => atIndex p.id s.m.vars.length) else []) s (solveIp o s)

/-! ## The heuristic -/

/-- Accesses of the heuristic's `generate_columns`, `_dtree_classifier.py:1937-2022`, that the model does not check itself: the nodes, the candidate
splits, and the rows recorded in these (all rows that a round may look at). -/
def heurReads (c : HConf) (splits : List Split) : Reads :=
  c.leaves.map (fun leaf => atIndex leaf.id c.leaves.length) ++ nodeReads c.leaves c.nodes ++
    c.leaves.flatMap (fun leaf => (leaf.leftNodes ++ leaf.rightNodes).flatMap (fun n => (nodeAt c.nodes n).candidateSplits.flatMap (fun s =>
      atIndex s splits.length :: ((splitAt splits s).leftRows ++ (splitAt splits s).rightRows).flatMap (fun r =>
        [atIndex r c.X.length, atIndex r c.y.length, atIndex r ((c.dataRows.map List.length).getD c.X.length)]))))

/-- `cut_row[split.id]` in `update_subproblem`, `_dtree_classifier.py:2024-2034`. -/
def heurUpdateReads (D : Duals) (splits : List Split) : Reads := D.newCuts.flatMap (fun row => splits.map (fun sp => atIndex sp.id row.length))

/-! ## The exact pricing problems -/

/-- Accesses to the arguments in `create_submip` and `update_objective`: rows, labels, row duals, nodes, candidate splits and their duals, features.
`_dtree_classifier.py:1615-1828`, `2091-2243`. -/
def SubConf.argReads (c : SubConf) (D : Duals) : Reads :=
  (List.range c.X.length).flatMap (fun i =>
    [atIndex i ((c.dataRows.map List.length).getD c.X.length), atIndex i D.row.length, atIndex i c.y.length,
      atIndex (c.y.getD i 0) c.targets.length]) ++
  c.leafNodes.map (fun n => atIndex n c.nodes.length) ++
  c.leafNodes.flatMap (fun n => (c.cands n).flatMap (fun s =>
    atKey (D.ns c.leaf.id n s) :: atIndex s c.splits.length ::
      c.X.map (fun row => atIndex (splitAt c.splits s).feature row.length)))

/-- The stored variables of the rows, the first `cuts` cuts and the splits: `z_vars_[i]` and `y_vars_[i]` (not `None`), `yc_vars_[k]`,
`u_vars_[n][s]`. -/
def SubConf.varReads (c : SubConf) (cuts : ℕ) (st : SubSt) : Reads :=
  c.kept.flatMap (fun i => if c.isOld then [notNone (st.var (.y i))] else [notNone (st.var (.z i)), notNone (st.var (.y i))]) ++
    (List.range cuts).map (fun k => ((st.var (.yc k)).isSome, .indexError)) ++
    c.leafNodes.flatMap (fun n => (c.cands n).map (fun s => atKey (st.var (.u n s))))

/-- `w_vars_[target]` for the targets. -/
def SubConf.targetReads (c : SubConf) (st : SubSt) : Reads :=
  if c.isOld then [] else c.targets.map (fun t => ((st.var (.w t)).isSome, .indexError))

/-- `update_objective` or `create_submip`. -/
def SubConf.refreshS (c : SubConf) (D : Duals) (st : SubSt) : Except Err SubSt :=
  guardedE (c.argReads D ++ (if st.generated then c.varReads st.cuts st else [])) (c.refresh D st)

/-- Accesses of `add_cut_rows`, `_dtree_classifier.py:1830-1856`, `2245-2278`: the variables of the cuts and splits, the entries of the cut rows. -/
def SubConf.cutReads (c : SubConf) (rows : List (List Bool)) (st : SubSt) : Reads :=
  (List.range rows.length).map (fun i => ((st.var (.yc (i + st.cutStart))).isSome, .indexError)) ++
    rows.flatMap (fun row => c.leafNodes.flatMap (fun n => (c.cands n).map (fun s => atIndex s row.length))) ++
    c.leafNodes.flatMap (fun n => (c.cands n).map (fun s => atKey (st.var (.u n s))))

/-- `update_subproblem`, `_dtree_classifier.py:1858-1875`, `2343-2358`. -/
def SubConf.updateS (c : SubConf) (D : Duals) (st : SubSt) : Except Err Unit × SubSt :=
  if c.kind = .sat ∧ D.newCuts.length = 0 then (.ok (), st)
  else
    match c.refreshS D st with
    | .error e => (.error e, st)
    | .ok st1 =>
      if D.newCuts.length > 0 then guarded (c.cutReads D.newCuts st1) st1 (.ok (), c.addCutRows D.newCuts st1) else (.ok (), st1)

/-- `DTreeSubProblemSat.generate_columns`, `_dtree_classifier.py:1886-1918`, with `PathGenerator` `1531-1587`. `orig_obj_coeffs` has an entry
for the variables of the rows, the splits and the cuts that have a dual (`1631-1684`, `1774-1826`). -/
def SubConf.generateSatS (c : SubConf) (D : Duals) (sols : Model → List (ℕ → ℚ)) (st : SubSt) : Except Err (List Path) × SubSt :=
  match c.refreshS D st with
  | .error e => (.error e, st)
  | .ok st1 =>
    guarded (c.varReads st1.cuts st1 ++ c.targetReads st1 ++ [(decide (st1.cuts ≤ D.cut.length), .keyError)]) st1
      (.ok ((sols st1.m).foldl (c.callback D st1) []), st1)

/-- `DTreeSubProblemOld.generate_columns`, `_dtree_classifier.py:2280-2341`. -/
def SubConf.generateMipReads (c : SubConf) (st : SubSt) : Reads :=
  c.varReads 0 st ++ (List.range c.X.length).flatMap (fun i =>
    [atIndex i ((c.dataRows.map List.length).getD c.X.length), atIndex i c.y.length]) ++ c.leafNodes.map (fun n => atIndex n c.nodes.length)

/-! ## The plug-ins -/

variable {Ω : Type}

/-- `subproblems[l][i].update_subproblem(X, y, duals)`. -/
def updateAtS (A : Args) (X : List (List ℚ)) (l i : ℕ) (D : Duals) (w : World Ω) : Except Err Unit × World Ω :=
  if l = 0 then guarded (heurUpdateReads D w.master.splits) w (.ok (), w.setHeur (HConf.update D w.heur))
  else
    match (A.subConfs X w.y)[i]? with
    | none => (.error .indexError, w)
    | some c => ((c.updateS D (w.subs i)).1, { w with subs := Function.update w.subs i (c.updateS D (w.subs i)).2 })

/-- `generate_columns` of one of the exact pricing problems. -/
def priceAtS (o : FitOracle Ω) (c : SubConf) (i : ℕ) (D : Duals) (w : World Ω) : Except Err (List Path) × World Ω :=
  if c.isOld then
    guarded (c.generateMipReads (w.subs i)) w
      (.ok (c.generateMip (w.subs i) (o.mip (w.subs i).m w.ω).1), { w with ω := (o.mip (w.subs i).m w.ω).2 })
  else
    let r := c.generateSatS D (fun m => (o.sols m w.ω).1) (w.subs i)
    (r.1, { w with
      subs := Function.update w.subs i r.2
      ω := (o.sols r.2.m w.ω).2 })

/-- `subproblems[l][i].generate_columns(X, y, duals)`. -/
def generateAtS (o : FitOracle Ω) (A : Args) (X : List (List ℚ)) (l i : ℕ) (D : Duals) (w : World Ω) : Except Err (List Path) × World Ω :=
  if l = 0 then
    let r := (A.heurConf X w.y).generate D (o.draws w.ω).1 w.heur
    guarded (heurReads (A.heurConf X w.y) w.master.splits) w (r.1, { w.setHeur r.2 with ω := (o.draws w.ω).2 })
  else
    match (A.subConfs X w.y)[i]? with
    | none => (.error .indexError, w)
    | some c => priceAtS o c i D w

/-- The plug-ins with checked accesses. -/
def envS (o : FitOracle Ω) (A : Args) (X : List (List ℚ)) : Fit.Env (World Ω) Duals Path where
  clock w := ((o.clock w.ω).1, { w with ω := (o.clock w.ω).2 })
  generateMp y w := ((generateMpS (A.masterConf X) w.master).1, { w with
    master := (generateMpS (A.masterConf X) w.master).2
    y := y })
  solveRmp w := ((solveRmpS (A.masterConf X) o.master w.master).1, { w with master := (solveRmpS (A.masterConf X) o.master w.master).2 })
  improved w := (.ok (rmpObjectiveImproved w.master), w)
  resetFlag _ := some false
  clearReset w := w
  update l i D w := updateAtS A X l i D w
  generate l i D w := generateAtS o A X l i D w
  addColumn p w := ((addColumnS (A.masterConf X) p w.master).1, { w with master := (addColumnS (A.masterConf X) p w.master).2 })
  solveIp w := ((solveIpS o.master w.master).1, { w with master := (solveIpS o.master w.master).2 })

/-- `fit` of a newly constructed classifier with checked accesses. -/
def fitNewS (o : FitOracle Ω) (A : Args) (maxIterations : ℤ) (timeLimit : ℚ) (X : List (List ℚ)) (fuel : ℕ) (y : List ℤ) (e0 : Fit.Est)
    (ω : Ω) : Option (Except Err Unit × Fit.St (World Ω) Duals Path) :=
  Fit.fit (envS o A X) (config A maxIterations timeLimit) fuel y e0 (World.init A ω)

/-- Accesses of `predict`, `_dtree_classifier.py:2531-2545`: every selected path may be tried on every row. -/
def predictReads (leaves : List Leaf) (splits : List Split) (selected : List Path) (X : List (List ℚ)) : Reads :=
  selected.flatMap (pathReads leaves splits.length) ++ X.flatMap (fun row => selected.flatMap (featReads splits row))

/-- `predict` of a fitted classifier with checked accesses. -/
def predictFittedS (A : Args) (s : Fit.St (World Ω) Duals Path) (X : List (List ℚ)) : Except Err (List ℤ) :=
  guardedE (predictReads A.leaves s.world.master.splits s.world.master.selected X) (predictFitted A s X)

end Verif.DTree
