import Verif.DTree.Fit

/-!
# The tree classifier with object identity

In the other files paths, splits, nodes and data rows are values inside the state. In Python they are objects: `DTreeClassifier` and the objects that it
creates keep references to the objects of the caller and write their attributes. Here the objects live on a heap under addresses, the state holds
addresses, and every write of `fit` is a write to the heap, in the loop order of the code. Nothing excludes that the caller passes the same object
twice. `Verif/DTree/HeapProps.lean` proves when the models agree.

Leaves are never written and stay values. The attribute sets `left_cuts`, `reachable_paths`, ... are created by the constructors of the objects
(`_dtree_classifier.py:133-171`, `332-362`) and belong to one object each. `nodeIds` and `splits` of a path are only read after the construction. As in
`Verif/DTree/Fit.lean` a list index out of range reads a default value.
-/

namespace Verif.DTree

open MP

/-- The objects, and the first addresses that no path and no row was created at. -/
structure Heap where
  path : ℕ → Path
  split : ℕ → Split
  node : ℕ → Node
  row : ℕ → Row
  nextPath : ℕ
  nextRow : ℕ

/-- Writing an object. -/
def Heap.setPath (h : Heap) (a : ℕ) (p : Path) : Heap := { h with path := Function.update h.path a p }

def Heap.setSplit (h : Heap) (a : ℕ) (p : Split) : Heap := { h with split := Function.update h.split a p }

def Heap.setNode (h : Heap) (a : ℕ) (p : Node) : Heap := { h with node := Function.update h.node a p }

def Heap.setRow (h : Heap) (a : ℕ) (p : Row) : Heap := { h with row := Function.update h.row a p }

/-- Constructor arguments of `DTreeClassifier`, `_dtree_classifier.py:2417-2428`: lists of references, and the values of `Args`. -/
structure HArgs where
  paths : List ℕ
  leaves : List Leaf
  nodes : List ℕ
  splits : List ℕ
  depth : ℕ
  targets : List ℕ
  cutsRound : ℕ
  betaAsCuts : Bool
  generateCuts : Bool
  dataRows : Option (List ℕ)
  useOld : Bool

/-- The arguments as they can be read at a time. -/
def HArgs.read (H : HArgs) (h : Heap) : Args where
  paths := H.paths.map h.path
  leaves := H.leaves
  nodes := H.nodes.map h.node
  splits := H.splits.map h.split
  depth := H.depth
  targets := H.targets
  cutsRound := H.cutsRound
  betaAsCuts := H.betaAsCuts
  generateCuts := H.generateCuts
  dataRows := H.dataRows.map (List.map h.row)
  useOld := H.useOld

/-- `DTreeMasterProblem`: `paths_`, `selected_paths` and `data_rows` are lists of references, `rest` holds the other attributes (its fields `paths`,
`splits`, `dataRows`, `selected` are not used). -/
structure HM where
  heap : Heap
  paths : List ℕ
  selected : List ℕ
  rows : Option (List ℕ)
  rest : MS

/-- The attributes with the objects as they are now. -/
def HM.view (H : HArgs) (s : HM) : MS :=
  { s.rest with
    paths := s.paths.map s.heap.path
    splits := H.splits.map s.heap.split
    dataRows := s.rows.map (List.map s.heap.row)
    selected := s.selected.map s.heap.path }

/-- Writing attributes that are not objects. -/
def HM.put (s : HM) (m : MS) : HM := { s with rest := m }

/-! ## `generate_mp` -/

/-- One path variable, `_dtree_classifier.py:635-639`: `self.paths_[i].id` is written in the object. State: solver, heap, `path_vars_`. -/
def addPathVarH (st : Model × Heap × List ℕ) (a : ℕ) : Model × Heap × List ℕ :=
  let v := st.1.vars.length
  let h := st.2.1.setPath a { st.2.1.path a with id := v }
  ((st.1.addVar nonnegInt).setObj v (h.path a).cost, h, st.2.2 ++ [v])

/-- `compute_satisfied_paths`, `_dtree_classifier.py:727-732`. -/
def computeSatisfiedPathsH (H : HArgs) (X : List (List ℚ)) (paths : List ℕ) (rows : List ℕ) (h : Heap) : Heap :=
  rows.zipIdx.foldl (fun h t => (paths.map h.path).foldl (fun h p =>
    if rowSatisfiesPath (X.getD t.2 []) (leafAt H.leaves p.leafId) (H.splits.map h.split) p then
      h.setRow t.1 { h.row t.1 with reachablePaths := setAdd (h.row t.1).reachablePaths p.id }
    else h) h) h

/-- One node of the first loop of `preprocess_rows`, `_dtree_classifier.py:740-750`, with its assignments in order. -/
def preprocessNodeH (depth : ℕ) (h : Heap) (a : ℕ) : Heap :=
  let h1 := if (h.node a).id = 0 then h.setNode a { h.node a with parent := -1 }
    else h.setNode a { h.node a with parent := ((((h.node a).id - 1) / 2 : ℕ) : ℤ) }
  let h2 := h1.setNode a { h1.node a with leftChild := 2 * (h1.node a).id + 1 }
  let h3 := h2.setNode a { h2.node a with rightChild := 2 * (h2.node a).id + 2 }
  if (h3.node a).leftChild ≥ 2 ^ depth - 1 then
    let h4 := h3.setNode a { h3.node a with leftChild := (h3.node a).leftChild - (2 ^ depth - 1) }
    let h5 := h4.setNode a { h4.node a with rightChild := (h4.node a).rightChild - (2 ^ depth - 1) }
    h5.setNode a { h5.node a with childrenAreLeaves := true }
  else h3

/-- One row of the second loop of `preprocess_rows`, `_dtree_classifier.py:762-810`: a new `Row` object. State: heap, the list `data_rows`. -/
def newRowH (H : HArgs) (paths : List ℕ) (st : Heap × List ℕ) (x : List ℚ) : Heap × List ℕ :=
  let h := st.1
  let row := makeRow H.leaves (H.nodes.map h.node) (H.splits.map h.split) (paths.map h.path) x
  ({ h.setRow h.nextRow row with nextRow := h.nextRow + 1 }, st.2 ++ [h.nextRow])

/-- `preprocess_rows` with `aggressive=False`, `_dtree_classifier.py:734-850`. -/
def preprocessRowsH (H : HArgs) (X : List (List ℚ)) (paths : List ℕ) (h : Heap) : Heap × List ℕ :=
  X.foldl (newRowH H paths) (H.nodes.foldl (preprocessNodeH (Nat.log 2 H.leaves.length)) h, [])

/-- The data rows, `_dtree_classifier.py:652-655`: new objects, or the objects of the caller. -/
def dataRowsH (H : HArgs) (X : List (List ℚ)) (paths : List ℕ) (rows : Option (List ℕ)) (h : Heap) : Heap × List ℕ :=
  match rows with
  | none => preprocessRowsH H X paths h
  | some rows => (computeSatisfiedPathsH H X paths rows h, rows)

/-- The configuration of the value model, with the nodes as they are now. -/
def HArgs.conf (H : HArgs) (X : List (List ℚ)) (h : Heap) : Conf := (H.read h).masterConf X

/-- `generate_mp`, `_dtree_classifier.py:620-717`. -/
def generateMpH (H : HArgs) (X : List (List ℚ)) (s : HM) : Except Err Unit × HM :=
  if s.rest.generated then (.ok (), s)
  else
    match createCutModel H.leaves (H.splits.map s.heap.split) (s.paths.map s.heap.path) with
    | .error e => (.error e, s)
    | .ok (cp, sv, pv) =>
      let pathSt := s.paths.foldl addPathVarH (s.rest.m, s.heap, [])
      let h1 := pathSt.2.1
      let leafSt := H.leaves.foldl (addLeafCons (s.paths.map h1.path)) (pathSt.1.setMax true, s.rest.leafCons)
      let rows := dataRowsH H X s.paths s.rows h1
      let h2 := rows.1
      let paths := s.paths.map h2.path
      let rowSt := if H.betaAsCuts then (leafSt.1, s.rest.rowCons, List.replicate X.length false)
        else (List.range X.length).foldl (addRowCons (H.conf X h2) (H.splits.map h2.split) paths (rows.2.map h2.row))
          (leafSt.1, s.rest.rowCons, List.replicate X.length false)
      let ns := H.leaves.foldl (addNsLeaf (H.nodes.map h2.node) paths) ⟨rowSt.1, fun _ _ => none, fun _ _ _ => none⟩
      (.ok (), { s with
        heap := h2
        rows := some rows.2
        rest := { s.rest with
          generated := true
          m := ns.m
          pathVars := pathSt.2.2
          leafCons := leafSt.2
          rowCons := rowSt.2.1
          addedRow := rowSt.2.2
          cutCons := []
          nsVars := ns.vars
          nsCons := ns.cons
          cp := cp
          cutSplitVars := sv
          cutPathVars := pv } })

/-! ## `add_column` -/

/-- `self.data_rows[r].reachable_paths.add(path.id)` for a row of the list, `_dtree_classifier.py:875-876`. -/
def reachH (rows : List ℕ) (v : ℕ) (h : Heap) (r : ℕ) : Heap :=
  match rows[r]? with
  | none => h
  | some a => h.setRow a { h.row a with reachablePaths := setAdd (h.row a).reachablePaths v }

/-- The loop over the satisfied rows (`data_rows` is a list once `generate_mp` ran). -/
def recordH (rows : Option (List ℕ)) (v : ℕ) (satisfied : List ℕ) (h : Heap) : Heap :=
  match rows with
  | none => h
  | some rs => satisfied.foldl (reachH rs v) h

/-- `add_column`, `_dtree_classifier.py:852-925`. The pricing problems return new `Path` objects (`:1440`, `:1567`, `:1946`, `:2314`); here the new object
gets its address when it is appended to `paths_`. -/
def addColumnH (H : HArgs) (X : List (List ℚ)) (p : Path) (s : HM) : Except Err Bool × HM :=
  let v := s.rest.m.vars.length
  let a := s.heap.nextPath
  let h1 := { s.heap.setPath a { p with id := v } with nextPath := a + 1 }
  let p' := h1.path a
  let leaf := leafAt H.leaves p'.leafId
  let m1 := setOnes ((s.rest.m.addVar nonnegInt).setObj v p'.cost) v (colLeaf H.leaves s.rest p')
  let s1 : HM := ⟨h1, s.paths ++ [a], s.selected, s.rows, { s.rest with
    m := m1
    pathVars := s.rest.pathVars ++ [v] }⟩
  match getSatisfiedRows p' leaf (H.splits.map h1.split) with
  | .error e => (.error e, s1)
  | .ok rows =>
    let m2 := setOnes m1 v (colRows s.rest rows)
    let m3 := setOnes m2 v (colNs H.leaves (H.nodes.map h1.node) s.rest p')
    let h2 := recordH s.rows v rows h1
    match getSatisfiedCuts p' leaf (H.splits.map h2.split) with
    | .error e => (.error e, { s1 with
        heap := h2
        rest := { s1.rest with m := m3 } })
    | .ok cuts =>
      let m4 := setOnes m3 v (cuts.filterMap (fun k => s.rest.cutCons[k]?))
      let cp := addCutPath H.leaves s.rest.cutSplitVars (s.rest.cp, s.rest.cutPathVars) (h2.path a)
      (.ok true, { s1 with
        heap := h2
        rest := { s1.rest with
          m := m4
          cp := cp.1
          cutPathVars := cp.2 } })

/-! ## Cuts -/

/-- `cut_row[split.id]` and `split.left_cuts.add` or `split.right_cuts.add`, `_dtree_classifier.py:959-962` and `2030-2033`. -/
def enterCut (c : List Bool × ℕ) (sp : Split) : Split :=
  if c.1.getD sp.id false then { sp with leftCuts := setAdd sp.leftCuts c.2 } else { sp with rightCuts := setAdd sp.rightCuts c.2 }

/-- The loops `_dtree_classifier.py:956-962` of `add_cuts` and `2027-2033` of `update_subproblem`: the loop over the cuts outside. -/
def enterCutsH (splits : List ℕ) (first : ℕ) (rows : List (List Bool)) (h : Heap) : Heap :=
  (rows.zipIdx first).foldl (fun h c => splits.foldl (fun h a => h.setSplit a (enterCut c (h.split a))) h) h

/-- `add_cuts`, `_dtree_classifier.py:927-975`. -/
def addCutsH (H : HArgs) (o : Oracle) (s : HM) : List (List Bool) × HM :=
  let paths := s.paths.map s.heap.path
  let cp : Cp := ⟨s.rest.cp.nvars, s.rest.cp.cons, s.rest.cutPathVars.zip (paths.map (fun p => ⌊s.rest.pathSol p.id * 1000000⌋))⟩
  let sols := o.cut cp s.rest.cutCalls
  let found := sols.foldl (cutCallback s.rest.cutPathVars s.rest.cutSplitVars (paths.map (fun p => s.rest.pathSol p.id))) []
  let s1 := s.put { s.rest with
    cp := cp
    cutCalls := s.rest.cutCalls + 1 }
  if found.length = 0 then ([], s1)
  else
    let h := enterCutsH H.splits s.rest.cutCons.length (found.map (·.2)) s.heap
    let st := (found.map (·.1)).foldl (addCutCons (s.paths.map h.path)) (s.rest.m, s.rest.cutCons)
    (found.map (·.2), { s1 with
      heap := h
      rest := { s1.rest with
        m := st.1
        cutCons := st.2
        addedRow := s.rest.addedRow ++ List.replicate found.length true } })

/-- The cut round, `_dtree_classifier.py:1041-1072`. `store_lp_solution` and `add_beta_cuts` write no object. -/
def cutRoundH (H : HArgs) (X : List (List ℚ)) (o : Oracle) (s : HM) : ℕ × List (List Bool) × HM :=
  let s := s.put (storeLp s.rest)
  let b := if H.betaAsCuts then ((addBetaCuts (H.conf X s.heap) (s.view H)).1, s.put (addBetaCuts (H.conf X s.heap) (s.view H)).2) else (0, s)
  let g := if H.generateCuts && b.1 == 0 then addCutsH H o b.2 else ([], b.2)
  (b.1, g.1, g.2.put { g.2.rest with totalCuts := g.2.rest.totalCuts + (g.1.length + b.1) })

/-- The loop over the cut rounds. -/
def cutRoundsH (H : HArgs) (X : List (List ℚ)) (o : Oracle) : ℕ → List (List Bool) → HM → List (List Bool) × HM
  | 0, acc, s => (acc, s)
  | n + 1, acc, s =>
    if s.rest.last.status = .optimal then
      let r := cutRoundH H X o s
      if r.2.1.length > 0 ∨ r.1 > 0 then cutRoundsH H X o n (acc ++ r.2.1) (r.2.2.put (lpSolve o r.2.2.rest))
      else (acc, r.2.2)
    else (acc, s)

/-- `solve_rmp`, `_dtree_classifier.py:1024-1113`. -/
def solveRmpH (H : HArgs) (X : List (List ℚ)) (o : Oracle) (s : HM) : Except Err Duals × HM :=
  if s.rest.generated then
    let s1 := s.put (lpSolve o { s.rest with
      prevRmpObj := s.rest.rmpObj
      iter := s.rest.iter + 1 })
    let r := if s1.rest.iter % 10 = 0 then cutRoundsH H X o H.cutsRound [] s1 else ([], s1)
    if r.2.rest.last.status = .optimal then (.ok (readDuals (H.conf X r.2.heap) r.2.rest r.1), r.2.put (storeLp r.2.rest))
    else (.ok ⟨[], [], fun _ _ _ => none, [], r.1⟩, r.2)
  else (.error .assertionError, s)

/-- `solve_ip`, `_dtree_classifier.py:1121-1163`: references to the paths with a positive value are stored. -/
def solveIpH (o : Oracle) (s : HM) : Except Err Bool × HM :=
  if s.rest.generated then
    let ans := o.ip s.rest.m
    if ans.status = .optimal ∨ ans.status = .feasible then
      (.ok true, { s with selected := s.paths.filter (fun a => decide (ans.values (s.heap.path a).id > 0)) })
    else (.error .assertionError, { s with selected := [] })
  else (.error .assertionError, s)

/-! ## The classifier -/

/-- The objects reachable from the classifier, as in `World`. -/
structure HW (Ω : Type) where
  m : HM
  numCuts : ℕ
  failed : ℕ
  success : ℕ
  subs : ℕ → SubSt
  y : List ℕ
  ω : Ω

variable {Ω : Type}

/-- The state with the objects as they are now. -/
def HW.view (H : HArgs) (w : HW Ω) : World Ω := ⟨w.m.view H, w.numCuts, w.failed, w.success, w.subs, w.y, w.ω⟩

/-- `DTreeClassifier.__init__`: `path.initial = True` for all paths, `_dtree_classifier.py:2461`, and the references that are kept, `:549-554`. -/
def HW.init (H : HArgs) (h : Heap) (ω : Ω) : HW Ω where
  m := ⟨H.paths.foldl (fun h a => h.setPath a { h.path a with initial := true }) h, H.paths, [], H.dataRows, MS.init [] [] none⟩
  numCuts := 0
  failed := 0
  success := 0
  subs := fun _ => SubSt.new
  y := []
  ω := ω

/-- `update_subproblem`: the heuristic writes the splits (`_dtree_classifier.py:2024-2034`), the exact problems only read objects. -/
def updateAtH (H : HArgs) (X : List (List ℚ)) (l i : ℕ) (D : Duals) (w : HW Ω) : Except Err Unit × HW Ω :=
  if l = 0 then
    (.ok (), { w with
      m := { w.m with heap := enterCutsH H.splits w.numCuts D.newCuts w.m.heap }
      numCuts := w.numCuts + D.newCuts.length })
  else
    match ((H.read w.m.heap).subConfs X w.y)[i]? with
    | none => (.error .indexError, w)
    | some c => ((c.update D (w.subs i)).1, { w with subs := Function.update w.subs i (c.update D (w.subs i)).2 })

/-- `generate_columns`: no object is written, the arguments are read as they are now. -/
def generateAtH (o : FitOracle Ω) (H : HArgs) (X : List (List ℚ)) (l i : ℕ) (D : Duals) (w : HW Ω) : Except Err (List Path) × HW Ω :=
  let r := generateAt o (H.read w.m.heap) X l i D (w.view H)
  (r.1, { w with
    failed := r.2.failed
    success := r.2.success
    subs := r.2.subs
    ω := r.2.ω })

/-- The plug-ins. -/
def envH (o : FitOracle Ω) (H : HArgs) (X : List (List ℚ)) : Fit.Env (HW Ω) Duals Path where
  clock w := ((o.clock w.ω).1, { w with ω := (o.clock w.ω).2 })
  generateMp y w := ((generateMpH H X w.m).1, { w with
    m := (generateMpH H X w.m).2
    y := y })
  solveRmp w := ((solveRmpH H X o.master w.m).1, { w with m := (solveRmpH H X o.master w.m).2 })
  improved w := (.ok (rmpObjectiveImproved w.m.rest), w)
  resetFlag _ := some false
  clearReset w := w
  update l i D w := updateAtH H X l i D w
  generate l i D w := generateAtH o H X l i D w
  addColumn p w := ((addColumnH H X p w.m).1, { w with m := (addColumnH H X p w.m).2 })
  solveIp w := ((solveIpH o.master w.m).1, { w with m := (solveIpH o.master w.m).2 })

/-- The arguments handed to `ColGenClassifier.__init__`: the number of pricing problems depends on leaves and targets only. -/
def configH (H : HArgs) (maxIterations : ℤ) (timeLimit : ℚ) : Fit.Config :=
  { maxIterations := maxIterations
    timeLimit := timeLimit
    shape := [1, if H.useOld then H.leaves.length * H.targets.length else H.leaves.length]
    rmpIsIp := true }

/-- `predict` of a fitted classifier, `_dtree_classifier.py:2519-2545`, on the objects of the heap. -/
def predictH (H : HArgs) (classes : List ℤ) (h : Heap) (selected : List ℕ) (X : List (List ℚ)) : Except Err (List ℤ) :=
  predict classes H.leaves (H.splits.map h.split) (selected.map h.path) X

end Verif.DTree
