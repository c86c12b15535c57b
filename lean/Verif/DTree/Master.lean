import Verif.DTree.Model
import Verif.MP
import Mathlib.Data.Rat.Floor

/-!
# Model of `DTreeMasterProblem` and `CutGenerator`

Solver calls are answered by an oracle (`Oracle`): any behaviour of the solvers is some oracle, and theorems assume explicit contracts.
Dictionaries are functions into `Option`. Times and prints are dropped. `get_params_from_string` and the solver parameters only influence
how the solver searches, not what a correct answer is.
-/

namespace Verif.DTree

open MP

/-! ## The Boolean part of CP-SAT used by the cut generation model -/

/-- A literal: variable index and polarity (`.Not()`). -/
structure Lit where
  var : ℕ
  pos : Bool
  deriving DecidableEq

/-- `x.Not()`. -/
def Lit.neg (l : Lit) : Lit := ⟨l.var, !l.pos⟩

/-- `AddBoolAnd(..).OnlyEnforceIf(e)`, `AddBoolOr(..).OnlyEnforceIf(e)`, `AddImplication(a, b)`. -/
inductive CpCons where
  | andIf (e : Lit) (ls : List Lit)
  | orIf (e : Lit) (ls : List Lit)
  | implies (a b : Lit)
  deriving DecidableEq

/-- A `CpModel` with Boolean variables only; the objective is the weighted sum passed to `Maximize`. -/
structure Cp where
  nvars : ℕ
  cons : List CpCons
  obj : List (ℕ × ℤ)
  deriving DecidableEq

/-- Value of a literal. -/
def Lit.eval (a : ℕ → Bool) (l : Lit) : Bool := if l.pos then a l.var else !a l.var

/-- Meaning of a constraint. -/
def CpCons.Holds (a : ℕ → Bool) : CpCons → Prop
  | .andIf e ls => e.eval a = true → ∀ l ∈ ls, l.eval a = true
  | .orIf e ls => e.eval a = true → ∃ l ∈ ls, l.eval a = true
  | .implies x y => x.eval a = true → y.eval a = true

/-- Meaning of a model. -/
def Cp.Holds (c : Cp) (a : ℕ → Bool) : Prop := ∀ k ∈ c.cons, k.Holds a

/-- Objective value. -/
def Cp.value (c : Cp) (a : ℕ → Bool) : ℤ := (c.obj.map (fun t => if a t.1 then t.2 else 0)).sum

/-! ## State -/

/-- Constructor arguments of `DTreeMasterProblem` (`_dtree_classifier.py:539-564`) and the data given to `generate_mp`. `nodes` is only
mutated in the fields used by `preprocess_rows`, which recomputes them. -/
structure Conf where
  leaves : List Leaf
  nodes : List Node
  X : List (List ℚ)
  betaAsCuts : Bool
  generateCuts : Bool
  numCutsRound : ℕ

/-- Attributes of `DTreeMasterProblem`. -/
structure MS where
  generated : Bool
  m : Model
  paths : List Path
  pathVars : List ℕ
  splits : List Split
  dataRows : Option (List Row)
  leafCons : ℕ → Option ℕ
  rowCons : ℕ → Option ℕ
  addedRow : List Bool
  cutCons : List ℕ
  nsVars : ℕ → ℕ → Option ℕ
  nsCons : ℕ → ℕ → ℕ → Option ℕ
  cp : Cp
  cutSplitVars : List ℕ
  cutPathVars : List ℕ
  pathSol : ℕ → ℚ
  rmpObj : ℚ
  prevRmpObj : ℚ
  iter : ℕ
  last : Answer
  totalCuts : ℕ
  selected : List Path
  lpCalls : ℕ
  cutCalls : ℕ

/-- Behaviour of the solvers: the `k`-th `Solve` of the restricted master, the solutions that the `k`-th cut generation run passes to
the callback, and the answer of the integer solver. -/
structure Oracle where
  lp : Model → ℕ → Answer
  cut : Cp → ℕ → List (ℕ → Bool)
  ip : Model → Answer

/-- The answer before any `Solve`. -/
def noAnswer : Answer := ⟨.other, fun _ => 0, fun _ => 0, 0⟩

/-- State after the constructor, `_dtree_classifier.py:539-564`. -/
def MS.init (paths : List Path) (splits : List Split) (dataRows : Option (List Row)) : MS where
  generated := false
  m := Model.empty
  paths := paths
  pathVars := []
  splits := splits
  dataRows := dataRows
  leafCons := fun _ => none
  rowCons := fun _ => none
  addedRow := []
  cutCons := []
  nsVars := fun _ _ => none
  nsCons := fun _ _ _ => none
  cp := ⟨0, [], []⟩
  cutSplitVars := []
  cutPathVars := []
  pathSol := fun _ => 0
  rmpObj := 0
  prevRmpObj := 0
  iter := 0
  last := noAnswer
  totalCuts := 0
  selected := []
  lpCalls := 0
  cutCalls := 0

/-! ## Cut generation model -/

/-- The literals of a path, `_dtree_classifier.py:583-588` and `911-916`. -/
def pathLits (splitVars : List ℕ) (leaf : Leaf) (p : Path) : List Lit :=
  p.pairs.map (fun q => ⟨splitVars.getD q.2 0, decide (q.1 ∈ leaf.leftNodes)⟩)

/-- One path of the cut generation model: a new Boolean variable equivalent to the conjunction of the path's literals,
`_dtree_classifier.py:577-596` and `903-924`. -/
def addCutPath (leaves : List Leaf) (splitVars : List ℕ) (st : Cp × List ℕ) (p : Path) : Cp × List ℕ :=
  let v := st.1.nvars
  let lits := pathLits splitVars (leafAt leaves p.leafId) p
  (⟨v + 1, st.1.cons ++ [.andIf ⟨v, true⟩ lits, .orIf ⟨v, false⟩ (lits.map Lit.neg)], st.1.obj⟩, st.2 ++ [v])

/-- One pair `i < j` of the split dependencies, `_dtree_classifier.py:607-618`. -/
def splitDep (splitVars : List ℕ) (splits : List Split) (i j : ℕ) : Except Err (List CpCons) :=
  let si := splitAt splits i
  let sj := splitAt splits j
  if si.feature ≠ sj.feature then .ok []
  else if si.threshold = sj.threshold then .error .assertionError
  else if si.threshold < sj.threshold then .ok [.implies ⟨splitVars.getD i 0, true⟩ ⟨splitVars.getD j 0, true⟩]
  else .ok [.implies ⟨splitVars.getD j 0, true⟩ ⟨splitVars.getD i 0, true⟩]

/-- All pairs `i < j < n` in loop order. -/
def pairsBelow (n : ℕ) : List (ℕ × ℕ) := (List.range n).flatMap (fun i => (List.range' (i + 1) (n - (i + 1))).map (fun j => (i, j)))

/-- The dependency loops, `_dtree_classifier.py:602-618`. -/
def splitDeps (splitVars : List ℕ) (splits : List Split) : List (ℕ × ℕ) → Except Err (List CpCons)
  | [] => .ok []
  | (i, j) :: rest =>
    match splitDep splitVars splits i j with
    | .error e => .error e
    | .ok cs =>
      match splitDeps splitVars splits rest with
      | .error e => .error e
      | .ok cs' => .ok (cs ++ cs')

/-- `create_cut_gen_model`, `_dtree_classifier.py:566-618`. -/
def createCutModel (leaves : List Leaf) (splits : List Split) (paths : List Path) : Except Err (Cp × List ℕ × List ℕ) :=
  let splitVars := List.range splits.length
  let st := paths.foldl (addCutPath leaves splitVars) (⟨splits.length, [], []⟩, [])
  match splitDeps splitVars splits (pairsBelow splits.length) with
  | .error e => .error e
  | .ok cs => .ok (⟨st.1.nvars, st.1.cons ++ cs, []⟩, splitVars, st.2)

/-! ## `generate_mp` -/

/-- One path variable, `_dtree_classifier.py:635-639`. -/
def addPathVar (st : Model × List Path) (p : Path) : Model × List Path :=
  let v := st.1.vars.length
  ((st.1.addVar nonnegInt).setObj v p.cost, st.2 ++ [{ p with id := v }])

/-- Terms `(path.id, 1)` of the paths with a property. -/
def ones (paths : List Path) (P : Path → Bool) : List (ℕ × ℚ) := (paths.filter P).map (fun p => (p.id, 1))

/-- One leaf constraint, `_dtree_classifier.py:645-650`. -/
def addLeafCons (paths : List Path) (st : Model × (ℕ → Option ℕ)) (leaf : Leaf) : Model × (ℕ → Option ℕ) :=
  (addRow st.1 (some 1) (some 1) (ones paths (fun p => p.leafId == leaf.id)),
    Function.update st.2 leaf.id (some st.1.cons.length))

/-- `compute_satisfied_paths`, `_dtree_classifier.py:727-732`. -/
def computeSatisfiedPaths (leaves : List Leaf) (splits : List Split) (paths : List Path) (X : List (List ℚ)) (rows : List Row) : List Row :=
  rows.mapIdx fun r row => paths.foldl (fun row p =>
    if rowSatisfiesPath (X.getD r []) (leafAt leaves p.leafId) splits p then { row with reachablePaths := setAdd row.reachablePaths p.id }
    else row) row

/-- One row constraint, `_dtree_classifier.py:660-673`; state: model, `row_cons_`, `added_row`. -/
def addRowCons (c : Conf) (splits : List Split) (paths : List Path) (rows : List Row) (st : Model × (ℕ → Option ℕ) × List Bool) (r : ℕ) :
    Model × (ℕ → Option ℕ) × List Bool :=
  if (rowAt rows r).removedFromMaster then st
  else (addRow st.1 none (some 1) (ones paths (fun p => rowSatisfiesPath (c.X.getD r []) (leafAt c.leaves p.leafId) splits p)),
    Function.update st.2.1 r (some st.1.cons.length), st.2.2.set r true)

/-- Terms of the paths of leaf `l` that use split `s` at node `n`, `_dtree_classifier.py:706-712` (the loop over the positions of the path
may set the same coefficient several times). -/
def nsOnes (paths : List Path) (l n s : ℕ) : List (ℕ × ℚ) :=
  paths.flatMap (fun p => (p.pairs.filter (fun q => p.leafId == l && q == (n, s))).map (fun _ => (p.id, 1)))

/-- State of the consistency loop: model, `ns_vars`, `ns_constraints_`. -/
structure NS where
  m : Model
  vars : ℕ → ℕ → Option ℕ
  cons : ℕ → ℕ → ℕ → Option ℕ

/-- Two and three argument dictionaries. -/
def upd2 (f : ℕ → ℕ → Option ℕ) (a b v : ℕ) : ℕ → ℕ → Option ℕ := fun x y => if x = a ∧ y = b then some v else f x y

def upd3 (f : ℕ → ℕ → ℕ → Option ℕ) (a b c v : ℕ) : ℕ → ℕ → ℕ → Option ℕ := fun x y z => if x = a ∧ y = b ∧ z = c then some v else f x y z

/-- One consistency constraint, `_dtree_classifier.py:687-715`. -/
def addNsCons (paths : List Path) (l n : ℕ) (st : NS) (s : ℕ) : NS :=
  let st' : NS := match st.vars n s with
    | some _ => st
    | none => ⟨st.m.addVar nonnegInt, upd2 st.vars n s st.m.vars.length, st.cons⟩
  let v := (st'.vars n s).getD 0
  ⟨addRow st'.m (some 0) (some 0) ((v, -1) :: nsOnes paths l n s), st'.vars, upd3 st'.cons l n s st'.m.cons.length⟩

/-- The consistency constraints of a node of a leaf. -/
def addNsNode (nodes : List Node) (paths : List Path) (l : ℕ) (st : NS) (nodeId : ℕ) : NS :=
  let node := nodeAt nodes nodeId
  node.candidateSplits.foldl (addNsCons paths l node.id) st

/-- The consistency constraints of a leaf, `_dtree_classifier.py:681-715`. -/
def addNsLeaf (nodes : List Node) (paths : List Path) (st : NS) (leaf : Leaf) : NS :=
  (leaf.leftNodes ++ leaf.rightNodes).foldl (addNsNode nodes paths leaf.id) st

/-- `generate_mp`, `_dtree_classifier.py:620-717`. -/
def generateMp (c : Conf) (s : MS) : Except Err Unit × MS :=
  if s.generated then (.ok (), s)
  else
    match createCutModel c.leaves s.splits s.paths with
    | .error e => (.error e, s)
    | .ok (cp, sv, pv) =>
      let pathSt := s.paths.foldl addPathVar (s.m, [])
      let paths := pathSt.2
      let leafSt := c.leaves.foldl (addLeafCons paths) (pathSt.1.setMax true, s.leafCons)
      let rows := match s.dataRows with
        | none => preprocessRows c.leaves c.nodes s.splits paths c.X false
        | some rows => computeSatisfiedPaths c.leaves s.splits paths c.X rows
      let rowSt := if c.betaAsCuts then (leafSt.1, s.rowCons, List.replicate c.X.length false)
        else (List.range c.X.length).foldl (addRowCons c s.splits paths rows)
          (leafSt.1, s.rowCons, List.replicate c.X.length false)
      let ns := c.leaves.foldl (addNsLeaf c.nodes paths) ⟨rowSt.1, fun _ _ => none, fun _ _ _ => none⟩
      (.ok (), { s with
        generated := true
        m := ns.m
        paths := paths
        pathVars := paths.map (·.id)
        dataRows := some rows
        leafCons := leafSt.2
        rowCons := rowSt.2.1
        addedRow := rowSt.2.2
        cutCons := []
        nsVars := ns.vars
        nsCons := ns.cons
        cp := cp
        cutSplitVars := sv
        cutPathVars := pv })

/-! ## `add_column` -/

/-- `SetCoefficient(xp_var, 1)` on each constraint of a list. -/
def setOnes (m : Model) (v : ℕ) (cs : List ℕ) : Model := cs.foldl (fun m c => m.setCoeff c v 1) m

/-- Leaf constraints to enter, `_dtree_classifier.py:868-870`. -/
def colLeaf (leaves : List Leaf) (s : MS) (p : Path) : List ℕ :=
  leaves.filterMap (fun leaf => if p.leafId = leaf.id then s.leafCons leaf.id else none)

/-- Row constraints to enter, `_dtree_classifier.py:875-879`. -/
def colRows (s : MS) (rows : List ℕ) : List ℕ := rows.filterMap (fun r => if s.addedRow.getD r false then s.rowCons r else none)

/-- Consistency constraints to enter, `_dtree_classifier.py:882-895`. -/
def colNs (leaves : List Leaf) (nodes : List Node) (s : MS) (p : Path) : List ℕ :=
  leaves.flatMap fun leaf => (leaf.leftNodes ++ leaf.rightNodes).flatMap fun nodeId =>
    (nodeAt nodes nodeId).candidateSplits.flatMap fun split =>
      p.pairs.filterMap fun q =>
        if p.leafId = leaf.id ∧ q.1 = (nodeAt nodes nodeId).id ∧ q.2 = split then s.nsCons leaf.id (nodeAt nodes nodeId).id split else none

/-- `add_column`, `_dtree_classifier.py:852-925`. `get_satisfied_rows` raises `IndexError` for a path without nodes, after the variable and
the leaf coefficient were added. -/
def addColumn (c : Conf) (p : Path) (s : MS) : Except Err Bool × MS :=
  let v := s.m.vars.length
  let p' := { p with id := v }
  let m1 := setOnes ((s.m.addVar nonnegInt).setObj v p.cost) v (colLeaf c.leaves s p)
  let s1 := { s with
    m := m1
    paths := s.paths ++ [p']
    pathVars := s.pathVars ++ [v] }
  match getSatisfiedRows p' (leafAt c.leaves p.leafId) s.splits with
  | .error e => (.error e, s1)
  | .ok rows =>
    let m2 := setOnes m1 v (colRows s rows)
    let m3 := setOnes m2 v (colNs c.leaves c.nodes s p')
    let data := s.dataRows.map (fun ds => rows.foldl (fun ds r => ds.modify r (fun d =>
      { d with reachablePaths := setAdd d.reachablePaths v })) ds)
    match getSatisfiedCuts p' (leafAt c.leaves p.leafId) s.splits with
    | .error e => (.error e, { s1 with
        m := m3
        dataRows := data })
    | .ok cuts =>
      let m4 := setOnes m3 v (cuts.filterMap (fun k => s.cutCons[k]?))
      let cp := addCutPath c.leaves s.cutSplitVars (s.cp, s.cutPathVars) p'
      (.ok true, { s1 with
        m := m4
        dataRows := data
        cp := cp.1
        cutPathVars := cp.2 })

/-! ## Cuts -/

/-- `1e-6`. -/
def eps : ℚ := 1 / 1000000

/-- `CutGenerator.on_solution_callback`, `_dtree_classifier.py:510-526`: the cut (one Boolean per path) and the cut row (one per split) of a
solution, recorded when the sum of the path coefficients exceeds `1 + 1e-6`. -/
def cutCallback (pathVars splitVars : List ℕ) (coeffs : List ℚ) (acc : List (List Bool × List Bool)) (a : ℕ → Bool) :
    List (List Bool × List Bool) :=
  let obj := ((pathVars.zip coeffs).map (fun t => if a t.1 then t.2 else 0)).sum
  if obj > 1 + eps then acc ++ [(pathVars.map a, splitVars.map a)] else acc

/-- One cut constraint, `_dtree_classifier.py:965-973`. -/
def addCutCons (paths : List Path) (st : Model × List ℕ) (cut : List Bool) : Model × List ℕ :=
  (addRow st.1 (some 1) (some 1) (((paths.zip cut).filter (fun t => t.2)).map (fun t => (t.1.id, 1))), st.2 ++ [st.1.cons.length])

/-- The objective of the cut generation model, `_dtree_classifier.py:929-939`: coefficients `int(floor(value * 1000000))`. -/
def cutObjective (s : MS) : List (ℕ × ℤ) :=
  s.cutPathVars.zip (s.paths.map (fun p => ⌊s.pathSol p.id * 1000000⌋))

/-- `add_cuts`, `_dtree_classifier.py:927-975`. -/
def addCuts (o : Oracle) (s : MS) : List (List Bool) × MS :=
  let cp : Cp := ⟨s.cp.nvars, s.cp.cons, cutObjective s⟩
  let sols := o.cut cp s.cutCalls
  let rec' := sols.foldl (cutCallback s.cutPathVars s.cutSplitVars (s.paths.map (fun p => s.pathSol p.id))) []
  let s1 := { s with
    cp := cp
    cutCalls := s.cutCalls + 1 }
  if rec'.length = 0 then ([], s1)
  else
    let st := (rec'.map (·.1)).foldl (addCutCons s.paths) (s.m, s.cutCons)
    (rec'.map (·.2), { s1 with
      splits := addCutsToSplits s.splits s.cutCons.length (rec'.map (·.2))
      m := st.1
      cutCons := st.2
      addedRow := s.addedRow ++ List.replicate rec'.length true })

/-- `violated_row_constraint`, `_dtree_classifier.py:981-988`. -/
def violatedRow (sol : ℕ → ℚ) (ids : List ℕ) : Bool := decide (|(ids.map sol).sum - 1| > eps)

/-- State of the loop of `add_beta_cuts`. -/
structure BS where
  m : Model
  rowCons : ℕ → Option ℕ
  addedRow : List Bool
  num : ℕ

/-- The loop of `add_beta_cuts`, `_dtree_classifier.py:995-1013`. The order in which a Python set is listed does not matter here. -/
def betaLoop (rows : List Row) (sol : ℕ → ℚ) : List ℕ → BS → BS
  | [], b => b
  | r :: rest, b =>
    if (rowAt rows r).removedFromMaster then betaLoop rows sol rest b
    else if b.num ≥ 10 then b
    else if b.addedRow.getD r false then betaLoop rows sol rest b
    else if violatedRow sol (rowAt rows r).reachablePaths then
      betaLoop rows sol rest
        ⟨addRow b.m none (some 1) ((rowAt rows r).reachablePaths.map (fun i => (i, 1))), Function.update b.rowCons r (some b.m.cons.length),
          b.addedRow.set r true, b.num + 1⟩
    else betaLoop rows sol rest b

/-- `add_beta_cuts`, `_dtree_classifier.py:990-1013`. -/
def addBetaCuts (c : Conf) (s : MS) : ℕ × MS :=
  let b := betaLoop (s.dataRows.getD []) s.pathSol (List.range c.X.length) ⟨s.m, s.rowCons, s.addedRow, 0⟩
  (b.num, { s with
    m := b.m
    rowCons := b.rowCons
    addedRow := b.addedRow })

/-! ## `solve_rmp` -/

/-- `solver_.Solve`. -/
def lpSolve (o : Oracle) (s : MS) : MS :=
  { s with
    last := o.lp s.m s.lpCalls
    lpCalls := s.lpCalls + 1 }

/-- `store_lp_solution`, `_dtree_classifier.py:719-725`. -/
def storeLp (s : MS) : MS :=
  { s with
    rmpObj := s.last.objective
    pathSol := s.last.values }

/-- The cut round, `_dtree_classifier.py:1041-1072`: number of beta cuts, the new cut rows, the state before solving again. -/
def cutRound (c : Conf) (o : Oracle) (s : MS) : ℕ × List (List Bool) × MS :=
  let s := storeLp s
  let b := if c.betaAsCuts then addBetaCuts c s else (0, s)
  let g := if c.generateCuts && b.1 == 0 then addCuts o b.2 else ([], b.2)
  (b.1, g.1, { g.2 with totalCuts := g.2.totalCuts + (g.1.length + b.1) })

/-- The loop over the cut rounds; returns the new cut rows. -/
def cutRounds (c : Conf) (o : Oracle) : ℕ → List (List Bool) → MS → List (List Bool) × MS
  | 0, acc, s => (acc, s)
  | n + 1, acc, s =>
    if s.last.status = .optimal then
      let r := cutRound c o s
      if r.2.1.length > 0 ∨ r.1 > 0 then cutRounds c o n (acc ++ r.2.1) (lpSolve o r.2.2)
      else (acc, r.2.2)
    else (acc, s)

/-- What `solve_rmp` returns: `(leaf_duals, row_duals, ns_duals, cut_duals, newly_added_cuts)`. -/
structure Duals where
  leaf : List ℚ
  row : List ℚ
  ns : ℕ → ℕ → ℕ → Option ℚ
  cut : List ℚ
  newCuts : List (List Bool)

/-- Dual value of an optional constraint object (never `None` where it is read). -/
def dualOf (s : MS) (k : Option ℕ) : ℚ := (k.map s.last.duals).getD 0

/-- The dual values read after an optimal solve, `_dtree_classifier.py:1085-1107`. -/
def readDuals (c : Conf) (s : MS) (cuts : List (List Bool)) : Duals where
  leaf := (List.range c.leaves.length).map (fun l => dualOf s (s.leafCons l))
  row := (List.range c.X.length).map (fun r => if s.addedRow.getD r false then dualOf s (s.rowCons r) else 0)
  ns := fun l n sp => (s.nsCons l n sp).map s.last.duals
  cut := s.cutCons.map s.last.duals
  newCuts := cuts

/-- `solve_rmp`, `_dtree_classifier.py:1024-1113`. -/
def solveRmp (c : Conf) (o : Oracle) (s : MS) : Except Err Duals × MS :=
  if s.generated then
    let s1 := lpSolve o { s with
      prevRmpObj := s.rmpObj
      iter := s.iter + 1 }
    let r := if s1.iter % 10 = 0 then cutRounds c o c.numCutsRound [] s1 else ([], s1)
    if r.2.last.status = .optimal then (.ok (readDuals c r.2 r.1), storeLp r.2)
    else (.ok ⟨[], [], fun _ _ _ => none, [], r.1⟩, r.2)
  else (.error .assertionError, s)

/-- `rmp_objective_improved`, `_dtree_classifier.py:1115-1119`. -/
def rmpObjectiveImproved (s : MS) : Bool := if s.last.status = .optimal then decide (s.prevRmpObj < s.rmpObj) else false

/-! ## `solve_ip` -/

/-- `solve_ip`, `_dtree_classifier.py:1121-1163`: the model is copied to an integer solver; the paths with a positive value are selected. -/
def solveIp (o : Oracle) (s : MS) : Except Err Bool × MS :=
  if s.generated then
    let ans := o.ip s.m
    if ans.status = .optimal ∨ ans.status = .feasible then
      (.ok true, { s with selected := s.paths.filter (fun p => decide (ans.values p.id > 0)) })
    else (.error .assertionError, { s with selected := [] })
  else (.error .assertionError, s)

end Verif.DTree
