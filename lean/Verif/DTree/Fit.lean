import Verif.DTree.Heur
import Verif.DTree.Sub
import Verif.Fit.Guided

/-!
# `DTreeClassifier.fit`: the column generation loop on the decision tree master and pricing problems

The objects created by `DTreeClassifier.__init__` as plug-ins of the loop model (`Verif/Fit/Model.lean`). Solvers, random draws and clock are
an arbitrary `FitOracle`; answers may depend on a hidden state that changes with every call (the calls of the master problem's solvers are
counted instead, see `Oracle`). The lists `splits` and `data_rows` are shared by all objects: the heuristic and the master problem update
the same split objects, so the world holds them once, in the master problem. The exact pricing problems read only the features and thresholds
of the splits and the fields `removed_from_sp` and `weight` of the rows, which never change.
-/

namespace Verif.DTree

open MP

/-- Constructor arguments of `DTreeClassifier`, `_dtree_classifier.py:2417-2428`, without limits and solver parameters. -/
structure Args where
  paths : List Path
  leaves : List Leaf
  nodes : List Node
  splits : List Split
  depth : ℕ
  targets : List ℕ
  cutsRound : ℕ
  betaAsCuts : Bool
  generateCuts : Bool
  dataRows : Option (List Row)
  useOld : Bool

/-- The solvers of the pricing problems (solutions passed to the callback of the CP-SAT class, answers for the `pywraplp` class), the random
draws, the clock, and the solvers of the master problem. -/
structure FitOracle (Ω : Type) where
  clock : Ω → ℚ × Ω
  draws : Ω → Draws × Ω
  sols : Model → Ω → List (ℕ → ℚ) × Ω
  mip : Model → Ω → Answer × Ω
  master : Oracle

/-- The master problem, `_dtree_classifier.py:2471-2477`, with the data passed to `fit`. -/
def Args.masterConf (A : Args) (X : List (List ℚ)) : Conf := ⟨A.leaves, A.nodes, X, A.betaAsCuts, A.generateCuts, A.cutsRound⟩

/-- `subproblems[0][0]`, `_dtree_classifier.py:2480-2483`. -/
def Args.heurConf (A : Args) (X : List (List ℚ)) (y : List ℕ) : HConf := ⟨A.leaves, A.nodes, X, y, A.dataRows⟩

/-- A pricing problem of a leaf. -/
def Args.subConf (A : Args) (X : List (List ℚ)) (y : List ℕ) (kind : Kind) (leaf : Leaf) : SubConf :=
  ⟨kind, leaf, A.nodes, A.splits, A.targets, A.depth, X, y, A.dataRows⟩

/-- `subproblems[1]`, `_dtree_classifier.py:2485-2506`: one problem per leaf, or with `use_old_sp` one per leaf and target. -/
def Args.subConfs (A : Args) (X : List (List ℚ)) (y : List ℕ) : List SubConf :=
  A.leaves.flatMap (fun leaf =>
    if A.useOld then A.targets.map (fun t => A.subConf X y (.old t) leaf) else [A.subConf X y .sat leaf])

/-- The objects reachable from the classifier during `fit`. `numCuts`, `failed`, `success` are attributes of the heuristic, `subs` the states of
`subproblems[1]`, `y` the local `processed_y` of `fit`, `ω` the hidden state. -/
structure World (Ω : Type) where
  master : MS
  numCuts : ℕ
  failed : ℕ
  success : ℕ
  subs : ℕ → SubSt
  y : List ℕ
  ω : Ω

variable {Ω : Type}

/-- A newly constructed classifier: the initial paths are marked, `_dtree_classifier.py:2461`. -/
def World.init (A : Args) (ω : Ω) : World Ω where
  master := MS.init (A.paths.map (fun p => { p with initial := true })) A.splits A.dataRows
  numCuts := 0
  failed := 0
  success := 0
  subs := fun _ => SubSt.new
  y := []
  ω := ω

/-- The heuristic object with the shared splits. -/
def World.heur (w : World Ω) : HeurSt := ⟨w.master.splits, w.numCuts, w.failed, w.success⟩

/-- Writing back the heuristic object. -/
def World.setHeur (w : World Ω) (st : HeurSt) : World Ω :=
  { w with
    master := { w.master with splits := st.splits }
    numCuts := st.numCuts
    failed := st.failed
    success := st.success }

/-- `subproblems[l][i].update_subproblem(X, y, duals)`. -/
def updateAt (A : Args) (X : List (List ℚ)) (l i : ℕ) (D : Duals) (w : World Ω) : Except Err Unit × World Ω :=
  if l = 0 then (.ok (), w.setHeur (HConf.update D w.heur))
  else
    match (A.subConfs X w.y)[i]? with
    | none => (.error .indexError, w)
    | some c => ((c.update D (w.subs i)).1, { w with subs := Function.update w.subs i (c.update D (w.subs i)).2 })

/-- `generate_columns` of one of the exact pricing problems. -/
def priceAt (o : FitOracle Ω) (c : SubConf) (i : ℕ) (D : Duals) (w : World Ω) : Except Err (List Path) × World Ω :=
  if c.isOld then
    (.ok (c.generateMip (w.subs i) (o.mip (w.subs i).m w.ω).1), { w with ω := (o.mip (w.subs i).m w.ω).2 })
  else
    let r := c.generateSat D (fun m => (o.sols m w.ω).1) (w.subs i)
    (r.1, { w with
      subs := Function.update w.subs i r.2
      ω := (o.sols r.2.m w.ω).2 })

/-- `subproblems[l][i].generate_columns(X, y, duals)`. -/
def generateAt (o : FitOracle Ω) (A : Args) (X : List (List ℚ)) (l i : ℕ) (D : Duals) (w : World Ω) : Except Err (List Path) × World Ω :=
  if l = 0 then
    let r := (A.heurConf X w.y).generate D (o.draws w.ω).1 w.heur
    (r.1, { w.setHeur r.2 with ω := (o.draws w.ω).2 })
  else
    match (A.subConfs X w.y)[i]? with
    | none => (.error .indexError, w)
    | some c => priceAt o c i D w

/-- The plug-ins. `reset_timer_` is `False` (`_dtree_classifier.py:564`) and stays so: `remove_gen_vars` (1015-1022), which sets it, is never
called. -/
def env (o : FitOracle Ω) (A : Args) (X : List (List ℚ)) : Fit.Env (World Ω) Duals Path where
  clock w := ((o.clock w.ω).1, { w with ω := (o.clock w.ω).2 })
  generateMp y w := ((generateMp (A.masterConf X) w.master).1, { w with
    master := (generateMp (A.masterConf X) w.master).2
    y := y })
  solveRmp w := ((solveRmp (A.masterConf X) o.master w.master).1, { w with master := (solveRmp (A.masterConf X) o.master w.master).2 })
  improved w := (.ok (rmpObjectiveImproved w.master), w)
  resetFlag _ := some false
  clearReset w := w
  update l i D w := updateAt A X l i D w
  generate l i D w := generateAt o A X l i D w
  addColumn p w := ((addColumn (A.masterConf X) p w.master).1, { w with master := (addColumn (A.masterConf X) p w.master).2 })
  solveIp w := ((solveIp o.master w.master).1, { w with master := (solveIp o.master w.master).2 })

/-- The arguments handed to `ColGenClassifier.__init__`, `_dtree_classifier.py:2508-2512`. -/
def config (A : Args) (maxIterations : ℤ) (timeLimit : ℚ) : Fit.Config :=
  { maxIterations := maxIterations
    timeLimit := timeLimit
    shape := [1, (A.subConfs [] []).length]
    rmpIsIp := true }

/-- `fit` of a newly constructed classifier. -/
def fitNew (o : FitOracle Ω) (A : Args) (maxIterations : ℤ) (timeLimit : ℚ) (X : List (List ℚ)) (fuel : ℕ) (y : List ℤ) (e0 : Fit.Est)
    (ω : Ω) : Option (Except Err Unit × Fit.St (World Ω) Duals Path) :=
  Fit.fit (env o A X) (config A maxIterations timeLimit) fuel y e0 (World.init A ω)

/-- `predict` of a fitted classifier, `_dtree_classifier.py:2519-2545`. -/
def predictFitted (A : Args) (s : Fit.St (World Ω) Duals Path) (X : List (List ℚ)) : Except Err (List ℤ) :=
  predict s.est.classes A.leaves s.world.master.splits s.world.master.selected X

end Verif.DTree
