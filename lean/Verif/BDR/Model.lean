import Mathlib.Data.Nat.Bitwise
import Mathlib.Data.Nat.Size
import Verif.MP
import Verif.Sk

/-!
# Model of `col_gen_estimator/_bdr_classifier.py`

`X` is a list of rows of rationals with an explicit number of columns (`X.shape[1]`). The labels are those produced by `LabelEncoder`
(natural numbers). `print`, names of variables and constraints, `SetNumThreads` and solver parameters are dropped.
Reading a feature index outside the row (numpy `IndexError`) is modelled as reading 0; the theorems that need it assume clauses
within range.
-/

namespace Verif.BDR

open MP

/-- A clause: list of feature indices. -/
abbrev Clause := List ℕ

/-- The input matrix. -/
structure Data where
  rows : List (List ℚ)
  nFeat : ℕ

/-- `entry[j]`. -/
def get (entry : List ℚ) (j : ℕ) : ℚ := entry.getD j 0

/-- `BDRMasterProblem.satisfies_clause`, `_bdr_classifier.py:356-369`. -/
def satisfiesClause (entry : List ℚ) : Clause → ℕ
  | [] => 1
  | j :: js => if get entry j = 0 then 0 else satisfiesClause entry js

/-- `BDRMasterProblem.get_objective_coeff_mp`, `_bdr_classifier.py:371-387`: the loop over rows and labels. -/
def objectiveCoeff (X : List (List ℚ)) (y : List ℕ) (clause : Clause) : ℕ :=
  (X.zip y).foldl (fun acc p => if p.2 = 1 then acc else acc + satisfiesClause p.1 clause) 0

/-- `BDRMasterProblem.get_clause_coeffs`, `_bdr_classifier.py:389-408`. -/
def clauseCoeffs (X : List (List ℚ)) (y : List ℕ) (clause : Clause) : List ℚ :=
  (X.zip y).foldl (fun acc p => if p.2 = 0 then acc else acc ++ [(satisfiesClause p.1 clause : ℚ)]) [] ++
    [(clause.length : ℚ) + 1]

/-- `BDRMasterProblem.generate_lexicographic_clause`, `_bdr_classifier.py:411-420`. `int2ba(index)` has `max 1 (size index)` bits, most
significant first; reversed, bit `i` is the `i`-th binary digit. -/
def lexicographicClause (index : ℕ) : Clause :=
  (List.range (max 1 (Nat.size index))).filter (fun i => index.testBit i)

/-- `BDRMasterProblem`, `_bdr_classifier.py:151-165`. `clauseDict` is the dictionary in insertion order. -/
structure Master where
  C : ℚ
  p : ℚ
  generated : Bool
  X : Data
  y : List ℕ
  solver : Model
  clauseVars : List ℕ
  xiVars : List ℕ
  clauseSatisfaction : List ℕ
  clauseComplexity : ℕ
  clauseDict : List (ℕ × Clause)
  explanation : List Clause

/-- `BDRMasterProblem.__init__`, `_bdr_classifier.py:151-165`. -/
def Master.new (C p : ℚ) : Master :=
  { C := C, p := p, generated := false, X := ⟨[], 0⟩, y := [], solver := Model.empty, clauseVars := [], xiVars := [],
    clauseSatisfaction := [], clauseComplexity := 0, clauseDict := [], explanation := [] }

/-- A loop creating one variable per entry of the list, with that entry as objective coefficient. Returns the indices. -/
def addVarsObj (v : Var) : List ℚ → Model → Model × List ℕ
  | [], m => (m, [])
  | c :: cs, m =>
    let r := addVarsObj v cs ((m.addVar v).setObj m.vars.length c)
    (r.1, m.vars.length :: r.2)

/-- The loop `_bdr_classifier.py:219-224`: one satisfaction constraint per positive example. Returns the constraint indices. -/
def addSatCons : List ℕ → Model → Model × List ℕ
  | [], m => (m, [])
  | xi :: xis, m =>
    let r := addSatCons xis ((m.addCons (some 1) none).setCoeff m.cons.length xi 1)
    (r.1, m.cons.length :: r.2)

/-- The loop `for j in range(n): constraint(cs[j]).SetCoefficient(var, coeffs[j])`, `_bdr_classifier.py:229-231` and `268-271`. -/
def setColumn (var : ℕ) (coeffs : List ℚ) : List ℕ → ℕ → Model → Model
  | [], _, m => m
  | c :: cs, j, m => setColumn var coeffs cs (j + 1) (m.setCoeff c var (coeffs.getD j 0))

/-- `BDRMasterProblem.generate_mp`, `_bdr_classifier.py:167-234`. The loops over `range(n_clauses)` run once (`n_clauses = 1`).
`coeffs[-1]` is the last entry. -/
def Master.generateMp (s : Master) (X : Data) (y : List ℕ) : Master :=
  if s.generated then s
  else
    let nPos := (y.filter (fun v => v > 0)).length
    let (m, xi) := addVarsObj nonnegInt (List.replicate nPos s.p) s.solver
    let var := m.vars.length
    let m := m.addVar nonnegInt
    let clause := lexicographicClause 0
    let m := (m.setObj var (objectiveCoeff X.rows y clause)).setMax false
    let comp := m.cons.length
    let m := m.addCons none (some s.C)
    let (m, sat) := addSatCons xi m
    let coeffs := clauseCoeffs X.rows y clause
    let m := setColumn var coeffs sat 0 m
    let m := m.setCoeff comp var (coeffs.getLastD 0)
    { s with
      generated := true
      X := X
      y := y
      solver := m
      clauseVars := [var]
      xiVars := xi
      clauseSatisfaction := sat
      clauseComplexity := comp
      clauseDict := s.clauseDict ++ [(var, clause)] }

/-- `BDRMasterProblem.add_column`, `_bdr_classifier.py:236-275`. The assertion on the number of positive examples comes after the variable
was created, so the state is returned with the error. -/
def Master.addColumn (s : Master) (clause : Clause) : Except Err Bool × Master :=
  if s.generated = false then (.error .assertionError, s)
  else if clause.length = 0 then (.ok false, s)
  else if clause ∈ s.clauseDict.map (·.2) then (.error .assertionError, s)
  else
    let nPos := s.solver.cons.length - 1
    let var := s.solver.vars.length
    let m := (s.solver.addVar nonnegInt).setObj var (objectiveCoeff s.X.rows s.y clause)
    let s := { s with
      solver := m
      clauseVars := s.clauseVars ++ [var]
      clauseDict := s.clauseDict ++ [(var, clause)] }
    let coeffs := clauseCoeffs s.X.rows s.y clause
    if nPos ≠ s.clauseSatisfaction.length then (.error .assertionError, s)
    else
      let m := setColumn var coeffs s.clauseSatisfaction 0 m
      let m := m.setCoeff s.clauseComplexity var (coeffs.getLastD 0)
      (.ok true, { s with solver := m })

/-- `BDRMasterProblem.solve_rmp`, `_bdr_classifier.py:277-309`; `ans` is the solver's answer. Returns `(cc_dual, cs_duals)`.
`clause_satisfaction_[i]` is within range in every reachable state. -/
def Master.solveRmp (s : Master) (ans : Answer) : Except Err (ℚ × List ℚ) :=
  if s.generated = false then .error .assertionError
  else
    let nPos := s.solver.cons.length - 1
    .ok (|ans.duals s.clauseComplexity|,
      (List.range nPos).map (fun i => ans.duals (s.clauseSatisfaction.getD i 0)))

/-- `clause_dict_[k]`. -/
def dictGet (d : List (ℕ × Clause)) (k : ℕ) : Clause := (d.lookup k).getD []

/-- `BDRMasterProblem.solve_ip`, `_bdr_classifier.py:311-353`; `solve` answers for the copied model. Exporting and loading the model is a
plain copy. -/
def Master.solveIp (s : Master) (solve : Model → Answer) : Except Err Bool × Master :=
  if s.generated = false then (.error .assertionError, s)
  else
    let ans := solve s.solver
    let s := { s with explanation := [] }
    if ans.status = .other then (.error .assertionError, s)
    else
      let nXi := s.xiVars.length
      let n := s.solver.vars.length
      if n ≠ nXi + s.clauseVars.length then (.error .assertionError, s)
      else
        let chosen := (List.range (n - nXi)).filter (fun j => ans.values (nXi + j) > 0)
        (.ok true, { s with explanation := chosen.map (fun j => dictGet s.clauseDict (s.clauseVars.getD j 0)) })

/-! ## `BDRSubProblem` -/

/-- `BDRSubProblem`, `_bdr_classifier.py:454-461`. `X_`, `y_` are always overwritten before use and passed as arguments. -/
structure Sub where
  D : ℚ
  generated : Bool
  zVars : List ℕ
  deltaVars : List ℕ
  solver : Model

/-- `BDRSubProblem.__init__`. -/
def Sub.new (D : ℚ) : Sub := ⟨D, false, [], [], Model.empty⟩

/-- The objective coefficients of the delta variables, `_bdr_classifier.py:487-497` and `545-553`: the loop over the labels with its
counter of positive examples (`cs_duals` long enough, otherwise Python raises `IndexError`). -/
def deltaCoeffs (cs : List ℚ) : List ℕ → ℕ → List ℚ
  | [], _ => []
  | t :: ts, n => if t = 1 then (1 * -(cs.getD n 0)) :: deltaCoeffs cs ts (n + 1) else 1 :: deltaCoeffs cs ts n

/-- The features `j` with `X[i, j] == 0`, in order. -/
def zeroFeats (n : ℕ) (row : List ℚ) : List ℕ := (List.range n).filter (fun j => get row j = 0)

/-- Constraints of one sample, `_bdr_classifier.py:503-519`; `d` is its delta variable. -/
def sampleCons (n : ℕ) (zVars : List ℕ) (row : List ℚ) (target d : ℕ) (m : Model) : Model :=
  if target = 1 then
    (zeroFeats n row).foldl (fun m j => addRow m (some 0) (some 1) [(d, 1), (zVars.getD j 0, 1)]) m
  else
    addRow m (some 1) none ((d, 1) :: (zeroFeats n row).map (fun j => (zVars.getD j 0, 1)))

/-- `BDRSubProblem.create_submip`, `_bdr_classifier.py:463-525`. -/
def Sub.createSubmip (s : Sub) (X : Data) (y : List ℕ) (cc : ℚ) (cs : List ℚ) : Except Err Sub :=
  if s.generated then .error .assertionError
  else
    let (m, zs) := addVarsObj boolVar (List.replicate X.nFeat cc) s.solver
    let (m, ds) := addVarsObj boolVar (deltaCoeffs cs y 0) m
    let m := (m.setOffset cc).setMax false
    let m := ((X.rows.zip y).zip ds).foldl (fun m q => sampleCons X.nFeat zs q.1.1 q.1.2 q.2 m) m
    let m := addRow m (some 0) (some s.D) ((List.range X.nFeat).map (fun j => (zs.getD j 0, 1)))
    .ok { s with
      generated := true
      zVars := zs
      deltaVars := ds
      solver := m }

/-- A loop `objective.SetCoefficient(vars[i], coeffs[i])`. -/
def setObjs : List (ℕ × ℚ) → Model → Model
  | [], m => m
  | t :: ts, m => setObjs ts (m.setObj t.1 t.2)

/-- `BDRSubProblem.update_objective`, `_bdr_classifier.py:527-556` (same number of features and samples as at creation). -/
def Sub.updateObjective (s : Sub) (X : Data) (y : List ℕ) (cc : ℚ) (cs : List ℚ) : Except Err Sub :=
  if s.generated = false then .error .assertionError
  else
    let m := setObjs ((List.range X.nFeat).map (fun i => (s.zVars.getD i 0, cc))) s.solver
    let m := setObjs (s.deltaVars.zip (deltaCoeffs cs y 0)) m
    .ok { s with solver := (m.setOffset cc).setMax false }

/-- The model solved by `generate_columns`, `_bdr_classifier.py:575-588`: assertions on the duals, then update or creation. -/
def Sub.prepare (s : Sub) (X : Data) (y : List ℕ) (duals : ℚ × List ℚ) : Except Err Sub :=
  if duals.1 < 0 then .error .assertionError
  else if duals.2.any (fun d => d < 0) then .error .assertionError
  else if s.generated then s.updateObjective X y duals.1 duals.2 else s.createSubmip X y duals.1 duals.2

/-- `-1e-6`. -/
def threshold : ℚ := -1 / 1000000

/-- Reading the answer, `_bdr_classifier.py:593-608`. -/
def Sub.readClause (s : Sub) (ans : Answer) : Except Err (List Clause) :=
  if ans.status = .other then .error .assertionError
  else if ans.objective ≥ threshold then .ok []
  else .ok [(List.range s.zVars.length).filter (fun i => ans.values (s.zVars.getD i 0) > 0)]

/-- `BDRSubProblem.generate_columns`, `_bdr_classifier.py:558-608`; `solve` answers for the current model. -/
def Sub.generateColumns (s : Sub) (X : Data) (y : List ℕ) (duals : ℚ × List ℚ) (solve : Model → Answer) :
    Except Err (List Clause) × Sub :=
  match s.prepare X y duals with
  | .error e => (.error e, s)
  | .ok s' => (s'.readClause (solve s'.solver), s')

/-! ## `BDRHeuristic` -/

/-- `itertools.combinations(l, k)`. -/
def combinations : ℕ → List ℕ → List (List ℕ)
  | 0, _ => [[]]
  | _ + 1, [] => []
  | k + 1, x :: xs => (combinations k xs).map (x :: ·) ++ combinations (k + 1) xs

/-- The loop over the samples, `_bdr_classifier.py:762-775`: state (reduced cost, number of positives seen; Python's `pos_ind` is that
number minus one). -/
def heuristicCost (cs : List ℚ) (clause : Clause) : List (List ℚ × ℕ) → ℚ × ℕ → ℚ
  | [], st => st.1
  | (entry, target) :: rest, (cost, seen) =>
    let seen' := if target = 1 then seen + 1 else seen
    if satisfiesClause entry clause = 0 then heuristicCost cs clause rest (cost, seen')
    else if target = 1 then heuristicCost cs clause rest (cost - cs.getD (seen' - 1) 0, seen')
    else heuristicCost cs clause rest (cost + 1, seen')

/-- `BDRHeuristic.generate_columns`, `_bdr_classifier.py:725-778`. -/
def heuristicColumns (K : ℕ) (X : Data) (y : List ℕ) (duals : ℚ × List ℚ) : Except Err (List Clause) :=
  if duals.1 < 0 then .error .assertionError
  else if duals.2.any (fun d => d < 0) then .error .assertionError
  else
    .ok ((List.range K).flatMap (fun k =>
      (combinations (k + 1) (List.range X.nFeat)).filter (fun clause =>
        heuristicCost duals.2 clause (X.rows.zip y) (duals.1 * (1 + clause.length), 0) < threshold)))

/-! ## `predict` -/

/-- The inner loops of `predict`, `_bdr_classifier.py:698-701`. -/
def predictRow (explanation : List Clause) (row : List ℚ) : ℕ :=
  match explanation with
  | [] => 0
  | c :: cs => if satisfiesClause row c ≠ 0 then 1 else predictRow cs row

/-- `BooleanDecisionRuleClassifier.predict`, `_bdr_classifier.py:677-703`. -/
def predict (classes : List ℤ) (explanation : List Clause) (X : List (List ℚ)) : Except Err (List ℤ) :=
  Sk.inverseTransform classes (X.map (fun row => (predictRow explanation row : ℤ)))

end Verif.BDR
