import Verif.BDR.Fit
import Verif.DTree.Strict

/-!
# The Boolean decision rule plug-ins with checked accesses

`Verif/BDR/Model.lean` reads 0 or the empty clause where Python would raise `IndexError` or `KeyError`. Here every operation called by `fit`, and
`predict`, lists the accesses that Python performs, in order, and raises at the first one that fails. The lists are exact: an access that
Python skips (because a feature before it is zero, a label does not call for it, or an assertion failed before) is not listed. Indices handed
to `solver_.variable` and `solver_.constraint` are checked too; OR-Tools fails there without a Python exception. The state after a failed call
is not modelled (it is the state before the failed step).
-/

namespace Verif.BDR

open MP
open Verif.DTree (Reads atIndex atKey guarded guardedE)

/-- `entry[index]` in `satisfies_clause`, `_bdr_classifier.py:366-368`: up to the first zero. -/
def clauseReads (entry : List ℚ) : Clause → Reads
  | [] => []
  | j :: js => atIndex j entry.length :: (if get entry j = 0 then [] else clauseReads entry js)

/-- `y__[i]` and the accesses of `satisfies_clause` in `get_objective_coeff_mp`, `_bdr_classifier.py:379-386`. -/
def objectiveReads (clause : Clause) : List (List ℚ) → List ℕ → Reads
  | [], _ => []
  | _ :: _, [] => [atIndex 0 0]
  | entry :: X, target :: y => (if target = 1 then [] else clauseReads entry clause) ++ objectiveReads clause X y

/-- The same in `get_clause_coeffs`, `_bdr_classifier.py:399-405`. -/
def coeffReads (clause : Clause) : List (List ℚ) → List ℕ → Reads
  | [], _ => []
  | _ :: _, [] => [atIndex 0 0]
  | entry :: X, target :: y => (if target = 0 then [] else clauseReads entry clause) ++ coeffReads clause X y

/-- Accesses of `generate_mp`, `_bdr_classifier.py:167-234`: both coefficient functions for the first clause, and `coeffs[j]`. -/
def Master.generateReads (X : Data) (y : List ℕ) : Reads :=
  objectiveReads (lexicographicClause 0) X.rows y ++ coeffReads (lexicographicClause 0) X.rows y ++
    (List.range (y.filter (fun v => v > 0)).length).map (fun j => atIndex j (clauseCoeffs X.rows y (lexicographicClause 0)).length)

/-- `generate_mp`, `_bdr_classifier.py:167-234`. -/
def Master.generateMpS (s : Master) (X : Data) (y : List ℕ) : Except Err Unit × Master :=
  if s.generated then (.ok (), s) else guarded (Master.generateReads X y) s (.ok (), s.generateMp X y)

/-- Accesses of `add_column` after the last assertion, `_bdr_classifier.py:268-274`. -/
def Master.columnReads (s : Master) (clause : Clause) : Reads :=
  (List.range s.clauseSatisfaction.length).flatMap (fun j =>
    [atIndex (s.clauseSatisfaction.getD j 0) s.solver.cons.length, atIndex j (clauseCoeffs s.X.rows s.y clause).length]) ++
    [atIndex s.clauseComplexity s.solver.cons.length]

/-- `add_column`, `_bdr_classifier.py:236-275`. -/
def Master.addColumnS (s : Master) (clause : Clause) : Except Err Bool × Master :=
  if s.generated = false ∨ clause.length = 0 ∨ clause ∈ s.clauseDict.map (·.2) then s.addColumn clause
  else
    guarded (objectiveReads clause s.X.rows s.y ++ coeffReads clause s.X.rows s.y) s
      (if s.solver.cons.length - 1 ≠ s.clauseSatisfaction.length then s.addColumn clause
      else guarded (s.columnReads clause) s (s.addColumn clause))

/-- `solve_rmp`, `_bdr_classifier.py:277-309`. -/
def Master.solveRmpS (s : Master) (ans : Answer) : Except Err (ℚ × List ℚ) :=
  if s.generated = false then .error .assertionError
  else
    guardedE (atIndex s.clauseComplexity s.solver.cons.length :: (List.range (s.solver.cons.length - 1)).flatMap (fun i =>
      [atIndex i s.clauseSatisfaction.length, atIndex (s.clauseSatisfaction.getD i 0) s.solver.cons.length])) (s.solveRmp ans)

/-- Accesses of `solve_ip` for the chosen clauses, `_bdr_classifier.py:348-352`. -/
def Master.ipReads (s : Master) (ans : Answer) : Reads :=
  ((List.range (s.solver.vars.length - s.xiVars.length)).filter (fun j => ans.values (s.xiVars.length + j) > 0)).flatMap (fun j =>
    [atIndex j s.clauseVars.length, atIndex (s.clauseVars.getD j 0) s.solver.vars.length, atKey (s.clauseDict.lookup (s.clauseVars.getD j 0))])

/-- `solve_ip`, `_bdr_classifier.py:311-353`. -/
def Master.solveIpS (s : Master) (solve : Model → Answer) : Except Err Bool × Master :=
  match s.solveIp solve with
  | (.ok b, s') => guarded (s.ipReads (solve s.solver)) s (.ok b, s')
  | (.error e, s') => (.error e, s')

/-- `y_[i]` and `cs_duals[n_positive_examples]`, `_bdr_classifier.py:487-497`, `545-551`. -/
def dualReads (cs : List ℚ) : List (List ℚ) → List ℕ → ℕ → Reads
  | [], _, _ => []
  | _ :: _, [], _ => [atIndex 0 0]
  | _ :: X, t :: y, n => if t = 1 then atIndex n cs.length :: dualReads cs X y (n + 1) else dualReads cs X y n

/-- Accesses of `create_submip`, `_bdr_classifier.py:463-525`. -/
def createReads (X : Data) (y : List ℕ) (cs : List ℚ) : Reads :=
  dualReads cs X.rows y 0 ++ X.rows.flatMap (fun row => (List.range X.nFeat).map (fun j => atIndex j row.length))

/-- Accesses of `update_objective`, `_bdr_classifier.py:527-556`. -/
def Sub.updateReads (s : Sub) (X : Data) (y : List ℕ) (cs : List ℚ) : Reads :=
  (List.range X.nFeat).map (fun i => atIndex i s.zVars.length) ++ dualReads cs X.rows y 0 ++
    (List.range X.rows.length).map (fun i => atIndex i s.deltaVars.length)

/-- `solver_.variable(z_vars_[i])`, `_bdr_classifier.py:603-604`. -/
def Sub.varReads (s : Sub) : Reads := s.zVars.map (fun v => atIndex v s.solver.vars.length)

/-- `BDRSubProblem.generate_columns`, `_bdr_classifier.py:558-608`. -/
def Sub.generateColumnsS (s : Sub) (X : Data) (y : List ℕ) (duals : ℚ × List ℚ) (solve : Model → Answer) : Except Err (List Clause) × Sub :=
  if duals.1 < 0 ∨ duals.2.any (fun d => d < 0) = true then (.error .assertionError, s)
  else
    guarded (if s.generated then s.updateReads X y duals.2 else createReads X y duals.2) s
      (match s.prepare X y duals with
      | .error e => (.error e, s)
      | .ok s' => guarded (if (solve s'.solver).status = .other ∨ (solve s'.solver).objective ≥ threshold then [] else s'.varReads) s'
          (s'.readClause (solve s'.solver), s'))

/-- The accesses of the loop over the samples for one clause, `_bdr_classifier.py:762-775`; `n` positive labels came before. -/
def heurReads (cs : List ℚ) (clause : Clause) : List (List ℚ) → List ℕ → ℕ → Reads
  | [], _, _ => []
  | _ :: _, [], _ => [atIndex 0 0]
  | entry :: X, t :: y, n =>
    clauseReads entry clause ++ (if satisfiesClause entry clause ≠ 0 ∧ t = 1 then [atIndex n cs.length] else []) ++
      heurReads cs clause X y (if t = 1 then n + 1 else n)

/-- `BDRHeuristic.generate_columns`, `_bdr_classifier.py:725-778`. -/
def heuristicColumnsS (K : ℕ) (X : Data) (y : List ℕ) (duals : ℚ × List ℚ) : Except Err (List Clause) :=
  if duals.1 < 0 ∨ duals.2.any (fun d => d < 0) = true then .error .assertionError
  else
    guardedE ((List.range K).flatMap (fun k => (combinations (k + 1) (List.range X.nFeat)).flatMap (fun clause => heurReads duals.2 clause X.rows y 0)))
      (heuristicColumns K X y duals)

variable {Ω : Type}

/-- `subproblems[l][i].generate_columns(X, y, d)`. -/
def generateAtS (o : Oracle Ω) (X : Data) (kinds : List (List Kind)) (l i : ℕ) (d : ℚ × List ℚ) (w : World Ω) :
    Except Err (List Clause) × World Ω :=
  match kindAt kinds l i with
  | none => (.error .indexError, w)
  | some (.heuristic K) => (heuristicColumnsS K X w.y d, w)
  | some (.exact _) =>
    let r := (w.subs l i).generateColumnsS X w.y d (fun m => (o.mip m w.ω).1)
    (r.1, { w with
      subs := setSub w.subs l i r.2
      ω := (o.mip r.2.solver w.ω).2 })

/-- The plug-ins with checked accesses. -/
def envS (o : Oracle Ω) (X : Data) (kinds : List (List Kind)) : Fit.Env (World Ω) (ℚ × List ℚ) Clause where
  clock w := ((o.clock w.ω).1, { w with ω := (o.clock w.ω).2 })
  generateMp y w := ((w.master.generateMpS X y).1, { w with
    master := (w.master.generateMpS X y).2
    y := y })
  solveRmp w := (w.master.solveRmpS (o.lp w.master.solver w.ω).1, { w with ω := (o.lp w.master.solver w.ω).2 })
  improved w := (.ok false, w)
  resetFlag _ := none
  clearReset w := w
  update _ _ _ w := (.ok (), w)
  generate l i d w := generateAtS o X kinds l i d w
  addColumn c w := ((w.master.addColumnS c).1, { w with master := (w.master.addColumnS c).2 })
  solveIp w := ((w.master.solveIpS (fun m => (o.ip m w.ω).1)).1,
    { w with
      master := (w.master.solveIpS (fun m => (o.ip m w.ω).1)).2
      ω := (o.ip w.master.solver w.ω).2 })

/-- `fit` of a newly constructed classifier with checked accesses. -/
def fitNewS (o : Oracle Ω) (C p : ℚ) (kinds : List (List Kind)) (maxIterations : ℤ) (timeLimit : ℚ) (X : Data) (fuel : ℕ) (y : List ℤ)
    (e0 : Fit.Est) (ω : Ω) : Option (Except Err Unit × Fit.St (World Ω) (ℚ × List ℚ) Clause) :=
  Fit.fit (envS o X kinds) (config kinds maxIterations timeLimit) fuel y e0 (World.init C p kinds ω)

/-- The accesses of `predict` to one row, `_bdr_classifier.py:698-701`: up to the first clause that is satisfied. -/
def rowReads (row : List ℚ) : List Clause → Reads
  | [] => []
  | c :: cs => clauseReads row c ++ if satisfiesClause row c ≠ 0 then [] else rowReads row cs

/-- `predict`, `_bdr_classifier.py:677-703`, with checked accesses. -/
def predictS (classes : List ℤ) (explanation : List Clause) (X : List (List ℚ)) : Except Err (List ℤ) :=
  guardedE (X.flatMap (fun row => rowReads row explanation)) (predict classes explanation X)

end Verif.BDR
