import Verif.BDR.PriceProps
import Verif.Fit.Guided

/-!
# `BooleanDecisionRuleClassifier.fit`: the column generation loop on the Boolean decision rule master and pricing problems

The objects of `_bdr_classifier.py` as plug-ins of the loop model (`Verif/Fit/Model.lean`). The three solvers and the clock are an
arbitrary `Oracle` whose answers may depend on a hidden state that changes with every call.
-/

namespace Verif.BDR

open MP

/-- The solvers (LP of the master, integer program of the pricing problem, integer program of the master) and the clock. -/
structure Oracle (Ω : Type) where
  clock : Ω → ℚ × Ω
  lp : Model → Ω → Answer × Ω
  mip : Model → Ω → Answer × Ω
  ip : Model → Ω → Answer × Ω

/-- A subproblem object: `BDRHeuristic(K)` or `BDRSubProblem(D, ..)`. -/
inductive Kind where
  | heuristic (K : ℕ)
  | exact (D : ℚ)
  deriving DecidableEq

/-- `subproblems` of `BooleanDecisionRuleClassifier.__init__`, `_bdr_classifier.py:659-660`. -/
def plainKinds (C : ℚ) : List (List Kind) := [[.exact C]]

/-- `subproblems` of `BooleanDecisionRuleClassifierWithHeuristic.__init__`, `_bdr_classifier.py:832-834`. -/
def heuristicKinds (C : ℚ) : List (List Kind) := [[.heuristic 1], [.exact C]]

/-- `subproblems[l][i]`. -/
def kindAt (kinds : List (List Kind)) (l i : ℕ) : Option Kind := (kinds[l]?).bind (fun row => row[i]?)

/-- The objects reachable from the classifier during `fit`; `y` is the local `processed_y` of `fit`, `ω` the hidden state of the
solvers. -/
structure World (Ω : Type) where
  master : Master
  subs : ℕ → ℕ → Sub
  y : List ℕ
  ω : Ω

variable {Ω : Type}

/-- A newly constructed classifier. -/
def World.init (C p : ℚ) (kinds : List (List Kind)) (ω : Ω) : World Ω :=
  { master := Master.new C p
    subs := fun l i => match kindAt kinds l i with
      | some (.exact D) => Sub.new D
      | _ => Sub.new 0
    y := []
    ω := ω }

/-- Replace the subproblem at one position. -/
def setSub (subs : ℕ → ℕ → Sub) (l i : ℕ) (s : Sub) : ℕ → ℕ → Sub :=
  fun l' i' => if l' = l ∧ i' = i then s else subs l' i'

/-- `subproblems[l][i].generate_columns(X, y, d)`. The hidden solver state also advances when the call raises before solving (the run is
over then). -/
def generateAt (o : Oracle Ω) (X : Data) (kinds : List (List Kind)) (l i : ℕ) (d : ℚ × List ℚ) (w : World Ω) :
    Except Err (List Clause) × World Ω :=
  match kindAt kinds l i with
  | none => (.error .indexError, w)
  | some (.heuristic K) => (heuristicColumns K X w.y d, w)
  | some (.exact _) =>
    let r := (w.subs l i).generateColumns X w.y d (fun m => (o.mip m w.ω).1)
    (r.1, { w with
      subs := setSub w.subs l i r.2
      ω := (o.mip r.2.solver w.ω).2 })

/-- The plug-ins. `rmp_objective_improved` and `update_subproblem` are the defaults of the base classes
(`_col_gen_classifier.py:78-82`, `:164-178`); there is no `reset_timer_` attribute. -/
def env (o : Oracle Ω) (X : Data) (kinds : List (List Kind)) : Fit.Env (World Ω) (ℚ × List ℚ) Clause where
  clock w := ((o.clock w.ω).1, { w with ω := (o.clock w.ω).2 })
  generateMp y w := (.ok (), { w with
    master := w.master.generateMp X y
    y := y })
  solveRmp w := (w.master.solveRmp (o.lp w.master.solver w.ω).1, { w with ω := (o.lp w.master.solver w.ω).2 })
  improved w := (.ok false, w)
  resetFlag _ := none
  clearReset w := w
  update _ _ _ w := (.ok (), w)
  generate l i d w := generateAt o X kinds l i d w
  addColumn c w := ((w.master.addColumn c).1, { w with master := (w.master.addColumn c).2 })
  solveIp w := ((w.master.solveIp (fun m => (o.ip m w.ω).1)).1,
    { w with
      master := (w.master.solveIp (fun m => (o.ip m w.ω).1)).2
      ω := (o.ip w.master.solver w.ω).2 })

/-- The arguments handed to `ColGenClassifier.__init__`: `rmp_is_ip=True`, `_bdr_classifier.py:655-664`. -/
def config (kinds : List (List Kind)) (maxIterations : ℤ) (timeLimit : ℚ) : Fit.Config :=
  { maxIterations := maxIterations, timeLimit := timeLimit, shape := kinds.map List.length, rmpIsIp := true }

/-- `fit` of a newly constructed classifier. -/
def fitNew (o : Oracle Ω) (C p : ℚ) (kinds : List (List Kind)) (maxIterations : ℤ) (timeLimit : ℚ) (X : Data) (fuel : ℕ) (y : List ℤ)
    (e0 : Fit.Est) (ω : Ω) : Option (Except Err Unit × Fit.St (World Ω) (ℚ × List ℚ) Clause) :=
  Fit.fit (env o X kinds) (config kinds maxIterations timeLimit) fuel y e0 (World.init C p kinds ω)

end Verif.BDR
