import Mathlib.Algebra.Order.Field.Basic
import Mathlib.Algebra.Order.Ring.Abs
import Mathlib.Data.Int.Bitwise
import Verif.Py

/-!
# Model of `col_gen_estimator/_parameter_tuner.py` and of `BaseSubproblem.solve_model`

Numbers are elements of an arbitrary linearly ordered field `K` (exact arithmetic instead of IEEE floats).
`math.sqrt` is a parameter `sqrt : K → K`; the model raises `ValueError` on negative arguments as Python does.
-/

namespace Verif.Tuner

variable {K : Type} [Field K] [LinearOrder K] {V : Type}

/-- `RunningStat` fields, `_parameter_tuner.py:6-12`. -/
structure RunningStat (K : Type) where
  numData : ℕ
  oldMean : K
  newMean : K
  oldStd : K
  newStd : K
  deriving DecidableEq

/-- `RunningStat.__init__`, `_parameter_tuner.py:7-12`. -/
def RunningStat.new : RunningStat K := ⟨0, 0, 0, 0, 0⟩

/-- `RunningStat.clear`, `_parameter_tuner.py:14-15`: only the counter is reset. -/
def RunningStat.clear (s : RunningStat K) : RunningStat K := { s with numData := 0 }

/-- `RunningStat.push`, `_parameter_tuner.py:17-31`. In the first branch `new_std_` keeps its old value. -/
def RunningStat.push (s : RunningStat K) (x : K) : RunningStat K :=
  let n := s.numData + 1
  if n = 1 then
    { s with numData := n, oldMean := x, newMean := x, oldStd := 0 }
  else
    let newMean := s.oldMean + (x - s.oldMean) / (n : K)
    let newStd := s.oldStd + (x - s.oldMean) * (x - newMean)
    { numData := n, oldMean := newMean, newMean := newMean, oldStd := newStd, newStd := newStd }

/-- `RunningStat.num_data_values`, `_parameter_tuner.py:33-34`. -/
def RunningStat.numDataValues (s : RunningStat K) : ℕ := s.numData

/-- `RunningStat.mean`, `_parameter_tuner.py:36-37`. -/
def RunningStat.mean (s : RunningStat K) : K := if s.numData > 0 then s.newMean else 0

/-- `RunningStat.variance`, `_parameter_tuner.py:39-42`. -/
def RunningStat.variance (s : RunningStat K) : K :=
  if s.numData > 1 then s.newStd / ((s.numData : K) - 1) else 0

/-- `RunningStat.standard_deviation`, `_parameter_tuner.py:44-45`; `math.sqrt` raises `ValueError` below 0. -/
def RunningStat.standardDeviation (sqrt : K → K) (s : RunningStat K) : Except Err K :=
  if s.variance < 0 then .error .valueError else .ok (sqrt s.variance)

/-- `Parameter` fields, `_parameter_tuner.py:48-60`. `name_` is dropped (only printed); the generator `mt_` is
replaced by an explicit draw argument of `getBestValue`. -/
structure Parameter (K V : Type) where
  values : List V
  scores : List (RunningStat K)
  finalScores : List K
  counts : List ℕ
  cFac : K
  currentIndex : ℕ
  totalCounts : ℕ
  exploreCount : ℤ
  switchFlag : ℤ

/-- `Parameter.__init__`, `_parameter_tuner.py:49-60`. -/
def Parameter.new (cFac : K) : Parameter K V :=
  { values := [], scores := [], finalScores := [], counts := [], cFac := cFac,
    currentIndex := 0, totalCounts := 0, exploreCount := 10, switchFlag := 1 }

/-- `Parameter.set_switch_flag`, `_parameter_tuner.py:62-63`. -/
def Parameter.setSwitchFlag (p : Parameter K V) (v : ℤ) : Parameter K V := { p with switchFlag := v }

/-- `Parameter.set_explore_count`, `_parameter_tuner.py:65-66`. -/
def Parameter.setExploreCount (p : Parameter K V) (v : ℤ) : Parameter K V := { p with exploreCount := v }

/-- The position a call `adjust_score(score, index)` writes to: `_parameter_tuner.py:69-70` and Python indexing of
`self.scores_` (negative indices wrap around). `none` means `IndexError`. -/
def Parameter.scoreIndex (p : Parameter K V) (index : Option ℤ) : Option ℕ :=
  match index with
  | none => pyIdx p.scores.length (p.currentIndex : ℤ)
  | some i => pyIdx p.scores.length i

/-- `Parameter.adjust_score`, `_parameter_tuner.py:68-75`. On `IndexError` (raised by the first list access) nothing was
changed. `Except` carries no state because of that. -/
def Parameter.adjustScore (p : Parameter K V) (score : K) (index : Option ℤ) : Except Err (Parameter K V) :=
  match p.scoreIndex index with
  | none => .error .indexError
  | some i =>
    let scores := p.scores.modify i (·.push score)
    let counts := p.counts.modify i (· + 1)
    .ok { p with
      scores := scores
      counts := counts
      totalCounts := p.totalCounts + 1
      finalScores := p.finalScores.modify i (fun _ =>
        (scores[i]?.getD RunningStat.new).mean + p.cFac / ((counts[i]?.getD 0 : ℕ) : K)) }

/-- `Parameter.add_value`, `_parameter_tuner.py:77-81`. -/
def Parameter.addValue (p : Parameter K V) (v : V) : Parameter K V :=
  { p with
    values := p.values ++ [v]
    scores := p.scores ++ [RunningStat.new]
    finalScores := p.finalScores ++ [5]
    counts := p.counts ++ [0] }

/-- `self.mt_.randrange(n)`: any number below `n`, `ValueError` for `n = 0`. The draw `d` is an arbitrary number. -/
def randrange (d n : ℕ) : Except Err ℕ := if n = 0 then .error .valueError else .ok (d % n)

/-- The loop `_parameter_tuner.py:99-101`: index of the (first) largest final score, starting from `best`. -/
def argmaxFrom (fs : List K) (best : ℕ) : List ℕ → ℕ
  | [] => best
  | i :: is => argmaxFrom fs (if fs[i]?.getD 0 > fs[best]?.getD 0 then i else best) is

/-- The loop `_parameter_tuner.py:103-110`: all indices whose final score plus a tenth of the standard deviation reaches
the best final score; `standard_deviation` can raise. -/
def significant (sqrt : K → K) (fs : List K) (scores : List (RunningStat K)) (best : ℕ) :
    List ℕ → Except Err (List ℕ)
  | [] => .ok []
  | i :: is => do
    let sd ← (scores[i]?.getD RunningStat.new).standardDeviation sqrt
    let rest ← significant sqrt fs scores best is
    if fs[i]?.getD 0 + sd / 10 ≥ fs[best]?.getD 0 then return i :: rest else return rest

/-- The position chosen while exploring, `_parameter_tuner.py:87-92`.
`switch_flag_ & explore_count_ > 0` parses as `(switch_flag_ & explore_count_) > 0`. -/
def Parameter.exploreIndex (p : Parameter K V) (d : ℕ) : Except Err ℕ :=
  if p.values.length = 2 then
    .ok (if Int.land p.switchFlag p.exploreCount > 0 then 1 else 0)
  else randrange d p.values.length

/-- The list `bucket` of the exploit branch, `_parameter_tuner.py:95-110`. -/
def Parameter.exploitBucket (sqrt : K → K) (p : Parameter K V) : Except Err (List ℕ) :=
  let bucket := (List.range p.values.length).filter (fun i => p.counts[i]?.getD 0 < 4)
  if bucket = [] then
    let best := argmaxFrom p.finalScores 0 (List.range p.values.length)
    significant sqrt p.finalScores p.scores best (List.range p.values.length)
  else .ok bucket

/-- The choice made by `get_best_value` (the index and the new explore counter), `_parameter_tuner.py:84-117`. -/
def Parameter.choose (sqrt : K → K) (p : Parameter K V) (d : ℕ) : Except Err (ℕ × ℤ) :=
  if p.exploreCount > 0 then do
    let best ← p.exploreIndex d
    return (best, p.exploreCount - 1)
  else do
    let bucket ← p.exploitBucket sqrt
    if bucket.length = 0 then .error .assertionError
    else if bucket.length > 1 then do
      let r ← randrange d bucket.length
      return (bucket[r]?.getD 0, p.exploreCount)
    else return (bucket[0]?.getD 0, p.exploreCount)

/-- `Parameter.get_best_value`, `_parameter_tuner.py:83-120`. The errors it can raise (`randrange(0)`, the assertion) are
raised before any field is written. -/
def Parameter.getBestValue (sqrt : K → K) (p : Parameter K V) (d : ℕ) : Except Err (V × Parameter K V) := do
  let (best, e) ← p.choose sqrt d
  let v ← pyGet p.values best
  return (v, { p with exploreCount := e, currentIndex := best })

/-- A call of the public interface of `Parameter`; `getBest` carries the value drawn from the random generator. -/
inductive Op (K V : Type) where
  | addValue (v : V)
  | setSwitchFlag (z : ℤ)
  | setExploreCount (z : ℤ)
  | adjustScore (score : K) (index : Option ℤ)
  | getBest (d : ℕ)

/-- One call. A raising call leaves the object unchanged (see `adjustScore`, `getBestValue`). -/
def Parameter.step (sqrt : K → K) (p : Parameter K V) : Op K V → Parameter K V
  | .addValue v => p.addValue v
  | .setSwitchFlag z => p.setSwitchFlag z
  | .setExploreCount z => p.setExploreCount z
  | .adjustScore s i => match p.adjustScore s i with | .ok p' => p' | .error _ => p
  | .getBest d => match p.getBestValue sqrt d with | .ok (_, p') => p' | .error _ => p

/-- Any sequence of calls on a fresh `Parameter(c_fac, name, seed)`. -/
def run (sqrt : K → K) (cFac : K) (ops : List (Op K V)) : Parameter K V :=
  ops.foldl (Parameter.step sqrt) (Parameter.new cFac)

/-! ## `BaseSubproblem` -/

/-- The CP-SAT status values that `solve_model` distinguishes, `_col_gen_classifier.py:216-227`. -/
inductive CpStatus where
  | optimal | feasible | other
  deriving DecidableEq

/-- What `cp_solver_.Solve` and the three getters return, `_col_gen_classifier.py:211-220`. -/
structure CpAnswer (K : Type) where
  status : CpStatus
  wallTime : K
  objective : K
  bound : K

/-- The part of `BaseSubproblem` that `solve_model` uses, `_col_gen_classifier.py:111-116`. The dictionary
`tunable_params_` has exactly the three keys created in `get_tunable_params`. `hasCpSolver` is
`self.cp_solver_ is not None`. -/
structure SolveState (K : Type) where
  hasCpSolver : Bool
  presolve : Parameter K ℤ
  probing : Parameter K ℤ
  lns : Parameter K ℤ
  solveTimes : List K
  gaps : List K

/-- `BaseSubproblem.get_tunable_params`, `_col_gen_classifier.py:118-146`: `max_presolve_iterations`. -/
def presolveIterations : Parameter K ℤ :=
  ((((Parameter.new (3/10)).addValue 3).addValue 4).addValue 2).setExploreCount 15

/-- `cp_model_probing_level`, `_col_gen_classifier.py:135-139`. -/
def probingLevel : Parameter K ℤ :=
  (((Parameter.new (3/10)).addValue 2).addValue 1).setSwitchFlag (2 ^ 1)

/-- `min_num_lns_workers`, `_col_gen_classifier.py:141-145`. -/
def lnsWorkers : Parameter K ℤ :=
  (((Parameter.new (3/10)).addValue 2).addValue 0).setSwitchFlag (2 ^ 2)

/-- `BaseSubproblem.__init__`, `_col_gen_classifier.py:111-116`. -/
def SolveState.new : SolveState K :=
  { hasCpSolver := true, presolve := presolveIterations, probing := probingLevel, lns := lnsWorkers,
    solveTimes := [], gaps := [] }

/-- The solver parameters set by one `solve_model` call, `_col_gen_classifier.py:196-206`. -/
structure CpParams (K : Type) where
  numSearchWorkers : ℕ
  maxTime : K
  minNumLnsWorkers : ℤ
  probingLevel : ℤ
  maxPresolveIterations : ℤ

/-- The time and gap scores, `_col_gen_classifier.py:213-227`. Python raises `ZeroDivisionError` when dividing by zero. -/
def scoresOf (ans : CpAnswer K) (timeLimit : K) : Except Err (K × K) :=
  if timeLimit = 0 then .error .zeroDivisionError
  else
    match ans.status with
    | .optimal => .ok (ans.wallTime / timeLimit, 0)
    | .feasible =>
      if ans.objective * ans.bound ≥ 0 then
        if max |ans.objective| |ans.bound| = 0 then .error .zeroDivisionError
        else .ok (1, |ans.objective - ans.bound| / max |ans.objective| |ans.bound|)
      else .ok (1, 1)
    | .other => .ok (1, 1)

/-- `BaseSubproblem.solve_model`, `_col_gen_classifier.py:180-248`. `draws` are the random draws of the three
`get_best_value` calls (in call order: lns, probing, presolve), `ans` the solver's answer to the configured solve.
Returns what the solver was configured with (`none` if nothing was solved), the raised error if any, and the new state: the
choices of `get_best_value` stay even if a later line raises. -/
def SolveState.solveModel (sqrt : K → K) (s : SolveState K) (draws : ℕ × ℕ × ℕ) (timeLimit : K)
    (ans : CpParams K → CpAnswer K) : Option (CpParams K) × Except Err Unit × SolveState K :=
  if s.hasCpSolver = false then (none, .ok (), s)
  else
    match s.lns.getBestValue sqrt draws.1 with
    | .error e => (none, .error e, s)
    | .ok (vl, lns) =>
      match s.probing.getBestValue sqrt draws.2.1 with
      | .error e => (none, .error e, { s with lns := lns })
      | .ok (vp, probing) =>
        match s.presolve.getBestValue sqrt draws.2.2 with
        | .error e => (none, .error e, { s with lns := lns, probing := probing })
        | .ok (vm, presolve) =>
          let cfg : CpParams K :=
            { numSearchWorkers := 7, maxTime := timeLimit, minNumLnsWorkers := vl, probingLevel := vp,
              maxPresolveIterations := vm }
          let s1 : SolveState K := { s with lns := lns, probing := probing, presolve := presolve }
          let a := ans cfg
          match scoresOf a timeLimit with
          | .error e => (some cfg, .error e, s1)
          | .ok (timeScore, gapScore) =>
            let total := timeScore + gapScore
            let s2 : SolveState K :=
              { s1 with solveTimes := s1.solveTimes ++ [a.wallTime], gaps := s1.gaps ++ [gapScore] }
            -- dictionary order: presolve, probing, lns (`_col_gen_classifier.py:244-245`)
            match s2.presolve.adjustScore (-total) none with
            | .error e => (some cfg, .error e, s2)
            | .ok presolve' =>
              match s2.probing.adjustScore (-total) none with
              | .error e => (some cfg, .error e, { s2 with presolve := presolve' })
              | .ok probing' =>
                match s2.lns.adjustScore (-total) none with
                | .error e => (some cfg, .error e, { s2 with presolve := presolve', probing := probing' })
                | .ok lns' =>
                  (some cfg, .ok (), { s2 with presolve := presolve', probing := probing', lns := lns' })

end Verif.Tuner
