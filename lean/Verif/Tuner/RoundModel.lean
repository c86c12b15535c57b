import Verif.Fl
import Verif.Tuner.Spec

/-!
# Model of `_parameter_tuner.py` with rounded arithmetic

The same functions as in `Tuner/Model.lean`, with the result of every operation on floats rounded by `rnd` (`Verif/Fl.lean`). An integer operand of a
float operation is converted first, which rounds it. Scores may be Python integers (`-2`); sums, products and quotients of small integers are
those of the equal floats. The state is that of the exact model over `ℚ`.
-/

namespace Verif.Tuner.Round

variable {V : Type} (rnd : ℚ → ℚ)

/-- `RunningStat.push`, `_parameter_tuner.py:17-31`. -/
def push (s : RunningStat ℚ) (x : ℚ) : RunningStat ℚ :=
  let n := s.numData + 1
  if n = 1 then
    { s with numData := n, oldMean := x, newMean := x, oldStd := 0 }
  else
    let newMean := rnd (s.oldMean + rnd (rnd (x - s.oldMean) / rnd n))
    let newStd := rnd (s.oldStd + rnd (rnd (x - s.oldMean) * rnd (x - newMean)))
    { numData := n, oldMean := newMean, newMean := newMean, oldStd := newStd, newStd := newStd }

/-- `RunningStat.variance`, `_parameter_tuner.py:39-42`; the subtraction is one of integers. -/
def variance (s : RunningStat ℚ) : ℚ := if s.numData > 1 then rnd (s.newStd / rnd ((s.numData - 1 : ℕ) : ℚ)) else 0

/-- `RunningStat.standard_deviation`, `_parameter_tuner.py:44-45`. -/
def standardDeviation (sqrt : ℚ → ℚ) (s : RunningStat ℚ) : Except Err ℚ :=
  if variance rnd s < 0 then .error .valueError else .ok (sqrt (variance rnd s))

/-- `Parameter.adjust_score`, `_parameter_tuner.py:68-75`. -/
def adjustScore (p : Parameter ℚ V) (score : ℚ) (index : Option ℤ) : Except Err (Parameter ℚ V) :=
  match p.scoreIndex index with
  | none => .error .indexError
  | some i =>
    let scores := p.scores.modify i (push rnd · score)
    let counts := p.counts.modify i (· + 1)
    .ok { p with
      scores := scores
      counts := counts
      totalCounts := p.totalCounts + 1
      finalScores := p.finalScores.modify i (fun _ =>
        rnd ((scores[i]?.getD RunningStat.new).mean + rnd (p.cFac / rnd ((counts[i]?.getD 0 : ℕ) : ℚ)))) }

/-- The loop `_parameter_tuner.py:103-110`. -/
def significant (sqrt : ℚ → ℚ) (fs : List ℚ) (scores : List (RunningStat ℚ)) (best : ℕ) : List ℕ → Except Err (List ℕ)
  | [] => .ok []
  | i :: is => do
    let sd ← standardDeviation rnd sqrt (scores[i]?.getD RunningStat.new)
    let rest ← significant sqrt fs scores best is
    if rnd (fs[i]?.getD 0 + rnd (sd / 10)) ≥ fs[best]?.getD 0 then return i :: rest else return rest

/-- The list `bucket` of the exploit branch, `_parameter_tuner.py:95-110`. -/
def exploitBucket (sqrt : ℚ → ℚ) (p : Parameter ℚ V) : Except Err (List ℕ) :=
  let bucket := (List.range p.values.length).filter (fun i => p.counts[i]?.getD 0 < 4)
  if bucket = [] then
    let best := argmaxFrom p.finalScores 0 (List.range p.values.length)
    significant rnd sqrt p.finalScores p.scores best (List.range p.values.length)
  else .ok bucket

/-- The choice made by `get_best_value`, `_parameter_tuner.py:84-117`. -/
def choose (sqrt : ℚ → ℚ) (p : Parameter ℚ V) (d : ℕ) : Except Err (ℕ × ℤ) :=
  if p.exploreCount > 0 then do
    let best ← p.exploreIndex d
    return (best, p.exploreCount - 1)
  else do
    let bucket ← exploitBucket rnd sqrt p
    if bucket.length = 0 then .error .assertionError
    else if bucket.length > 1 then do
      let r ← randrange d bucket.length
      return (bucket[r]?.getD 0, p.exploreCount)
    else return (bucket[0]?.getD 0, p.exploreCount)

/-- `Parameter.get_best_value`, `_parameter_tuner.py:83-120`. -/
def getBestValue (sqrt : ℚ → ℚ) (p : Parameter ℚ V) (d : ℕ) : Except Err (V × Parameter ℚ V) := do
  let (best, e) ← choose rnd sqrt p d
  let v ← pyGet p.values best
  return (v, { p with exploreCount := e, currentIndex := best })

/-- One call; see `Parameter.step`. -/
def step (sqrt : ℚ → ℚ) (p : Parameter ℚ V) : Op ℚ V → Parameter ℚ V
  | .addValue v => p.addValue v
  | .setSwitchFlag z => p.setSwitchFlag z
  | .setExploreCount z => p.setExploreCount z
  | .adjustScore s i => match adjustScore rnd p s i with | .ok p' => p' | .error _ => p
  | .getBest d => match getBestValue rnd sqrt p d with | .ok (_, p') => p' | .error _ => p

/-- Any sequence of calls on a fresh `Parameter(c_fac, name, seed)`. -/
def run (sqrt : ℚ → ℚ) (cFac : ℚ) (ops : List (Op ℚ V)) : Parameter ℚ V := ops.foldl (step rnd sqrt) (Parameter.new cFac)

/-- The time and gap scores of `solve_model`, `_col_gen_classifier.py:213-227`. -/
def scoresOf (ans : CpAnswer ℚ) (timeLimit : ℚ) : Except Err (ℚ × ℚ) :=
  if timeLimit = 0 then .error .zeroDivisionError
  else
    match ans.status with
    | .optimal => .ok (rnd (ans.wallTime / timeLimit), 0)
    | .feasible =>
      if rnd (ans.objective * ans.bound) ≥ 0 then
        if max |ans.objective| |ans.bound| = 0 then .error .zeroDivisionError
        else .ok (1, rnd (|rnd (ans.objective - ans.bound)| / max |ans.objective| |ans.bound|))
      else .ok (1, 1)
    | .other => .ok (1, 1)

/-- The number passed to `adjust_score`, `_col_gen_classifier.py:229, 245`. -/
def totalScore (q : ℚ × ℚ) : ℚ := -rnd (q.1 + q.2)

end Verif.Tuner.Round
