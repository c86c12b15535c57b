import Verif.Tuner.Model

/-!
# Specification for the tuner

Only textbook notions (mean, sample variance) and an abstract score log; nothing here mentions the fields of the model
except the list of registered values.
-/

namespace Verif.Tuner.Spec

variable {K : Type} [Field K] [LinearOrder K] {V : Type}

/-- A call on a `RunningStat`. -/
inductive StatOp (K : Type) where
  | push (x : K)
  | clear

/-- The value pushed by a call, if it is a push. -/
def StatOp.pushed? : StatOp K → Option K
  | .push x => some x
  | .clear => none

/-- The values pushed since the last `clear`. -/
def sinceClear (ops : List (StatOp K)) : List K :=
  (ops.reverse.takeWhile (fun o => o.pushed?.isSome)).reverse.filterMap StatOp.pushed?

/-- Arithmetic mean, 0 for the empty list. -/
def mean (xs : List K) : K := if xs = [] then 0 else xs.sum / (xs.length : K)

/-- Unbiased sample variance, 0 for fewer than two values. -/
def sampleVariance (xs : List K) : K :=
  if xs.length < 2 then 0
  else (xs.map (fun x => (x - mean xs) ^ 2)).sum / ((xs.length : K) - 1)

/-- Abstract view of a `Parameter`: registered values, log of credited scores, position last returned. -/
structure Abs (K V : Type) where
  values : List V
  log : List (ℕ × K)
  last : ℕ

/-- Abstract effect of a call; `choice` is the position returned by the call if it is a `get_best_value`. -/
def Abs.step (a : Abs K V) : Op K V × ℕ → Abs K V
  | (.addValue v, _) => { a with values := a.values ++ [v] }
  | (.setSwitchFlag _, _) => a
  | (.setExploreCount _, _) => a
  | (.adjustScore s none, _) =>
      if a.last < a.values.length then { a with log := a.log ++ [(a.last, s)] } else a
  | (.adjustScore s (some z), _) =>
      if -(a.values.length : ℤ) ≤ z ∧ z < a.values.length then
        { a with log := a.log ++ [((z % (a.values.length : ℤ)).toNat, s)] }
      else a
  | (.getBest _, choice) => if a.values = [] then a else { a with last := choice }

/-- The scores credited to position `i`. -/
def Abs.scoresOf (a : Abs K V) (i : ℕ) : List K := (a.log.filter (fun e => e.1 = i)).map (·.2)

/-- Abstract state after a history in which the `k`-th call was answered with position `choices[k]`. -/
def absRun (calls : List (Op K V × ℕ)) : Abs K V := calls.foldl Abs.step ⟨[], [], 0⟩

/-- The final score rule: 5 when never scored, otherwise mean plus `c_fac / count`. -/
def finalScore (cFac : K) (xs : List K) : K := if xs = [] then 5 else mean xs + cFac / (xs.length : K)

end Verif.Tuner.Spec
