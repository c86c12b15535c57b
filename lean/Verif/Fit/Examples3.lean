import Verif.Fit.Examples
import Verif.Fit.TimeProps
import Verif.Fit.Raised

/-!
# Concrete runs for C82
-/

namespace Verif.Fit.Demo

open Spec

/-- The environment of `Examples.lean` with a slow LP solver; `flag` decides about restarts of the timer. -/
def slow (flag : DW → Bool) : Env DW ℕ ℕ :=
  { env with
    resetFlag := fun w => some (flag w)
    solveRmp := fun w => (.ok w.accepted, { w with ticks := w.ticks + 10 }) }

/-- Master, subproblem, column and integer times and the elapsed time of a run. -/
def timesOf (r : Option (Except Err Unit × St DW ℕ ℕ)) : Option (ℚ × List (List ℚ) × ℚ × ℚ × ℚ) :=
  r.map (fun r => (r.2.est.timeSpentMaster, r.2.est.timeSpentSp, r.2.est.timeAddCol, r.2.est.timeSpentMasterIp, r.2.est.timeElapsed))

theorem slow_time (flag : DW → Bool) : RealTime (slow flag) (fun w => (w.ticks : ℚ)) where
  clock w := ⟨le_rfl, by simp [slow, env]⟩
  generateMp _ _ := le_rfl
  solveRmp w := by simp [slow]
  improved _ := le_rfl
  update _ _ _ _ := le_rfl
  generate _ _ _ _ := le_rfl
  addColumn c w := by
    simp only [slow, env]
    split_ifs <;> exact le_rfl
  solveIp _ := le_rfl

/-- A run as in C82: three LP solves of 11 ticks, 55 of 95 ticks are booked. -/
example : RealTime (slow fun _ => false) (fun w => (w.ticks : ℚ)) ∧ NoReset (slow fun _ => false) ∧
    timesOf (fit (slow fun _ => false) (cfg (-1) 0) 10 [5, 3, 5] est0 ⟨0, 0, 3⟩) = some (33, [[6], [5, 4]], 6, 1, 95) :=
  ⟨slow_time _, fun w => by simp [slow], by decide +kernel⟩

/-- `NoReset` is needed: when the timer is restarted in the last iteration, the booked times exceed `time_elapsed_`. -/
example : timesOf (fit (slow fun w => w.accepted == 3) (cfg (-1) 0) 10 [5, 3, 5] est0 ⟨0, 0, 3⟩) = some (33, [[6], [5, 4]], 6, 1, 26) := by
  decide +kernel

/-- `C01_limit_always` for a run that raises in its last allowed iteration: the bound is attained. -/
example : (fit { env with generate := fun l i d w => if d = 1 then (.error .keyError, w) else env.generate l i d w }
    (cfg 2 0) 10 [5, 3, 5] est0 ⟨0, 0, 30⟩).map (fun r => (match r.1 with | .error .keyError => true | _ => false, numRmp r.2.trace)) =
      some (true, 2) := by
  decide +kernel

end Verif.Fit.Demo
