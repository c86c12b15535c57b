import Verif.Fit.Props

/-!
# Concrete runs of `fit`: the hypotheses of C01 - C12 are satisfiable, and the witness against C11
-/

namespace Verif.Fit.Demo

open Spec

/-- World: clock ticks, number of accepted columns, number of columns the master will still accept. -/
structure DW where
  ticks : ℕ
  accepted : ℕ
  room : ℕ

/-- A small master and subproblems: level 0 offers one column only while nothing was accepted, level 1 always offers two;
the master accepts while there is room. -/
def env : Env DW ℕ ℕ where
  clock w := ((w.ticks : ℚ), { w with ticks := w.ticks + 1 })
  generateMp _ w := (.ok (), w)
  solveRmp w := (.ok w.accepted, w)
  improved w := (.ok (decide (0 < w.accepted)), w)
  resetFlag w := some (w.accepted == 1)
  clearReset w := w
  update _ _ _ w := (.ok (), w)
  generate l _ d w := (.ok (if l = 0 then (if d = 0 then [7] else []) else [8, 9]), w)
  addColumn _ w := if 0 < w.room then
      (.ok true, { w with
        room := w.room - 1
        accepted := w.accepted + 1 })
    else (.ok false, w)
  solveIp w := (.ok true, w)

def cfg (max : ℤ) (limit : ℚ) : Config := { maxIterations := max, timeLimit := limit, shape := [1, 2], rmpIsIp := true }

def est0 : Est := ⟨false, [], 0, 0, 0, false, false, [], [], 0, 0, 0, 0, 0⟩

/-- Summary of a run. -/
def summary (r : Option (Except Err Unit × St DW ℕ ℕ)) :
    Option ((List Bool × List ℕ) × List (List ℕ) × List (List (ℕ × ℕ))) :=
  r.map fun r => (([r.2.est.isFitted, r.2.est.mpOptimal, r.2.est.timeLimitReached], [r.2.est.iter, r.2.est.performedIter]),
    r.2.est.numColAdded, [accPos r.2.trace, genPos (round r.2.trace)])

/-- Room for three columns, no limits: optimal after three iterations; both levels contributed. -/
example : summary (fit env (cfg (-1) 0) 10 [5, 3, 5] est0 ⟨0, 0, 3⟩) =
    some (([true, true, false], [3, 0]), [[1], [2, 0]], [[(0, 0), (1, 0), (1, 0)], [(0, 0), (1, 0), (1, 1)]]) := by
  decide +kernel

/-- Iteration limit 2. -/
example : summary (fit env (cfg 2 0) 10 [5, 3, 5] est0 ⟨0, 0, 30⟩) =
    some (([true, false, false], [2, 0]), [[1], [2, 0]], [[(0, 0), (1, 0), (1, 0)], [(0, 0), (1, 0)]]) := by
  decide +kernel

/-- Time limit: the check before (1,0) in the second iteration is too late. -/
example : summary (fit env (cfg (-1) 10) 10 [5, 3, 5] est0 ⟨0, 0, 30⟩) =
    some (([true, false, true], [2, 0]), [[1], [0, 0]], [[(0, 0)], [(0, 0)]]) := by
  decide +kernel

/-- A single class. -/
example : (fit env (cfg (-1) 0) 10 [5, 5] est0 ⟨0, 0, 3⟩).map (fun r => (r.1.toOption, r.2.trace.length)) = some (none, 1) := by
  decide +kernel

/-- Without room for an unbounded number of columns the loop ends, with it the fuel runs out (so C07's hypothesis matters). -/
example : (fit env (cfg (-1) 0) 40 [5, 3] est0 ⟨0, 0, 1000⟩).isNone = true := by decide +kernel

/-- A failing `solve_ip`: `AssertionError`, not fitted. -/
example : (fit { env with solveIp := fun w => (.ok false, w) } (cfg (-1) 0) 10 [5, 3, 5] est0 ⟨0, 0, 3⟩).map
    (fun r => (match r.1 with | .error .assertionError => true | _ => false, r.2.est.isFitted)) = some (true, false) := by
  decide +kernel

/-- A raising subproblem at level 1: the run ends with that exception after the level 0 call. -/
example : (fit { env with generate := fun l i d w => if l = 1 then (.error .keyError, w) else env.generate l i d w }
    (cfg (-1) 0) 10 [5, 3, 5] est0 ⟨0, 0, 3⟩).map
    (fun r => (match r.1 with | .error .keyError => true | _ => false, genPos (round r.2.trace))) =
      some (true, [(0, 0), (1, 0)]) := by
  decide +kernel

/-- C11 is false: a run that returns with `performed_iter_ ≠ iter_`. -/
theorem C11_performed_iter_false :
    ∃ (s : St DW ℕ ℕ), fit env (cfg (-1) 0) 10 [5, 3, 5] est0 ⟨0, 0, 3⟩ = some (.ok (), s) ∧
      s.est.performedIter ≠ s.est.iter ∧ s.est.iter = numRmp s.trace := by
  have h : ((fit env (cfg (-1) 0) 10 [5, 3, 5] est0 ⟨0, 0, 3⟩).map (fun r => r.1.toOption)) = some (some ()) := by
    decide +kernel
  cases hr : fit env (cfg (-1) 0) 10 [5, 3, 5] est0 ⟨0, 0, 3⟩ with
  | none => rw [hr] at h; cases h
  | some r =>
    obtain ⟨res, s⟩ := r
    cases res with
    | error e => rw [hr] at h; simp [Except.toOption] at h
    | ok u =>
      refine ⟨s, rfl, ?_, (C01_iteration_limit hr).1⟩
      have := C11_performed_iter_partial hr
      omega

/-- C07's hypothesis holds with `N = room` for the demo environment, by the invariant "accepted + room is constant". -/
example (y : List ℤ) (t k : ℕ) (max : ℤ) (limit : ℚ) :
    ∃ r, fit env (cfg max limit) (k + 1) y est0 ⟨t, 0, k⟩ = some r := by
  refine C07_invariant (J := fun w tr => (accPos tr).length + w.room = k) ?_ (by simp [accPos]) k
    (fun w tr _ h => by omega)
  constructor
  all_goals intros; simp_all [accPos, accepted?, env, List.filterMap_append, List.filterMap_cons]
  · rename_i w tr _ _ _ h
    by_cases h0 : 0 < w.room
    · simp [h0]; omega
    · simp [h0, h]

end Verif.Fit.Demo
