import Mathlib.Tactic.Linarith
import Verif.Fit.Simulation

/-!
# C83: without time limit the clock has no influence
-/

namespace Verif.Fit

variable {A T T' D Col : Type}

/-- The same objects with another clock. The master and the subproblems do not see the clock (the clock of `base` is not used); the state of
the clock is `T`. -/
def withClock (base : Env A D Col) (clk : T → ℚ × T) : Env (A × T) D Col where
  clock w := ((clk w.2).1, (w.1, (clk w.2).2))
  generateMp y w := ((base.generateMp y w.1).1, ((base.generateMp y w.1).2, w.2))
  solveRmp w := ((base.solveRmp w.1).1, ((base.solveRmp w.1).2, w.2))
  improved w := ((base.improved w.1).1, ((base.improved w.1).2, w.2))
  resetFlag w := base.resetFlag w.1
  clearReset w := (base.clearReset w.1, w.2)
  update l i d w := ((base.update l i d w.1).1, ((base.update l i d w.1).2, w.2))
  generate l i d w := ((base.generate l i d w.1).1, ((base.generate l i d w.1).2, w.2))
  addColumn c w := ((base.addColumn c w.1).1, ((base.addColumn c w.1).2, w.2))
  solveIp w := ((base.solveIp w.1).1, ((base.solveIp w.1).2, w.2))

open Spec

theorem withClock_sim (base : Env A D Col) (clk : T → ℚ × T) (clk' : T' → ℚ × T') :
    Sim (withClock base clk) (withClock base clk') Scope.all (fun w w' => w.1 = w'.1) := by
  constructor <;> intros <;> (try exact trivial) <;> simp_all [withClock]

/-- C83: with `time_limit <= 0`, two runs of `fit` on the same objects with different clocks both end or both do not; when they end,
they end alike (normally or with the same exception), all attributes that are not measured times agree, the same calls were made with the
same results, and the objects end in the same state. -/
theorem C83_clock (base : Env A D Col) (clk : T → ℚ × T) (clk' : T' → ℚ × T') (cfg : Config) (hl : cfg.timeLimit ≤ 0) (fuel : ℕ)
    (y : List ℤ) (e : Est) (a : A) (t : T) (t' : T') :
    (fit (withClock base clk) cfg fuel y e (a, t) = none ↔ fit (withClock base clk') cfg fuel y e (a, t') = none) ∧
    ∀ r s r' s', fit (withClock base clk) cfg fuel y e (a, t) = some (r, s) →
      fit (withClock base clk') cfg fuel y e (a, t') = some (r', s') →
      r = r' ∧ SameResult s.est s'.est ∧ SameCalls s.trace s'.trace ∧ s.world.1 = s'.world.1 := by
  have h := fit_rel (withClock_sim base clk clk') cfg (not_lt.2 hl) fuel y trivial (SameResult.refl e) (w := (a, t)) (w' := (a, t')) rfl
    (fun _ _ => trivial)
  revert h
  generalize fit (withClock base clk) cfg fuel y e (a, t) = x
  generalize fit (withClock base clk') cfg fuel y e (a, t') = x'
  intro h
  match x, x', h with
  | none, none, _ => exact ⟨by simp, by simp⟩
  | some (r, s), some (r', s'), h =>
    refine ⟨by simp, ?_⟩
    intro r1 s1 r1' s1' e1 e2
    cases e1
    cases e2
    exact ⟨h.1, h.2.est, h.2.trace, h.2.world⟩

namespace SimDemo

/-- One subproblem that prices one column and then none. -/
def base : Env ℕ Unit ℕ where
  clock n := (0, n)
  generateMp _ n := (.ok (), n)
  solveRmp n := (.ok (), n)
  improved n := (.ok false, n)
  resetFlag _ := none
  clearReset n := n
  update _ _ _ n := (.ok (), n)
  generate _ _ _ n := (.ok (if n = 0 then [7] else []), n + 1)
  addColumn _ n := (.ok true, n)
  solveIp n := (.ok true, n)

def est0 : Est := ⟨false, [], 0, 0, 0, false, false, [], [], 0, 0, 0, 0, 0⟩

/-- What is shown of a run: `mp_optimal_`, `time_limit_reached_`, `iter_`, `num_col_added_sp_`, `time_elapsed_`. -/
def shown (step limit : ℚ) : Option (List Bool × List (List ℕ) × ℚ) :=
  (fit (withClock base (fun t : ℚ => (t, t + step))) ⟨-1, limit, [1], true⟩ 5 [0, 1] est0 (0, 0)).map
    (fun r => ([r.2.est.mpOptimal, r.2.est.timeLimitReached], [r.2.est.iter] :: r.2.est.numColAdded, r.2.est.timeElapsed))

/-- C83 is not vacuous: two clocks, without time limit; only the elapsed times differ. -/
example : shown 1 0 = some ([true, false], [[2], [1]], 25) ∧ shown 100 0 = some ([true, false], [[2], [1]], 2500) := by decide +kernel

/-- With a time limit the clock matters. -/
example : shown 1 1000 = some ([true, false], [[2], [1]], 25) ∧ shown 100 1000 = some ([false, true], [[2], [1]], 2100) := by decide +kernel

end SimDemo

end Verif.Fit
