import Verif.BDR.SolverProps
import Verif.BDR.FitExamples
import Verif.BDR.CertDemo

/-!
# Runs without a solver (C123)
-/

namespace Verif.BDR.SolverDemo

open Verif.BDR.Demo Fit.Spec

/-- With one iteration the classifier with the heuristic level never asks the exact problem: same result as with the solver. -/
example : (Fit.fit (envNoMip oracle X (heuristicKinds 10)) (config (heuristicKinds 10) 1 0) 4 labels est0 (World.init 10 1 (heuristicKinds 10) 0)).map
      (fun r => (r.1.toOption, r.2.est.isFitted, r.2.est.mpOptimal, r.2.world.master.explanation)) =
    some (some (), true, false, [[0], [1]]) := by
  decide +kernel

/-- Without limits it raises, after the two clauses were added. -/
example : ∃ s, Fit.fit (envNoMip oracle X (heuristicKinds 10)) (config (heuristicKinds 10) (-1) 0) 4 labels est0
      (World.init 10 1 (heuristicKinds 10) 0) = some (.error .attributeError, s) ∧ s.est.isFitted = false :=
  C123_raises (C := 10) (p := 1) ⟨1, 0, 10, rfl⟩ (by norm_num) (by norm_num) rfl (by decide +kernel) contract

example : (Fit.fit (envNoMip oracle X (heuristicKinds 10)) (config (heuristicKinds 10) (-1) 0) 4 labels est0 (World.init 10 1 (heuristicKinds 10) 0)).map
      (fun r => (numRmp r.2.trace, accPos r.2.trace, genPos r.2.trace)) =
    some (2, [(0, 0), (0, 0)], [(0, 0), (0, 0), (1, 0)]) := by
  decide +kernel

/-- A negative dual is met before the solver is: `AssertionError`. -/
example : (generateNoMip oracle X (plainKinds 10) 0 0 (-1, []) (World.init 10 1 (plainKinds 10) 0)).1 = .error .assertionError ∧
    (generateNoMip oracle X (plainKinds 10) 0 0 (1, [0, 2]) (World.init 10 1 (plainKinds 10) 0)).1 = .error .attributeError :=
  ⟨rfl, rfl⟩

/-- The classifier without heuristic level raises with any iteration limit. -/
example (maxIt : ℤ) : ∃ s, Fit.fit (envNoMip (exact (fun t : ℚ => (t, t + 1))) Xor.X1 (plainKinds 3)) (config (plainKinds 3) maxIt 0) 2 [0, 1, 1, 0] est0
      (World.init 3 2 (plainKinds 3) 0) = some (.error .attributeError, s) ∧ s.est.isFitted = false := by
  have hb : Spec.Binary Xor.X1.rows (encoded [0, 1, 1, 0]) := encoded_binary rfl (by decide +kernel)
  have hk : ∀ l i D, kindAt (plainKinds 3) l i = some (.exact D) → 0 ≤ D := by
    intro l i D h
    cases Xor.plainKinds_cases h
    norm_num
  have hE := exact_exact (fun t : ℚ => (t, t + 1)) (kinds := plainKinds 3) (C := 3) (p := 2) hb (by norm_num) (by norm_num) hk
  exact C123_plain_raises (C := 3) (p := 2) (X := Xor.X1) (y := [0, 1, 1, 0]) le_rfl rfl (by decide +kernel) hE.contract

/-- Two attempts without a solver for the master problem, then a third. -/
example : ∃ w, Tries oracle 10 1 (heuristicKinds 10) w ∧ w.y = [1, 1, 0] ∧
    ∃ s, Fit.fit (envNoLp oracle X (heuristicKinds 10)) (config (heuristicKinds 10) 5 0) 4 labels est0 w = some (.error .attributeError, s) ∧
      s.est.isFitted = false := by
  obtain ⟨s, t, h1, -, -, -⟩ := C123_no_lp oracle X (heuristicKinds 10) (-1) 0 4 labels est0 (World.init 10 1 (heuristicKinds 10) 0) rfl
    (by decide +kernel)
  have hw : (Fit.fit (envNoLp oracle X (heuristicKinds 10)) (config (heuristicKinds 10) (-1) 0) 4 labels est0
      (World.init 10 1 (heuristicKinds 10) 0)).map (fun r => r.2.world.y) = some [1, 1, 0] := by decide +kernel
  rw [h1] at hw
  have hT := Tries.fit (Tries.new (o := oracle) (C := 10) (p := 1) (kinds := heuristicKinds 10) 0) X labels (-1) 0 4 est0 h1
  refine ⟨_, hT, by simpa using hw, ?_⟩
  obtain ⟨s', h2, h3⟩ := C123_no_lp_session hT X labels 5 0 4 est0
  rw [if_neg (by decide +kernel)] at h2
  exact ⟨s', h2, h3⟩

end Verif.BDR.SolverDemo
