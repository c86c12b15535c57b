import Verif.DTree.StrictProps
import Verif.DTree.RefitDemo

/-!
# Examples for C104
-/

namespace Verif.DTree.Demo

open MP Spec
open Fit.Spec

theorem fInRange : InRange fArgs fX (encoded fy) where
  rows := by decide
  feat := by decide +kernel
  labels := by decide +kernel

/-- C104: the demo run with checked accesses returns the same tree, it can be fitted again, and predicts its training rows. -/
example : ∃ s s', fitNewS fO fArgs 1 100 fX 10 fy est0 () = some (.ok (), s) ∧ fRun = some (.ok (), s) ∧ predictFittedS fArgs s fX = .ok fy ∧
    Fit.fit (envS fO fArgs fX) (config fArgs (-1) (-1)) (enough 2 fArgs fX) fy s.est s.world = some (.ok (), s') := by
  obtain ⟨s, h1, h2⟩ := returned_spec fRun_facts
  simp only [Bool.and_eq_true, decide_eq_true_eq] at h2
  have h3 := (C104_same_runs fFitOk fContract fInRange fTwo (.new ())).1 _ h1
  obtain ⟨s', h4⟩ := (C104_same_runs (fuel := 0) (maxIt := -1) (limit := -1) (e0 := s.est) fFitOk fContract fInRange fTwo (.fit (.new ()) 1 100 10 est0 h3)).2
  refine ⟨s, s', h3, h1, ?_, h4⟩
  rw [C104_predict fFitOk fContract fInRange fTwo (.new ()) h3 fX fInRange.feat]
  exact h2.1.2

/-- The data of the demo without its last column. -/
def narrowX : List (List ℚ) := [[0, 0], [0, 1], [1, 0], [1, 1]]

def raised (r : Option (Except Err Unit × Fit.St (World Unit) Duals Path)) (e : Err) : Bool :=
  match r with
  | some (.error e', _) => decide (e' = e)
  | _ => false

/-- C104: the features must exist. The splits of the demo ask for a third column; without it `fit` raises `IndexError`, although the recorded rows
of the splits are what the model without checks computes (it reads 0 for a missing value). -/
example : RowsFilled fSplits narrowX ∧ ¬InRange fArgs narrowX (encoded fy) ∧
    raised (fitNewS fO fArgs 1 100 narrowX 10 fy est0 ()) .indexError = true ∧
    raised (fitNew fO fArgs 1 100 narrowX 10 fy est0 ()) .indexError = false := by
  refine ⟨?_, fun h => absurd h.feat (by decide +kernel), by decide +kernel, by decide +kernel⟩
  have e : fSplits = addRowsToSplits fSplits0 narrowX := by decide +kernel
  rw [e]
  exact (C39_add_rows fSplits0 narrowX (by decide +kernel)).1

/-- C104: `predict` on a row without the third column raises `IndexError`. -/
example : ∃ s, fRun = some (.ok (), s) ∧ predictFittedS fArgs s [[0, 0]] = .error .indexError := by
  have h : returned fRun (fun s => decide (predictFittedS fArgs s [[0, 0]] = .error .indexError)) = true := by decide +kernel
  obtain ⟨s, h1, h2⟩ := returned_spec h
  exact ⟨s, h1, by simpa using h2⟩

/-- The demo with data rows for only three of the four rows. -/
def shortArgs : Args := ⟨fPaths, fullLeaves 2, fNodes, fSplits, 2, [0, 1], 2, false, true, some (List.replicate 3 ⟨[], [], [], [], [], false, false, 1⟩), false⟩

/-- C104: with too few `data_rows`, `fit` raises `IndexError`. -/
example : raised (fitNewS fO shortArgs 1 100 fX 10 fy est0 ()) .indexError = true := by decide +kernel

/-- C104: without rows `preprocess_rows` divides by zero (`check_X_y` refuses such data before). -/
example : (generateMpS (fArgs.masterConf []) (MS.init (marked fArgs) fSplits none)).1 = .error .zeroDivisionError := by decide +kernel

/-- C104: paths recorded as reachable by an earlier master problem have no LP value in a new one: the cut round raises `KeyError`. -/
example : betaLoopS [⟨[], [7], [], [], [], false, false, 1⟩] [0, 1] (fun _ => 0) [0] ⟨Model.empty, fun _ => none, [false], 0⟩ = .error .keyError := rfl

end Verif.DTree.Demo
