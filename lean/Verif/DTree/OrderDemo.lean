import Verif.DTree.OrderProps
import Verif.DTree.FitDemo
import Mathlib.Tactic.Linarith

/-!
# Examples for C95
-/

namespace Verif.DTree.Demo

open MP Spec

/-- The data of `fArgs` on other scales, with a new first column that no split uses. -/
def fX' : List (List ℚ) := [[9, 0, 1, 2], [9, 0, 4, 2], [9, 3, 1, 2], [9, 3, 4, 2]]

def fScale (f : ℕ) (v : ℚ) : ℚ := 3 * v + f

theorem fScale_mono (f : ℕ) : StrictMono (fScale f) := by
  intro a b h
  unfold fScale
  linarith

theorem fRecoded : List.Forall₂ (Recoded fArgs.splits (· + 1) fScale) fX fX' := by
  have h : ∀ row row', (∀ sp ∈ fArgs.splits, feat row' (sp.feature + 1) = fScale sp.feature (feat row sp.feature)) →
    Recoded fArgs.splits (· + 1) fScale row row' := fun _ _ h => h
  refine .cons (h _ _ ?_) (.cons (h _ _ ?_) (.cons (h _ _ ?_) (.cons (h _ _ ?_) .nil))) <;> decide +kernel

theorem fKnown : KnownSplits fArgs fX where
  paths := by decide +kernel
  cands := by decide +kernel
  rows := by intro rows h; exact absurd h (by simp [fArgs])

/-- The thresholds have changed. -/
example : (fArgs.splits.map (recode (· + 1) fScale)).map (fun sp => (sp.feature, sp.threshold)) = [(1, 3 / 2), (2, 5 / 2), (3, 7 / 2)] := by
  decide +kernel

theorem fRun_targets : returned fRun (fun s => decide (s.world.master.selected.map (·.target) = [0, 1, 0, -1])) = true := by decide +kernel

/-- C95: the run on the new data selects the same four paths and predicts the same labels. -/
example : ∃ s s', fRun = some (.ok (), s) ∧
    fitNew fO { fArgs with splits := fArgs.splits.map (recode (· + 1) fScale) } 1 100 fX' 10 fy est0 () = some (.ok (), s') ∧
    s'.world.master.selected.map (·.target) = [0, 1, 0, -1] ∧ s'.trace = s.trace ∧
    predictFitted { fArgs with splits := fArgs.splits.map (recode (· + 1) fScale) } s' fX' = predictFitted fArgs s fX := by
  obtain ⟨s, h1, h2⟩ := returned_spec fRun_targets
  have h1' : fitNew fO fArgs 1 100 fX 10 fy est0 () = some (.ok (), s) := h1
  obtain ⟨s', e1, -, e3, e4, e5⟩ := (C95_recoded (o := fO) (Nat.succ_injective) fScale_mono fRecoded fKnown 1 100 10 fy est0 ()).2 _ s h1'
  refine ⟨s, s', h1, e1, ?_, e3, e5 _ _ fRecoded⟩
  rw [e4]
  simpa using h2

end Verif.DTree.Demo
