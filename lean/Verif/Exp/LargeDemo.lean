import Verif.Exp.LargeProps
import Verif.Exp.MainDemo

/-!
# Concrete cases for C75 of the program
-/

namespace Verif.Exp.Demo

open Verif.DTree Verif.DTree.Spec Verif.Exp.Cmd Verif.Exp.Spec

/-- The small training table of `MainDemo`: nothing is merged. -/
example (total : ℚ) (o : FitOracle Unit) (D : Data) (hD : makeData mTrain mTest = .ok D) :
    ∀ row ∈ (mReady mTrain total o).prepared.rows, row.removedFromSp = false ∧ row.weight = 1 := by
  have hr := mReady1 total o
  unfold readAndPrepare at hr
  simp only [(mOutside_files mTrain total o).train, (mOutside_files mTrain total o).test, hD] at hr
  exact (C75_program_small hr (.inr ⟨by simp [mS], by change (200 : ℚ) < 310; norm_num⟩)).2

/-- `n` equal rows with the same label, and no limit for the preparation. -/
def lData (n : ℕ) : Data := ⟨List.replicate n [1], List.replicate n 0, [], [], [3]⟩

def lS : Settings := ⟨"a.csv".toList, "b.csv".toList, 2, 1, 600, 0, [','], some 0, "results/".toList⟩

theorem lTrees (total : ℚ) (o : FitOracle Unit) (n : ℕ) : Trees (mOutside mTrain total o) lS (lData n) :=
  ⟨(mOutside_trees mTrain total o (lData n)).cart, (mOutside_trees mTrain total o (lData n)).all, (mOutside_trees mTrain total o (lData n)).more⟩

/-- At most one of the rows 0 and 1 is kept. -/
example (total : ℚ) (o : FitOracle Unit) {n : ℕ} (hn : 5000 ≤ n) : ∃ r, makeReady (mOutside mTrain total o) lS (lData n) = .ok r ∧
    ¬ ((rowAt r.prepared.rows 0).removedFromSp = false ∧ (rowAt r.prepared.rows 1).removedFromSp = false) := by
  have hl : (lData n).XTrain.length = n := List.length_replicate
  have hy : (lData n).yTrain.length = (lData n).XTrain.length := by simp [lData]
  obtain ⟨r, -, -, hr, -⟩ := prepared_run (w := mOutside mTrain total o) (s := lS) (by decide) (lTrees total o n) hy (by simp [lData]; omega)
  refine ⟨r, hr, (C75_program_large (by decide) (by decide) (lTrees total o n) hy hr (by rw [hl]; exact hn)
    (.inl ⟨by simp [lS], by simp [mOutside]⟩) (i := 0) (j := 1) (by omega) (by omega) (by omega) ?_).1 ?_⟩
  · intro p _ _
    have : (lData n).XTrain.getD 0 [] = (lData n).XTrain.getD 1 [] := by
      simp [lData, List.getElem?_replicate, show 0 < n by omega, show 1 < n by omega]
    unfold follows
    rw [this]
  · simp [lData, List.getElem?_replicate, show 0 < n by omega, show 1 < n by omega]

end Verif.Exp.Demo
