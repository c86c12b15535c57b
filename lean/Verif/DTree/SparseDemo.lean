import Verif.DTree.Sparse
import Verif.DTree.NarrowDemo

/-! # C129: examples -/

namespace Verif.BDR.SparseDemo

/-- The rule `x0 or x1` and the rule `x1`: an array is predicted, the same data as a sparse matrix raises `ValueError` or `IndexError`; with one column
it makes no difference. -/
example : predict [4, 9] [[0], [1]] [[0, 1], [0, 0]] = .ok [9, 4] ∧ predictSp [4, 9] [[0], [1]] [[0, 1], [0, 0]] = .error .valueError ∧
    predictSp [4, 9] [[1]] [[0, 1], [0, 0]] = .error .indexError ∧ predictSp [4, 9] [] [[0, 1], [0, 0]] = .ok [4, 4] ∧
    predictSp [4, 9] [[], [1]] [[0, 1], [0, 0]] = .ok [9, 9] ∧ predictSp [4, 9] [[0]] [[1], [0]] = .ok [9, 4] ∧
    predictSp [4, 9] [[0], [1]] [[1], [0]] = .error .indexError := by decide +kernel

end Verif.BDR.SparseDemo

namespace Verif.DTree.SparseDemo

open MP Spec Demo NarrowDemo

theorem nRun_sparse : returned nRun (fun s => decide (predictFittedX nArgs s nX = .ok ny) &&
    decide (predictFittedSp nArgs s nX = .error .indexError)) = true := by decide +kernel

/-- The run of `NarrowDemo`: the training data are predicted correctly as an array, and raise as a sparse matrix. -/
example : ∃ s : Fit.St (World Unit) Duals Path, predictFittedX nArgs s nX = .ok ny ∧ predictFittedSp nArgs s nX = .error .indexError ∧
    ∃ p ps q rest, s.world.master.selected = p :: ps ∧ p.pairs = q :: rest ∧
      predictFittedSp nArgs s nX = .error (if (splitAt s.world.master.splits q.2).feature = 0 then .valueError else .indexError) := by
  obtain ⟨s, h1, h2⟩ := returned_spec nRun_sparse
  simp only [Bool.and_eq_true, decide_eq_true_eq] at h2
  have h1' : Fit.fit (env nO nArgs nX) (config nArgs (-1) (-1)) 10 ny est0 (World.init nArgs ()) = some (.ok (), s) := h1
  exact ⟨s, h2.1, h2.2, C129_tree nFitOk (by norm_num) (guided_contract nFitOk _ _ _ _) ⟨0, by decide, 1, by decide, by decide⟩ (.new ()) h1' nX
    (by decide) (by decide)⟩

theorem qRun_sparse : returned qRun (fun s => decide (predictFittedSp qArgs s (qX.map (fun r => r.take 1)) =
    predictFitted qArgs s (qX.map (fun r => r.take 1)))) = true := by decide +kernel

/-- Rows with one column. -/
example : ∀ s : Fit.St (World Unit) Duals Path, predictFittedSp qArgs s [[0], [1]] = predictFittedX qArgs s [[0], [1]] :=
  fun s => C129_tree_one qArgs s _ (by decide)

end Verif.DTree.SparseDemo
