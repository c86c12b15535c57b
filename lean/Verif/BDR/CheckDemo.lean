import Verif.BDR.CheckProps
import Verif.BDR.StrictDemo
import Verif.DTree.CheckProps
import Verif.DTree.NarrowDemo

/-!
# C136 on concrete input
-/

set_option synthInstance.maxSize 1000

namespace Verif.BDR.Demo

open MP Spec Sk.Spec

/-- What is accepted, and six ways to be refused: no rows, no columns, ragged rows, NaN, a missing label, a fractional label. -/
example : Sk.checkXY ([[some 1, some 0], [some 0, some 2]], [some 4, some 9]) = .ok (([[1, 0], [0, 2]], 2), [4, 9]) ∧
    Sk.checkXY ([], []) = .error .valueError ∧ Sk.checkXY ([[], []], [some 4, some 9]) = .error .valueError ∧
    Sk.checkXY ([[some 1], [some 0, some 2]], [some 4, some 9]) = .error .valueError ∧
    Sk.checkXY ([[some 1], [none]], [some 4, some 9]) = .error .valueError ∧
    Sk.checkXY ([[some 1], [some 0]], [some 4]) = .error .valueError ∧
    Sk.checkXY ([[some 1], [some 0]], [some 4, some (1 / 2)]) = .error .valueError := by decide +kernel

/-- The training data of the demo run as the caller passes them. -/
def rawData : Sk.RawX × List (Option ℚ) := (X.rows.map (List.map some), labels.map (fun (v : ℤ) => some (v : ℚ)))

theorem training : Training rawData X.rows X.nFeat labels := ⟨⟨rfl, by decide, by decide, rect⟩, rfl, rfl⟩

/-- The hypotheses of C136 hold for the demo run: `fit` returns, and `predict` answers, refuses NaN and ragged rows, or raises `IndexError`. -/
example : ∃ s, fitAny oracle 10 1 (heuristicKinds 10) (-1) 0 4 rawData est0 0 = some (.ok (), s) ∧ s.est.isFitted = true ∧
    predictAny [[some 1, none]] s = .error .valueError ∧
    ∃ ys, predictAny [[some 1, some 0, some 3], [some 0, some 0, some 0]] s = .ok ys ∧ ys.length = 2 ∧ ∀ v ∈ ys, v ∈ labels := by
  obtain ⟨s, hr, hf⟩ := C136_two_classes (maxIt := -1) (limit := 0) (e0 := est0) training (by decide +kernel) contract
  have e1 : predictAny [[some 1, none]] s = .error .valueError := rfl
  obtain ⟨X', n', y', h1, -, h3⟩ := C136_predict hr [[some 1, some 0, some 3], [some 0, some 0, some 0]]
  have e2 := (Sk.checkXY_ok.2 h1).symm.trans (Sk.checkXY_ok.2 training)
  cases e2
  refine ⟨s, hr, hf, e1, ?_⟩
  rcases h3 [[1, 0, 3], [0, 0, 0]] 3 ⟨rfl, by decide, by decide, by decide⟩ with h4 | ⟨h4, -⟩
  · exact h4
  · exact absurd h4 (by decide)

/-- One class only. -/
example : ∃ s, fitAny oracle 10 1 (heuristicKinds 10) (-1) 0 4 (X.rows.map (List.map some), [some 4, some 4, some 4]) est0 0 = some (.error .valueError, s) ∧
    s.est.isFitted = est0.isFitted := by
  have h : Training (X.rows.map (List.map some), [some 4, some 4, some 4]) X.rows X.nFeat [4, 4, 4] := ⟨⟨rfl, by decide, by decide, rect⟩, by decide, rfl⟩
  obtain ⟨s, h1, h2, -⟩ := C136_one_class (o := oracle) (C := 10) (p := 1) (kinds := heuristicKinds 10) (maxIt := -1) (limit := 0) (fuel := 4) (e0 := est0)
    (ω := 0) h (by decide)
  exact ⟨s, h1, h2⟩

end Verif.BDR.Demo

namespace Verif.DTree.NarrowDemo

open MP Spec Demo Sk.Spec

/-- The hypotheses of C136 hold for the tree of `NarrowDemo`. -/
example : ∃ s, fitAny nO nArgs (-1) (-1) (enough 2 nArgs nX) (nX.map (List.map some), ny.map (fun (v : ℤ) => some (v : ℚ))) est0 () = some (.ok (), s) ∧
    predictAny nArgs [[some 1, some 0], [some 1]] s = .error .valueError := by
  have h : Training (nX.map (List.map some), ny.map (fun (v : ℤ) => some (v : ℚ))) nX 3 ny := ⟨⟨rfl, by decide, by decide, by decide⟩, rfl, rfl⟩
  have hn : ∀ sp ∈ nArgs.splits, sp.feature < 3 := by decide +kernel
  have hy : TwoClasses ny := ⟨0, by decide, 1, by decide, by decide⟩
  obtain ⟨s, hr, -⟩ := C136_returns (maxIt := -1) (limit := -1) (e0 := est0) (ω := ()) h hn nFitOk (guided_contract nFitOk _ _ _ _) hy
  refine ⟨s, hr, (C136_predict h hn nFitOk (guided_contract nFitOk _ _ _ _) hy hr _).1 ?_⟩
  rintro ⟨R, m, h1⟩
  have h2 := Sk.checkArray_ok.2 h1
  have h3 : Sk.checkArray [[some 1, some 0], [some 1]] = .error .valueError := by decide +kernel
  rw [h3] at h2
  cases h2

end Verif.DTree.NarrowDemo
