import Verif.DTree.WitnessProps
import Verif.DTree.MoreRowsDemo

/-!
# C145 on a concrete run
-/

set_option linter.unusedSectionVars false

namespace Verif.DTree.WitnessDemo

open MP Spec Demo NarrowDemo MoreRowsDemo

/-- The tree of depth two of `MoreRowsDemo`, which gives both answers: three features decide every answer, and two the answer of a given row. -/
example : ∃ s, mRun = some (.ok (), s) ∧ predictFitted mArgs s mX = .ok [0, 1, 0, 1, 1] ∧
    (∃ F : List ℕ, F.length ≤ 3 ∧ ∀ Z Z', List.Forall₂ (AgreeOn F) Z Z' → predictFitted mArgs s Z = predictFitted mArgs s Z') ∧
    ∃ F : List ℕ, F.length ≤ 2 ∧ ∀ row', AgreeOn F [1, 1, 0] row' → predictFitted mArgs s [row'] = predictFitted mArgs s [[1, 1, 0]] := by
  obtain ⟨s, h1, h2⟩ := returned_spec mRun_gap
  simp only [Bool.and_eq_true, decide_eq_true_eq] at h2
  have hy : TwoClasses my := ⟨0, by decide, 1, by decide, by decide⟩
  obtain ⟨F, hF, -, hF'⟩ := C145_features mFitOk (guided_contract mFitOk _ _ _ _) hy h1
  exact ⟨s, h1, h2.1.2, ⟨F, hF, hF'⟩, C145_witness mFitOk (guided_contract mFitOk _ _ _ _) hy h1 _⟩

/-- Rows that differ at a feature outside the list agree. -/
example : AgreeOn [0, 2] [1, 5, 0] [1, 7, 0] ∧ ¬AgreeOn [0, 1] [1, 5, 0] [1, 7, 0] := by
  unfold AgreeOn
  decide +kernel

end Verif.DTree.WitnessDemo
