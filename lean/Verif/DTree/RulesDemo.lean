import Verif.DTree.RulesProps
import Verif.DTree.MoreRowsDemo

/-!
# C147 on a concrete run
-/

set_option linter.unusedSectionVars false

namespace Verif.DTree.RulesDemo

open MP Spec Demo NarrowDemo MoreRowsDemo

theorem two : TwoClasses my := ⟨0, by decide, 1, by decide, by decide⟩

/-- The tree of depth two of `MoreRowsDemo`, which gives both answers, is a list of four rules with two comparisons each. -/
example : ∃ s, ∃ L : List (List Cond × Except Err (List ℤ)), mRun = some (.ok (), s) ∧ predictFitted mArgs s mX = .ok [0, 1, 0, 1, 1] ∧ L.length = 4 ∧
    (∀ r ∈ L, r.1.length = 2) ∧ ∀ row, L.countP (fun r => applies r.1 row) = 1 ∧ ∀ r ∈ L, applies r.1 row = true → predictFitted mArgs s [row] = r.2 := by
  obtain ⟨s, h1, h2⟩ := returned_spec mRun_gap
  simp only [Bool.and_eq_true, decide_eq_true_eq] at h2
  obtain ⟨L, h3, h4, h5⟩ := C147_rules mFitOk (guided_contract mFitOk _ _ _ _) two h1
  exact ⟨s, L, h1, h2.1.2, h3, fun r hr => (h4 r hr).1, h5⟩

/-- Moving the features of a row by less than the distance to all thresholds keeps its answer. -/
example : ∃ s, mRun = some (.ok (), s) ∧ predictFitted mArgs s [[1/4, -1/4, 1/4]] = predictFitted mArgs s [[0, 0, 0]] := by
  obtain ⟨s, h1, -⟩ := returned_spec mRun_gap
  refine ⟨s, h1, C147_margin mFitOk (guided_contract mFitOk _ _ _ _) two h1 ?_⟩
  decide +kernel

/-- Exactly one of two rules with opposite comparisons applies. -/
example : applies [⟨0, 1/2, true⟩] [1/2] = true ∧ applies [⟨0, 1/2, false⟩] [1/2] = false := by decide +kernel

end Verif.DTree.RulesDemo
