import Verif.Fit.BaselineProps
import Verif.Fit.ScoreDemo

/-!
# C146 on two certified runs
-/

set_option linter.unusedSectionVars false

namespace Verif.DTree.MoreRowsDemo

open MP Spec Demo NarrowDemo
open Fit.Spec

/-- Five rows, the label 0 three times: the score of the certified tree is at least 3/5, and at least 1/2 as there are two labels. -/
example : ∃ s, mRun = some (.ok (), s) ∧ Sk.score (predictFitted mArgs s) mX my = .ok (4 / 5) ∧ ((my.count 0 : ℕ) : ℚ) / mX.length ≤ 4 / 5 ∧ my.count 0 = 3 ∧
    1 / (my.toFinset.card : ℚ) ≤ 4 / 5 ∧ my.toFinset.card = 2 := by
  obtain ⟨s, h1, h2⟩ := returned_spec mRun_score
  obtain ⟨s', h3, h4⟩ := returned_spec mRun_gap
  obtain rfl : s = s' := by rw [h1] at h3; cases h3; rfl
  simp only [Bool.and_eq_true, decide_eq_true_eq] at h2 h4
  exact ⟨s, h1, h2, C146_guess mFitOk (guided_contract mFitOk _ _ _ _) ⟨0, by decide, 1, by decide, by decide⟩ rfl (guided_priceOptimal _ _ _ _) rfl rfl costs
    (.new ()) h1 h4.1.1 h4.2 h2 0, by decide, C146_labels mFitOk (guided_contract mFitOk _ _ _ _) ⟨0, by decide, 1, by decide, by decide⟩ rfl
    (guided_priceOptimal _ _ _ _) rfl rfl costs (.new ()) h1 h4.1.1 h4.2 h2, by decide⟩

/-- The tree of the first four rows returns their labels, so some tree over the candidates is right for all of them; for the five rows there is none. -/
example : (∃ t : Questions, t.Within 2 nArgs.nodes nArgs.splits ∧ List.Forall₂ (fun row label => t.answer row = label) nX ny) ∧
    ¬∃ t : Questions, t.Within 2 mArgs.nodes mArgs.splits ∧ List.Forall₂ (fun row label => t.answer row = label) mX my := by
  obtain ⟨s, h1, h2⟩ := returned_spec SwapDemo.nRun_gap
  obtain ⟨s', h1', h2'⟩ := returned_spec mRun_gap
  simp only [Bool.and_eq_true, decide_eq_true_eq] at h2 h2'
  constructor
  · exact (C146_learns nFitOk (guided_contract nFitOk _ _ _ _) ⟨0, by decide, 1, by decide, by decide⟩ rfl (guided_priceOptimal _ _ _ _) rfl rfl
      (SwapDemo.costs rfl (by decide +kernel)) (.new ()) h1 h2.1.1 h2.2).1 h2.1.2
  · intro h
    have := (C146_learns mFitOk (guided_contract mFitOk _ _ _ _) ⟨0, by decide, 1, by decide, by decide⟩ rfl (guided_priceOptimal _ _ _ _) rfl rfl costs
      (.new ()) h1' h2'.1.1 h2'.2).2 h
    rw [h2'.1.2] at this
    exact absurd this (by decide)

end Verif.DTree.MoreRowsDemo
