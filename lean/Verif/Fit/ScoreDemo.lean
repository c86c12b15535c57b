import Verif.Fit.ScoreProps
import Verif.DTree.MoreRowsDemo

/-!
# C137 on a rule and on two fitted trees
-/

namespace Verif.Point

open Spec

/-- The rule `x0 and x2, or x1`, with one wrong answer out of three. -/
example : Sk.score (BDR.predictS [3, 7] [[0, 2], [1]]) [[1, 0, 1], [0, 1, 0], [1, 0, 0]] [7, 3, 3] = .ok (2 / 3) ∧
    Sk.score (BDR.predictS [3, 7] [[0, 2], [1]]) [[1, 0, 1], [1, 0]] [7, 3] = .error .indexError ∧
    Sk.score (BDR.predictS [3, 7] [[0, 2], [1]]) [[1, 0, 1]] [7, 3] = .error .valueError := by decide +kernel

/-- Two batches with scores 1/2 and 1. -/
example : Sk.score (BDR.predictS [3, 7] [[0, 2], [1]]) ([[1, 0, 1], [0, 1, 0]] ++ [[1, 0, 0]]) ([7, 3] ++ [3]) = .ok (2 / 3) := by
  have h := C137_batches (a := 1 / 2) (b := 1) (C135_rule_checked [3, 7] [[0, 2], [1]]).1 (X := [[1, 0, 1], [0, 1, 0]]) (y := [7, 3]) (Z := [[1, 0, 0]]) (z := [3])
    rfl rfl (by decide) (by decide) (by decide +kernel) (by decide +kernel)
  refine h.trans ?_
  norm_num

/-- The score does not reach 1, so the labels are not what is predicted. -/
example : BDR.predictS [3, 7] [[0, 2], [1]] [[1, 0, 1], [0, 1, 0], [1, 0, 0]] ≠ .ok [7, 3, 3] := fun h =>
  absurd ((C137_range (a := 2 / 3) (C135_rule_checked [3, 7] [[0, 2], [1]]).1 rfl (by decide) (by decide +kernel)).2.2.2 h) (by norm_num)

/-- Rearranged rows. -/
example : Sk.score (BDR.predictS [3, 7] [[0, 2], [1]]) [[0, 1, 0], [1, 0, 1], [1, 0, 0]] [3, 7, 3] = .ok (2 / 3) :=
  C137_order (X := [[1, 0, 1], [0, 1, 0], [1, 0, 0]]) (y := [7, 3, 3]) (C135_rule_checked [3, 7] [[0, 2], [1]]).1 rfl rfl
    (List.Perm.swap _ _ _) (by decide +kernel)

end Verif.Point

namespace Verif.DTree.MoreRowsDemo

open MP Spec Demo NarrowDemo
open Fit.Spec

theorem nRun_score : returned nRun (fun s => decide (Sk.score (predictFitted nArgs s) mX my = .ok (4 / 5))) = true := by decide +kernel

theorem mRun_score : returned mRun (fun s => decide (Sk.score (predictFitted mArgs s) mX my = .ok (4 / 5))) = true := by decide +kernel

/-- The certified tree of five rows and the tree of the first four of them: all hypotheses of `C137_certified` hold, for the score on the five rows. -/
example : ∃ s s', nRun = some (.ok (), s) ∧ mRun = some (.ok (), s') ∧ Sk.score (predictFitted mArgs s') mX my = .ok (4 / 5) ∧
    ∀ b, Sk.score (predictFitted nArgs s) mX my = .ok b → b ≤ 4 / 5 := by
  obtain ⟨s, h1, -⟩ := returned_spec nRun_score
  obtain ⟨s', h1', h2'⟩ := returned_spec mRun_score
  obtain ⟨s₂, h3, h4⟩ := returned_spec mRun_gap
  obtain rfl : s' = s₂ := by rw [h1'] at h3; cases h3; rfl
  simp only [Bool.and_eq_true, decide_eq_true_eq] at h2' h4
  have hq : FewerQuestions 2 nNodes nSplits nNodes mSplits := by
    unfold FewerQuestions
    decide +kernel
  exact ⟨s, s', h1, h1', h2', fun b hb => C137_certified mFitOk (guided_contract mFitOk _ _ _ _) ⟨0, by decide, 1, by decide, by decide⟩ rfl
    (guided_priceOptimal _ _ _ _) rfl rfl costs (.new ()) h1' h4.1.1 h4.2 nFitOk (guided_contract nFitOk _ _ _ _)
    ⟨0, by decide, 1, by decide, by decide⟩ (.new ()) h1 le_rfl hq h2' hb⟩

end Verif.DTree.MoreRowsDemo
