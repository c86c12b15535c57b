import Verif.Fit.ScoreProps
import Verif.Exp.Report

/-!
# Property C137: the accuracies of the experiment are scores

The result file has the numbers of `score` (`dtree_experiment.py:311-313`).
-/

namespace Verif.Exp

theorem correct_zip : ∀ {y ys : List ℤ}, y.length = ys.length → correct y ys = (y.zip ys).countP (fun q => decide (q.1 = q.2))
  | [], [], _ => rfl
  | [], _ :: _, h => by cases h
  | _ :: _, [], h => by cases h
  | a :: y, b :: ys, h => by
    have ih := correct_zip (y := y) (ys := ys) (by simpa using h)
    unfold correct at ih ⊢
    rw [List.length_cons, List.range_succ_eq_map, List.filter_cons, List.zip_cons_cons, List.countP_cons, ← ih, List.filter_map]
    by_cases hab : a = b
    · subst hab
      simp [Function.comp_def]
    · have : b ≠ a := fun h => hab h.symm
      simp [Function.comp_def, hab, this]

/-- **C137.** `score` of the classifier is the accuracy of the report. -/
theorem C137_report {f : List (List ℚ) → Except Err (List ℤ)} {X : List (List ℚ)} {y ys : List ℤ} (h : Point.Spec.Pointwise f) (hl : y.length = X.length)
    (hf : f X = .ok ys) : Sk.score f X y = .ok (score y ys) := by
  have h1 : y.length = ys.length := hl.trans (Point.C135_length h hf).symm
  unfold Sk.score score
  rw [hf, correct_zip h1]
  simp only
  rw [if_pos h1]

/-- Two of three rows. -/
example : Sk.score (BDR.predictS [3, 7] [[0, 2], [1]]) [[1, 0, 1], [0, 1, 0], [1, 0, 0]] [7, 3, 3] = .ok (score [7, 3, 3] [7, 7, 3]) ∧
    score [7, 3, 3] [7, 7, 3] = 2 / 3 :=
  ⟨C137_report (Point.C135_rule_checked [3, 7] [[0, 2], [1]]).1 rfl (by decide +kernel), by decide +kernel⟩

end Verif.Exp
