import Verif.Fit.ClashProps
import Verif.Fit.ScoreDemo

/-!
# C141 on a rule, exclusive or and a fitted tree
-/

namespace Verif.Point.ClashDemo

open Spec

/-- The first two rows have the same zeros and different labels: at most two of the three rows get the right answer. This rule reaches the bound. -/
example : mostRight zeros ([[1, 0], [5, 0], [0, 1]].zip [7, 3, 3]) = 2 ∧ Sk.score (BDR.predict [3, 7] [[0]]) [[1, 0], [5, 0], [0, 1]] [7, 3, 3] = .ok (2 / 3) ∧
    ∀ K a, Sk.score (BDR.predict [3, 7] K) [[1, 0], [5, 0], [0, 1]] [7, 3, 3] = .ok a → a ≤ 2 / 3 := by
  have h : mostRight zeros ([[1, 0], [5, 0], [0, 1]].zip [7, 3, 3]) = 2 := by decide +kernel
  refine ⟨h, by decide +kernel, fun K a ha => ?_⟩
  have := C141_rule [3, 7] K (X := [[1, 0], [5, 0], [0, 1]]) (y := [7, 3, 3]) rfl ha
  rw [h] at this
  refine le_trans this ?_
  norm_num

end Verif.Point.ClashDemo

namespace Verif.BDR.ClashDemo

open Spec

/-- Exclusive or: the last row clashes with both rows of the larger label. With that row given twice, two answers are wrong. -/
example (K : List Clause) (pred : List ℤ) (h : predict [0, 1] K [[0, 0], [0, 1], [1, 0], [1, 1], [1, 1]] = .ok pred) : 2 ≤ errors pred [0, 1, 1, 0, 0] := by
  have hc : ∀ q ∈ [(1, 3), (2, 4)], Clash ⟨[[0, 0], [0, 1], [1, 0], [1, 1], [1, 1]], 2⟩ [0, 1, 1, 0, 0] q.1 q.2 := by
    intro q hq
    simp only [List.mem_cons, List.not_mem_nil, or_false] at hq
    rcases hq with rfl | rfl
    all_goals
      refine ⟨by decide, by decide, by decide, fun f hf => ?_⟩
      rcases f with _ | _ | f
      · decide
      · decide
      · exact absurd rfl hf
  exact C141_pairs (X := ⟨[[0, 0], [0, 1], [1, 0], [1, 1], [1, 1]], 2⟩) (y := [0, 1, 1, 0, 0]) rfl (by decide) h (M := [(1, 3), (2, 4)]) (by decide) (by decide) hc

/-- The bound is met. -/
example : predict [0, 1] [[0], [1]] [[0, 0], [0, 1], [1, 0], [1, 1], [1, 1]] = .ok [0, 1, 1, 1, 1] ∧ errors [0, 1, 1, 1, 1] [0, 1, 1, 0, 0] = 2 := by decide +kernel

end Verif.BDR.ClashDemo

namespace Verif.DTree.MoreRowsDemo

open MP Spec Demo NarrowDemo
open Fit.Spec

/-- Two of the five rows are equal and have different labels: the certified tree has the highest score there is. -/
example : ∃ s, mRun = some (.ok (), s) ∧ Sk.score (predictFitted mArgs s) mX my = .ok (4 / 5) ∧ ∀ a, Sk.score (predictFitted mArgs s) mX my = .ok a → a ≤ 4 / 5 := by
  obtain ⟨s, h1, h2⟩ := returned_spec mRun_score
  simp only [decide_eq_true_eq] at h2
  have hk : KnownSplits mArgs mX := ⟨by decide +kernel, by decide +kernel, fun rows h => by cases h⟩
  refine ⟨s, h1, h2, fun a ha => ?_⟩
  have := C141_tree hk h1 (z := my) (Z := mX) rfl ha
  rw [show Point.Spec.mostRight (Spec.answers mArgs.splits) (mX.zip my) = 4 by decide +kernel] at this
  refine le_trans this ?_
  rw [show mX.length = 5 from rfl]
  norm_num

end Verif.DTree.MoreRowsDemo
