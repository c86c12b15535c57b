import Verif.BDR.ZeroProps
import Verif.BDR.FitExamples

/-!
# C103: a run
-/

namespace Verif.BDR.Demo

open MP Spec

/-- Other non-zero numbers in place of the ones of `X`. -/
def XZ : Data := ⟨[[5, 0], [0, -1], [0, 0]], 2⟩

theorem sameData : SameData X XZ := by
  refine ⟨rfl, ?_⟩
  have h : ∀ r r' : List ℚ, r.length = 2 → r'.length = 2 → (∀ j < 2, (r.getD j 0 = 0 ↔ r'.getD j 0 = 0)) → SameZeros r r' := by
    intro r r' h1 h2 h j
    by_cases hj : j < 2
    · exact h j hj
    · rw [List.getD_eq_default _ _ (by omega), List.getD_eq_default _ _ (by omega)]
  refine .cons (h _ _ rfl rfl (by decide +kernel)) (.cons (h _ _ rfl rfl (by decide +kernel)) (.cons (h _ _ rfl rfl (by decide +kernel)) .nil))

/-- `C103_same_run`: the run on the other numbers learns the same rule. -/
example : ∃ s', fitNew oracle 10 1 (heuristicKinds 10) (-1) 0 XZ 4 labels est0 0 = some (.ok (), s') ∧ s'.est.mpOptimal = true ∧
    s'.world.master.explanation = [[0], [1]] := by
  obtain ⟨s, hr, ho, -⟩ := run_hyps
  have hrun := run
  rw [hr] at hrun
  simp only [Option.map_some, Option.some.injEq, Prod.mk.injEq, List.cons.injEq] at hrun
  obtain ⟨-, -, -, he, -⟩ := hrun
  obtain ⟨s', e1, e2, -, e3, -⟩ := (C103_same_run sameData _ _ _ _ _).2 _ _ hr
  exact ⟨s', e1, by rw [e2]; exact ho, by rw [e3]; exact he⟩

/-- `C103_predict`: -3 and 7 satisfy a clause as 1 does. -/
example : predict [0, 1] [[0], [1]] [[-3, 0], [0, 0], [0, 1 / 7]] = .ok [1, 0, 1] := by decide +kernel

end Verif.BDR.Demo
