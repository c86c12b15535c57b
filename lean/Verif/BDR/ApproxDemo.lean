import Verif.BDR.ApproxProps
import Verif.BDR.SepDemo

/-!
# C140 on two data sets
-/

namespace Verif.BDR.ApproxDemo

open MP Spec Fit.Spec

def X : Data := ⟨[[0, 0], [0, 1], [1, 0], [1, 1]], 2⟩

def labels : List ℤ := [0, 1, 1, 0]

/-- No rule is right on all rows. The rule "feature 0 or feature 1" covers both rows of the larger label; both clauses hold for the last row. -/
example : larger labels = 2 ∧ ([[0], [1]].map (alarms X labels)).sum = 2 := by
  unfold alarms
  decide +kernel

/-- Three rows of the larger label; the row `11` occurs with both labels, so no rule is right on all rows. -/
def X' : Data := ⟨[[1, 0], [1, 0], [1, 1], [1, 1], [0, 1]], 2⟩

def labels' : List ℤ := [7, 7, 7, 2, 2]

/-- The clause "feature 0" covers the three rows and has one false alarm: with `p = 2` the trained rule has at most three mistakes on the five rows. -/
example : ∃ s pred, fitNew (exact (fun _ : Unit => (0, ()))) 10 2 (heuristicKinds 10) (-1) 0 X' 4 labels' Demo.est0 () = some (.ok (), s) ∧
    predict s.est.classes s.world.master.explanation X'.rows = .ok pred ∧ errors pred labels' ≤ 3 := by
  have hf : ([[0]].map (alarms X' labels')).sum = 1 := by
    unfold alarms
    decide +kernel
  have h := C140_exact (X := X') (y := labels') (kinds := heuristicKinds 10) (C := 10) (p := 2) (K := [[0]]) (fun _ : Unit => (0, ())) (-1) 0 Demo.est0 ()
    (by decide) (by decide) SepDemo.kinds_ok ⟨1, 0, rfl⟩ (by decide) (by norm_num) (by norm_num)
    (by rw [show larger labels' = 3 by decide +kernel, show X'.nFeat = 2 from rfl]; norm_num) (by norm_num)
    ⟨by simp [X'], by norm_num⟩ (by decide +kernel) hf (by norm_num)
  rw [show larger labels' = 3 by decide +kernel] at h
  exact h

end Verif.BDR.ApproxDemo
