import Verif.BDR.SepProps
import Verif.BDR.SessionDemo

/-!
# C139 on two data sets
-/

namespace Verif.BDR.SepDemo

open MP Spec Fit.Spec Demo

theorem separable : Separable X labels := by
  unfold Separable
  decide +kernel

theorem kinds_ok : ∀ l i D, kindAt (heuristicKinds 10) l i = some (.exact D) → 0 ≤ D := by
  intro l i D h
  match l, i with
  | 0, 0 => simp [kindAt, heuristicKinds] at h
  | 1, 0 => simp [kindAt, heuristicKinds] at h; rw [← h]; norm_num
  | 0, i + 1 => simp [kindAt, heuristicKinds] at h
  | 1, i + 1 => simp [kindAt, heuristicKinds] at h
  | l + 2, _ => simp [kindAt, heuristicKinds] at h

/-- Two of the three rows have the larger label, and there are two features: `C` is large enough. With exact solvers the rule is right on all rows. -/
example : larger labels = 2 ∧ ∃ s, fitNew (exact (fun _ : Unit => (0, ()))) 10 1 (heuristicKinds 10) (-1) 0 X 4 labels est0 () = some (.ok (), s) ∧
    predict s.est.classes s.world.master.explanation X.rows = .ok [9, 9, 4] := by
  refine ⟨by decide +kernel, ?_⟩
  obtain ⟨s, h1, h2⟩ := C139_exact (X := X) (y := labels) (kinds := heuristicKinds 10) (C := 10) (p := 1) (fun _ : Unit => (0, ())) (-1) 0 est0 ()
    (by decide) (by decide) (by decide) kinds_ok ⟨1, 0, rfl⟩ (by decide) (by norm_num)
    (by rw [show larger labels = 2 by decide +kernel, show X.nFeat = 2 from rfl]; norm_num) (by norm_num) (by norm_num)
  exact ⟨s, h1, h2.2 separable⟩

/-- Exclusive or: the row with both features contains the rows with one of them, so no rule is right on all rows, whatever its complexity. -/
example : ¬ Separable ⟨[[0, 0], [0, 1], [1, 0], [1, 1]], 2⟩ [0, 1, 1, 0] ∧
    ∀ K, predict (Sk.uniqueLabels [0, 1, 1, 0]) K [[0, 0], [0, 1], [1, 0], [1, 1]] ≠ .ok [0, 1, 1, 0] := by
  have h : ¬ Separable ⟨[[0, 0], [0, 1], [1, 0], [1, 1]], 2⟩ [0, 1, 1, 0] := by
    unfold Separable
    decide +kernel
  exact ⟨h, fun K hK => h (C139_necessary (X := ⟨[[0, 0], [0, 1], [1, 0], [1, 1]], 2⟩) (by decide) (by decide) (by decide) hK)⟩

end Verif.BDR.SepDemo
