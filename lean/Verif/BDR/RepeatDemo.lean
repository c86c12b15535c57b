import Verif.BDR.RepeatProps
import Verif.BDR.CertDemo

/-!
# The hypotheses of C133 hold for concrete data
-/

namespace Verif.BDR.Xor

open MP Spec

/-- The rows twice, in another order and with another non-zero number. -/
def XX : Data := ⟨[[0, 0], [0, 0], [3, 1], [0, 1], [1, 0], [1, 0], [0, 1], [1, 1]], 2⟩
def labels2 : List ℤ := [0, 0, 0, 7, 7, 7, 7, 0]

/-- `C133_repeat`: the certified value doubles. -/
example : ∃ s s', fitNew (exact (fun t : ℚ => (t, t + 1))) 10 1 (plainKinds 10) (-1) 0 X 4 labels est0 0 = some (.ok (), s) ∧ s.est.mpOptimal = true ∧
    fitNew (exact (fun t : ℕ => ((t : ℚ), t + 2))) 10 1 kinds2 (-1) 0 XX 4 labels2 est0 5 = some (.ok (), s') ∧ s'.est.mpOptimal = true ∧
    |(exactLp s'.world.master.solver).objective - (2 : ℕ) * (exactLp s.world.master.solver).objective| ≤ (2 : ℕ) * (1 / 1000000 * 10) := by
  refine C133_repeat (C := 10) (p := 1) (kinds := plainKinds 10) (kinds' := kinds2) _ _ (-1) (-1) 0 0 est0 est0 0 5 rfl (by decide +kernel) rfl (by decide +kernel)
    (by norm_num) (by norm_num) kinds_nonneg ?_ ?_ ⟨0, 0, rfl⟩ ?_ ⟨1, 0, rfl⟩ (by norm_num) (by norm_num) (by norm_num) (by norm_num) 2 (by norm_num) rfl
    (by decide +kernel)
  · intro l i D h
    rcases kinds2_cases h with h | h
    · cases h
    · cases h; norm_num
  · intro l i k h
    rw [plainKinds_cases h]
    exact le_refl _
  · intro l i k h
    rcases kinds2_cases h with rfl | rfl <;> norm_num [Kind.size]

/-- `C133_exact`: with one row less and three times the penalty the certified value is at most three times as large. -/
example : ∃ s s', fitNew (exact (fun t : ℚ => (t, t + 1))) 10 1 (plainKinds 10) (-1) 0 X 4 labels est0 0 = some (.ok (), s) ∧ s.est.mpOptimal = true ∧
    fitNew (exact (fun t : ℕ => ((t : ℚ), t + 2))) 10 3 (plainKinds 10) (-1) 0 ⟨[[0, 0], [3, 1], [0, 1]], 2⟩ 4 [0, 0, 7] est0 5 = some (.ok (), s') ∧
    s'.est.mpOptimal = true ∧
    (exactLp s'.world.master.solver).objective ≤ 1 * 3 * (exactLp s.world.master.solver).objective + 1 / 1000000 * 10 := by
  refine C133_exact (φ := id) (C := 10) (p := 1) (C' := 10) (p' := 3) (k := 1) (q := 3) (kinds := plainKinds 10) (kinds' := plainKinds 10)
    (X' := ⟨[[0, 0], [3, 1], [0, 1]], 2⟩) _ _ (-1) (-1) 0 0 est0 est0 0 5 rfl (by decide +kernel) rfl (by decide +kernel)
    (by norm_num) (by norm_num) kinds_nonneg kinds_nonneg ?_ ⟨0, 0, rfl⟩ (by norm_num) (by norm_num) (by norm_num) (by norm_num) (by norm_num) ?_ (le_refl _)
    (by norm_num) (by norm_num) (by norm_num)
  · intro l i k h
    rw [plainKinds_cases h]
    exact le_refl _
  · refine ⟨fun j hj => hj, fun v => ?_⟩
    rw [one_mul, Nat.cast_le]
    have h : (views 2 id [[0, 0], [3, 1], [0, 1]] (encoded [0, 0, 7])).Subperm (views 2 id X.rows (encoded labels)) := by decide +kernel
    exact List.Subperm.countP_le _ h

end Verif.BDR.Xor
