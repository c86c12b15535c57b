import Verif.BDR.LeanProps
import Verif.BDR.SessionDemo

/-!
# The hypotheses of C131 hold for concrete runs
-/

namespace Verif.BDR.LeanDemo

open MP Spec

/-- Three equal rows, two of the larger label: every rule that covers the positive rows covers the negative one. -/
def X : Data := ⟨[[1], [1], [1]], 1⟩
def labels : List ℤ := [5, 5, 3]

/-- A run with exact solvers: a clause of the trained rule covers the negative row, and it is the only one that covers some positive row; and
no rule made of some of its clauses makes fewer errors. -/
example : ∃ s A k B, fitNew (exact (fun t : ℚ => (t, t + 1))) 10 1 (plainKinds 10) (-1) 0 X 2 labels Demo.est0 0 = some (.ok (), s) ∧
    s.world.master.explanation = A ++ k :: B ∧ (∃ r ∈ neg X.rows (encoded labels), Sat r k) ∧
    (∃ r ∈ pos X.rows (encoded labels), Sat r k ∧ ∀ k' ∈ A ++ B, ¬ Sat r k') ∧
    ∃ pred pred', predict (Sk.uniqueLabels labels) s.world.master.explanation X.rows = .ok pred ∧ predict (Sk.uniqueLabels labels) (A ++ B) X.rows = .ok pred' ∧
      errors pred labels ≤ errors pred' labels := by
  have h2 : (Sk.uniqueLabels labels).length = 2 := by decide +kernel
  have hc := exact_contract (fun t : ℚ => (t, t + 1)) (X := X) (C := 10) (p := 1) (kinds := plainKinds 10)
    (encoded_binary (X := X) (y := labels) rfl (le_of_eq h2)) (by norm_num) (by norm_num) Xor.kinds_nonneg
  have hs0 : Session (exact (fun t : ℚ => (t, t + 1))) 10 1 (plainKinds 10) X labels (World.init 10 1 (plainKinds 10) 0) := Session.new 0
  obtain ⟨s, hr, -⟩ := C94_refit_returns (y := labels) (-1) 0 Demo.est0 hs0 rfl h2 hc
  have hip := exact_ip (y := labels) (by norm_num) (by norm_num) hs0 rfl (le_of_eq h2) hr
  have hl := (C67_trained_rule (X := X) (y := labels) rfl (le_of_eq h2) (by norm_num) (by norm_num) hr hip).2.2 (by norm_num)
  have e1 : pos X.rows (encoded labels) = [[1], [1]] := by decide +kernel
  have e2 : neg X.rows (encoded labels) = [[1]] := by decide +kernel
  unfold loss at hl
  rw [e1, e2] at hl
  have hR : Rule s.world.master.explanation [1] := by
    by_contra hn
    simp [hn] at hl
  obtain ⟨k, hk, hks⟩ := hR
  have hall : ∀ k' ∈ s.world.master.explanation, Sat [1] k' → ∃ r ∈ neg X.rows (encoded labels), Sat r k' := fun k' _ h => ⟨[1], by rw [e2]; simp, h⟩
  obtain ⟨A, B, hAB⟩ := List.append_of_mem hk
  obtain ⟨r, hrp, hrk, hrn⟩ := C131_needed hs0 rfl (le_of_eq h2) (by norm_num) hr hip hAB (hall k hk hks)
  exact ⟨s, A, k, B, hr, hAB, hall k hk hks, ⟨r, hrp, hrk, hrn⟩,
    C131_errors hs0 rfl h2 hr hip (hAB ▸ List.Sublist.append_left (List.sublist_cons_self k B) A)⟩

end Verif.BDR.LeanDemo
