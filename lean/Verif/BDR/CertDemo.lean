import Verif.BDR.CertProps

/-!
# C102: runs that meet the hypotheses
-/

set_option linter.unusedSectionVars false

namespace Verif.BDR

open MP Spec
open Fit.Spec

namespace Xor

/-- The rows in another order, with another non-zero number. -/
def XP : Data := ⟨[[0, 0], [3, 1], [0, 1], [1, 0]], 2⟩

/-- A heuristic level before the exact one. -/
def kinds2 : List (List Kind) := [[.heuristic 2], [.exact 10]]

theorem kinds2_cases {l i : ℕ} {k : Kind} (h : kindAt kinds2 l i = some k) : k = .heuristic 2 ∨ k = .exact 10 := by
  unfold kindAt kinds2 at h
  match l, i with
  | 0, 0 => simp at h; exact Or.inl h.symm
  | 0, i + 1 => simp at h
  | 1, 0 => simp at h; exact Or.inr h.symm
  | 1, i + 1 => simp at h
  | l + 2, i => simp at h

theorem plainKinds_cases {l i : ℕ} {k : Kind} {D : ℚ} (h : kindAt (plainKinds D) l i = some k) : k = .exact D := by
  unfold kindAt plainKinds at h
  match l, i with
  | 0, 0 => simp at h; exact h.symm
  | 0, i + 1 => simp at h
  | l + 1, i => simp at h

theorem contains' : Contains X (encoded labels) XP (encoded [0, 0, 7, 7]) id := by
  refine ⟨fun j hj => hj, ?_⟩
  decide +kernel

/-- `C102_exact`: one exact level on the data, and two levels on the data in another order with other label names and another clock. -/
example : ∃ s s', fitNew (exact (fun t : ℚ => (t, t + 1))) 10 1 (plainKinds 10) (-1) 0 X 4 labels est0 0 = some (.ok (), s) ∧ s.est.mpOptimal = true ∧
    fitNew (exact (fun t : ℕ => ((t : ℚ), t + 2))) 10 1 kinds2 (-1) 0 XP 4 [0, 0, 7, 7] est0 5 = some (.ok (), s') ∧ s'.est.mpOptimal = true ∧
    |(exactLp s'.world.master.solver).objective - (exactLp s.world.master.solver).objective| ≤ 1 / 1000000 * 10 := by
  refine C102_exact (X := X) (X' := XP) (C := 10) (p := 1) _ _ (-1) (-1) 0 0 est0 est0 0 5 rfl (by decide +kernel) rfl (by decide +kernel) (by norm_num) (by norm_num) kinds_nonneg ?_
    ⟨0, 0, rfl⟩ ?_ ⟨1, 0, rfl⟩ ?_ (by norm_num) (le_refl _) (by norm_num) (le_refl _) contains' rfl
  · intro l i D h
    rcases kinds2_cases h with h | h
    · cases h
    · cases h; norm_num
  · intro l i k h
    rw [plainKinds_cases h]
    exact le_refl _
  · intro l i k h
    rcases kinds2_cases h with h | h
    · rw [h]; norm_num [Kind.size]
    · rw [h]; exact le_refl _

/-- One feature of the data of `Xor`, at most one iteration, clauses of at most 3 features, and double weight on missed rows. -/
def X1 : Data := ⟨[[1], [0], [1], [0]], 1⟩

/-- `C102_compare`: the certified run on the two features is as good as every run that is cut off after one iteration and sees only the second
feature, with a smaller complexity bound. -/
example : ∃ s s', fitNew (exact (fun t : ℚ => (t, t + 1))) 3 2 (plainKinds 3) 1 0 X1 2 [0, 1, 1, 0] est0 0 = some (.ok (), s) ∧
    fitNew (exact (fun t : ℚ => (t, t + 1))) 10 1 (plainKinds 10) (-1) 0 X 4 labels est0 0 = some (.ok (), s') ∧
    (exactLp s'.world.master.solver).objective ≤ (exactLp s.world.master.solver).objective + 1 / 1000000 * 10 := by
  have hb1 : Binary X1.rows (encoded [0, 1, 1, 0]) := encoded_binary rfl (by decide +kernel)
  have hk1 : ∀ l i D, kindAt (plainKinds 3) l i = some (.exact D) → 0 ≤ D := by
    intro l i D h
    cases plainKinds_cases h
    norm_num
  have hE1 := exact_exact (fun t : ℚ => (t, t + 1)) (kinds := plainKinds 3) (C := 3) (p := 2) hb1 (by norm_num) (by norm_num) hk1
  obtain ⟨s', hr', ho'⟩ := run
  obtain ⟨s, hr, -⟩ := C66_fit_returns (exact (fun t : ℚ => (t, t + 1))) 3 2 (plainKinds 3) 1 0 X1 [0, 1, 1, 0] est0 0 rfl (by decide +kernel) hE1.contract
  have hf := exact_final (X := X1) (y := [0, 1, 1, 0]) (C := 3) (p := 2) (fun t : ℚ => (t, t + 1)) rfl (by decide +kernel) (by norm_num) (by norm_num) hr
  have hf' := exact_final (X := X) (y := labels) (C := 10) (p := 1) (fun t : ℚ => (t, t + 1)) rfl (by decide +kernel) (by norm_num) (by norm_num) hr'
  refine ⟨s, s', hr, hr', ?_⟩
  refine C102_compare (X := X1) (X' := X) (φ := fun _ => 1) rfl (by decide +kernel) hyps.contract ⟨0, 0, rfl⟩ hyps.mip hr' ho' (fun ω => (hf' ω).1)
    (fun ω => (hf' ω).2.1) (fun ω => (hf' ω).2.2) rfl (by decide +kernel) hE1.contract (by norm_num) ?_ hr (fun ω => (hf ω).1) ⟨?_, ?_⟩ (by norm_num)
    (by norm_num) (by norm_num) 0 0
  · intro l i k h
    rw [plainKinds_cases h]
    exact le_refl _
  · intro j _; decide
  · decide +kernel

/-- `C102_sizes`: no hypothesis on the end of the run. -/
example (fuel : ℕ) {r} (hr : fitNew (exact (fun t : ℚ => (t, t + 1))) 10 1 kinds2 (-1) 0 X fuel labels est0 0 = some r) :
    ∀ k ∈ r.2.world.master.clauseDict.map (·.2), Proper 2 k ∧ (k.length : ℚ) ≤ 10 := by
  have hk : ∀ l i D, kindAt kinds2 l i = some (.exact D) → 0 ≤ D := by
    intro l i D h
    rcases kinds2_cases h with h | h
    · cases h
    · cases h; norm_num
  refine C102_sizes (X := X) (S := 10) rfl (by decide +kernel) (exact_contract (X := X) _ (encoded_binary rfl (by decide +kernel)) (by norm_num) (by norm_num) hk)
    (by norm_num) ?_ hr
  intro l i k h
  rcases kinds2_cases h with h | h
  · rw [h]; norm_num [Kind.size]
  · rw [h]; exact le_refl _

end Xor

end Verif.BDR
