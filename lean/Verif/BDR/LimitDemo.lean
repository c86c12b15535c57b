import Verif.BDR.GuidedDemo
import Verif.BDR.LimitProps

/-!
# Property C114, the negative part: one more iteration may cost training errors

`C114_rule_not_worse` is about the Hamming loss, which the master problem minimises. The number of misclassified training rows is not monotone: with exact solvers
throughout, a second iteration replaces a rule with two training errors by one with three.
-/

namespace Verif.BDR.LimitDemo

open MP Spec Demo

/-- Six rows of class 1 and six of class 0. -/
def X : Data := ⟨[[1, 0, 1, 1], [1, 0, 1, 1], [1, 0, 0, 0], [0, 1, 1, 1], [0, 1, 0, 0], [0, 1, 0, 0],
  [1, 1, 1, 0], [1, 1, 0, 1], [0, 0, 1, 0], [0, 0, 1, 0], [0, 0, 0, 1], [0, 0, 0, 1]], 4⟩

def labels : List ℤ := [1, 1, 1, 1, 1, 1, 0, 0, 0, 0, 0, 0]

def fn (l : List ℚ) : ℕ → ℚ := fun i => l.getD i 0

/-- The answers of the linear programs with one and with three clauses. -/
def lps : List ((ℕ → ℚ) × (ℕ → ℚ)) :=
  [(fn [1, 1, 1, 1, 1, 1, 0], fn [0, 1, 1, 1, 1, 1, 1]), (fn [0, 0, 0, 0, 0, 0, 0, 1, 1], fn [0, 1, 1, 0, 1, 1, 0])]

/-- The answers of the integer programs with three and with four clauses. -/
def ips : List ((ℕ → ℚ) × (ℕ → ℚ)) :=
  [(fn [0, 0, 0, 0, 0, 0, 0, 1, 1], fn [0, 1, 1, 0, 1, 1, 0]), (fn [0, 0, 1, 0, 1, 1, 0, 0, 0, 1], fn [0, 0, 0, 1, 0, 1, 1])]

noncomputable def solvers : Oracle Unit := guided lps ips [clauseAssign X [2, 3]]

/-- What is compared: the clauses, the rule, whether `fit` returned, and the training errors of `predict`. -/
def seen (r : Except Err Unit × Fit.St (World Unit) (ℚ × List ℚ) Clause) : List Clause × List Clause × Bool × ℕ :=
  (r.2.world.master.clauses, r.2.world.master.explanation, (match r.1 with | .ok _ => true | .error _ => false),
    (match predictFitted r.2 X.rows with | .ok pred => errors pred labels | .error _ => 0))

theorem run_one : (fitNew solvers 4 1 (heuristicKinds 4) 1 0 X 8 labels Demo.est0 ()).map seen = some ([[], [0], [1]], [[0], [1]], true, 2) := by
  decide +kernel

theorem run_two : (fitNew solvers 4 1 (heuristicKinds 4) 2 0 X 8 labels Demo.est0 ()).map seen =
    some ([[], [0], [1], [2, 3]], [[2, 3]], true, 3) := by
  decide +kernel

theorem seen_spec {r : Option (Except Err Unit × Fit.St (World Unit) (ℚ × List ℚ) Clause)} {ks e : List Clause} {n : ℕ}
    (hn : 0 < n) (h : r.map seen = some (ks, e, true, n)) :
    ∃ s, r = some (.ok (), s) ∧ s.world.master.clauses = ks ∧ s.world.master.explanation = e ∧
      ∃ pred, predictFitted s X.rows = .ok pred ∧ errors pred labels = n := by
  cases r with
  | none => cases h
  | some r =>
    obtain ⟨q, s⟩ := r
    simp only [Option.map_some, Option.some.injEq, seen, Prod.mk.injEq] at h
    obtain ⟨h1, h2, h3, h4⟩ := h
    cases q with
    | error er => simp at h3
    | ok u =>
      refine ⟨s, rfl, h1, h2, ?_⟩
      cases hp : predictFitted s X.rows with
      | error er => rw [hp] at h4; simp only at h4; omega
      | ok pred => rw [hp] at h4; exact ⟨pred, rfl, h4⟩

/-- **C114, not for the training errors.** There are exact solvers (optimal on every program they are given), data with two classes and settings with which `fit` returns for
`max_iterations = 1` and for `max_iterations = 2`, the second call has a smaller Hamming loss, and its rule misclassifies more training rows. -/
theorem C114_rule_errors_refuted : ∃ o : Oracle Unit, ExactSolvers o ∧ (Sk.uniqueLabels labels).length = 2 ∧ labels.length = X.rows.length ∧
    ∃ s s', fitNew o 4 1 (heuristicKinds 4) 1 0 X 8 labels Demo.est0 () = some (.ok (), s) ∧
      fitNew o 4 1 (heuristicKinds 4) 2 0 X 8 labels Demo.est0 () = some (.ok (), s') ∧
      hamming X.rows (encoded labels) 1 s.world.master.explanation = 4 ∧ hamming X.rows (encoded labels) 1 s'.world.master.explanation = 3 ∧
      ∃ pred pred', predictFitted s X.rows = .ok pred ∧ predictFitted s' X.rows = .ok pred' ∧ errors pred labels = 2 ∧ errors pred' labels = 3 := by
  refine ⟨solvers, guided_exact _ _ _, by decide +kernel, rfl, ?_⟩
  obtain ⟨s, h1, -, h3, pred, h4, h5⟩ := seen_spec (by norm_num) run_one
  obtain ⟨s', h1', -, h3', pred', h4', h5'⟩ := seen_spec (by norm_num) run_two
  refine ⟨s, s', h1, h1', ?_, ?_, pred, pred', h4, h4', h5, h5'⟩
  · rw [h3]; decide +kernel
  · rw [h3']; decide +kernel

end Verif.BDR.LimitDemo
