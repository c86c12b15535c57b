import Verif.BDR.FitExamples
import Verif.Fit.Classes

/-!
# C87: a `fit` that raises, on a classifier that was fitted before
-/

set_option linter.unusedSectionVars false

namespace Verif.BDR

variable {Ω : Type}

/-- `predict` of a classifier after `fit`, `_bdr_classifier.py:677-703`. -/
def predictFitted (s : Fit.St (World Ω) (ℚ × List ℚ) Clause) (X : List (List ℚ)) : Except Err (List ℤ) :=
  predict s.est.classes s.world.master.explanation X

/-- A further `fit` on the same object, with other data. -/
def refit (o : Oracle Ω) (kinds : List (List Kind)) (maxIt : ℤ) (limit : ℚ) (X : Data) (fuel : ℕ) (y : List ℤ)
    (s : Fit.St (World Ω) (ℚ × List ℚ) Clause) : Option (Except Err Unit × Fit.St (World Ω) (ℚ × List ℚ) Clause) :=
  Fit.fit (env o X kinds) (config kinds maxIt limit) fuel y s.est s.world

/-- The full claim of C87: a `fit` that raises leaves the predictions of the fitted classifier as they were. -/
def RefitSafe : Prop := ∀ (Ω : Type) (o : Oracle Ω) (C p : ℚ) (kinds : List (List Kind)) (maxIt : ℤ) (limit : ℚ) (X X2 : Data) (fuel fuel2 : ℕ) (y y2 : List ℤ)
  (e0 : Fit.Est) (ω0 : Ω) (s s2 : Fit.St (World Ω) (ℚ × List ℚ) Clause) (e : Err), fitNew o C p kinds maxIt limit X fuel y e0 ω0 = some (.ok (), s) →
  refit o kinds maxIt limit X2 fuel2 y2 s = some (.error e, s2) → ∀ X', predictFitted s2 X' = predictFitted s X'

theorem generateMp_explanation (m : Master) (X : Data) (y : List ℕ) : (m.generateMp X y).explanation = m.explanation := by
  unfold Master.generateMp
  split <;> rfl

theorem addColumn_explanation (m : Master) (k : Clause) : (m.addColumn k).2.explanation = m.explanation := by
  unfold Master.addColumn
  split
  · rfl
  · split
    · rfl
    · split
      · rfl
      · simp only
        split <;> rfl

theorem generateAt_explanation (o : Oracle Ω) (X : Data) (kinds : List (List Kind)) (l i : ℕ) (d : ℚ × List ℚ) (w : World Ω) :
    (generateAt o X kinds l i d w).2.master = w.master := by
  unfold generateAt
  split <;> rfl

/-- The rule is only replaced by `solve_ip`. -/
theorem preserved_explanation (o : Oracle Ω) (X : Data) (kinds : List (List Kind)) (E : List Clause) :
    Fit.Preserved (env o X kinds) (fun w tr => (∀ r, Fit.Ev.solveIp r ∉ tr) → w.master.explanation = E) where
  clock w tr h := h
  timer w tr t h hn := h (fun r hm => hn r (by simp [hm]))
  check w tr s t h hn := h (fun r hm => hn r (by simp [hm]))
  flag w tr h hn := h (fun r hm => hn r (by simp [hm]))
  clear w tr h := h
  generateMp w tr y h hn := (generateMp_explanation _ _ _).trans (h (fun r hm => hn r (by simp [hm])))
  solveRmp w tr h hn := h (fun r hm => hn r (by simp [hm]))
  improved w tr h hn := h (fun r hm => hn r (by simp [hm]))
  update w tr l i d h hn := h (fun r hm => hn r (by simp [hm]))
  generate w tr l i d h hn := by
    change (generateAt o X kinds l i d w).2.master.explanation = E
    rw [generateAt_explanation]
    exact h (fun r hm => hn r (by simp [hm]))
  add w tr l i c h hn := (addColumn_explanation _ _).trans (h (fun r hm => hn r (by simp [hm])))
  solveIp w tr h hn := absurd (List.mem_append_right _ (List.mem_singleton_self _)) (hn _)

/-- C87, the part that holds: a refit that raises before the integer master is solved keeps the rule, and still reports the object as fitted if it was; the predictions
are those of the old rule in terms of the new labels. In particular they are unchanged when the new data have the same labels. Missing for the full claim: the labels
are overwritten before anything is checked. -/
theorem C87_refit_partial (o : Oracle Ω) (kinds : List (List Kind)) (maxIt : ℤ) (limit : ℚ) (X2 : Data) (fuel2 : ℕ) (y2 : List ℤ)
    {s s2 : Fit.St (World Ω) (ℚ × List ℚ) Clause} {e : Err} (hr : refit o kinds maxIt limit X2 fuel2 y2 s = some (.error e, s2))
    (hn : ∀ r, Fit.Ev.solveIp r ∉ s2.trace) :
    s2.world.master.explanation = s.world.master.explanation ∧ s2.est.classes = Sk.uniqueLabels y2 ∧
      (Sk.uniqueLabels y2 = s.est.classes → ∀ X', predictFitted s2 X' = predictFitted s X') := by
  have h1 : s2.world.master.explanation = s.world.master.explanation :=
    (preserved_explanation o X2 kinds s.world.master.explanation).fit _ fuel2 y2 s.est s.world (fun _ => rfl) _ hr hn
  have h2 : s2.est.classes = Sk.uniqueLabels y2 := Fit.fit_classes hr
  refine ⟨h1, h2, ?_⟩
  intro he X'
  unfold predictFitted
  rw [h1, h2, he]

namespace Demo

/-- The full claim is false: a refit with a single label raises `ValueError`, but the object now predicts that label. -/
theorem C87_false : ¬ RefitSafe := by
  intro h
  obtain ⟨s, hr, -⟩ := run_hyps
  have hrun := run
  rw [hr] at hrun
  simp only [Option.map_some, Option.some.injEq, Prod.mk.injEq, List.cons.injEq] at hrun
  obtain ⟨-, -, -, hexp, -⟩ := hrun
  have hcl : s.est.classes = Sk.uniqueLabels labels := Fit.fit_classes hr
  have h2 : ∃ s2, refit oracle (heuristicKinds 10) (-1) 0 X 1 [5] s = some (.error .valueError, s2) ∧
      s2.world.master = s.world.master ∧ s2.est.classes = [5] := ⟨_, rfl, rfl, rfl⟩
  obtain ⟨s2, hr2, hm2, hc2⟩ := h2
  have := h ℕ oracle 10 1 (heuristicKinds 10) (-1) 0 X X 4 1 labels [5] est0 0 s s2 _ hr hr2 [[0, 0]]
  unfold predictFitted at this
  rw [hm2, hc2, hcl, hexp] at this
  revert this
  decide +kernel

/-- The refit of `C87_false` meets the hypotheses of `C87_refit_partial`: it raised before any call to a solver. -/
example (s : Fit.St (World ℕ) (ℚ × List ℚ) Clause) : ∃ s2, refit oracle (heuristicKinds 10) (-1) 0 X 1 [5] s = some (.error .valueError, s2) ∧
    ∀ r, Fit.Ev.solveIp r ∉ s2.trace := by
  refine ⟨_, rfl, ?_⟩
  intro r hm
  rcases List.mem_singleton.1 hm

end Demo

end Verif.BDR
