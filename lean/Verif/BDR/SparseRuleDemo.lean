import Verif.BDR.SparseRuleProps
import Verif.BDR.SepDemo

/-!
# C144 for three bounds
-/

namespace Verif.BDR.SparseRuleDemo

open MP Spec Fit.Spec Demo

theorem kinds_ok {C : ℚ} (hC : 0 ≤ C) : ∀ l i D, kindAt (heuristicKinds C) l i = some (.exact D) → 0 ≤ D := by
  intro l i D h
  match l, i with
  | 0, 0 => simp [kindAt, heuristicKinds] at h
  | 1, 0 => simp [kindAt, heuristicKinds] at h; rw [← h]; exact hC
  | 0, i + 1 => simp [kindAt, heuristicKinds] at h
  | 1, i + 1 => simp [kindAt, heuristicKinds] at h
  | l + 2, _ => simp [kindAt, heuristicKinds] at h

/-- The runs with exact solvers meet the hypotheses of C144, for every bound. -/
theorem run_hyps (C : ℚ) (hC : 0 ≤ C) : ∃ s, fitNew (exact (fun _ : Unit => (0, ()))) C 1 (heuristicKinds C) (-1) 0 X (2 ^ X.nFeat) labels est0 () = some (.ok (), s) ∧
    ∀ ω, IsOptimal s.world.master.solver ((exact (fun _ : Unit => (0, ()))).ip s.world.master.solver ω).1 := by
  have hl : labels.length = X.rows.length := by decide
  have hb := encoded_binary hl (by decide)
  obtain ⟨s, hr, -⟩ := C66_exact_optimal (C := C) (p := 1) (kinds := heuristicKinds C) (X := X) (y := labels) (maxIt := -1) (limit := 0) (e0 := est0) (ω0 := ())
    (fun _ : Unit => (0, ())) hl (by decide) hC (by norm_num) (kinds_ok hC) (by decide) (by norm_num)
  refine ⟨s, hr, fun ω => ?_⟩
  obtain ⟨ops, hmm⟩ := final_master hl hr
  rw [hmm]
  exact (exact_master hb hC (by norm_num) ops).2.2

/-- With `C = 1/2` everything gets the smaller label 4, whatever the batch. -/
example : ∃ s, fitNew (exact (fun _ : Unit => (0, ()))) (1/2) 1 (heuristicKinds (1/2)) (-1) 0 X (2 ^ X.nFeat) labels est0 () = some (.ok (), s) ∧
    predict s.est.classes s.world.master.explanation [[1, 1], [0, 5]] = .ok [4, 4] := by
  obtain ⟨s, hr, hip⟩ := run_hyps (1/2) (by norm_num)
  obtain ⟨c, hc, h1, h2⟩ := C144_constant (X := X) (y := labels) (by decide) (by decide) (by norm_num) hr hip (by norm_num)
  have h4 := h2 (by norm_num) 4 (by decide)
  have : c = 4 := by
    have : ∀ c ∈ labels, c ≤ 4 → c = 4 := by decide
    exact this c hc h4
  exact ⟨s, hr, by rw [h1, this]; rfl⟩

/-- With `C = 3/2` the rule may be the empty clause; still all rows get the same answer. -/
example : ∃ s c, fitNew (exact (fun _ : Unit => (0, ()))) (3/2) 1 (heuristicKinds (3/2)) (-1) 0 X (2 ^ X.nFeat) labels est0 () = some (.ok (), s) ∧
    predict s.est.classes s.world.master.explanation [[1, 1], [0, 5]] = .ok [c, c] := by
  obtain ⟨s, hr, hip⟩ := run_hyps (3/2) (by norm_num)
  obtain ⟨c, hc, h1, -⟩ := C144_constant (X := X) (y := labels) (by decide) (by decide) (by norm_num) hr hip (by norm_num)
  exact ⟨s, c, hr, h1 _⟩

/-- With `C = 2` a rule with a clause depends on one feature. -/
example : ∃ s F, fitNew (exact (fun _ : Unit => (0, ()))) 2 1 (heuristicKinds 2) (-1) 0 X (2 ^ X.nFeat) labels est0 () = some (.ok (), s) ∧
    (s.world.master.explanation ≠ [] → F.length ≤ 1) ∧ DependsOn (predict s.est.classes s.world.master.explanation) F := by
  obtain ⟨s, hr, hip⟩ := run_hyps 2 (by norm_num)
  obtain ⟨F, h1, h2⟩ := C144_features (X := X) (y := labels) (by decide) (by decide) (by norm_num) hr hip
  refine ⟨s, F, hr, fun hne => ?_, h2⟩
  have h3 : (1 : ℚ) ≤ (s.world.master.explanation.length : ℚ) := by
    exact_mod_cast List.length_pos_iff.2 hne
  have h4 : (F.length : ℚ) ≤ 1 := by linarith
  exact_mod_cast h4

/-- With `C = 10` the first row gets the larger label 9, for at most nine features at which it is not zero. -/
example : ∃ s, fitNew (exact (fun _ : Unit => (0, ()))) 10 1 (heuristicKinds 10) (-1) 0 X (2 ^ X.nFeat) labels est0 () = some (.ok (), s) ∧
    ∃ row ∈ X.rows, predict s.est.classes s.world.master.explanation [row] = .ok [9] ∧ ∃ F : List ℕ, F.length ≤ 9 ∧ (∀ j ∈ F, row.getD j 0 ≠ 0) ∧
      ∀ row' : List ℚ, (∀ j ∈ F, row'.getD j 0 ≠ 0) → predict s.est.classes s.world.master.explanation [row'] = .ok [9] := by
  obtain ⟨s, hr, hip⟩ := run_hyps 10 (by norm_num)
  obtain ⟨s', h1, h2⟩ := C139_exact (X := X) (y := labels) (kinds := heuristicKinds 10) (C := 10) (p := 1) (fun _ : Unit => (0, ())) (-1) 0 est0 ()
    (by decide) (by decide) (by decide) SepDemo.kinds_ok ⟨1, 0, rfl⟩ (by decide) (by norm_num)
    (by rw [show larger labels = 2 by decide +kernel, show X.nFeat = 2 from rfl]; norm_num) (by norm_num) (by norm_num)
  have he : s = s' := by
    have := hr.symm.trans h1
    simpa using this
  subst he
  have hp := h2.2 SepDemo.separable
  have hcls : s.est.classes = [4, 9] := Fit.fit_classes hr
  rw [hcls, C20_predict] at hp
  have hlen : X.rows = X.rows.head (by decide) :: X.rows.tail := (List.cons_head_tail _).symm
  have hrow : predict s.est.classes s.world.master.explanation [X.rows.head (by decide)] = .ok [9] := by
    rw [hcls, C20_predict]
    have h3 := Except.ok.inj hp
    rw [hlen, List.map_cons] at h3
    have h4 := (List.cons.inj h3).1
    exact congrArg (fun a => Except.ok [a]) h4
  obtain ⟨F, h5, h6⟩ := C145_rule (X := X) (y := labels) (by decide) (by decide) (by norm_num) hr hip hrow ⟨4, by decide, by decide⟩
  have h7 : (F.length : ℚ) ≤ 9 := by linarith
  exact ⟨s, hr, _, List.head_mem _, hrow, F, by exact_mod_cast h7, h6⟩

end Verif.BDR.SparseRuleDemo
