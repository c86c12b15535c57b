import Verif.BDR.SessionProps

/-!
# Sessions of several `fit` calls: the hypotheses of C93 and C94 hold for them
-/

namespace Verif.BDR.Demo

open MP Spec

/-- The second `fit` of the session whose first one is `run`: no further clause, the same rule. -/
theorem rerun : ((fitNew oracle 10 1 (heuristicKinds 10) (-1) 0 X 4 labels est0 0).bind (fun r =>
      Fit.fit (env oracle X (heuristicKinds 10)) (config (heuristicKinds 10) (-1) 0) 4 labels r.2.est r.2.world)).map (fun r =>
      ((r.2.est.mpOptimal, Fit.Spec.numRmp r.2.trace), Fit.Spec.accPos r.2.trace,
        [r.2.world.master.clauseDict.map (·.2), r.2.world.master.explanation])) =
    some ((true, 1), [], [[[], [0], [1]], [[0], [1]]]) := by
  decide +kernel

/-- A session of two `fit` calls: the hypotheses of C93 and C94 hold for it. The rule of the second has no larger Hamming loss than that of the first. -/
example : ∃ s s', fitNew oracle 10 1 (heuristicKinds 10) (-1) 0 X 4 labels est0 0 = some (.ok (), s) ∧
    Session oracle 10 1 (heuristicKinds 10) X labels s.world ∧
    Fit.fit (env oracle X (heuristicKinds 10)) (config (heuristicKinds 10) 7 3) 4 labels s.est s.world = some (.ok (), s') ∧
    (∀ K : List Clause, (∀ k ∈ K, k ∈ s.world.master.clauses) → (K.map (fun k => 1 + (k.length : ℚ))).sum ≤ 10 →
      hamming X.rows (encoded labels) 1 s.world.master.explanation ≤ hamming X.rows (encoded labels) 1 K) ∧
    s.world.master.clauses <+: s'.world.master.clauses := by
  obtain ⟨s, hr, ho, h1, h2, h3⟩ := run_hyps
  have hr' : Fit.fit (env oracle X (heuristicKinds 10)) (config (heuristicKinds 10) (-1) 0) 4 labels est0 (World.init 10 1 (heuristicKinds 10) 0) =
      some (.ok (), s) := hr
  have hs : Session oracle 10 1 (heuristicKinds 10) X labels s.world := (Session.new 0).fit (-1) 0 4 est0 hr'
  obtain ⟨s', hr2, -⟩ := C94_refit_returns 7 3 s.est hs rfl (by decide +kernel) contract
  exact ⟨s, s', hr, hs, hr2, (C93_best_rule (X := X) rfl (by decide +kernel) (by norm_num) hr h3).2.2,
    C94_clauses_kept ((Later.here s.world).fit X labels 7 3 4 s.est hr2)⟩

/-- Two `fit` calls with exact solvers on the exclusive or data, the first stopped before it starts: `C94_exact` applies. -/
example : ∃ s s', fitNew (exact (fun t : ℚ => (t, t + 1))) 10 1 (plainKinds 10) 0 0 Xor.X 4 Xor.labels est0 0 = some (.ok (), s) ∧
    Fit.fit (env (exact (fun t : ℚ => (t, t + 1))) Xor.X (plainKinds 10)) (config (plainKinds 10) (-1) 0) 4 Xor.labels s.est s.world = some (.ok (), s') ∧
    hamming Xor.X.rows (encoded Xor.labels) 1 s'.world.master.explanation ≤ hamming Xor.X.rows (encoded Xor.labels) 1 s.world.master.explanation := by
  have hc := exact_contract (fun t : ℚ => (t, t + 1)) (X := Xor.X) (C := 10) (p := 1) (kinds := plainKinds 10)
    (encoded_binary (X := Xor.X) (y := Xor.labels) rfl (by decide +kernel)) (by norm_num) (by norm_num) Xor.kinds_nonneg
  obtain ⟨s, hr, -⟩ := C94_refit_returns (y := Xor.labels) 0 0 est0 (Session.new 0) rfl (by decide +kernel) hc
  obtain ⟨s', hr', hle⟩ := C94_exact (y := Xor.labels) (-1) 0 s.est (by norm_num) (by norm_num) Xor.kinds_nonneg (Session.new 0) rfl (by decide +kernel) hr
  exact ⟨s, s', hr, hr', hle⟩

end Verif.BDR.Demo
