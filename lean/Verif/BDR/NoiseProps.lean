import Verif.BDR.FitExamples
import Verif.Noise
import Verif.DTree.Demo

/-!
# C101 for Boolean decision rules: rounding noise in the answers of the solvers
-/

set_option linter.unusedSectionVars false

namespace Verif.BDR

open MP Noise

/-- C101, pricing, the part that holds: noise below one that is never positive at a zero does not change the generated clause. -/
theorem C101_clause_partial (s : Sub) (a v : Answer) {ε : ℚ} (h : Near ε a.values v.values) (hv : ZeroOne v.values) (hε : ε < 1)
    (hn : NotAbove a.values v.values) (hs : a.status = v.status) (ho : a.objective ≥ threshold ↔ v.objective ≥ threshold) :
    s.readClause a = s.readClause v := by
  have e : ∀ i, decide (a.values i > 0) = decide (v.values i > 0) := fun i => decide_eq_decide.2 (near_zero_iff h hv hε hn i)
  unfold Sub.readClause
  simp only [hs, ho, e]

/-- C101, pricing, what remains in general: every feature of the exact clause is in the clause that is read, in the same order; noise can
only add features. -/
theorem C101_clause_superset (s : Sub) (a v : Answer) {ε : ℚ} (h : Near ε a.values v.values) (hv : ZeroOne v.values) (hε : ε < 1)
    (hs : a.status = v.status) (ho : a.objective ≥ threshold ↔ v.objective ≥ threshold) {k : Clause} (hk : s.readClause v = .ok [k]) :
    ∃ k', s.readClause a = .ok [k'] ∧ k.Sublist k' := by
  unfold Sub.readClause at hk ⊢
  rw [hs]
  by_cases h1 : v.status = .other
  · rw [if_pos h1] at hk; cases hk
  · rw [if_neg h1] at hk ⊢
    by_cases h2 : v.objective ≥ threshold
    · rw [if_pos h2] at hk; cases hk
    · rw [if_neg h2] at hk
      rw [if_neg (fun h3 => h2 (ho.1 h3))]
      refine ⟨_, rfl, ?_⟩
      simp only [Except.ok.injEq, List.cons.injEq, and_true] at hk
      rw [← hk]
      have e : (List.range s.zVars.length).filter (fun i => decide (v.values (s.zVars.getD i 0) > 0)) =
          ((List.range s.zVars.length).filter (fun i => decide (a.values (s.zVars.getD i 0) > 0))).filter
            (fun i => decide (v.values (s.zVars.getD i 0) > 0)) := by
        rw [List.filter_filter]
        apply List.filter_congr
        intro i _
        generalize s.zVars.getD i 0 = j
        by_cases hp : v.values j > 0
        · simp [hp, near_zero h hv hε _ hp]
        · simp [hp]
      rw [e]
      exact List.filter_sublist

/-- C101, the rule, the part that holds. The number of times a clause is chosen does not matter, so the exact values need not be at most 1:
noise that is never positive at a zero, and leaves the others positive, does not change the rule. -/
theorem C101_rule_partial (s : Master) (solve solve' : Model → Answer)
    (hpos : ∀ i, (solve s.solver).values i > 0 → (solve' s.solver).values i > 0)
    (hn : ∀ i, (solve s.solver).values i ≤ 0 → (solve' s.solver).values i ≤ 0)
    (hs : (solve' s.solver).status = (solve s.solver).status) : s.solveIp solve' = s.solveIp solve := by
  have e : ∀ i, decide ((solve' s.solver).values i > 0) = decide ((solve s.solver).values i > 0) := fun i =>
    decide_eq_decide.2 ⟨fun h => by_contra (fun h' => absurd (hn i (not_lt.1 h')) (not_le.2 h)), hpos i⟩
  unfold Master.solveIp
  simp only [e, hs]

/-- C101, duals: the pricing problem accepts the duals of the master problem exactly when no dual of a sample is reported negative. The dual
of the complexity constraint may be reported with either sign. -/
theorem C101_duals (m : Master) (s : Sub) (X : Data) (y : List ℕ) (ans : Answer) {d : ℚ × List ℚ} (hd : m.solveRmp ans = .ok d) :
    (∃ s', s.prepare X y d = .ok s') ↔ ∀ i < m.solver.cons.length - 1, 0 ≤ ans.duals (m.clauseSatisfaction.getD i 0) := by
  unfold Master.solveRmp at hd
  by_cases hg : m.generated = false
  · rw [if_pos hg] at hd; cases hd
  · rw [if_neg hg] at hd
    simp only [Except.ok.injEq] at hd
    rw [← hd]
    unfold Sub.prepare
    rw [if_neg (not_lt.2 (abs_nonneg _))]
    constructor
    · rintro ⟨s', h⟩ i hi
      by_contra hneg
      rw [if_pos (by
        rw [List.any_eq_true]
        exact ⟨_, List.mem_map.2 ⟨i, List.mem_range.2 hi, rfl⟩, by simpa using hneg⟩)] at h
      cases h
    · intro h
      rw [if_neg (by
        rw [List.any_eq_true]
        rintro ⟨x, hx, hx'⟩
        obtain ⟨i, hi, rfl⟩ := List.mem_map.1 hx
        have := h i (List.mem_range.1 hi)
        simp only [decide_eq_true_eq] at hx'
        linarith)]
      by_cases h1 : s.generated = true
      · rw [if_pos h1]
        unfold Sub.updateObjective
        rw [if_neg (by simp [h1])]
        exact ⟨_, rfl⟩
      · rw [if_neg h1]
        unfold Sub.createSubmip
        rw [if_neg h1]
        exact ⟨_, rfl⟩

namespace Demo

/-! ## Runs -/

/-- One billionth is added to every value that is 0. -/
def addNoise (v : ℕ → ℚ) (i : ℕ) : ℚ := if v i = 0 then 1 / 1000000000 else v i

theorem addNoise_near (v : ℕ → ℚ) : Near (1 / 1000000000) (addNoise v) v := by
  intro i
  unfold addNoise
  split
  · rename_i h; rw [h]; norm_num
  · simp

/-- Dual feasible, and the dual value equals the value of the given primal point. -/
def lpOk (m : Model) (c : (ℕ → ℚ) × (ℕ → ℚ)) : Bool :=
  m.cons.zipIdx.all (fun k => (k.1.lb.isSome || decide (c.2 k.2 ≤ 0)) && (k.1.ub.isSome || decide (0 ≤ c.2 k.2))) &&
  (List.range m.vars.length).all (fun v => decide (0 ≤ m.reducedCost c.2 v)) && DTree.Demo.checkLP m c.1 && decide (m.dualValue c.2 = m.value c.1)

theorem lpOk_dual {m : Model} {c : (ℕ → ℚ) × (ℕ → ℚ)} (h : lpOk m c = true) : DualFeasible m 0 c.2 := by
  unfold lpOk at h
  simp only [Bool.and_eq_true, List.all_eq_true, decide_eq_true_eq, Bool.or_eq_true] at h
  obtain ⟨⟨⟨h1, h2⟩, -⟩, -⟩ := h
  refine ⟨?_, ?_, ?_⟩
  · intro i k hk hlb
    have := (h1 (k, i) (by rw [List.mem_zipIdx_iff_getElem?]; simpa using hk)).1
    simpa [hlb] using this
  · intro i k hk hub
    have := (h1 (k, i) (by rw [List.mem_zipIdx_iff_getElem?]; simpa using hk)).2
    simpa [hub] using this
  · intro v hv
    simpa using h2 v (List.mem_range.2 hv)

/-- Candidates for optimal solutions of the relaxed master problem with their duals: the empty clause covers both samples, or the clauses
`[0]` and `[1]` do. -/
def lpCands : List ((ℕ → ℚ) × (ℕ → ℚ)) :=
  [(fun v => if v = 2 then 1 else 0, fun c => if c = 0 then 0 else 1 / 2), (fun v => if v = 2 then 1 else 0, fun c => if c = 2 then 1 else 0),
    (fun v => if v = 2 then 1 else 0, fun c => if c = 1 then 1 else 0), (fun v => if v = 3 ∨ v = 4 then 1 else 0, fun _ => 0)]

/-- As `oracle`, but the relaxed master problem is answered with the first candidate whose optimality can be verified. -/
def checked : Oracle ℕ where
  clock := oracle.clock
  lp m ω := (match lpCands.find? (lpOk m) with
    | some c => ⟨.optimal, c.1, c.2, m.value c.1⟩
    | none => ⟨.feasible, fun _ => 0, fun _ => 0, 0⟩, ω + 1)
  mip := oracle.mip
  ip := oracle.ip

/-- Noise in the answers of the pricing problem only. -/
def noisyMip : Oracle ℕ where
  clock := checked.clock
  lp := checked.lp
  mip m ω := (⟨(checked.mip m ω).1.status, addNoise (checked.mip m ω).1.values, (checked.mip m ω).1.duals, (checked.mip m ω).1.objective⟩,
    (checked.mip m ω).2)
  ip := checked.ip

/-- Noise in the duals of the master problem only: one billionth is subtracted from every dual that is 0. -/
def noisyLp : Oracle ℕ where
  clock := oracle.clock
  lp m ω := (⟨(oracle.lp m ω).1.status, (oracle.lp m ω).1.values, fun c => if (oracle.lp m ω).1.duals c = 0 then -(1 / 1000000000) else
    (oracle.lp m ω).1.duals c, (oracle.lp m ω).1.objective⟩, (oracle.lp m ω).2)
  mip := oracle.mip
  ip := oracle.ip

theorem contract_plain : Contract checked 10 1 (plainKinds 10) X (encoded labels) where
  lp ops ω := by
    have h : DualFeasible (after 10 1 X (encoded labels) ops).solver 0 (checked.lp (after 10 1 X (encoded labels) ops).solver ω).1.duals := by
      change DualFeasible _ 0 (match lpCands.find? (lpOk (after 10 1 X (encoded labels) ops).solver) with
        | some c => (⟨.optimal, c.1, c.2, _⟩ : Answer)
        | none => ⟨.feasible, fun _ => 0, fun _ => 0, 0⟩).duals
      cases hc : lpCands.find? (lpOk (after 10 1 X (encoded labels) ops).solver) with
      | some c => exact lpOk_dual (List.find?_some hc)
      | none =>
        rw [encoded_labels]
        refine dual_of rfl (by simp) (by intro i; simp) (by intro i _; norm_num) ?_
        intro k _
        simp
    exact ⟨h.le, h.ge, fun v hv => le_trans (by norm_num) (h.cost v hv)⟩
  mip l i D hk hist d ω h1 h2 := by
    rw [encoded_labels]
    have hD : D = 10 := by
      unfold kindAt plainKinds at hk
      match l, i with
      | 0, 0 => simpa using hk.symm
      | 0, i + 1 => simp at hk
      | l + 1, i => simp at hk
    subst hD
    exact ⟨by simp [oracle, checked], (mip_optimal hist d ω h1 h2).1⟩
  ip := contract.ip

/-- How a run ended: `none` for an endless loop, otherwise the exception, if any. -/
def outcome {Ω : Type} (r : Option (Except Err Unit × Fit.St (World Ω) (ℚ × List ℚ) Clause)) : Option (Option Err) :=
  r.map (fun q => match q.1 with
    | .ok _ => none
    | .error e => some e)

/-- C101 is false for the pricing problem of Boolean decision rules: with exact answers `fit` returns, whatever the limits. If the values of
the pricing problem are reported with an error of one billionth, and everything else is the same, the same clause is generated twice, and
`fit` raises `AssertionError`. -/
theorem C101_clause_refuted : Contract checked 10 1 (plainKinds 10) X (encoded labels) ∧
    (∀ m ω, Near (1 / 1000000000) (noisyMip.mip m ω).1.values (checked.mip m ω).1.values ∧
      (noisyMip.mip m ω).1.status = (checked.mip m ω).1.status ∧ (noisyMip.mip m ω).1.objective = (checked.mip m ω).1.objective) ∧
    (∀ maxIt limit, ∃ s, fitNew checked 10 1 (plainKinds 10) maxIt limit X 4 labels est0 0 = some (.ok (), s) ∧ s.est.isFitted = true) ∧
    outcome (fitNew noisyMip 10 1 (plainKinds 10) (-1) 0 X 4 labels est0 0) = some (some .assertionError) := by
  refine ⟨contract_plain, fun m ω => ⟨addNoise_near _, rfl, rfl⟩, fun maxIt limit => ?_, by decide +kernel⟩
  exact C66_fit_returns checked 10 1 (plainKinds 10) maxIt limit X labels est0 0 rfl (by decide +kernel) contract_plain

/-- C101 is false for the duals: if the duals of the master problem are reported with an error of one billionth, and everything else is the
same, `fit` raises `AssertionError`, with and without the heuristic. -/
theorem C101_duals_refuted : Contract oracle 10 1 (heuristicKinds 10) X (encoded labels) ∧
    (∀ m ω, Near (1 / 1000000000) (noisyLp.lp m ω).1.duals (oracle.lp m ω).1.duals ∧
      (noisyLp.lp m ω).1.values = (oracle.lp m ω).1.values ∧ (noisyLp.lp m ω).1.status = (oracle.lp m ω).1.status ∧
      (noisyLp.lp m ω).1.objective = (oracle.lp m ω).1.objective) ∧
    (∀ maxIt limit, ∃ s, fitNew oracle 10 1 (heuristicKinds 10) maxIt limit X 4 labels est0 0 = some (.ok (), s) ∧ s.est.isFitted = true) ∧
    outcome (fitNew noisyLp 10 1 (heuristicKinds 10) (-1) 0 X 4 labels est0 0) = some (some .assertionError) ∧
    outcome (fitNew noisyLp 10 1 (plainKinds 10) (-1) 0 X 6 labels est0 0) = some (some .assertionError) := by
  refine ⟨contract, fun m ω => ⟨?_, rfl, rfl, rfl⟩, fun maxIt limit => ?_, by decide +kernel, by decide +kernel⟩
  · intro i
    change |(if (oracle.lp m ω).1.duals i = 0 then -(1 / 1000000000) else (oracle.lp m ω).1.duals i) - (oracle.lp m ω).1.duals i| ≤ _
    split
    · rename_i h; rw [h]; norm_num [abs_le]
    · simp
  · exact C66_fit_returns oracle 10 1 (heuristicKinds 10) maxIt limit X labels est0 0 rfl (by decide +kernel) contract

/-- The master problem for a complexity bound of 2 with the clauses `[]`, `[0]`, `[1]`. -/
def small : Master := ((((Master.new 2 1).generateMp X [1, 1, 0]).addColumn [0]).2.addColumn [1]).2

/-- The first sample is covered by the clause `[0]`, the second one is not covered. -/
def smallValues (v : ℕ → ℚ) : Answer := ⟨.optimal, v, fun _ => 0, 1⟩

def smallExact (i : ℕ) : ℚ := if i = 1 ∨ i = 3 then 1 else 0

/-- C101 is false for the rule: a feasible answer gives a rule within the complexity bound, but reported with an error of one billionth it
gives a rule with three clauses and complexity 5, although the bound is 2. -/
theorem C101_rule_refuted : small.solver.Feasible smallExact ∧ Near (1 / 1000000000) (addNoise smallExact) smallExact ∧
    (small.solveIp (fun _ => smallValues smallExact)).1 = .ok true ∧
    (small.solveIp (fun _ => smallValues smallExact)).2.explanation = [[0]] ∧
    (small.solveIp (fun _ => smallValues (addNoise smallExact))).1 = .ok true ∧
    (small.solveIp (fun _ => smallValues (addNoise smallExact))).2.explanation = [[], [0], [1]] ∧
    (([[], [0], [1]] : List Clause).map (fun k => 1 + k.length)).sum = 5 := by
  refine ⟨?_, addNoise_near _, by decide +kernel, by decide +kernel, by decide +kernel, by decide +kernel, by decide⟩
  exact DTree.Demo.check_sound _ _ (by decide +kernel) (by decide +kernel)

/-- A pricing problem for the clause `[0]`: two features, three samples. -/
def smallSub : Sub := ⟨10, true, [0, 1], [2, 3, 4], Model.empty⟩

/-- Noise that is never positive at a zero. -/
def subNoise (v : ℕ → ℚ) (i : ℕ) : ℚ := if v i = 0 then -(1 / 1000000000) else v i

theorem subNoise_near (v : ℕ → ℚ) : Near (1 / 1000000000) (subNoise v) v := by
  intro i
  unfold subNoise
  split
  · rename_i h; rw [h]; norm_num [abs_le]
  · simp

theorem subNoise_notAbove (v : ℕ → ℚ) : NotAbove (subNoise v) v := by
  intro i hi
  unfold subNoise
  rw [if_pos hi]
  norm_num

theorem assign_zeroOne : ZeroOne (clauseAssign X [0]) := by
  intro v
  unfold clauseAssign ind
  split_ifs <;> simp

/-- An answer of the pricing problem with these values. -/
def subAns (v : ℕ → ℚ) : Answer := ⟨.optimal, v, fun _ => 0, -1⟩

/-- C101: the hypotheses of `C101_clause_partial` and `C101_clause_superset` hold for negative and for positive noise, and a clause is
generated. -/
example : smallSub.readClause (subAns (subNoise (clauseAssign X [0]))) = .ok [[0]] ∧
    smallSub.readClause (subAns (addNoise (clauseAssign X [0]))) = .ok [[0, 1]] ∧
    ∃ k', smallSub.readClause (subAns (addNoise (clauseAssign X [0]))) = .ok [k'] ∧ ([0] : Clause).Sublist k' := by
  have hk : smallSub.readClause (subAns (clauseAssign X [0])) = .ok [[0]] := by decide +kernel
  refine ⟨?_, by decide +kernel, ?_⟩
  · rw [← hk]
    exact C101_clause_partial smallSub (subAns (subNoise (clauseAssign X [0]))) (subAns (clauseAssign X [0])) (subNoise_near _) assign_zeroOne (by norm_num) (subNoise_notAbove _) rfl Iff.rfl
  · exact C101_clause_superset smallSub (subAns (addNoise (clauseAssign X [0]))) (subAns (clauseAssign X [0])) (addNoise_near _) assign_zeroOne (by norm_num) rfl Iff.rfl hk

/-- C101: the hypotheses of `C101_rule_partial` hold for negative noise. -/
example : (small.solveIp (fun _ => smallValues (subNoise smallExact))).2.explanation = [[0]] := by
  have hz : ZeroOne smallExact := by
    intro i
    unfold smallExact
    split_ifs <;> simp
  have hn : ∀ i, smallExact i ≤ 0 → subNoise smallExact i ≤ 0 := by
    intro i hi
    refine subNoise_notAbove _ i ?_
    rcases hz i with h | h
    · exact h
    · rw [h] at hi; norm_num at hi
  rw [C101_rule_partial small (fun _ => smallValues smallExact) (fun _ => smallValues (subNoise smallExact)) (fun i => near_zero (subNoise_near _) hz (by norm_num) i) hn rfl]
  decide +kernel

/-- C101: duals that are accepted and duals that are not. -/
example : (∃ s', (Sub.new 10).prepare X [1, 1, 0] (1 / 1000000000, [0, 1 / 2]) = .ok s') ∧
    ¬∃ s', (Sub.new 10).prepare X [1, 1, 0] (1 / 1000000000, [-(1 / 1000000000), 1 / 2]) = .ok s' := by
  have h1 : small.solveRmp ⟨.optimal, fun _ => 0, fun c => if c = 0 then -(1 / 1000000000) else if c = 1 then 0 else 1 / 2, 0⟩ =
      .ok (1 / 1000000000, [0, 1 / 2]) := by decide +kernel
  have h2 : small.solveRmp ⟨.optimal, fun _ => 0, fun c => if c = 0 then -(1 / 1000000000) else if c = 1 then -(1 / 1000000000) else 1 / 2, 0⟩ =
      .ok (1 / 1000000000, [-(1 / 1000000000), 1 / 2]) := by decide +kernel
  constructor
  · rw [C101_duals small _ X _ _ h1]
    decide +kernel
  · rw [C101_duals small _ X _ _ h2]
    decide +kernel

end Demo

end Verif.BDR
