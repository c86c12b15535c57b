import Verif.BDR.FitProps

/-!
# A complete run of `fit` on Boolean decision rules: the hypotheses of C30, C31, C32, C66, C67 hold for it
-/

set_option linter.unusedSimpArgs false

namespace Verif.BDR.Demo

open MP Spec

def X : Data := ⟨[[1, 0], [0, 1], [0, 0]], 2⟩

def labels : List ℤ := [9, 9, 4]

theorem encoded_labels : encoded labels = [1, 1, 0] := by decide +kernel

/-- The cheapest clause of the pricing model, by trying all of them. -/
def bestClause (m : Model) : Clause :=
  [[0], [1], [0, 1]].foldl (fun b k => if m.value (clauseAssign X k) < m.value (clauseAssign X b) then k else b) []

/-- Correct answers for every program occurring in a run on `X` with `C = 10`, `p = 1`; the hidden state counts the calls. -/
def oracle : Oracle ℕ where
  clock ω := ((ω : ℚ), ω + 1)
  lp m ω := (if m.vars.length = 3 then ⟨.optimal, fun v => if v = 2 then 1 else 0, fun c => if c = 0 then 0 else 1 / 2, 1⟩
    else ⟨.optimal, fun v => if v = 3 ∨ v = 4 then 1 else 0, fun _ => 0, 0⟩, ω + 1)
  mip m ω := (⟨.optimal, clauseAssign X (bestClause m), fun _ => 0, m.value (clauseAssign X (bestClause m))⟩, ω + 1)
  ip _ ω := (⟨.optimal, fun v => if v = 3 ∨ v = 4 then 1 else 0, fun _ => 0, 0⟩, ω + 1)

theorem bestClause_cases (m : Model) :
    (bestClause m = [] ∨ bestClause m = [0] ∨ bestClause m = [1] ∨ bestClause m = [0, 1]) ∧
    ∀ k ∈ [[], [0], [1], [0, 1]], m.value (clauseAssign X (bestClause m)) ≤ m.value (clauseAssign X k) := by
  unfold bestClause
  simp only [List.foldl_cons, List.foldl_nil]
  generalize h1 : (if m.value (clauseAssign X [0]) < m.value (clauseAssign X []) then [0] else []) = b1
  have e1 : (b1 = [] ∨ b1 = [0]) ∧ m.value (clauseAssign X b1) ≤ m.value (clauseAssign X []) ∧
      m.value (clauseAssign X b1) ≤ m.value (clauseAssign X [0]) := by
    rw [← h1]
    split
    · rename_i h; exact ⟨Or.inr rfl, h.le, le_refl _⟩
    · rename_i h; exact ⟨Or.inl rfl, le_refl _, not_lt.1 h⟩
  generalize h2 : (if m.value (clauseAssign X [1]) < m.value (clauseAssign X b1) then [1] else b1) = b2
  have e2 : (b2 = b1 ∨ b2 = [1]) ∧ m.value (clauseAssign X b2) ≤ m.value (clauseAssign X b1) ∧
      m.value (clauseAssign X b2) ≤ m.value (clauseAssign X [1]) := by
    rw [← h2]
    split
    · rename_i h; exact ⟨Or.inr rfl, h.le, le_refl _⟩
    · rename_i h; exact ⟨Or.inl rfl, le_refl _, not_lt.1 h⟩
  generalize h3 : (if m.value (clauseAssign X [0, 1]) < m.value (clauseAssign X b2) then [0, 1] else b2) = b3
  have e3 : (b3 = b2 ∨ b3 = [0, 1]) ∧ m.value (clauseAssign X b3) ≤ m.value (clauseAssign X b2) ∧
      m.value (clauseAssign X b3) ≤ m.value (clauseAssign X [0, 1]) := by
    rw [← h3]
    split
    · rename_i h; exact ⟨Or.inr rfl, h.le, le_refl _⟩
    · rename_i h; exact ⟨Or.inl rfl, le_refl _, not_lt.1 h⟩
  obtain ⟨c1, d1, d2⟩ := e1
  obtain ⟨c2, d3, d4⟩ := e2
  obtain ⟨c3, d5, d6⟩ := e3
  refine ⟨?_, ?_⟩
  · rcases c3 with rfl | rfl
    · rcases c2 with rfl | rfl
      · rcases c1 with rfl | rfl <;> simp
      · simp
    · simp
  · intro k hk
    simp only [List.mem_cons, List.not_mem_nil, or_false] at hk
    rcases hk with rfl | rfl | rfl | rfl <;> linarith

/-- The pricing answers are optimal. -/
theorem mip_optimal (hist) (d : ℚ × List ℚ) (ω : ℕ) (h1 : 0 ≤ d.1) (h2 : ∀ x ∈ d.2, 0 ≤ x) :
    IsOptimal (pricingModel 10 X [1, 1, 0] hist d) (oracle.mip (pricingModel 10 X [1, 1, 0] hist d) ω).1 := by
  rw [pricingModel_eq _ _ _ _ _ h1 h2]
  set m := subModel 10 X [1, 1, 0] d.1 d.2 with hm
  obtain ⟨hk, hbest⟩ := bestClause_cases m
  have hprop : ∀ k ∈ ([[], [0], [1], [0, 1]] : List Clause), Proper 2 k ∧ (k.length : ℚ) ≤ 10 := by
    intro k hk
    simp only [List.mem_cons, List.not_mem_nil, or_false] at hk
    rcases hk with rfl | rfl | rfl | rfl <;> refine ⟨⟨by simp, by simp⟩, by norm_num⟩
  have hmem : bestClause m ∈ ([[], [0], [1], [0, 1]] : List Clause) := by
    rcases hk with h | h | h | h <;> rw [h] <;> simp
  have hval : ∀ k ∈ ([[], [0], [1], [0, 1]] : List Clause), m.value (clauseAssign X k) = priceCost X.rows [1, 1, 0] d.1 d.2 k :=
    fun k hk => (price_complete (X := X) rfl (hprop k hk).1 (hprop k hk).2).2
  refine bruteForce_optimal (X := X) rfl h2 (hprop _ hmem).1 (hprop _ hmem).2 (hval _ hmem).symm ?_
  intro k' hk'
  have hk'' : k' ∈ ([[], [0], [1], [0, 1]] : List Clause) := by
    have e : (List.range X.nFeat).sublists = [[], [0], [1], [0, 1]] := by decide
    rw [e] at hk'
    exact hk'
  rw [← hval k' hk'']
  exact hbest k' hk''

/-- Dual feasibility from the columns. -/
theorem dual_of {ops : List Op} {C p tol : ℚ} {X : Data} {y : List ℕ} (hl : y.length = X.rows.length) {d : ℕ → ℚ} (h0 : d 0 ≤ 0)
    (h1 : ∀ i, 0 ≤ d (i + 1)) (hp : ∀ i < (posM X.rows y).length, -tol ≤ p - d (i + 1))
    (hK : ∀ k ∈ clausesOf ops, -tol ≤ (numSat (negM X.rows y) k : ℚ) -
      (∑ i ∈ Finset.range (posM X.rows y).length, if Sat ((posM X.rows y).getD i []) k then d (i + 1) else 0) - d 0 * (1 + (k.length : ℚ))) :
    DualFeasible (after C p X y ops).solver tol d := by
  obtain ⟨h, hX, hy, -, hpp⟩ := after_inv C p X y ops hl
  refine ⟨?_, ?_, ?_⟩
  · intro c k hk hlb
    match c with
    | 0 => exact h0
    | c + 1 =>
      exfalso
      have hc := (List.getElem?_eq_some_iff.1 hk).1
      rw [h.consLen] at hc
      have hr := List.getElem?_eq_getElem (l := posM (after C p X y ops).X.rows (after C p X y ops).y) (i := c) (by omega)
      rw [h.consS c _ hr] at hk
      cases hk
      simp at hlb
  · intro c k hk hub
    match c with
    | 0 =>
      rw [h.cons0] at hk
      cases hk
      simp at hub
    | c + 1 => exact h1 c
  · intro v hv
    rw [h.varsLen, hX, hy] at hv
    by_cases hv' : v < (posM X.rows y).length
    · rw [h.reducedCost_xi d v (by rw [hX, hy]; exact hv'), hpp]
      exact hp v hv'
    · obtain ⟨j, rfl⟩ := Nat.exists_eq_add_of_le (not_lt.1 hv')
      have hj : j < (clausesOf ops).length := by omega
      have := h.reducedCost d j _ (List.getElem?_eq_getElem hj)
      rw [hX, hy] at this
      rw [this]
      exact hK _ (List.getElem_mem hj)

theorem pos_eq : posM X.rows [1, 1, 0] = [[1, 0], [0, 1]] := by decide +kernel

theorem neg_eq : negM X.rows [1, 1, 0] = [[0, 0]] := by decide +kernel

/-- The LP answers are dual feasible for every master of a run. -/
theorem lp_dual (ops : List Op) (ω : ℕ) :
    DualFeasible (after 10 1 X [1, 1, 0] ops).solver 0 (oracle.lp (after 10 1 X [1, 1, 0] ops).solver ω).1.duals := by
  obtain ⟨h, hX, hy, -, -⟩ := after_inv 10 1 X [1, 1, 0] ops rfl
  have hv := h.varsLen
  rw [hX, hy, pos_eq] at hv
  simp only [oracle]
  rw [hv]
  by_cases h3 : [[(1 : ℚ), 0], [0, 1]].length + (clausesOf ops).length = 3
  · have hK : clausesOf ops = [[]] := by
      have hm := nil_mem_clausesOf ops
      have : (clausesOf ops).length = 1 := by simp at h3; omega
      obtain ⟨k, hk⟩ := List.length_eq_one_iff.1 this
      rw [hk] at hm ⊢
      simp at hm
      rw [hm]
    rw [if_pos h3]
    refine dual_of rfl (by simp) (by intro i; norm_num) (by intro i _; norm_num) ?_
    rw [hK]
    decide +kernel
  · rw [if_neg h3]
    refine dual_of rfl (by simp) (by intro i; simp) (by intro i _; norm_num) ?_
    intro k _
    simp

theorem contract : Contract oracle 10 1 (heuristicKinds 10) X (encoded labels) where
  lp ops ω := by
    rw [encoded_labels]
    have h := lp_dual ops ω
    exact ⟨h.le, h.ge, fun v hv => le_trans (by norm_num) (h.cost v hv)⟩
  mip l i D hk hist d ω h1 h2 := by
    rw [encoded_labels]
    have hD : D = 10 := by
      unfold kindAt heuristicKinds at hk
      match l, i with
      | 0, 0 => simp at hk
      | 0, i + 1 => simp at hk
      | 1, 0 => simpa using hk.symm
      | 1, i + 1 => simp at hk
      | l + 2, i => simp at hk
    subst hD
    exact ⟨by simp [oracle], (mip_optimal hist d ω h1 h2).1⟩
  ip ops ω := by simp [oracle]

def est0 : Fit.Est := ⟨false, [], 0, 0, 0, false, false, [], [], 0, 0, 0, 0, 0⟩

/-- C32, C66: the hypotheses hold, for any limits. -/
example (maxIt : ℤ) (limit : ℚ) :
    ∃ s, fitNew oracle 10 1 (heuristicKinds 10) maxIt limit X 4 labels est0 0 = some (.ok (), s) ∧ s.est.isFitted = true :=
  C66_fit_returns oracle 10 1 (heuristicKinds 10) maxIt limit X labels est0 0 rfl (by decide +kernel) contract

/-- The whole run: two master solutions, both clauses added in the first round by the heuristic level, `mp_optimal_`, the explanation. -/
theorem run : (fitNew oracle 10 1 (heuristicKinds 10) (-1) 0 X 4 labels est0 0).map (fun r =>
      ((r.2.est.mpOptimal, Fit.Spec.numRmp r.2.trace), Fit.Spec.accPos r.2.trace,
        [r.2.world.master.clauseDict.map (·.2), r.2.world.master.explanation])) =
    some ((true, 2), [(0, 0), (0, 0)], [[[], [0], [1]], [[0], [1]]]) := by
  decide +kernel

/-- Everything C31 and C67 assume holds for a run with this result, whatever the time limit is. -/
theorem run_hyps_at (limit : ℚ) (hrun : (fitNew oracle 10 1 (heuristicKinds 10) (-1) limit X 4 labels est0 0).map (fun r =>
      ((r.2.est.mpOptimal, Fit.Spec.numRmp r.2.trace), Fit.Spec.accPos r.2.trace,
        [r.2.world.master.clauseDict.map (·.2), r.2.world.master.explanation])) =
    some ((true, 2), [(0, 0), (0, 0)], [[[], [0], [1]], [[0], [1]]])) :
    ∃ s, fitNew oracle 10 1 (heuristicKinds 10) (-1) limit X 4 labels est0 0 = some (.ok (), s) ∧
    s.est.mpOptimal = true ∧
    (∀ ω, DualFeasible s.world.master.solver 0 (oracle.lp s.world.master.solver ω).1.duals) ∧
    (∀ ω, (oracle.lp s.world.master.solver ω).1.objective =
      s.world.master.solver.dualValue (oracle.lp s.world.master.solver ω).1.duals) ∧
    (∀ ω, IsOptimal s.world.master.solver (oracle.ip s.world.master.solver ω).1) := by
  obtain ⟨s, hr, -⟩ := C66_fit_returns oracle 10 1 (heuristicKinds 10) (-1) limit X labels est0 0 rfl (by decide +kernel) contract
  have hr' : fitNew oracle 10 1 (heuristicKinds 10) (-1) limit X 4 labels est0 0 = some (.ok (), s) := hr
  rw [hr'] at hrun
  simp only [Option.map_some, Option.some.injEq, Prod.mk.injEq, List.cons.injEq] at hrun
  obtain ⟨⟨ho, -⟩, -, hdict, -⟩ := hrun
  obtain ⟨ops, ω', e, hsol⟩ := fit_ip (X := X) rfl hr'
  rw [encoded_labels] at e hsol
  obtain ⟨h, hX, hy, hC, hp⟩ := after_inv 10 1 X [1, 1, 0] ops rfl
  have hK : clausesOf ops = [[], [0], [1]] := by
    obtain ⟨s', e', hi, -⟩ := h.explanation (fun m => (oracle.ip m ω').1) (by simp [oracle])
    rw [e'] at e
    cases e
    rw [← hi.clauses]
    exact hdict
  have hv := h.varsLen
  rw [hX, hy, pos_eq, hK] at hv
  have hv : (after 10 1 X [1, 1, 0] ops).solver.vars.length = 5 := hv
  have hb : Binary X.rows [1, 1, 0] := by rw [← encoded_labels]; exact encoded_binary rfl (by decide +kernel)
  refine ⟨s, hr', ho, ?_, ?_, ?_⟩
  · intro ω
    rw [← hsol]
    exact lp_dual ops ω
  · intro ω
    rw [← hsol, h.dualValue]
    simp only [oracle, hv]
    norm_num
  · intro ω
    rw [← hsol]
    obtain ⟨m1, m2, m3, m4⟩ := C22_master 10 1 X [1, 1, 0] ops hb (oracle.ip (after 10 1 X [1, 1, 0] ops).solver ω).1.values
    refine ⟨⟨m4.2 ⟨m1.2 ?_, ?_⟩, ?_⟩, ?_⟩
    · rw [hK]
      refine ⟨?_, ?_, ?_, ?_⟩
      · intro i _; simp only [oracle]; split <;> norm_num
      · intro i _; simp only [oracle]; split <;> norm_num
      · intro i r hi
        have hlt := (List.getElem?_eq_some_iff.1 hi).1
        have hp2 : (pos X.rows [1, 1, 0]) = [[1, 0], [0, 1]] := by decide +kernel
        rw [hp2] at hi hlt
        simp only [List.length_cons, List.length_nil] at hlt
        match i, hi, hlt with
        | 0, hi, _ => simp at hi; subst hi; simp only [oracle]; decide +kernel
        | 1, hi, _ => simp at hi; subst hi; simp only [oracle]; decide +kernel
      · simp only [oracle]; decide +kernel
    · intro v _
      simp only [oracle]
      split
      · exact ⟨1, by norm_num⟩
      · exact ⟨0, by norm_num⟩
    · rw [m2, hK]
      simp only [oracle]
      decide +kernel
    · intro a ha
      obtain ⟨m1, m2, m3, m4⟩ := C22_master 10 1 X [1, 1, 0] ops hb a
      unfold Model.better
      rw [m3, m2]
      simp only [oracle, Bool.false_eq_true, if_false]
      have hf := m1.1 (m4.1 ha).1
      unfold objective
      refine add_nonneg (mul_nonneg (by norm_num) (Finset.sum_nonneg fun i hi => hf.xi_nonneg i (Finset.mem_range.1 hi))) ?_
      exact Finset.sum_nonneg fun j hj => mul_nonneg (by positivity) (hf.w_nonneg j (Finset.mem_range.1 hj))

/-- Everything C31 and C67 assume holds for this run. -/
theorem run_hyps : ∃ s, fitNew oracle 10 1 (heuristicKinds 10) (-1) 0 X 4 labels est0 0 = some (.ok (), s) ∧
    s.est.mpOptimal = true ∧
    (∀ ω, DualFeasible s.world.master.solver 0 (oracle.lp s.world.master.solver ω).1.duals) ∧
    (∀ ω, (oracle.lp s.world.master.solver ω).1.objective =
      s.world.master.solver.dualValue (oracle.lp s.world.master.solver ω).1.duals) ∧
    (∀ ω, IsOptimal s.world.master.solver (oracle.ip s.world.master.solver ω).1) := run_hyps_at 0 run

/-- C30, C31 and C67 apply to it; the trained classifier makes no error. -/
example : ∃ s, fitNew oracle 10 1 (heuristicKinds 10) (-1) 0 X 4 labels est0 0 = some (.ok (), s) ∧
    (∃ pred, predict (Sk.uniqueLabels labels) s.world.master.explanation X.rows = .ok pred ∧
      ∀ c, errors pred labels ≤ errors (X.rows.map (fun _ => c)) labels) ∧
    (s.world.master.explanation.map (fun k => 1 + (k.length : ℚ))).sum ≤ 10 ∧
    ∃ ω, ∀ (K' : List Clause) (xi w : ℕ → ℚ), (∀ k ∈ K', (∀ j ∈ k, j < 2) ∧ (k.dedup.length : ℚ) ≤ 10) →
        Feasible X.rows (encoded labels) 10 K' xi w →
        (oracle.lp s.world.master.solver ω).1.objective ≤ objective X.rows (encoded labels) 1 K' xi w + 1 / 1000000 * 10 := by
  obtain ⟨s, hr, ho, h1, h2, h3⟩ := run_hyps
  have hopt := fun hist (d : ℚ × List ℚ) (ω : ℕ) => mip_optimal hist d ω
  rw [← encoded_labels] at hopt
  obtain ⟨ω, d, -, -, hb⟩ := C31_fit (X := X) rfl (by decide +kernel) contract ⟨1, 0, rfl⟩ hopt hr ho h1 h2
  exact ⟨s, hr, C67_accuracy (X := X) rfl (by decide +kernel) (by norm_num) hr h3,
    (C67_trained_rule (X := X) rfl (by decide +kernel) (by norm_num) (by norm_num) hr h3).1, ω, hb⟩

end Verif.BDR.Demo
