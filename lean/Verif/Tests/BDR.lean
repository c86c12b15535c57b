import Verif.BDR.FitExamples
import Verif.Fit.Simulation

/-!
# The tests of `tests/test_bdrc.py`, in the model

Every theorem replays one test function of the repository; the assertions of the test are the statement. Where a test calls a solver, the
theorem holds for every correct solver, i.e. the asserted result is forced; the exception is `test_heuristics`, whose expectation depends on
which optimal solution the solvers return, see `Verif/Tests/BDRHeuristic.lean`.
-/

set_option linter.unusedSimpArgs false

namespace Verif.Tests.BDR

open Verif.BDR MP Spec

/-- The fixture `data`, `test_bdrc.py:16-23`. -/
def X : Data := ⟨[[1, 1, 1, 0], [1, 1, 0, 1], [0, 1, 1, 1], [1, 0, 1, 1]], 4⟩

/-- The labels of `data`; `LabelEncoder` maps them to themselves. -/
def labels : List ℤ := [1, 1, 0, 0]

def y : List ℕ := [1, 1, 0, 0]

theorem encoded_labels : encoded labels = y := by decide +kernel

theorem binary : Binary X.rows y := by rw [← encoded_labels]; exact encoded_binary rfl (by decide +kernel)

/-- `test_mp_satisfies_clause`, `test_bdrc.py:98-108`. -/
theorem mp_satisfies_clause :
    satisfiesClause [0, 1, 1, 1, 0, 0, 0] [1, 2, 3] = 1 ∧ satisfiesClause [0, 1, 1, 1, 0, 0, 0] [2, 3] = 1 ∧
    satisfiesClause [0, 1, 1, 1, 0, 0, 0] [0, 2, 3] = 0 ∧ satisfiesClause [0, 1, 1, 1, 0, 0, 0] [1, 2, 4] = 0 := by decide +kernel

/-- `test_generate_lexicographic_clause`, `test_bdrc.py:111-116`. -/
theorem generate_lexicographic_clause :
    lexicographicClause 0 = [] ∧ lexicographicClause 5 = [0, 2] ∧ lexicographicClause 6 = [1, 2] := by decide +kernel

/-- The master of most tests: `BDRMasterProblem(C=10, p=1)` after `generate_mp(X, y)`. -/
def master : Master := (Master.new 10 1).generateMp X y

/-- `test_get_objective_coeff_mp`, `test_bdrc.py:119-129`. -/
theorem get_objective_coeff_mp : ([[0, 3], [2], [1, 2], [], [1, 3], [0, 1]].map (objectiveCoeff master.X.rows master.y)) =
    [1, 2, 1, 2, 1, 0] := by decide +kernel

/-- `test_get_clause_coeffs`, `test_bdrc.py:132-144`. -/
theorem get_clause_coeffs : (Master.new 10 1).generated = false ∧ master.generated = true ∧
    ([[0, 3], [2], [0, 1]].map (clauseCoeffs master.X.rows master.y)) = [[0, 1, 3], [1, 0, 2], [1, 1, 3]] := by decide +kernel

/-- `test_add_empty_column`, `test_bdrc.py:167-172`. -/
theorem add_empty_column : (master.addColumn []).1.toOption = some false := by decide +kernel

/-- `test_regenerate_mp`, `test_bdrc.py:175-184`; moreover the second call changes nothing. -/
theorem regenerate_mp : (Master.new 10 1).generated = false ∧ master.generated = true ∧ (master.generateMp X y).generated = true ∧
    master.generateMp X y = master := ⟨rfl, rfl, rfl, rfl⟩

/-- `test_heuristic_generate_column`, `test_bdrc.py:200-209`. -/
theorem heuristic_generate_column : (heuristicColumns 1 X y (0, [1, 1])).toOption = some [[0], [1]] ∧
    (heuristicColumns 1 X y (0, [1 / 2, 1 / 2])).toOption = some [] := by decide +kernel

/-- `test_heuristic_generate_column2`, `test_bdrc.py:212-216`. -/
theorem heuristic_generate_column2 : (heuristicColumns 2 X y (0, [1, 1])).toOption = some [[0], [1], [0, 1]] := by decide +kernel

/-- `test_fit_predict_one_class`, `test_bdrc.py:68-71`, for all solvers. -/
theorem fit_predict_one_class {Ω : Type} (o : Oracle Ω) (limit : ℚ) (fuel : ℕ) (e0 : Fit.Est) (ω : Ω) :
    (fitNew o 10 1 (plainKinds 10) 3 limit X fuel [1, 1, 1, 1] e0 ω).map (·.1) = some (.error .valueError) := by
  have : (Sk.uniqueLabels [1, 1, 1, 1]).length ≤ 1 := by decide +kernel
  unfold fitNew Fit.fit
  refine (congrArg _ (if_pos this)).trans ?_
  rfl

/-! ## Correct solvers -/

/-- `d` are optimal duals. -/
def DualOptimal (m : Model) (d : ℕ → ℚ) : Prop :=
  DualFeasible m 0 d ∧ ∀ d', DualFeasible m 0 d' → m.dualValue d' ≤ m.dualValue d

theorem pos_eq : posM X.rows y = [[1, 1, 1, 0], [1, 1, 0, 1]] := by decide +kernel

theorem neg_eq : negM X.rows y = [[0, 1, 1, 1], [1, 0, 1, 1]] := by decide +kernel

theorem dualValue (ops : List Op) (d : ℕ → ℚ) : (after 10 1 X y ops).solver.dualValue d = d 1 + d 2 + d 0 * 10 := by
  obtain ⟨h, hX, hy, hC, -⟩ := after_inv 10 1 X y ops rfl
  rw [h.dualValue, hX, hy, pos_eq, hC]
  simp [Finset.sum_range_succ]

/-- What dual feasibility says. -/
theorem dual_bounds (ops : List Op) {d : ℕ → ℚ} (h : DualFeasible (after 10 1 X y ops).solver 0 d) :
    d 0 ≤ 0 ∧ 0 ≤ d 1 ∧ 0 ≤ d 2 ∧ d 1 ≤ 1 ∧ d 2 ≤ 1 ∧ ∀ k ∈ clausesOf ops, 0 ≤ (numSat (negM X.rows y) k : ℚ) -
      ((if Sat [1, 1, 1, 0] k then d 1 else 0) + (if Sat [1, 1, 0, 1] k then d 2 else 0)) - d 0 * (1 + (k.length : ℚ)) := by
  obtain ⟨hi, hX, hy, -, hp⟩ := after_inv 10 1 X y ops rfl
  have hS := hi.consS
  have hxi := hi.reducedCost_xi d
  have hrc := hi.reducedCost d
  have hlen := hi.varsLen
  rw [hX, hy, pos_eq] at hS hrc hxi hlen
  rw [hp] at hxi
  have c := h.cost
  rw [hlen] at c
  refine ⟨h.le 0 _ hi.cons0 rfl, h.ge 1 _ (hS 0 _ rfl) rfl, h.ge 2 _ (hS 1 _ rfl) rfl, ?_, ?_, ?_⟩
  · have c0 := c 0 (by simp)
    rw [hxi 0 (by simp)] at c0
    linarith
  · have c0 := c 1 (by simp; omega)
    rw [hxi 1 (by simp)] at c0
    linarith
  · intro k hk
    obtain ⟨j, hj, rfl⟩ := List.getElem_of_mem hk
    have c0 := c (2 + j) (by simp; omega)
    rw [show 2 + j = [([1, 1, 1, 0] : List ℚ), [1, 1, 0, 1]].length + j from rfl, hrc j _ (List.getElem?_eq_getElem hj)] at c0
    simpa [Finset.sum_range_succ] using c0

/-- The optimal duals of the first master are unique. -/
theorem duals1 {ops : List Op} (hK : clausesOf ops = [[]]) (ans : Answer) (h : DualOptimal (after 10 1 X y ops).solver ans.duals) :
    (after 10 1 X y ops).solveRmp ans = .ok (0, [1, 1]) := by
  obtain ⟨hi, hX, hy, hC, -⟩ := after_inv 10 1 X y ops rfl
  obtain ⟨h0, h1, h2, h3, h4, h5⟩ := dual_bounds ops h.1
  have hd : DualFeasible (after 10 1 X y ops).solver 0 (fun c => if c = 0 then 0 else 1) := by
    refine Demo.dual_of rfl (by simp) (by intro i; norm_num) (by intro i _; norm_num) ?_
    rw [hK]
    decide +kernel
  have hb := h.2 _ hd
  rw [dualValue, dualValue] at hb
  simp only [if_true, one_ne_zero, if_false, OfNat.ofNat_ne_zero] at hb
  have a0 : ans.duals 0 = 0 := by linarith
  have a1 : ans.duals 1 = 1 := by linarith
  have a2 : ans.duals 2 = 1 := by linarith
  rw [hi.solveRmp, hX, hy, pos_eq]
  simp [List.range_succ, a0, a1, a2]

/-- `test_duals`, `test_bdrc.py:147-153`, for every LP solver with optimal duals. -/
theorem duals (ans : Answer) (h : DualOptimal master.solver ans.duals) : master.solveRmp ans = .ok (0, [1, 1]) :=
  duals1 (ops := []) rfl ans h

/-- The second master of the run: after `add_column([0, 1])` all optimal duals are 0. -/
theorem duals2 {ops : List Op} (hK : clausesOf ops = [[], [0, 1]]) (ans : Answer) (h : DualOptimal (after 10 1 X y ops).solver ans.duals) :
    (after 10 1 X y ops).solveRmp ans = .ok (0, [0, 0]) := by
  obtain ⟨hi, hX, hy, hC, -⟩ := after_inv 10 1 X y ops rfl
  obtain ⟨h0, h1, h2, h3, h4, h5⟩ := dual_bounds ops h.1
  have hd : DualFeasible (after 10 1 X y ops).solver 0 (fun _ => 0) := by
    refine Demo.dual_of rfl (by simp) (by intro i; norm_num) (by intro i _; norm_num) ?_
    intro k _
    simp
  have hb := h.2 _ hd
  rw [dualValue, dualValue] at hb
  have h6 := h5 [0, 1] (by rw [hK]; simp)
  have n1 : numSat (negM X.rows y) [0, 1] = 0 := by decide +kernel
  rw [n1, if_pos (by decide +kernel), if_pos (by decide +kernel)] at h6
  norm_num at h6
  have a0 : ans.duals 0 = 0 := by linarith
  have a1 : ans.duals 1 = 0 := by linarith
  have a2 : ans.duals 2 = 0 := by linarith
  rw [hi.solveRmp, hX, hy, pos_eq]
  simp [List.range_succ, a0, a1, a2]

/-- A correct answer to the pricing problem for the duals `(0, [1, 1])` is the clause `[0, 1]`. -/
theorem price1 {s : Sub} (hs : SubOk s 10 X y) (solve : Model → Answer) (hst : (solve (subModel 10 X y 0 [1, 1])).status ≠ .other)
    (h : IsOptimal (subModel 10 X y 0 [1, 1]) (solve (subModel 10 X y 0 [1, 1]))) :
    (s.generateColumns X y (0, [1, 1]) solve).1 = .ok [[0, 1]] := by
  rcases generateColumns_cases hs (0, [1, 1]) solve with ⟨-, hn⟩ | ⟨-, -, -, e⟩
  · exact absurd ⟨by simp, by simp⟩ hn
  · rw [e, if_neg hst]
    simp only
    generalize solve (subModel 10 X y 0 [1, 1]) = a at h
    obtain ⟨⟨hf, ho⟩, hb⟩ := h
    obtain ⟨p1, p2⟩ := price_complete (D := 10) (X := X) (y := y) (cc := 0) (cs := [1, 1]) (k := [0, 1]) rfl
      ⟨by decide, by decide⟩ (by norm_num)
    have hle := hb _ p1
    unfold Model.better at hle
    rw [p2, show (subModel 10 X y 0 [1, 1]).maximize = false from rfl,
      show priceCost X.rows y 0 [1, 1] [0, 1] = -2 from by decide +kernel] at hle
    simp only [Bool.false_eq_true, if_false] at hle
    rw [if_neg (by rw [not_le]; refine lt_of_le_of_lt hle ?_; unfold threshold; norm_num)]
    obtain ⟨q1, -⟩ := price_sound (D := 10) (X := X) (y := y) (cc := 0) (cs := [1, 1]) rfl (by simp) hf
    rw [← ho] at q1
    have hcost : priceCost X.rows y 0 [1, 1] (readSet 4 a.values) ≤ -2 := le_trans q1 hle
    have hmem : readSet 4 a.values ∈ (List.range 4).sublists := List.mem_sublists.2 List.filter_sublist
    have hall : ∀ k ∈ (List.range 4).sublists, priceCost X.rows y 0 [1, 1] k ≤ -2 → k = [0, 1] := by decide +kernel
    rw [show X.nFeat = 4 from rfl, hall _ hmem hcost]

/-- For the duals `(0, [0, 0])` there is none. -/
theorem price2 {s : Sub} (hs : SubOk s 10 X y) (solve : Model → Answer) (hst : (solve (subModel 10 X y 0 [0, 0])).status ≠ .other)
    (h : IsOptimal (subModel 10 X y 0 [0, 0]) (solve (subModel 10 X y 0 [0, 0]))) :
    (s.generateColumns X y (0, [0, 0]) solve).1 = .ok [] := by
  rcases generateColumns_cases hs (0, [0, 0]) solve with ⟨-, hn⟩ | ⟨-, -, -, e⟩
  · exact absurd ⟨by simp, by simp⟩ hn
  · rw [e, if_neg hst]
    simp only
    generalize solve (subModel 10 X y 0 [0, 0]) = a at h
    obtain ⟨⟨hf, ho⟩, -⟩ := h
    obtain ⟨q1, -⟩ := price_sound (D := 10) (X := X) (y := y) (cc := 0) (cs := [0, 0]) rfl (by simp) hf
    rw [← ho] at q1
    have hmem : readSet 4 a.values ∈ (List.range 4).sublists := List.mem_sublists.2 List.filter_sublist
    have hall : ∀ k ∈ (List.range 4).sublists, 0 ≤ priceCost X.rows y 0 [0, 0] k := by decide +kernel
    have h0 : 0 ≤ a.objective := le_trans (hall _ hmem) q1
    rw [if_pos (ge_iff_le.2 (le_trans (by unfold threshold; norm_num) h0))]

/-- `test_sp_generate_column`, `test_bdrc.py:187-197`, for every integer programming solver that returns optimal solutions. -/
theorem sp_generate_column (solve1 solve2 : Model → Answer)
    (h1 : (solve1 (pricingModel 10 X y [] (0, [1, 1]))).status ≠ .other ∧
      IsOptimal (pricingModel 10 X y [] (0, [1, 1])) (solve1 (pricingModel 10 X y [] (0, [1, 1]))))
    (h2 : (solve2 (pricingModel 10 X y [((0, [1, 1]), solve1)] (0, [0, 0]))).status ≠ .other ∧
      IsOptimal (pricingModel 10 X y [((0, [1, 1]), solve1)] (0, [0, 0])) (solve2 (pricingModel 10 X y [((0, [1, 1]), solve1)] (0, [0, 0])))) :
    (Sub.new 10).generated = false ∧
    ((Sub.new 10).generateColumns X y (0, [1, 1]) solve1).1 = .ok [[0, 1]] ∧
    ((Sub.new 10).generateColumns X y (0, [1, 1]) solve1).2.generated = true ∧
    (((Sub.new 10).generateColumns X y (0, [1, 1]) solve1).2.generateColumns X y (0, [0, 0]) solve2).1 = .ok [] := by
  rw [pricingModel_eq _ _ _ _ _ (by simp) (by simp)] at h1 h2
  have hs1 := generateColumns_ok (Or.inl rfl : SubOk (Sub.new 10) 10 X y) (0, [1, 1]) solve1
  exact ⟨rfl, price1 (Or.inl rfl) solve1 h1.1 h1.2, rfl, price2 hs1 solve2 h2.1 h2.2⟩

/-- Clause `[0, 1]` alone is a solution of the second master. -/
theorem ip_feasible {ops : List Op} (hK : clausesOf ops = [[], [0, 1]]) :
    (after 10 1 X y ops).solver.Feasible (fun v => if v = 3 then 1 else 0) := by
  obtain ⟨n1, n2, n3, n4⟩ := C22_master 10 1 X y ops binary (fun v => if v = 3 then 1 else 0)
  have hp2 : pos X.rows y = [[1, 1, 1, 0], [1, 1, 0, 1]] := by decide +kernel
  refine n4.2 ⟨n1.2 ?_, ?_⟩
  · rw [hK]
    refine ⟨?_, ?_, ?_, ?_⟩
    · intro i _; split <;> norm_num
    · intro i _; split <;> norm_num
    · intro i r hi
      have hlt := (List.getElem?_eq_some_iff.1 hi).1
      rw [hp2] at hi hlt
      simp only [List.length_cons, List.length_nil] at hlt
      match i, hi, hlt with
      | 0, hi, _ => simp at hi; subst hi; decide +kernel
      | 1, hi, _ => simp at hi; subst hi; decide +kernel
    · decide +kernel
  · intro v _
    split
    · exact ⟨1, by norm_num⟩
    · exact ⟨0, by norm_num⟩

/-- The chosen clauses of the second master, for every optimal integer solution. -/
theorem ip_values {ops : List Op} (hK : clausesOf ops = [[], [0, 1]]) {a : Answer} (h : IsOptimal (after 10 1 X y ops).solver a) :
    ¬ a.values 2 > 0 ∧ a.values 3 > 0 := by
  obtain ⟨⟨hf, ho⟩, hb⟩ := h
  obtain ⟨m1, m2, m3, m4⟩ := C22_master 10 1 X y ops binary a.values
  obtain ⟨n1, n2, n3, n4⟩ := C22_master 10 1 X y ops binary (fun v => if v = 3 then 1 else 0)
  have hp2 : pos X.rows y = [[1, 1, 1, 0], [1, 1, 0, 1]] := by decide +kernel
  have hn2 : neg X.rows y = [[0, 1, 1, 1], [1, 0, 1, 1]] := by decide +kernel
  have hfeas := ip_feasible hK
  have hle := hb _ hfeas
  unfold Model.better at hle
  rw [m3, n2, hK, show objective X.rows y 1 [[], [0, 1]] (fun i => (fun v => if v = 3 then (1 : ℚ) else 0) i)
    (fun j => (fun v => if v = 3 then (1 : ℚ) else 0) ((pos X.rows y).length + j)) = 0 from by decide +kernel, ho, m2, hK] at hle
  simp only [Bool.false_eq_true, if_false] at hle
  have hfe := m1.1 (m4.1 hf).1
  rw [hK] at hfe
  have x0 := hfe.xi_nonneg 0 (by rw [hp2]; simp)
  have x1 := hfe.xi_nonneg 1 (by rw [hp2]; simp)
  have w0 := hfe.w_nonneg 0 (by simp)
  have hs := hfe.sat 0 [1, 1, 1, 0] (by rw [hp2]; rfl)
  have e1 : numSat [[0, 1, 1, 1], [1, 0, 1, 1]] [] = 2 := by decide +kernel
  have e2 : numSat [[0, 1, 1, 1], [1, 0, 1, 1]] [0, 1] = 0 := by decide +kernel
  have e3 : Sat [1, 1, 1, 0] [] := by decide +kernel
  have e4 : Sat [1, 1, 1, 0] [0, 1] := by decide +kernel
  unfold objective at hle
  unfold covered at hs
  rw [hp2, hn2] at hle
  rw [hp2] at hs w0
  simp [Finset.sum_range_succ, e1, e2, e3, e4] at hle hs w0
  constructor
  · rw [not_lt]; linarith
  · show 0 < a.values 3
    linarith

theorem ip_answer {ops : List Op} (hK : clausesOf ops = [[], [0, 1]]) (solve : Model → Answer)
    (hst : (solve (after 10 1 X y ops).solver).status ≠ .other)
    (hv : ¬ (solve (after 10 1 X y ops).solver).values 2 > 0 ∧ (solve (after 10 1 X y ops).solver).values 3 > 0) :
    (after 10 1 X y ops).solveIp solve = (.ok true, { after 10 1 X y ops with explanation := [[0, 1]] }) := by
  obtain ⟨hi, hX, hy, hC, hp⟩ := after_inv 10 1 X y ops rfl
  have hlen := hi.varsLen
  have hxi := hi.xi
  have hcv := hi.cvars
  have hdict := hi.dict
  rw [hX, hy, pos_eq, hK] at hlen hcv hdict
  rw [hX, hy, pos_eq] at hxi
  unfold Master.solveIp
  rw [if_neg (by rw [hi.gen]; simp)]
  simp only
  rw [if_neg hst, hlen, hxi, hcv, if_neg (by simp), hdict]
  have hn : ¬ 0 < (solve (after 10 1 X y ops).solver).values 2 := hv.1
  have hp : 0 < (solve (after 10 1 X y ops).solver).values 3 := hv.2
  simp [List.range_succ, List.filter_cons, hn, hp, dictGet, List.lookup, List.getD, List.range'_succ]

/-- `test_add_column`, `test_bdrc.py:156-164`, for every integer programming solver that returns optimal solutions. -/
theorem add_column (solve : Model → Answer) (hst : (solve (master.addColumn [0, 1]).2.solver).status ≠ .other)
    (h : IsOptimal (master.addColumn [0, 1]).2.solver (solve (master.addColumn [0, 1]).2.solver)) :
    (master.addColumn [0, 1]).1.toOption = some true ∧ ((master.addColumn [0, 1]).2.solveIp solve).1 = .ok true ∧
    ((master.addColumn [0, 1]).2.solveIp solve).2.explanation = [[0, 1]] := by
  have e : (master.addColumn [0, 1]).2 = after 10 1 X y [.addColumn [0, 1]] := rfl
  have hK : clausesOf [.addColumn [0, 1]] = [[], [0, 1]] := by decide
  rw [e] at hst h ⊢
  rw [ip_answer hK solve hst (ip_values hK h)]
  exact ⟨by decide +kernel, rfl, rfl⟩

/-! ## `fit` -/

/-- All three solvers are correct on the programs of the run (nothing is assumed about other programs): the duals of the master with the
clause `[]` and with the clauses `[]`, `[0, 1]` are optimal, the pricing problem is solved to optimality for the duals that then arise, the final
integer program as well. -/
structure Correct {Ω : Type} (o : Oracle Ω) : Prop where
  lp : ∀ ops ω, clausesOf ops = [[]] ∨ clausesOf ops = [[], [0, 1]] →
    DualOptimal (after 10 1 X y ops).solver (o.lp (after 10 1 X y ops).solver ω).1.duals
  mip : ∀ hist d ω, d = (0, [1, 1]) ∨ d = (0, [0, 0]) → (o.mip (pricingModel 10 X y hist d) ω).1.status ≠ .other ∧
    IsOptimal (pricingModel 10 X y hist d) (o.mip (pricingModel 10 X y hist d) ω).1
  ip : ∀ ops ω, clausesOf ops = [[], [0, 1]] → (o.ip (after 10 1 X y ops).solver ω).1.status ≠ .other ∧
    IsOptimal (after 10 1 X y ops).solver (o.ip (after 10 1 X y ops).solver ω).1

/-- The answers that occur in the run. -/
def scripted : Oracle Unit where
  clock _ := (0, ())
  lp m _ := (⟨.optimal, fun _ => 0, fun c => if m.vars.length = 3 ∧ c ≠ 0 then 1 else 0, 0⟩, ())
  mip m _ := (⟨.optimal, clauseAssign X [0, 1], fun _ => 0, if m.obj 4 = -1 then -2 else 0⟩, ())
  ip _ _ := (⟨.optimal, fun v => if v = 3 then 1 else 0, fun _ => 0, 0⟩, ())

/-- The worlds of the run. -/
structure Good {Ω : Type} (w : World Ω) (w' : World Unit) : Prop where
  master : w.master = w'.master
  subs : w.subs = w'.subs
  y : w.y = w'.y
  yEq : w'.y = BDR.y
  sub : SubOk (w'.subs 0 0) 10 X BDR.y
  ops : ∃ ops, w'.master = after 10 1 X BDR.y ops ∧ (clausesOf ops = [[]] ∨ clausesOf ops = [[], [0, 1]])

def scope : Fit.Scope (World Unit) (ℚ × List ℚ) Clause where
  labels _ := False
  duals d := d = (0, [1, 1]) ∨ d = (0, [0, 0])
  col c := c = [0, 1]
  final w' := ∃ ops, w'.master = after 10 1 X y ops ∧ clausesOf ops = [[], [0, 1]]

theorem scripted_lp {ops : List Op} (hK : clausesOf ops = [[]] ∨ clausesOf ops = [[], [0, 1]]) :
    (after 10 1 X y ops).solveRmp (scripted.lp (after 10 1 X y ops).solver ()).1 =
      .ok (0, if clausesOf ops = [[]] then [1, 1] else [0, 0]) := by
  obtain ⟨hi, hX, hy, -, -⟩ := after_inv 10 1 X y ops rfl
  have hlen := hi.varsLen
  rw [hX, hy, pos_eq] at hlen
  rw [hi.solveRmp, hX, hy, pos_eq]
  simp only [scripted]
  rw [hlen]
  rcases hK with hK | hK
  · rw [hK]; decide +kernel
  · rw [hK]; decide +kernel

theorem lp_of {Ω : Type} {o : Oracle Ω} (ho : Correct o) {ops : List Op} (hK : clausesOf ops = [[]] ∨ clausesOf ops = [[], [0, 1]]) (ω : Ω) :
    (after 10 1 X y ops).solveRmp (o.lp (after 10 1 X y ops).solver ω).1 =
      .ok (0, if clausesOf ops = [[]] then [1, 1] else [0, 0]) := by
  rcases hK with hK | hK
  · rw [if_pos hK]; exact duals1 hK _ (ho.lp ops ω (Or.inl hK))
  · rw [if_neg (by rw [hK]; simp)]; exact duals2 hK _ (ho.lp ops ω (Or.inr hK))

theorem after_append (ops : List Op) (op : Op) : after 10 1 X y (ops ++ [op]) = step (after 10 1 X y ops) op := by
  simp [after, run]

theorem clausesOf_append (ops : List Op) (k : Clause) :
    clausesOf (ops ++ [.addColumn k]) = if k ∈ clausesOf ops then clausesOf ops else clausesOf ops ++ [k] := by
  unfold clausesOf
  rw [List.foldl_append]
  rfl

theorem price_of {s : Sub} (hs : SubOk s 10 X y) {d : ℚ × List ℚ} (hd : d = (0, [1, 1]) ∨ d = (0, [0, 0])) (solve : Model → Answer)
    (hst : (solve (subModel 10 X y d.1 d.2)).status ≠ .other) (h : IsOptimal (subModel 10 X y d.1 d.2) (solve (subModel 10 X y d.1 d.2))) :
    (s.generateColumns X y d solve).1 = .ok (if d = (0, [1, 1]) then [[0, 1]] else []) := by
  rcases hd with rfl | rfl
  · rw [if_pos rfl]; exact price1 hs solve hst h
  · rw [if_neg (by decide +kernel)]; exact price2 hs solve hst h

theorem scripted_price {s : Sub} (hs : SubOk s 10 X y) {d : ℚ × List ℚ} (hd : d = (0, [1, 1]) ∨ d = (0, [0, 0])) :
    (s.generateColumns X y d (fun m => (scripted.mip m ()).1)).1 = .ok (if d = (0, [1, 1]) then [[0, 1]] else []) := by
  rcases generateColumns_cases hs d (fun m => (scripted.mip m ()).1) with ⟨-, hn⟩ | ⟨-, -, -, e⟩
  · rcases hd with rfl | rfl <;> exact absurd ⟨by simp, by simp⟩ hn
  · rw [e]
    rcases hd with rfl | rfl <;> decide +kernel

theorem generate_snd (s : Sub) (d : ℚ × List ℚ) (solve solve' : Model → Answer) :
    (s.generateColumns X y d solve).2 = (s.generateColumns X y d solve').2 := by
  unfold Sub.generateColumns
  split <;> rfl

theorem sim {Ω : Type} {o : Oracle Ω} (ho : Correct o) :
    Fit.Sim (env o X (plainKinds 10)) (env scripted X (plainKinds 10)) scope Good where
  clock w w' h := ⟨h.master, h.subs, h.y, h.yEq, h.sub, h.ops⟩
  generateMp y w w' hy _ := hy.elim
  solveRmp w w' h := by
    obtain ⟨ops, e, hK⟩ := h.ops
    refine ⟨?_, ⟨h.master, h.subs, h.y, h.yEq, h.sub, h.ops⟩⟩
    simp only [env]
    rw [h.master, e, lp_of ho hK]
    exact (scripted_lp hK).symm
  duals w w' d h hd := by
    obtain ⟨ops, e, hK⟩ := h.ops
    simp only [env] at hd
    rw [e] at hd
    have := (scripted_lp hK).symm.trans hd
    rcases hK with hK | hK <;> rw [hK] at this <;> simp at this <;> simp [scope, ← this]
  improved w w' h := ⟨rfl, ⟨h.master, h.subs, h.y, h.yEq, h.sub, h.ops⟩⟩
  resetFlag w w' h := rfl
  clearReset w w' h := h
  update l i d w w' _ h := ⟨rfl, ⟨h.master, h.subs, h.y, h.yEq, h.sub, h.ops⟩⟩
  generate l i d w w' hd h := by
    simp only [env, generateAt]
    cases hk : kindAt (plainKinds 10) l i with
    | none => exact ⟨rfl, h⟩
    | some k =>
      have hli : l = 0 ∧ i = 0 ∧ k = .exact 10 := by
        unfold kindAt plainKinds at hk
        match l, i with
        | 0, 0 => simpa using hk.symm
        | 0, i + 1 => simp at hk
        | l + 1, i => simp at hk
      obtain ⟨rfl, rfl, rfl⟩ := hli
      simp only
      rw [h.y, h.yEq, h.subs]
      have h0 : 0 ≤ d.1 ∧ ∀ x ∈ d.2, 0 ≤ x := by rcases hd with rfl | rfl <;> simp
      have hm := ho.mip [] d w.ω hd
      rw [pricingModel_eq _ _ _ _ _ h0.1 h0.2] at hm
      refine ⟨?_, ⟨h.master, ?_, ?_, ?_, ?_, h.ops⟩⟩
      · rw [price_of h.sub hd _ hm.1 hm.2]
        exact (scripted_price h.sub hd).symm
      · simp only
        rw [generate_snd]
      · rfl
      · rfl
      · simp only [setSub, and_self, if_true]
        exact generateColumns_ok h.sub _ _
  cols l i d w w' cs hd h hr := by
    simp only [env, generateAt] at hr
    cases hk : kindAt (plainKinds 10) l i with
    | none => rw [hk] at hr; simp at hr
    | some k =>
      have hli : l = 0 ∧ i = 0 ∧ k = .exact 10 := by
        unfold kindAt plainKinds at hk
        match l, i with
        | 0, 0 => simpa using hk.symm
        | 0, i + 1 => simp at hk
        | l + 1, i => simp at hk
      obtain ⟨rfl, rfl, rfl⟩ := hli
      rw [hk] at hr
      simp only at hr
      rw [h.yEq] at hr
      have := (scripted_price h.sub hd).symm.trans hr
      intro c hc
      simp only [Except.ok.injEq] at this
      rw [← this] at hc
      split at hc
      · simpa [scope] using hc
      · simp at hc
  addColumn c w w' hc h := by
    obtain ⟨ops, e, hK⟩ := h.ops
    have hc : c = [0, 1] := hc
    subst hc
    simp only [env]
    rw [h.master]
    refine ⟨rfl, ⟨rfl, h.subs, h.y, h.yEq, h.sub, ops ++ [.addColumn [0, 1]], ?_, ?_⟩⟩
    · rw [after_append, ← e]; rfl
    · rw [clausesOf_append]
      rcases hK with hK | hK <;> rw [hK] <;> simp
  solveIp w w' hf h := by
    obtain ⟨ops, e, hK⟩ := hf
    simp only [env]
    rw [h.master]
    have a1 := ip_answer hK (fun m => (o.ip m w.ω).1) (ho.ip ops w.ω hK).1 (ip_values hK (ho.ip ops w.ω hK).2)
    have a2 := ip_answer hK (fun m => (scripted.ip m w'.ω).1) (by simp [scripted]) (by simp [scripted])
    rw [← e] at a1 a2
    refine ⟨by rw [a1, a2], ⟨by rw [a1, a2], h.subs, h.y, h.yEq, h.sub, ops ++ [.solveIp (fun m => (scripted.ip m w'.ω).1)], ?_, ?_⟩⟩
    · rw [after_append, ← e]; rfl
    · right; rw [← hK]; simp [clausesOf]

/-- The scripted answers are correct. -/
theorem scripted_correct : Correct scripted where
  lp ops _ hK := by
    obtain ⟨hi, hX, hy, -, -⟩ := after_inv 10 1 X y ops rfl
    have hlen := hi.varsLen
    rw [hX, hy, pos_eq] at hlen
    simp only [scripted]
    rw [hlen]
    rcases hK with hK | hK
    · rw [hK]
      refine ⟨Demo.dual_of rfl (by simp) (by intro i; norm_num) (by intro i _; norm_num) (by rw [hK]; decide +kernel), ?_⟩
      intro d' hd'
      obtain ⟨h0, h1, h2, h3, h4, h5⟩ := dual_bounds ops hd'
      rw [dualValue, dualValue]
      norm_num
      linarith
    · rw [hK]
      refine ⟨Demo.dual_of rfl (by simp) (by intro i; norm_num) (by intro i _; norm_num) (by rw [hK]; decide +kernel), ?_⟩
      intro d' hd'
      obtain ⟨h0, h1, h2, h3, h4, h5⟩ := dual_bounds ops hd'
      rw [dualValue, dualValue]
      have h6 := h5 [0, 1] (by rw [hK]; simp)
      have n1 : numSat (negM X.rows y) [0, 1] = 0 := by decide +kernel
      rw [n1, if_pos (by decide +kernel), if_pos (by decide +kernel)] at h6
      norm_num at h6 ⊢
      linarith
  mip hist d _ hd := by
    refine ⟨by simp [scripted], ?_⟩
    have h0 : 0 ≤ d.1 ∧ ∀ x ∈ d.2, 0 ≤ x := by rcases hd with rfl | rfl <;> simp
    rw [pricingModel_eq _ _ _ _ _ h0.1 h0.2]
    rcases hd with rfl | rfl
    · exact bruteForce_optimal (X := X) (k := [0, 1]) rfl (by simp) ⟨by decide, by decide⟩ (by norm_num) (by decide +kernel)
        (by decide +kernel)
    · exact bruteForce_optimal (X := X) (k := [0, 1]) rfl (by simp) ⟨by decide, by decide⟩ (by norm_num) (by decide +kernel)
        (by decide +kernel)
  ip ops _ hK := by
    refine ⟨by simp [scripted], ⟨ip_feasible hK, ?_⟩, ?_⟩
    · obtain ⟨-, n2, -, -⟩ := C22_master 10 1 X y ops binary (fun v => if v = 3 then 1 else 0)
      simp only [scripted]
      rw [n2, hK]
      decide +kernel
    · intro a ha
      obtain ⟨m1, m2, m3, m4⟩ := C22_master 10 1 X y ops binary a
      unfold Model.better
      rw [m3, m2]
      simp only [scripted, Bool.false_eq_true, if_false]
      have hf := m1.1 (m4.1 ha).1
      unfold objective
      refine add_nonneg (mul_nonneg (by norm_num) (Finset.sum_nonneg fun i hi => hf.xi_nonneg i (Finset.mem_range.1 hi))) ?_
      exact Finset.sum_nonneg fun j hj => mul_nonneg (by positivity) (hf.w_nonneg j (Finset.mem_range.1 hj))

def est (b : Bool) : Fit.Est := ⟨b, [], 0, 0, 0, false, false, [], [], 0, 0, 0, 0, 0⟩

/-- The run with the scripted answers. -/
theorem scripted_run (b : Bool) :
    (fitNew scripted 10 1 (plainKinds 10) 3 (-1) X 4 labels (est b) ()).map (fun r =>
      ((r.1.toOption, [r.2.est.isFitted, r.2.est.mpOptimal]), [r.2.est.iter] :: r.2.est.numColAdded, r.2.est.classes)) =
      some ((some (), [true, true]), [[2], [1]], [0, 1]) ∧
    (fitNew scripted 10 1 (plainKinds 10) 3 (-1) X 4 labels (est b) ()).map (fun r => r.2.world.master.explanation) = some [[0, 1]] := by
  cases b <;> decide +kernel

theorem scripted_loop (b : Bool) :
    (Fit.loop (env scripted X (plainKinds 10)) (config (plainKinds 10) 3 (-1)) 4
      (Fit.preLoop (env scripted X (plainKinds 10)) (config (plainKinds 10) 3 (-1)) labels (est b) (World.init 10 1 (plainKinds 10) ()))).map
        (fun r => r.2.world.master.clauseDict.length) = some 2 := by
  cases b <;> decide +kernel

/-- `test_fit_predict`, `test_bdrc.py:46-65`, for all correct solvers, any clock and any earlier state of the estimator. -/
theorem fit_predict {Ω : Type} (o : Oracle Ω) (ho : Correct o) (e0 : Fit.Est) (ω : Ω) :
    ∃ s, fitNew o 10 1 (plainKinds 10) 3 (-1) X 4 labels e0 ω = some (.ok (), s) ∧ s.est.isFitted = true ∧ s.est.classes = [0, 1] ∧
      s.est.mpOptimal = true ∧ s.est.iter = 2 ∧ s.est.numColAdded = [[1]] ∧ s.world.master.explanation = [[0, 1]] ∧
      predict s.est.classes s.world.master.explanation X.rows = .ok labels := by
  have hc : ¬ (Sk.uniqueLabels labels).length ≤ 1 := by decide +kernel
  have hy : Sk.transform (Sk.uniqueLabels labels) labels = y := encoded_labels
  have hpre : Fit.Rel Good (Fit.preLoop (env o X (plainKinds 10)) (config (plainKinds 10) 3 (-1)) labels e0 (World.init 10 1 (plainKinds 10) ω))
      (Fit.preLoop (env scripted X (plainKinds 10)) (config (plainKinds 10) 3 (-1)) labels (est e0.isFitted)
        (World.init 10 1 (plainKinds 10) ())) := by
    refine ⟨⟨rfl, rfl, rfl, rfl, rfl, rfl, rfl, rfl⟩, ⟨rfl, rfl, rfl, hy, Or.inl rfl, [], ?_, Or.inl rfl⟩, rfl⟩
    simp only [Fit.preLoop, Fit.call, Fit.St.set, env]
    rw [hy]
    rfl
  have hrel := Fit.fitTail_rel (sim ho) (config (plainKinds 10) 3 (-1)) (by show ¬ (-1 : ℚ) > 0; norm_num) 4 hpre ?_
  · rw [← Fit.fit_eq_tail _ _ _ _ _ _ hc rfl, ← Fit.fit_eq_tail _ _ _ _ _ _ hc rfl] at hrel
    change Fit.RelOpt Good (fitNew o 10 1 (plainKinds 10) 3 (-1) X 4 labels e0 ω)
      (fitNew scripted 10 1 (plainKinds 10) 3 (-1) X 4 labels (est e0.isFitted) ()) at hrel
    obtain ⟨r1, r2⟩ := scripted_run e0.isFitted
    obtain ⟨⟨r, s'⟩, hx, q0⟩ := Option.map_eq_some_iff.1 r1
    rw [hx] at r2
    obtain ⟨s, hs, h⟩ := hrel.exists hx
    simp only [Option.map_some, Option.some.injEq, Prod.mk.injEq, List.cons.injEq, and_true] at q0 r2
    obtain ⟨⟨q1, q2, q3⟩, ⟨q4, q5⟩, q6⟩ := q0
    have hr : r = .ok () := by
      cases r with
      | error e => simp [Except.toOption] at q1
      | ok u => rfl
    subst hr
    have g1 := h.est.classes.trans q6
    have g2 : s.world.master.explanation = [[0, 1]] := by rw [h.world.master]; exact r2
    refine ⟨s, hs, h.est.isFitted.trans q2, g1, h.est.mpOptimal.trans q3, h.est.iter.trans q4, h.est.numColAdded.trans q5, g2, ?_⟩
    rw [g1, g2]
    rfl
  · intro t' ht'
    have hl := Fit.loop_rel (sim ho) (config (plainKinds 10) 3 (-1)) (by show ¬ (-1 : ℚ) > 0; norm_num) 4 _ _ hpre
    have hlen := scripted_loop e0.isFitted
    rw [ht'] at hl hlen
    simp only [Option.map_some, Option.some.injEq] at hlen
    obtain ⟨s, -, hw⟩ := hl.exists rfl
    obtain ⟨ops, e, hK⟩ := hw.world.ops
    refine ⟨ops, e, ?_⟩
    rcases hK with hK | hK
    · obtain ⟨hi, hX, hy', -, -⟩ := after_inv 10 1 X y ops rfl
      rw [e, hi.dict, hK] at hlen
      simp at hlen
    · exact hK

end Verif.Tests.BDR
