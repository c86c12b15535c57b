import Verif.BDR.Props

/-!
# Properties of the pricing problems (C26 - C31, C33 - C35)
-/

set_option linter.unusedSectionVars false
set_option linter.unusedSimpArgs false

namespace Verif.BDR

open MP Spec

/-! ## C26 - C28: the integer pricing problem -/

/-- A subproblem created with `D` after any sequence of `generate_columns` calls on the same data, with any duals and answers. -/
def subAfter (D : ℚ) (X : Data) (y : List ℕ) (hist : List ((ℚ × List ℚ) × (Model → Answer))) : Sub :=
  hist.foldl (fun s h => (s.generateColumns X y h.1 h.2).2) (Sub.new D)

theorem generateColumns_ok {s : Sub} {D : ℚ} {X : Data} {y : List ℕ} (h : SubOk s D X y) (d : ℚ × List ℚ) (solve : Model → Answer) :
    SubOk (s.generateColumns X y d solve).2 D X y := by
  unfold Sub.generateColumns
  rcases prepare_inv h d with ⟨e, -⟩ | ⟨s', e, hi, -⟩
  · rw [e]; exact h
  · rw [e]; exact Or.inr ⟨_, _, hi⟩

theorem subAfter_ok (D : ℚ) (X : Data) (y : List ℕ) (hist : List ((ℚ × List ℚ) × (Model → Answer))) :
    SubOk (subAfter D X y hist) D X y := by
  have key : ∀ (hist : List ((ℚ × List ℚ) × (Model → Answer))) (s : Sub), SubOk s D X y →
      SubOk (hist.foldl (fun s h => (s.generateColumns X y h.1 h.2).2) s) D X y := by
    intro hist
    induction hist with
    | nil => intro s h; exact h
    | cons x hist ih => intro s h; exact ih _ (generateColumns_ok h _ _)
  exact key hist _ (Or.inl rfl)

/-- The model `generate_columns` hands to the solver. -/
def pricingModel (D : ℚ) (X : Data) (y : List ℕ) (hist : List ((ℚ × List ℚ) × (Model → Answer))) (d : ℚ × List ℚ) : Model :=
  ((subAfter D X y hist).generateColumns X y d (fun _ => ⟨.other, fun _ => 0, fun _ => 0, 0⟩)).2.solver

/-- Everything about one call. -/
theorem generateColumns_cases {s : Sub} {D : ℚ} {X : Data} {y : List ℕ} (h : SubOk s D X y) (d : ℚ × List ℚ) (solve : Model → Answer) :
    (s.generateColumns X y d solve = (.error .assertionError, s) ∧ ¬ (0 ≤ d.1 ∧ ∀ x ∈ d.2, 0 ≤ x)) ∨
    (0 ≤ d.1 ∧ (∀ x ∈ d.2, 0 ≤ x) ∧ (s.generateColumns X y d solve).2.solver = subModel D X y d.1 d.2 ∧
      (s.generateColumns X y d solve).1 =
        if (solve (subModel D X y d.1 d.2)).status = .other then .error .assertionError
        else if (solve (subModel D X y d.1 d.2)).objective ≥ threshold then .ok []
        else .ok [readSet X.nFeat (solve (subModel D X y d.1 d.2)).values]) := by
  unfold Sub.generateColumns
  rcases prepare_inv h d with ⟨e, hn⟩ | ⟨s', e, hi, h1, h2⟩
  · left; rw [e]; exact ⟨rfl, hn⟩
  · right
    rw [e]
    refine ⟨h1, h2, hi.model, ?_⟩
    simp only [hi.model]
    unfold Sub.readClause
    split
    · rfl
    · split
      · rfl
      · congr 2
        rw [hi.z, List.length_range]
        unfold readSet
        apply List.filter_congr
        intro j hj
        simp [List.getD_eq_getElem?_getD, List.mem_range.1 hj]

theorem pricingModel_eq (D : ℚ) (X : Data) (y : List ℕ) (hist : List ((ℚ × List ℚ) × (Model → Answer))) (d : ℚ × List ℚ)
    (h1 : 0 ≤ d.1) (h2 : ∀ x ∈ d.2, 0 ≤ x) : pricingModel D X y hist d = subModel D X y d.1 d.2 := by
  unfold pricingModel
  rcases generateColumns_cases (subAfter_ok D X y hist) d (fun _ => ⟨.other, fun _ => 0, fun _ => 0, 0⟩) with ⟨-, hn⟩ | ⟨-, -, h, -⟩
  · exact absurd ⟨h1, h2⟩ hn
  · exact h

/-- C26: a clause returned by the integer pricing problem is a proper clause with at most `D` features and its reduced cost is
below `-1e-6`, whatever happened before, as soon as the solver's answer is a feasible solution with its objective value. -/
theorem C26_sound (D : ℚ) (X : Data) (y : List ℕ) (hist : List ((ℚ × List ℚ) × (Model → Answer))) (d : ℚ × List ℚ)
    (solve : Model → Answer) (cols : List Clause) (hb : Binary X.rows y)
    (hr : ((subAfter D X y hist).generateColumns X y d solve).1 = .ok cols)
    (hsol : IsSolution (pricingModel D X y hist d) (solve (pricingModel D X y hist d))) :
    ∀ k ∈ cols, Proper X.nFeat k ∧ (k.length : ℚ) ≤ D ∧ reducedCost X.rows y d.1 d.2 k < -1 / 1000000 := by
  rcases generateColumns_cases (subAfter_ok D X y hist) d solve with ⟨e, -⟩ | ⟨h1, h2, -, e⟩
  · rw [e] at hr; cases hr
  · rw [pricingModel_eq D X y hist d h1 h2] at hsol
    rw [e] at hr
    split at hr
    · cases hr
    · split at hr
      · cases hr; simp
      · rename_i hobj
        cases hr
        intro k hk
        simp only [List.mem_singleton] at hk
        subst hk
        obtain ⟨p1, p2⟩ := price_sound hb.len h2 hsol.1
        refine ⟨readSet_proper _ _, p2, ?_⟩
        rw [← priceCost_eq hb]
        rw [not_le, hsol.2] at hobj
        exact lt_of_le_of_lt p1 hobj

theorem sat_congr {k k' : Clause} (h : ∀ j, j ∈ k ↔ j ∈ k') (r : List ℚ) : Sat r k ↔ Sat r k' := by
  unfold Sat
  constructor
  · intro hs j hj; exact hs j ((h j).2 hj)
  · intro hs j hj; exact hs j ((h j).1 hj)

theorem reducedCost_mono {rows : List (List ℚ)} {y : List ℕ} {lam : ℚ} {mu : List ℚ} {k k' : Clause} (hl : 0 ≤ lam)
    (h : ∀ j, j ∈ k ↔ j ∈ k') (hlen : k.length ≤ k'.length) : reducedCost rows y lam mu k ≤ reducedCost rows y lam mu k' := by
  unfold reducedCost numSat
  have e1 : (neg rows y).countP (fun r => decide (Sat r k)) = (neg rows y).countP (fun r => decide (Sat r k')) := by
    congr 1; funext r; simp [sat_congr h r]
  have e2 : ∀ i, (if Sat ((pos rows y).getD i []) k then mu.getD i 0 else 0) =
      if Sat ((pos rows y).getD i []) k' then mu.getD i 0 else 0 := by
    intro i; simp only [sat_congr h]
  rw [e1, Finset.sum_congr rfl (fun i _ => e2 i)]
  have : (k.length : ℚ) ≤ k'.length := by exact_mod_cast hlen
  nlinarith

theorem length_filter_range {n : ℕ} {k : Clause} (hk : ∀ j ∈ k, j < n) : ((List.range n).filter (fun j => j ∈ k)).length = k.dedup.length := by
  apply List.Perm.length_eq
  rw [List.perm_ext_iff_of_nodup (List.nodup_range.filter _) (List.nodup_dedup k)]
  intro j
  simp only [List.mem_filter, List.mem_range, decide_eq_true_eq, List.mem_dedup]
  exact ⟨fun h => h.2, fun h => ⟨hk j h, h⟩⟩

/-- C27: if the pricing problem is solved to optimality and no clause is returned, no clause over the features with at most `D` different
features has reduced cost below `-1e-6`. -/
theorem C27_complete (D : ℚ) (X : Data) (y : List ℕ) (hist : List ((ℚ × List ℚ) × (Model → Answer))) (d : ℚ × List ℚ)
    (solve : Model → Answer) (hb : Binary X.rows y)
    (hr : ((subAfter D X y hist).generateColumns X y d solve).1 = .ok [])
    (hopt : IsOptimal (pricingModel D X y hist d) (solve (pricingModel D X y hist d))) :
    ∀ k : Clause, (∀ j ∈ k, j < X.nFeat) → (k.dedup.length : ℚ) ≤ D → -1 / 1000000 ≤ reducedCost X.rows y d.1 d.2 k := by
  intro k hk hD
  rcases generateColumns_cases (subAfter_ok D X y hist) d solve with ⟨e, -⟩ | ⟨h1, h2, -, e⟩
  · rw [e] at hr; cases hr
  · rw [pricingModel_eq D X y hist d h1 h2] at hopt
    rw [e] at hr
    split at hr
    · cases hr
    · split at hr
      · rename_i hobj
        set k' := (List.range X.nFeat).filter (fun j => j ∈ k) with hk'
        have hprop : Proper X.nFeat k' := by
          rw [proper_iff_sublist]; exact List.filter_sublist
        have hlen : k'.length = k.dedup.length := length_filter_range hk
        obtain ⟨p1, p2⟩ := price_complete (D := D) (cc := d.1) (cs := d.2) hb.len hprop (by rw [hlen]; exact hD)
        have hbest := hopt.2 _ p1
        unfold Model.better at hbest
        rw [show (subModel D X y d.1 d.2).maximize = false from rfl] at hbest
        simp only [Bool.false_eq_true, if_false] at hbest
        rw [p2, priceCost_eq hb] at hbest
        have hmono : reducedCost X.rows y d.1 d.2 k' ≤ reducedCost X.rows y d.1 d.2 k := by
          apply reducedCost_mono h1
          · intro j
            simp only [hk', List.mem_filter, List.mem_range, decide_eq_true_eq]
            exact ⟨fun h => h.2, fun h => ⟨hk j h, h⟩⟩
          · rw [hlen]; exact (List.dedup_sublist k).length_le
        exact le_trans hobj (le_trans hbest hmono)
      · cases hr

/-- C27: the pricing model always has a feasible solution when `D ≥ 0`. -/
theorem C27_feasible (D : ℚ) (X : Data) (y : List ℕ) (hist : List ((ℚ × List ℚ) × (Model → Answer))) (d : ℚ × List ℚ)
    (hl : y.length = X.rows.length) (hD : 0 ≤ D) (h1 : 0 ≤ d.1) (h2 : ∀ x ∈ d.2, 0 ≤ x) :
    ∃ a, (pricingModel D X y hist d).Feasible a := by
  rw [pricingModel_eq D X y hist d h1 h2]
  have hp : Proper X.nFeat [] := ⟨List.Pairwise.nil, by simp⟩
  exact ⟨_, (price_complete hl hp (by simpa using hD)).1⟩

/-- Solving the small pricing models of the examples by enumeration of the clauses. -/
def bruteForce (X : Data) (k : Clause) (v : ℚ) : Answer := ⟨.optimal, clauseAssign X k, fun _ => 0, v⟩

/-- C26 is not vacuous: a clause is returned and the answer is a solution. -/
example : ((subAfter 3 ⟨[[1, 0], [0, 1], [1, 1]], 2⟩ [1, 1, 0] []).generateColumns ⟨[[1, 0], [0, 1], [1, 1]], 2⟩ [1, 1, 0] (0, [3, 0])
      (fun _ => bruteForce ⟨[[1, 0], [0, 1], [1, 1]], 2⟩ [0] (-2))).1 = .ok [[0]] ∧
    IsSolution (pricingModel 3 ⟨[[1, 0], [0, 1], [1, 1]], 2⟩ [1, 1, 0] [] (0, [3, 0]))
      (bruteForce ⟨[[1, 0], [0, 1], [1, 1]], 2⟩ [0] (-2)) := by
  refine ⟨by decide +kernel, ?_⟩
  rw [pricingModel_eq _ _ _ _ _ (by norm_num) (by simp)]
  have hp : Proper 2 [0] := ⟨by simp, by simp⟩
  obtain ⟨p1, p2⟩ := price_complete (D := 3) (X := ⟨[[1, 0], [0, 1], [1, 1]], 2⟩) (y := [1, 1, 0]) (cc := 0) (cs := [3, 0]) rfl hp
    (by norm_num)
  refine ⟨p1, ?_⟩
  simp only [bruteForce]
  rw [p2]
  decide +kernel

/-- C27 is not vacuous: with zero duals nothing is returned, and the empty answer is optimal (all coefficients are non-negative). -/
example : ((subAfter 3 ⟨[[1, 0], [0, 1], [1, 1]], 2⟩ [1, 1, 0] []).generateColumns ⟨[[1, 0], [0, 1], [1, 1]], 2⟩ [1, 1, 0] (0, [0, 0])
      (fun _ => bruteForce ⟨[[1, 0], [0, 1], [1, 1]], 2⟩ [0, 1] 1)).1 = .ok [] := by
  decide +kernel

/-- C28: after any history on the same data, `generate_columns` solves exactly the model a fresh subproblem would build. -/
theorem C28_update (D : ℚ) (X : Data) (y : List ℕ) (hist : List ((ℚ × List ℚ) × (Model → Answer))) (d : ℚ × List ℚ) :
    ((subAfter D X y hist).prepare X y d).map (·.solver) = ((Sub.new D).prepare X y d).map (·.solver) := by
  rcases prepare_inv (subAfter_ok D X y hist) d with ⟨e, hn⟩ | ⟨s', e, hi, hd⟩ <;>
  rcases prepare_inv (Or.inl rfl : SubOk (Sub.new D) D X y) d with ⟨e', hn'⟩ | ⟨s'', e', hi', hd'⟩
  · rw [e, e']
  · exact absurd hd' hn
  · exact absurd hd hn'
  · rw [e, e']
    simp only [Except.map, hi.model, hi'.model]

/-- C28: hence the result does not depend on the history. -/
theorem C28_result (D : ℚ) (X : Data) (y : List ℕ) (hist : List ((ℚ × List ℚ) × (Model → Answer))) (d : ℚ × List ℚ)
    (solve : Model → Answer) :
    ((subAfter D X y hist).generateColumns X y d solve).1 = ((Sub.new D).generateColumns X y d solve).1 := by
  rcases generateColumns_cases (subAfter_ok D X y hist) d solve with ⟨e, hn⟩ | ⟨h1, h2, -, e⟩ <;>
  rcases generateColumns_cases (Or.inl rfl : SubOk (Sub.new D) D X y) d solve with ⟨e', hn'⟩ | ⟨h1', h2', -, e'⟩
  · rw [e, e']
  · exact absurd ⟨h1', h2'⟩ hn
  · exact absurd ⟨h1, h2⟩ hn'
  · rw [e, e']

/-- The objective really changes between the two calls. -/
example : ((subAfter 3 ⟨[[1, 0], [0, 1], [1, 1]], 2⟩ [1, 1, 0] [((0, [3, 0]), fun _ => bruteForce ⟨[], 2⟩ [] 0)]).prepare
      ⟨[[1, 0], [0, 1], [1, 1]], 2⟩ [1, 1, 0] (1, [1, 4])).map (fun s => (List.range 6).map s.solver.obj) =
    .ok [1, 1, -1, -4, 1, 0] := by decide +kernel

/-! ## C29: the heuristic -/

/-- C29: exactly the proper clauses with 1..K features and reduced cost below `-1e-6`, each once, shorter first, lexicographic within
a size. -/
theorem C29_heuristic (K : ℕ) (X : Data) (y : List ℕ) (d : ℚ × List ℚ) (cols : List Clause) (hb : Binary X.rows y)
    (hr : heuristicColumns K X y d = .ok cols) :
    (∀ k, k ∈ cols ↔ Proper X.nFeat k ∧ 1 ≤ k.length ∧ k.length ≤ K ∧ reducedCost X.rows y d.1 d.2 k < -1 / 1000000) ∧
    cols.Nodup ∧ cols.Pairwise (fun a b => a.length < b.length ∨ (a.length = b.length ∧ List.Lex (· < ·) a b)) := by
  unfold heuristicColumns at hr
  split at hr
  · cases hr
  · split at hr
    · cases hr
    · cases hr
      refine ⟨?_, ?_, heuristic_sorted _ _ _⟩
      · intro k
        rw [mem_heuristic]
        simp only [decide_eq_true_eq]
        rw [heuristicCost_price hb.len, priceCost_eq hb]
        rfl
      · refine (heuristic_sorted K X _).imp ?_
        intro a b hab he
        subst he
        rcases hab with h | ⟨-, h⟩
        · omega
        · exact absurd h (List.lex_irrefl (by simp) a)

/-- C29: the heuristic raises exactly when a dual is negative. -/
theorem C29_raises (K : ℕ) (X : Data) (y : List ℕ) (d : ℚ × List ℚ) :
    (∃ cols, heuristicColumns K X y d = .ok cols) ↔ 0 ≤ d.1 ∧ ∀ x ∈ d.2, 0 ≤ x := by
  unfold heuristicColumns
  by_cases h1 : d.1 < 0
  · rw [if_pos h1]
    simp only [reduceCtorEq, exists_false, false_iff, not_and]
    intro h; exact absurd h1 (not_lt.2 h)
  · rw [if_neg h1]
    by_cases h2 : (d.2.any (fun d => decide (d < 0))) = true
    · rw [if_pos h2]
      simp only [reduceCtorEq, exists_false, false_iff, not_and]
      intro _ h
      obtain ⟨x, hx, hx0⟩ := List.any_eq_true.1 h2
      exact absurd (h x hx) (not_le.2 (by simpa using hx0))
    · rw [if_neg h2]
      simp only [Except.ok.injEq, exists_eq', true_iff]
      refine ⟨not_lt.1 h1, fun x hx => ?_⟩
      by_contra hc
      exact h2 (List.any_eq_true.2 ⟨x, hx, by simpa using hc⟩)

example : heuristicColumns 2 ⟨[[1, 0, 1], [0, 1, 1], [1, 1, 0]], 3⟩ [1, 1, 0] (1 / 10, [3, 1]) = .ok [[0], [2], [0, 2], [1, 2]] := by
  decide +kernel

/-! ## C30: no clause is proposed twice -/

theorem getD_map_range (n i : ℕ) (f : ℕ → ℚ) (h : i < n) : ((List.range n).map f).getD i 0 = f i := by
  simp [List.getD_eq_getElem?_getD, h]

/-- Clauses already in the master have reduced cost at least `-tol` for dual feasible duals. -/
theorem known_cost {s : Master} {K : List Clause} (h : Inv s K) (hb : Binary s.X.rows s.y) {tol : ℚ} {ans : Answer}
    (hdual : DualFeasible s.solver tol ans.duals) {d : ℚ × List ℚ} (hd : s.solveRmp ans = .ok d) :
    (∀ k ∈ K, -tol ≤ reducedCost s.X.rows s.y d.1 d.2 k) ∧ 0 ≤ d.1 ∧ (∀ x ∈ d.2, 0 ≤ x) ∧ d.1 = -ans.duals 0 ∧
      (∀ i < (pos s.X.rows s.y).length, d.2.getD i 0 = ans.duals (i + 1) ∧ d.2.getD i 0 ≤ s.p + tol) := by
  rw [h.solveRmp] at hd
  cases hd
  have h0 : ans.duals 0 ≤ 0 := hdual.le 0 _ h.cons0 rfl
  have habs : |ans.duals 0| = -ans.duals 0 := abs_of_nonpos h0
  have hpm := posM_eq hb
  refine ⟨?_, abs_nonneg _, ?_, habs, ?_⟩
  · intro k hk
    obtain ⟨j, hj⟩ := List.mem_iff_getElem?.1 hk
    have hjl := (List.getElem?_eq_some_iff.1 hj).1
    have hc := hdual.cost ((posM s.X.rows s.y).length + j) (by rw [h.varsLen]; omega)
    rw [h.reducedCost _ j k hj] at hc
    refine le_trans hc (le_of_eq ?_)
    unfold reducedCost
    rw [hpm, negM_eq hb]
    simp only
    rw [habs]
    have : ∀ i ∈ Finset.range (pos s.X.rows s.y).length,
        (if Sat ((pos s.X.rows s.y).getD i []) k then ((List.range (pos s.X.rows s.y).length).map (fun i => ans.duals (i + 1))).getD i 0
          else 0) = if Sat ((pos s.X.rows s.y).getD i []) k then ans.duals (i + 1) else 0 := by
      intro i hi
      rw [getD_map_range _ _ _ (Finset.mem_range.1 hi)]
    rw [Finset.sum_congr rfl this]
    ring
  · intro x hx
    obtain ⟨i, hi, rfl⟩ := List.mem_map.1 hx
    have hi' := List.mem_range.1 hi
    have hr : (posM s.X.rows s.y)[i]? = some (posM s.X.rows s.y)[i] := List.getElem?_eq_getElem hi'
    exact hdual.ge (i + 1) _ (h.consS i _ hr) rfl
  · intro i hi
    rw [hpm]
    simp only
    rw [getD_map_range _ _ _ hi]
    refine ⟨rfl, ?_⟩
    have hc := hdual.cost i (by rw [h.varsLen, hpm]; omega)
    rw [h.reducedCost_xi _ i (by rw [hpm]; exact hi)] at hc
    linarith

/-- C30: if the raw duals are dual feasible for the restricted master (up to `1e-6`), no clause returned by the heuristic
is already in the master, so adding it does not raise. -/
theorem C30_heuristic (C p : ℚ) (X : Data) (y : List ℕ) (ops : List Op) (K : ℕ) (ans : Answer) (d : ℚ × List ℚ) (cols : List Clause)
    (hb : Binary X.rows y) (hdual : DualFeasible (after C p X y ops).solver (1 / 1000000) ans.duals)
    (hd : (after C p X y ops).solveRmp ans = .ok d) (hr : heuristicColumns K X y d = .ok cols) :
    ∀ k ∈ cols, k ∉ clausesOf ops ∧ ((after C p X y ops).addColumn k).1 = .ok true := by
  intro k hk
  obtain ⟨h, h1, h2, h3, h4⟩ := after_inv C p X y ops hb.len
  have hb' : Binary (after C p X y ops).X.rows (after C p X y ops).y := by rw [h1, h2]; exact hb
  obtain ⟨hc, -⟩ := known_cost h hb' hdual hd
  rw [h1, h2] at hc
  obtain ⟨-, hl, -, hlt⟩ := ((C29_heuristic K X y d cols hb hr).1 k).1 hk
  have hnot : k ∉ clausesOf ops := by
    intro hm
    have := hc k hm
    have e : -(1 / 1000000 : ℚ) = -1 / 1000000 := by norm_num
    rw [e] at this
    exact absurd hlt (not_lt.2 this)
  refine ⟨hnot, ?_⟩
  obtain ⟨s', e, -⟩ := (addColumn_inv h k).2.2 (by intro hk0; rw [hk0] at hl; simp at hl) hnot
  rw [e]

/-- C30 for the integer pricing problem. -/
theorem C30_exact (C p D : ℚ) (X : Data) (y : List ℕ) (ops : List Op) (hist : List ((ℚ × List ℚ) × (Model → Answer))) (ans : Answer)
    (d : ℚ × List ℚ) (solve : Model → Answer) (cols : List Clause) (hb : Binary X.rows y)
    (hdual : DualFeasible (after C p X y ops).solver (1 / 1000000) ans.duals)
    (hd : (after C p X y ops).solveRmp ans = .ok d)
    (hr : ((subAfter D X y hist).generateColumns X y d solve).1 = .ok cols)
    (hsol : IsSolution (pricingModel D X y hist d) (solve (pricingModel D X y hist d))) :
    ∀ k ∈ cols, k ∉ clausesOf ops ∧ ((after C p X y ops).addColumn k).1 = .ok true := by
  intro k hk
  obtain ⟨h, h1, h2, h3, h4⟩ := after_inv C p X y ops hb.len
  have hb' : Binary (after C p X y ops).X.rows (after C p X y ops).y := by rw [h1, h2]; exact hb
  obtain ⟨hc, -⟩ := known_cost h hb' hdual hd
  rw [h1, h2] at hc
  obtain ⟨-, -, hlt⟩ := C26_sound D X y hist d solve cols hb hr hsol k hk
  have hnot : k ∉ clausesOf ops := by
    intro hm
    have := hc k hm
    have e : -(1 / 1000000 : ℚ) = -1 / 1000000 := by norm_num
    rw [e] at this
    exact absurd hlt (not_lt.2 this)
  refine ⟨hnot, ?_⟩
  have h0 : ([] : Clause) ∈ clausesOf ops := by
    have key : ∀ (ops : List Op) (K : List Clause), [] ∈ K → ([] : Clause) ∈ ops.foldl (fun K op => match op with
        | .addColumn k => if k ∈ K then K else K ++ [k]
        | _ => K) K := by
      intro ops
      induction ops with
      | nil => intro K hK; exact hK
      | cons op ops ih =>
        intro K hK
        apply ih
        cases op with
        | addColumn k => simp only; split <;> simp [hK]
        | generateMp X y => exact hK
        | solveRmp a => exact hK
        | solveIp a => exact hK
    exact key ops _ (by simp)
  obtain ⟨s', e, -⟩ := (addColumn_inv h k).2.2 (by intro hk0; rw [hk0] at hnot; exact hnot h0) hnot
  rw [e]

/-- Dual feasible duals of the master with the empty clause only. -/
def demoDuals : ℕ → ℚ := fun c => if c = 0 then 0 else 1 / 2

/-- The primal-dual optimal answer of that master: the empty clause with weight 1. -/
def demoLp : Answer := ⟨.optimal, fun v => if v = 2 then 1 else 0, demoDuals, 1⟩

theorem demo_dual : DualFeasible (after 10 1 ⟨[[1, 0], [0, 1], [1, 1]], 2⟩ [1, 1, 0] []).solver 0 demoLp.duals := by
  refine ⟨?_, ?_, ?_⟩
  · intro c k hk hlb
    match c with
    | 0 => simp [demoLp, demoDuals]
    | c + 1 =>
      exfalso
      obtain ⟨h, -⟩ := after_inv 10 1 ⟨[[1, 0], [0, 1], [1, 1]], 2⟩ [1, 1, 0] [] rfl
      have hc := (List.getElem?_eq_some_iff.1 hk).1
      rw [h.consLen] at hc
      have hr := List.getElem?_eq_getElem (l := posM (after 10 1 ⟨[[1, 0], [0, 1], [1, 1]], 2⟩ [1, 1, 0] []).X.rows
        (after 10 1 ⟨[[1, 0], [0, 1], [1, 1]], 2⟩ [1, 1, 0] []).y) (i := c) (by omega)
      rw [h.consS c _ hr] at hk
      cases hk
      simp at hlb
  · intro c k _ _
    simp only [demoLp, demoDuals]
    split <;> norm_num
  · have hl : (after 10 1 ⟨[[1, 0], [0, 1], [1, 1]], 2⟩ [1, 1, 0] []).solver.vars.length = 3 := by decide +kernel
    rw [hl]
    decide +kernel

/-- C30 is not vacuous: a master without clauses for data with no negatives covered, dual feasible duals and a proposed clause. -/
example : DualFeasible (after 10 1 ⟨[[1, 0], [0, 1], [1, 1]], 2⟩ [1, 1, 0] []).solver (1 / 1000000) demoLp.duals :=
  ⟨demo_dual.le, demo_dual.ge, fun v hv => le_trans (by norm_num) (demo_dual.cost v hv)⟩

/-! ## C31: optimality certificate -/

/-- C31: if the restricted master was solved to optimality (dual feasible duals with the dual objective equal to the LP value), and the
exact pricing problem with size limit `C` was solved to optimality and found no clause, then the LP value of the restricted master is at
most `1e-6 * C` above the value of every feasible point of the documented program over any list of clauses with at most `C` features. -/
theorem C31_certificate (C p : ℚ) (X : Data) (y : List ℕ) (ops : List Op) (hist : List ((ℚ × List ℚ) × (Model → Answer))) (ans : Answer)
    (d : ℚ × List ℚ) (solve : Model → Answer) (hb : Binary X.rows y)
    (hdual : DualFeasible (after C p X y ops).solver 0 ans.duals)
    (hstrong : ans.objective = (after C p X y ops).solver.dualValue ans.duals)
    (hd : (after C p X y ops).solveRmp ans = .ok d)
    (hr : ((subAfter C X y hist).generateColumns X y d solve).1 = .ok [])
    (hopt : IsOptimal (pricingModel C X y hist d) (solve (pricingModel C X y hist d)))
    (K' : List Clause) (hK : ∀ k ∈ K', (∀ j ∈ k, j < X.nFeat) ∧ (k.dedup.length : ℚ) ≤ C) (xi w : ℕ → ℚ)
    (hf : Feasible X.rows y C K' xi w) :
    ans.objective ≤ objective X.rows y p K' xi w + 1 / 1000000 * C := by
  obtain ⟨h, h1, h2, h3, h4⟩ := after_inv C p X y ops hb.len
  have hb' : Binary (after C p X y ops).X.rows (after C p X y ops).y := by rw [h1, h2]; exact hb
  obtain ⟨-, hl, hmu, hd0, hmu2⟩ := known_cost h hb' hdual hd
  rw [hstrong, h.dualValue, posM_eq hb', h1, h2, h3]
  rw [h1, h2, h4] at hmu2
  have hcost := C27_complete C X y hist d solve hb hr hopt
  set n := (pos X.rows y).length with hn
  have hm : ∀ i < n, 0 ≤ d.2.getD i 0 := by
    intro i _
    rw [List.getD_eq_getElem?_getD]
    cases hx : d.2[i]? with
    | none => simp
    | some x => simpa using hmu x (List.mem_of_getElem? hx)
  -- the dual objective in terms of `d`
  have e1 : ∑ i ∈ Finset.range n, ans.duals (i + 1) + ans.duals 0 * C = ∑ i ∈ Finset.range n, d.2.getD i 0 - d.1 * C := by
    rw [hd0, Finset.sum_congr rfl (fun i hi => ((hmu2 i (Finset.mem_range.1 hi)).1).symm)]
    ring
  rw [e1]
  -- weights
  have hw : ∀ j ∈ Finset.range K'.length, 0 ≤ w j := fun j hj => hf.w_nonneg j (Finset.mem_range.1 hj)
  have hrc : ∀ j ∈ Finset.range K'.length, -1 / 1000000 * w j ≤ reducedCost X.rows y d.1 d.2 (K'.getD j []) * w j := by
    intro j hj
    have hjl := Finset.mem_range.1 hj
    have hmem : K'.getD j [] ∈ K' := by
      rw [List.getD_eq_getElem?_getD, List.getElem?_eq_getElem hjl]
      exact List.getElem_mem _
    exact mul_le_mul_of_nonneg_right (hcost _ (hK _ hmem).1 (hK _ hmem).2) (hw j hj)
  have hsum := Finset.sum_le_sum hrc
  -- expand the reduced costs
  have hexp : ∑ j ∈ Finset.range K'.length, reducedCost X.rows y d.1 d.2 (K'.getD j []) * w j =
      ∑ j ∈ Finset.range K'.length, (numSat (neg X.rows y) (K'.getD j []) : ℚ) * w j -
        ∑ i ∈ Finset.range n, d.2.getD i 0 * covered K' w ((pos X.rows y).getD i []) + d.1 * complexity K' w := by
    unfold reducedCost covered complexity
    rw [← hn]
    have hswap : ∑ i ∈ Finset.range n, d.2.getD i 0 * ∑ j ∈ Finset.range K'.length,
        (if Sat ((pos X.rows y).getD i []) (K'.getD j []) then w j else 0) =
        ∑ j ∈ Finset.range K'.length, (∑ i ∈ Finset.range n, if Sat ((pos X.rows y).getD i []) (K'.getD j []) then d.2.getD i 0 else 0) * w j := by
      simp_rw [Finset.mul_sum, Finset.sum_mul]
      rw [Finset.sum_comm]
      apply Finset.sum_congr rfl
      intro j _
      apply Finset.sum_congr rfl
      intro i _
      split <;> simp
    rw [hswap, Finset.mul_sum, ← Finset.sum_sub_distrib, ← Finset.sum_add_distrib]
    apply Finset.sum_congr rfl
    intro j _
    ring
  rw [hexp, ← Finset.mul_sum] at hsum
  have hsumw : ∑ j ∈ Finset.range K'.length, w j ≤ C := by
    refine le_trans ?_ hf.comp
    unfold complexity
    apply Finset.sum_le_sum
    intro j hj
    have := hw j hj
    have h0 : (0 : ℚ) ≤ ((K'.getD j []).length : ℚ) := by positivity
    nlinarith
  have hcomp : d.1 * complexity K' w ≤ d.1 * C := mul_le_mul_of_nonneg_left hf.comp hl
  have hxi : ∑ i ∈ Finset.range n, d.2.getD i 0 ≤
      p * ∑ i ∈ Finset.range n, xi i + ∑ i ∈ Finset.range n, d.2.getD i 0 * covered K' w ((pos X.rows y).getD i []) := by
    rw [Finset.mul_sum, ← Finset.sum_add_distrib]
    apply Finset.sum_le_sum
    intro i hi
    have hi' := Finset.mem_range.1 hi
    have hr' : (pos X.rows y)[i]? = some ((pos X.rows y).getD i []) := by
      rw [List.getD_eq_getElem?_getD, List.getElem?_eq_getElem hi']; rfl
    have hs := hf.sat i _ hr'
    have hx0 := hf.xi_nonneg i hi'
    have hp := (hmu2 i hi').2
    have hm0 := hm i hi'
    have hp' : d.2.getD i 0 ≤ p := by linarith
    have : d.2.getD i 0 * xi i ≤ p * xi i := mul_le_mul_of_nonneg_right hp' hx0
    nlinarith
  unfold objective
  rw [← hn]
  linarith

/-- Pricing by enumeration is optimal. -/
theorem bruteForce_optimal {D cc v : ℚ} {X : Data} {y : List ℕ} {cs : List ℚ} {k : Clause} (hl : y.length = X.rows.length)
    (hcs : ∀ x ∈ cs, 0 ≤ x) (hk : Proper X.nFeat k) (hD : (k.length : ℚ) ≤ D) (hv : priceCost X.rows y cc cs k = v)
    (hbest : ∀ k' ∈ (List.range X.nFeat).sublists, v ≤ priceCost X.rows y cc cs k') :
    IsOptimal (subModel D X y cc cs) (bruteForce X k v) := by
  obtain ⟨p1, p2⟩ := price_complete (D := D) (cc := cc) (cs := cs) hl hk hD
  refine ⟨⟨p1, by simp only [bruteForce]; rw [p2, hv]⟩, ?_⟩
  intro a ha
  have hs := (price_sound hl hcs ha).1
  have hb := hbest (readSet X.nFeat a) (List.mem_sublists.2 ((proper_iff_sublist _ _).1 (readSet_proper _ _)))
  simp only [Model.better, subModel, bruteForce]
  exact le_trans hb hs

/-- C31 is not vacuous: the master with the empty clause only is optimal for this data. -/
example : DualFeasible (after 10 1 ⟨[[1, 0], [0, 1], [1, 1]], 2⟩ [1, 1, 0] []).solver 0 demoLp.duals ∧
    demoLp.objective = (after 10 1 ⟨[[1, 0], [0, 1], [1, 1]], 2⟩ [1, 1, 0] []).solver.dualValue demoLp.duals ∧
    (after 10 1 ⟨[[1, 0], [0, 1], [1, 1]], 2⟩ [1, 1, 0] []).solveRmp demoLp = .ok (0, [1 / 2, 1 / 2]) ∧
    ((subAfter 10 ⟨[[1, 0], [0, 1], [1, 1]], 2⟩ [1, 1, 0] []).generateColumns ⟨[[1, 0], [0, 1], [1, 1]], 2⟩ [1, 1, 0] (0, [1 / 2, 1 / 2])
      (fun _ => bruteForce ⟨[[1, 0], [0, 1], [1, 1]], 2⟩ [] 0)).1 = .ok [] ∧
    IsOptimal (pricingModel 10 ⟨[[1, 0], [0, 1], [1, 1]], 2⟩ [1, 1, 0] [] (0, [1 / 2, 1 / 2]))
      (bruteForce ⟨[[1, 0], [0, 1], [1, 1]], 2⟩ [] 0) := by
  refine ⟨demo_dual, by decide +kernel, by decide +kernel, by decide +kernel, ?_⟩
  rw [pricingModel_eq _ _ _ _ _ (by norm_num) (by intro x hx; simp at hx; rw [hx]; norm_num)]
  refine bruteForce_optimal rfl (by intro x hx; simp at hx; rw [hx]; norm_num) ⟨List.Pairwise.nil, by simp⟩ (by norm_num) ?_ ?_
  · decide +kernel
  · decide +kernel

/-! ## C33: clause enumeration -/

/-- C33: clause `i` lists exactly the set bits of `i`, in increasing order. -/
theorem C33_bits (i : ℕ) : (lexicographicClause i).Pairwise (· < ·) ∧ ∀ j, j ∈ lexicographicClause i ↔ i.testBit j = true :=
  ⟨lexicographicClause_sorted i, mem_lexicographicClause i⟩

/-- C33: different indices give different clauses. -/
theorem C33_injective : Function.Injective lexicographicClause := by
  intro a b h
  apply Nat.eq_of_testBit_eq
  intro j
  have h1 := mem_lexicographicClause a j
  have h2 := mem_lexicographicClause b j
  rw [h] at h1
  have := h1.symm.trans h2
  cases ha : a.testBit j <;> cases hb : b.testBit j <;> simp_all

/-- C33: every strictly increasing clause is produced. -/
theorem C33_surjective (k : Clause) (hk : k.Pairwise (· < ·)) : ∃ i, lexicographicClause i = k := by
  refine ⟨clauseIndex k, sorted_ext (lexicographicClause_sorted _) hk ?_⟩
  intro j
  rw [mem_lexicographicClause, testBit_clauseIndex, decide_eq_true_eq]

example : (List.range 8).map lexicographicClause = [[], [0], [1], [0, 1], [2], [0, 2], [1, 2], [0, 1, 2]] := by decide +kernel

/-! ## C34: refitting -/

/-- C34, the code as it is: a second `generate_mp` (hence a second `fit`) keeps the old data. -/
theorem C34_refit_keeps_old (C p : ℚ) (X X' : Data) (y y' : List ℕ) (ops : List Op) (h : y.length = X.rows.length) :
    (after C p X y ops).generateMp X' y' = after C p X y ops ∧ ((after C p X y ops).generateMp X' y').X = X ∧
      ((after C p X y ops).generateMp X' y').y = y := by
  obtain ⟨hi, h1, h2, -⟩ := after_inv C p X y ops h
  have : (after C p X y ops).generateMp X' y' = after C p X y ops := by simp [Master.generateMp, hi.gen]
  rw [this]
  exact ⟨rfl, h1, h2⟩

/-- C34 is false: the program after refitting is not the program of the new data. -/
theorem C34_refit_false : ¬ ∀ (C p : ℚ) (X X' : Data) (y y' : List ℕ), Binary X.rows y → Binary X'.rows y' →
    (((Master.new C p).generateMp X y).generateMp X' y').solver = ((Master.new C p).generateMp X' y').solver := by
  intro h
  have := h 10 1 ⟨[[1], [0]], 1⟩ ⟨[[1], [0], [1]], 1⟩ [1, 0] [1, 1, 0] ⟨rfl, by decide⟩ ⟨rfl, by decide⟩
  have h2 : (((Master.new 10 1).generateMp ⟨[[1], [0]], 1⟩ [1, 0]).generateMp ⟨[[1], [0], [1]], 1⟩ [1, 1, 0]).solver.vars.length =
      ((Master.new 10 1).generateMp ⟨[[1], [0], [1]], 1⟩ [1, 1, 0]).solver.vars.length := by rw [this]
  revert h2
  decide +kernel

/-- C34, the part that holds: a master whose `generate_mp` was never called trains on the data it is given. Missing: a second call. -/
theorem C34_first_fit_partial (C p : ℚ) (X : Data) (y : List ℕ) (ops : List Op) (hb : Binary X.rows y) (a : ℕ → ℚ) :
    (after C p X y ops).X = X ∧ (after C p X y ops).y = y ∧ ((after C p X y ops).solver.FeasibleLP a ↔
      Feasible X.rows y C (clausesOf ops) (fun i => a i) (fun j => a ((pos X.rows y).length + j))) := by
  obtain ⟨-, h1, h2, -⟩ := after_inv C p X y ops hb.len
  exact ⟨h1, h2, (C22_master C p X y ops hb a).1⟩

/-! ## C35: master and pricing agree on reduced costs -/

/-- The full claim for labels `y`: after any history, for every clause `k` of the master and all duals with the documented sign, the
reduced cost of its variable in the master equals the cost of `k` in the pricing model and the cost used by the heuristic. -/
def Agree (X : Data) (y : List ℕ) : Prop :=
  ∀ (C p D : ℚ) (ops : List Op) (j : ℕ) (k : Clause) (ans : Answer) (d : ℚ × List ℚ), Proper X.nFeat k → (clausesOf ops)[j]? = some k →
    ans.duals 0 ≤ 0 → (after C p X y ops).solveRmp ans = .ok d →
    (after C p X y ops).solver.reducedCost ans.duals ((after C p X y ops).clauseVars.getD j 0) =
        (subModel D X y d.1 d.2).value (clauseAssign X k) ∧
    (after C p X y ops).solver.reducedCost ans.duals ((after C p X y ops).clauseVars.getD j 0) =
        heuristicCost d.2 k (X.rows.zip y) (d.1 * (1 + k.length), 0)

/-- C35 for two classes. Missing: more than two classes, where it is false. -/
theorem C35_agree_partial (X : Data) (y : List ℕ) (hb : Binary X.rows y) : Agree X y := by
  intro C p D ops j k ans d hk hj h0 hd
  obtain ⟨h, h1, h2, h3, h4⟩ := after_inv C p X y ops hb.len
  have hjl := (List.getElem?_eq_some_iff.1 hj).1
  have hv : (after C p X y ops).clauseVars.getD j 0 = (posM (after C p X y ops).X.rows (after C p X y ops).y).length + j := by
    rw [h.cvars, List.getD_eq_getElem?_getD, List.getElem?_range' hjl]
    simp
  rw [hv, h.reducedCost _ j k hj]
  rw [h.solveRmp] at hd
  cases hd
  have hval : (subModel D X y |ans.duals 0| ((List.range (posM (after C p X y ops).X.rows (after C p X y ops).y).length).map
      (fun i => ans.duals (i + 1)))).value (clauseAssign X k) =
      priceCost X.rows y |ans.duals 0| ((List.range (posM (after C p X y ops).X.rows (after C p X y ops).y).length).map
        (fun i => ans.duals (i + 1))) k := by
    rw [subModel_value, clauseAssign_len hk, ← delta_ind hb.len]
    congr 1
    apply Finset.sum_congr rfl
    intro i _
    rw [clauseAssign_d]
  simp only
  rw [hval, heuristicCost_price hb.len]
  have : priceCost X.rows y |ans.duals 0| ((List.range (posM (after C p X y ops).X.rows (after C p X y ops).y).length).map
        (fun i => ans.duals (i + 1))) k = (numSat (negM (after C p X y ops).X.rows (after C p X y ops).y) k : ℚ) -
        (∑ i ∈ Finset.range (posM (after C p X y ops).X.rows (after C p X y ops).y).length,
          if Sat ((posM (after C p X y ops).X.rows (after C p X y ops).y).getD i []) k then ans.duals (i + 1) else 0) -
        ans.duals 0 * (1 + (k.length : ℚ)) := by
    unfold priceCost
    rw [h1, h2, posM_eq hb, abs_of_nonpos h0]
    have : ∀ i ∈ Finset.range (pos X.rows y).length,
        (if Sat ((pos X.rows y).getD i []) k then ((List.range (pos X.rows y).length).map (fun i => ans.duals (i + 1))).getD i 0
          else 0) = if Sat ((pos X.rows y).getD i []) k then ans.duals (i + 1) else 0 := by
      intro i hi
      rw [getD_map_range _ _ _ (Finset.mem_range.1 hi)]
    rw [Finset.sum_congr rfl this]
    ring
  rw [this]
  exact ⟨rfl, rfl⟩

/-- C35 is false for three classes: a row of class 2 is a positive row of the master and a negative row of pricing. -/
theorem C35_agree_false : ¬ ∀ (X : Data) (y : List ℕ), y.length = X.rows.length → Agree X y := by
  intro h
  have := (h ⟨[[1], [1], [0]], 1⟩ [2, 1, 0] rfl 10 1 10 [.addColumn [0]] 1 [0] ⟨.optimal, fun _ => 0, fun c => if c = 2 then 1 else 0, 0⟩
    (0, [0, 1]) ⟨by simp, by simp⟩ (by decide) (by norm_num) (by decide +kernel)).2
  revert this
  decide +kernel

end Verif.BDR
