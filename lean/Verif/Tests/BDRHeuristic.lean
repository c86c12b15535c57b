import Verif.Tests.BDR

/-!
# `test_heuristics` of `tests/test_bdrc.py`

The asserted values come out for one choice of optimal answers; for another choice of optimal answers the assertion `mp_optimal_ == True` fails.
So this test checks the tie breaking of the solvers together with the code.
-/

set_option linter.unusedSimpArgs false

namespace Verif.Tests.BDR

open Verif.BDR MP Spec

/-- The solvers are correct on the masters with the clauses `Ks`, on the pricing problems for the duals `ds` and on the integer master with the
clauses `Kf`. -/
structure CorrectOn {Ω : Type} (o : Oracle Ω) (Ks : List (List Clause)) (ds : List (ℚ × List ℚ)) (Kf : List Clause) : Prop where
  lp : ∀ ops ω, clausesOf ops ∈ Ks → DualOptimal (after 10 1 X y ops).solver (o.lp (after 10 1 X y ops).solver ω).1.duals
  mip : ∀ hist d ω, d ∈ ds → (o.mip (pricingModel 10 X y hist d) ω).1.status ≠ .other ∧
    IsOptimal (pricingModel 10 X y hist d) (o.mip (pricingModel 10 X y hist d) ω).1
  ip : ∀ ops ω, clausesOf ops = Kf → (o.ip (after 10 1 X y ops).solver ω).1.status ≠ .other ∧
    IsOptimal (after 10 1 X y ops).solver (o.ip (after 10 1 X y ops).solver ω).1

/-- Duals by number of clauses of the master, clauses and their costs by duals, the weight 1 at one variable of the integer master. -/
def answers (ds : List (ℚ × ℚ)) (price : ℚ → ℚ → Clause × ℚ) (chosen : ℕ) : Oracle Unit where
  clock _ := (0, ())
  lp m _ := (⟨.optimal, fun _ => 0, fun c => if c = 1 then ((ds[m.vars.length]?).getD (0, 0)).1 else
    if c = 2 then ((ds[m.vars.length]?).getD (0, 0)).2 else 0, 0⟩, ())
  mip m _ := (⟨.optimal, clauseAssign X (price (-m.obj 4) (-m.obj 5)).1, fun _ => 0, (price (-m.obj 4) (-m.obj 5)).2⟩, ())
  ip _ _ := (⟨.optimal, fun v => if v = chosen then 1 else 0, fun _ => 0, 0⟩, ())

/-- What is shown of a run: `mp_optimal_`, `iter_` and `num_col_added_sp_`, the clauses of the master and the explanation. -/
def shown (r : Option (Except Err Unit × Fit.St (World Unit) (ℚ × List ℚ) Clause)) : Option ((Option Unit × Bool) × List (List ℕ) × List (List Clause)) :=
  r.map (fun r => ((r.1.toOption, r.2.est.mpOptimal), [r.2.est.iter] :: r.2.est.numColAdded,
    [r.2.world.master.clauseDict.map (·.2), r.2.world.master.explanation]))

/-- The duals that the master returned in a run. -/
def dualsOf (r : Option (Except Err Unit × Fit.St (World Unit) (ℚ × List ℚ) Clause)) : List (ℚ × List ℚ) :=
  ((r.map (fun r => r.2.trace.filterMap (fun e => match e with
    | .solveRmp (.ok d) => some d
    | _ => none))).getD [])

/-- The duals `(1, 1)`, `(1/2, 1/2)`, `(0, 0)`. -/
def first : Oracle Unit := answers [(0, 0), (0, 0), (0, 0), (1, 1), (0, 0), (1 / 2, 1 / 2)] (fun a b => ([0, 1], -(a + b))) 5

/-- The duals `(1, 1)`, `(1, 0)`, `(0, 1)`; the clause `[0, 1, 2]` for `(1, 0)`. -/
def second : Oracle Unit :=
  answers [(0, 0), (0, 0), (0, 0), (1, 1), (0, 0), (1, 0), (0, 1)]
    (fun a b => (if a = 1 ∧ b = 0 then [0, 1, 2] else [0, 1], -(a + b))) 6

theorem lp_answers {ds : List (ℚ × ℚ)} {price : ℚ → ℚ → Clause × ℚ} {chosen : ℕ} {ops : List Op} {a b : ℚ}
    (hd : (ds[2 + (clausesOf ops).length]?).getD (0, 0) = (a, b)) (ha : 0 ≤ a ∧ a ≤ 1) (hb : 0 ≤ b ∧ b ≤ 1)
    (hK : ∀ k ∈ clausesOf ops, 0 ≤ (numSat (negM X.rows y) k : ℚ) -
      ((if Sat [1, 1, 1, 0] k then a else 0) + (if Sat [1, 1, 0, 1] k then b else 0)))
    (hub : ∀ d, DualFeasible (after 10 1 X y ops).solver 0 d → d 1 + d 2 + d 0 * 10 ≤ a + b) :
    DualOptimal (after 10 1 X y ops).solver ((answers ds price chosen).lp (after 10 1 X y ops).solver ()).1.duals := by
  obtain ⟨hi, hX, hy, -, -⟩ := after_inv 10 1 X y ops rfl
  have hlen := hi.varsLen
  rw [hX, hy, pos_eq] at hlen
  have hlen' : (after 10 1 X y ops).solver.vars.length = 2 + (clausesOf ops).length := hlen
  simp only [answers]
  rw [hlen', hd]
  simp only
  refine ⟨Demo.dual_of rfl (by simp) ?_ ?_ ?_, ?_⟩
  · intro i
    match i with
    | 0 => simpa using ha.1
    | 1 => simpa using hb.1
    | i + 2 => simp
  · intro i hi
    rw [pos_eq] at hi
    match i, hi with
    | 0, _ => simp only [Nat.zero_add, if_true]; linarith [ha.2]
    | 1, _ => simp; linarith [hb.2]
  · intro k hk
    rw [pos_eq]
    simpa [Finset.sum_range_succ] using hK k hk
  · intro d' hd'
    rw [dualValue, dualValue]
    simpa using hub d' hd'

theorem ip_single {Kf : List Clause} (chosen : ℕ) (hj : 2 ≤ chosen) (hk : Kf[chosen - 2]? = some [0, 1])
    {ops : List Op} (hK : clausesOf ops = Kf) {a : Answer}
    (ha : a = ⟨.optimal, fun v => if v = chosen then 1 else 0, fun _ => 0, 0⟩) : IsOptimal (after 10 1 X y ops).solver a := by
  subst ha
  have hp2 : pos X.rows y = [[1, 1, 1, 0], [1, 1, 0, 1]] := by decide +kernel
  have hn2 : neg X.rows y = [[0, 1, 1, 1], [1, 0, 1, 1]] := by decide +kernel
  obtain ⟨n1, n2, n3, n4⟩ := C22_master 10 1 X y ops binary (fun v => if v = chosen then 1 else 0)
  have hlt := (List.getElem?_eq_some_iff.1 hk).1
  have hget : Kf.getD (chosen - 2) [] = [0, 1] := by rw [List.getD_eq_getElem?_getD, hk]; rfl
  have hsum : ∀ f : ℕ → ℚ, ∑ j ∈ Finset.range Kf.length, f j * (if 2 + j = chosen then (1 : ℚ) else 0) = f (chosen - 2) := by
    intro f
    rw [Finset.sum_eq_single (chosen - 2)]
    · rw [if_pos (by omega), mul_one]
    · intro b _ hb
      rw [if_neg (by omega), mul_zero]
    · intro h
      exact absurd (Finset.mem_range.2 hlt) h
  have hcov : ∀ r : List ℚ, Sat r [0, 1] → covered Kf (fun j => if 2 + j = chosen then (1 : ℚ) else 0) r = 1 := by
    intro r hr
    unfold covered
    rw [show (∑ j ∈ Finset.range Kf.length, if Sat r (Kf.getD j []) then (if 2 + j = chosen then (1 : ℚ) else 0) else 0) =
      ∑ j ∈ Finset.range Kf.length, (if Sat r (Kf.getD j []) then (1 : ℚ) else 0) * (if 2 + j = chosen then (1 : ℚ) else 0) from
        Finset.sum_congr rfl (fun j _ => by split <;> simp)]
    rw [hsum (fun j => if Sat r (Kf.getD j []) then (1 : ℚ) else 0)]
    simp only [hget, hr, if_true]
  have hval : objective X.rows y 1 Kf (fun i => if i = chosen then (1 : ℚ) else 0) (fun j => if 2 + j = chosen then (1 : ℚ) else 0) = 0 := by
    unfold objective
    rw [hn2, hsum (fun j => (numSat [[0, 1, 1, 1], [1, 0, 1, 1]] (Kf.getD j []) : ℚ)), hget, hp2]
    have e2 : numSat [[0, 1, 1, 1], [1, 0, 1, 1]] [0, 1] = 0 := by decide +kernel
    rw [e2]
    simp [Finset.sum_range_succ]
    omega
  have hpl : (pos X.rows y).length = 2 := by rw [hp2]; rfl
  rw [hK, hpl] at n1 n2
  rw [hK, hpl] at n4
  refine ⟨⟨n4.2 ⟨n1.2 ⟨?_, ?_, ?_, ?_⟩, ?_⟩, ?_⟩, ?_⟩
  · intro i _; split <;> norm_num
  · intro i _; split <;> norm_num
  · intro i r hi
    have hr : Sat r [0, 1] := by
      rw [hp2] at hi
      have := List.mem_of_getElem? hi
      simp only [List.mem_cons, List.not_mem_nil, or_false] at this
      rcases this with rfl | rfl <;> decide +kernel
    rw [hcov r hr]
    have : (0 : ℚ) ≤ if i = chosen then 1 else 0 := by split <;> norm_num
    linarith
  · unfold complexity
    have e : ∀ j, (1 + ((Kf.getD j []).length : ℚ)) * (fun j => if 2 + j = chosen then (1 : ℚ) else 0) j =
        (fun j => 1 + ((Kf.getD j []).length : ℚ)) j * (if 2 + j = chosen then (1 : ℚ) else 0) := fun j => rfl
    rw [Finset.sum_congr rfl (fun j _ => e j), hsum (fun j => 1 + ((Kf.getD j []).length : ℚ)), hget]
    norm_num
  · intro v _
    split
    · exact ⟨1, by norm_num⟩
    · exact ⟨0, by norm_num⟩
  · rw [n2, hval]
  · intro a ha
    obtain ⟨m1, m2, m3, m4⟩ := C22_master 10 1 X y ops binary a
    unfold Model.better
    rw [m3, m2]
    simp only [Bool.false_eq_true, if_false]
    have hf := m1.1 (m4.1 ha).1
    unfold objective
    refine add_nonneg (mul_nonneg (by norm_num) (Finset.sum_nonneg fun i hi => hf.xi_nonneg i (Finset.mem_range.1 hi))) ?_
    exact Finset.sum_nonneg fun j hj => mul_nonneg (by positivity) (hf.w_nonneg j (Finset.mem_range.1 hj))

theorem mip_answers {ds : List (ℚ × ℚ)} {price : ℚ → ℚ → Clause × ℚ} {chosen : ℕ} {a b : ℚ} (ha : 0 ≤ a) (hb : 0 ≤ b)
    (hk : Proper 4 (price a b).1) (hl : ((price a b).1.length : ℚ) ≤ 10) (hv : priceCost X.rows y 0 [a, b] (price a b).1 = (price a b).2)
    (hbest : ∀ k' ∈ (List.range 4).sublists, (price a b).2 ≤ priceCost X.rows y 0 [a, b] k') (hist) :
    ((answers ds price chosen).mip (pricingModel 10 X y hist (0, [a, b])) ()).1.status ≠ .other ∧
    IsOptimal (pricingModel 10 X y hist (0, [a, b])) ((answers ds price chosen).mip (pricingModel 10 X y hist (0, [a, b])) ()).1 := by
  have hpos : ∀ x ∈ [a, b], 0 ≤ x := by
    intro x hx
    simp only [List.mem_cons, List.not_mem_nil, or_false] at hx
    rcases hx with rfl | rfl <;> assumption
  rw [pricingModel_eq _ _ _ _ _ (le_refl _) hpos]
  refine ⟨by simp [answers], ?_⟩
  have e1 : (subModel 10 X y 0 [a, b]).obj 4 = -a := by simp [subModel, X, y, deltaCoeffs]
  have e2 : (subModel 10 X y 0 [a, b]).obj 5 = -b := by simp [subModel, X, y, deltaCoeffs]
  simp only [answers, e1, e2, neg_neg]
  exact bruteForce_optimal (X := X) rfl hpos hk hl hv hbest

theorem first_correct : CorrectOn first [[[]], [[], [0], [1]], [[], [0], [1], [0, 1]]] [(0, [1, 1]), (0, [1 / 2, 1 / 2]), (0, [0, 0])]
    [[], [0], [1], [0, 1]] where
  lp ops _ hK := by
    have n0 : numSat (negM X.rows y) [0] = 1 := by decide +kernel
    have n1 : numSat (negM X.rows y) [0, 1] = 0 := by decide +kernel
    simp only [List.mem_cons, List.not_mem_nil, or_false] at hK
    rcases hK with hK | hK | hK
    · refine lp_answers (a := 1) (b := 1) (by rw [hK]; decide +kernel) (by norm_num) (by norm_num) (by rw [hK]; decide +kernel) ?_
      intro d hd
      obtain ⟨h0, h1, h2, h3, h4, h5⟩ := dual_bounds ops hd
      linarith
    · refine lp_answers (a := 1 / 2) (b := 1 / 2) (by rw [hK]; decide +kernel) (by norm_num) (by norm_num) (by rw [hK]; decide +kernel) ?_
      intro d hd
      obtain ⟨h0, h1, h2, h3, h4, h5⟩ := dual_bounds ops hd
      have h6 := h5 [0] (by rw [hK]; simp)
      rw [n0, if_pos (by decide +kernel), if_pos (by decide +kernel)] at h6
      norm_num at h6 ⊢
      linarith
    · refine lp_answers (a := 0) (b := 0) (by rw [hK]; decide +kernel) (by norm_num) (by norm_num) (by rw [hK]; decide +kernel) ?_
      intro d hd
      obtain ⟨h0, h1, h2, h3, h4, h5⟩ := dual_bounds ops hd
      have h6 := h5 [0, 1] (by rw [hK]; simp)
      rw [n1, if_pos (by decide +kernel), if_pos (by decide +kernel)] at h6
      norm_num at h6 ⊢
      linarith
  mip hist d _ hd := by
    simp only [List.mem_cons, List.not_mem_nil, or_false] at hd
    rcases hd with rfl | rfl | rfl
    · exact mip_answers (by norm_num) (by norm_num) ⟨by decide, by decide⟩ (by norm_num) (by decide +kernel) (by decide +kernel) hist
    · exact mip_answers (by norm_num) (by norm_num) ⟨by decide, by decide⟩ (by norm_num) (by decide +kernel) (by decide +kernel) hist
    · exact mip_answers (by norm_num) (by norm_num) ⟨by decide, by decide⟩ (by norm_num) (by decide +kernel) (by decide +kernel) hist
  ip ops _ hK := ⟨by simp [first, answers], ip_single 5 (by norm_num) rfl hK rfl⟩

/-- `test_heuristics`, `test_bdrc.py:74-95`, with the answers `first`: all masters and duals of the run are those of `first_correct`. -/
theorem heuristics : shown (fitNew first 10 1 (heuristicKinds 10) 3 (-1) X 4 labels (est false) ()) =
      some ((some (), true), [[3], [2], [1]], [[[], [0], [1], [0, 1]], [[0, 1]]]) ∧
    dualsOf (fitNew first 10 1 (heuristicKinds 10) 3 (-1) X 4 labels (est false) ()) = [(0, [1, 1]), (0, [1 / 2, 1 / 2]), (0, [0, 0])] ∧
    predict [0, 1] [[0, 1]] X.rows = .ok labels := by
  refine ⟨by decide +kernel, by decide +kernel, rfl⟩

theorem second_correct : CorrectOn second [[[]], [[], [0], [1]], [[], [0], [1], [0, 1, 2]]] [(0, [1, 1]), (0, [1, 0]), (0, [0, 1])]
    [[], [0], [1], [0, 1, 2], [0, 1]] where
  lp ops _ hK := by
    have n0 : numSat (negM X.rows y) [0] = 1 := by decide +kernel
    simp only [List.mem_cons, List.not_mem_nil, or_false] at hK
    have hub : [0] ∈ clausesOf ops → ∀ d, DualFeasible (after 10 1 X y ops).solver 0 d → d 1 + d 2 + d 0 * 10 ≤ 1 := by
      intro hm d hd
      obtain ⟨h0, h1, h2, h3, h4, h5⟩ := dual_bounds ops hd
      have h6 := h5 [0] hm
      rw [n0, if_pos (by decide +kernel), if_pos (by decide +kernel)] at h6
      norm_num at h6 ⊢
      linarith
    rcases hK with hK | hK | hK
    · refine lp_answers (a := 1) (b := 1) (by rw [hK]; decide +kernel) (by norm_num) (by norm_num) (by rw [hK]; decide +kernel) ?_
      intro d hd
      obtain ⟨h0, h1, h2, h3, h4, h5⟩ := dual_bounds ops hd
      linarith
    · exact lp_answers (a := 1) (b := 0) (by rw [hK]; decide +kernel) (by norm_num) (by norm_num) (by rw [hK]; decide +kernel)
        (fun d hd => by have := hub (by rw [hK]; simp) d hd; linarith)
    · exact lp_answers (a := 0) (b := 1) (by rw [hK]; decide +kernel) (by norm_num) (by norm_num) (by rw [hK]; decide +kernel)
        (fun d hd => by have := hub (by rw [hK]; simp) d hd; linarith)
  mip hist d _ hd := by
    simp only [List.mem_cons, List.not_mem_nil, or_false] at hd
    rcases hd with rfl | rfl | rfl
    · exact mip_answers (by norm_num) (by norm_num) ⟨by decide +kernel, by decide +kernel⟩ (by decide +kernel) (by decide +kernel) (by decide +kernel) hist
    · exact mip_answers (by norm_num) (by norm_num) ⟨by decide +kernel, by decide +kernel⟩ (by decide +kernel) (by decide +kernel) (by decide +kernel) hist
    · exact mip_answers (by norm_num) (by norm_num) ⟨by decide +kernel, by decide +kernel⟩ (by decide +kernel) (by decide +kernel) (by decide +kernel) hist
  ip ops _ hK := ⟨by simp [second, answers], ip_single 6 (by norm_num) rfl hK rfl⟩

/-- With the answers `second`, which are as correct, the assertions of `test_heuristics` on `mp_optimal_` and `num_col_added_sp_` fail. -/
theorem heuristics_not_forced : shown (fitNew second 10 1 (heuristicKinds 10) 3 (-1) X 4 labels (est false) ()) =
      some ((some (), false), [[3], [2], [2]], [[[], [0], [1], [0, 1, 2], [0, 1]], [[0, 1]]]) ∧
    dualsOf (fitNew second 10 1 (heuristicKinds 10) 3 (-1) X 4 labels (est false) ()) = [(0, [1, 1]), (0, [1, 0]), (0, [0, 1])] := by
  refine ⟨by decide +kernel, by decide +kernel⟩

end Verif.Tests.BDR
