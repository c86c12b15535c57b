import Verif.BDR.PriceLemmas

/-!
# Meaning of the restricted master; the heuristic; the clause enumeration
-/

set_option linter.unusedSectionVars false
set_option linter.unusedSimpArgs false

namespace Verif.BDR

open MP Spec

/-! ## Master -/

section
variable {s : Master} {K : List Clause}

theorem Inv.varsLen (h : Inv s K) : s.solver.vars.length = (posM s.X.rows s.y).length + K.length := by
  rw [h.vars, List.length_replicate]

theorem Inv.feasibleLP (h : Inv s K) (hb : Binary s.X.rows s.y) (a : ℕ → ℚ) :
    s.solver.FeasibleLP a ↔
      Feasible s.X.rows s.y s.C K (fun i => a i) (fun j => a ((pos s.X.rows s.y).length + j)) := by
  have hp := posM_eq hb
  have hvl := h.varsLen
  have hv := h.vars
  have hcl := h.consLen
  have h0 := h.cons0
  have hS := h.consS
  rw [hp] at hvl hv hcl h0 hS
  set n := (pos s.X.rows s.y).length with hn
  have hcomp : activity (n + K.length) (colFn n (fun _ => 0) K (fun k => (k.length : ℚ) + 1)) a =
      complexity K (fun j => a (n + j)) := by
    rw [sum_colFn]
    unfold complexity
    simp only [zero_mul, Finset.sum_const_zero, zero_add]
    apply Finset.sum_congr rfl
    intro j _
    ring
  have hsat : ∀ i r, (pos s.X.rows s.y)[i]? = some r → activity (n + K.length) (colFn n (fun v => if v = i then 1 else 0) K
      (fun k => if Sat r k then 1 else 0)) a = a i + covered K (fun j => a (n + j)) r := by
    intro i r hi
    have hin : i < n := (List.getElem?_eq_some_iff.1 hi).1
    rw [sum_colFn]
    congr 1
    · rw [Finset.sum_eq_single i]
      · simp
      · intro b _ hbi; simp [hbi]
      · intro hni; exact absurd (Finset.mem_range.2 hin) hni
    · unfold covered
      apply Finset.sum_congr rfl
      intro j _
      split <;> simp
  have hnn : ∀ v < n + K.length, s.solver.vars[v]? = some nonnegInt := by
    intro v hv'
    rw [hv, List.getElem?_replicate, if_pos hv']
  constructor
  · rintro ⟨h1, h2⟩
    have hpos : ∀ v < n + K.length, 0 ≤ a v := by
      intro v hv'
      have := h1 v _ (hnn v hv')
      rwa [show nonnegInt.lb = some 0 from rfl, show nonnegInt.ub = none from rfl, inBounds_nonneg] at this
    refine ⟨fun i hi => hpos i (by omega), fun j hj => hpos _ (by omega), ?_, ?_⟩
    · intro i r hi
      have := h2 (i + 1) _ (hS i r hi)
      rw [hvl, hsat i r hi, inBounds_ge] at this
      exact this
    · have := h2 0 _ h0
      rw [hvl, hcomp, inBounds_le] at this
      exact this
  · rintro ⟨h1, h2, h3, h4⟩
    refine ⟨?_, ?_⟩
    · intro v w hv'
      rw [hv, List.getElem?_replicate] at hv'
      split at hv'
      · rename_i hlt
        cases hv'
        rw [show nonnegInt.lb = some 0 from rfl, show nonnegInt.ub = none from rfl, inBounds_nonneg]
        by_cases hvn : v < n
        · exact h1 v hvn
        · have := h2 (v - n) (by omega)
          rwa [show n + (v - n) = v by omega] at this
      · cases hv'
    · intro c k hk
      rw [hvl]
      cases c with
      | zero =>
        rw [h0] at hk
        cases hk
        simp only
        rw [hcomp, inBounds_le]
        exact h4
      | succ i =>
        have hi : i < n := by
          have := (List.getElem?_eq_some_iff.1 hk).1
          omega
        have hr : (pos s.X.rows s.y)[i]? = some (pos s.X.rows s.y)[i] := List.getElem?_eq_getElem hi
        rw [hS i _ hr] at hk
        cases hk
        simp only
        rw [hsat i _ hr, inBounds_ge]
        exact h3 i _ hr

theorem Inv.value (h : Inv s K) (hb : Binary s.X.rows s.y) (a : ℕ → ℚ) :
    s.solver.value a = objective s.X.rows s.y s.p K (fun i => a i) (fun j => a ((pos s.X.rows s.y).length + j)) := by
  have hp := posM_eq hb
  have hvl := h.varsLen
  have ho := h.obj
  rw [hp] at hvl ho
  rw [negM_eq hb] at ho
  unfold Model.value objective
  rw [hvl, ho, h.offset, sum_colFn, add_zero, Finset.mul_sum]

/-- All variables are integer. -/
theorem Inv.integral (h : Inv s K) (a : ℕ → ℚ) :
    (∀ (i : ℕ) (v : Var), s.solver.vars[i]? = some v → v.int = true → ∃ z : ℤ, a i = z) ↔
      ∀ i < (posM s.X.rows s.y).length + K.length, ∃ z : ℤ, a i = z := by
  constructor
  · intro h1 i hi
    exact h1 i nonnegInt (by rw [h.vars, List.getElem?_replicate, if_pos hi]) rfl
  · intro h1 i v hv _
    have := (List.getElem?_eq_some_iff.1 hv).1
    rw [h.varsLen] at this
    exact h1 i this

/-- Reduced cost of the clause variables in the solver's model. -/
theorem Inv.reducedCost (h : Inv s K) (d : ℕ → ℚ) (j : ℕ) (k : Clause) (hj : K[j]? = some k) :
    s.solver.reducedCost d ((posM s.X.rows s.y).length + j) =
      (numSat (negM s.X.rows s.y) k : ℚ) -
        (∑ i ∈ Finset.range (posM s.X.rows s.y).length, if Sat ((posM s.X.rows s.y).getD i []) k then d (i + 1) else 0) -
        d 0 * (1 + (k.length : ℚ)) := by
  unfold Model.reducedCost
  set n := (posM s.X.rows s.y).length with hn
  rw [h.consLen, ← hn, Finset.sum_range_succ', h.cons0, h.obj]
  have e : ∀ (base : ℕ → ℚ) (g : Clause → ℚ), colFn n base K g (n + j) = g k := by
    intro base g
    simp [colFn, hj]
  have e2 : ∑ c ∈ Finset.range n, d (c + 1) * ((s.solver.cons[c + 1]?).map (fun k => k.coeff (n + j))).getD 0 =
      ∑ i ∈ Finset.range n, if Sat ((posM s.X.rows s.y).getD i []) k then d (i + 1) else 0 := by
    apply Finset.sum_congr rfl
    intro i hi
    have hi' := Finset.mem_range.1 hi
    have hr : (posM s.X.rows s.y)[i]? = some (posM s.X.rows s.y)[i] := List.getElem?_eq_getElem hi'
    rw [h.consS i _ hr, List.getD_eq_getElem?_getD, hr]
    simp only [Option.map_some, Option.getD_some, ← hn, e]
    split <;> simp
  rw [e2]
  simp only [Option.map_some, Option.getD_some, ← hn, e]
  ring

/-- Reduced cost of the slack variables in the solver's model. -/
theorem Inv.reducedCost_xi (h : Inv s K) (d : ℕ → ℚ) (i : ℕ) (hi : i < (posM s.X.rows s.y).length) :
    s.solver.reducedCost d i = s.p - d (i + 1) := by
  unfold Model.reducedCost
  set n := (posM s.X.rows s.y).length with hn
  rw [h.consLen, ← hn, Finset.sum_range_succ', h.cons0, h.obj]
  have e : ∀ (base : ℕ → ℚ) (g : Clause → ℚ), colFn n base K g i = base i := by
    intro base g
    simp [colFn, hi]
  have e2 : ∑ c ∈ Finset.range n, d (c + 1) * ((s.solver.cons[c + 1]?).map (fun k => k.coeff i)).getD 0 = d (i + 1) := by
    rw [Finset.sum_eq_single i]
    · have hr : (posM s.X.rows s.y)[i]? = some (posM s.X.rows s.y)[i] := List.getElem?_eq_getElem hi
      rw [h.consS i _ hr]
      simp only [Option.map_some, Option.getD_some, ← hn, e]
      simp
    · intro c hc hci
      have hr : (posM s.X.rows s.y)[c]? = some ((posM s.X.rows s.y)[c]'(Finset.mem_range.1 hc)) := List.getElem?_eq_getElem (Finset.mem_range.1 hc)
      rw [h.consS c _ hr]
      simp only [Option.map_some, Option.getD_some, ← hn, e]
      rw [if_neg (Ne.symm hci), mul_zero]
    · intro hni; exact absurd (Finset.mem_range.2 hi) hni
  rw [e2]
  simp only [Option.map_some, Option.getD_some, ← hn, e]
  ring

theorem Inv.dualValue (h : Inv s K) (d : ℕ → ℚ) :
    s.solver.dualValue d = ∑ i ∈ Finset.range (posM s.X.rows s.y).length, d (i + 1) + d 0 * s.C := by
  unfold Model.dualValue
  rw [h.consLen, Finset.sum_range_succ', h.cons0, h.offset]
  have e2 : ∑ c ∈ Finset.range (posM s.X.rows s.y).length, d (c + 1) * ((s.solver.cons[c + 1]?).map Cons.rhs).getD 0 =
      ∑ i ∈ Finset.range (posM s.X.rows s.y).length, d (i + 1) := by
    apply Finset.sum_congr rfl
    intro i hi
    have hr : (posM s.X.rows s.y)[i]? = some ((posM s.X.rows s.y)[i]'(Finset.mem_range.1 hi)) := List.getElem?_eq_getElem (Finset.mem_range.1 hi)
    rw [h.consS i _ hr]
    simp [Cons.rhs]
  rw [e2]
  simp [Cons.rhs]

/-- The duals handed out by `solve_rmp`. -/
theorem Inv.solveRmp (h : Inv s K) (ans : Answer) :
    s.solveRmp ans = .ok (|ans.duals 0|, (List.range (posM s.X.rows s.y).length).map (fun i => ans.duals (i + 1))) := by
  unfold Master.solveRmp
  rw [if_neg (by rw [h.gen]; simp), h.consLen, h.comp, h.sat]
  simp only [Nat.add_sub_cancel]
  congr 2
  apply List.map_congr_left
  intro i hi
  have := List.mem_range.1 hi
  congr 1
  rw [List.getD_eq_getElem?_getD, List.getElem?_range' this]
  simp; omega

theorem lookup_zip_range' (n : ℕ) : ∀ (b : ℕ) (K : List Clause) (j : ℕ), K.length = n →
    ((List.range' b n).zip K).lookup (b + j) = K[j]? := by
  induction n with
  | zero => intro b K j h; simp at h; subst h; simp
  | succ n ih =>
    intro b K j h
    cases K with
    | nil => simp at h
    | cons k K =>
      simp only [List.length_cons, Nat.add_right_cancel_iff] at h
      rw [List.range'_succ, List.zip_cons_cons]
      cases j with
      | zero => simp [List.lookup]
      | succ j =>
        rw [List.lookup_cons]
        have : (b + (j + 1) == b) = false := by simp
        rw [this]
        simp only [List.getElem?_cons_succ]
        rw [show b + (j + 1) = b + 1 + j by omega]
        exact ih (b + 1) K j h

theorem Inv.explanation (h : Inv s K) (solve : Model → Answer) (hst : (solve s.solver).status ≠ .other) :
    ∃ s', s.solveIp solve = (.ok true, s') ∧ Inv s' K ∧ s'.solver = s.solver ∧ s'.X = s.X ∧ s'.y = s.y ∧ s'.C = s.C ∧ s'.p = s.p ∧
      s'.explanation = ((List.range K.length).filter
        (fun j => (solve s.solver).values ((posM s.X.rows s.y).length + j) > 0)).map (fun j => K.getD j []) := by
  refine ⟨{ s with explanation := ((List.range K.length).filter
        (fun j => (solve s.solver).values ((posM s.X.rows s.y).length + j) > 0)).map (fun j => K.getD j []) }, ?_, ⟨h.gen, h.len, h.vars, h.consLen, h.cons0, h.consS, h.obj, h.offset, h.max, h.cvars, h.xi, h.sat, h.comp, h.dict, h.nodup⟩,
    rfl, rfl, rfl, rfl, rfl, rfl⟩
  unfold Master.solveIp
  rw [if_neg (by rw [h.gen]; simp)]
  simp only
  rw [if_neg hst, if_neg (by rw [h.varsLen, h.xi, h.cvars]; simp)]
  rw [h.varsLen, h.xi, h.cvars]
  simp only [List.length_range, Nat.add_sub_cancel_left]
  refine Prod.ext rfl ?_
  simp only
  congr 1
  apply List.map_congr_left
  intro j hj
  have hj' : j < K.length := List.mem_range.1 (List.mem_filter.1 hj).1
  unfold dictGet
  have e : (List.range' (posM s.X.rows s.y).length K.length).getD j 0 = (posM s.X.rows s.y).length + j := by
    rw [List.getD_eq_getElem?_getD, List.getElem?_range' hj']
    simp
  rw [e, h.dict, lookup_zip_range' K.length _ K j rfl, List.getD_eq_getElem?_getD]

theorem Inv.explanation_other (h : Inv s K) (solve : Model → Answer) (hst : (solve s.solver).status = .other) :
    s.solveIp solve = (.error .assertionError, { s with explanation := [] }) := by
  unfold Master.solveIp
  rw [if_neg (by rw [h.gen]; simp)]
  simp only
  rw [if_pos hst]

end

/-! ## Heuristic -/

theorem heuristicCost_eq (cs : List ℚ) (k : Clause) : ∀ (rows : List (List ℚ)) (y : List ℕ) (n : ℕ) (c : ℚ),
    y.length = rows.length →
    heuristicCost cs k (rows.zip y) (c, n) =
      c + ∑ i ∈ Finset.range y.length, ((deltaCoeffs cs y n)[i]?).getD 0 * ind k (rows.getD i []) := by
  intro rows
  induction rows with
  | nil => intro y n c h; simp at h; subst h; simp [heuristicCost]
  | cons r rows ih =>
    intro y n c h
    cases y with
    | nil => simp at h
    | cons t y =>
      simp only [List.length_cons, Nat.add_right_cancel_iff] at h
      rw [List.length_cons, Finset.sum_range_succ', List.zip_cons_cons]
      unfold heuristicCost
      simp only [satisfiesClause_eq]
      by_cases ht : t = 1
      · have e : deltaCoeffs cs (t :: y) n = (1 * -(cs.getD n 0)) :: deltaCoeffs cs y (n + 1) := by simp [deltaCoeffs, ht]
        rw [e]
        simp only [ht, if_true, List.getElem?_cons_succ, List.getD_cons_succ, List.getElem?_cons_zero, List.getD_cons_zero,
          Option.getD_some, Nat.add_sub_cancel]
        by_cases hs : Sat r k
        · simp only [hs, if_true, one_ne_zero, if_false, ind]
          rw [ih y (n + 1) _ h]
          simp only [ind]
          ring
        · simp only [hs, if_false, if_true, ind]
          rw [ih y (n + 1) _ h]
          simp only [ind]
          ring
      · have e : deltaCoeffs cs (t :: y) n = 1 :: deltaCoeffs cs y n := by simp [deltaCoeffs, ht]
        rw [e]
        simp only [ht, if_false, List.getElem?_cons_succ, List.getD_cons_succ, List.getElem?_cons_zero, List.getD_cons_zero,
          Option.getD_some]
        by_cases hs : Sat r k
        · simp only [hs, if_true, one_ne_zero, if_false, ind]
          rw [ih y n _ h]
          simp only [ind]
          ring
        · simp only [hs, if_false, if_true, ind]
          rw [ih y n _ h]
          simp only [ind]
          ring

theorem heuristicCost_price {X : Data} {y : List ℕ} (hl : y.length = X.rows.length) (cc : ℚ) (cs : List ℚ) (k : Clause) :
    heuristicCost cs k (X.rows.zip y) (cc * (1 + k.length), 0) = priceCost X.rows y cc cs k := by
  rw [heuristicCost_eq _ _ _ _ _ _ hl, delta_ind hl]

theorem mem_combinations : ∀ (l : List ℕ) (k : ℕ) (c : List ℕ), c ∈ combinations k l ↔ c.Sublist l ∧ c.length = k := by
  intro l
  induction l with
  | nil =>
    intro k c
    cases k with
    | zero => simp [combinations]
    | succ k =>
      simp only [combinations, List.not_mem_nil, false_iff, not_and, List.sublist_nil]
      rintro rfl
      simp
  | cons x l ih =>
    intro k c
    cases k with
    | zero => 
      simp only [combinations, List.mem_singleton]
      constructor
      · rintro rfl; simp
      · rintro ⟨_, h⟩; exact List.length_eq_zero_iff.1 h
    | succ k =>
      simp only [combinations, List.mem_append, List.mem_map, ih]
      constructor
      · rintro (⟨c', ⟨h1, h2⟩, rfl⟩ | ⟨h1, h2⟩)
        · exact ⟨h1.cons_cons x, by simp [h2]⟩
        · exact ⟨h1.cons x, h2⟩
      · rintro ⟨h1, h2⟩
        cases h1 with
        | cons _ h => exact Or.inr ⟨h, h2⟩
        | cons_cons _ h => exact Or.inl ⟨_, ⟨h, by simpa using h2⟩, rfl⟩

/-- Order of the generated clauses: shorter first, then lexicographically. -/
def Before (a b : Clause) : Prop := a.length < b.length ∨ (a.length = b.length ∧ List.Lex (· < ·) a b)

theorem combinations_sorted : ∀ (l : List ℕ) (k : ℕ), l.Pairwise (· < ·) → (combinations k l).Pairwise (List.Lex (· < ·)) := by
  intro l
  induction l with
  | nil => intro k _; cases k <;> simp [combinations]
  | cons x l ih =>
    intro k h
    cases k with
    | zero => simp [combinations]
    | succ k =>
      simp only [combinations]
      rw [List.pairwise_cons] at h
      rw [List.pairwise_append]
      refine ⟨?_, ih _ h.2, ?_⟩
      · rw [List.pairwise_map]
        exact (ih k h.2).imp (fun hab => List.Lex.cons hab)
      · intro a ha b hb
        obtain ⟨a', -, rfl⟩ := List.mem_map.1 ha
        obtain ⟨hs, hl⟩ := (mem_combinations _ _ _).1 hb
        cases b with
        | nil => simp at hl
        | cons z b => exact List.Lex.rel (h.1 z (hs.subset (by simp)))

theorem proper_iff_sublist (n : ℕ) (k : Clause) : Proper n k ↔ k.Sublist (List.range n) := by
  constructor
  · intro h
    rw [proper_eq_filter h]
    exact List.filter_sublist
  · intro h
    exact ⟨List.pairwise_lt_range.sublist h, fun j hj => List.mem_range.1 (h.subset hj)⟩

theorem mem_heuristic (K : ℕ) (X : Data) (P : Clause → Bool) (c : Clause) :
    c ∈ (List.range K).flatMap (fun k => (combinations (k + 1) (List.range X.nFeat)).filter P) ↔
      Proper X.nFeat c ∧ 1 ≤ c.length ∧ c.length ≤ K ∧ P c = true := by
  simp only [List.mem_flatMap, List.mem_range, List.mem_filter, mem_combinations, proper_iff_sublist]
  constructor
  · rintro ⟨k, hk, ⟨h1, h2⟩, h3⟩
    exact ⟨h1, by omega, by omega, h3⟩
  · rintro ⟨h1, h2, h3, h4⟩
    exact ⟨c.length - 1, by omega, ⟨h1, by omega⟩, h4⟩

theorem heuristic_sorted (K : ℕ) (X : Data) (P : Clause → Bool) :
    ((List.range K).flatMap (fun k => (combinations (k + 1) (List.range X.nFeat)).filter P)).Pairwise Before := by
  rw [List.pairwise_flatMap]
  constructor
  · intro k _
    have h1 := (combinations_sorted (List.range X.nFeat) (k + 1) List.pairwise_lt_range).filter P
    have h2 : ∀ c ∈ (combinations (k + 1) (List.range X.nFeat)).filter P, c.length = k + 1 := by
      intro c hc
      exact ((mem_combinations _ _ _).1 (List.mem_filter.1 hc).1).2
    exact h1.imp_of_mem (fun ha hb hab => Or.inr ⟨by rw [h2 _ ha, h2 _ hb], hab⟩)
  · refine List.pairwise_lt_range.imp ?_
    intro i j hij a ha b hb
    left
    have h1 := ((mem_combinations _ _ _).1 (List.mem_filter.1 ha).1).2
    have h2 := ((mem_combinations _ _ _).1 (List.mem_filter.1 hb).1).2
    omega

/-! ## Clause enumeration -/

theorem mem_lexicographicClause (i j : ℕ) : j ∈ lexicographicClause i ↔ i.testBit j = true := by
  unfold lexicographicClause
  simp only [List.mem_filter, List.mem_range]
  refine ⟨fun h => h.2, fun h => ⟨?_, h⟩⟩
  by_contra hc
  have : Nat.size i ≤ j := by omega
  have h2 : i < 2 ^ j := lt_of_lt_of_le (Nat.lt_size_self i) (Nat.pow_le_pow_right (by norm_num) this)
  rw [Nat.testBit_lt_two_pow h2] at h
  cases h

theorem lexicographicClause_sorted (i : ℕ) : (lexicographicClause i).Pairwise (· < ·) :=
  List.Pairwise.filter _ List.pairwise_lt_range

/-- The index of a clause. -/
def clauseIndex (k : Clause) : ℕ := k.foldr (fun j acc => 2 ^ j ||| acc) 0

theorem testBit_clauseIndex (k : Clause) (j : ℕ) : (clauseIndex k).testBit j = decide (j ∈ k) := by
  induction k with
  | nil => simp [clauseIndex]
  | cons x k ih =>
    have : clauseIndex (x :: k) = 2 ^ x ||| clauseIndex k := rfl
    rw [this, Nat.testBit_or, ih, Nat.testBit_two_pow]
    by_cases h1 : x = j
    · simp [h1]
    · have h2 : ¬ j = x := fun e => h1 e.symm
      simp [h1, h2]

theorem sorted_ext {a b : List ℕ} (ha : a.Pairwise (· < ·)) (hb : b.Pairwise (· < ·)) (h : ∀ j, j ∈ a ↔ j ∈ b) : a = b := by
  have hperm : a.Perm b := by
    rw [List.perm_ext_iff_of_nodup (ha.imp (fun hab => Nat.ne_of_lt hab)) (hb.imp (fun hab => Nat.ne_of_lt hab))]
    exact h
  exact hperm.eq_of_pairwise (fun a b _ _ h1 h2 => absurd h1 (Nat.lt_asymm h2)) ha hb

end Verif.BDR
