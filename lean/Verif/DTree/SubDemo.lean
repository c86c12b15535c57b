import Verif.DTree.SubProps
import Verif.DTree.Demo

/-!
# Concrete instances of the pricing theorems of the decision tree classifier
-/

set_option linter.unusedSectionVars false
set_option linter.unusedSimpArgs false

namespace Verif.DTree.Demo

open MP Spec

/-- The sum of the positive objective coefficients bounds the value of every point with values between 0 and 1. -/
theorem value_le (m : Model) (hb : ∀ v ∈ m.vars, v.lb = some 0 ∧ v.ub = some 1) {a : ℕ → ℚ} (hf : m.FeasibleLP a) :
    m.value a ≤ ((List.range m.vars.length).map (fun v => max (m.obj v) 0)).sum + m.offset := by
  unfold Model.value
  rw [← act_eq]
  unfold act
  have : ((List.range m.vars.length).map (fun i => m.obj i * a i)).sum ≤ ((List.range m.vars.length).map (fun v => max (m.obj v) 0)).sum := by
    refine sum_le_sum' _ _ _ ?_
    intro i hi
    rw [List.mem_range] at hi
    have h1 := hf.1 i _ (List.getElem?_eq_getElem hi)
    obtain ⟨e1, e2⟩ := hb _ (List.getElem_mem hi)
    rw [e1, e2] at h1
    obtain ⟨h2, h3⟩ := h1
    have h2 : 0 ≤ a i := by simpa using h2
    have h3 : a i ≤ 1 := by simpa using h3
    rcases le_total (m.obj i) 0 with h | h
    · rw [max_eq_right h]; nlinarith
    · rw [max_eq_left h]; nlinarith
  linarith

/-- Rows 1 and 3 are removed from the pricing problem, row 0 stands for two rows. -/
def sRows : List Row := [⟨[], [], [], [], [], false, false, 2⟩, ⟨[], [], [], [], [], false, true, 1⟩, ⟨[], [], [], [], [], false, false, 1⟩,
  ⟨[], [], [], [], [], false, true, 1⟩]

/-- Pricing for leaf 0 of the tree. -/
def sConf (k : Kind) : SubConf := ⟨k, createLeaf 0 2, nodes, splits, [1, 0], 2, X, [0, 1, 0, 1], some sRows⟩

theorem sOk (k : Kind) : SubOk 2 (sConf k) where
  pos := by norm_num
  depth := rfl
  leaf_lt := by show (0 : ℕ) < 4; norm_num
  leaf := rfl
  nodes := rfl
  cand_nodup := by
    show ∀ n ∈ nodes, n.candidateSplits.Nodup
    decide +kernel
  targets := by
    show ([1, 0] : List ℕ).Perm [0, 1]
    exact List.Perm.swap 0 1 []
  y_lt := by
    intro i hi
    show ([0, 1, 0, 1] : List ℕ).getD i 0 < 2
    have hi : i < 4 := hi
    match i, hi with
    | 0, _ => decide
    | 1, _ => decide
    | 2, _ => decide
    | 3, _ => decide

/-- Duals with `x` for the leaf, one cut row. -/
def sDuals (x : ℚ) (new : List (List Bool)) : Duals := ⟨[x, 0, 0, 0], [0, 0, -1 / 4, 0], fun _ _ _ => none, [-1 / 2], new⟩

def sCut : List Bool := [true, false, false, true, false, true, true]

def sState (k : Kind) (x : ℚ) : SubSt := ((sConf k).update (sDuals x [sCut]) SubSt.new).2

theorem sUpdate (k : Kind) (x : ℚ) : (sConf k).update (sDuals x [sCut]) SubSt.new = (.ok (), sState k x) := by
  refine Prod.ext ?_ rfl
  cases k <;> rfl

theorem sReached (k : Kind) (x : ℚ) : SubReached (sConf k) [sCut] (sState k x) :=
  SubReached.update (cuts := []) .new (sDuals x [sCut]) rfl (sUpdate k x)

/-- The point of the path with split 0 at the root and split 3 below it. -/
def sBest (st : SubSt) (v : ℕ) : ℚ :=
  if v ∈ [SV.z 0, .y 0, .z 2, .y 2, .yc 0, .u 0 0, .u 1 3, .w 0].map st.idx then 1 else 0

theorem sBest_mip (x : ℚ) (hx : x = 1 ∨ x = 4) : (sState .mip x).m.Feasible (sBest (sState .mip x)) ∧
    (∀ v ∈ (sState .mip x).m.vars, v.lb = some 0 ∧ v.ub = some 1) ∧
    ((List.range (sState .mip x).m.vars.length).map (fun v => max ((sState .mip x).m.obj v) 0)).sum = 15 / 4 ∧
    act (sState .mip x).m.vars.length (sState .mip x).m.obj (sBest (sState .mip x)) = 15 / 4 ∧ (sState .mip x).m.offset = -x := by
  rcases hx with rfl | rfl
  · exact ⟨check_sound _ _ (by decide +kernel) (by decide +kernel), by decide +kernel, by decide +kernel, by decide +kernel, by decide +kernel⟩
  · exact ⟨check_sound _ _ (by decide +kernel) (by decide +kernel), by decide +kernel, by decide +kernel, by decide +kernel, by decide +kernel⟩

def sAns (x : ℚ) : Answer := ⟨.optimal, sBest (sState .mip x), fun _ => 0, 15 / 4 - x⟩

theorem sAns_optimal (x : ℚ) (hx : x = 1 ∨ x = 4) : IsOptimal (sState .mip x).m (sAns x) := by
  obtain ⟨h1, h2, h3, h4, h5⟩ := sBest_mip x hx
  have hv : (sState .mip x).m.value (sBest (sState .mip x)) = 15 / 4 - x := by
    unfold Model.value
    rw [← act_eq, h4, h5]; ring
  refine ⟨⟨h1, hv.symm⟩, ?_⟩
  intro a ha
  have := value_le _ h2 ha.toFeasibleLP
  rw [h3, h5] at this
  have hm : (sState .mip x).m.maximize = true := by rcases hx with rfl | rfl <;> rfl
  unfold Model.better
  rw [if_pos hm]
  show _ ≤ 15 / 4 - x
  linarith

/-- C46: rows 0 (weight 2) and 2 follow the path and have its class; the cost 3 is attained. -/
example : ((sConf .mip).pathOf (sState .mip 1) (sBest (sState .mip 1)) (sConf .mip).leafNodes
      ((sConf .mip).costOf (sState .mip 1) (sBest (sState .mip 1)))).cost = 3 ∧
    ((sConf .mip).pathOf (sState .mip 1) (sBest (sState .mip 1)) (sConf .mip).leafNodes
      ((sConf .mip).costOf (sState .mip 1) (sBest (sState .mip 1)))).target = 0 := by decide +kernel

example := C46_points (sOk .mip) (sReached .mip 1) (by decide +kernel) (sBest_mip 1 (.inl rfl)).1 (List.Perm.refl _) rfl

example := C46_cost (sOk .mip) (sReached .mip 1) (by decide +kernel) (sBest_mip 1 (.inl rfl)).1 (List.Perm.refl _) rfl rfl

/-- C47: with leaf dual 1 the path is returned. -/
example : (sConf .mip).generateMip (sState .mip 1) (sAns 1) = [⟨0, [0, 1], [0, 3], 3, 0, 0, false⟩] := by decide +kernel

example : Spec.Improving 2 (sConf .mip) [sCut] (sDuals 1 [sCut]) ⟨0, [0, 1], [0, 3], 3, 0, 0, false⟩ :=
  C47_mip_sound (sOk .mip) (by decide) (cuts := []) .new rfl (sUpdate .mip 1) (fun _ => (sAns_optimal 1 (.inl rfl)).1) _ (by decide +kernel)

/-- C48 for the exact solver: with leaf dual 4 no path is returned. -/
example : (sConf .mip).generateMip (sState .mip 4) (sAns 4) = [] := by decide +kernel

theorem sPath : CandPath 2 (sConf .mip) ⟨0, [0, 1], [0, 3], 3, 0, 0, false⟩ :=
  ⟨by decide +kernel, rfl, by unfold UsesCand; decide +kernel⟩

example : redCost 2 (sConf .mip) [sCut] (sDuals 4 [sCut]) ⟨0, [0, 1], [0, 3], 0, 0, 0, false⟩ ≤ 1 / 1000000 :=
  C48_mip_exact (sOk .mip) rfl (cuts := []) .new rfl (sUpdate .mip 4) rfl (sAns_optimal 4 (.inr rfl)) (by decide +kernel)
    (q := ⟨0, [0, 1], [0, 3], 0, 0, 0, false⟩) (t := 0) ⟨by decide +kernel, rfl, by unfold UsesCand; decide +kernel⟩ (by decide +kernel)
    (by
      unfold hitsOf keptSum
      refine List.sum_nonneg ?_
      intro x hx
      obtain ⟨i, _, rfl⟩ := List.mem_map.1 hx
      dsimp only
      split_ifs
      · exact rowWeight_nonneg _ _
      · exact le_rfl)

/-! ## `DTreeSubProblemSat` -/

/-- A solver that passes the best point to the callback. -/
def sSols (m : Model) : List (ℕ → ℚ) := [fun v => if v ∈ [SV.z 0, .y 0, .z 2, .y 2, .yc 0, .u 0 0, .u 1 3, .w 0].map (sState .sat 1).idx ∧ v < m.vars.length then 1 else 0]

def sSat (x : ℚ) : SubSt := ((sConf .sat).generateSat (sDuals x []) sSols (sState .sat 1)).2

def sBestS (v : ℕ) : ℚ := if v ∈ [SV.z 0, .y 0, .z 2, .y 2, .yc 0, .u 0 0, .u 1 3, .w 0].map (sState .sat 1).idx ∧ v < 11 then 1 else 0

theorem sSat_facts (x : ℚ) (hx : x = 1 ∨ x = 4) : (sSat x).m.Feasible sBestS ∧
    (∀ v ∈ (sSat x).m.vars, v.lb = some 0 ∧ v.ub = some 1) ∧
    ((List.range (sSat x).m.vars.length).map (fun v => max ((sSat x).m.obj v) 0)).sum = 375000 ∧
    act (sSat x).m.vars.length (sSat x).m.obj sBestS = 375000 ∧ (sSat x).m.offset = -x ∧ (sSat x).m.vars.length = 11 := by
  rcases hx with rfl | rfl
  · exact ⟨check_sound _ _ (by decide +kernel) (by decide +kernel), by decide +kernel, by decide +kernel, by decide +kernel, by decide +kernel,
      by decide +kernel⟩
  · exact ⟨check_sound _ _ (by decide +kernel) (by decide +kernel), by decide +kernel, by decide +kernel, by decide +kernel, by decide +kernel,
      by decide +kernel⟩

theorem sSat_best (x : ℚ) (hx : x = 1 ∨ x = 4) : sBestS ∈ sSols (sSat x).m := by
  obtain ⟨-, -, -, -, -, h⟩ := sSat_facts x hx
  unfold sSols
  rw [h]
  exact List.mem_singleton.2 rfl

theorem sSat_opt (x : ℚ) (hx : x = 1 ∨ x = 4) (a : ℕ → ℚ) (ha : (sSat x).m.Feasible a) : (sSat x).m.value a ≤ (sSat x).m.value sBestS := by
  obtain ⟨h1, h2, h3, h4, h5, _⟩ := sSat_facts x hx
  have := value_le _ h2 ha.toFeasibleLP
  rw [h3] at this
  unfold Model.value at this ⊢
  rw [← act_eq _ _ sBestS, h4]
  exact this

theorem sSat_gen (x : ℚ) (hx : x = 1 ∨ x = 4) : (sConf .sat).generateSat (sDuals x []) sSols (sState .sat 1) =
    (.ok (if x = 1 then [⟨0, [1, 0], [3, 0], 3, 0, 0, false⟩] else []), sSat x) := by
  refine Prod.ext ?_ rfl
  rcases hx with rfl | rfl
  · decide +kernel
  · decide +kernel

example : Spec.Improving 2 (sConf .sat) [sCut] (sDuals 1 []) ⟨0, [1, 0], [3, 0], 3, 0, 0, false⟩ ∧
    ∃ t ∈ (sConf .sat).targets, (⟨0, [1, 0], [3, 0], 3, 0, 0, false⟩ : Path).target = (t : ℤ) :=
  C47_sat_sound (sOk .sat) rfl (sReached .sat 1) rfl (sSat_gen 1 (.inl rfl)) (by
    intro a ha
    have hl := (sSat_facts 1 (.inl rfl)).2.2.2.2.2
    unfold sSols at ha
    rw [hl] at ha
    rw [List.mem_singleton.1 ha]
    exact (sSat_facts 1 (.inl rfl)).1) _ (by simp)

/-- C48: with leaf dual 4 nothing is returned; the tolerance is `1e-6 + 9e-5`. -/
example : redCost 2 (sConf .sat) [sCut] (sDuals 4 []) ⟨0, [0, 1], [1, 3], 0, 0, 0, false⟩ ≤
    1 / 1000000 + (numTerms 2 (sConf .sat) [sCut] : ℚ) / 100000 :=
  C48_rounding (sOk .sat) rfl (sReached .sat 1) rfl (sSat_gen 4 (.inr rfl)) (sSat_best 4 (.inr rfl)) (sSat_facts 4 (.inr rfl)).1
    (sSat_opt 4 (.inr rfl)) (t := 1) ⟨by decide +kernel, rfl, by unfold UsesCand; decide +kernel⟩ (by decide +kernel)
    (by
      unfold hitsOf keptSum
      refine List.sum_nonneg ?_
      intro x hx
      obtain ⟨i, _, rfl⟩ := List.mem_map.1 hx
      dsimp only
      split_ifs
      · exact rowWeight_nonneg _ _
      · exact le_rfl)

example : numTerms 2 (sConf .sat) [sCut] = 9 := by decide +kernel

end Verif.DTree.Demo
