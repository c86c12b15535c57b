import Verif.DTree.HeurDemo

/-!
# A split is selected at most once in a path (C80)

The documentation of `_dtree_classifier.py` (lines 97 and 111) states the constraint (5) of the pricing problem: a split is only selected once in
a path. The code that adds it is commented out
(`_dtree_classifier.py:1255-1265`, `2156-2166`) or missing (`DTreeSubProblemSat`), so the claim is false of the exact pricing problems; the heuristic respects it.
-/

set_option linter.unusedSectionVars false
set_option linter.unusedSimpArgs false

namespace Verif.DTree

open MP Spec

namespace Spec

/-- No split is used at two nodes of the path. -/
def Once (p : Path) : Prop := ∀ n m s, (n, s) ∈ p.pairs → (m, s) ∈ p.pairs → n = m

/-- The full claim for the exact pricing problems: every path that `generate_columns` returns after `update_subproblem` uses every split at
most once. -/
def OncePerPath : Prop :=
  ∀ (d : ℕ) (c : SubConf) (cuts : List (List Bool)) (st st' : SubSt) (D : Duals) (ans : Answer), SubOk d c → c.kind ≠ .sat →
    SubReached c cuts st → D.cut.length = cuts.length + D.newCuts.length → c.update D st = (.ok (), st') → IsOptimal st'.m ans →
    ∀ p ∈ c.generateMip st' ans, Once p

/-- The candidate splits of the nodes above leaf `l` are different. -/
def CandDisjoint (d : ℕ) (nodes : List Node) (l : ℕ) : Prop :=
  ∀ j < d, ∀ k < d, ∀ s, s ∈ cand nodes (anc d l j) → s ∈ cand nodes (anc d l k) → j = k

/-- The path uses split `s` at a node that it leaves to the left and at a node that it leaves to the right. -/
def Conflict (d : ℕ) (p : Path) : Prop :=
  ∃ j < d, ∃ k < d, ∃ s, (anc d p.leafId j, s) ∈ p.pairs ∧ (anc d p.leafId k, s) ∈ p.pairs ∧ goesLeft d p.leafId j = true ∧
    goesLeft d p.leafId k = false

end Spec

theorem once_of_disjoint {d : ℕ} {nodes : List Node} {p : Path} (h : WFPath d p) (hu : UsesCand nodes p) (hd : CandDisjoint d nodes p.leafId) :
    Once p := by
  intro n m s hn hm
  have key : ∀ {x : ℕ}, (x, s) ∈ p.pairs → ∃ k < d, x = anc d p.leafId k := by
    intro x hx
    have := (List.of_mem_zip hx).1
    rw [h.nodes.mem_iff, List.mem_map] at this
    obtain ⟨k, hk, rfl⟩ := this
    exact ⟨k, List.mem_range.1 hk, rfl⟩
  obtain ⟨j, hj, rfl⟩ := key hn
  obtain ⟨k, hk, rfl⟩ := key hm
  rw [hd j hj k hk s (hu _ hn) (hu _ hm)]

/-- A list of splits without repetition uses every split at most once. -/
theorem once_of_nodup {p : Path} (h : p.splits.Nodup) (hl : p.nodeIds.length = p.splits.length) : Once p := by
  intro n m s hn hm
  obtain ⟨i, hi, hi'⟩ := List.mem_iff_getElem.1 hn
  obtain ⟨j, hj, hj'⟩ := List.mem_iff_getElem.1 hm
  unfold Path.pairs at hi hj hi' hj'
  rw [List.length_zip] at hi hj
  rw [List.getElem_zip, Prod.mk.injEq] at hi' hj'
  have : i = j := (List.Nodup.getElem_inj_iff h).1 (hi'.2.trans hj'.2.symm)
  subst this
  exact hi'.1.symm.trans hj'.1

/-- C80, part: the exact pricing problems (`DTreeSubProblem` and `DTreeSubProblemOld`) respect the claim if no two nodes above the leaf share a
candidate split. Missing: shared candidates (`Verif.DTree.Demo.C80_refuted`). -/
theorem C80_mip_partial {d : ℕ} {c : SubConf} (h : SubOk d c) (hk : c.kind ≠ .sat) {cuts : List (List Bool)} {st st' : SubSt}
    (hr : SubReached c cuts st) {D : Duals} (hD : D.cut.length = cuts.length + D.newCuts.length) (hu : c.update D st = (.ok (), st'))
    {ans : Answer} (ha : ans.status = .optimal ∨ ans.status = .feasible → IsSolution st'.m ans) (hdis : CandDisjoint d c.nodes c.leaf.id) :
    ∀ p ∈ c.generateMip st' ans, Once p := by
  intro p hp
  have hi := C47_mip_sound h hk hr hD hu ha p hp
  exact once_of_disjoint hi.wf hi.cand (by rw [hi.leaf]; exact hdis)

/-- C80, part: the same for `DTreeSubProblemSat`. -/
theorem C80_sat_partial {d : ℕ} {c : SubConf} (h : SubOk d c) (hk : c.kind = .sat) {cuts : List (List Bool)} {st st' : SubSt}
    (hr : SubReached c cuts st) {D : Duals} (hD : D.cut.length = cuts.length) {sols : Model → List (ℕ → ℚ)} {ps : List Path}
    (hgen : c.generateSat D sols st = (.ok ps, st')) (hs : ∀ a ∈ sols st'.m, st'.m.Feasible a) (hdis : CandDisjoint d c.nodes c.leaf.id) :
    ∀ p ∈ ps, Once p := by
  intro p hp
  have hi := (C47_sat_sound h hk hr hD hgen hs p hp).1
  exact once_of_disjoint hi.wf hi.cand (by rw [hi.leaf]; exact hdis)

/-- C80, part: the heuristic always respects the claim. -/
theorem C80_heuristic_partial {d : ℕ} {c : HConf} {cuts : List (List Bool)} {D : Duals} {st : HeurSt} (h : HeurOk d c st.splits cuts D) {dr : Draws}
    (hd : Spec.Draws.Ok dr) {ps : List Path} {st' : HeurSt} (hg : c.generate D dr st = (.ok ps, st')) : ∀ p ∈ ps, Once p := by
  obtain ⟨ps', st'', e, h1, -⟩ := C49_heuristic h hd
  rw [hg, Prod.mk.injEq, Except.ok.injEq] at e
  obtain ⟨rfl, rfl⟩ := e
  intro p hp
  refine once_of_nodup (h1 p hp).different ?_
  rw [(h1 p hp).wf.nodes.length_eq, List.length_map, List.length_range, (h1 p hp).wf.splits]

/-- C80, what happens if a split is used in both directions: no row follows the path, and its weighted number of hits is 0 for every class. -/
theorem C80_conflict_partial {d : ℕ} {c : SubConf} {p : Path} (h : Conflict d p) :
    (∀ left, ¬Follows d left p) ∧ ∀ t, hitsOf d c p t = 0 := by
  have hno : ∀ left, ¬Follows d left p := by
    intro left hf
    obtain ⟨j, hj, k, hk, s, h1, h2, h3, h4⟩ := h
    have e1 := hf j hj s h1
    have e2 := hf k hk s h2
    rw [e1, h3, h4] at e2
    exact Bool.noConfusion e2
  refine ⟨hno, ?_⟩
  intro t
  unfold hitsOf keptSum
  refine List.sum_eq_zero ?_
  intro x hx
  obtain ⟨i, _, rfl⟩ := List.mem_map.1 hx
  exact if_neg (fun hc => hno _ hc.2.1)

namespace Demo

/-! ## The counterexample: one split, candidate of all three nodes, one row -/

def oNodes : List Node := [⟨0, [0], [1], 0, -1, 1, 2, false⟩, ⟨1, [0], [1], 0, 0, 3, 4, false⟩, ⟨2, [0], [1], 0, 0, 5, 6, false⟩]

def oConf : SubConf := ⟨.mip, createLeaf 0 2, oNodes, addRowsToSplits [⟨0, 0, 1/2, false, [], [], [], []⟩] [[0]], [0], 2, [[0]], [0], none⟩

theorem oOk : SubOk 2 oConf where
  pos := by norm_num
  depth := rfl
  leaf_lt := by show (0 : ℕ) < 4; norm_num
  leaf := rfl
  nodes := rfl
  cand_nodup := by
    show ∀ n ∈ oNodes, n.candidateSplits.Nodup
    decide +kernel
  targets := List.Perm.refl _
  y_lt := by
    intro i hi
    show ([0] : List ℕ).getD i 0 < 1
    have hi : i < 1 := hi
    match i, hi with
    | 0, _ => decide

def oDuals : Duals := ⟨[0, 0, 0, 0], [0], fun _ _ _ => none, [], []⟩

def oState : SubSt := (oConf.update oDuals SubSt.new).2

theorem oUpdate : oConf.update oDuals SubSt.new = (.ok (), oState) := by
  refine Prod.ext ?_ rfl
  rfl

def oBest (v : ℕ) : ℚ := if v ∈ [SV.z 0, .y 0, .u 0 0, .u 1 0, .w 0].map oState.idx then 1 else 0

def oAns : Answer := ⟨.optimal, oBest, fun _ => 0, 1⟩

theorem oAns_optimal : IsOptimal oState.m oAns := by
  have h1 : oState.m.Feasible oBest := check_sound _ _ (by decide +kernel) (by decide +kernel)
  have h2 : ∀ v ∈ oState.m.vars, v.lb = some 0 ∧ v.ub = some 1 := by decide +kernel
  have h3 : ((List.range oState.m.vars.length).map (fun v => max (oState.m.obj v) 0)).sum = 1 := by decide +kernel
  have h4 : act oState.m.vars.length oState.m.obj oBest = 1 := by decide +kernel
  have h5 : oState.m.offset = 0 := by decide +kernel
  have hv : oState.m.value oBest = 1 := by
    unfold Model.value
    rw [← act_eq, h4, h5]; ring
  refine ⟨⟨h1, hv.symm⟩, ?_⟩
  intro a ha
  have := value_le _ h2 ha.toFeasibleLP
  rw [h3, h5] at this
  have hm : oState.m.maximize = true := rfl
  unfold Model.better
  rw [if_pos hm]
  show _ ≤ (1 : ℚ)
  linarith

/-- C80 is false: with an optimal answer of the solver, `DTreeSubProblem` returns a path that uses split 0 at the root and below it. -/
theorem C80_refuted : ¬OncePerPath := by
  intro h
  have := h 2 oConf [] SubSt.new oState oDuals oAns oOk (by decide) .new rfl oUpdate oAns_optimal ⟨0, [0, 1], [0, 0], 1, 0, 0, false⟩
    (by decide +kernel) 0 1 0 (by decide +kernel) (by decide +kernel)
  exact absurd this (by decide)

/-- The demo tree of C46 has disjoint candidates, and its returned path satisfies the claim. -/
example : Once ⟨0, [0, 1], [0, 3], 3, 0, 0, false⟩ :=
  C80_mip_partial (sOk .mip) (by decide) (cuts := []) .new rfl (sUpdate .mip 1) (fun _ => (sAns_optimal 1 (.inl rfl)).1)
    (by
      intro j hj k hk s h1 h2
      have hj : j < 2 := hj
      have hk : k < 2 := hk
      have e : ∀ j < 2, ∀ k < 2, ∀ s ∈ cand nodes (anc 2 0 j), s ∈ cand nodes (anc 2 0 k) → j = k := by decide +kernel
      exact e j hj k hk s h1 h2) _ (by decide +kernel)

example : Once ⟨0, [1, 0], [3, 0], 3, 0, 0, false⟩ :=
  C80_sat_partial (sOk .sat) rfl (sReached .sat 1) rfl (sSat_gen 1 (.inl rfl)) (by
    intro a ha
    have hl := (sSat_facts 1 (.inl rfl)).2.2.2.2.2
    unfold sSols at ha
    rw [hl] at ha
    rw [List.mem_singleton.1 ha]
    exact (sSat_facts 1 (.inl rfl)).1) (by
      intro j hj k hk s h1 h2
      have hj : j < 2 := hj
      have hk : k < 2 := hk
      have e : ∀ j < 2, ∀ k < 2, ∀ s ∈ cand nodes (anc 2 0 j), s ∈ cand nodes (anc 2 0 k) → j = k := by decide +kernel
      exact e j hj k hk s h1 h2) _ (by simp)

/-- The three paths that the heuristic finds on the demo tree, see `Verif/DTree/HeurDemo.lean`. -/
example {ps : List Path} {st : HeurSt} (h : hConf.generate (hDuals (1 / 8)) hDraws hSt = (.ok ps, st)) : ∀ p ∈ ps, Once p :=
  C80_heuristic_partial (hOk _) (fun l => List.Perm.refl l) h

/-- The heuristic on the tree of the counterexample: no second split is left for the node below the root, so no path is found. -/
example : (match ((⟨fullLeaves 2, oNodes, [[0]], [0], none⟩ : HConf).generate oDuals hDraws ⟨oConf.splits, 0, 0, 0⟩).1 with
    | .ok ps => ps.length | .error _ => 1) = 0 := by decide +kernel

/-- A conflict: leaf 1 with the same split at both nodes. -/
example : Conflict 2 ⟨1, [0, 1], [0, 0], 0, 0, 0, false⟩ :=
  ⟨0, by decide, 1, by decide, 0, by decide +kernel, by decide +kernel, by decide +kernel, by decide +kernel⟩

end Demo

end Verif.DTree
