import Verif.DTree.HeapLemmas

/-!
# The model with object identity refines the value model (lemmas for C125)
-/

set_option linter.unusedSectionVars false
set_option linter.unusedSimpArgs false

namespace Verif.DTree

open MP Spec Fit
open Fit.Spec

namespace Spec

/-- The arguments are distinct objects, and they exist. -/
structure DistinctObjects (H : HArgs) (h : Heap) : Prop where
  paths : H.paths.Nodup
  splits : H.splits.Nodup
  nodes : H.nodes.Nodup
  rows : ∀ rs, H.dataRows = some rs → rs.Nodup
  path_lt : ∀ a ∈ H.paths, a < h.nextPath
  row_lt : ∀ rs, H.dataRows = some rs → ∀ a ∈ rs, a < h.nextRow

end Spec

/-! ## Nodes -/

theorem nodeAt_core {N N' : List Node} (h : N.map Node.core = N'.map Node.core) (i : ℕ) : (nodeAt N i).core = (nodeAt N' i).core := by
  have e : ∀ l : List Node, (nodeAt l i).core = ((l.map Node.core).getD i Node.none.core) := by
    intro l
    unfold nodeAt
    rw [List.getD_eq_getElem?_getD, List.getD_eq_getElem?_getD, List.getElem?_map]
    cases l[i]? <;> rfl
  rw [e, e, h]

theorem nodeAt_id {N N' : List Node} (h : N.map Node.core = N'.map Node.core) (i : ℕ) :
    (nodeAt N i).id = (nodeAt N' i).id ∧ (nodeAt N i).candidateSplits = (nodeAt N' i).candidateSplits := by
  have := nodeAt_core h i
  unfold Node.core at this
  simp only [Prod.mk.injEq] at this
  exact ⟨this.1, this.2.1⟩

theorem addNsLeaf_nodes {N N' : List Node} (h : N.map Node.core = N'.map Node.core) (paths : List Path) : addNsLeaf N paths = addNsLeaf N' paths := by
  have e : ∀ l, addNsNode N paths l = addNsNode N' paths l := by
    intro l
    funext st n
    unfold addNsNode
    simp only
    rw [(nodeAt_id h n).1, (nodeAt_id h n).2]
  funext st leaf
  unfold addNsLeaf
  rw [e]

theorem colNs_nodes {N N' : List Node} (h : N.map Node.core = N'.map Node.core) (leaves : List Leaf) (s : MS) (p : Path) :
    colNs leaves N s p = colNs leaves N' s p := by
  unfold colNs
  simp only [(nodeAt_id h _).1, (nodeAt_id h _).2]

theorem pickSplits_nodes {N N' : List Node} (h : N.map Node.core = N'.map Node.core) (draw : ℕ → ℕ) :
    ∀ (ns : List ℕ) (k : ℕ) (acc : List ℕ), pickSplits N draw k ns acc = pickSplits N' draw k ns acc
  | [], _, _ => rfl
  | n :: ns, k, acc => by
    unfold pickSplits
    simp only [(nodeAt_id h n).2, pickSplits_nodes h draw ns]

/-! ## The pricing problems -/

/-- Two pricing problems that read the same from their objects. -/
structure ObjCousin (c c' : SubConf) : Prop where
  same : c' = { c with
    nodes := c'.nodes
    splits := c'.splits
    dataRows := c'.dataRows }
  nodes : c.nodes.map Node.core = c'.nodes.map Node.core
  splits : c.splits.map Split.content = c'.splits.map Split.content
  rows : SameRows c.dataRows c'.dataRows

section
variable {c c' : SubConf}

theorem ObjCousin.removed (h : ObjCousin c c') : c'.removed = c.removed := by
  funext i
  unfold SubConf.removed
  rcases h.rows.cases with ⟨e1, e2⟩ | ⟨x, y, e1, e2, h⟩
  · rw [e1, e2]
  · rw [e1, e2]
    exact (rowAt_sp h i).symm

theorem ObjCousin.weight (h : ObjCousin c c') : c'.weight = c.weight := by
  funext i
  unfold SubConf.weight
  rcases h.rows.cases with ⟨e1, e2⟩ | ⟨x, y, e1, e2, h⟩
  · rw [e1, e2]
  · rw [e1, e2]
    have : (rowAt x i).weight = (rowAt y i).weight := rowAt_weight h i
    simp only [this]

theorem ObjCousin.kept (h : ObjCousin c c') : c'.kept = c.kept := by
  have e : c'.X = c.X := by rw [h.same]
  unfold SubConf.kept
  rw [e, h.removed]

theorem ObjCousin.plain (h : ObjCousin c c') : c'.kind = c.kind ∧ c'.leaf = c.leaf ∧ c'.targets = c.targets ∧ c'.y = c.y ∧
    c'.isOld = c.isOld ∧ c'.leafNodes = c.leafNodes ∧ c'.single = c.single ∧ c'.depth = c.depth ∧ c'.X = c.X := by
  rw [h.same]
  exact ⟨rfl, rfl, rfl, rfl, rfl, rfl, rfl, rfl, rfl⟩

theorem ObjCousin.cands (h : ObjCousin c c') : c'.cands = c.cands := by
  funext n
  unfold SubConf.cands
  exact (nodeAt_id h.nodes n).2.symm

theorem ObjCousin.length (h : ObjCousin c c') : c'.nodes.length = c.nodes.length := by
  simpa using (congrArg List.length h.nodes).symm

theorem ObjCousin.rowSat (h : ObjCousin c c') : c'.rowSatisfiesSplit = c.rowSatisfiesSplit := by
  funext i s
  unfold SubConf.rowSatisfiesSplit
  rw [h.plain.2.2.2.2.2.2.2.2, (splitAt_content h.splits s).1, (splitAt_content h.splits s).2]

theorem ObjCousin.follow (h : ObjCousin c c') : c'.follow = c.follow := by
  obtain ⟨f1, f2, f3, f4, f5, f6, f7, f8, f9⟩ := h.plain
  funext left o
  unfold SubConf.follow SubConf.towards
  rw [f2, f6, f8, h.cands]

theorem ObjCousin.setObjective (h : ObjCousin c c') (D : Duals) (st : SubSt) : c'.setObjective D st = c.setObjective D st := by
  obtain ⟨f1, f2, f3, f4, f5, f6, f7, f8, f9⟩ := h.plain
  have e : ∀ n, c'.objTerms D n = c.objTerms D n := by
    intro n
    unfold SubConf.objTerms
    rw [h.kept, f1, f6, h.cands, f2, h.weight, f4]
  unfold SubConf.setObjective
  rw [e, f1, f2]

theorem ObjCousin.refresh (h : ObjCousin c c') (D : Duals) (st : SubSt) : c'.refresh D st = c.refresh D st := by
  obtain ⟨f1, f2, f3, f4, f5, f6, f7, f8, f9⟩ := h.plain
  have e1 : c'.rowVars = c.rowVars := by
    unfold SubConf.rowVars
    rw [h.kept, f5]
  have e2 : c'.zCons = c.zCons := by
    unfold SubConf.zCons
    rw [h.kept, f4]
  have e5 : c'.splitVars = c.splitVars := by
    unfold SubConf.splitVars
    rw [f6, h.cands]
  have e6 : c'.oneSplit = c.oneSplit := by
    unfold SubConf.oneSplit
    rw [f6, h.cands]
  have e3 : c'.create D st = c.create D st := by
    unfold SubConf.create
    simp only
    rw [e1, e5, e6, h.follow, h.rowSat, h.kept, f5, f7, e2, f3, h.setObjective]
  have e4 : c'.updateObjective D st = c.updateObjective D st := by
    unfold SubConf.updateObjective
    rw [h.setObjective]
  unfold SubConf.refresh
  rw [f2, e3, e4]

theorem ObjCousin.update (h : ObjCousin c c') (D : Duals) (st : SubSt) : c'.update D st = c.update D st := by
  have e : ∀ rows st, c'.addCutRows rows st = c.addCutRows rows st := by
    intro rows st
    unfold SubConf.addCutRows
    simp only [h.follow]
  unfold SubConf.update
  rw [h.plain.1, h.refresh]
  simp only [e]

theorem ObjCousin.pathOf (h : ObjCousin c c') (st : SubSt) (val : ℕ → ℚ) (order : List ℕ) (cost : ℚ) :
    c'.pathOf st val order cost = c.pathOf st val order cost := by
  obtain ⟨f1, f2, f3, f4, f5, f6, f7, f8, f9⟩ := h.plain
  unfold SubConf.pathOf
  rw [f1, f2, f3, h.cands]

theorem ObjCousin.costOf (h : ObjCousin c c') (st : SubSt) (val : ℕ → ℚ) : c'.costOf st val = c.costOf st val := by
  obtain ⟨f1, f2, f3, f4, f5, f6, f7, f8, f9⟩ := h.plain
  unfold SubConf.costOf
  rw [f1, h.kept, f4, h.weight]

theorem ObjCousin.generateMip (h : ObjCousin c c') (st : SubSt) (ans : Answer) : c'.generateMip st ans = c.generateMip st ans := by
  unfold SubConf.generateMip
  rw [h.pathOf, h.costOf, h.length, h.plain.2.2.2.2.2.1]

theorem ObjCousin.generateSat (h : ObjCousin c c') (D : Duals) (sols : Model → List (ℕ → ℚ)) (st : SubSt) :
    c'.generateSat D sols st = c.generateSat D sols st := by
  obtain ⟨f1, f2, f3, f4, f5, f6, f7, f8, f9⟩ := h.plain
  have e : ∀ st1, c'.callback D st1 = c.callback D st1 := by
    intro st1
    funext acc val
    unfold SubConf.callback SubConf.origObjective
    rw [h.costOf, h.kept, f6, h.cands, f2, h.pathOf]
  unfold SubConf.generateSat
  rw [h.refresh]
  simp only [e]

end

theorem round_nodes {c c' : HConf} (hs : c' = { c with nodes := c'.nodes }) (h : c.nodes.map Node.core = c'.nodes.map Node.core) (L : List Split) (D : Duals)
    (dr : Draws) (i : ℕ) (gen : List Path) : c'.round L D dr i gen = c.round L D dr i gen := by
  generalize c'.nodes = N at hs h
  subst hs
  have e4 : ∀ p sat, HConf.reducedCost { c with nodes := N } L D p sat = c.reducedCost L D p sat := fun _ _ => rfl
  have e5 : HConf.bestTarget { c with nodes := N } = c.bestTarget := rfl
  unfold HConf.round
  simp only [e5, e4, pickSplits_nodes h]

theorem rounds_nodes {c c' : HConf} (hs : c' = { c with nodes := c'.nodes }) (h : c.nodes.map Node.core = c'.nodes.map Node.core) (L : List Split) (D : Duals)
    (dr : Draws) : ∀ (is : List ℕ) (gen : List Path) (f : ℕ), c'.rounds L D dr is gen f = c.rounds L D dr is gen f
  | [], _, _ => rfl
  | i :: is, gen, f => by
    unfold HConf.rounds
    rw [round_nodes hs h]
    split
    · rfl
    · exact rounds_nodes hs h L D dr is _ _
    · exact rounds_nodes hs h L D dr is _ _

/-! ## The invariant -/

/-- What holds of the master problem of a classifier that was constructed when the heap was `h0`. -/
structure HInv (H : HArgs) (h0 : Heap) (s : HM) : Prop where
  path_nodup : s.paths.Nodup
  path_lt : ∀ a ∈ s.paths, a < s.heap.nextPath
  sel : ∀ a ∈ s.selected, a ∈ s.paths
  sel_nil : s.rest.generated = false → s.selected = []
  row_nodup : ∀ rs, s.rows = some rs → rs.Nodup
  split : ∀ a, (s.heap.split a).content = (h0.split a).content
  node : ∀ a, (s.heap.node a).core = (h0.node a).core
  node_eq : s.rest.generated = false → s.heap.node = h0.node
  row : ∀ a < h0.nextRow, clr (s.heap.row a) = clr (h0.row a)
  next : h0.nextRow ≤ s.heap.nextRow

variable {Ω : Type} {H : HArgs} {h0 : Heap} {s : HM} {X : List (List ℚ)} {o : Oracle}

theorem HInv.put (h : HInv H h0 s) {m : MS} (hg : m.generated = s.rest.generated) : HInv H h0 (s.put m) :=
  ⟨h.path_nodup, h.path_lt, h.sel, fun e => h.sel_nil (hg ▸ e), h.row_nodup, h.split, h.node, fun e => h.node_eq (hg ▸ e), h.row, h.next⟩

theorem HInv.nodes (h : HInv H h0 s) : (H.nodes.map h0.node).map Node.core = (H.nodes.map s.heap.node).map Node.core := by
  rw [List.map_map, List.map_map]
  exact List.map_congr_left fun a _ => (h.node a).symm

theorem HInv.splits (h : HInv H h0 s) : (H.splits.map h0.split).map Split.content = (H.splits.map s.heap.split).map Split.content := by
  rw [List.map_map, List.map_map]
  exact List.map_congr_left fun a _ => (h.split a).symm

theorem HInv.rows (h : HInv H h0 s) (hd : DistinctObjects H h0) :
    SameRows (H.dataRows.map (List.map h0.row)) (H.dataRows.map (List.map s.heap.row)) := by
  cases hr : H.dataRows with
  | none => rfl
  | some rs =>
    rw [Option.map_some, Option.map_some, sameRows_some, List.map_map, List.map_map]
    exact List.map_congr_left fun a ha => (h.row a (hd.row_lt rs hr a ha)).symm

/-! ## Cuts -/

theorem addCutsH_refines (hs : H.splits.Nodup) (hi : HInv H h0 s) :
    (addCutsH H o s).1 = (addCuts o (s.view H)).1 ∧ (addCutsH H o s).2.view H = (addCuts o (s.view H)).2 ∧ HInv H h0 (addCutsH H o s).2 := by
  unfold addCutsH addCuts
  simp only
  have e : cutObjective (s.view H) = s.rest.cutPathVars.zip ((s.paths.map s.heap.path).map (fun p => ⌊s.rest.pathSol p.id * 1000000⌋)) := rfl
  rw [e]
  generalize s.rest.cutPathVars.zip ((s.paths.map s.heap.path).map (fun p => ⌊s.rest.pathSol p.id * 1000000⌋)) = obj
  change _ ∧ _ ∧ _
  have e2 : (s.view H).cp = s.rest.cp ∧ (s.view H).cutCalls = s.rest.cutCalls ∧ (s.view H).cutPathVars = s.rest.cutPathVars ∧
    (s.view H).cutSplitVars = s.rest.cutSplitVars ∧ (s.view H).pathSol = s.rest.pathSol ∧ (s.view H).paths = s.paths.map s.heap.path := ⟨rfl, rfl, rfl, rfl, rfl, rfl⟩
  simp only [e2]
  generalize List.foldl (cutCallback s.rest.cutPathVars s.rest.cutSplitVars ((s.paths.map s.heap.path).map (fun p => s.rest.pathSol p.id))) []
    (o.cut ⟨s.rest.cp.nvars, s.rest.cp.cons, obj⟩ s.rest.cutCalls) = found
  by_cases h0' : found.length = 0
  · rw [if_pos h0', if_pos h0']
    exact ⟨rfl, rfl, hi.put rfl⟩
  · rw [if_neg h0', if_neg h0']
    obtain ⟨f1, f2, f3⟩ := enterCutsH_frame H.splits s.rest.cutCons.length (found.map (·.2)) s.heap
    have f4 := enterCutsH_map hs s.rest.cutCons.length (found.map (·.2)) s.heap
    generalize enterCutsH H.splits s.rest.cutCons.length (found.map (·.2)) s.heap = h1 at f1 f2 f3 f4
    generalize h1.split = sp at f1 f2 f3 f4
    subst f1
    refine ⟨rfl, ?_, ?_⟩
    · unfold HM.view HM.put
      simp only
      rw [f4]
    · exact ⟨hi.path_nodup, hi.path_lt, hi.sel, hi.sel_nil, hi.row_nodup, fun a => (f2 a).trans (hi.split a), hi.node, hi.node_eq, hi.row, hi.next⟩

theorem cutRoundH_refines (hs : H.splits.Nodup) (hi : HInv H h0 s) :
    (cutRoundH H X o s).1 = (cutRound (H.conf X h0) o (s.view H)).1 ∧ (cutRoundH H X o s).2.1 = (cutRound (H.conf X h0) o (s.view H)).2.1 ∧
      (cutRoundH H X o s).2.2.view H = (cutRound (H.conf X h0) o (s.view H)).2.2 ∧ HInv H h0 (cutRoundH H X o s).2.2 := by
  obtain ⟨s1, hs1⟩ : ∃ s1, s1 = s.put (storeLp s.rest) := ⟨_, rfl⟩
  have hv1 : storeLp (s.view H) = s1.view H := by rw [hs1]; rfl
  have hi1 : HInv H h0 s1 := by rw [hs1]; exact hi.put rfl
  obtain ⟨b, hb⟩ : ∃ b, b = (if H.betaAsCuts then ((addBetaCuts (H.conf X s1.heap) (s1.view H)).1, s1.put (addBetaCuts (H.conf X s1.heap) (s1.view H)).2) else (0, s1)) :=
    ⟨_, rfl⟩
  have hb' : (if (H.conf X h0).betaAsCuts then addBetaCuts (H.conf X h0) (s1.view H) else (0, s1.view H)) = (b.1, b.2.view H) := by
    rw [hb]
    change (if H.betaAsCuts = true then _ else _) = _
    split
    · rfl
    · rfl
  have hbi : HInv H h0 b.2 := by
    rw [hb]
    split
    · exact hi1.put rfl
    · exact hi1
  obtain ⟨g, hg⟩ : ∃ g, g = (if H.generateCuts && b.1 == 0 then addCutsH H o b.2 else ([], b.2)) := ⟨_, rfl⟩
  have hg' : (if (H.conf X h0).generateCuts && b.1 == 0 then addCuts o (b.2.view H) else ([], b.2.view H)) = (g.1, g.2.view H) := by
    rw [hg]
    change (if (H.generateCuts && b.1 == 0) = true then _ else _) = _
    split
    · have := addCutsH_refines (o := o) hs hbi
      rw [this.1, this.2.1]
    · rfl
  have hgi : HInv H h0 g.2 := by
    rw [hg]
    split
    · exact (addCutsH_refines hs hbi).2.2
    · exact hbi
  unfold cutRoundH cutRound
  simp only
  rw [hv1, hb', ← hs1, ← hb]
  simp only
  rw [hg', ← hg]
  exact ⟨by trivial, rfl, rfl, hgi.put rfl⟩

theorem cutRoundsH_refines (hs : H.splits.Nodup) : ∀ (n : ℕ) (acc : List (List Bool)) (s : HM), HInv H h0 s →
    (cutRoundsH H X o n acc s).1 = (cutRounds (H.conf X h0) o n acc (s.view H)).1 ∧
      (cutRoundsH H X o n acc s).2.view H = (cutRounds (H.conf X h0) o n acc (s.view H)).2 ∧ HInv H h0 (cutRoundsH H X o n acc s).2
  | 0, _, _, hi => ⟨rfl, rfl, hi⟩
  | n + 1, acc, s, hi => by
    unfold cutRoundsH cutRounds
    simp only
    change _ ∧ _ ∧ _
    have e : (s.view H).last = s.rest.last := rfl
    rw [e]
    split
    · obtain ⟨r1, r2, r3, r4⟩ := cutRoundH_refines (X := X) (o := o) hs hi
      rw [← r1, ← r2, ← r3]
      split
      · exact cutRoundsH_refines hs n _ _ (r4.put rfl)
      · exact ⟨by trivial, by trivial, r4⟩
    · exact ⟨by trivial, by trivial, hi⟩

theorem solveRmpH_refines (hs : H.splits.Nodup) (hi : HInv H h0 s) :
    (solveRmpH H X o s).1 = (solveRmp (H.conf X h0) o (s.view H)).1 ∧ (solveRmpH H X o s).2.view H = (solveRmp (H.conf X h0) o (s.view H)).2 ∧
      HInv H h0 (solveRmpH H X o s).2 := by
  unfold solveRmpH solveRmp
  by_cases hg : s.rest.generated = true
  · have hg' : (s.view H).generated = true := hg
    rw [if_pos hg, if_pos hg']
    obtain ⟨s1, hs1⟩ : ∃ s1, s1 = s.put (lpSolve o { s.rest with
      prevRmpObj := s.rest.rmpObj
      iter := s.rest.iter + 1 }) := ⟨_, rfl⟩
    have hv1 : lpSolve o { s.view H with
      prevRmpObj := (s.view H).rmpObj
      iter := (s.view H).iter + 1 } = s1.view H := by rw [hs1]; rfl
    have hi1 : HInv H h0 s1 := by rw [hs1]; exact hi.put rfl
    dsimp only at hs1 hv1 ⊢
    rw [hv1, ← hs1]
    obtain ⟨r, hr⟩ : ∃ r, r = (if s1.rest.iter % 10 = 0 then cutRoundsH H X o H.cutsRound [] s1 else ([], s1)) := ⟨_, rfl⟩
    have hr' : (if (s1.view H).iter % 10 = 0 then cutRounds (H.conf X h0) o (H.conf X h0).numCutsRound [] (s1.view H) else ([], s1.view H)) = (r.1, r.2.view H) := by
      rw [hr]
      change (if s1.rest.iter % 10 = 0 then _ else _) = _
      split
      · have := cutRoundsH_refines (X := X) (o := o) hs H.cutsRound [] s1 hi1
        rw [this.1, this.2.1]
        rfl
      · rfl
    have hri : HInv H h0 r.2 := by
      rw [hr]
      split
      · exact (cutRoundsH_refines hs _ _ _ hi1).2.2
      · exact hi1
    rw [hr', ← hr]
    simp only
    have el : (r.2.view H).last = r.2.rest.last := rfl
    rw [el]
    split
    · exact ⟨rfl, rfl, hri.put rfl⟩
    · exact ⟨rfl, rfl, hri⟩
  · have hg' : ¬ (s.view H).generated = true := hg
    rw [if_neg hg, if_neg hg']
    exact ⟨rfl, rfl, hi⟩

theorem solveIpH_refines (hi : HInv H h0 s) :
    (solveIpH o s).1 = (solveIp o (s.view H)).1 ∧ (solveIpH o s).2.view H = (solveIp o (s.view H)).2 ∧ HInv H h0 (solveIpH o s).2 := by
  unfold solveIpH solveIp
  have eg : (s.view H).generated = s.rest.generated := rfl
  have em : (s.view H).m = s.rest.m := rfl
  rw [eg, em]
  by_cases hg : s.rest.generated = true
  · rw [if_pos hg, if_pos hg]
    simp only
    split
    · refine ⟨rfl, ?_, ?_⟩
      · unfold HM.view
        simp only [MS.mk.injEq, true_and, and_true]
        rw [List.filter_map]
        rfl
      · exact ⟨hi.path_nodup, hi.path_lt, fun a ha => (List.mem_filter.1 ha).1, fun e => absurd (hg.symm.trans e) (by decide), hi.row_nodup, hi.split,
          hi.node, hi.node_eq, hi.row, hi.next⟩
    · exact ⟨rfl, rfl, hi.path_nodup, hi.path_lt, fun a ha => absurd ha (List.not_mem_nil), fun _ => rfl, hi.row_nodup, hi.split,
          hi.node, hi.node_eq, hi.row, hi.next⟩
  · rw [if_neg hg, if_neg hg]
    exact ⟨rfl, rfl, hi⟩

/-! ## `generate_mp` and `add_column` -/

theorem dataRowsH_refines (hN : H.nodes.Nodup) (paths : List ℕ) (h : Heap) (rows : Option (List ℕ)) (hr : ∀ rs, rows = some rs → rs.Nodup) :
    (dataRowsH H X paths rows h).2.map (dataRowsH H X paths rows h).1.row =
      (match rows.map (List.map h.row) with
        | none => preprocessRows H.leaves (H.nodes.map h.node) (H.splits.map h.split) (paths.map h.path) X false
        | some rows => computeSatisfiedPaths H.leaves (H.splits.map h.split) (paths.map h.path) X rows) ∧
    (dataRowsH H X paths rows h).2.Nodup := by
  unfold dataRowsH
  cases rows with
  | none =>
    simp only [Option.map_none]
    unfold preprocessRowsH
    rw [preprocessNodesH_eq]
    obtain ⟨n1, n2, n3, n4⟩ := newRowsH H paths X { h with
      node := H.nodes.foldl (fun g a => Function.update g a (prepOne (Nat.log 2 H.leaves.length) (g a))) h.node } [] (fun a ha => absurd ha (List.not_mem_nil))
    refine ⟨?_, ?_⟩
    · refine n3.trans ?_
      simp only [List.map_nil, List.nil_append]
      rw [updates_map _ _ hN]
      rfl
    · rw [n2, List.nil_append]
      exact List.nodup_range'
  | some rs =>
    simp only [Option.map_some]
    rw [computeSatisfiedPathsH_eq]
    refine ⟨?_, hr rs rfl⟩
    simp only
    rw [updatesIdx_map _ rs (hr rs rfl)]
    unfold computeSatisfiedPaths satRow
    simp only [Nat.zero_add]

theorem dataRowsH_frame (paths : List ℕ) (h : Heap) (rows : Option (List ℕ)) :
    (dataRowsH H X paths rows h).1.path = h.path ∧ (dataRowsH H X paths rows h).1.split = h.split ∧
    (dataRowsH H X paths rows h).1.nextPath = h.nextPath ∧ h.nextRow ≤ (dataRowsH H X paths rows h).1.nextRow ∧
    (∀ a, ((dataRowsH H X paths rows h).1.node a).core = (h.node a).core) ∧ (∀ a ∉ H.nodes, (dataRowsH H X paths rows h).1.node a = h.node a) ∧
    (∀ a < h.nextRow, clr ((dataRowsH H X paths rows h).1.row a) = clr (h.row a)) ∧
    (∀ a < h.nextRow, (∀ rs, rows = some rs → a ∉ rs) → (dataRowsH H X paths rows h).1.row a = h.row a) ∧
    ((∃ rs, rows = some rs) → (dataRowsH H X paths rows h).1.node = h.node) := by
  unfold dataRowsH
  cases rows with
  | none =>
    simp only
    unfold preprocessRowsH
    rw [preprocessNodesH_eq]
    obtain ⟨n1, n2, n3, n4⟩ := newRowsH H paths X { h with
      node := H.nodes.foldl (fun g a => Function.update g a (prepOne (Nat.log 2 H.leaves.length) (g a))) h.node } [] (fun a ha => absurd ha (List.not_mem_nil))
    refine ⟨by rw [n1], by rw [n1], by rw [n1], ?_, ?_, ?_, ?_, ?_, ?_⟩
    · rw [n1]; exact Nat.le_add_right _ _
    · intro a
      rw [n1]
      exact updates_keep Node.core _ (prepOne_core _) _ _ _
    · intro a ha
      rw [n1]
      exact updates_off _ _ _ _ ha
    · intro a ha
      rw [n4 a ha]
    · intro a ha _
      rw [n4 a ha]
    · rintro ⟨rs, hrs⟩
      cases hrs
  | some rs =>
    simp only
    rw [computeSatisfiedPathsH_eq]
    refine ⟨rfl, rfl, rfl, le_refl _, fun _ => rfl, fun _ _ => rfl, ?_, ?_, fun _ => rfl⟩
    · intro a _
      exact updatesIdx_keep clr _ (satRow_clr _ _ _ _) _ _ _ _
    · intro a _ ha
      exact updatesIdx_off _ _ _ _ _ (ha rs rfl)

theorem generateMpH_refines (hd : DistinctObjects H h0) (hi : HInv H h0 s) :
    (generateMpH H X s).1 = (generateMp (H.conf X h0) (s.view H)).1 ∧ (generateMpH H X s).2.view H = (generateMp (H.conf X h0) (s.view H)).2 ∧
      HInv H h0 (generateMpH H X s).2 := by
  unfold generateMpH generateMp
  by_cases hg : s.rest.generated = true
  · have hg' : (s.view H).generated = true := hg
    rw [if_pos hg, if_pos hg']
    exact ⟨rfl, rfl, hi⟩
  · have hg' : ¬ (s.view H).generated = true := hg
    have hgf : s.rest.generated = false := by simpa using hg
    rw [if_neg hg, if_neg hg']
    have ec : createCutModel (H.conf X h0).leaves (s.view H).splits (s.view H).paths =
        createCutModel H.leaves (H.splits.map s.heap.split) (s.paths.map s.heap.path) := rfl
    rw [ec]
    cases createCutModel H.leaves (H.splits.map s.heap.split) (s.paths.map s.heap.path) with
    | error e => exact ⟨rfl, rfl, hi⟩
    | ok t =>
      obtain ⟨cp, sv, pv⟩ := t
      obtain ⟨p1, p2, p3⟩ := addPathVarsH s.paths hi.path_nodup s.rest.m s.heap []
      obtain ⟨f1, f2, -, -⟩ := addPathVarsH_frame s.paths (s.rest.m, s.heap, [])
      have ev : ((s.view H).paths.foldl addPathVar ((s.view H).m, [])) = (s.paths.map s.heap.path).foldl addPathVar (s.rest.m, []) := rfl
      simp only
      rw [ev, ← p1, ← p2]
      generalize hpr : s.paths.foldl addPathVarH (s.rest.m, s.heap, []) = pr at p1 p2 p3 f1 f2
      clear hpr
      obtain ⟨m1, h1, vs⟩ := pr
      simp only at p1 p2 p3 f1 f2 ⊢
      rw [← p2] at p3
      generalize hP : h1.path = P at f1 f2 p2 p3
      subst f1
      have hsel : s.selected = [] := hi.sel_nil hgf
      have hnode : s.heap.node = h0.node := hi.node_eq hgf
      obtain ⟨r1, r2⟩ := dataRowsH_refines (X := X) hd.nodes s.paths { s.heap with path := P } s.rows hi.row_nodup
      obtain ⟨d1, d2, d3, d4, d5, d6, d7, d8, d9⟩ := dataRowsH_frame (H := H) (X := X) s.paths { s.heap with path := P } s.rows
      generalize dataRowsH H X s.paths s.rows { s.heap with path := P } = dr at r1 r2 d1 d2 d3 d4 d5 d6 d7 d8 d9
      obtain ⟨h2, rows⟩ := dr
      simp only at r1 r2 d1 d2 d3 d4 d5 d6 d7 d8 d9 ⊢
      have hcore : (H.nodes.map h2.node).map Node.core = (H.nodes.map h0.node).map Node.core := by
        rw [List.map_map, List.map_map]
        exact List.map_congr_left fun a _ => (d5 a).trans (by rw [← hnode]; rfl)
      have hns : addNsLeaf (H.nodes.map h2.node) (s.paths.map P) = addNsLeaf (H.conf X h0).nodes (s.paths.map P) := addNsLeaf_nodes hcore _
      refine ⟨by trivial, ?_, ?_⟩
      · rw [d1, d2, hns]
        cases hsr : s.rows with
        | none =>
          have e : (s.view H).dataRows = none := by unfold HM.view; rw [hsr]; rfl
          rw [hsr] at r1
          have hvr : preprocessRows (H.conf X h0).leaves (H.conf X h0).nodes (s.view H).splits (s.paths.map P) (H.conf X h0).X false = rows.map h2.row := by
            refine Eq.trans ?_ r1.symm
            change preprocessRows H.leaves (H.nodes.map h0.node) _ _ X false = _
            rw [← hnode]
            rfl
          simp only [e]
          rw [hvr]
          unfold HM.view
          simp only [hsel, d1, d2, p3, List.nil_append, List.map_nil, Option.map_some]
          rfl
        | some rs =>
          have e : (s.view H).dataRows = some (rs.map s.heap.row) := by unfold HM.view; rw [hsr]; rfl
          rw [hsr] at r1
          have hvr : computeSatisfiedPaths (H.conf X h0).leaves (s.view H).splits (s.paths.map P) (H.conf X h0).X (rs.map s.heap.row) = rows.map h2.row :=
            r1.symm
          simp only [e]
          rw [hvr]
          unfold HM.view
          simp only [hsel, d1, d2, p3, List.nil_append, List.map_nil, Option.map_some]
          rfl
      · refine ⟨hi.path_nodup, ?_, ?_, ?_, ?_, ?_, ?_, ?_, ?_, ?_⟩
        · intro a ha
          change a < h2.nextPath
          rw [d3]
          exact hi.path_lt a ha
        · intro a ha
          change a ∈ s.selected at ha
          rw [hsel] at ha
          cases ha
        · intro e
          cases e
        · rintro rs hrs
          cases hrs
          exact r2
        · intro a
          change (h2.split a).content = _
          rw [d2]
          exact hi.split a
        · intro a
          exact (d5 a).trans (hi.node a)
        · intro e
          cases e
        · intro a ha
          exact (d7 a (lt_of_lt_of_le ha hi.next)).trans (hi.row a ha)
        · exact hi.next.trans d4

theorem addColumnH_refines (hi : HInv H h0 s) (p : Path) :
    (addColumnH H X p s).1 = (addColumn (H.conf X h0) p (s.view H)).1 ∧ (addColumnH H X p s).2.view H = (addColumn (H.conf X h0) p (s.view H)).2 ∧
      HInv H h0 (addColumnH H X p s).2 := by
  have hfresh : s.heap.nextPath ∉ s.paths := fun h => absurd (hi.path_lt _ h) (Nat.lt_irrefl _)
  have hfresh' : s.heap.nextPath ∉ s.selected := fun h => hfresh (hi.sel _ h)
  have hpath : (s.paths ++ [s.heap.nextPath]).map (Function.update s.heap.path s.heap.nextPath { p with id := s.rest.m.vars.length }) =
      s.paths.map s.heap.path ++ [{ p with id := s.rest.m.vars.length }] := by
    rw [List.map_append, map_update_off hfresh]
    simp
  have hsel : s.selected.map (Function.update s.heap.path s.heap.nextPath { p with id := s.rest.m.vars.length }) = s.selected.map s.heap.path :=
    map_update_off hfresh' _ _
  have hnodup : (s.paths ++ [s.heap.nextPath]).Nodup := by
    rw [List.nodup_append]
    exact ⟨hi.path_nodup, List.nodup_singleton _, fun a ha b hb => by
      rw [List.mem_singleton.1 hb]
      exact ne_of_mem_of_not_mem ha hfresh⟩
  have hlt : ∀ a ∈ s.paths ++ [s.heap.nextPath], a < s.heap.nextPath + 1 := by
    intro a ha
    rcases List.mem_append.1 ha with ha | ha
    · exact (hi.path_lt a ha).trans (Nat.lt_succ_self _)
    · rw [List.mem_singleton.1 ha]; exact Nat.lt_succ_self _
  have hinv : ∀ (g : ℕ → Row) (m : MS), m.generated = s.rest.generated → (∀ a, clr (g a) = clr (s.heap.row a)) →
      HInv H h0 ⟨{ s.heap with
        path := Function.update s.heap.path s.heap.nextPath { p with id := s.rest.m.vars.length }
        row := g
        nextPath := s.heap.nextPath + 1 }, s.paths ++ [s.heap.nextPath], s.selected, s.rows, m⟩ := fun g m hg hc =>
    ⟨hnodup, hlt, fun a ha => List.mem_append_left _ (hi.sel a ha), fun e => hi.sel_nil (hg ▸ e), hi.row_nodup, hi.split, hi.node,
      fun e => hi.node_eq (hg ▸ e), fun a ha => (hc a).trans (hi.row a ha), hi.next⟩
  unfold addColumnH addColumn Heap.setPath
  simp only [Function.update_self]
  have e1 : getSatisfiedRows { p with id := (s.view H).m.vars.length } (leafAt (H.conf X h0).leaves p.leafId) (s.view H).splits =
      getSatisfiedRows { p with id := s.rest.m.vars.length } (leafAt H.leaves p.leafId) (H.splits.map s.heap.split) := rfl
  rw [e1]
  cases getSatisfiedRows { p with id := s.rest.m.vars.length } (leafAt H.leaves p.leafId) (H.splits.map s.heap.split) with
  | error e =>
    refine ⟨rfl, ?_, hinv s.heap.row _ rfl (fun _ => rfl)⟩
    unfold HM.view
    simp only [hpath, hsel]
    rfl
  | ok rows =>
    simp only
    have hcol : colNs H.leaves (H.nodes.map s.heap.node) s.rest { p with id := s.rest.m.vars.length } =
        colNs (H.conf X h0).leaves (H.conf X h0).nodes (s.view H) { p with id := (s.view H).m.vars.length } :=
      (colNs_nodes hi.nodes.symm H.leaves s.rest _)
    obtain ⟨h2, hh2⟩ : ∃ h2 : Heap, h2 = recordH s.rows s.rest.m.vars.length rows { s.heap with
        path := Function.update s.heap.path s.heap.nextPath { p with id := s.rest.m.vars.length }
        nextPath := s.heap.nextPath + 1 } := ⟨_, rfl⟩
    have hh : h2 = { s.heap with
        path := Function.update s.heap.path s.heap.nextPath { p with id := s.rest.m.vars.length }
        row := h2.row
        nextPath := s.heap.nextPath + 1 } ∧ (∀ a, clr (h2.row a) = clr (s.heap.row a)) ∧
        s.rows.map (List.map h2.row) = (s.rows.map (List.map s.heap.row)).map (fun ds => rows.foldl (fun ds r => ds.modify r (fun d =>
          { d with reachablePaths := setAdd d.reachablePaths s.rest.m.vars.length })) ds) := by
      cases hsr : s.rows with
      | none =>
        rw [hsr] at hh2
        subst hh2
        exact ⟨rfl, fun _ => rfl, rfl⟩
      | some rs =>
        rw [hsr] at hh2
        unfold recordH at hh2
        simp only at hh2
        refine ⟨?_, ?_, ?_⟩
        · rw [hh2]
          exact reachH_eq rs _ rows _
        · intro a
          rw [hh2, reachH_clr]
        · rw [hh2, Option.map_some, reachH_map (hi.row_nodup rs hsr)]
          rfl
    obtain ⟨g1, g2, g3⟩ := hh
    dsimp only at hh2 ⊢
    rw [← hh2]
    clear hh2
    generalize h2.row = g at g1 g2 g3
    subst g1
    have e2 : getSatisfiedCuts { p with id := (s.view H).m.vars.length } (leafAt (H.conf X h0).leaves p.leafId) (s.view H).splits =
      getSatisfiedCuts { p with id := s.rest.m.vars.length } (leafAt H.leaves p.leafId) (H.splits.map s.heap.split) := rfl
    rw [e2, hcol]
    cases getSatisfiedCuts { p with id := s.rest.m.vars.length } (leafAt H.leaves p.leafId) (H.splits.map s.heap.split) with
    | error e =>
      refine ⟨rfl, ?_, hinv g _ rfl g2⟩
      unfold HM.view
      simp only [hpath, hsel, g3]
      rfl
    | ok cuts =>
      refine ⟨rfl, ?_, hinv g _ rfl g2⟩
      unfold HM.view
      simp only [hpath, hsel, g3, Function.update_self]
      rfl

end Verif.DTree
