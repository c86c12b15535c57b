import Verif.DTree.HeapRefine
import Verif.DTree.RefitProps

/-!
# Property C125: the objects behind the tree classifier

`Verif/DTree/Heap.lean` models the classifier with references to objects. If the caller passes distinct objects, every call of `fit` behaves as in the
value model, in which all other properties are stated. `fit` writes only what is listed here, whichever objects are shared with the caller or with other
classifiers. If one path object is passed twice, the master problem is not the one of the value model.
-/

set_option linter.unusedSectionVars false
set_option linter.unusedSimpArgs false

namespace Verif.DTree

open MP Spec Fit
open Fit.Spec

variable {Ω : Type} {H : HArgs} {h0 : Heap} {X : List (List ℚ)} {o : FitOracle Ω}

/-! ## Refinement -/

/-- The state `hw` stands for the state `w` of the value model. -/
def Stands (H : HArgs) (h0 : Heap) (hw : HW Ω) (w : World Ω) : Prop := hw.view H = w ∧ HInv H h0 hw.m

/-- The arguments differ only in what `fit` writes to them. -/
structure ArgsAlike (A A' : Args) : Prop where
  same : A' = { A with
    paths := A'.paths
    nodes := A'.nodes
    splits := A'.splits
    dataRows := A'.dataRows }
  nodes : A.nodes.map Node.core = A'.nodes.map Node.core
  splits : A.splits.map Split.content = A'.splits.map Split.content
  rows : SameRows A.dataRows A'.dataRows

theorem HInv.args {s : HM} (h : HInv H h0 s) (hd : DistinctObjects H h0) : ArgsAlike (H.read h0) (H.read s.heap) :=
  ⟨rfl, h.nodes, h.splits, h.rows hd⟩

theorem subConfs_objects {A A' : Args} (h : ArgsAlike A A') (y : List ℕ) (i : ℕ) :
    ((A.subConfs X y)[i]? = none ∧ (A'.subConfs X y)[i]? = none) ∨
      ∃ c c', (A.subConfs X y)[i]? = some c ∧ (A'.subConfs X y)[i]? = some c' ∧ ObjCousin c c' := by
  have hs := h.same
  have e : A'.subConfs X y = (A.subConfs X y).map (fun c => { c with
      nodes := A'.nodes
      splits := A'.splits
      dataRows := A'.dataRows }) := by
    unfold Args.subConfs
    rw [hs]
    simp only [List.map_flatMap]
    refine List.flatMap_congr (fun leaf _ => ?_)
    split
    · rw [List.map_map]
      rfl
    · rfl
  have hm : ∀ c ∈ A.subConfs X y, c.nodes = A.nodes ∧ c.splits = A.splits ∧ c.dataRows = A.dataRows := by
    intro c hc
    unfold Args.subConfs at hc
    obtain ⟨leaf, -, hc⟩ := List.mem_flatMap.1 hc
    split at hc
    · obtain ⟨t, -, rfl⟩ := List.mem_map.1 hc
      exact ⟨rfl, rfl, rfl⟩
    · rw [List.mem_singleton.1 hc]
      exact ⟨rfl, rfl, rfl⟩
  cases hc : (A.subConfs X y)[i]? with
  | none => exact Or.inl ⟨rfl, by rw [e]; simp [hc]⟩
  | some c =>
    obtain ⟨m1, m2, m3⟩ := hm c (List.mem_of_getElem? hc)
    refine Or.inr ⟨c, { c with
      nodes := A'.nodes
      splits := A'.splits
      dataRows := A'.dataRows }, rfl, by rw [e]; simp [hc], ⟨rfl, ?_, ?_, ?_⟩⟩
    · rw [m1]
      exact h.nodes
    · rw [m2]
      exact h.splits
    · rw [m3]
      exact h.rows

theorem generateAt_objects {A A' : Args} (h : ArgsAlike A A') (l i : ℕ) (D : Duals) (w : World Ω) :
    generateAt o A' X l i D w = generateAt o A X l i D w := by
  unfold generateAt
  split
  · have e : ∀ st, (A'.heurConf X w.y).generate D (o.draws w.ω).1 st = (A.heurConf X w.y).generate D (o.draws w.ω).1 st := by
      intro st
      unfold HConf.generate
      have e1 : ∀ is gen f, (A'.heurConf X w.y).rounds st.splits D (o.draws w.ω).1 is gen f = (A.heurConf X w.y).rounds st.splits D (o.draws w.ω).1 is gen f := by
        intro is gen f
        have k1 : A'.heurConf X w.y = { ({ A.heurConf X w.y with nodes := A'.nodes } : HConf) with dataRows := (A'.heurConf X w.y).dataRows } := by
          unfold Args.heurConf
          rw [h.same]
        rw [rounds_rowsAlike k1 h.rows]
        exact rounds_nodes (c := A.heurConf X w.y) (c' := { A.heurConf X w.y with nodes := A'.nodes }) rfl h.nodes _ _ _ _ _ _
      rw [e1]
    simp only [e]
  · rcases subConfs_objects (X := X) h w.y i with ⟨e1, e2⟩ | ⟨c, c', e1, e2, hc⟩
    · rw [e1, e2]
    · rw [e1, e2]
      simp only
      unfold priceAt
      rw [hc.plain.2.2.2.2.1]
      simp only [hc.generateMip, hc.generateSat]

theorem generateAt_keeps (A : Args) (l i : ℕ) (D : Duals) (w : World Ω) :
    (generateAt o A X l i D w).2.master = w.master ∧ (generateAt o A X l i D w).2.numCuts = w.numCuts ∧ (generateAt o A X l i D w).2.y = w.y := by
  unfold generateAt
  split
  · simp only
    unfold HConf.generate
    split <;> exact ⟨rfl, rfl, rfl⟩
  · split
    · exact ⟨rfl, rfl, rfl⟩
    · unfold priceAt
      split <;> exact ⟨rfl, rfl, rfl⟩

theorem HInv.cuts {s : HM} (hi : HInv H h0 s) (first : ℕ) (rows : List (List Bool)) :
    HInv H h0 { s with heap := enterCutsH H.splits first rows s.heap } := by
  obtain ⟨f1, f2, f3⟩ := enterCutsH_frame H.splits first rows s.heap
  generalize enterCutsH H.splits first rows s.heap = h1 at f1 f2 f3
  generalize h1.split = sp at f1 f2 f3
  subst f1
  exact ⟨hi.path_nodup, hi.path_lt, hi.sel, hi.sel_nil, hi.row_nodup, fun a => (f2 a).trans (hi.split a), hi.node, hi.node_eq, hi.row, hi.next⟩

theorem twins_heap (hd : DistinctObjects H h0) : Twins (envH o H X) (env o (H.read h0) X) (fun _ => True) (Stands H h0) := by
  constructor
  · rintro w w' ⟨rfl, hi⟩
    exact ⟨rfl, rfl, hi⟩
  · rintro y w w' ⟨rfl, hi⟩
    obtain ⟨e1, e2, e3⟩ := generateMpH_refines (X := X) hd hi
    refine ⟨e1, ?_, e3⟩
    change HW.view H { w with
      m := (generateMpH H X w.m).2
      y := y } = { w.view H with
      master := (generateMp ((H.read h0).masterConf X) (w.m.view H)).2
      y := y }
    unfold HW.view
    simp only
    rw [e2]
    rfl
  · rintro w w' ⟨rfl, hi⟩
    obtain ⟨e1, e2, e3⟩ := solveRmpH_refines (X := X) (o := o.master) hd.splits hi
    refine ⟨e1, ?_, e3⟩
    change HW.view H { w with m := (solveRmpH H X o.master w.m).2 } = { w.view H with
      master := (solveRmp ((H.read h0).masterConf X) o.master (w.m.view H)).2 }
    unfold HW.view
    simp only
    rw [e2]
    rfl
  · rintro w w' ⟨rfl, hi⟩
    exact ⟨rfl, rfl, hi⟩
  · exact fun _ _ _ => rfl
  · exact fun _ _ h => h
  · rintro l i D w w' ⟨rfl, hi⟩
    change (updateAtH H X l i D w).1 = (updateAt (H.read h0) X l i D (w.view H)).1 ∧ Stands H h0 (updateAtH H X l i D w).2 (updateAt (H.read h0) X l i D (w.view H)).2
    unfold updateAtH updateAt
    split
    · refine ⟨rfl, ?_, hi.cuts _ _⟩
      have f1 := (enterCutsH_frame H.splits w.numCuts D.newCuts w.m.heap).1
      have f4 := enterCutsH_map hd.splits w.numCuts D.newCuts w.m.heap
      generalize enterCutsH H.splits w.numCuts D.newCuts w.m.heap = h1 at f1 f4
      generalize h1.split = sp at f1 f4
      subst f1
      unfold HW.view HM.view World.setHeur World.heur HConf.update
      simp only at f4 ⊢
      rw [f4]
    · have ey : (w.view H).y = w.y := rfl
      rw [ey]
      rcases subConfs_objects (X := X) (hi.args hd) w.y i with ⟨e1, e2⟩ | ⟨c, c', e1, e2, hc⟩
      · rw [e1, e2]
        exact ⟨rfl, rfl, hi⟩
      · rw [e1, e2]
        simp only
        rw [hc.update]
        exact ⟨rfl, rfl, hi⟩
  · rintro l i D w w' ⟨rfl, hi⟩
    change (generateAtH o H X l i D w).1 = (generateAt o (H.read h0) X l i D (w.view H)).1 ∧
      Stands H h0 (generateAtH o H X l i D w).2 (generateAt o (H.read h0) X l i D (w.view H)).2
    unfold generateAtH
    rw [generateAt_objects (hi.args hd)]
    refine ⟨rfl, ?_, hi⟩
    obtain ⟨k1, k2, k3⟩ := generateAt_keeps (o := o) (X := X) (H.read h0) l i D (w.view H)
    have key : ∀ w2 : World Ω, w2.master = w.m.view H → w2.numCuts = w.numCuts → w2.y = w.y →
        (⟨w.m.view H, w.numCuts, w2.failed, w2.success, w2.subs, w.y, w2.ω⟩ : World Ω) = w2 := by
      intro w2 a1 a2 a3
      rw [← a1, ← a2, ← a3]
    exact key _ k1 k2 k3
  · exact fun _ _ _ _ _ _ _ _ _ _ => trivial
  · rintro p w w' - ⟨rfl, hi⟩
    obtain ⟨e1, e2, e3⟩ := addColumnH_refines (X := X) hi p
    refine ⟨e1, ?_, e3⟩
    change HW.view H { w with m := (addColumnH H X p w.m).2 } = { w.view H with
      master := (addColumn ((H.read h0).masterConf X) p (w.m.view H)).2 }
    unfold HW.view
    simp only
    rw [e2]
    rfl
  · rintro w w' ⟨rfl, hi⟩
    obtain ⟨e1, e2, e3⟩ := solveIpH_refines (o := o.master) hi
    refine ⟨e1, ?_, e3⟩
    change HW.view H { w with m := (solveIpH o.master w.m).2 } = { w.view H with
      master := (solveIp o.master (w.m.view H)).2 }
    unfold HW.view
    simp only
    rw [e2]

theorem configH_eq (H : HArgs) (h : Heap) (maxIt : ℤ) (limit : ℚ) : configH H maxIt limit = config (H.read h) maxIt limit := by
  have e : ((H.read h).subConfs [] []).length = if H.useOld then H.leaves.length * H.targets.length else H.leaves.length := by
    unfold Args.subConfs
    rw [List.length_flatMap]
    cases hu : H.useOld <;> simp [HArgs.read, hu]
  unfold configH config
  rw [e]

theorem init_stands (hd : DistinctObjects H h0) (ω : Ω) : Stands H h0 (HW.init H h0 ω) (World.init (H.read h0) ω) := by
  refine ⟨?_, ?_⟩
  · unfold HW.view HW.init HM.view World.init
    have e := updates_map (fun p : Path => { p with initial := true }) H.paths hd.paths h0.path
    simp only [marksH]
    rw [e]
    rfl
  · unfold HW.init
    rw [marksH]
    exact ⟨hd.paths, hd.path_lt, fun a ha => absurd ha (List.not_mem_nil), fun _ => rfl, hd.rows, fun _ => rfl, fun _ => rfl, fun _ => rfl, fun _ _ => rfl, le_refl _⟩

namespace Spec

/-- Any number of calls of `fit` on a classifier that was constructed when the heap was `h0`. -/
inductive HSession (o : FitOracle Ω) (H : HArgs) (h0 : Heap) (X : List (List ℚ)) (y : List ℤ) : HW Ω → Prop
  | new (ω : Ω) : HSession o H h0 X y (HW.init H h0 ω)
  | idle {w : HW Ω} (h : HSession o H h0 X y w) (ω : Ω) : HSession o H h0 X y { w with ω := ω }
  | fit {w : HW Ω} (h : HSession o H h0 X y w) (maxIt : ℤ) (limit : ℚ) (fuel : ℕ) (e0 : Fit.Est) {r : Except Err Unit × Fit.St (HW Ω) Duals Path}
      (hr : Fit.fit (envH o H X) (configH H maxIt limit) fuel y e0 w = some r) : HSession o H h0 X y r.2.world

end Spec

theorem session_stands {y : List ℤ} {w : HW Ω} (hd : DistinctObjects H h0) (h : HSession o H h0 X y w) :
    Session o (H.read h0) X y (w.view H) ∧ HInv H h0 w.m := by
  induction h with
  | new ω =>
    have := init_stands hd ω
    rw [this.1]
    exact ⟨.new ω, this.2⟩
  | @idle w h ω ih => exact ⟨.idle ih.1 ω, ih.2⟩
  | @fit w h maxIt limit fuel e0 r hr ih =>
    have ht := (fit_twin (twins_heap (X := X) (o := o) hd) (configH H maxIt limit) fuel y e0 (w := w) (w' := w.view H) ⟨rfl, ih.2⟩).cases
    obtain ⟨res, s⟩ := r
    obtain ⟨s', hr', h'⟩ := ht.2 res s hr
    obtain ⟨e, hi⟩ : Stands H h0 s.world s'.world := h'.world
    rw [configH_eq H h0] at hr'
    refine ⟨?_, hi⟩
    change Session o (H.read h0) X y (s.world.view H)
    rw [e]
    exact .fit ih.1 maxIt limit fuel e0 hr'

/-- **C125.** If the caller passes distinct objects, then every call of `fit` on them - the first or a later one - has the outcome, the attributes, the
calls and the state of the value model, and `predict` on the objects is `predict` of the value model. -/
theorem C125_refines {y : List ℤ} {w : HW Ω} (hd : DistinctObjects H h0) (h : HSession o H h0 X y w) :
    Session o (H.read h0) X y (w.view H) ∧
    ∀ (maxIt : ℤ) (limit : ℚ) (fuel : ℕ) (e0 : Fit.Est),
      (Fit.fit (envH o H X) (configH H maxIt limit) fuel y e0 w = none ↔
        Fit.fit (env o (H.read h0) X) (config (H.read h0) maxIt limit) fuel y e0 (w.view H) = none) ∧
      ∀ res s, Fit.fit (envH o H X) (configH H maxIt limit) fuel y e0 w = some (res, s) →
        ∃ s', Fit.fit (env o (H.read h0) X) (config (H.read h0) maxIt limit) fuel y e0 (w.view H) = some (res, s') ∧
          s'.est = s.est ∧ s'.trace = s.trace ∧ s'.world = s.world.view H ∧
          ∀ Z, predictH H s.est.classes s.world.m.heap s.world.m.selected Z = predictFitted (H.read h0) s' Z := by
  obtain ⟨h1, h2⟩ := session_stands hd h
  refine ⟨h1, fun maxIt limit fuel e0 => ?_⟩
  have ht := (fit_twin (twins_heap (X := X) (o := o) hd) (configH H maxIt limit) fuel y e0 (w := w) (w' := w.view H) ⟨rfl, h2⟩).cases
  rw [configH_eq H h0] at ht ⊢
  refine ⟨ht.1.symm, ?_⟩
  intro res s hr
  obtain ⟨s', hr', h'⟩ := ht.2 res s hr
  obtain ⟨e, hi⟩ : Stands H h0 s.world s'.world := h'.world
  refine ⟨s', hr', h'.est.symm, h'.trace.symm, e.symm, fun Z => ?_⟩
  unfold predictFitted predictH
  rw [← e, ← h'.est]
  rfl

end Verif.DTree
