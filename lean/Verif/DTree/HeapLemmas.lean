import Verif.DTree.Heap
import Verif.DTree.RowsProps
import Verif.DTree.SharedProps

/-!
# Lemmas for C125: the loops that write objects
-/

set_option linter.unusedSectionVars false
set_option linter.unusedSimpArgs false

namespace Verif.DTree

open MP Spec

/-! ## Writing through a list of addresses -/

theorem updates_apply {α : Type} (f : α → α) : ∀ (l : List ℕ) (_ : l.Nodup) (g : ℕ → α) (a : ℕ),
    l.foldl (fun g a => Function.update g a (f (g a))) g a = if a ∈ l then f (g a) else g a
  | [], _, _, _ => by simp
  | b :: l, hl, g, a => by
    rw [List.foldl_cons, updates_apply f l (List.nodup_cons.1 hl).2]
    have hb : b ∉ l := (List.nodup_cons.1 hl).1
    by_cases hab : a = b
    · subst hab
      simp [hb]
    · rw [Function.update_of_ne hab]
      simp [hab]

theorem updates_map {α : Type} (f : α → α) (l : List ℕ) (hl : l.Nodup) (g : ℕ → α) :
    l.map (l.foldl (fun g a => Function.update g a (f (g a))) g) = (l.map g).map f := by
  rw [List.map_map]
  refine List.map_congr_left fun a ha => ?_
  rw [updates_apply f l hl, if_pos ha]
  rfl

theorem updates_keep {α β : Type} (k : α → β) (f : α → α) (hf : ∀ x, k (f x) = k x) : ∀ (l : List ℕ) (g : ℕ → α) (a : ℕ),
    k (l.foldl (fun g a => Function.update g a (f (g a))) g a) = k (g a)
  | [], _, _ => rfl
  | b :: l, g, a => by
    rw [List.foldl_cons, updates_keep k f hf l]
    by_cases hab : a = b
    · subst hab
      rw [Function.update_self, hf]
    · rw [Function.update_of_ne hab]

theorem updates_off {α : Type} (f : α → α) : ∀ (l : List ℕ) (g : ℕ → α) (a : ℕ), a ∉ l →
    l.foldl (fun g a => Function.update g a (f (g a))) g a = g a
  | [], _, _, _ => rfl
  | b :: l, g, a, h => by
    rw [List.foldl_cons, updates_off f l _ a (fun h' => h (List.mem_cons_of_mem _ h')), Function.update_of_ne]
    rintro rfl
    exact h List.mem_cons_self

theorem updatesIdx_off {α : Type} (f : ℕ → α → α) : ∀ (l : List ℕ) (k : ℕ) (g : ℕ → α) (a : ℕ), a ∉ l →
    (l.zipIdx k).foldl (fun g t => Function.update g t.1 (f t.2 (g t.1))) g a = g a
  | [], _, _, _, _ => rfl
  | b :: l, k, g, a, h => by
    rw [List.zipIdx_cons, List.foldl_cons, updatesIdx_off f l _ _ a (fun h' => h (List.mem_cons_of_mem _ h')), Function.update_of_ne]
    rintro rfl
    exact h List.mem_cons_self

theorem updatesIdx_keep {α β : Type} (q : α → β) (f : ℕ → α → α) (hf : ∀ i x, q (f i x) = q x) : ∀ (l : List ℕ) (k : ℕ) (g : ℕ → α) (a : ℕ),
    q ((l.zipIdx k).foldl (fun g t => Function.update g t.1 (f t.2 (g t.1))) g a) = q (g a)
  | [], _, _, _ => rfl
  | b :: l, k, g, a => by
    rw [List.zipIdx_cons, List.foldl_cons, updatesIdx_keep q f hf l]
    by_cases hab : a = b
    · subst hab
      rw [Function.update_self, hf]
    · rw [Function.update_of_ne hab]

theorem updatesIdx_map {α : Type} (f : ℕ → α → α) : ∀ (l : List ℕ) (_ : l.Nodup) (k : ℕ) (g : ℕ → α),
    l.map ((l.zipIdx k).foldl (fun g t => Function.update g t.1 (f t.2 (g t.1))) g) = (l.map g).mapIdx (fun i => f (k + i))
  | [], _, _, _ => rfl
  | b :: l, hl, k, g => by
    have hb : b ∉ l := (List.nodup_cons.1 hl).1
    rw [List.zipIdx_cons, List.foldl_cons, List.map_cons, List.map_cons, List.mapIdx_cons, updatesIdx_off f l _ _ b hb, Function.update_self,
      updatesIdx_map f l (List.nodup_cons.1 hl).2]
    have e : l.map (Function.update g b (f k (g b))) = l.map g :=
      List.map_congr_left fun a ha => Function.update_of_ne (ne_of_mem_of_not_mem ha hb) _ _
    rw [e]
    congr 1
    congr 1
    funext i
    rw [Nat.add_assoc, Nat.add_comm 1 i]

theorem map_update_off {α : Type} {l : List ℕ} {a : ℕ} (h : a ∉ l) (g : ℕ → α) (x : α) : l.map (Function.update g a x) = l.map g :=
  List.map_congr_left fun b hb => Function.update_of_ne (ne_of_mem_of_not_mem hb h) _ _

/-- Writing at a position of a list of distinct addresses. -/
theorem modify_update {α : Type} {l : List ℕ} (hl : l.Nodup) {r a : ℕ} (hr : l[r]? = some a) (g : ℕ → α) (f : α → α) :
    l.map (Function.update g a (f (g a))) = (l.map g).modify r f := by
  apply List.ext_getElem?
  intro i
  rw [List.getElem?_map, List.getElem?_modify, List.getElem?_map]
  have hri := (List.getElem?_eq_some_iff.1 hr)
  by_cases hir : i = r
  · subst hir
    rw [hr]
    simp
  · cases hi : l[i]? with
    | none => simp
    | some b =>
      have hbi := (List.getElem?_eq_some_iff.1 hi)
      have hab : b ≠ a := by
        rintro rfl
        refine hir ((List.Nodup.getElem_inj_iff hl).1 (hbi.2.trans hri.2.symm))
      simp [Function.update_of_ne hab, Ne.symm hir]

/-! ## Paths -/

theorem addPathVar_acc (l : List Path) : ∀ (m : Model) (acc : List Path),
    l.foldl addPathVar (m, acc) = ((l.foldl addPathVar (m, [])).1, acc ++ (l.foldl addPathVar (m, [])).2) := by
  induction l with
  | nil => intro m acc; simp
  | cons p l ih =>
    intro m acc
    rw [List.foldl_cons, List.foldl_cons]
    change List.foldl addPathVar (_, acc ++ [_]) l = ((List.foldl addPathVar (_, [] ++ [_]) l).1, acc ++ (List.foldl addPathVar (_, [] ++ [_]) l).2)
    rw [ih, ih _ ([] ++ [_])]
    simp

/-- The loop over the path variables when no object occurs twice. -/
theorem addPathVarsH (l : List ℕ) : ∀ (_ : l.Nodup) (m : Model) (h : Heap) (vs : List ℕ),
    (l.foldl addPathVarH (m, h, vs)).1 = ((l.map h.path).foldl addPathVar (m, [])).1 ∧
    l.map (l.foldl addPathVarH (m, h, vs)).2.1.path = ((l.map h.path).foldl addPathVar (m, [])).2 ∧
    (l.foldl addPathVarH (m, h, vs)).2.2 = vs ++ (((l.map h.path).foldl addPathVar (m, [])).2).map (·.id) := by
  induction l with
  | nil => intro _ m h vs; simp
  | cons a l ih =>
    intro hl m h vs
    have ha : a ∉ l := (List.nodup_cons.1 hl).1
    obtain ⟨i1, i2, i3⟩ := ih (List.nodup_cons.1 hl).2 (addPathVarH (m, h, vs) a).1 (addPathVarH (m, h, vs) a).2.1 (addPathVarH (m, h, vs) a).2.2
    have e : l.map (addPathVarH (m, h, vs) a).2.1.path = l.map h.path := map_update_off ha _ _
    rw [e] at i1 i2 i3
    have hoff : ∀ (l : List ℕ) (st : Model × Heap × List ℕ), a ∉ l → (l.foldl addPathVarH st).2.1.path a = st.2.1.path a := by
      intro l
      induction l with
      | nil => intro st _; rfl
      | cons b l ih =>
        intro st h
        rw [List.foldl_cons, ih _ (fun h' => h (List.mem_cons_of_mem _ h'))]
        change Function.update st.2.1.path b _ a = _
        rw [Function.update_of_ne]
        rintro rfl
        exact h List.mem_cons_self
    have hid : (addPathVarH (m, h, vs) a).2.1.path a = { h.path a with id := m.vars.length } := by
      change Function.update h.path a _ a = _
      rw [Function.update_self]
    have hm : (addPathVarH (m, h, vs) a).1 = (addPathVar (m, []) (h.path a)).1 := by
      unfold addPathVarH addPathVar Heap.setPath
      simp
    rw [List.foldl_cons, List.map_cons, List.map_cons, List.foldl_cons]
    have e2 : addPathVar (m, []) (h.path a) = ((addPathVarH (m, h, vs) a).1, [{ h.path a with id := m.vars.length }]) := by
      rw [hm]
      rfl
    rw [e2, addPathVar_acc]
    refine ⟨i1, ?_, ?_⟩
    · rw [hoff l _ ha, hid]
      exact congrArg _ i2
    · refine i3.trans ?_
      change (vs ++ [m.vars.length]) ++ _ = _
      simp

/-- The loop writes the ids of these paths, and no other object. -/
theorem addPathVarsH_frame (l : List ℕ) : ∀ (st : Model × Heap × List ℕ),
    (l.foldl addPathVarH st).2.1 = { st.2.1 with path := (l.foldl addPathVarH st).2.1.path } ∧
    (∀ a, ((l.foldl addPathVarH st).2.1.path a).content = (st.2.1.path a).content) ∧
    (∀ a, ((l.foldl addPathVarH st).2.1.path a).initial = (st.2.1.path a).initial) ∧
    ∀ a ∉ l, (l.foldl addPathVarH st).2.1.path a = st.2.1.path a := by
  induction l with
  | nil => intro st; exact ⟨rfl, fun _ => rfl, fun _ => rfl, fun _ _ => rfl⟩
  | cons b l ih =>
    intro st
    obtain ⟨i1, i2, i3, i4⟩ := ih (addPathVarH st b)
    rw [List.foldl_cons]
    refine ⟨i1, fun a => (i2 a).trans ?_, fun a => (i3 a).trans ?_, fun a ha => (i4 a (fun h => ha (List.mem_cons_of_mem _ h))).trans ?_⟩
    · change (Function.update st.2.1.path b _ a).content = _
      by_cases hab : a = b
      · subst hab; rw [Function.update_self]; rfl
      · rw [Function.update_of_ne hab]
    · change (Function.update st.2.1.path b _ a).initial = _
      by_cases hab : a = b
      · subst hab; rw [Function.update_self]
      · rw [Function.update_of_ne hab]
    · change Function.update st.2.1.path b _ a = _
      rw [Function.update_of_ne]
      rintro rfl
      exact ha List.mem_cons_self

/-- Marking the initial paths. -/
theorem marksH (l : List ℕ) (h : Heap) : l.foldl (fun h a => h.setPath a { h.path a with initial := true }) h =
    { h with path := l.foldl (fun g a => Function.update g a { g a with initial := true }) h.path } := by
  induction l generalizing h with
  | nil => rfl
  | cons a l ih => rw [List.foldl_cons, List.foldl_cons, ih]; rfl

/-! ## Rows -/

/-- What `compute_satisfied_paths` does to one row. -/
def satRow (leaves : List Leaf) (splits : List Split) (paths : List Path) (X : List (List ℚ)) (r : ℕ) (row : Row) : Row :=
  paths.foldl (fun row p =>
    if rowSatisfiesPath (X.getD r []) (leafAt leaves p.leafId) splits p then { row with reachablePaths := setAdd row.reachablePaths p.id }
    else row) row

theorem satRow_clr (leaves : List Leaf) (splits : List Split) (paths : List Path) (X : List (List ℚ)) (r : ℕ) (row : Row) :
    clr (satRow leaves splits paths X r row) = clr row := by
  unfold satRow
  induction paths generalizing row with
  | nil => rfl
  | cons p ps ih =>
    rw [List.foldl_cons, ih]
    split <;> rfl

theorem satRowH (H : HArgs) (X : List (List ℚ)) (a r : ℕ) (ps : List Path) (h : Heap) :
    ps.foldl (fun h p =>
      if rowSatisfiesPath (X.getD r []) (leafAt H.leaves p.leafId) (H.splits.map h.split) p then
        h.setRow a { h.row a with reachablePaths := setAdd (h.row a).reachablePaths p.id }
      else h) h = h.setRow a (satRow H.leaves (H.splits.map h.split) ps X r (h.row a)) := by
  induction ps generalizing h with
  | nil =>
    unfold Heap.setRow satRow
    simp
  | cons p ps ih =>
    rw [List.foldl_cons, ih]
    unfold satRow
    rw [List.foldl_cons]
    split
    · unfold Heap.setRow
      simp
    · rfl

theorem computeSatisfiedPathsH_eq (H : HArgs) (X : List (List ℚ)) (paths rows : List ℕ) (h : Heap) :
    computeSatisfiedPathsH H X paths rows h = { h with
      row := rows.zipIdx.foldl (fun g t => Function.update g t.1 (satRow H.leaves (H.splits.map h.split) (paths.map h.path) X t.2 (g t.1))) h.row } := by
  unfold computeSatisfiedPathsH
  generalize rows.zipIdx = l
  induction l generalizing h with
  | nil => rfl
  | cons t l ih =>
    rw [List.foldl_cons, satRowH, ih]
    rfl

theorem reachH_eq (rs : List ℕ) (v : ℕ) (rows : List ℕ) (h : Heap) :
    rows.foldl (reachH rs v) h = { h with row := (rows.foldl (reachH rs v) h).row } := by
  induction rows generalizing h with
  | nil => rfl
  | cons r rows ih =>
    rw [List.foldl_cons, ih]
    unfold reachH
    split <;> rfl

theorem reachH_clr (rs : List ℕ) (v : ℕ) (rows : List ℕ) (h : Heap) (a : ℕ) : clr ((rows.foldl (reachH rs v) h).row a) = clr (h.row a) := by
  induction rows generalizing h with
  | nil => rfl
  | cons r rows ih =>
    rw [List.foldl_cons, ih]
    unfold reachH
    split
    · rfl
    · rename_i b _
      change clr (Function.update h.row b _ a) = _
      by_cases hab : a = b
      · subst hab; rw [Function.update_self]; rfl
      · rw [Function.update_of_ne hab]

theorem reachH_off (rs : List ℕ) (v : ℕ) (rows : List ℕ) (h : Heap) (a : ℕ) (ha : a ∉ rs) : (rows.foldl (reachH rs v) h).row a = h.row a := by
  induction rows generalizing h with
  | nil => rfl
  | cons r rows ih =>
    rw [List.foldl_cons, ih]
    unfold reachH
    split
    · rfl
    · rename_i b hb
      change Function.update h.row b _ a = _
      rw [Function.update_of_ne]
      rintro rfl
      exact ha (List.mem_of_getElem? hb)

theorem reachH_map {rs : List ℕ} (hrs : rs.Nodup) (v : ℕ) (rows : List ℕ) (h : Heap) :
    rs.map (rows.foldl (reachH rs v) h).row =
      rows.foldl (fun ds r => ds.modify r (fun d => { d with reachablePaths := setAdd d.reachablePaths v })) (rs.map h.row) := by
  induction rows generalizing h with
  | nil => rfl
  | cons r rows ih =>
    rw [List.foldl_cons, List.foldl_cons, ih]
    congr 1
    unfold reachH
    cases hr : rs[r]? with
    | none =>
      simp only
      have : (rs.map h.row).length ≤ r := by simpa using List.getElem?_eq_none_iff.1 hr
      rw [List.modify_eq_self this]
    | some a => exact modify_update hrs hr h.row (fun d => { d with reachablePaths := setAdd d.reachablePaths v })

/-! ## Nodes -/

/-- What `preprocess_rows` does to one node. -/
def prepOne (depth : ℕ) (node : Node) : Node :=
  let parent : ℤ := if node.id = 0 then -1 else (((node.id - 1) / 2 : ℕ) : ℤ)
  let left := 2 * node.id + 1
  let right := 2 * node.id + 2
  if left ≥ 2 ^ depth - 1 then
    { node with
      parent := parent
      leftChild := left - (2 ^ depth - 1)
      rightChild := right - (2 ^ depth - 1)
      childrenAreLeaves := true }
  else
    { node with
      parent := parent
      leftChild := left
      rightChild := right }

theorem preprocessNodes_one (nodes : List Node) (depth : ℕ) : preprocessNodes nodes depth = nodes.map (prepOne depth) := rfl

theorem preprocessNodeH_eq (depth : ℕ) (h : Heap) (a : ℕ) : preprocessNodeH depth h a = h.setNode a (prepOne depth (h.node a)) := by
  unfold preprocessNodeH prepOne Heap.setNode
  by_cases h0 : (h.node a).id = 0
  · simp only [h0, if_true, Function.update_self, Function.update_idem]
    split <;> simp
  · simp only [h0, if_false, Function.update_self, Function.update_idem]
    split <;> simp

theorem preprocessNodesH_eq (depth : ℕ) (l : List ℕ) (h : Heap) : l.foldl (preprocessNodeH depth) h =
    { h with node := l.foldl (fun g a => Function.update g a (prepOne depth (g a))) h.node } := by
  induction l generalizing h with
  | nil => rfl
  | cons a l ih => rw [List.foldl_cons, List.foldl_cons, ih, preprocessNodeH_eq]; rfl

/-- The fields of a node that `fit` does not write. -/
def Node.core (n : Node) : ℕ × List ℕ × List ℕ × ℤ := (n.id, n.candidateSplits, n.candidateSplitsCount, n.lastSplit)

theorem prepOne_core (depth : ℕ) (n : Node) : (prepOne depth n).core = n.core := by
  unfold prepOne
  simp only
  split <;> rfl

/-! ## New rows -/

theorem newRowsH (H : HArgs) (paths : List ℕ) (X : List (List ℚ)) : ∀ (h : Heap) (acc : List ℕ), (∀ a ∈ acc, a < h.nextRow) →
    (X.foldl (newRowH H paths) (h, acc)).1 = { h with
      row := (X.foldl (newRowH H paths) (h, acc)).1.row
      nextRow := h.nextRow + X.length } ∧
    (X.foldl (newRowH H paths) (h, acc)).2 = acc ++ List.range' h.nextRow X.length ∧
    (X.foldl (newRowH H paths) (h, acc)).2.map (X.foldl (newRowH H paths) (h, acc)).1.row =
      acc.map h.row ++ X.map (makeRow H.leaves (H.nodes.map h.node) (H.splits.map h.split) (paths.map h.path)) ∧
    ∀ a < h.nextRow, (X.foldl (newRowH H paths) (h, acc)).1.row a = h.row a := by
  induction X with
  | nil => intro h acc _; simp
  | cons x X ih =>
    intro h acc hacc
    obtain ⟨h1, hh1⟩ : ∃ h1, h1 = (newRowH H paths (h, acc) x).1 := ⟨_, rfl⟩
    have e : newRowH H paths (h, acc) x = (h1, acc ++ [h.nextRow]) := by rw [hh1]; rfl
    have en : h1.nextRow = h.nextRow + 1 := by rw [hh1]; rfl
    have er : h1.row = Function.update h.row h.nextRow (makeRow H.leaves (H.nodes.map h.node) (H.splits.map h.split) (paths.map h.path) x) := by
      rw [hh1]; rfl
    have ep : h1.path = h.path ∧ h1.split = h.split ∧ h1.node = h.node ∧ h1.nextPath = h.nextPath := by
      rw [hh1]; exact ⟨rfl, rfl, rfl, rfl⟩
    have hacc' : ∀ a ∈ acc ++ [h.nextRow], a < h1.nextRow := by
      intro a ha
      rw [en]
      rcases List.mem_append.1 ha with ha | ha
      · exact (hacc a ha).trans (Nat.lt_succ_self _)
      · rw [List.mem_singleton.1 ha]; exact Nat.lt_succ_self _
    obtain ⟨i1, i2, i3, i4⟩ := ih h1 (acc ++ [h.nextRow]) hacc'
    rw [List.foldl_cons, e]
    refine ⟨?_, ?_, ?_, ?_⟩
    · rw [i1, en, ep.1, ep.2.1, ep.2.2.1, ep.2.2.2, List.length_cons]
      simp only [Nat.add_assoc, Nat.add_comm 1]
    · rw [i2, en, List.length_cons, List.range'_succ]
      simp
    · rw [i3, ep.1, ep.2.1, ep.2.2.1, er]
      have : acc.map (Function.update h.row h.nextRow (makeRow H.leaves (H.nodes.map h.node) (H.splits.map h.split) (paths.map h.path) x)) =
          acc.map h.row := map_update_off (fun hm => absurd (hacc _ hm) (Nat.lt_irrefl _)) _ _
      rw [List.map_append, this]
      simp
    · intro a ha
      rw [i4 a (by omega), er, Function.update_of_ne (by omega)]

/-! ## Splits -/

theorem enterCuts_eq (splits : List Split) (first : ℕ) (rows : List (List Bool)) :
    addCutsToSplits splits first rows = splits.map (fun sp => (rows.zipIdx first).foldl (fun sp c => enterCut c sp) sp) := rfl

theorem enterCut_content (c : List Bool × ℕ) (sp : Split) : (enterCut c sp).content = sp.content := by
  unfold enterCut
  split <;> rfl

theorem setSplitsH (f : Split → Split) (l : List ℕ) (h : Heap) : l.foldl (fun h a => h.setSplit a (f (h.split a))) h =
    { h with split := l.foldl (fun g a => Function.update g a (f (g a))) h.split } := by
  induction l generalizing h with
  | nil => rfl
  | cons a l ih => rw [List.foldl_cons, List.foldl_cons, ih]; rfl

theorem enterCutsH_map {splits : List ℕ} (hs : splits.Nodup) (first : ℕ) (rows : List (List Bool)) (h : Heap) :
    splits.map (enterCutsH splits first rows h).split = addCutsToSplits (splits.map h.split) first rows := by
  rw [enterCuts_eq]
  unfold enterCutsH
  generalize rows.zipIdx first = l
  induction l generalizing h with
  | nil => simp
  | cons c l ih =>
    rw [List.foldl_cons, ih, setSplitsH]
    simp only
    rw [updates_map (enterCut c) splits hs, List.map_map]
    rfl

theorem enterCutsH_frame (splits : List ℕ) (first : ℕ) (rows : List (List Bool)) (h : Heap) :
    enterCutsH splits first rows h = { h with split := (enterCutsH splits first rows h).split } ∧
    (∀ a, ((enterCutsH splits first rows h).split a).content = (h.split a).content) ∧
    ∀ a ∉ splits, (enterCutsH splits first rows h).split a = h.split a := by
  unfold enterCutsH
  generalize rows.zipIdx first = l
  induction l generalizing h with
  | nil => exact ⟨rfl, fun _ => rfl, fun _ _ => rfl⟩
  | cons c l ih =>
    rw [List.foldl_cons]
    obtain ⟨i1, i2, i3⟩ := ih (splits.foldl (fun h a => h.setSplit a (enterCut c (h.split a))) h)
    rw [setSplitsH] at i1 i2 i3 ⊢
    exact ⟨i1, fun a => (i2 a).trans (updates_keep Split.content _ (enterCut_content c) _ _ _), fun a ha => (i3 a ha).trans (updates_off _ _ _ _ ha)⟩

end Verif.DTree
