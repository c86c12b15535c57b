import Verif.DTree.HeapRefine

/-!
# What `fit` writes on the heap

No assumption on the objects: they may be passed twice and may be shared with other classifiers.
-/

set_option linter.unusedSectionVars false
set_option linter.unusedSimpArgs false

namespace Verif.DTree

open MP Spec Fit

variable {Ω : Type} {H : HArgs} {X : List (List ℚ)} {o : FitOracle Ω}

namespace Spec

/-- What code may have written that works with the paths `paths`, the rows `rows`, and the splits and nodes of the arguments: the variable number of its
paths, the cut numbers of its splits, the family links of its nodes, the recorded paths of its rows. Nothing else that existed before is changed. -/
structure Wrote (H : HArgs) (paths rows : List ℕ) (h h' : Heap) : Prop where
  path : ∀ a < h.nextPath, (h'.path a).content = (h.path a).content ∧ (h'.path a).initial = (h.path a).initial
  path_off : ∀ a < h.nextPath, a ∉ paths → h'.path a = h.path a
  split : ∀ a, (h'.split a).content = (h.split a).content
  split_off : ∀ a ∉ H.splits, h'.split a = h.split a
  node : ∀ a, (h'.node a).core = (h.node a).core
  node_off : ∀ a ∉ H.nodes, h'.node a = h.node a
  row : ∀ a < h.nextRow, clr (h'.row a) = clr (h.row a)
  row_off : ∀ a < h.nextRow, a ∉ rows → h'.row a = h.row a
  nextPath : h.nextPath ≤ h'.nextPath
  nextRow : h.nextRow ≤ h'.nextRow

end Spec

/-- A step of the master problem. -/
structure HStep (H : HArgs) (s s' : HM) : Prop where
  wrote : Wrote H s.paths (s.rows.getD []) s.heap s'.heap
  paths : ∀ a ∈ s'.paths, a ∈ s.paths ∨ s.heap.nextPath ≤ a ∧ a < s'.heap.nextPath
  rows : ∀ a ∈ s'.rows.getD [], a ∈ s.rows.getD [] ∨ s.heap.nextRow ≤ a
  selected : ∀ a ∈ s'.selected, a ∈ s.selected ∨ a ∈ s.paths ∨ s.heap.nextPath ≤ a ∧ a < s'.heap.nextPath

theorem HStep.refl (s : HM) : HStep H s s :=
  ⟨⟨fun _ _ => ⟨rfl, rfl⟩, fun _ _ _ => rfl, fun _ => rfl, fun _ _ => rfl, fun _ => rfl, fun _ _ => rfl, fun _ _ => rfl, fun _ _ _ => rfl, le_refl _, le_refl _⟩,
    fun _ h => Or.inl h, fun _ h => Or.inl h, fun _ h => Or.inl h⟩

theorem HStep.trans {s s' s'' : HM} (h : HStep H s s') (h' : HStep H s' s'') : HStep H s s'' := by
  have hp : ∀ a < s.heap.nextPath, a ∉ s.paths → a ∉ s'.paths := fun a ha hn hm => by
    rcases h.paths a hm with h1 | h1
    · exact hn h1
    · omega
  have hr : ∀ a < s.heap.nextRow, a ∉ s.rows.getD [] → a ∉ s'.rows.getD [] := fun a ha hn hm => by
    rcases h.rows a hm with h1 | h1
    · exact hn h1
    · omega
  have hpp : ∀ a, a ∈ s'.paths ∨ s'.heap.nextPath ≤ a ∧ a < s''.heap.nextPath → a ∈ s.paths ∨ s.heap.nextPath ≤ a ∧ a < s''.heap.nextPath := by
    intro a ha
    have h1 := h.wrote.nextPath
    have h2 := h'.wrote.nextPath
    rcases ha with ha | ha
    · rcases h.paths a ha with h3 | h3
      · exact Or.inl h3
      · exact Or.inr ⟨h3.1, by omega⟩
    · exact Or.inr ⟨by omega, ha.2⟩
  have l1 := h.wrote.nextPath
  have l2 := h.wrote.nextRow
  refine ⟨⟨?_, ?_, fun a => (h'.wrote.split a).trans (h.wrote.split a), fun a ha => (h'.wrote.split_off a ha).trans (h.wrote.split_off a ha),
    fun a => (h'.wrote.node a).trans (h.wrote.node a), fun a ha => (h'.wrote.node_off a ha).trans (h.wrote.node_off a ha), ?_, ?_,
    le_trans l1 h'.wrote.nextPath, le_trans l2 h'.wrote.nextRow⟩, fun a ha => hpp a (h'.paths a ha), ?_, ?_⟩
  · intro a ha
    have h1 := h.wrote.path a ha
    have h2 := h'.wrote.path a (by omega)
    exact ⟨h2.1.trans h1.1, h2.2.trans h1.2⟩
  · intro a ha hn
    exact (h'.wrote.path_off a (by omega) (hp a ha hn)).trans (h.wrote.path_off a ha hn)
  · intro a ha
    exact (h'.wrote.row a (by omega)).trans (h.wrote.row a ha)
  · intro a ha hn
    exact (h'.wrote.row_off a (by omega) (hr a ha hn)).trans (h.wrote.row_off a ha hn)
  · intro a ha
    rcases h'.rows a ha with h1 | h1
    · exact h.rows a h1
    · exact Or.inr (by omega)
  · intro a ha
    rcases h'.selected a ha with h1 | h1
    · have l3 := h'.wrote.nextPath
      rcases h.selected a h1 with h2 | h2 | h2
      · exact Or.inl h2
      · exact Or.inr (Or.inl h2)
      · exact Or.inr (Or.inr ⟨h2.1, by omega⟩)
    · exact Or.inr (hpp a h1)

theorem HStep.put (s : HM) (m : MS) : HStep H s (s.put m) := by
  have h := HStep.refl (H := H) s
  exact ⟨h.wrote, h.paths, h.rows, h.selected⟩

theorem step_cuts (s : HM) (first : ℕ) (rows : List (List Bool)) : HStep H s { s with heap := enterCutsH H.splits first rows s.heap } := by
  obtain ⟨f1, f2, f3⟩ := enterCutsH_frame H.splits first rows s.heap
  generalize enterCutsH H.splits first rows s.heap = h1 at f1 f2 f3
  generalize h1.split = sp at f1 f2 f3
  subst f1
  exact ⟨⟨fun _ _ => ⟨rfl, rfl⟩, fun _ _ _ => rfl, f2, f3, fun _ => rfl, fun _ _ => rfl, fun _ _ => rfl, fun _ _ _ => rfl, le_refl _, le_refl _⟩,
    fun _ h => Or.inl h, fun _ h => Or.inl h, fun _ h => Or.inl h⟩

variable {om : Oracle}

theorem step_addCuts (s : HM) : HStep H s (addCutsH H om s).2 := by
  unfold addCutsH
  simp only
  split
  · exact HStep.put _ _
  · exact (step_cuts s _ _).trans (HStep.put (H := H) _ _)

theorem step_cutRound (s : HM) : HStep H s (cutRoundH H X om s).2.2 := by
  unfold cutRoundH
  simp only
  refine HStep.trans ?_ (HStep.put _ _)
  obtain ⟨b, hb⟩ : ∃ b, b = (if H.betaAsCuts then ((addBetaCuts (H.conf X (s.put (storeLp s.rest)).heap) ((s.put (storeLp s.rest)).view H)).1,
    (s.put (storeLp s.rest)).put (addBetaCuts (H.conf X (s.put (storeLp s.rest)).heap) ((s.put (storeLp s.rest)).view H)).2) else (0, s.put (storeLp s.rest))) := ⟨_, rfl⟩
  have h1 : HStep H s b.2 := by
    rw [hb]
    split
    · exact (HStep.put s _).trans (HStep.put _ _)
    · exact HStep.put s _
  rw [← hb]
  split
  · exact h1.trans (step_addCuts _)
  · exact h1

theorem step_cutRounds : ∀ (n : ℕ) (acc : List (List Bool)) (s : HM), HStep H s (cutRoundsH H X om n acc s).2
  | 0, _, s => HStep.refl s
  | n + 1, acc, s => by
    unfold cutRoundsH
    simp only
    split
    · split
      · exact (step_cutRound s).trans ((HStep.put _ _).trans (step_cutRounds n _ _))
      · exact step_cutRound s
    · exact HStep.refl s

theorem step_solveRmp (s : HM) : HStep H s (solveRmpH H X om s).2 := by
  unfold solveRmpH
  split
  · simp only
    obtain ⟨s1, hs1⟩ : ∃ s1, s1 = s.put (lpSolve om { s.rest with
      prevRmpObj := s.rest.rmpObj
      iter := s.rest.iter + 1 }) := ⟨_, rfl⟩
    dsimp only at hs1 ⊢
    rw [← hs1]
    obtain ⟨r, hr⟩ : ∃ r, r = (if s1.rest.iter % 10 = 0 then cutRoundsH H X om H.cutsRound [] s1 else ([], s1)) := ⟨_, rfl⟩
    have h1 : HStep H s s1 := by rw [hs1]; exact HStep.put _ _
    have h2 : HStep H s r.2 := by
      rw [hr]
      split
      · exact h1.trans (step_cutRounds _ _ _)
      · exact h1
    rw [← hr]
    split
    · exact h2.trans (HStep.put _ _)
    · exact h2
  · exact HStep.refl s

theorem step_solveIp (s : HM) : HStep H s (solveIpH om s).2 := by
  unfold solveIpH
  split
  · simp only
    split
    · refine ⟨(HStep.refl s).wrote, fun _ h => Or.inl h, fun _ h => Or.inl h, fun a ha => Or.inr (Or.inl (List.mem_of_mem_filter ha))⟩
    · exact ⟨(HStep.refl s).wrote, fun _ h => Or.inl h, fun _ h => Or.inl h, fun a ha => absurd ha List.not_mem_nil⟩
  · exact HStep.refl s

theorem dataRowsH_list (paths : List ℕ) (h : Heap) (rows : Option (List ℕ)) :
    ∀ a ∈ (dataRowsH H X paths rows h).2, a ∈ rows.getD [] ∨ h.nextRow ≤ a := by
  unfold dataRowsH
  cases rows with
  | none =>
    simp only
    unfold preprocessRowsH
    rw [preprocessNodesH_eq]
    obtain ⟨-, n2, -, -⟩ := newRowsH H paths X { h with
      node := H.nodes.foldl (fun g a => Function.update g a (prepOne (Nat.log 2 H.leaves.length) (g a))) h.node } [] (fun a ha => absurd ha (List.not_mem_nil))
    intro a ha
    rw [n2] at ha
    simp only [List.nil_append, List.mem_range'_1] at ha
    exact Or.inr ha.1
  | some rs => exact fun a ha => Or.inl ha

theorem step_generateMp (s : HM) : HStep H s (generateMpH H X s).2 := by
  unfold generateMpH
  split
  · exact HStep.refl s
  · cases createCutModel H.leaves (H.splits.map s.heap.split) (s.paths.map s.heap.path) with
    | error e => exact HStep.refl s
    | ok t =>
      obtain ⟨cp, sv, pv⟩ := t
      simp only
      obtain ⟨f1, f2, f3, f4⟩ := addPathVarsH_frame s.paths (s.rest.m, s.heap, [])
      generalize s.paths.foldl addPathVarH (s.rest.m, s.heap, []) = pr at f1 f2 f3 f4
      obtain ⟨m1, h1, vs⟩ := pr
      simp only at f1 f2 f3 f4 ⊢
      generalize hP : h1.path = P at f1 f2 f3 f4
      subst f1
      obtain ⟨d1, d2, d3, d4, d5, d6, d7, d8, -⟩ := dataRowsH_frame (H := H) (X := X) s.paths { s.heap with path := P } s.rows
      have d9 := dataRowsH_list (H := H) (X := X) s.paths { s.heap with path := P } s.rows
      generalize dataRowsH H X s.paths s.rows { s.heap with path := P } = dr at d1 d2 d3 d4 d5 d6 d7 d8 d9
      obtain ⟨h2, rows⟩ := dr
      simp only at d1 d2 d3 d4 d5 d6 d7 d8 d9 ⊢
      refine ⟨⟨?_, ?_, ?_, ?_, d5, d6, d7, ?_, d3.ge, d4⟩, fun _ h => Or.inl h, d9, fun _ h => Or.inl h⟩
      · intro a _
        change (h2.path a).content = _ ∧ (h2.path a).initial = _
        rw [d1]
        exact ⟨f2 a, f3 a⟩
      · intro a _ hn
        change h2.path a = _
        rw [d1]
        exact f4 a hn
      · intro a
        change (h2.split a).content = _
        rw [d2]
      · intro a _
        change h2.split a = _
        rw [d2]
      · intro a ha hn
        refine d8 a ha (fun rs hrs => ?_)
        rw [hrs] at hn
        exact hn

theorem recordH_frame (rows : Option (List ℕ)) (v : ℕ) (sat : List ℕ) (h : Heap) :
    recordH rows v sat h = { h with row := (recordH rows v sat h).row } ∧ (∀ a, clr ((recordH rows v sat h).row a) = clr (h.row a)) ∧
      ∀ a ∉ rows.getD [], (recordH rows v sat h).row a = h.row a := by
  unfold recordH
  cases rows with
  | none => exact ⟨rfl, fun _ => rfl, fun _ _ => rfl⟩
  | some rs => exact ⟨reachH_eq _ _ _ _, reachH_clr _ _ _ _, fun a ha => reachH_off _ _ _ _ a ha⟩

theorem step_addColumn (p : Path) (s : HM) : HStep H s (addColumnH H X p s).2 := by
  have key : ∀ (g : ℕ → Row) (m : MS), (∀ a, clr (g a) = clr (s.heap.row a)) → (∀ a ∉ s.rows.getD [], g a = s.heap.row a) →
      HStep H s ⟨{ s.heap with
        path := Function.update s.heap.path s.heap.nextPath { p with id := s.rest.m.vars.length }
        row := g
        nextPath := s.heap.nextPath + 1 }, s.paths ++ [s.heap.nextPath], s.selected, s.rows, m⟩ := by
    intro g m h1 h2
    have hne : ∀ a < s.heap.nextPath, Function.update s.heap.path s.heap.nextPath { p with id := s.rest.m.vars.length } a = s.heap.path a :=
      fun a ha => Function.update_of_ne (by omega) _ _
    refine ⟨⟨fun a ha => ?_, fun a ha _ => hne a ha, fun _ => rfl, fun _ _ => rfl, fun _ => rfl, fun _ _ => rfl, fun a _ => h1 a, fun a _ => h2 a,
      Nat.le_succ _, le_refl _⟩, ?_, fun _ h => Or.inl h, fun _ h => Or.inl h⟩
    · change (Function.update s.heap.path s.heap.nextPath { p with id := s.rest.m.vars.length } a).content = _ ∧
        (Function.update s.heap.path s.heap.nextPath { p with id := s.rest.m.vars.length } a).initial = _
      rw [hne a ha]
      exact ⟨rfl, rfl⟩
    · intro a ha
      rcases List.mem_append.1 ha with ha | ha
      · exact Or.inl ha
      · rw [List.mem_singleton.1 ha]
        exact Or.inr ⟨le_refl _, Nat.lt_succ_self _⟩
  unfold addColumnH Heap.setPath
  simp only [Function.update_self]
  cases getSatisfiedRows { p with id := s.rest.m.vars.length } (leafAt H.leaves p.leafId) (H.splits.map s.heap.split) with
  | error e => exact key s.heap.row _ (fun _ => rfl) (fun _ _ => rfl)
  | ok rows =>
    simp only
    obtain ⟨k1, k2, k3⟩ := recordH_frame s.rows s.rest.m.vars.length rows { s.heap with
        path := Function.update s.heap.path s.heap.nextPath { p with id := s.rest.m.vars.length }
        nextPath := s.heap.nextPath + 1 }
    generalize recordH s.rows s.rest.m.vars.length rows { s.heap with
        path := Function.update s.heap.path s.heap.nextPath { p with id := s.rest.m.vars.length }
        nextPath := s.heap.nextPath + 1 } = h2 at k1 k2 k3
    generalize h2.row = g at k1 k2 k3
    subst k1
    simp only
    cases getSatisfiedCuts { p with id := s.rest.m.vars.length } (leafAt H.leaves p.leafId) (H.splits.map s.heap.split) with
    | error e => exact key g _ k2 k3
    | ok cuts => exact key g _ k2 k3

theorem step_preserved (s0 : HM) : Preserved (envH o H X) (fun w _ => HStep H s0 w.m) := by
  constructor
  · exact fun w tr h => h
  · exact fun w tr t h => h
  · exact fun w tr s t h => h
  · exact fun w tr h => h
  · exact fun w tr h => h
  · exact fun w tr y h => h.trans (step_generateMp w.m)
  · exact fun w tr h => h.trans (step_solveRmp w.m)
  · exact fun w tr h => h
  · intro w tr l i D h
    change HStep H s0 (updateAtH H X l i D w).2.m
    unfold updateAtH
    split
    · exact h.trans (step_cuts w.m _ _)
    · split <;> exact h
  · exact fun w tr l i D h => h
  · exact fun w tr l i p h => h.trans (step_addColumn p w.m)
  · exact fun w tr h => h.trans (step_solveIp w.m)

theorem fit_step {cfg : Fit.Config} {fuel : ℕ} {y : List ℤ} {e0 : Fit.Est} {w : HW Ω} {r : Except Err Unit × Fit.St (HW Ω) Duals Path}
    (hr : Fit.fit (envH o H X) cfg fuel y e0 w = some r) : HStep H w.m r.2.world.m :=
  (step_preserved w.m).fit cfg fuel y e0 w (HStep.refl _) r hr

end Verif.DTree
