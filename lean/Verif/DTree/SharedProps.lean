import Verif.DTree.Strict

/-!
# Property C113: two tree classifiers that share their argument objects

`DTreeClassifier` keeps references to the paths, splits and data rows that it is given (see `Verif/DTree/ReuseProps.lean`). Two classifiers
constructed from the same objects therefore write to each other's objects: `fit` of the one sets `path.id` of all paths, appends to the list of
paths and enters cuts into the splits of the other. Nothing is assumed about the arguments, the data, the solvers or the outcome of the calls.
-/

set_option linter.unusedSectionVars false
set_option linter.unusedSimpArgs false

namespace Verif.DTree

open MP

variable {Ω : Type}

/-! ## The world of a classifier while another one is trained -/

namespace Spec

/-- Any number of calls of `fit` on a classifier, on any data and with any outcome; whatever happens in between changes the hidden state. -/
inductive Fits (A : Args) : World Ω → World Ω → Prop
  | refl (w : World Ω) : Fits A w w
  | idle {w w' : World Ω} (h : Fits A w w') (ω : Ω) : Fits A w { w' with ω := ω }
  | fit {w w' : World Ω} (h : Fits A w w') (o : FitOracle Ω) (X : List (List ℚ)) (y : List ℤ) (maxIt : ℤ) (limit : ℚ) (fuel : ℕ) (e0 : Fit.Est)
      {r : Except Err Unit × Fit.St (World Ω) Duals Path} (hr : Fit.fit (envS o A X) (config A maxIt limit) fuel y e0 w' = some r) :
      Fits A w r.2.world

end Spec

open Spec

/-- The world `w` of a classifier after another one, which has the same list of paths and the same splits, reached the world `w'`: the list
`paths_` and the splits are those of `w'` (`_dtree_classifier.py:549`, `:553`), and the data rows if both were constructed from the same rows
(`:554`). The selected paths are objects of the list, so they are read again at their positions. Everything else belongs to the classifier. -/
def World.sees (share : Bool) (w w' : World Ω) : World Ω :=
  { w with
    master := { w.master with
      paths := w'.master.paths
      splits := w'.master.splits
      dataRows := if share then w'.master.dataRows else w.master.dataRows
      selected := w.master.selected.map (fun p => w'.master.paths.getD (w.master.paths.idxOf p) p) } }

namespace Spec

/-- Two live classifiers: the second is constructed from the list of paths and the splits of the first, at any time, and then `fit` is called on
either of them in any order. -/
inductive Turns (A B : Args) (share : Bool) : World Ω → World Ω → Prop
  | start {ω : Ω} {w : World Ω} (h : Fits A (World.init A ω) w) (hp : B.paths = w.master.paths) (hs : B.splits = w.master.splits) (ω' : Ω) :
      Turns A B share (w.sees share (World.init B ω')) (World.init B ω')
  | first {w1 w2 w : World Ω} (h : Turns A B share w1 w2) (hf : Fits A w1 w) : Turns A B share w (w2.sees share w)
  | second {w1 w2 w : World Ω} (h : Turns A B share w1 w2) (hf : Fits B w2 w) : Turns A B share (w1.sees share w) w

end Spec

/-! ## What `fit` writes -/

/-- The fields of a path that are not written after its construction. -/
def Path.content (p : Path) : ℕ × List ℕ × List ℕ × ℚ × ℤ := (p.leafId, p.nodeIds, p.splits, p.cost, p.target)

/-- The fields of a split that `fit` does not write. -/
def Split.content (sp : Split) : ℕ × ℕ × ℚ × Bool × List ℕ × List ℕ := (sp.id, sp.feature, sp.threshold, sp.removed, sp.leftRows, sp.rightRows)

/-- From `w` to `w'` paths are appended and no content is changed. -/
def Frame (w w' : World Ω) : Prop :=
  w.master.paths.map Path.content <+: w'.master.paths.map Path.content ∧
    w'.master.splits.map Split.content = w.master.splits.map Split.content

theorem Frame.refl (w : World Ω) : Frame w w := ⟨List.prefix_refl _, rfl⟩

theorem Frame.trans {w w' w'' : World Ω} (h : Frame w w') (h' : Frame w' w'') : Frame w w'' := ⟨h.1.trans h'.1, h'.2.trans h.2⟩

theorem addCuts_content (splits : List Split) (first : ℕ) (rows : List (List Bool)) :
    (addCutsToSplits splits first rows).map Split.content = splits.map Split.content := by
  unfold addCutsToSplits
  rw [List.map_map]
  refine List.map_congr_left fun sp _ => ?_
  simp only [Function.comp_apply]
  generalize rows.zipIdx first = l
  clear * -
  induction l generalizing sp with
  | nil => rfl
  | cons c l ih =>
    rw [List.foldl_cons, ih]
    split_ifs <;> rfl

theorem addPathVars_content (paths : List Path) : ∀ st : Model × List Path,
    (paths.foldl addPathVar st).2.map Path.content = st.2.map Path.content ++ paths.map Path.content := by
  induction paths with
  | nil => intro st; simp
  | cons p ps ih =>
    intro st
    rw [List.foldl_cons, ih]
    simp [addPathVar, Path.content]

/-- What the operations of the master problem other than `generate_mp`, `add_column` and `solve_ip` keep. -/
def Keep (s s' : MS) : Prop :=
  s'.paths = s.paths ∧ s'.selected = s.selected ∧ s'.generated = s.generated ∧ s'.splits.map Split.content = s.splits.map Split.content

theorem Keep.refl (s : MS) : Keep s s := ⟨rfl, rfl, rfl, rfl⟩

theorem Keep.trans {s s' s'' : MS} (h : Keep s s') (h' : Keep s' s'') : Keep s s'' :=
  ⟨h'.1.trans h.1, h'.2.1.trans h.2.1, h'.2.2.1.trans h.2.2.1, h'.2.2.2.trans h.2.2.2⟩

theorem addCuts_keep (o : Oracle) (s : MS) : Keep s (addCuts o s).2 := by
  unfold addCuts
  simp only
  split_ifs
  · exact ⟨rfl, rfl, rfl, rfl⟩
  · exact ⟨rfl, rfl, rfl, addCuts_content _ _ _⟩

theorem betaS_keep {c : Conf} {s : MS} {b : ℕ × MS} (h : betaS c s = .ok b) : Keep s b.2 := by
  unfold betaS at h
  split_ifs at h
  · unfold addBetaCutsS at h
    split at h
    · cases h
    · cases h; exact ⟨rfl, rfl, rfl, rfl⟩
  · cases h; exact Keep.refl s

theorem guardedE_ok {α : Type} {reads : Reads} {r : Except Err α} {a : α} (h : guardedE reads r = .ok a) : r = .ok a := by
  unfold guardedE at h
  split at h
  · cases h
  · exact h

theorem guarded_state {α σ : Type} {P : σ → Prop} {reads : Reads} {s : σ} {r : Except Err α × σ} (h1 : P s) (h2 : P r.2) : P (guarded reads s r).2 := by
  unfold guarded
  split
  · exact h1
  · exact h2

theorem cutRoundS_keep {c : Conf} {o : Oracle} {s : MS} {r : ℕ × List (List Bool) × MS} (h : cutRoundS c o s = .ok r) : Keep s r.2.2 := by
  have h := guardedE_ok h
  split at h
  · cases h
  · next b hb =>
    have h1 : Keep s b.2 := (show Keep s (storeLp s) from ⟨rfl, rfl, rfl, rfl⟩).trans (betaS_keep hb)
    split at h
    · cases h
    · next g hg =>
      cases h
      refine h1.trans ?_
      split_ifs at hg
      · have := guardedE_ok hg
        cases this
        exact (addCuts_keep o b.2).trans ⟨rfl, rfl, rfl, rfl⟩
      · cases hg
        exact ⟨rfl, rfl, rfl, rfl⟩

theorem cutRoundsS_keep {c : Conf} {o : Oracle} (n : ℕ) : ∀ {acc : List (List Bool)} {s : MS} {r : List (List Bool) × MS},
    cutRoundsS c o n acc s = .ok r → Keep s r.2 := by
  induction n with
  | zero => intro acc s r h; cases h; exact Keep.refl s
  | succ n ih =>
    intro acc s r h
    unfold cutRoundsS at h
    split_ifs at h
    · split at h
      · cases h
      · next q hq =>
        have h1 := cutRoundS_keep hq
        split_ifs at h
        · exact h1.trans ((show Keep q.2.2 (lpSolve o q.2.2) from ⟨rfl, rfl, rfl, rfl⟩).trans (ih h))
        · cases h; exact h1
    · cases h; exact Keep.refl s

theorem solveRmpS_keep (c : Conf) (o : Oracle) (s : MS) : Keep s (solveRmpS c o s).2 := by
  unfold solveRmpS
  by_cases hg : s.generated = true
  · rw [if_pos hg]
    simp only
    have h1 : Keep s (lpSolve o { s with
      prevRmpObj := s.rmpObj
      iter := s.iter + 1 }) := ⟨rfl, rfl, rfl, rfl⟩
    generalize lpSolve o { s with
      prevRmpObj := s.rmpObj
      iter := s.iter + 1 } = s1 at h1
    generalize hq : (if s1.iter % 10 = 0 then cutRoundsS c o c.numCutsRound [] s1 else .ok ([], s1)) = q
    cases q with
    | error e => exact h1
    | ok r =>
      have h2 : Keep s1 r.2 := by
        split_ifs at hq
        · exact cutRoundsS_keep _ hq
        · cases hq; exact Keep.refl _
      simp only
      split_ifs
      · exact guarded_state (P := Keep s) (h1.trans h2) (h1.trans (h2.trans ⟨rfl, rfl, rfl, rfl⟩))
      · exact h1.trans h2
  · rw [if_neg hg]
    exact Keep.refl s

/-- The selected paths are among the paths, and there are none before the program is generated. -/
def Sel (s : MS) : Prop := (∀ p ∈ s.selected, p ∈ s.paths) ∧ (s.generated = false → s.selected = [])

/-- The invariant: the objects of `w` with their contents. -/
def FrameInv (w w' : World Ω) : Prop := Frame w w' ∧ Sel w'.master

theorem FrameInv.keep {w w1 w2 : World Ω} (h : FrameInv w w1) (k : Keep w1.master w2.master) : FrameInv w w2 := by
  obtain ⟨k1, k2, k3, k4⟩ := k
  refine ⟨h.1.trans ⟨by rw [k1], k4⟩, ?_, ?_⟩
  · rw [k1, k2]; exact h.2.1
  · rw [k2, k3]; exact h.2.2

theorem generateMpS_frame {w w1 : World Ω} (c : Conf) (h : FrameInv w w1) (y : List ℕ) :
    FrameInv w { w1 with
      master := (generateMpS c w1.master).2
      y := y } := by
  have key : ∀ s : MS, Sel s → s.paths.map Path.content <+: (generateMpS c s).2.paths.map Path.content ∧
      (generateMpS c s).2.splits = s.splits ∧ Sel (generateMpS c s).2 := by
    intro s hs
    unfold generateMpS
    by_cases hg : s.generated = true
    · rw [if_pos hg]
      exact ⟨List.prefix_refl _, rfl, hs⟩
    · rw [if_neg hg]
      refine guarded_state (P := fun s' => s.paths.map Path.content <+: s'.paths.map Path.content ∧ s'.splits = s.splits ∧ Sel s')
        ⟨List.prefix_refl _, rfl, hs⟩ ?_
      unfold generateMp
      rw [if_neg hg]
      split
      · exact ⟨List.prefix_refl _, rfl, hs⟩
      · refine ⟨?_, rfl, ?_, ?_⟩
        · change s.paths.map Path.content <+: (s.paths.foldl addPathVar (s.m, [])).2.map Path.content
          rw [addPathVars_content]
          exact List.prefix_refl _
        · intro p hp
          have : s.selected = [] := hs.2 (by simpa using hg)
          change p ∈ s.selected at hp
          rw [this] at hp
          cases hp
        · intro h; cases h
  obtain ⟨k1, k2, k3⟩ := key w1.master h.2
  exact ⟨h.1.trans ⟨k1, by rw [← k2]⟩, k3⟩

theorem addColumn_frame (c : Conf) (p : Path) (s : MS) (hs : Sel s) :
    s.paths <+: (addColumn c p s).2.paths ∧ (addColumn c p s).2.splits = s.splits ∧ Sel (addColumn c p s).2 := by
  unfold addColumn
  simp only
  split
  · exact ⟨List.prefix_append _ _, rfl, fun q hq => List.mem_append_left _ (hs.1 q hq), hs.2⟩
  · split
    · exact ⟨List.prefix_append _ _, rfl, fun q hq => List.mem_append_left _ (hs.1 q hq), hs.2⟩
    · exact ⟨List.prefix_append _ _, rfl, fun q hq => List.mem_append_left _ (hs.1 q hq), hs.2⟩

theorem addColumnS_frame {w w1 : World Ω} (c : Conf) (p : Path) (h : FrameInv w w1) :
    FrameInv w { w1 with master := (addColumnS c p w1.master).2 } := by
  have key : w1.master.paths <+: (addColumnS c p w1.master).2.paths ∧ (addColumnS c p w1.master).2.splits = w1.master.splits ∧
      Sel (addColumnS c p w1.master).2 := by
    unfold addColumnS
    exact guarded_state (P := fun s' => w1.master.paths <+: s'.paths ∧ s'.splits = w1.master.splits ∧ Sel s')
      ⟨List.prefix_refl _, rfl, h.2⟩ (addColumn_frame c p w1.master h.2)
  exact ⟨h.1.trans ⟨key.1.map _, by rw [← key.2.1]⟩, key.2.2⟩

theorem solveIpS_frame {w w1 : World Ω} (o : Oracle) (h : FrameInv w w1) : FrameInv w { w1 with master := (solveIpS o w1.master).2 } := by
  have key : (solveIpS o w1.master).2.paths = w1.master.paths ∧ (solveIpS o w1.master).2.splits = w1.master.splits ∧
      Sel (solveIpS o w1.master).2 := by
    unfold solveIpS
    refine guarded_state (P := fun s' => s'.paths = w1.master.paths ∧ s'.splits = w1.master.splits ∧ Sel s') ⟨rfl, rfl, h.2⟩ ?_
    unfold solveIp
    by_cases hg : w1.master.generated = true
    · rw [if_pos hg]
      simp only
      split_ifs
      · exact ⟨rfl, rfl, fun p hp => (List.mem_filter.1 hp).1, fun h => absurd (hg.symm.trans h) (by decide)⟩
      · exact ⟨rfl, rfl, ⟨fun p hp => absurd hp (List.not_mem_nil), fun _ => rfl⟩⟩
    · rw [if_neg hg]
      exact ⟨rfl, rfl, h.2⟩
  exact ⟨h.1.trans ⟨by rw [← key.1], by rw [← key.2.1]⟩, key.2.2⟩

theorem setHeur_keep {w : World Ω} {st : HeurSt} (h : st.splits.map Split.content = w.master.splits.map Split.content) :
    Keep w.master (w.setHeur st).master := ⟨rfl, rfl, rfl, h⟩

theorem heurGenerate_splits (c : HConf) (D : Duals) (dr : Draws) (st : HeurSt) : (c.generate D dr st).2.splits = st.splits := by
  unfold HConf.generate
  split <;> rfl

theorem frame_preserved (o : FitOracle Ω) (A : Args) (X : List (List ℚ)) (w : World Ω) : Fit.Preserved (envS o A X) (fun w' _ => FrameInv w w') where
  clock w1 tr h := h.keep (Keep.refl _)
  timer w1 tr t h := h
  check w1 tr s t h := h
  flag w1 tr h := h
  clear w1 tr h := h
  generateMp w1 tr y h := generateMpS_frame _ h y
  solveRmp w1 tr h := h.keep (solveRmpS_keep _ _ _)
  improved w1 tr h := h
  update w1 tr l i D h := by
    refine h.keep ?_
    change Keep w1.master (updateAtS A X l i D w1).2.master
    unfold updateAtS
    split_ifs
    · exact guarded_state (P := fun v => Keep w1.master (World.master v)) (Keep.refl _) (setHeur_keep (addCuts_content _ _ _))
    · split <;> exact Keep.refl _
  generate w1 tr l i D h := by
    refine h.keep ?_
    change Keep w1.master (generateAtS o A X l i D w1).2.master
    unfold generateAtS
    split_ifs
    · refine guarded_state (P := fun v => Keep w1.master (World.master v)) (Keep.refl _) ?_
      exact setHeur_keep (w := w1) (by rw [heurGenerate_splits]; rfl)
    · split
      · exact Keep.refl _
      · unfold priceAtS
        split_ifs
        · exact guarded_state (P := fun v => Keep w1.master (World.master v)) (Keep.refl _) (Keep.refl _)
        · exact Keep.refl _
  add w1 tr l i p h := addColumnS_frame _ p h
  solveIp w1 tr h := solveIpS_frame _ h

theorem fits_frame {A : Args} {w w' : World Ω} (h : Fits A w w') (hs : Sel w.master) : FrameInv w w' := by
  induction h with
  | refl => exact ⟨Frame.refl w, hs⟩
  | idle h ω ih => exact ih.keep (Keep.refl _)
  | fit h o X y maxIt limit fuel e0 hr ih => exact (frame_preserved o A X w).fit _ _ _ _ _ ih _ hr

/-! ## What `predict` reads -/

theorem splitAt_content {S S' : List Split} (h : S'.map Split.content = S.map Split.content) (i : ℕ) :
    (splitAt S' i).feature = (splitAt S i).feature ∧ (splitAt S' i).threshold = (splitAt S i).threshold := by
  have := congrArg (fun l => l[i]?) h
  simp only [List.getElem?_map] at this
  unfold splitAt
  rw [List.getD_eq_getElem?_getD, List.getD_eq_getElem?_getD]
  cases h1 : S[i]? with
  | none =>
    cases h2 : S'[i]? with
    | none => exact ⟨rfl, rfl⟩
    | some b => rw [h1, h2] at this; cases this
  | some a =>
    cases h2 : S'[i]? with
    | none => rw [h1, h2] at this; cases this
    | some b =>
      rw [h1, h2] at this
      simp only [Option.map_some, Option.some.injEq, Split.content, Prod.mk.injEq] at this
      exact ⟨this.2.1, this.2.2.1⟩

theorem rowLoop_content {S S' : List Split} (h : S'.map Split.content = S.map Split.content) (row : List ℚ) (leaf : Leaf) :
    ∀ l, rowLoop row leaf S' l = rowLoop row leaf S l := by
  intro l
  induction l with
  | nil => rfl
  | cons q l ih =>
    obtain ⟨n, s⟩ := q
    obtain ⟨h1, h2⟩ := splitAt_content h s
    simp only [rowLoop, h1, h2, ih]

theorem satisfies_content {S S' : List Split} (h : S'.map Split.content = S.map Split.content) {p p' : Path} (hp : p'.content = p.content)
    (leaves : List Leaf) (row : List ℚ) :
    rowSatisfiesPath row (leafAt leaves p'.leafId) S' p' = rowSatisfiesPath row (leafAt leaves p.leafId) S p := by
  simp only [Path.content, Prod.mk.injEq] at hp
  obtain ⟨h1, h2, h3, -, -⟩ := hp
  unfold rowSatisfiesPath Path.pairs
  rw [h1, h2, h3]
  exact rowLoop_content h _ _ _

theorem pathReads_content {p p' : Path} (hp : p'.content = p.content) (leaves : List Leaf) (n : ℕ) : pathReads leaves n p' = pathReads leaves n p := by
  simp only [Path.content, Prod.mk.injEq] at hp
  obtain ⟨h1, h2, h3, -, -⟩ := hp
  unfold pathReads Path.pairs
  rw [h1, h2, h3]

theorem featReads_content {S S' : List Split} (h : S'.map Split.content = S.map Split.content) {p p' : Path} (hp : p'.content = p.content)
    (row : List ℚ) : featReads S' row p' = featReads S row p := by
  simp only [Path.content, Prod.mk.injEq] at hp
  obtain ⟨h1, h2, h3, -, -⟩ := hp
  unfold featReads Path.pairs
  rw [h2, h3]
  exact List.map_congr_left fun q _ => by rw [(splitAt_content h q.2).1]

theorem flatMap_content {β : Type} {f g : Path → List β} (hfg : ∀ p p', p'.content = p.content → g p' = f p) :
    ∀ {l l' : List Path}, l'.map Path.content = l.map Path.content → l'.flatMap g = l.flatMap f := by
  intro l
  induction l with
  | nil =>
    intro l' h
    cases l' with
    | nil => rfl
    | cons a b => cases h
  | cons p l ih =>
    intro l' h
    cases l' with
    | nil => cases h
    | cons p' l' =>
      rw [List.map_cons, List.map_cons, List.cons.injEq] at h
      rw [List.flatMap_cons, List.flatMap_cons, hfg p p' h.1, ih h.2]

theorem predictRow_content {S S' : List Split} (h : S'.map Split.content = S.map Split.content) (leaves : List Leaf) (row : List ℚ) :
    ∀ {l l' : List Path}, l'.map Path.content = l.map Path.content → predictRow leaves S' row l' = predictRow leaves S row l := by
  intro l
  induction l with
  | nil =>
    intro l' h
    cases l' with
    | nil => rfl
    | cons a b => cases h
  | cons p l ih =>
    intro l' hl
    cases l' with
    | nil => cases hl
    | cons p' l' =>
      rw [List.map_cons, List.map_cons, List.cons.injEq] at hl
      have ht : p'.target = p.target := by
        have := hl.1
        simp only [Path.content, Prod.mk.injEq] at this
        exact this.2.2.2.2
      simp only [predictRow, satisfies_content h hl.1, ih hl.2, ht]

/-- `predict` depends on the contents of the selected paths and of the splits only. -/
theorem predict_content (A : Args) {s s' : Fit.St (World Ω) Duals Path} (hc : s'.est.classes = s.est.classes)
    (hS : s'.world.master.splits.map Split.content = s.world.master.splits.map Split.content)
    (hl : s'.world.master.selected.map Path.content = s.world.master.selected.map Path.content) (X : List (List ℚ)) :
    predictFittedS A s' X = predictFittedS A s X := by
  have hlen : s'.world.master.splits.length = s.world.master.splits.length := by simpa using congrArg List.length hS
  have e1 : predictFitted A s' X = predictFitted A s X := by
    unfold predictFitted predict
    rw [hc]
    congr 1
    exact List.map_congr_left fun row _ => predictRow_content hS _ _ hl
  have e2 : predictReads A.leaves s'.world.master.splits s'.world.master.selected X =
      predictReads A.leaves s.world.master.splits s.world.master.selected X := by
    unfold predictReads
    rw [hlen]
    congr 1
    · exact flatMap_content (fun p p' hp => pathReads_content hp _ _) hl
    · congr 1
      funext row
      exact flatMap_content (fun p p' hp => featReads_content hS hp row) hl
  unfold predictFittedS
  rw [e1, e2]

/-! ## Sharing -/

/-- Reading a selected path again finds the same content. -/
theorem sees_content {share : Bool} {w w' : World Ω} (hs : Sel w.master)
    (h : w.master.paths.map Path.content <+: w'.master.paths.map Path.content) :
    (w.sees share w').master.selected.map Path.content = w.master.selected.map Path.content := by
  change (w.master.selected.map _).map Path.content = _
  rw [List.map_map]
  refine List.map_congr_left fun p hp => ?_
  have hm := hs.1 p hp
  have hi := List.idxOf_lt_length_iff.2 hm
  obtain ⟨t, ht⟩ := h
  have e1 : (w'.master.paths.map Path.content)[w.master.paths.idxOf p]? = some p.content := by
    rw [← ht, List.getElem?_append_left (by simpa using hi), List.getElem?_map, List.getElem?_idxOf hm]
    rfl
  rw [List.getElem?_map] at e1
  simp only [Function.comp_apply, List.getD_eq_getElem?_getD]
  cases h2 : w'.master.paths[w.master.paths.idxOf p]? with
  | none => rw [h2] at e1; cases e1
  | some q =>
    rw [h2] at e1
    simpa using e1

theorem sees_sel {share : Bool} {w w' : World Ω} (hs : Sel w.master)
    (h : w.master.paths.map Path.content <+: w'.master.paths.map Path.content) : Sel (w.sees share w').master := by
  refine ⟨?_, ?_⟩
  · intro p hp
    change p ∈ w.master.selected.map _ at hp
    change p ∈ w'.master.paths
    obtain ⟨q, hq, rfl⟩ := List.mem_map.1 hp
    have hi := List.idxOf_lt_length_iff.2 (hs.1 q hq)
    have hl : w.master.paths.length ≤ w'.master.paths.length := by simpa using h.length_le
    rw [List.getD_eq_getElem?_getD, List.getElem?_eq_getElem (by omega), Option.getD_some]
    exact List.getElem_mem _
  · intro hg
    change w.master.selected.map _ = []
    rw [hs.2 hg, List.map_nil]

theorem init_sel (A : Args) (ω : Ω) : Sel (World.init A ω).master := ⟨fun p hp => absurd hp (List.not_mem_nil), fun _ => rfl⟩

theorem init_frame {A : Args} {w : World Ω} (hp : A.paths = w.master.paths) (hs : A.splits = w.master.splits) (ω : Ω) : Frame w (World.init A ω) := by
  refine ⟨?_, ?_⟩
  · change _ <+: (A.paths.map _).map Path.content
    rw [hp, List.map_map]
    exact List.prefix_refl _
  · change A.splits.map Split.content = _
    rw [hs]

/-- Two live classifiers see the same objects. -/
theorem turns_linked {A B : Args} {share : Bool} {w1 w2 : World Ω} (h : Turns A B share w1 w2) :
    w1.master.paths = w2.master.paths ∧ w1.master.splits = w2.master.splits ∧ Sel w1.master ∧ Sel w2.master := by
  induction h with
  | @start ω w h hp hs ω' => exact ⟨rfl, rfl, sees_sel (fits_frame h (init_sel A ω)).2 (init_frame hp hs ω').1, init_sel B ω'⟩
  | @first w1 w2 w h hf ih =>
    have k := fits_frame hf ih.2.2.1
    exact ⟨rfl, rfl, k.2, sees_sel ih.2.2.2 (by rw [← ih.1]; exact k.1.1)⟩
  | @second w1 w2 w h hf ih =>
    have k := fits_frame hf ih.2.2.2
    exact ⟨rfl, rfl, sees_sel ih.2.2.1 (by rw [ih.1]; exact k.1.1), k.2⟩

theorem predict_sees (A : Args) {share : Bool} {w w' : World Ω} (hs : Sel w.master) (hf : Frame w w') (s : Fit.St (World Ω) Duals Path)
    (X : List (List ℚ)) :
    predictFittedS A { s with world := w.sees share w' } X = predictFittedS A { s with world := w } X :=
  predict_content A (s := { s with world := w }) (s' := { s with world := w.sees share w' }) rfl hf.2 (sees_content hs hf.1) X

/-! ## C113 -/

/-- **C113.** `fit`, on whatever data and with whatever outcome, changes of the path objects only the id and the mark, of the split objects only the
cut sets, and of the list of paths only its end. -/
theorem C113_objects {A : Args} {ω : Ω} {w w' : World Ω} (h0 : Fits A (World.init A ω) w) (h : Fits A w w') :
    (∀ (i : ℕ) (p : Path), w.master.paths[i]? = some p → ∃ q : Path, w'.master.paths[i]? = some q ∧ q.leafId = p.leafId ∧ q.nodeIds = p.nodeIds ∧ q.splits = p.splits ∧
      q.cost = p.cost ∧ q.target = p.target) ∧
    w'.master.splits.length = w.master.splits.length ∧
    ∀ (i : ℕ) (sp : Split), w.master.splits[i]? = some sp → ∃ t : Split, w'.master.splits[i]? = some t ∧ t = { sp with
      leftCuts := t.leftCuts
      rightCuts := t.rightCuts } := by
  obtain ⟨h1, h2⟩ := (fits_frame h (fits_frame h0 (init_sel A ω)).2).1
  refine ⟨?_, by simpa using congrArg List.length h2, ?_⟩
  · intro i p hp
    obtain ⟨t, ht⟩ := h1
    have hi : i < w.master.paths.length := (List.getElem?_eq_some_iff.1 hp).1
    have e1 : (w'.master.paths.map Path.content)[i]? = some p.content := by
      rw [← ht, List.getElem?_append_left (by simpa using hi), List.getElem?_map, hp]
      rfl
    rw [List.getElem?_map] at e1
    cases h3 : w'.master.paths[i]? with
    | none => rw [h3] at e1; cases e1
    | some q =>
      rw [h3] at e1
      simp only [Option.map_some, Option.some.injEq, Path.content, Prod.mk.injEq] at e1
      exact ⟨q, rfl, e1⟩
  · intro i sp hsp
    have e1 := congrArg (fun l => l[i]?) h2
    simp only [List.getElem?_map, hsp] at e1
    cases h3 : w'.master.splits[i]? with
    | none => rw [h3] at e1; cases e1
    | some t =>
      rw [h3] at e1
      simp only [Option.map_some, Option.some.injEq, Split.content, Prod.mk.injEq] at e1
      refine ⟨t, rfl, ?_⟩
      obtain ⟨a1, a2, a3, a4, a5, a6⟩ := e1
      rw [← a1, ← a2, ← a3, ← a4, ← a5, ← a6]

/-- **C113.** Constructing a second classifier from the paths and splits of a trained one does not change what the trained one predicts. -/
theorem C113_construct {A B : Args} {share : Bool} {ω ω' : Ω} {w : World Ω} (h : Fits A (World.init A ω) w) (hp : B.paths = w.master.paths)
    (hs : B.splits = w.master.splits) (s : Fit.St (World Ω) Duals Path) (X : List (List ℚ)) :
    predictFittedS A { s with world := w.sees share (World.init B ω') } X = predictFittedS A { s with world := w } X :=
  predict_sees A (fits_frame h (init_sel A ω)).2 (init_frame hp hs ω') s X

/-- **C113.** Training one of two live classifiers that share their paths and splits does not change what the other predicts: for any number of calls
of `fit`, on any data, returning or raising. -/
theorem C113_predictions {A B : Args} {share : Bool} {w1 w2 : World Ω} (h : Turns A B share w1 w2) (s : Fit.St (World Ω) Duals Path)
    (X : List (List ℚ)) :
    (∀ w, Fits A w1 w → predictFittedS B { s with world := w2.sees share w } X = predictFittedS B { s with world := w2 } X) ∧
    ∀ w, Fits B w2 w → predictFittedS A { s with world := w1.sees share w } X = predictFittedS A { s with world := w1 } X := by
  obtain ⟨e1, e2, k1, k2⟩ := turns_linked h
  refine ⟨fun w hf => ?_, fun w hf => ?_⟩
  · have hF := (fits_frame hf k1).1
    exact predict_sees B k2 ⟨by rw [← e1]; exact hF.1, by rw [← e2]; exact hF.2⟩ s X
  · have hF := (fits_frame hf k2).1
    exact predict_sees A k1 ⟨by rw [e1]; exact hF.1, by rw [e2]; exact hF.2⟩ s X

end Verif.DTree
