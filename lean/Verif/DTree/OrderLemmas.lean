import Verif.DTree.Fit
import Verif.DTree.Spec
import Verif.Fit.Bisim

/-!
# Lemmas: the decision tree classifier sees the data only through the answers to the split questions
-/

set_option linter.unusedSectionVars false
set_option linter.unusedSimpArgs false

namespace Verif.DTree

open MP Spec

namespace Spec

/-- Everything of a split but its question. -/
def payload (sp : Split) : ℕ × Bool × List ℕ × List ℕ × List ℕ × List ℕ :=
  (sp.id, sp.removed, sp.leftRows, sp.rightRows, sp.leftCuts, sp.rightCuts)

/-- The splits `L'` ask about the data `X'` what the splits `L` ask about `X`: every row answers every question the same way, two questions
are about the same feature as before, and questions about the same feature have their thresholds in the same order. -/
structure SameQuestions (X X' : List (List ℚ)) (L L' : List Split) : Prop where
  rows : X'.length = X.length
  rest : L'.map payload = L.map payload
  answer : ∀ r < X.length, ∀ i < L.length, takesLeft (X'.getD r []) (splitAt L' i) = takesLeft (X.getD r []) (splitAt L i)
  feature : ∀ i < L.length, ∀ j < L.length, (splitAt L' i).feature = (splitAt L' j).feature ↔ (splitAt L i).feature = (splitAt L j).feature
  threshold : ∀ i < L.length, ∀ j < L.length, (splitAt L i).feature = (splitAt L j).feature →
    ((splitAt L' i).threshold < (splitAt L' j).threshold ↔ (splitAt L i).threshold < (splitAt L j).threshold)

end Spec

section
variable {X X' : List (List ℚ)} {L L' : List Split}

theorem Spec.SameQuestions.len (h : SameQuestions X X' L L') : L'.length = L.length := by
  have := congrArg List.length h.rest
  simpa using this

theorem payload_at (h : L'.map payload = L.map payload) (i : ℕ) : payload (splitAt L' i) = payload (splitAt L i) := by
  have := congrArg (fun l => l.getD i (payload Split.none)) h
  simpa only [List.getD_eq_getElem?_getD, List.getElem?_map, Option.getD_map, splitAt] using this

theorem payload_fields {sp sp' : Split} (h : payload sp' = payload sp) :
    sp'.id = sp.id ∧ sp'.removed = sp.removed ∧ sp'.leftRows = sp.leftRows ∧ sp'.rightRows = sp.rightRows ∧ sp'.leftCuts = sp.leftCuts ∧
      sp'.rightCuts = sp.rightCuts := by
  simpa only [payload, Prod.mk.injEq] using h

theorem satisfiedRows_alike (h : L'.map payload = L.map payload) (p : Path) (leaf : Leaf) : getSatisfiedRows p leaf L' = getSatisfiedRows p leaf L := by
  unfold getSatisfiedRows satisfiedBy
  simp only [(payload_fields (payload_at h _)).2.2.1, (payload_fields (payload_at h _)).2.2.2.1]

theorem satisfiedCuts_alike (h : L'.map payload = L.map payload) (p : Path) (leaf : Leaf) : getSatisfiedCuts p leaf L' = getSatisfiedCuts p leaf L := by
  unfold getSatisfiedCuts satisfiedBy
  simp only [(payload_fields (payload_at h _)).2.2.2.2.1, (payload_fields (payload_at h _)).2.2.2.2.2]

theorem splitDep_alike (h : SameQuestions X X' L L') (sv : List ℕ) {i j : ℕ} (hi : i < L.length) (hj : j < L.length) :
    splitDep sv L' i j = splitDep sv L i j := by
  unfold splitDep
  simp only
  by_cases hf : (splitAt L i).feature = (splitAt L j).feature
  · have hf' := (h.feature i hi j hj).2 hf
    have h1 := h.threshold i hi j hj hf
    have h2 := h.threshold j hj i hi hf.symm
    have h3 : (splitAt L' i).threshold = (splitAt L' j).threshold ↔ (splitAt L i).threshold = (splitAt L j).threshold := by
      rw [eq_iff_le_not_lt, eq_iff_le_not_lt, ← not_lt, ← not_lt, h1, h2]
    simp only [hf, hf', ne_eq, not_true_eq_false, if_false, h3, h1]
  · have hf' := (not_congr (h.feature i hi j hj)).2 hf
    simp only [hf, hf', ne_eq, not_false_eq_true, if_true]

theorem splitDeps_alike (h : SameQuestions X X' L L') (sv : List ℕ) : ∀ ps : List (ℕ × ℕ), (∀ q ∈ ps, q.1 < L.length ∧ q.2 < L.length) →
    splitDeps sv L' ps = splitDeps sv L ps
  | [], _ => rfl
  | (i, j) :: ps, hp => by
    unfold splitDeps
    rw [splitDep_alike h sv (hp _ List.mem_cons_self).1 (hp _ List.mem_cons_self).2,
      splitDeps_alike h sv ps (fun q hq => hp q (List.mem_cons_of_mem _ hq))]

theorem pairsBelow_lt {n : ℕ} : ∀ q ∈ pairsBelow n, q.1 < n ∧ q.2 < n := by
  intro q hq
  unfold pairsBelow at hq
  obtain ⟨i, hi, hq⟩ := List.mem_flatMap.1 hq
  obtain ⟨j, hj, rfl⟩ := List.mem_map.1 hq
  rw [List.mem_range] at hi
  rw [List.mem_range'_1] at hj
  simp only
  omega

theorem createCutModel_alike (h : SameQuestions X X' L L') (leaves : List Leaf) (paths : List Path) :
    createCutModel leaves L' paths = createCutModel leaves L paths := by
  unfold createCutModel
  simp only
  rw [h.len, splitDeps_alike h _ _ pairsBelow_lt]

/-- The path uses splits of the list. -/
def Known (L : List Split) (p : Path) : Prop := ∀ t ∈ p.splits, t < L.length

theorem rowLoop_alike {row row' : List ℚ} (leaf : Leaf) :
    ∀ ps : List (ℕ × ℕ), (∀ q ∈ ps, takesLeft row' (splitAt L' q.2) = takesLeft row (splitAt L q.2)) → rowLoop row' leaf L' ps = rowLoop row leaf L ps
  | [], _ => rfl
  | (n, t) :: ps, hp => by
    unfold rowLoop
    have h1 := hp _ List.mem_cons_self
    unfold takesLeft at h1
    rw [decide_eq_decide] at h1
    rw [rowLoop_alike leaf ps (fun q hq => hp q (List.mem_cons_of_mem _ hq))]
    simp only [gt_iff_lt, ← not_le, h1]

theorem rowSatisfiesPath_alike {row row' : List ℚ} (hr : ∀ i < L.length, takesLeft row' (splitAt L' i) = takesLeft row (splitAt L i)) (leaf : Leaf)
    {p : Path} (hp : Known L p) : rowSatisfiesPath row' leaf L' p = rowSatisfiesPath row leaf L p :=
  rowLoop_alike leaf _ (fun q hq => hr _ (hp _ (List.of_mem_zip hq).2))

theorem foldl_alike {α β : Type} {f f' : β → α → β} : ∀ (l l' : List α) (b : β), l'.length = l.length →
    (∀ i (hi : i < l.length) (hi' : i < l'.length) b, f' b l'[i] = f b l[i]) → l'.foldl f' b = l.foldl f b
  | [], [], _, _, _ => rfl
  | [], _ :: _, _, h, _ => by simp at h
  | _ :: _, [], _, h, _ => by simp at h
  | a :: l, a' :: l', b, h, hf => by
    simp only [List.foldl_cons]
    have h0 : f' b a' = f b a := hf 0 (by simp) (by simp) b
    rw [h0]
    exact foldl_alike l l' _ (by simpa using h) (fun i hi hi' b => hf (i + 1) (by simpa using hi) (by simpa using hi') b)

theorem splitAt_getElem {L : List Split} {i : ℕ} (hi : i < L.length) : splitAt L i = L[i] := by
  simp [splitAt, List.getD_eq_getElem?_getD, List.getElem?_eq_getElem hi]

section
variable {row row' : List ℚ} (hp : L'.map payload = L.map payload)
  (hr : ∀ i < L.length, takesLeft row' (splitAt L' i) = takesLeft row (splitAt L i))
include hp hr

theorem leftSplitsOf_alike : leftSplitsOf L' row' = leftSplitsOf L row := by
  have hl : L'.length = L.length := by simpa using congrArg List.length hp
  unfold leftSplitsOf
  refine foldl_alike _ _ _ hl ?_
  intro i hi hi' b
  have h1 := hr i hi
  have h2 := (payload_fields (payload_at hp i)).1
  rw [splitAt_getElem hi, splitAt_getElem hi'] at h1 h2
  unfold takesLeft at h1
  rw [decide_eq_decide] at h1
  simp only [h1, h2]

theorem rightSplitsOf_alike : rightSplitsOf L' row' = rightSplitsOf L row := by
  have hl : L'.length = L.length := by simpa using congrArg List.length hp
  unfold rightSplitsOf
  refine foldl_alike _ _ _ hl ?_
  intro i hi hi' b
  have h1 := hr i hi
  have h2 := (payload_fields (payload_at hp i)).1
  rw [splitAt_getElem hi, splitAt_getElem hi'] at h1 h2
  unfold takesLeft at h1
  rw [decide_eq_decide] at h1
  simp only [h1, h2]

theorem foldl_congr_mem {α β : Type} {f f' : β → α → β} (l : List α) (b : β) (hf : ∀ a ∈ l, ∀ b, f' b a = f b a) : l.foldl f' b = l.foldl f b := by
  clear hp hr
  exact foldl_alike l l b rfl (fun i hi _ b => hf _ (List.getElem_mem hi) b)

theorem makeRow_alike (leaves : List Leaf) (nodes : List Node) {paths : List Path} (hk : ∀ p ∈ paths, Known L p) :
    makeRow leaves nodes L' paths row' = makeRow leaves nodes L paths row := by
  unfold makeRow
  simp only
  rw [leftSplitsOf_alike hp hr, rightSplitsOf_alike hp hr]
  congr 1
  exact foldl_congr_mem hp hr _ _ (fun p hpm b => by rw [rowSatisfiesPath_alike hr _ (hk p hpm)])

end

theorem preprocessRows_alike (h : SameQuestions X X' L L') (leaves : List Leaf) (nodes : List Node) {paths : List Path} (hk : ∀ p ∈ paths, Known L p)
    (aggressive : Bool) : preprocessRows leaves nodes L' paths X' aggressive = preprocessRows leaves nodes L paths X aggressive := by
  unfold preprocessRows
  simp only
  have e : X'.map (makeRow leaves (preprocessNodes nodes (Nat.log 2 leaves.length)) L' paths) =
      X.map (makeRow leaves (preprocessNodes nodes (Nat.log 2 leaves.length)) L paths) := by
    refine List.ext_getElem (by simp [h.rows]) ?_
    intro r h1 h2
    simp only [List.length_map] at h1 h2
    simp only [List.getElem_map]
    refine makeRow_alike h.rest ?_ leaves _ hk
    intro i hi
    have := h.answer r h2 i hi
    simpa [List.getD_eq_getElem?_getD, List.getElem?_eq_getElem h1, List.getElem?_eq_getElem h2] using this
  rw [e, h.rows]

theorem computeSatisfiedPaths_alike (h : SameQuestions X X' L L') (leaves : List Leaf) {paths : List Path} (hk : ∀ p ∈ paths, Known L p) (rows : List Row)
    (hl : rows.length = X.length) : computeSatisfiedPaths leaves L' paths X' rows = computeSatisfiedPaths leaves L paths X rows := by
  unfold computeSatisfiedPaths
  refine List.ext_getElem (by simp) ?_
  intro r h1 h2
  simp only [List.length_mapIdx] at h1 h2
  simp only [List.getElem_mapIdx]
  refine foldl_alike _ _ _ rfl ?_
  intro i hi _ b
  rw [rowSatisfiesPath_alike (h.answer r (hl ▸ h2)) _ (hk _ (List.getElem_mem hi))]

theorem addRowCons_alike (h : SameQuestions X X' L L') {c : Conf} (hc : c.X = X) {paths : List Path} (hk : ∀ p ∈ paths, Known L p) (rows : List Row)
    (st : Model × (ℕ → Option ℕ) × List Bool) {r : ℕ} (hr : r < X.length) :
    addRowCons { c with X := X' } L' paths rows st r = addRowCons c L paths rows st r := by
  unfold addRowCons
  have e : ones paths (fun p => rowSatisfiesPath (X'.getD r []) (leafAt c.leaves p.leafId) L' p) =
      ones paths (fun p => rowSatisfiesPath (c.X.getD r []) (leafAt c.leaves p.leafId) L p) := by
    unfold ones
    rw [List.filter_congr (fun p hp => ?_)]
    rw [hc]
    exact rowSatisfiesPath_alike (h.answer r hr) _ (hk p hp)
  simp only
  rw [e]

/-! ## The splits are extended in the same way -/

theorem cutStep_payload {sp sp' : Split} (h : payload sp' = payload sp) (c : List Bool × ℕ) :
    payload (if c.1.getD sp'.id false then { sp' with leftCuts := setAdd sp'.leftCuts c.2 } else { sp' with rightCuts := setAdd sp'.rightCuts c.2 }) =
      payload (if c.1.getD sp.id false then { sp with leftCuts := setAdd sp.leftCuts c.2 } else { sp with rightCuts := setAdd sp.rightCuts c.2 }) := by
  obtain ⟨h1, h2, h3, h4, h5, h6⟩ := payload_fields h
  rw [h1]
  split <;> simp only [payload, h1, h2, h3, h4, h5, h6]

theorem cutFold_payload {sp sp' : Split} (h : payload sp' = payload sp) : ∀ cs : List (List Bool × ℕ),
    payload (cs.foldl (fun sp c => if c.1.getD sp.id false then { sp with leftCuts := setAdd sp.leftCuts c.2 }
      else { sp with rightCuts := setAdd sp.rightCuts c.2 }) sp') =
    payload (cs.foldl (fun sp c => if c.1.getD sp.id false then { sp with leftCuts := setAdd sp.leftCuts c.2 }
      else { sp with rightCuts := setAdd sp.rightCuts c.2 }) sp)
  | [] => h
  | c :: cs => by
    simp only [List.foldl_cons]
    exact cutFold_payload (cutStep_payload h c) cs

theorem cutFold_question (sp : Split) : ∀ cs : List (List Bool × ℕ),
    (cs.foldl (fun sp c => if c.1.getD sp.id false then { sp with leftCuts := setAdd sp.leftCuts c.2 }
      else { sp with rightCuts := setAdd sp.rightCuts c.2 }) sp).feature = sp.feature ∧
    (cs.foldl (fun sp c => if c.1.getD sp.id false then { sp with leftCuts := setAdd sp.leftCuts c.2 }
      else { sp with rightCuts := setAdd sp.rightCuts c.2 }) sp).threshold = sp.threshold := by
  intro cs
  induction cs generalizing sp with
  | nil => exact ⟨rfl, rfl⟩
  | cons c cs ih =>
    simp only [List.foldl_cons]
    refine ⟨(ih _).1.trans ?_, (ih _).2.trans ?_⟩ <;> split <;> rfl

theorem addCutsToSplits_question (L : List Split) (first : ℕ) (rows : List (List Bool)) (i : ℕ) :
    (splitAt (addCutsToSplits L first rows) i).feature = (splitAt L i).feature ∧
      (splitAt (addCutsToSplits L first rows) i).threshold = (splitAt L i).threshold := by
  unfold addCutsToSplits splitAt
  simp only [List.getD_eq_getElem?_getD, List.getElem?_map]
  cases L[i]? with
  | none => exact ⟨rfl, rfl⟩
  | some sp => exact cutFold_question sp _

theorem Spec.SameQuestions.addCuts (h : SameQuestions X X' L L') (first : ℕ) (rows : List (List Bool)) :
    SameQuestions X X' (addCutsToSplits L first rows) (addCutsToSplits L' first rows) := by
  have hl : (addCutsToSplits L first rows).length = L.length := by simp [addCutsToSplits]
  have hq := addCutsToSplits_question L first rows
  have hq' := addCutsToSplits_question L' first rows
  refine ⟨h.rows, ?_, ?_, ?_, ?_⟩
  · unfold addCutsToSplits
    refine List.ext_getElem (by simp [h.len]) ?_
    intro i h1 h2
    simp only [List.length_map] at h1 h2
    simp only [List.getElem_map]
    have := payload_at h.rest i
    rw [splitAt_getElem h1, splitAt_getElem h2] at this
    exact cutFold_payload this _
  · intro r hr i hi
    rw [hl] at hi
    have := h.answer r hr i hi
    unfold takesLeft at this ⊢
    rw [(hq i).1, (hq i).2, (hq' i).1, (hq' i).2]
    exact this
  · intro i hi j hj
    rw [hl] at hi hj
    rw [(hq i).1, (hq j).1, (hq' i).1, (hq' j).1]
    exact h.feature i hi j hj
  · intro i hi j hj
    rw [hl] at hi hj
    rw [(hq i).1, (hq j).1, (hq i).2, (hq j).2, (hq' i).2, (hq' j).2]
    exact h.threshold i hi j hj

/-! ## The master problem -/

/-- The splits `L` still ask the questions of `L0`. -/
def Asks (L0 L : List Split) : Prop :=
  L.length = L0.length ∧ ∀ i, (splitAt L i).feature = (splitAt L0 i).feature ∧ (splitAt L i).threshold = (splitAt L0 i).threshold

theorem Asks.addCuts {L0 : List Split} (h : Asks L0 L) (first : ℕ) (rows : List (List Bool)) : Asks L0 (addCutsToSplits L first rows) := by
  refine ⟨by rw [← h.1]; simp [addCutsToSplits], fun i => ?_⟩
  rw [(addCutsToSplits_question L first rows i).1, (addCutsToSplits_question L first rows i).2]
  exact h.2 i

variable {L0 L0' : List Split}

/-- Two master problems that differ in the questions of the splits only; the questions are those of `L0` and `L0'`. -/
structure Alike (L0 L0' : List Split) (X X' : List (List ℚ)) (s s' : MS) : Prop where
  same : s' = { s with splits := s'.splits }
  quest : SameQuestions X X' s.splits s'.splits
  paths : ∀ p ∈ s.paths, Known s.splits p
  selected : ∀ p ∈ s.selected, Known s.splits p
  rows : s.generated = false → ∀ rows, s.dataRows = some rows → rows.length = X.length
  asks : Asks L0 s.splits ∧ Asks L0' s'.splits

variable {s s' : MS}

theorem pathVars_known {paths acc : List Path} {m : Model} (hp : ∀ p ∈ paths, Known L p) (ha : ∀ p ∈ acc, Known L p) :
    ∀ p ∈ (paths.foldl addPathVar (m, acc)).2, Known L p := by
  induction paths generalizing acc m with
  | nil => exact ha
  | cons q qs ih =>
    simp only [List.foldl_cons]
    refine ih (fun p hp' => hp p (List.mem_cons_of_mem _ hp')) ?_
    intro p hpm
    rcases List.mem_append.1 hpm with hpm | hpm
    · exact ha p hpm
    · rw [List.mem_singleton.1 hpm]
      exact hp q List.mem_cons_self

theorem generateMp_alike {c : Conf} (hc : c.X = X) (h : Alike L0 L0' X X' s s') :
    (generateMp c s).1 = (generateMp { c with X := X' } s').1 ∧ Alike L0 L0' X X' (generateMp c s).2 (generateMp { c with X := X' } s').2 := by
  obtain ⟨hsame, hq, hp, hsel, hrows, hst⟩ := h
  generalize s'.splits = L' at hsame hq hst
  subst hsame
  unfold generateMp
  simp only
  by_cases hg : s.generated = true
  · rw [if_pos hg, if_pos hg]
    exact ⟨rfl, rfl, hq, hp, hsel, hrows, hst⟩
  · rw [if_neg hg, if_neg hg, createCutModel_alike hq]
    split
    · exact ⟨rfl, rfl, hq, hp, hsel, hrows, hst⟩
    · have hk := pathVars_known (m := s.m) hp (acc := []) (by simp)
      generalize s.paths.foldl addPathVar (s.m, []) = st at hk
      obtain ⟨m1, paths⟩ := st
      simp only at hk ⊢
      have e2 : ∀ rows st, (List.range X'.length).foldl (addRowCons { c with X := X' } L' paths rows) st =
          (List.range c.X.length).foldl (addRowCons c s.splits paths rows) st := by
        intro rows st
        rw [hq.rows, hc]
        refine foldl_alike _ _ _ rfl ?_
        intro i hi _ b
        exact addRowCons_alike hq hc hk rows b (by simpa using hi)
      have e3 : X'.length = c.X.length := by rw [hq.rows, hc]
      cases hd : s.dataRows with
      | none =>
        simp only
        have e1 := preprocessRows_alike hq c.leaves c.nodes hk false
        rw [← hc] at e1
        rw [e1, e2, e3]
        exact ⟨trivial, rfl, hq, hk, hsel, fun hf => by simp at hf, hst⟩
      | some rows =>
        simp only
        have e1 := computeSatisfiedPaths_alike hq c.leaves hk rows (hrows (by simpa using hg) _ hd)
        rw [← hc] at e1
        rw [e1, e2, e3]
        exact ⟨trivial, rfl, hq, hk, hsel, fun hf => by simp at hf, hst⟩

theorem modifyAll_length {α : Type} (f : α → α) : ∀ (rs : List ℕ) (ds : List α), (rs.foldl (fun ds r => ds.modify r f) ds).length = ds.length
  | [], _ => rfl
  | r :: rs, ds => by
    simp only [List.foldl_cons]
    rw [modifyAll_length f rs]
    simp

theorem addColumn_alike {c : Conf} {p : Path} (hk : Known s.splits p) (h : Alike L0 L0' X X' s s') :
    (addColumn c p s).1 = (addColumn { c with X := X' } p s').1 ∧ Alike L0 L0' X X' (addColumn c p s).2 (addColumn { c with X := X' } p s').2 := by
  obtain ⟨hsame, hq, hp, hsel, hrows, hst⟩ := h
  generalize s'.splits = L' at hsame hq hst
  subst hsame
  have hp' : ∀ q ∈ s.paths ++ [{ p with id := s.m.vars.length }], Known s.splits q := by
    intro q hqm
    rcases List.mem_append.1 hqm with hqm | hqm
    · exact hp q hqm
    · rw [List.mem_singleton.1 hqm]
      exact hk
  unfold addColumn
  simp only
  rw [satisfiedRows_alike hq.rest, satisfiedCuts_alike hq.rest]
  split
  · exact ⟨rfl, rfl, hq, hp', hsel, hrows, hst⟩
  · rename_i rows _
    have hd : s.generated = false → ∀ ds, s.dataRows.map (fun ds => rows.foldl (fun ds r => ds.modify r (fun d =>
        { d with reachablePaths := setAdd d.reachablePaths s.m.vars.length })) ds) = some ds → ds.length = X.length := by
      intro hg ds hds
      obtain ⟨ds0, h0, rfl⟩ := Option.map_eq_some_iff.1 hds
      rw [← hrows hg ds0 h0]
      exact modifyAll_length _ _ _
    split
    · exact ⟨rfl, rfl, hq, hp', hsel, hd, hst⟩
    · exact ⟨rfl, rfl, hq, hp', hsel, hd, hst⟩

theorem known_addCuts {p : Path} (first : ℕ) (rows : List (List Bool)) (h : Known L p) : Known (addCutsToSplits L first rows) p := by
  intro t ht
  have := h t ht
  simpa [addCutsToSplits] using this

theorem addCuts_alike (o : Oracle) (h : Alike L0 L0' X X' s s') : (addCuts o s').1 = (addCuts o s).1 ∧ Alike L0 L0' X X' (addCuts o s).2 (addCuts o s').2 := by
  obtain ⟨hsame, hq, hp, hsel, hrows, hst⟩ := h
  generalize s'.splits = L' at hsame hq hst
  subst hsame
  unfold addCuts
  simp only [cutObjective]
  by_cases hr : ((o.cut ⟨s.cp.nvars, s.cp.cons, s.cutPathVars.zip (s.paths.map (fun p => ⌊s.pathSol p.id * 1000000⌋))⟩ s.cutCalls).foldl
      (cutCallback s.cutPathVars s.cutSplitVars (s.paths.map (fun p => s.pathSol p.id))) []).length = 0
  · simp only [hr, if_true]
    exact ⟨trivial, rfl, hq, hp, hsel, hrows, hst⟩
  · simp only [hr, if_false]
    exact ⟨trivial, rfl, hq.addCuts _ _, fun p hpm => known_addCuts _ _ (hp p hpm), fun p hpm => known_addCuts _ _ (hsel p hpm), hrows,
      hst.1.addCuts _ _, hst.2.addCuts _ _⟩

theorem addBetaCuts_alike (c : Conf) (hc : c.X = X) (h : Alike L0 L0' X X' s s') :
    (addBetaCuts { c with X := X' } s').1 = (addBetaCuts c s).1 ∧ Alike L0 L0' X X' (addBetaCuts c s).2 (addBetaCuts { c with X := X' } s').2 := by
  obtain ⟨hsame, hq, hp, hsel, hrows, hst⟩ := h
  generalize s'.splits = L' at hsame hq hst
  subst hsame
  unfold addBetaCuts
  simp only
  rw [hq.rows, hc]
  exact ⟨rfl, rfl, hq, hp, hsel, hrows, hst⟩

theorem lpSolve_alike (o : Oracle) (h : Alike L0 L0' X X' s s') : Alike L0 L0' X X' (lpSolve o s) (lpSolve o s') := by
  obtain ⟨hsame, hq, hp, hsel, hrows, hst⟩ := h
  generalize s'.splits = L' at hsame hq hst
  subst hsame
  exact ⟨rfl, hq, hp, hsel, hrows, hst⟩

theorem storeLp_alike (h : Alike L0 L0' X X' s s') : Alike L0 L0' X X' (storeLp s) (storeLp s') := by
  obtain ⟨hsame, hq, hp, hsel, hrows, hst⟩ := h
  generalize s'.splits = L' at hsame hq hst
  subst hsame
  exact ⟨rfl, hq, hp, hsel, hrows, hst⟩

theorem total_alike (n : ℕ) (h : Alike L0 L0' X X' s s') :
    Alike L0 L0' X X' { s with totalCuts := s.totalCuts + n } { s' with totalCuts := s'.totalCuts + n } := by
  obtain ⟨hsame, hq, hp, hsel, hrows, hst⟩ := h
  generalize s'.splits = L' at hsame hq hst
  subst hsame
  exact ⟨rfl, hq, hp, hsel, hrows, hst⟩

theorem iter_alike (h : Alike L0 L0' X X' s s') :
    Alike L0 L0' X X' { s with prevRmpObj := s.rmpObj, iter := s.iter + 1 } { s' with prevRmpObj := s'.rmpObj, iter := s'.iter + 1 } := by
  obtain ⟨hsame, hq, hp, hsel, hrows, hst⟩ := h
  generalize s'.splits = L' at hsame hq hst
  subst hsame
  exact ⟨rfl, hq, hp, hsel, hrows, hst⟩

theorem cutRound_alike (c : Conf) (hc : c.X = X) (o : Oracle) (h : Alike L0 L0' X X' s s') :
    (cutRound { c with X := X' } o s').1 = (cutRound c o s).1 ∧ (cutRound { c with X := X' } o s').2.1 = (cutRound c o s).2.1 ∧
      Alike L0 L0' X X' (cutRound c o s).2.2 (cutRound { c with X := X' } o s').2.2 := by
  unfold cutRound
  simp only
  have h1 := storeLp_alike h
  have hb : (if c.betaAsCuts then addBetaCuts { c with X := X' } (storeLp s') else (0, storeLp s')).1 =
      (if c.betaAsCuts then addBetaCuts c (storeLp s) else (0, storeLp s)).1 ∧
      Alike L0 L0' X X' (if c.betaAsCuts then addBetaCuts c (storeLp s) else (0, storeLp s)).2
        (if c.betaAsCuts then addBetaCuts { c with X := X' } (storeLp s') else (0, storeLp s')).2 := by
    split
    · exact addBetaCuts_alike c hc h1
    · exact ⟨rfl, h1⟩
  generalize (if c.betaAsCuts then addBetaCuts { c with X := X' } (storeLp s') else (0, storeLp s')) = b' at hb
  generalize (if c.betaAsCuts then addBetaCuts c (storeLp s) else (0, storeLp s)) = b at hb
  obtain ⟨n', t'⟩ := b'
  obtain ⟨n, t⟩ := b
  obtain ⟨e, hb⟩ := hb
  simp only at e hb
  subst e
  simp only
  have hg : (if (c.generateCuts && n' == 0) = true then addCuts o t' else ([], t')).1 =
      (if (c.generateCuts && n' == 0) = true then addCuts o t else ([], t)).1 ∧
      Alike L0 L0' X X' (if (c.generateCuts && n' == 0) = true then addCuts o t else ([], t)).2
        (if (c.generateCuts && n' == 0) = true then addCuts o t' else ([], t')).2 := by
    split
    · exact addCuts_alike o hb
    · exact ⟨rfl, hb⟩
  generalize (if (c.generateCuts && n' == 0) = true then addCuts o t' else ([], t')) = g' at hg
  generalize (if (c.generateCuts && n' == 0) = true then addCuts o t else ([], t)) = g at hg
  obtain ⟨r', t'⟩ := g'
  obtain ⟨r, t⟩ := g
  obtain ⟨e, hg⟩ := hg
  simp only at e hg
  subst e
  exact ⟨trivial, rfl, total_alike _ hg⟩

theorem Alike.last (h : Alike L0 L0' X X' s s') : s'.last = s.last := by rw [h.same]

theorem cutRounds_alike (c : Conf) (hc : c.X = X) (o : Oracle) : ∀ (n : ℕ) (acc : List (List Bool)) (s s' : MS), Alike L0 L0' X X' s s' →
    (cutRounds { c with X := X' } o n acc s').1 = (cutRounds c o n acc s).1 ∧
      Alike L0 L0' X X' (cutRounds c o n acc s).2 (cutRounds { c with X := X' } o n acc s').2
  | 0, _, _, _, h => ⟨rfl, h⟩
  | n + 1, acc, s, s', h => by
    unfold cutRounds
    rw [h.last]
    simp only
    have hr := cutRound_alike c hc o h
    generalize cutRound { c with X := X' } o s' = r' at hr
    generalize cutRound c o s = r at hr
    obtain ⟨n', g', t'⟩ := r'
    obtain ⟨k, g, t⟩ := r
    obtain ⟨e1, e2, hr⟩ := hr
    simp only at e1 e2 hr
    subst e1
    subst e2
    split
    · split
      · exact cutRounds_alike c hc o n _ _ _ (lpSolve_alike o hr)
      · exact ⟨rfl, hr⟩
    · exact ⟨rfl, h⟩

theorem solveRmp_alike (c : Conf) (hc : c.X = X) (o : Oracle) (h : Alike L0 L0' X X' s s') :
    (solveRmp c o s).1 = (solveRmp { c with X := X' } o s').1 ∧ Alike L0 L0' X X' (solveRmp c o s).2 (solveRmp { c with X := X' } o s').2 := by
  unfold solveRmp
  have hg : s'.generated = s.generated := by rw [h.same]
  by_cases hgen : s.generated = true
  · rw [if_pos hgen, if_pos (hg.trans hgen)]
    simp only
    have h1 := lpSolve_alike o (iter_alike h)
    generalize lpSolve o { s with prevRmpObj := s.rmpObj, iter := s.iter + 1 } = s1 at h1
    generalize lpSolve o { s' with prevRmpObj := s'.rmpObj, iter := s'.iter + 1 } = s1' at h1
    have hi : s1'.iter = s1.iter := by rw [h1.same]
    rw [hi]
    have h2 : (if s1.iter % 10 = 0 then cutRounds { c with X := X' } o c.numCutsRound [] s1' else ([], s1')).1 =
        (if s1.iter % 10 = 0 then cutRounds c o c.numCutsRound [] s1 else ([], s1)).1 ∧
        Alike L0 L0' X X' (if s1.iter % 10 = 0 then cutRounds c o c.numCutsRound [] s1 else ([], s1)).2
          (if s1.iter % 10 = 0 then cutRounds { c with X := X' } o c.numCutsRound [] s1' else ([], s1')).2 := by
      split
      · exact cutRounds_alike c hc o _ _ _ _ h1
      · exact ⟨rfl, h1⟩
    generalize (if s1.iter % 10 = 0 then cutRounds { c with X := X' } o c.numCutsRound [] s1' else ([], s1')) = r' at h2
    generalize (if s1.iter % 10 = 0 then cutRounds c o c.numCutsRound [] s1 else ([], s1)) = r at h2
    obtain ⟨g', t'⟩ := r'
    obtain ⟨g, t⟩ := r
    obtain ⟨e, h2⟩ := h2
    simp only at e h2
    subst e
    simp only
    rw [h2.last]
    split
    · refine ⟨?_, storeLp_alike h2⟩
      have hx : X'.length = c.X.length := by rw [h2.quest.rows, hc]
      obtain ⟨hsame, -, -, -, -, -⟩ := h2
      generalize t'.splits = L' at hsame
      subst hsame
      unfold readDuals dualOf
      simp only
      rw [hx]
    · exact ⟨rfl, h2⟩
  · rw [if_neg hgen, if_neg (by rw [hg]; exact hgen)]
    exact ⟨rfl, h⟩

theorem solveIp_alike (o : Oracle) (h : Alike L0 L0' X X' s s') : (solveIp o s).1 = (solveIp o s').1 ∧ Alike L0 L0' X X' (solveIp o s).2 (solveIp o s').2 := by
  obtain ⟨hsame, hq, hp, hsel, hrows, hst⟩ := h
  generalize s'.splits = L' at hsame hq hst
  subst hsame
  unfold solveIp
  simp only
  split
  · split
    · exact ⟨rfl, rfl, hq, hp, fun p hpm => hp p (List.mem_of_mem_filter hpm), hrows, hst⟩
    · exact ⟨rfl, rfl, hq, hp, by simp, hrows, hst⟩
  · exact ⟨rfl, rfl, hq, hp, hsel, hrows, hst⟩

end

end Verif.DTree
