import Verif.DTree.OrderLemmas

/-!
# Lemmas: the pricing problems and the answers to the split questions
-/

set_option linter.unusedSectionVars false
set_option linter.unusedSimpArgs false

namespace Verif.DTree

open MP Spec

/-! ## The integer pricing problems -/

/-- Two pricing problems that differ in the data and in the questions of the splits only. -/
structure Cousin (c c' : SubConf) : Prop where
  same : c' = { c with splits := c'.splits, X := c'.X }
  quest : SameQuestions c.X c'.X c.splits c'.splits
  cands : ∀ n, ∀ t ∈ c.cands n, t < c.splits.length

section
variable {c c' : SubConf}

theorem Cousin.kept (h : Cousin c c') : c'.kept = c.kept := by
  obtain ⟨hs, hq, -⟩ := h
  generalize c'.splits = L' at hs hq
  generalize c'.X = X' at hs hq
  subst hs
  unfold SubConf.kept
  simp only
  rw [hq.rows]
  rfl

theorem Cousin.isOld (h : Cousin c c') : c'.isOld = c.isOld := by rw [h.same]; rfl

theorem Cousin.kind (h : Cousin c c') : c'.kind = c.kind := by rw [h.same]

theorem Cousin.leaf (h : Cousin c c') : c'.leaf = c.leaf := by rw [h.same]

theorem Cousin.leafNodes (h : Cousin c c') : c'.leafNodes = c.leafNodes := by rw [h.same]; rfl

theorem Cousin.nodes (h : Cousin c c') : c'.nodes = c.nodes := by rw [h.same]

theorem Cousin.cands' (h : Cousin c c') : c'.cands = c.cands := by rw [h.same]; rfl

theorem Cousin.rowVars (h : Cousin c c') : c'.rowVars = c.rowVars := by
  unfold SubConf.rowVars
  rw [h.kept, h.isOld]

theorem Cousin.splitVars (h : Cousin c c') : c'.splitVars = c.splitVars := by rw [h.same]; rfl

theorem Cousin.oneSplit (h : Cousin c c') : c'.oneSplit = c.oneSplit := by rw [h.same]; rfl

theorem Cousin.single (h : Cousin c c') : c'.single = c.single := by rw [h.same]; rfl

theorem Cousin.zCons (h : Cousin c c') : c'.zCons = c.zCons := by
  unfold SubConf.zCons
  rw [h.kept]
  have : c'.y = c.y := by rw [h.same]
  rw [this]

theorem Cousin.follow (h : Cousin c c') {left left' : ℕ → Bool} (hl : ∀ t < c.splits.length, left' t = left t) (o : SV) :
    c'.follow left' o = c.follow left o := by
  have ht : ∀ n, c'.towards left' n = c.towards left n := by
    intro n
    unfold SubConf.towards
    rw [h.leaf, h.cands']
    have h1 : ∀ t ∈ c.cands n, left' t = left t := fun t ht => hl t (h.cands n t ht)
    have h2 : ∀ t ∈ c.cands n, (!left' t) = !left t := fun t ht => by rw [h1 t ht]
    rw [List.filter_congr h1, List.filter_congr h2]
  have hd : c'.depth = c.depth := by rw [h.same]
  unfold SubConf.follow
  rw [h.leafNodes, hd]
  simp only [ht]

theorem Cousin.rowSatisfiesSplit (h : Cousin c c') {i : ℕ} (hi : i < c.X.length) : ∀ t < c.splits.length,
    c'.rowSatisfiesSplit i t = c.rowSatisfiesSplit i t := fun t ht => h.quest.answer i hi t ht

theorem Cousin.rowFollow (h : Cousin c c') : c'.kept.flatMap (fun i => c'.follow (c'.rowSatisfiesSplit i) (.y i)) =
    c.kept.flatMap (fun i => c.follow (c.rowSatisfiesSplit i) (.y i)) := by
  rw [h.kept]
  refine List.flatMap_congr (fun i hi => ?_)
  unfold SubConf.kept at hi
  exact h.follow (h.rowSatisfiesSplit (List.mem_range.1 (List.mem_of_mem_filter hi))) _

theorem Cousin.weight (h : Cousin c c') : c'.weight = c.weight := by rw [h.same]; rfl

theorem Cousin.objTerms (h : Cousin c c') (D : Duals) (n : ℕ) : c'.objTerms D n = c.objTerms D n := by
  unfold SubConf.objTerms
  have hy : c'.y = c.y := by rw [h.same]
  rw [h.kept, h.kind, h.leafNodes, h.cands', h.leaf, h.weight, hy]

theorem Cousin.setObjective (h : Cousin c c') (D : Duals) (st : SubSt) : c'.setObjective D st = c.setObjective D st := by
  unfold SubConf.setObjective
  rw [h.objTerms, h.kind, h.leaf]

theorem Cousin.create (h : Cousin c c') (D : Duals) (st : SubSt) : c'.create D st = c.create D st := by
  have ht : c'.targets = c.targets := by rw [h.same]
  unfold SubConf.create
  simp only
  rw [h.rowVars, h.splitVars, h.oneSplit, h.rowFollow, h.isOld, h.single, h.zCons, ht, h.setObjective]

theorem Cousin.updateObjective (h : Cousin c c') (D : Duals) (st : SubSt) : c'.updateObjective D st = c.updateObjective D st := by
  unfold SubConf.updateObjective
  rw [h.setObjective]

theorem Cousin.addCutRows (h : Cousin c c') (rows : List (List Bool)) (st : SubSt) : c'.addCutRows rows st = c.addCutRows rows st := by
  unfold SubConf.addCutRows
  simp only [h.follow (fun _ _ => rfl)]

theorem Cousin.refresh (h : Cousin c c') (D : Duals) (st : SubSt) : c'.refresh D st = c.refresh D st := by
  unfold SubConf.refresh
  rw [h.leaf, h.updateObjective, h.create]

theorem Cousin.update (h : Cousin c c') (D : Duals) (st : SubSt) : c'.update D st = c.update D st := by
  unfold SubConf.update
  rw [h.kind, h.refresh]
  simp only [h.addCutRows]

theorem Cousin.pathOf (h : Cousin c c') (st : SubSt) (val : ℕ → ℚ) (order : List ℕ) (cost : ℚ) :
    c'.pathOf st val order cost = c.pathOf st val order cost := by
  rw [h.same]
  rfl

theorem Cousin.costOf (h : Cousin c c') (st : SubSt) (val : ℕ → ℚ) : c'.costOf st val = c.costOf st val := by
  have hy : c'.y = c.y := by rw [h.same]
  unfold SubConf.costOf
  rw [h.kind, h.kept, hy, h.weight]

theorem Cousin.generateMip (h : Cousin c c') (st : SubSt) (ans : Answer) : c'.generateMip st ans = c.generateMip st ans := by
  unfold SubConf.generateMip
  rw [h.pathOf, h.costOf, h.nodes, h.leafNodes]

theorem Cousin.generateSat (h : Cousin c c') (D : Duals) (sols : Model → List (ℕ → ℚ)) (st : SubSt) :
    c'.generateSat D sols st = c.generateSat D sols st := by
  have e : ∀ st1, c'.callback D st1 = c.callback D st1 := by
    intro st1
    funext acc val
    unfold SubConf.callback SubConf.origObjective
    rw [h.costOf, h.kept, h.leafNodes, h.cands', h.leaf, h.pathOf]
  unfold SubConf.generateSat
  rw [h.refresh]
  simp only [e]

/-! ## The generated paths use known splits -/

theorem pathOf_known (L : List Split) (hc : ∀ n, ∀ t ∈ c.cands n, t < L.length) (st : SubSt) (val : ℕ → ℚ) (order : List ℕ) (cost : ℚ) :
    Known L (c.pathOf st val order cost) := by
  intro t ht
  unfold SubConf.pathOf at ht
  simp only at ht
  obtain ⟨n, -, hn⟩ := List.mem_filterMap.1 ht
  exact hc n t (List.mem_of_find?_eq_some hn)

theorem generateMip_known (L : List Split) (hc : ∀ n, ∀ t ∈ c.cands n, t < L.length) (st : SubSt) (ans : Answer) :
    ∀ p ∈ c.generateMip st ans, Known L p := by
  intro p hp
  unfold SubConf.generateMip at hp
  split at hp
  · split at hp
    · simp at hp
    · rw [List.mem_singleton.1 hp]
      exact pathOf_known L hc _ _ _ _
  · simp at hp

theorem generateSat_known (L : List Split) (hc : ∀ n, ∀ t ∈ c.cands n, t < L.length) (D : Duals) (sols : Model → List (ℕ → ℚ)) (st : SubSt)
    {ps : List Path} (h : (c.generateSat D sols st).1 = .ok ps) : ∀ p ∈ ps, Known L p := by
  unfold SubConf.generateSat at h
  split at h
  · simp at h
  · simp only [Except.ok.injEq] at h
    subst h
    rename_i st1 _
    have : ∀ (vs : List (ℕ → ℚ)) (acc : List Path), (∀ p ∈ acc, Known L p) → ∀ p ∈ vs.foldl (c.callback D st1) acc, Known L p := by
      intro vs
      induction vs with
      | nil => exact fun acc h => h
      | cons v vs ih =>
        intro acc ha
        simp only [List.foldl_cons]
        refine ih _ ?_
        unfold SubConf.callback
        split
        · exact ha
        · intro p hp
          rcases List.mem_append.1 hp with hp | hp
          · exact ha p hp
          · rw [List.mem_singleton.1 hp]
            exact pathOf_known L hc _ _ _ _
    exact this _ _ (by simp)

end

/-! ## The heuristic -/

section
variable {X X' : List (List ℚ)} {L L' : List Split}

theorem round_alike (h : SameQuestions X X' L L') {c : HConf} (hc : c.X = X) (D : Duals) (dr : Draws) (i : ℕ) (gen : List Path) :
    HConf.round { c with X := X' } L' D dr i gen = c.round L D dr i gen := by
  have e : ∀ p sat, HConf.reducedCost { c with X := X' } L' D p sat = c.reducedCost L D p sat := by
    intro p sat
    unfold HConf.reducedCost
    simp only
    rw [h.rows, hc, satisfiedCuts_alike h.rest]
  unfold HConf.round
  simp only [e, satisfiedRows_alike h.rest]
  rfl

theorem rounds_alike (h : SameQuestions X X' L L') {c : HConf} (hc : c.X = X) (D : Duals) (dr : Draws) :
    ∀ (is : List ℕ) (gen : List Path) (f : ℕ), HConf.rounds { c with X := X' } L' D dr is gen f = c.rounds L D dr is gen f
  | [], _, _ => rfl
  | i :: is, gen, f => by
    unfold HConf.rounds
    rw [round_alike h hc]
    split
    · rfl
    · exact rounds_alike h hc D dr is _ _
    · exact rounds_alike h hc D dr is _ _

theorem erase_fold_subset (used : List ℕ) : ∀ c : List ℕ, ∀ t ∈ used.foldl (fun c u => if u ∈ c then c.erase u else c) c, t ∈ c := by
  induction used with
  | nil => exact fun c t h => h
  | cons u us ih =>
    intro c t ht
    simp only [List.foldl_cons] at ht
    have := ih _ t ht
    split at this
    · exact List.mem_of_mem_erase this
    · exact this

theorem pickSplits_known (nodes : List Node) (draw : ℕ → ℕ) (hn : ∀ n, ∀ t ∈ (nodeAt nodes n).candidateSplits, t < L.length) :
    ∀ (ns : List ℕ) (k : ℕ) (acc sp : List ℕ), pickSplits nodes draw k ns acc = some sp → (∀ t ∈ acc, t < L.length) → ∀ t ∈ sp, t < L.length
  | [], _, acc, sp, h, ha => by
    unfold pickSplits at h
    simp only [Option.some.injEq] at h
    rw [← h]
    exact ha
  | n :: ns, k, acc, sp, h, ha => by
    unfold pickSplits at h
    simp only at h
    split at h
    · simp at h
    · rename_i hne
      refine pickSplits_known nodes draw hn ns _ _ sp h ?_
      intro t ht
      rcases List.mem_append.1 ht with ht | ht
      · exact ha t ht
      · rw [List.mem_singleton.1 ht]
        refine hn n _ (erase_fold_subset acc _ _ ?_)
        have hl : (removeUsed acc (nodeAt nodes n).candidateSplits).length ≠ 0 := by
          intro h0
          exact hne (by rw [List.isEmpty_iff, ← List.length_eq_zero_iff]; exact h0)
        have : draw k % (removeUsed acc (nodeAt nodes n).candidateSplits).length < (removeUsed acc (nodeAt nodes n).candidateSplits).length :=
          Nat.mod_lt _ (Nat.pos_of_ne_zero hl)
        unfold choose
        rw [List.getD_eq_getElem?_getD, List.getElem?_eq_getElem this]
        exact List.getElem_mem _

theorem rounds_known {c : HConf} (hn : ∀ n, ∀ t ∈ (nodeAt c.nodes n).candidateSplits, t < L.length) (M : List Split) (D : Duals) (dr : Draws) :
    ∀ (is : List ℕ) (gen : List Path) (f : ℕ) (ps : List Path), (c.rounds M D dr is gen f).1 = .ok ps → (∀ p ∈ gen, Known L p) → ∀ p ∈ ps, Known L p
  | [], gen, f, ps, h, hg => by
    unfold HConf.rounds at h
    simp only [Except.ok.injEq] at h
    rw [← h]
    exact hg
  | i :: is, gen, f, ps, h, hg => by
    unfold HConf.rounds at h
    split at h
    · simp at h
    · exact rounds_known hn M D dr is _ _ ps h hg
    · rename_i p hp
      refine rounds_known hn M D dr is _ _ ps h ?_
      intro q hq
      rcases List.mem_append.1 hq with hq | hq
      · exact hg q hq
      · rw [List.mem_singleton.1 hq]
        unfold HConf.round at hp
        split at hp
        · simp at hp
        · simp only at hp
          split at hp
          · simp at hp
          · rename_i sp hsp
            split at hp
            · simp at hp
            · split at hp
              · simp at hp
              · split at hp
                · simp at hp
                · split at hp
                  · simp only [Except.ok.injEq, Option.some.injEq] at hp
                    rw [← hp]
                    exact pickSplits_known _ _ hn _ _ _ _ hsp (by simp)
                  · simp at hp

end

end Verif.DTree
