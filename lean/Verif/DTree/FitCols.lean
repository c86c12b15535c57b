import Verif.DTree.FitLemmas

/-!
# Lemmas: the columns generated in one round of `DTreeClassifier.fit`
-/

set_option linter.unusedSectionVars false
set_option linter.unusedSimpArgs false

namespace Verif.DTree

open MP Spec

variable {Ω : Type} {d : ℕ} {A : Args} {X : List (List ℚ)} {py : List ℕ} {o : FitOracle Ω} {tol : ℚ}

/-- The last `solve_rmp` led from `s` to `s'` and returned `D`; `old` are the cuts delivered before. -/
structure Snap (d : ℕ) (A : Args) (X : List (List ℚ)) (o : FitOracle Ω) (tol : ℚ) (s s' : MS) (D : Duals) (old : List (List Bool)) : Prop where
  reached : MasterState d A X o s
  sol : solveRmp (A.masterConf X) o.master s = (.ok D, s')
  status : s'.last.status = .optimal
  opt : OptimalDuals s'.m tol s'.last
  del : Delivered s old

section
variable {s s' : MS} {D : Duals} {old : List (List Bool)}

theorem Snap.reached' (h : Snap d A X o tol s s' D old) : MasterState d A X o s' := by
  have := Reached.rmp h.reached
  rw [h.sol] at this
  exact this

theorem Snap.del' (h : Snap d A X o tol s s' D old) (hf : FitOk d A X py) (hc : FitContract d A X o tol) : Delivered s' (old ++ D.newCuts) :=
  (((C68_cuts_delivered hf.setup (marked_good hf) hc.cut).2 s h.reached old h.del).1 D s' h.sol).1

theorem Snap.cutlen (h : Snap d A X o tol s s' D old) (hf : FitOk d A X py) (hc : FitContract d A X o tol) :
    D.cut.length = (old ++ D.newCuts).length :=
  (((C68_cuts_delivered hf.setup (marked_good hf) hc.cut).2 s h.reached old h.del).1 D s' h.sol).2 h.status

theorem Snap.duals (h : Snap d A X o tol s s' D old) (hf : FitOk d A X py) (hc : FitContract d A X o tol) :
    D.leaf.length = 2 ^ d ∧ D.row.length = X.length ∧ ∀ l < 2 ^ d, ∀ k < d, ∀ t ∈ cand A.nodes (anc d l k), (D.ns l (anc d l k) t).isSome = true := by
  obtain ⟨cuts0, own0, cd0, hi0⟩ := reached_inv hf.setup (marked_good hf) hc.cut h.reached
  obtain ⟨cuts1, own, cd, hi⟩ := reached_inv hf.setup (marked_good hf) hc.cut h.reached'
  obtain ⟨hD, -⟩ := solveRmp_optimal hi0 h.sol h.status
  rw [hD]
  refine ⟨?_, ?_, ?_⟩
  · have : (A.masterConf X).leaves = fullLeaves d := hf.setup.tree.leaves
    simp only [readDuals, List.length_map, List.length_range]
    rw [this]
    simp [fullLeaves]
  · simp [readDuals, Args.masterConf]
  · intro l hl k hk t ht
    have hm : CD.ns l (anc d l k) t ∈ cd := (hi.nscmem _ _ _).2 ⟨hl, k, hk, rfl, ht⟩
    obtain ⟨i, hi', he⟩ := List.getElem_of_mem hm
    have := (hi.nsc l (anc d l k) t i).2 (by rw [List.getElem?_eq_getElem hi', he])
    simp [readDuals, this]

/-- No column of the restricted master is worth more than the tolerance. -/
theorem Snap.optimal (h : Snap d A X o tol s s' D old) (hf : FitOk d A X py) (hc : FitContract d A X o tol) :
    ∀ p ∈ s'.paths, colRed d X A.splits (old ++ D.newCuts) D p ≤ tol := by
  intro p hp
  have h1 := (C68_duals_price_columns hf.setup (marked_good hf) hc.cut h.reached h.sol h.status (h.del' hf hc)).1 p hp
  obtain ⟨cuts1, own, cd, hi⟩ := reached_inv hf.setup (marked_good hf) hc.cut h.reached'
  have hv : own[p.id]? = some (.path p) := (hi.pidx p.id p).2 ⟨hp, rfl⟩
  have := h.opt.cost p.id (by rw [hi.rep.length_vars]; exact (List.getElem?_eq_some_iff.1 hv).1)
  rw [h1] at this
  exact this

end

/-! ## The pricing problems -/

theorem goodPath_of_cand {leaves : List Leaf} {nodes : List Node} {splits : List Split} (ht : Tree d leaves nodes splits) {p : Path} (hw : WFPath d p)
    (hc : UsesCand nodes p) : GoodPath d splits p := by
  refine ⟨hw, ?_⟩
  intro t hts
  obtain ⟨k, hk, rfl⟩ := List.getElem_of_mem hts
  have hl : p.nodeIds.length = d := by rw [hw.nodes.length_eq]; simp
  have hk' : k < p.nodeIds.length := by rw [hl, ← hw.splits]; exact hk
  have hq : (p.nodeIds[k], p.splits[k]) ∈ p.pairs := by
    unfold Path.pairs
    rw [List.mem_iff_getElem]
    exact ⟨k, by simp; omega, by simp⟩
  have := hc _ hq
  unfold cand at this
  simp only at this
  cases hn : nodes[p.nodeIds[k]]? with
  | none => rw [hn] at this; simp at this
  | some n =>
    rw [hn] at this
    exact ht.cand_lt n (List.mem_of_getElem? hn) _ (by simpa using this)

/-- The pricing problems of the second level. -/
theorem subConfs_mem (hf : FitOk d A X py) {c : SubConf} (h : c ∈ A.subConfs X py) :
    SubOk d c ∧ ∃ l < 2 ^ d, c = A.subConf X py c.kind (createLeaf l d) ∧
      ((A.useOld = false ∧ c.kind = .sat) ∨ (A.useOld = true ∧ ∃ t ∈ A.targets, c.kind = .old t)) := by
  unfold Args.subConfs at h
  obtain ⟨leaf, hl, hc⟩ := List.mem_flatMap.1 h
  have hlv : A.leaves = fullLeaves d := hf.setup.tree.leaves
  rw [hlv] at hl
  obtain ⟨l, hl', rfl⟩ := List.mem_map.1 hl
  have hl' := List.mem_range.1 hl'
  have hid : (createLeaf l d).id = l := by rw [createLeaf_eq hl']
  have hok : ∀ k, SubOk d (A.subConf X py k (createLeaf l d)) := by
    intro k
    refine ⟨hf.setup.depth, hf.depth, ?_, ?_, hf.setup.tree.nodes_length, hf.setup.tree.cand_nodup, hf.targets, hf.y_lt⟩
    · change (createLeaf l d).id < _
      rw [hid]; exact hl'
    · change createLeaf l d = createLeaf (createLeaf l d).id d
      rw [hid]
  by_cases ho : A.useOld = true
  · rw [if_pos ho] at hc
    obtain ⟨t, ht, rfl⟩ := List.mem_map.1 hc
    exact ⟨hok _, l, hl', rfl, Or.inr ⟨ho, t, ht, rfl⟩⟩
  · rw [if_neg ho] at hc
    rw [List.mem_singleton.1 hc]
    exact ⟨hok _, l, hl', rfl, Or.inl ⟨by simpa using ho, rfl⟩⟩

/-- The reduced costs of the pricing problems are those of the master problem. -/
theorem Snap.redCost {s s' : MS} {D : Duals} {old : List (List Bool)} (h : Snap d A X o tol s s' D old) (hf : FitOk d A X py)
    (hc : FitContract d A X o tol) (k : Kind) (l : ℕ) (cuts : List (List Bool)) (p : Path) :
    redCost d (A.subConf X py k (createLeaf l d)) cuts D p = colRed d X A.splits cuts D p := by
  have e : A.subConf X py k (createLeaf l d) = priceConf k d (A.masterConf X) A.splits A.targets py A.dataRows l := by
    unfold Args.subConf priceConf
    rw [hf.depth]
    rfl
  rw [e]
  exact redCost_eq_colRed (removed_dual hf.setup (marked_good hf) hc.cut h.reached h.sol h.status hf.removed) cuts p

theorem subConf_hits (k : Kind) (l : ℕ) (p : Path) (t : ℤ) :
    hitsOf d (A.subConf X py k (createLeaf l d)) p t = hitsOf d (Args.base A d X py) p t := rfl

/-- Columns of `DTreeSubProblemSat`. -/
theorem Snap.satCols {s s' : MS} {D : Duals} {old : List (List Bool)} (h : Snap d A X o tol s s' D old) (hf : FitOk d A X py)
    (hc : FitContract d A X o tol) {c : SubConf} (hm : c ∈ A.subConfs X py) (hk : c.isOld = false) {st : SubSt}
    (hr : SubReached c (old ++ D.newCuts) st) (ω : Ω) :
    ∃ ps st', c.generateSat D (fun m => (o.sols m ω).1) st = (.ok ps, st') ∧
      ∀ p ∈ ps, ColOk d A X py p ∧ colRed d X A.splits (old ++ D.newCuts) D p > 1 / 1000000 := by
  obtain ⟨hok, l, hl, hcl, hkind⟩ := subConfs_mem hf hm
  have hk : c.kind = .sat := by
    rcases hkind with hh | ⟨-, t, -, hh⟩
    · exact hh.2
    · unfold SubConf.isOld at hk
      rw [hh] at hk
      simp at hk
  have hid : c.leaf.id = l := by rw [hcl]; change (createLeaf l d).id = l; rw [createLeaf_eq hl]
  have hlen := h.cutlen hf hc
  obtain ⟨ps, st', hg⟩ : ∃ ps st', c.generateSat D (fun m => (o.sols m ω).1) st = (.ok ps, st') := by
    unfold SubConf.generateSat SubConf.refresh
    rw [if_pos (by rw [(h.duals hf hc).1, hid]; exact hl)]
    exact ⟨_, _, rfl⟩
  refine ⟨ps, st', hg, ?_⟩
  have hs : ∀ a ∈ (fun m => (o.sols m ω).1) st'.m, st'.m.Feasible a := hc.sols _ _
  intro p hp
  obtain ⟨h1, h2⟩ := C47_sat_sound hok hk hr hlen hg hs p hp
  obtain ⟨h3, h4⟩ := sat_cols hok hk hr hlen hg hs p hp
  have hhit : hitsOf d c p p.target = hitsOf d (Args.base A d X py) p p.target := by rw [hcl]; exact subConf_hits _ _ _ _
  have hcand : UsesCand A.nodes p := by have := h1.cand; rw [hcl] at this; exact this
  refine ⟨⟨goodPath_of_cand hf.setup.tree h1.wf hcand, hcand, h4, hhit ▸ h3, Or.inl ?_⟩, ?_⟩
  · obtain ⟨t, ht, e⟩ := h2
    rw [hcl] at ht
    exact ⟨t, ht, e⟩
  · rw [← h.redCost hf hc c.kind l, ← hcl]
    exact h1.improving

/-- Columns of `DTreeSubProblemOld`. -/
theorem Snap.oldCols {s s' : MS} {D : Duals} {old : List (List Bool)} (h : Snap d A X o tol s s' D old) (hf : FitOk d A X py)
    (hc : FitContract d A X o tol) {c : SubConf} (hm : c ∈ A.subConfs X py) (hk : c.isOld = true) {st st' : SubSt}
    (hr : SubReached c old st) (hu : c.update D st = (.ok (), st')) (ω : Ω) :
    ∀ p ∈ c.generateMip st' (o.mip st'.m ω).1, ColOk d A X py p ∧ colRed d X A.splits (old ++ D.newCuts) D p > 1 / 1000000 := by
  obtain ⟨hok, l, hl, hcl, hkind⟩ := subConfs_mem hf hm
  obtain ⟨t, ho, ht, hk⟩ : ∃ t, A.useOld = true ∧ t ∈ A.targets ∧ c.kind = .old t := by
    rcases hkind with hh | ⟨h1, t, ht, hh⟩
    · unfold SubConf.isOld at hk
      rw [hh.2] at hk
      simp at hk
    · exact ⟨t, h1, ht, hh⟩
  have hlen : D.cut.length = old.length + D.newCuts.length := by rw [h.cutlen hf hc, List.length_append]
  intro p hp
  have h1 := C47_mip_sound hok (by rw [hk]; simp) hr hlen hu (hc.mip _ _) p hp
  obtain ⟨h2, h3, h4⟩ := old_cols hok hk hr hlen hu (hc.mip _ _) (by
    intro i hi
    rw [hcl] at hi ⊢
    unfold rowWeight
    change 1 ≤ (A.dataRows.map (fun rows => ((rowAt rows i).weight : ℚ))).getD 1
    cases hd : A.dataRows with
    | none => simp
    | some rows =>
      simp only [Option.map_some, Option.getD_some]
      have := hf.weights ho rows hd i hi.1 (hi.2 rows hd)
      exact_mod_cast this) p hp
  have hhit : hitsOf d c p p.target = hitsOf d (Args.base A d X py) p p.target := by rw [hcl]; exact subConf_hits _ _ _ _
  have hcand : UsesCand A.nodes p := by have := h1.cand; rw [hcl] at this; exact this
  refine ⟨⟨goodPath_of_cand hf.setup.tree h1.wf hcand, hcand, h4, hhit ▸ h3, Or.inl ⟨t, ht, h2⟩⟩, ?_⟩
  rw [← h.redCost hf hc c.kind l, ← hcl]
  exact h1.improving

/-- `update_subproblem` of an exact pricing problem does not raise. -/
theorem Snap.update_ok {s s' : MS} {D : Duals} {old : List (List Bool)} (h : Snap d A X o tol s s' D old) (hf : FitOk d A X py)
    (hc : FitContract d A X o tol) {c : SubConf} (hm : c ∈ A.subConfs X py) (st : SubSt) : ∃ st', c.update D st = (.ok (), st') := by
  obtain ⟨-, l, hl, hcl, -⟩ := subConfs_mem hf hm
  have hid : c.leaf.id = l := by rw [hcl]; change (createLeaf l d).id = l; rw [createLeaf_eq hl]
  have hlt : c.leaf.id < D.leaf.length := by rw [(h.duals hf hc).1, hid]; exact hl
  unfold SubConf.update SubConf.refresh
  by_cases h1 : c.kind = .sat ∧ D.newCuts.length = 0
  · rw [if_pos h1]; exact ⟨_, rfl⟩
  · rw [if_neg h1, if_pos hlt]; exact ⟨_, rfl⟩

/-- Columns of the heuristic. -/
theorem Snap.heurCols {s s' : MS} {D : Duals} {old : List (List Bool)} (h : Snap d A X o tol s s' D old) (hf : FitOk d A X py)
    (hc : FitContract d A X o tol) {st : HeurSt} (hs : Same st.splits A.splits) (hcf : CutsFilled st.splits (old ++ D.newCuts)) (ω : Ω) :
    ∃ ps st', (A.heurConf X py).generate D (o.draws ω).1 st = (.ok ps, st') ∧ st'.splits = st.splits ∧ st'.numCuts = st.numCuts ∧
      ∀ p ∈ ps, ColOk d A X py p ∧ colRed d X A.splits (old ++ D.newCuts) D p > 1 / 1000000 := by
  have hT := hf.setup.tree
  have hrl : ∀ row, rowLeft st.splits row = rowLeft A.splits row := hs.rowLeft
  have hH : HeurOk d (A.heurConf X py) st.splits (old ++ D.newCuts) D :=
    ⟨hf.setup.depth, ⟨hT.leaves, hT.nodes_length, hT.node_id, hs.id hT.split_id, fun n hn t ht => by rw [hs.length]; exact hT.cand_lt n hn t ht,
      hT.cand_nodup⟩, hs.filled hf.setup.filled, hcf, (h.duals hf hc).2.1, h.cutlen hf hc, (h.duals hf hc).2.2⟩
  obtain ⟨ps, st', h1, h2, -, -, -, -, h3, h4⟩ := C49_heuristic hH (hc.draws ω)
  refine ⟨ps, st', h1, h3, h4, ?_⟩
  intro p hp
  have hp := h2 p hp
  have hcost : p.cost = hitsOf d (Args.base A d X py) p p.target := by rw [hp.cost, hHits_eq A d X py hrl]
  refine ⟨⟨goodPath_of_cand hT hp.wf hp.cand, hp.cand, ⟨_, hp.cost⟩, hcost.le, ?_⟩, ?_⟩
  · rcases hp.target with ⟨e1, e2⟩ | ⟨r, hr, -, -, e⟩
    · refine Or.inr ⟨e1, e2, ?_⟩
      intro r hk hw hfo
      have h0 : hHits d (A.heurConf X py) st.splits p ((py.getD r 0 : ℕ) : ℤ) = 0 := by
        have := hp.best ((py.getD r 0 : ℕ) : ℤ)
        rw [e1, hHits_neg _ _ _ (by norm_num : (-1 : ℤ) < 0)] at this
        omega
      have h0' : hitsOf d (Args.base A d X py) p ((py.getD r 0 : ℕ) : ℤ) = 0 := by
        rw [← hHits_eq A d X py hrl, h0]; simp
      have hpos : rowWeight (Args.base A d X py) r ≤ hitsOf d (Args.base A d X py) p ((py.getD r 0 : ℕ) : ℤ) := by
        classical
        unfold hitsOf
        rw [keptSum_eq]
        have hmem : r ∈ (Args.base A d X py).kept := (mem_kept _ _).2 hk
        refine le_trans (le_of_eq ?_) (List.single_le_sum (l := ((Args.base A d X py).kept.map _)) ?_ _ (List.mem_map.2 ⟨r, hmem, rfl⟩))
        · exact (if_pos ⟨hfo, rfl⟩).symm
        · intro x hx
          obtain ⟨i, _, rfl⟩ := List.mem_map.1 hx
          split_ifs
          · exact rowWeight_nonneg _ _
          · exact le_rfl
      linarith
    · refine Or.inl ⟨py.getD r 0, ?_, e⟩
      rw [hf.targets.mem_iff, List.mem_range]
      exact hf.y_lt r hr
  · have := hp.improving
    have e : (fun row => rowLeft st.splits row) = fun row => rowLeft A.splits row := funext hrl
    have e' : rowLeft st.splits = rowLeft A.splits := e
    unfold colRed at this ⊢
    rw [e'] at this
    exact this

end Verif.DTree
