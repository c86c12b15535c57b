import Verif.DTree.Heur
import Verif.DTree.SubProps

/-!
# Properties of the random pricing heuristic of the decision tree classifier (C49)
-/

set_option linter.unusedSectionVars false
set_option linter.unusedSimpArgs false

namespace Verif.DTree

open MP Spec

/-! ## Vocabulary -/

namespace Spec

/-- Row `r` is not removed from the pricing problems. -/
def HKept (c : HConf) (r : ℕ) : Prop := ∀ rows, c.dataRows = some rows → (rowAt rows r).removedFromSp = false

/-- The number of rows that row `r` stands for. -/
def hWeight (c : HConf) (r : ℕ) : ℕ := (c.dataRows.map (fun rows => (rowAt rows r).weight)).getD 1

open Classical in
/-- The weighted number of kept rows of class `t` that follow the path. -/
noncomputable def hHits (d : ℕ) (c : HConf) (splits : List Split) (p : Path) (t : ℤ) : ℕ :=
  ((List.range c.X.length).map (fun r =>
    if HKept c r ∧ Follows d (rowLeft splits (c.X.getD r [])) p ∧ ((c.y.getD r 0 : ℕ) : ℤ) = t then hWeight c r else 0)).sum

open Classical in
/-- The reduced cost of the column of a path in the master problem: its cost minus the duals of all constraints it takes part in. -/
noncomputable def colRed (d : ℕ) (X : List (List ℚ)) (splits : List Split) (cuts : List (List Bool)) (D : Duals) (p : Path) : ℚ :=
  p.cost - D.leaf.getD p.leafId 0 -
    ((List.range X.length).map (fun r => if Follows d (rowLeft splits (X.getD r [])) p then D.row.getD r 0 else 0)).sum -
    cutSum cuts.length (fun k => Follows d (cutPat cuts k) p) (fun k => D.cut.getD k 0) -
    (p.pairs.map (fun q => (D.ns p.leafId q.1 q.2).getD 0)).sum

/-- The situation of a call: a tree of positive depth whose splits know the rows and the cuts, and duals as returned by an optimal
`solve_rmp`. -/
structure HeurOk (d : ℕ) (c : HConf) (splits : List Split) (cuts : List (List Bool)) (D : Duals) : Prop where
  depth : 0 < d
  tree : Tree d c.leaves c.nodes splits
  filled : RowsFilled splits c.X
  cutsFilled : CutsFilled splits cuts
  rowDuals : D.row.length = c.X.length
  cutDuals : D.cut.length = cuts.length
  nsDuals : ∀ l < 2 ^ d, ∀ k < d, ∀ t ∈ cand c.nodes (anc d l k), (D.ns l (anc d l k) t).isSome = true

/-- What is claimed about a path returned by the heuristic. -/
structure HeurPath (d : ℕ) (c : HConf) (splits : List Split) (cuts : List (List Bool)) (D : Duals) (p : Path) : Prop where
  wf : WFPath d p
  cand : UsesCand c.nodes p
  different : p.splits.Nodup
  cost : p.cost = hHits d c splits p p.target
  best : ∀ t, hHits d c splits p t ≤ hHits d c splits p p.target
  target : (p.target = -1 ∧ p.cost = 0) ∨ ∃ r < c.X.length, HKept c r ∧ Follows d (rowLeft splits (c.X.getD r [])) p ∧
    p.target = (c.y.getD r 0 : ℕ)
  improving : colRed d c.X splits cuts D p > 1 / 1000000
  new : p.initial = false

/-- Two paths with the same leaf, target, cost and splits at their nodes. -/
def SamePath (p q : Path) : Prop := p.leafId = q.leafId ∧ p.target = q.target ∧ p.cost = q.cost ∧ ∀ x, x ∈ p.pairs ↔ x ∈ q.pairs

end Spec

/-! ## Choosing splits -/

theorem removeUsed_spec (used : List ℕ) (cands : List ℕ) (hc : cands.Nodup) :
    (removeUsed used cands).Nodup ∧ ∀ x, x ∈ removeUsed used cands ↔ x ∈ cands ∧ x ∉ used := by
  induction used generalizing cands with
  | nil => exact ⟨hc, by simp [removeUsed]⟩
  | cons u l ih =>
    have e : removeUsed (u :: l) cands = removeUsed l (cands.erase u) := by
      unfold removeUsed
      rw [List.foldl_cons]
      split_ifs with h
      · rfl
      · rw [List.erase_of_not_mem h]
    rw [e]
    obtain ⟨h1, h2⟩ := ih (cands.erase u) (hc.erase u)
    refine ⟨h1, ?_⟩
    intro x
    rw [h2, hc.mem_erase_iff, List.mem_cons]
    tauto

theorem choose_mem {l : List ℕ} (h : l ≠ []) (k : ℕ) : choose l k ∈ l := by
  have hl : k % l.length < l.length := Nat.mod_lt _ (List.length_pos_iff.2 h)
  unfold choose
  rw [List.getD_eq_getElem?_getD, List.getElem?_eq_getElem hl]
  exact List.getElem_mem hl

theorem pickSplits_spec (nodes : List Node) (draw : ℕ → ℕ) (hnd : ∀ n ∈ nodes, n.candidateSplits.Nodup) (ns : List ℕ) (k : ℕ) (acc sp : List ℕ)
    (h : pickSplits nodes draw k ns acc = some sp) (ha : acc.Nodup) :
    sp.Nodup ∧ ∃ new, sp = acc ++ new ∧ new.length = ns.length ∧ ∀ q ∈ ns.zip new, q.2 ∈ cand nodes q.1 := by
  induction ns generalizing k acc with
  | nil =>
    simp only [pickSplits, Option.some.injEq] at h
    subst h
    exact ⟨ha, [], by simp, rfl, by simp⟩
  | cons n ns ih =>
    have hcn : (nodeAt nodes n).candidateSplits.Nodup := by
      unfold nodeAt
      rw [List.getD_eq_getElem?_getD]
      rcases hn : nodes[n]? with _ | x
      · simp [Node.none]
      · exact hnd x (List.mem_of_getElem? hn)
    obtain ⟨r1, r2⟩ := removeUsed_spec acc _ hcn
    rw [pickSplits] at h
    by_cases hc : (removeUsed acc (nodeAt nodes n).candidateSplits).isEmpty = true
    · simp only [hc, if_true] at h
      exact absurd h (by simp)
    · simp only [hc] at h
      rw [if_neg (by simp)] at h
      have hne : removeUsed acc (nodeAt nodes n).candidateSplits ≠ [] := by simpa using hc
      have hm := (r2 _).1 (choose_mem hne (draw k))
      obtain ⟨h1, new, h2, h3, h4⟩ := ih (k + 1) _ h (by
        rw [List.nodup_append]
        refine ⟨ha, by simp, ?_⟩
        intro x hx y hy he
        rw [List.mem_singleton] at hy
        exact hm.2 (by rw [← hy, ← he]; exact hx))
      refine ⟨h1, choose (removeUsed acc (nodeAt nodes n).candidateSplits) (draw k) :: new, by rw [h2]; simp, by simp [h3], ?_⟩
      intro q hq
      rw [List.zip_cons_cons, List.mem_cons] at hq
      rcases hq with rfl | hq
      · have := hm.1
        obtain ⟨s0, hs0⟩ : ∃ s0, s0 = choose (removeUsed acc (nodeAt nodes n).candidateSplits) (draw k) := ⟨_, rfl⟩
        rw [← hs0] at this ⊢
        unfold cand
        unfold nodeAt at this
        rw [List.getD_eq_getElem?_getD] at this
        rcases hn : nodes[n]? with _ | x
        · rw [hn] at this; simp [Node.none] at this
        · rw [hn] at this; simpa [hn] using this
      · exact h4 q hq

/-! ## The best target -/

/-- The count of class `t` over a list of rows. -/
def HConf.cnt (c : HConf) (rows : List ℕ) (t : ℕ) : ℕ :=
  (rows.map (fun r => if c.removed r = false ∧ c.y.getD r 0 = t then c.weight r else 0)).sum

/-- The state of the loop describes its counts. -/
structure Best.Good (b : Best) : Prop where
  le : ∀ t, b.counts t ≤ b.count
  attained : (b.target = -1 ∧ b.count = 0) ∨ ∃ t : ℕ, b.target = t ∧ b.count = b.counts t ∧ 0 < b.count

theorem countRow_spec (c : HConf) (b : Best) (r : ℕ) (h : b.Good) :
    (c.countRow b r).Good ∧ ∀ t, (c.countRow b r).counts t = b.counts t + if c.removed r = false ∧ c.y.getD r 0 = t then c.weight r else 0 := by
  unfold HConf.countRow
  by_cases hr : c.removed r = true
  · rw [if_pos hr]
    exact ⟨h, fun t => by simp [hr]⟩
  · rw [if_neg hr]
    have hr' : c.removed r = false := by simpa using hr
    obtain ⟨t0, ht0⟩ : ∃ t0, t0 = c.y.getD r 0 := ⟨_, rfl⟩
    simp only [← ht0]
    have hup : ∀ t, Function.update b.counts t0 (b.counts t0 + c.weight r) t =
        b.counts t + if c.removed r = false ∧ t0 = t then c.weight r else 0 := by
      intro t
      rw [Function.update_apply]
      by_cases ht : t = t0
      · subst ht; simp [hr']
      · rw [if_neg ht, if_neg (fun hc => ht hc.2.symm), add_zero]
    split_ifs with hgt
    · refine ⟨⟨?_, Or.inr ⟨t0, rfl, by simp, by simp only; omega⟩⟩, hup⟩
      intro t
      simp only
      rw [Function.update_apply]
      split_ifs
      · exact le_rfl
      · have := h.le t; omega
    · refine ⟨⟨?_, ?_⟩, hup⟩
      · intro t
        simp only
        rw [Function.update_apply]
        split_ifs
        · omega
        · exact h.le t
      · simp only
        rcases h.attained with h1 | ⟨t, h1, h2, h3⟩
        · exact Or.inl h1
        · refine Or.inr ⟨t, h1, ?_, h3⟩
          rw [Function.update_apply]
          split_ifs with he
          · subst he; omega
          · exact h2

theorem bestTarget_fold (c : HConf) (rows : List ℕ) (b : Best) (h : b.Good) :
    (rows.foldl c.countRow b).Good ∧ ∀ t, (rows.foldl c.countRow b).counts t = b.counts t + c.cnt rows t := by
  induction rows generalizing b with
  | nil => exact ⟨h, by simp [HConf.cnt]⟩
  | cons r l ih =>
    obtain ⟨h1, h2⟩ := countRow_spec c b r h
    obtain ⟨h3, h4⟩ := ih _ h1
    rw [List.foldl_cons]
    refine ⟨h3, ?_⟩
    intro t
    rw [h4, h2]
    unfold HConf.cnt
    rw [List.map_cons, List.sum_cons]
    omega

theorem bestTarget_spec (c : HConf) (rows : List ℕ) :
    (∀ t, c.cnt rows t ≤ (c.bestTarget rows).count) ∧
    (((c.bestTarget rows).target = -1 ∧ (c.bestTarget rows).count = 0) ∨
      ∃ t : ℕ, (c.bestTarget rows).target = t ∧ (c.bestTarget rows).count = c.cnt rows t ∧ 0 < c.cnt rows t) := by
  obtain ⟨h1, h2⟩ := bestTarget_fold c rows ⟨fun _ => 0, -1, 0⟩ ⟨fun _ => le_rfl, Or.inl ⟨rfl, rfl⟩⟩
  have h2' : ∀ t, (c.bestTarget rows).counts t = c.cnt rows t := by
    intro t
    have := h2 t
    simp only [Nat.zero_add] at this
    exact this
  refine ⟨fun t => by rw [← h2']; exact h1.le t, ?_⟩
  rcases h1.attained with h3 | ⟨t, h3, h4, h5⟩
  · exact Or.inl h3
  · refine Or.inr ⟨t, h3, ?_, ?_⟩
    · rw [← h2']; exact h4
    · rw [← h2']
      have h4' : (c.bestTarget rows).count = (c.bestTarget rows).counts t := h4
      have h5' : 0 < (c.bestTarget rows).count := h5
      omega

theorem removed_iff (c : HConf) (r : ℕ) : c.removed r = false ↔ HKept c r := by
  unfold HConf.removed HKept
  cases c.dataRows <;> simp

theorem hWeight_eq (c : HConf) (r : ℕ) : c.weight r = hWeight c r := by
  unfold HConf.weight hWeight
  cases c.dataRows <;> rfl

theorem sum_filter_ite {α : Type*} (l : List α) (P : α → Bool) (f : α → ℕ) :
    ((l.filter P).map f).sum = (l.map (fun x => if P x = true then f x else 0)).sum := by
  induction l with
  | nil => rfl
  | cons x l ih =>
    by_cases h : P x = true
    · rw [List.filter_cons_of_pos h, List.map_cons, List.sum_cons, List.map_cons, List.sum_cons, ih, if_pos h]
    · rw [List.filter_cons_of_neg h, List.map_cons, List.sum_cons, ih, if_neg h, zero_add]

/-- Over a duplicate free list of the rows that follow the path the count of a class is its weighted number of hits. -/
theorem cnt_eq {d : ℕ} (c : HConf) (splits : List Split) (p : Path) {rows : List ℕ} (hn : rows.Nodup)
    (hm : ∀ r, r ∈ rows ↔ r < c.X.length ∧ Follows d (rowLeft splits (c.X.getD r [])) p) (t : ℕ) :
    c.cnt rows t = hHits d c splits p t := by
  classical
  have hp : rows.Perm ((List.range c.X.length).filter (fun r => decide (Follows d (rowLeft splits (c.X.getD r [])) p))) := by
    refine (List.perm_ext_iff_of_nodup hn (List.Nodup.filter _ List.nodup_range)).2 ?_
    intro r
    rw [hm, List.mem_filter, List.mem_range, decide_eq_true_iff]
  unfold HConf.cnt hHits
  rw [(hp.map _).sum_eq, sum_filter_ite]
  congr 1
  refine List.map_congr_left ?_
  intro r _
  simp only [decide_eq_true_eq]
  by_cases h1 : Follows d (rowLeft splits (c.X.getD r [])) p
  · rw [if_pos h1]
    by_cases h2 : c.removed r = false ∧ c.y.getD r 0 = t
    · rw [if_pos h2, if_pos ⟨(removed_iff c r).1 h2.1, h1, by exact_mod_cast h2.2⟩, hWeight_eq]
    · rw [if_neg h2, if_neg]
      rintro ⟨h3, _, h4⟩
      exact h2 ⟨(removed_iff c r).2 h3, by exact_mod_cast h4⟩
  · rw [if_neg h1, if_neg (fun h => h1 h.2.1)]

theorem hHits_neg {d : ℕ} (c : HConf) (splits : List Split) (p : Path) {t : ℤ} (ht : t < 0) : hHits d c splits p t = 0 := by
  classical
  unfold hHits
  rw [List.sum_eq_zero]
  intro x hx
  obtain ⟨r, _, rfl⟩ := List.mem_map.1 hx
  rw [if_neg]
  rintro ⟨_, _, h⟩
  omega

/-! ## The reduced cost -/

theorem subtractAll_ok (duals : List ℚ) (l : List ℕ) (acc : ℚ) (h : ∀ i ∈ l, i < duals.length) :
    subtractAll duals l acc = .ok (acc - (l.map (fun i => duals.getD i 0)).sum) := by
  induction l generalizing acc with
  | nil => simp [subtractAll]
  | cons i l ih =>
    have hi := h i (by simp)
    rw [subtractAll, List.getElem?_eq_getElem hi]
    simp only
    rw [ih _ (fun j hj => h j (by simp [hj]))]
    congr 1
    rw [List.map_cons, List.sum_cons, List.getD_eq_getElem?_getD, List.getElem?_eq_getElem hi]
    simp only [Option.getD_some]
    ring

theorem subtractNs_ok (ns : ℕ → ℕ → Option ℚ) (l : List (ℕ × ℕ)) (acc : ℚ) (h : ∀ q ∈ l, (ns q.1 q.2).isSome = true) :
    subtractNs ns l acc = .ok (acc - (l.map (fun q => (ns q.1 q.2).getD 0)).sum) := by
  induction l generalizing acc with
  | nil => simp [subtractNs]
  | cons i l ih =>
    have hi := h i (by simp)
    obtain ⟨x, hx⟩ := Option.isSome_iff_exists.1 hi
    rw [subtractNs, hx]
    simp only
    rw [ih _ (fun j hj => h j (by simp [hj]))]
    congr 1
    rw [List.map_cons, List.sum_cons, hx, Option.getD_some]
    ring

theorem sum_filter_ite' {α : Type*} (l : List α) (P : α → Bool) (f : α → ℚ) :
    ((l.filter P).map f).sum = (l.map (fun x => if P x = true then f x else 0)).sum := by
  induction l with
  | nil => rfl
  | cons x l ih =>
    by_cases h : P x = true
    · rw [List.filter_cons_of_pos h, List.map_cons, List.sum_cons, List.map_cons, List.sum_cons, ih, if_pos h]
    · rw [List.filter_cons_of_neg h, List.map_cons, List.sum_cons, ih, if_neg h, zero_add]

theorem reducedCost_ok {d : ℕ} {c : HConf} {splits : List Split} {cuts : List (List Bool)} {D : Duals} (h : HeurOk d c splits cuts D)
    {p : Path} (hw : WFPath d p) (hc : UsesCand c.nodes p) {rows : List ℕ}
    (hm : ∀ r, r ∈ rows ↔ r < c.X.length ∧ Follows d (rowLeft splits (c.X.getD r [])) p) :
    c.reducedCost splits D p rows = .ok (colRed d c.X splits cuts D p) := by
  classical
  have hs : ∀ s ∈ p.splits, s < splits.length := by
    intro s hs
    have : s ∈ p.pairs.map Prod.snd := by
      unfold Path.pairs
      rw [List.map_snd_zip (by rw [hw.splits, hw.nodes.length_eq]; simp)]
      exact hs
    obtain ⟨q, hq, rfl⟩ := List.mem_map.1 this
    exact cand_lt_of_tree h.tree _ _ (hc q hq)
  unfold HConf.reducedCost
  rw [subtractAll_ok _ _ _ (by
    intro i hi
    rw [List.mem_filter, List.mem_range] at hi
    rw [h.rowDuals]; exact hi.1)]
  simp only
  have hl : leafAt c.leaves p.leafId = createLeaf p.leafId d := by rw [h.tree.leaves]; exact leafAt_full hw.leaf_lt
  obtain ⟨cs, hcs, hcm⟩ := C39_satisfied_cuts h.cutsFilled h.tree.split_id hw h.depth hs
  rw [hl, hcs]
  simp only
  rw [subtractAll_ok _ _ _ (by
    intro i hi
    rw [List.mem_dedup, hcm] at hi
    rw [h.cutDuals]; exact hi.1)]
  simp only
  rw [subtractNs_ok _ _ _ (by
    intro q hq
    obtain ⟨k, hk, he⟩ := hw.mem_pairs hq
    have := hc q hq
    rw [he] at this ⊢
    exact h.nsDuals _ hw.leaf_lt k hk _ this)]
  congr 1
  unfold colRed
  have e1 : (((List.range c.X.length).filter (fun r => decide (r ∈ rows))).map (fun i => D.row.getD i 0)).sum =
      ((List.range c.X.length).map (fun r => if Follows d (rowLeft splits (c.X.getD r [])) p then D.row.getD r 0 else 0)).sum := by
    rw [sum_filter_ite']
    congr 1
    refine List.map_congr_left ?_
    intro r hr
    rw [List.mem_range] at hr
    simp only [decide_eq_true_eq]
    exact if_congr ((hm r).trans ⟨fun h => h.2, fun h => ⟨hr, h⟩⟩) rfl rfl
  have e2 : (cs.dedup.map (fun i => D.cut.getD i 0)).sum = cutSum cuts.length (fun k => Follows d (cutPat cuts k) p) (fun k => D.cut.getD k 0) := by
    have hp : cs.dedup.Perm ((List.range cuts.length).filter (fun k => decide (Follows d (cutPat cuts k) p))) := by
      refine (List.perm_ext_iff_of_nodup (List.nodup_dedup _) (List.Nodup.filter _ List.nodup_range)).2 ?_
      intro k
      rw [List.mem_dedup, hcm, List.mem_filter, List.mem_range, decide_eq_true_iff]
      rfl
    rw [(hp.map _).sum_eq, sum_filter_ite']
    unfold cutSum
    congr 1
    refine List.map_congr_left ?_
    intro k _
    simp only [decide_eq_true_eq]
  rw [e1, e2]
  ring

/-! ## Rounds -/

theorem tree_leaf {d l : ℕ} {leaves : List Leaf} {nodes : List Node} {splits : List Split} (ht : Tree d leaves nodes splits) (hl : l < 2 ^ d) :
    leafAt leaves l = createLeaf l d := by rw [ht.leaves]; exact leafAt_full hl

theorem leafNodes_perm' {d l : ℕ} (hl : l < 2 ^ d) :
    ((createLeaf l d).leftNodes ++ (createLeaf l d).rightNodes).Perm ((List.range d).map (anc d l)) := by
  rw [createLeaf_eq hl]
  simp only
  rw [← List.map_append]
  refine List.Perm.map _ ?_
  refine (List.filter_append_perm (goesLeft d l) (List.range d).reverse).trans (List.reverse_perm _)

/-- The order in which sets are listed is an order of their elements. -/
def Spec.Draws.Ok (dr : Draws) : Prop := ∀ l, (dr.order l).Perm l

theorem round_spec {d : ℕ} {c : HConf} {splits : List Split} {cuts : List (List Bool)} {D : Duals} (h : HeurOk d c splits cuts D) {dr : Draws}
    (hd : Spec.Draws.Ok dr) (i : ℕ) (gen : List Path) (hgen : ∀ p ∈ gen, HeurPath d c splits cuts D p) :
    ∃ r, c.round splits D dr i gen = .ok r ∧ ∀ p, r = some p → HeurPath d c splits cuts D p ∧ ∀ q ∈ gen, ¬ SamePath p q := by
  have hlen : c.leaves.length = 2 ^ d := by rw [h.tree.leaves]; simp [fullLeaves]
  have hne : c.leaves.isEmpty = false := by
    rw [List.isEmpty_eq_false_iff]
    intro he
    rw [he] at hlen
    have := Nat.two_pow_pos d
    simp at hlen
    omega
  unfold HConf.round
  rw [if_neg (by rw [hne]; simp)]
  obtain ⟨l, hl⟩ : ∃ l, l = dr.choice i 0 % c.leaves.length := ⟨_, rfl⟩
  have hlt : l < 2 ^ d := by rw [hl, hlen]; exact Nat.mod_lt _ (Nat.two_pow_pos d)
  simp only [← hl, tree_leaf h.tree hlt]
  rcases hpick : pickSplits c.nodes (dr.choice i) 1 ((createLeaf l d).leftNodes ++ (createLeaf l d).rightNodes) [] with _ | sp
  · exact ⟨none, rfl, by simp⟩
  simp only
  obtain ⟨hnd, new, hspn, hln, hcand⟩ := pickSplits_spec c.nodes _ h.tree.cand_nodup _ _ _ _ hpick List.nodup_nil
  rw [List.nil_append] at hspn
  rw [← hspn] at hln hcand
  have hid : (createLeaf l d).id = l := rfl
  rw [hid]
  have hperm := leafNodes_perm' hlt
  have hwf : ∀ cost t, WFPath d ⟨l, (createLeaf l d).leftNodes ++ (createLeaf l d).rightNodes, sp, cost, 0, t, false⟩ := by
    intro cost t
    refine ⟨hlt, hperm, ?_⟩
    simp only
    rw [hln, hperm.length_eq]
    simp
  have hcs : ∀ cost t, UsesCand c.nodes ⟨l, (createLeaf l d).leftNodes ++ (createLeaf l d).rightNodes, sp, cost, 0, t, false⟩ :=
    fun cost t q hq => hcand q hq
  obtain ⟨p0, hp0⟩ : ∃ p0 : Path, p0 = ⟨l, (createLeaf l d).leftNodes ++ (createLeaf l d).rightNodes, sp, 0, 0, -1, false⟩ := ⟨_, rfl⟩
  have hw0 : WFPath d p0 := by rw [hp0]; exact hwf _ _
  have hc0 : UsesCand c.nodes p0 := by rw [hp0]; exact hcs _ _
  have hsp0 : p0.splits = sp := by rw [hp0]
  have hl0 : p0.leafId = l := by rw [hp0]
  rw [← hp0]
  have hs : ∀ s ∈ p0.splits, s < splits.length := by
    intro s hs
    have : s ∈ p0.pairs.map Prod.snd := by
      unfold Path.pairs
      rw [List.map_snd_zip (by rw [hw0.splits, hw0.nodes.length_eq]; simp)]
      exact hs
    obtain ⟨q, hq, rfl⟩ := List.mem_map.1 this
    exact cand_lt_of_tree h.tree _ _ (hc0 q hq)
  have hpne : p0.pairs ≠ [] := by
    obtain ⟨t, ht⟩ := hw0.exists_split h.depth
    exact List.ne_nil_of_mem ht
  obtain ⟨rows, hrows, hrm⟩ := (C39_satisfied_rows h.filled (createLeaf l d) p0 hs).2 hpne
  rw [hrows]
  simp only
  have hrm' : ∀ r, r ∈ rows ↔ r < c.X.length ∧ Follows d (rowLeft splits (c.X.getD r [])) p0 := by
    intro r
    rw [hrm]
    have := rowSatisfiesPath_iff hw0 splits (c.X.getD r [])
    rw [hl0, leafAt_full hlt] at this
    exact and_congr_right (fun _ => this)
  obtain ⟨b, hb⟩ : ∃ b, b = c.bestTarget (dr.order rows.dedup) := ⟨_, rfl⟩
  rw [← hb]
  obtain ⟨b1, b2⟩ := bestTarget_spec c (dr.order rows.dedup)
  rw [← hb] at b1 b2
  obtain ⟨p, hp⟩ : ∃ p : Path, p = { p0 with target := b.target, cost := (b.count : ℚ) } := ⟨_, rfl⟩
  have hpe : p = ⟨l, (createLeaf l d).leftNodes ++ (createLeaf l d).rightNodes, sp, (b.count : ℚ), 0, b.target, false⟩ := by rw [hp, hp0]
  rw [← hpe]
  have hfol : ∀ left, Follows d left p ↔ Follows d left p0 := by intro left; rw [hp]; exact Iff.rfl
  have hwp : WFPath d p := by rw [hp]; exact ⟨hw0.leaf_lt, hw0.nodes, hw0.splits⟩
  have hcp : UsesCand c.nodes p := by rw [hp]; exact hc0
  have hcnt : ∀ t, c.cnt (dr.order rows.dedup) t = hHits d c splits p t := by
    intro t
    refine cnt_eq c splits p ((hd _).nodup_iff.2 (List.nodup_dedup _)) ?_ t
    intro r
    rw [(hd _).mem_iff, List.mem_dedup, hrm', hfol]
  have hrm2 : ∀ r, r ∈ rows ↔ r < c.X.length ∧ Follows d (rowLeft splits (c.X.getD r [])) p := by
    intro r; rw [hrm', hfol]
  by_cases hsame : gen.any (fun old => p.isSameAs old) = true
  · rw [if_pos hsame]; exact ⟨none, rfl, by simp⟩
  rw [if_neg hsame, reducedCost_ok h hwp hcp hrm2]
  simp only
  by_cases hgt : colRed d c.X splits cuts D p > 1 / 1000000
  · rw [if_pos hgt]
    refine ⟨some p, rfl, ?_⟩
    intro p' hp'
    injection hp' with hp'
    subst hp'
    have hpt : p.target = b.target := by rw [hp]
    have hpc : p.cost = (b.count : ℚ) := by rw [hp]
    refine ⟨⟨hwp, hcp, by rw [hp]; show p0.splits.Nodup; rw [hsp0]; exact hnd, ?_, ?_, ?_, hgt, by rw [hp, hp0]⟩, ?_⟩
    · rw [hpc, hpt]
      rcases b2 with ⟨h1, h2⟩ | ⟨t, h1, h2, _⟩
      · rw [h1, h2, hHits_neg c splits p (by norm_num)]
      · rw [h1, h2, hcnt]
    · intro t
      have hle : hHits d c splits p t ≤ b.count := by
        rcases lt_or_ge t 0 with ht | ht
        · rw [hHits_neg c splits p ht]; exact Nat.zero_le _
        · have := b1 t.toNat
          rw [hcnt, Int.toNat_of_nonneg ht] at this
          exact this
      rw [hpt]
      rcases b2 with ⟨h1, h2⟩ | ⟨t', h1, h2, _⟩
      · rw [h1, hHits_neg c splits p (show (-1 : ℤ) < 0 by norm_num)]; omega
      · rw [h1, ← hcnt, ← h2]; exact hle
    · rw [hpt, hpc]
      rcases b2 with ⟨h1, h2⟩ | ⟨t, h1, h2, h3⟩
      · exact Or.inl ⟨h1, by rw [h2]; simp⟩
      · right
        have hpos : ∃ r ∈ dr.order rows.dedup, (if c.removed r = false ∧ c.y.getD r 0 = t then c.weight r else 0) ≠ 0 := by
          by_contra hcon
          push Not at hcon
          unfold HConf.cnt at h3
          rw [List.sum_eq_zero] at h3
          · omega
          · intro x hx
            obtain ⟨r, hr, rfl⟩ := List.mem_map.1 hx
            exact hcon r hr
        obtain ⟨r, hr, hne⟩ := hpos
        rw [(hd _).mem_iff, List.mem_dedup, hrm2] at hr
        by_cases hcc : c.removed r = false ∧ c.y.getD r 0 = t
        · exact ⟨r, hr.1, (removed_iff c r).1 hcc.1, hr.2, by rw [h1, hcc.2]⟩
        · rw [if_neg hcc] at hne; exact absurd rfl hne
    · intro q hq hsp
      have hok : PathOk p := ⟨by rw [hwp.splits, hwp.nodes.length_eq]; simp, hwp.nodup⟩
      have hwq := (hgen q hq).wf
      have hokq : PathOk q := ⟨by rw [hwq.splits, hwq.nodes.length_eq]; simp, hwq.nodup⟩
      apply hsame
      rw [List.any_eq_true]
      exact ⟨q, hq, (C38_meaning hok hokq).2 hsp⟩
  · rw [if_neg hgt]; exact ⟨none, rfl, by simp⟩

theorem rounds_spec {d : ℕ} {c : HConf} {splits : List Split} {cuts : List (List Bool)} {D : Duals} (h : HeurOk d c splits cuts D) {dr : Draws}
    (hd : Spec.Draws.Ok dr) (is : List ℕ) (gen : List Path) (failed : ℕ) (hgen : ∀ p ∈ gen, HeurPath d c splits cuts D p)
    (hpair : gen.Pairwise (fun p q => ¬ SamePath p q)) :
    ∃ ps f, c.rounds splits D dr is gen failed = (.ok ps, f) ∧ (∀ p ∈ ps, HeurPath d c splits cuts D p) ∧
      ps.Pairwise (fun p q => ¬ SamePath p q) ∧ ps.length + f = gen.length + failed + is.length := by
  induction is generalizing gen failed with
  | nil => exact ⟨gen, failed, rfl, hgen, hpair, by simp⟩
  | cons i is ih =>
    obtain ⟨r, hr, hp⟩ := round_spec h hd i gen hgen
    rw [HConf.rounds, hr]
    rcases r with _ | p
    · obtain ⟨ps, f, h1, h2, h3, h4⟩ := ih gen (failed + 1) hgen hpair
      exact ⟨ps, f, h1, h2, h3, by rw [h4, List.length_cons]; omega⟩
    · obtain ⟨hp1, hp2⟩ := hp p rfl
      obtain ⟨ps, f, h1, h2, h3, h4⟩ := ih (gen ++ [p]) failed (by
        intro q hq
        rcases List.mem_append.1 hq with hq | hq
        · exact hgen q hq
        · rw [List.mem_singleton.1 hq]; exact hp1) (by
        rw [List.pairwise_append]
        refine ⟨hpair, by simp, ?_⟩
        intro a ha b hb hs
        rw [List.mem_singleton.1 hb] at hs
        exact hp2 a ha ⟨hs.1.symm, hs.2.1.symm, hs.2.2.1.symm, fun x => (hs.2.2.2 x).symm⟩)
      exact ⟨ps, f, h1, h2, h3, by rw [h4, List.length_append, List.length_cons]; simp; omega⟩

/-- **C49**. In the situation of `fit` (`HeurOk`), for all random draws and all orders in which sets are listed, `generate_columns` of the
heuristic does not raise, every returned path is as claimed, no two returned paths are the same, and the 100 rounds are counted. -/
theorem C49_heuristic {d : ℕ} {c : HConf} {cuts : List (List Bool)} {D : Duals} {st : HeurSt} (h : HeurOk d c st.splits cuts D) {dr : Draws}
    (hd : Spec.Draws.Ok dr) :
    ∃ ps st', c.generate D dr st = (.ok ps, st') ∧ (∀ p ∈ ps, HeurPath d c st.splits cuts D p) ∧
      ps.Pairwise (fun p q => ¬ SamePath p q) ∧ st'.success = st.success + ps.length ∧
      (st'.success - st.success) + (st'.failed - st.failed) = 100 ∧ st.failed ≤ st'.failed ∧
      st'.splits = st.splits ∧ st'.numCuts = st.numCuts := by
  obtain ⟨ps, f, h1, h2, h3, h4⟩ := rounds_spec h hd (List.range 100) [] st.failed (by simp) List.Pairwise.nil
  have hmono : ∀ (is : List ℕ) (gen : List Path) (k : ℕ), k ≤ (c.rounds st.splits D dr is gen k).2 := by
    intro is
    induction is with
    | nil => intro gen k; exact le_rfl
    | cons i is ih =>
      intro gen k
      rw [HConf.rounds]
      rcases c.round st.splits D dr i gen with e | _ | p
      · exact le_rfl
      · exact le_trans (Nat.le_succ k) (ih gen (k + 1))
      · exact ih _ k
  have hm := hmono (List.range 100) [] st.failed
  rw [h1] at hm
  simp only [List.length_nil, List.length_range, zero_add] at h4
  unfold HConf.generate
  rw [h1]
  refine ⟨ps, _, rfl, h2, h3, rfl, ?_, hm, rfl, rfl⟩
  simp only at hm ⊢
  omega

/-- `update_subproblem` of the heuristic: the master problem has already entered the new cuts in the sets of the splits; entering them again
changes nothing. -/
theorem C49_update {cuts : List (List Bool)} {D : Duals} {st : HeurSt} (hn : st.numCuts = cuts.length)
    (hf : CutsFilled st.splits (cuts ++ D.newCuts)) :
    (HConf.update D st).splits = st.splits ∧ (HConf.update D st).numCuts = (cuts ++ D.newCuts).length := by
  refine ⟨?_, by simp [HConf.update, hn]⟩
  have key : ∀ (cs : List (List Bool × ℕ)) (sp : Split),
      (∀ c ∈ cs, if c.1.getD sp.id false = true then c.2 ∈ sp.leftCuts else c.2 ∈ sp.rightCuts) →
      cs.foldl (fun sp c => if c.1.getD sp.id false then { sp with leftCuts := setAdd sp.leftCuts c.2 }
        else { sp with rightCuts := setAdd sp.rightCuts c.2 }) sp = sp := by
    intro cs
    induction cs with
    | nil => intro sp _; rfl
    | cons c cs ih =>
      intro sp h
      have hc := h c (by simp)
      rw [List.foldl_cons]
      have e : (if c.1.getD sp.id false then { sp with leftCuts := setAdd sp.leftCuts c.2 }
          else { sp with rightCuts := setAdd sp.rightCuts c.2 }) = sp := by
        split_ifs at hc ⊢ with h1
        · unfold setAdd; rw [if_pos hc]
        · unfold setAdd; rw [if_pos hc]
      rw [e]
      exact ih sp (fun c' hc' => h c' (by simp [hc']))
  show addCutsToSplits st.splits st.numCuts D.newCuts = st.splits
  unfold addCutsToSplits
  conv_rhs => rw [← List.map_id st.splits]
  refine List.map_congr_left ?_
  intro sp hsp
  refine key _ sp ?_
  intro c hc
  obtain ⟨pat, i⟩ := c
  rw [hn] at hc
  have hz := List.mk_mem_zipIdx_iff_le_and_getElem?_sub.1 hc
  have hlt := (List.getElem?_eq_some_iff.1 hz.2).1
  have hge : (cuts ++ D.newCuts).getD i [] = pat := by
    rw [List.getD_eq_getElem?_getD, List.getElem?_append_right hz.1, hz.2]; rfl
  have hl : i < (cuts ++ D.newCuts).length := by rw [List.length_append]; omega
  obtain ⟨h1, h2⟩ := hf sp hsp i
  rw [hge] at h1 h2
  simp only
  split_ifs with hb
  · exact h1.2 ⟨hl, hb⟩
  · exact h2.2 ⟨hl, by simpa using hb⟩

end Verif.DTree
