import Mathlib.Data.List.Perm.Subperm
import Verif.DTree.TreeLemmas

/-!
# Properties of the tree objects: C36 - C39
-/

namespace Verif.DTree

open Spec

/-! ## C36 -/

/-- **C36** (paths). `Path.set_leaf` lists the `d` nodes on the way from the leaf up to the root: position `i` of the list is the node at
level `d - 1 - i`; they are nodes of the tree, pairwise different, each is the parent of the previous one (the first is the parent of the
leaf's position `2^d - 1 + l`), and the last one is the root. Only the leaf id and the nodes of the path change. -/
theorem C36_set_leaf (p : Path) {d l : ℕ} (hl : l < 2 ^ d) :
    let ns := (p.setLeaf l d).nodeIds
    ns.length = d ∧ (∀ i < d, ns[i]? = some (anc d l (d - 1 - i))) ∧ (∀ n ∈ ns, n < 2 ^ d - 1) ∧ ns.Nodup ∧
      (∀ i n n', ns[i]? = some n → ns[i + 1]? = some n' → (n = 2 * n' + 1 ∨ n = 2 * n' + 2)) ∧
      (∀ n, ns[0]? = some n → (2 ^ d - 1 + l = 2 * n + 1 ∨ 2 ^ d - 1 + l = 2 * n + 2)) ∧
      (0 < d → ns[d - 1]? = some 0) ∧
      p.setLeaf l d = { p with leafId := l, nodeIds := ns } := by
  intro ns
  have hns : ns = (List.range d).reverse.map (anc d l) := setLeaf_nodeIds p hl
  have hget : ∀ i < d, ns[i]? = some (anc d l (d - 1 - i)) := by
    intro i hi
    rw [hns, List.getElem?_map, List.getElem?_reverse (by simpa using hi), List.length_range, List.getElem?_range (by omega)]
    rfl
  have hlen : ns.length = d := by rw [hns]; simp
  have hlt : ∀ i (n : ℕ), ns[i]? = some n → i < d := by
    intro i n h
    rw [← hlen]
    exact (List.getElem?_eq_some_iff.1 h).1
  refine ⟨hlen, hget, ?_, ?_, ?_, ?_, ?_, rfl⟩
  · intro n hn
    rw [hns] at hn
    simp only [List.mem_map, List.mem_reverse, List.mem_range] at hn
    obtain ⟨k, hk, rfl⟩ := hn
    exact anc_lt hl hk
  · rw [hns]
    refine List.Nodup.map_on ?_ (List.nodup_reverse.2 List.nodup_range)
    intro a ha b hb he
    simp only [List.mem_reverse, List.mem_range] at ha hb
    exact anc_inj hl ha.le hb.le he
  · intro i n n' h1 h2
    have hi := hlt _ _ h2
    rw [hget i (by omega)] at h1
    rw [hget (i + 1) hi] at h2
    injection h1 with h1
    injection h2 with h2
    have := anc_succ (d := d) (l := l) (k := d - 1 - (i + 1)) (by omega)
    rw [show d - 1 - (i + 1) + 1 = d - 1 - i by omega, h1, h2] at this
    split_ifs at this <;> omega
  · intro n h1
    have hi := hlt _ _ h1
    rw [hget 0 hi] at h1
    injection h1 with h1
    have := anc_succ (d := d) (l := l) (k := d - 1) (by omega)
    rw [show d - 1 + 1 = d by omega, anc_self] at this
    rw [show d - 1 - 0 = d - 1 by omega] at h1
    rw [h1] at this
    split_ifs at this <;> omega
  · intro hd
    rw [hget (d - 1) (by omega)]
    rw [show d - 1 - (d - 1) = 0 by omega, anc_zero hl]

/-- **C36** (leaves). `Leaf.create_leaf` distributes exactly the nodes of the path over `left_nodes` and `right_nodes` (together they are
a permutation of the path's nodes, and none is in both); the node at level `k` is a left node iff bit `d - 1 - k` of the leaf number is 0. -/
theorem C36_create_leaf (p : Path) {d l : ℕ} (hl : l < 2 ^ d) :
    let lf := createLeaf l d
    lf.id = l ∧ (lf.leftNodes ++ lf.rightNodes).Perm (p.setLeaf l d).nodeIds ∧
      (∀ n, n ∈ lf.leftNodes → n ∉ lf.rightNodes) ∧
      (∀ k < d, (anc d l k ∈ lf.leftNodes ↔ l.testBit (d - 1 - k) = false) ∧
        (anc d l k ∈ lf.rightNodes ↔ l.testBit (d - 1 - k) = true)) := by
  intro lf
  refine ⟨?_, ?_, ?_, ?_⟩
  · rfl
  · rw [setLeaf_nodeIds p hl]
    change ((createLeaf l d).leftNodes ++ (createLeaf l d).rightNodes).Perm _
    rw [createLeaf_eq hl]
    simp only
    rw [← List.map_append]
    exact List.Perm.map _ (List.filter_append_perm _ _)
  · intro n h1 h2
    rw [mem_leftNodes hl] at h1
    rw [mem_rightNodes hl] at h2
    obtain ⟨k, hk, he, hg⟩ := h1
    obtain ⟨k', hk', he', hg'⟩ := h2
    obtain rfl := anc_inj hl hk.le hk'.le (he.symm.trans he')
    rw [hg] at hg'
    cases hg'
  · intro k hk
    refine ⟨?_, ?_⟩
    · rw [anc_mem_leftNodes hl hk]
      simp [goesLeft]
    · rw [mem_rightNodes hl]
      constructor
      · rintro ⟨k', hk', he, hg⟩
        rw [← anc_inj hl hk.le hk'.le he] at hg
        simpa [goesLeft] using hg
      · intro h
        exact ⟨k, hk, rfl, by simpa [goesLeft] using h⟩

/-- Depth 3, leaf 5 (binary 101): right, left, right. -/
example : (Path.setLeaf ⟨0, [], [], 0, 0, 0, false⟩ 5 3).nodeIds = [5, 2, 0] ∧ createLeaf 5 3 = ⟨5, [2], [5, 0]⟩ := by decide

/-! ## C37 -/

/-- The path to leaf `l` that uses split `σ n` at node `n`. -/
def Spec.treePath (σ : ℕ → ℕ) (d l : ℕ) : Path :=
  ⟨l, (List.range d).map (anc d l), (List.range d).map (fun k => σ (anc d l k)), 0, 0, 0, false⟩

theorem Spec.treePath_wf (σ : ℕ → ℕ) {d l : ℕ} (hl : l < 2 ^ d) : WFPath d (treePath σ d l) :=
  ⟨hl, List.Perm.refl _, by simp [treePath]⟩

theorem Spec.treePath_pairs (σ : ℕ → ℕ) (d l : ℕ) (q : ℕ × ℕ) :
    q ∈ (treePath σ d l).pairs ↔ ∃ k < d, q = (anc d l k, σ (anc d l k)) := by
  have : (treePath σ d l).pairs = (List.range d).map (fun k => (anc d l k, σ (anc d l k))) := by
    unfold Path.pairs treePath
    simp only
    rw [List.zip_map', ]
  rw [this]
  simp only [List.mem_map, List.mem_range]
  constructor
  · rintro ⟨k, hk, rfl⟩; exact ⟨k, hk, rfl⟩
  · rintro ⟨k, hk, rfl⟩; exact ⟨k, hk, rfl⟩

/-- **C37.** One split `σ n` for every node of a tree of depth `d`; `paths l` any well-formed path to leaf `l` using these splits (nodes
in any order). A row satisfies the path of exactly one leaf: the leaf reached by walking down from the root, left iff the feature is at
most the threshold of the split of the node. -/
theorem C37_unique_leaf {d : ℕ} (σ : ℕ → ℕ) (splits : List Split) (row : List ℚ) (paths : ℕ → Path)
    (hp : ∀ l < 2 ^ d, WFPath d (paths l) ∧ (paths l).leafId = l ∧ ∀ q ∈ (paths l).pairs, q.2 = σ q.1) :
    (∀ l < 2 ^ d, rowSatisfiesPath row (createLeaf l d) splits (paths l) = true ↔
      l = walkLeaf (fun n => takesLeft row (splitAt splits (σ n))) d) ∧
    ∃! l, l < 2 ^ d ∧ rowSatisfiesPath row (createLeaf l d) splits (paths l) = true := by
  have h1 : ∀ l < 2 ^ d, rowSatisfiesPath row (createLeaf l d) splits (paths l) = true ↔
      l = walkLeaf (fun n => takesLeft row (splitAt splits (σ n))) d := by
    intro l hl
    obtain ⟨hwf, hid, hσ⟩ := hp l hl
    have := rowSatisfiesPath_iff hwf splits row
    rw [hid, leafAt_full hl] at this
    rw [this, eq_comm, walkLeaf_iff _ hl]
    unfold Follows
    rw [hid]
    constructor
    · intro h k hk
      obtain ⟨s, hs⟩ := hwf.exists_split hk
      rw [hid] at hs
      have h2 := h k hk s hs
      have h3 : s = σ (anc d l k) := hσ _ hs
      rw [h3] at h2
      exact h2
    · intro h k hk s hs
      have h3 : s = σ (anc d l k) := hσ _ hs
      rw [h3]
      exact h k hk
  refine ⟨h1, walkLeaf (fun n => takesLeft row (splitAt splits (σ n))) d, ⟨walkLeaf_lt _ _, ?_⟩, ?_⟩
  · exact (h1 _ (walkLeaf_lt _ _)).2 rfl
  · rintro l ⟨hl, hs⟩
    exact (h1 l hl).1 hs

/-- The hypothesis of C37 is satisfiable for every split assignment. -/
example (d : ℕ) (σ : ℕ → ℕ) : ∀ l < 2 ^ d, WFPath d (treePath σ d l) ∧ (treePath σ d l).leafId = l ∧
    ∀ q ∈ (treePath σ d l).pairs, q.2 = σ q.1 := by
  intro l hl
  refine ⟨treePath_wf σ hl, rfl, ?_⟩
  intro q hq
  obtain ⟨k, _, rfl⟩ := (treePath_pairs σ d l q).1 hq
  rfl

/-- Depth 2, root split `x0 ≤ 1`, both children `x1 ≤ 5`: the row (2, 3) goes right, then left: leaf 2. -/
example : (List.range 4).map (fun l => rowSatisfiesPath [2, 3] (createLeaf l 2)
    [⟨0, 0, 1, false, [], [], [], []⟩, ⟨1, 1, 5, false, [], [], [], []⟩] (treePath (fun n => if n = 0 then 0 else 1) 2 l)) =
    [false, false, true, false] := by decide +kernel

/-! ## C38 -/

/-- What `is_same_as` needs to know about a path: as many splits as nodes, no node twice. -/
def Spec.PathOk (p : Path) : Prop := p.splits.length = p.nodeIds.length ∧ p.nodeIds.Nodup

theorem pathOk_pairs {p : Path} (h : PathOk p) : p.pairs.map Prod.fst = p.nodeIds ∧ p.pairs.Nodup ∧ p.pairs.length = p.nodeIds.length := by
  have h1 : p.pairs.map Prod.fst = p.nodeIds := by
    unfold Path.pairs
    apply List.map_fst_zip
    rw [h.1]
  refine ⟨h1, ?_, ?_⟩
  · exact List.Nodup.of_map _ (h1 ▸ h.2)
  · rw [← h1, List.length_map]

theorem pairs_getElem? {p : Path} (h : PathOk p) (i : ℕ) (hi : i < p.nodeIds.length) :
    p.pairs[i]? = some (p.nodeIds.getD i 0, p.splits.getD i 0) := by
  have h2 : i < p.splits.length := by rw [h.1]; exact hi
  unfold Path.pairs
  rw [List.getElem?_zip_eq_some]
  simp [List.getD_eq_getElem?_getD, List.getElem?_eq_getElem hi, List.getElem?_eq_getElem h2]

theorem mem_pairs_iff {p : Path} (h : PathOk p) (q : ℕ × ℕ) :
    q ∈ p.pairs ↔ ∃ i < p.nodeIds.length, q = (p.nodeIds.getD i 0, p.splits.getD i 0) := by
  constructor
  · intro hq
    obtain ⟨i, hi, he⟩ := List.mem_iff_getElem.1 hq
    have hi' : i < p.nodeIds.length := by rw [← (pathOk_pairs h).2.2]; exact hi
    refine ⟨i, hi', ?_⟩
    have := pairs_getElem? h i hi'
    rw [List.getElem?_eq_getElem hi] at this
    injection this with this
    rw [← this, he]
  · rintro ⟨i, hi, rfl⟩
    exact List.mem_of_getElem? (pairs_getElem? h i hi)

/-- **C38.** On paths with one split per node and no repeated node, `is_same_as` holds iff leaf, target, cost and the set of
(node, split) pairs agree. -/
theorem C38_meaning {p q : Path} (hp : PathOk p) (hq : PathOk q) :
    p.isSameAs q = true ↔
      p.leafId = q.leafId ∧ p.target = q.target ∧ p.cost = q.cost ∧ ∀ x, x ∈ p.pairs ↔ x ∈ q.pairs := by
  have hsub : ((List.range p.nodeIds.length).all fun i => (List.range q.nodeIds.length).any fun j =>
      q.nodeIds.getD j 0 == p.nodeIds.getD i 0 && q.splits.getD j 0 == p.splits.getD i 0) = true ↔ ∀ x ∈ p.pairs, x ∈ q.pairs := by
    simp only [List.all_eq_true, List.any_eq_true, List.mem_range, Bool.and_eq_true, beq_iff_eq]
    constructor
    · intro h x hx
      obtain ⟨i, hi, rfl⟩ := (mem_pairs_iff hp x).1 hx
      obtain ⟨j, hj, h1, h2⟩ := h i hi
      exact (mem_pairs_iff hq _).2 ⟨j, hj, by rw [h1, h2]⟩
    · intro h i hi
      obtain ⟨j, hj, he⟩ := (mem_pairs_iff hq _).1 (h _ ((mem_pairs_iff hp _).2 ⟨i, hi, rfl⟩))
      rw [Prod.mk.injEq] at he
      exact ⟨j, hj, he.1.symm, he.2.symm⟩
  unfold Path.isSameAs
  split_ifs with h1 h2 h3 h4
  · simp [h1]
  · simp [h2]
  · simp [h3]
  · simp only [Bool.false_eq_true, false_iff]
    rintro ⟨_, _, _, hx⟩
    apply h4
    rw [← (pathOk_pairs hp).2.2, ← (pathOk_pairs hq).2.2]
    exact ((List.perm_ext_iff_of_nodup (pathOk_pairs hp).2.1 (pathOk_pairs hq).2.1).2 hx).length_eq
  · push Not at h1 h2 h3 h4
    rw [hsub]
    constructor
    · intro h
      refine ⟨h1, h2, h3, ?_⟩
      have hperm : p.pairs.Perm q.pairs := by
        apply (List.subperm_of_subset (pathOk_pairs hp).2.1 h).perm_of_length_le
        rw [(pathOk_pairs hp).2.2, (pathOk_pairs hq).2.2, h4]
      exact fun x => hperm.mem_iff
    · exact fun h x hx => (h.2.2.2 x).1 hx

/-- **C38.** `is_same_as` is an equivalence relation on such paths, and equal paths are followed by the same rows. -/
theorem C38_equivalence {p q r : Path} (hp : PathOk p) (hq : PathOk q) (hr : PathOk r) :
    p.isSameAs p = true ∧ (p.isSameAs q = true → q.isSameAs p = true) ∧
      (p.isSameAs q = true → q.isSameAs r = true → p.isSameAs r = true) ∧
      (p.isSameAs q = true → ∀ row leaves splits, rowSatisfiesPath row (leafAt leaves p.leafId) splits p =
        rowSatisfiesPath row (leafAt leaves q.leafId) splits q) := by
  refine ⟨?_, ?_, ?_, ?_⟩
  · rw [C38_meaning hp hp]; simp
  · rw [C38_meaning hp hq, C38_meaning hq hp]
    rintro ⟨h1, h2, h3, h4⟩
    exact ⟨h1.symm, h2.symm, h3.symm, fun x => (h4 x).symm⟩
  · rw [C38_meaning hp hq, C38_meaning hq hr, C38_meaning hp hr]
    rintro ⟨h1, h2, h3, h4⟩ ⟨h1', h2', h3', h4'⟩
    exact ⟨h1.trans h1', h2.trans h2', h3.trans h3', fun x => (h4 x).trans (h4' x)⟩
  · rw [C38_meaning hp hq]
    rintro ⟨h1, -, -, h4⟩ row leaves splits
    rw [Bool.eq_iff_iff, rowSatisfiesPath, rowSatisfiesPath, rowLoop_iff, rowLoop_iff, h1]
    constructor
    · intro h x hx; exact h x ((h4 x).2 hx)
    · intro h x hx; exact h x ((h4 x).1 hx)

/-- Same pairs in another order: the same path; a different split: not. -/
example : (Path.isSameAs ⟨1, [0, 1], [4, 5], 3, 0, 1, true⟩ ⟨1, [1, 0], [5, 4], 3, 7, 1, false⟩,
    Path.isSameAs ⟨1, [0, 1], [4, 5], 3, 0, 1, true⟩ ⟨1, [1, 0], [4, 5], 3, 7, 1, false⟩) = (true, false) ∧
    PathOk ⟨1, [0, 1], [4, 5], 3, 0, 1, true⟩ ∧ PathOk ⟨1, [1, 0], [5, 4], 3, 7, 1, false⟩ := by
  refine ⟨by decide +kernel, ?_, ?_⟩ <;> simp [PathOk]

/-- Without the hypothesis (a node listed twice) the relation is not symmetric. -/
example : (Path.isSameAs ⟨1, [0, 0], [4, 4], 3, 0, 1, true⟩ ⟨1, [0, 1], [4, 5], 3, 7, 1, false⟩,
    Path.isSameAs ⟨1, [0, 1], [4, 5], 3, 7, 1, false⟩ ⟨1, [0, 0], [4, 4], 3, 0, 1, true⟩) = (true, false) := by decide +kernel

/-! ## C39 -/

/-- The row sets of a split after `add_rows_to_splits`. -/
theorem addRows_fold (X : List (List ℚ)) (rs : List ℕ) (sp : Split) :
    let sp' := rs.foldl (fun sp r =>
      if feat (X.getD r []) sp.feature ≤ sp.threshold then { sp with leftRows := setAdd sp.leftRows r }
      else { sp with rightRows := setAdd sp.rightRows r }) sp
    sp' = { sp with
      leftRows := sp'.leftRows
      rightRows := sp'.rightRows } ∧
    (∀ r, r ∈ sp'.leftRows ↔ r ∈ sp.leftRows ∨ (r ∈ rs ∧ takesLeft (X.getD r []) sp = true)) ∧
    (∀ r, r ∈ sp'.rightRows ↔ r ∈ sp.rightRows ∨ (r ∈ rs ∧ takesLeft (X.getD r []) sp = false)) := by
  induction rs generalizing sp with
  | nil => simp
  | cons a rs ih =>
    intro sp'
    by_cases h : feat (X.getD a []) sp.feature ≤ sp.threshold
    · have hsp : sp' = List.foldl (fun sp r =>
          if feat (X.getD r []) sp.feature ≤ sp.threshold then { sp with leftRows := setAdd sp.leftRows r }
          else { sp with rightRows := setAdd sp.rightRows r }) { sp with leftRows := setAdd sp.leftRows a } rs := by
        simp only [sp', List.foldl_cons, if_pos h]
      have := ih { sp with leftRows := setAdd sp.leftRows a }
      simp only [← hsp] at this
      obtain ⟨h1, h2, h3⟩ := this
      refine ⟨h1, ?_, ?_⟩
      · intro r
        rw [h2, mem_setAdd, List.mem_cons]
        have : takesLeft (X.getD a []) sp = true := decide_eq_true h
        change ((r ∈ sp.leftRows ∨ r = a) ∨ r ∈ rs ∧ takesLeft (X.getD r []) sp = true) ↔ _
        constructor
        · rintro ((h | rfl) | h)
          · exact .inl h
          · exact .inr ⟨.inl rfl, this⟩
          · exact .inr ⟨.inr h.1, h.2⟩
        · rintro (h | ⟨rfl | h, h'⟩)
          · exact .inl (.inl h)
          · exact .inl (.inr rfl)
          · exact .inr ⟨h, h'⟩
      · intro r
        rw [h3, List.mem_cons]
        have : takesLeft (X.getD a []) sp = true := decide_eq_true h
        change (r ∈ sp.rightRows ∨ r ∈ rs ∧ takesLeft (X.getD r []) sp = false) ↔ _
        constructor
        · rintro (h | h)
          · exact .inl h
          · exact .inr ⟨.inr h.1, h.2⟩
        · rintro (h | ⟨rfl | h, h'⟩)
          · exact .inl h
          · rw [this] at h'; cases h'
          · exact .inr ⟨h, h'⟩
    · have hsp : sp' = List.foldl (fun sp r =>
          if feat (X.getD r []) sp.feature ≤ sp.threshold then { sp with leftRows := setAdd sp.leftRows r }
          else { sp with rightRows := setAdd sp.rightRows r }) { sp with rightRows := setAdd sp.rightRows a } rs := by
        simp only [sp', List.foldl_cons, if_neg h]
      have := ih { sp with rightRows := setAdd sp.rightRows a }
      simp only [← hsp] at this
      obtain ⟨h1, h2, h3⟩ := this
      have hf : takesLeft (X.getD a []) sp = false := decide_eq_false h
      refine ⟨h1, ?_, ?_⟩
      · intro r
        rw [h2, List.mem_cons]
        change (r ∈ sp.leftRows ∨ r ∈ rs ∧ takesLeft (X.getD r []) sp = true) ↔ _
        constructor
        · rintro (h | h)
          · exact .inl h
          · exact .inr ⟨.inr h.1, h.2⟩
        · rintro (h | ⟨rfl | h, h'⟩)
          · exact .inl h
          · rw [hf] at h'; cases h'
          · exact .inr ⟨h, h'⟩
      · intro r
        rw [h3, mem_setAdd, List.mem_cons]
        change ((r ∈ sp.rightRows ∨ r = a) ∨ r ∈ rs ∧ takesLeft (X.getD r []) sp = false) ↔ _
        constructor
        · rintro ((h | rfl) | h)
          · exact .inl h
          · exact .inr ⟨.inl rfl, hf⟩
          · exact .inr ⟨.inr h.1, h.2⟩
        · rintro (h | ⟨rfl | h, h'⟩)
          · exact .inl (.inl h)
          · exact .inl (.inr rfl)
          · exact .inr ⟨h, h'⟩

/-- The row sets of every split describe the data set `X`. -/
def Spec.RowsFilled (splits : List Split) (X : List (List ℚ)) : Prop :=
  ∀ sp ∈ splits, ∀ r, (r ∈ sp.leftRows ↔ r < X.length ∧ takesLeft (X.getD r []) sp = true) ∧
    (r ∈ sp.rightRows ↔ r < X.length ∧ takesLeft (X.getD r []) sp = false)

/-- **C39** (filling). Starting from splits with empty row sets, `add_rows_to_splits` yields splits that differ only in the row sets,
which contain exactly the rows of the data that take the left / right branch. -/
theorem C39_add_rows (splits : List Split) (X : List (List ℚ)) (h0 : ∀ sp ∈ splits, sp.leftRows = [] ∧ sp.rightRows = []) :
    RowsFilled (addRowsToSplits splits X) X ∧
      (addRowsToSplits splits X).map (fun sp => (sp.id, sp.feature, sp.threshold)) =
        splits.map (fun sp => (sp.id, sp.feature, sp.threshold)) := by
  constructor
  · intro sp hsp r
    unfold addRowsToSplits at hsp
    obtain ⟨sp0, h, rfl⟩ := List.mem_map.1 hsp
    obtain ⟨h1, h2, h3⟩ := addRows_fold X (List.range X.length) sp0
    have ht : ∀ row, takesLeft row (List.foldl (fun sp r =>
        if feat (X.getD r []) sp.feature ≤ sp.threshold then { sp with leftRows := setAdd sp.leftRows r }
        else { sp with rightRows := setAdd sp.rightRows r }) sp0 (List.range X.length)) = takesLeft row sp0 := by
      intro row
      rw [h1]
      rfl
    rw [ht, h2, h3, (h0 sp0 h).1, (h0 sp0 h).2]
    simp
  · unfold addRowsToSplits
    rw [List.map_map]
    apply List.map_congr_left
    intro sp _
    obtain ⟨h1, _, _⟩ := addRows_fold X (List.range X.length) sp
    simp only [Function.comp]
    rw [h1]

/-- **C39** (rows). When the row sets describe the data, `get_satisfied_rows` of a non-empty path returns exactly the rows of the data
for which `row_satisfies_path` holds; for an empty path (a tree of depth 0) it raises `IndexError`. -/
theorem C39_satisfied_rows {splits : List Split} {X : List (List ℚ)} (hf : RowsFilled splits X) (leaf : Leaf) (path : Path)
    (hs : ∀ s ∈ path.splits, s < splits.length) :
    (path.pairs = [] → getSatisfiedRows path leaf splits = .error .indexError) ∧
    (path.pairs ≠ [] → ∃ S, getSatisfiedRows path leaf splits = .ok S ∧
      ∀ r, r ∈ S ↔ r < X.length ∧ rowSatisfiesPath (X.getD r []) leaf splits path = true) := by
  refine ⟨fun h => satisfiedBy_error.2 h, ?_⟩
  intro hne
  cases hr : getSatisfiedRows path leaf splits with
  | error e =>
    exfalso
    unfold getSatisfiedRows satisfiedBy at hr
    cases hp : path.pairs with
    | nil => exact hne hp
    | cons q ps => rw [hp] at hr; cases hr
  | ok S =>
    refine ⟨S, rfl, ?_⟩
    intro r
    rw [satisfiedBy_eq hr, rowSatisfiesPath, rowLoop_iff]
    have hmem : ∀ q ∈ path.pairs, splitAt splits q.2 ∈ splits := by
      intro q hq
      have : q.2 < splits.length := hs _ (List.of_mem_zip (a := q.1) (b := q.2) hq).2
      unfold splitAt
      rw [List.getD_eq_getElem?_getD, List.getElem?_eq_getElem this]
      exact List.getElem_mem _
    have hiff : ∀ q ∈ path.pairs, (r ∈ (if decide (q.1 ∈ leaf.leftNodes) = true then (splitAt splits q.2).leftRows
        else (splitAt splits q.2).rightRows) ↔
        r < X.length ∧ takesLeft (X.getD r []) (splitAt splits q.2) = decide (q.1 ∈ leaf.leftNodes)) := by
      intro q hq
      have := hf _ (hmem q hq) r
      by_cases hl : q.1 ∈ leaf.leftNodes
      · simp only [hl, decide_true, if_true]; exact this.1
      · simp only [hl, decide_false, Bool.false_eq_true, if_false]; exact this.2
    constructor
    · intro h
      obtain ⟨q0, hq0⟩ := List.exists_mem_of_ne_nil _ hne
      exact ⟨((hiff q0 hq0).1 (h q0 hq0)).1, fun q hq => ((hiff q hq).1 (h q hq)).2⟩
    · rintro ⟨h1, h2⟩ q hq
      exact (hiff q hq).2 ⟨h1, h2 q hq⟩

/-- The cut sets of the splits describe the list of registered cut patterns. -/
def Spec.CutsFilled (splits : List Split) (cuts : List (List Bool)) : Prop :=
  ∀ sp ∈ splits, ∀ c, (c ∈ sp.leftCuts ↔ c < cuts.length ∧ (cuts.getD c []).getD sp.id false = true) ∧
    (c ∈ sp.rightCuts ↔ c < cuts.length ∧ (cuts.getD c []).getD sp.id false = false)

theorem addCuts_fold (cs : List (List Bool × ℕ)) (sp : Split) :
    let sp' := cs.foldl (fun sp c =>
      if c.1.getD sp.id false then { sp with leftCuts := setAdd sp.leftCuts c.2 }
      else { sp with rightCuts := setAdd sp.rightCuts c.2 }) sp
    sp' = { sp with
      leftCuts := sp'.leftCuts
      rightCuts := sp'.rightCuts } ∧
    (∀ r, r ∈ sp'.leftCuts ↔ r ∈ sp.leftCuts ∨ ∃ c, (c, r) ∈ cs ∧ c.getD sp.id false = true) ∧
    (∀ r, r ∈ sp'.rightCuts ↔ r ∈ sp.rightCuts ∨ ∃ c, (c, r) ∈ cs ∧ c.getD sp.id false = false) := by
  induction cs generalizing sp with
  | nil => simp
  | cons a cs ih =>
    obtain ⟨pat, i⟩ := a
    intro sp'
    cases h : pat.getD sp.id false
    · have hsp : sp' = List.foldl (fun sp c =>
          if c.1.getD sp.id false then { sp with leftCuts := setAdd sp.leftCuts c.2 }
          else { sp with rightCuts := setAdd sp.rightCuts c.2 }) { sp with rightCuts := setAdd sp.rightCuts i } cs := by
        simp only [sp', List.foldl_cons, h]; rfl
      have := ih { sp with rightCuts := setAdd sp.rightCuts i }
      simp only [← hsp] at this
      obtain ⟨h1, h2, h3⟩ := this
      refine ⟨h1, ?_, ?_⟩
      · intro r
        rw [h2]
        simp only [List.mem_cons]
        constructor
        · rintro (h | ⟨c, hc, hv⟩)
          · exact .inl h
          · exact .inr ⟨c, .inr hc, hv⟩
        · rintro (h' | ⟨c, hc | hc, hv⟩)
          · exact .inl h'
          · cases hc; rw [h] at hv; cases hv
          · exact .inr ⟨c, hc, hv⟩
      · intro r
        rw [h3, mem_setAdd]
        simp only [List.mem_cons]
        constructor
        · rintro ((h' | rfl) | ⟨c, hc, hv⟩)
          · exact .inl h'
          · exact .inr ⟨pat, .inl rfl, h⟩
          · exact .inr ⟨c, .inr hc, hv⟩
        · rintro (h' | ⟨c, hc | hc, hv⟩)
          · exact .inl (.inl h')
          · cases hc; exact .inl (.inr rfl)
          · exact .inr ⟨c, hc, hv⟩
    · have hsp : sp' = List.foldl (fun sp c =>
          if c.1.getD sp.id false then { sp with leftCuts := setAdd sp.leftCuts c.2 }
          else { sp with rightCuts := setAdd sp.rightCuts c.2 }) { sp with leftCuts := setAdd sp.leftCuts i } cs := by
        simp only [sp', List.foldl_cons, h]; rfl
      have := ih { sp with leftCuts := setAdd sp.leftCuts i }
      simp only [← hsp] at this
      obtain ⟨h1, h2, h3⟩ := this
      refine ⟨h1, ?_, ?_⟩
      · intro r
        rw [h2, mem_setAdd]
        simp only [List.mem_cons]
        constructor
        · rintro ((h' | rfl) | ⟨c, hc, hv⟩)
          · exact .inl h'
          · exact .inr ⟨pat, .inl rfl, h⟩
          · exact .inr ⟨c, .inr hc, hv⟩
        · rintro (h' | ⟨c, hc | hc, hv⟩)
          · exact .inl (.inl h')
          · cases hc; exact .inl (.inr rfl)
          · exact .inr ⟨c, hc, hv⟩
      · intro r
        rw [h3]
        simp only [List.mem_cons]
        constructor
        · rintro (h | ⟨c, hc, hv⟩)
          · exact .inl h
          · exact .inr ⟨c, .inr hc, hv⟩
        · rintro (h' | ⟨c, hc | hc, hv⟩)
          · exact .inl h'
          · cases hc; rw [h] at hv; cases hv
          · exact .inr ⟨c, hc, hv⟩

/-- **C39** (history of cuts). Registering further patterns under the next indices keeps the cut sets in step with the list of all
registered patterns; with `Spec.CutsFilled splits []` for empty sets this covers any history of calls. -/
theorem C39_add_cuts {splits : List Split} {cuts : List (List Bool)} (h : CutsFilled splits cuts) (new : List (List Bool)) :
    CutsFilled (addCutsToSplits splits cuts.length new) (cuts ++ new) ∧
      (addCutsToSplits splits cuts.length new).map (fun sp => (sp.id, sp.feature, sp.threshold, sp.leftRows, sp.rightRows)) =
        splits.map (fun sp => (sp.id, sp.feature, sp.threshold, sp.leftRows, sp.rightRows)) := by
  constructor
  · intro sp hsp c
    unfold addCutsToSplits at hsp
    obtain ⟨sp0, hm, rfl⟩ := List.mem_map.1 hsp
    obtain ⟨h1, h2, h3⟩ := addCuts_fold (new.zipIdx cuts.length) sp0
    have hid : (List.foldl (fun sp c =>
        if c.1.getD sp.id false then { sp with leftCuts := setAdd sp.leftCuts c.2 }
        else { sp with rightCuts := setAdd sp.rightCuts c.2 }) sp0 (new.zipIdx cuts.length)).id = sp0.id := by
      rw [h1]
    rw [hid, h2, h3, (h sp0 hm c).1, (h sp0 hm c).2]
    have hz : ∀ b, (∃ pat, (pat, c) ∈ new.zipIdx cuts.length ∧ pat.getD sp0.id false = b) ↔
        cuts.length ≤ c ∧ c < cuts.length + new.length ∧ ((cuts ++ new).getD c []).getD sp0.id false = b := by
      intro b
      constructor
      · rintro ⟨pat, hp, hb⟩
        have hp := List.mk_mem_zipIdx_iff_le_and_getElem?_sub.1 hp
        have hlt := (List.getElem?_eq_some_iff.1 hp.2).1
        refine ⟨hp.1, by omega, ?_⟩
        rw [List.getD_eq_getElem?_getD (l := cuts ++ new), List.getElem?_append_right hp.1, hp.2]
        exact hb
      · rintro ⟨h1, h2, h3⟩
        refine ⟨new[c - cuts.length]'(by omega), ?_, ?_⟩
        · exact List.mk_mem_zipIdx_iff_le_and_getElem?_sub.2 ⟨h1, List.getElem?_eq_getElem (by omega)⟩
        · rw [List.getD_eq_getElem?_getD (l := cuts ++ new), List.getElem?_append_right h1, List.getElem?_eq_getElem (by omega)] at h3
          exact h3
    have hold : c < cuts.length → (cuts ++ new).getD c [] = cuts.getD c [] := by
      intro hc
      rw [List.getD_eq_getElem?_getD, List.getElem?_append_left hc, List.getD_eq_getElem?_getD]
    rw [hz, hz, List.length_append]
    by_cases hc : c < cuts.length
    · rw [hold hc]
      constructor <;> constructor
      · rintro (h | h)
        · exact ⟨by omega, h.2⟩
        · omega
      · rintro h; exact .inl ⟨hc, h.2⟩
      · rintro (h | h)
        · exact ⟨by omega, h.2⟩
        · omega
      · rintro h; exact .inl ⟨hc, h.2⟩
    · constructor <;> constructor
      · rintro (h | h)
        · exact absurd h.1 hc
        · exact h.2
      · rintro h; exact .inr ⟨by omega, h⟩
      · rintro (h | h)
        · exact absurd h.1 hc
        · exact h.2
      · rintro h; exact .inr ⟨by omega, h⟩
  · unfold addCutsToSplits
    rw [List.map_map]
    apply List.map_congr_left
    intro sp _
    obtain ⟨h1, _, _⟩ := addCuts_fold (new.zipIdx cuts.length) sp
    simp only [Function.comp]
    rw [h1]

/-- **C39** (cuts). When the cut sets describe the registered patterns, `get_satisfied_cuts` of a non-empty path of the tree returns
exactly the registered cuts whose pattern follows the path (the pattern is `true` on the path's splits at left nodes and `false` at right
nodes). -/
theorem C39_satisfied_cuts {d : ℕ} {splits : List Split} {cuts : List (List Bool)} (hf : CutsFilled splits cuts)
    (hid : ∀ i (s : Split), splits[i]? = some s → s.id = i) {path : Path} (hw : WFPath d path) (hd : 0 < d)
    (hs : ∀ s ∈ path.splits, s < splits.length) :
    ∃ S, getSatisfiedCuts path (createLeaf path.leafId d) splits = .ok S ∧
      ∀ c, c ∈ S ↔ c < cuts.length ∧ Follows d (fun s => (cuts.getD c []).getD s false) path := by
  have hne : path.pairs ≠ [] := by
    obtain ⟨s, hs⟩ := hw.exists_split hd
    exact List.ne_nil_of_mem hs
  cases hr : getSatisfiedCuts path (createLeaf path.leafId d) splits with
  | error e =>
    exfalso
    unfold getSatisfiedCuts satisfiedBy at hr
    cases hp : path.pairs with
    | nil => exact hne hp
    | cons q ps => rw [hp] at hr; cases hr
  | ok S =>
    refine ⟨S, rfl, ?_⟩
    intro c
    rw [satisfiedBy_eq hr, follows_iff hw]
    have hmem : ∀ q ∈ path.pairs, splitAt splits q.2 ∈ splits ∧ (splitAt splits q.2).id = q.2 := by
      intro q hq
      have : q.2 < splits.length := hs _ (List.of_mem_zip (a := q.1) (b := q.2) hq).2
      unfold splitAt
      rw [List.getD_eq_getElem?_getD, List.getElem?_eq_getElem this]
      exact ⟨List.getElem_mem _, hid _ _ (List.getElem?_eq_getElem this)⟩
    have hiff : ∀ q ∈ path.pairs, (c ∈ (if decide (q.1 ∈ (createLeaf path.leafId d).leftNodes) = true then (splitAt splits q.2).leftCuts
        else (splitAt splits q.2).rightCuts) ↔
        c < cuts.length ∧ (cuts.getD c []).getD q.2 false = decide (q.1 ∈ (createLeaf path.leafId d).leftNodes)) := by
      intro q hq
      have := hf _ (hmem q hq).1 c
      rw [(hmem q hq).2] at this
      by_cases hl : q.1 ∈ (createLeaf path.leafId d).leftNodes
      · simp only [hl, decide_true, if_true]; exact this.1
      · simp only [hl, decide_false, Bool.false_eq_true, if_false]; exact this.2
    constructor
    · intro h
      obtain ⟨q0, hq0⟩ := List.exists_mem_of_ne_nil _ hne
      exact ⟨((hiff q0 hq0).1 (h q0 hq0)).1, fun q hq => ((hiff q hq).1 (h q hq)).2⟩
    · rintro ⟨h1, h2⟩ q hq
      exact (hiff q hq).2 ⟨h1, h2 q hq⟩

/-- Rows 0 and 2 follow "left at split 0, right at split 1"; of the cuts `[true, false]` and `[true, true]` the first one does. -/
example :
    let splits := addCutsToSplits (addRowsToSplits [⟨0, 0, 1, false, [], [], [], []⟩, ⟨1, 1, 5, false, [], [], [], []⟩]
      [[0, 9], [2, 9], [1, 6]]) 0 [[true, false], [true, true]]
    getSatisfiedRows (treePath (fun n => if n = 0 then 0 else 1) 2 1) (createLeaf 1 2) splits = .ok [0, 2] ∧
    getSatisfiedCuts (treePath (fun n => if n = 0 then 0 else 1) 2 1) (createLeaf 1 2) splits = .ok [0] := by
  refine ⟨?_, ?_⟩ <;> decide +kernel

end Verif.DTree
