import Verif.DTree.Demo
import Verif.DTree.LpProps
import Verif.Exp.PreprocessProps

/-!
# C122: `preprocess_rows(aggressive=True)`

The master problem has its own version of the merging of rows. It marks rows as removed from the master problem and changes nothing else.
-/

set_option linter.unusedSectionVars false
set_option linter.unusedSimpArgs false

namespace Verif.Exp

open Verif.DTree Verif.DTree.Spec

/-! ## The loops -/

theorem aggressiveInner_length (nodes : List Node) (r1 : ℕ) (l : List ℕ) (rows : List Row) :
    (aggressiveInner nodes r1 l rows).length = rows.length := by
  induction l generalizing rows with
  | nil => rfl
  | cons a l ih =>
    rw [aggressiveInner]
    split_ifs
    · exact ih _
    · rw [ih, List.length_modify]
    · exact ih _

theorem aggressiveLoop_length (nodes : List Node) (n : ℕ) (l : List ℕ) (rows : List Row) :
    (aggressiveLoop nodes n l rows).length = rows.length := by
  induction l generalizing rows with
  | nil => rfl
  | cons a l ih =>
    rw [aggressiveLoop]
    split_ifs
    · exact ih _
    · rw [ih, aggressiveInner_length]

/-- The rows agree except for the mark. -/
def SameRest (rows rows0 : List Row) : Prop := rows.length = rows0.length ∧ ∀ i, static (rowAt rows i) = static (rowAt rows0 i)

theorem similar_rest {nodes : List Node} {rows rows0 : List Row} (h : SameRest rows rows0) (i j : ℕ) :
    similar nodes (rowAt rows i) (rowAt rows j) = similar nodes (rowAt rows0 i) (rowAt rows0 j) := by
  rw [← similar_static, h.2, h.2, similar_static]

theorem sameRest_mark {rows rows0 : List Row} (h : SameRest rows rows0) {k : ℕ} (hk : k < rows.length) :
    SameRest (rows.modify k (fun r => { r with removedFromMaster := true })) rows0 := by
  refine ⟨by rw [List.length_modify]; exact h.1, fun i => ?_⟩
  rw [rowAt_modify _ _ _ _ hk]
  split
  · exact (rfl : static { rowAt rows i with removedFromMaster := true } = static (rowAt rows i)).trans (h.2 i)
  · exact h.2 i

/-- The inner loop marks the rows of its list that are similar to row `r1`. -/
theorem aggressiveInner_spec {nodes : List Node} {rows0 : List Row} (r1 : ℕ) (l : List ℕ) (rows : List Row) (h : SameRest rows rows0)
    (hl : ∀ k ∈ l, k < rows.length) :
    SameRest (aggressiveInner nodes r1 l rows) rows0 ∧
    ∀ i, RM (aggressiveInner nodes r1 l rows) i ↔ RM rows i ∨ i ∈ l ∧ similar nodes (rowAt rows0 r1) (rowAt rows0 i) = true := by
  induction l generalizing rows with
  | nil => exact ⟨h, fun i => by simp [aggressiveInner]⟩
  | cons a l ih =>
    rw [aggressiveInner]
    have hl' : ∀ k ∈ l, k < rows.length := fun k hk => hl k (List.mem_cons_of_mem _ hk)
    by_cases h1 : (rowAt rows a).removedFromMaster = true
    · rw [if_pos h1]
      obtain ⟨e1, e2⟩ := ih rows h hl'
      refine ⟨e1, fun i => ?_⟩
      rw [e2, List.mem_cons]
      constructor
      · rintro (h | ⟨h, h'⟩)
        · exact .inl h
        · exact .inr ⟨.inr h, h'⟩
      · rintro (h | ⟨rfl | h, h'⟩)
        · exact .inl h
        · exact .inl h1
        · exact .inr ⟨h, h'⟩
    · rw [if_neg h1, similar_rest h]
      by_cases h2 : similar nodes (rowAt rows0 r1) (rowAt rows0 a) = true
      · rw [if_pos h2]
        have ha := hl a List.mem_cons_self
        obtain ⟨e1, e2⟩ := ih _ (sameRest_mark h ha) (by rw [List.length_modify]; exact hl')
        refine ⟨e1, fun i => ?_⟩
        rw [e2, List.mem_cons]
        unfold RM
        rw [rowAt_modify _ _ _ _ ha]
        by_cases hia : i = a
        · subst hia
          simp [h2]
        · simp [hia]
      · rw [if_neg h2]
        obtain ⟨e1, e2⟩ := ih rows h hl'
        refine ⟨e1, fun i => ?_⟩
        rw [e2, List.mem_cons]
        constructor
        · rintro (h | ⟨h, h'⟩)
          · exact .inl h
          · exact .inr ⟨.inr h, h'⟩
        · rintro (h | ⟨rfl | h, h'⟩)
          · exact .inl h
          · exact absurd h' h2
          · exact .inr ⟨h, h'⟩

/-- The outer loop from row `c` on. -/
theorem aggressiveLoop_spec {nodes : List Node} {rows0 : List Row} {n : ℕ} (hn : rows0.length = n) {few : ℕ → Prop}
    (trans : ∀ a b c, a < n → b < n → c < n → similar nodes (rowAt rows0 a) (rowAt rows0 b) = true →
      similar nodes (rowAt rows0 b) (rowAt rows0 c) = true → similar nodes (rowAt rows0 a) (rowAt rows0 c) = true)
    (hfew : ∀ a b, a < n → b < n → similar nodes (rowAt rows0 a) (rowAt rows0 b) = true → few a → few b) :
    ∀ (k c : ℕ) (rows : List Row), c + k = n → SameRest rows rows0 →
      (∀ i < n, RM rows i ↔ few i ∨ ∃ j < i, j < c ∧ similar nodes (rowAt rows0 j) (rowAt rows0 i) = true) →
      SameRest (aggressiveLoop nodes n (List.range' c k) rows) rows0 ∧
      ∀ i < n, RM (aggressiveLoop nodes n (List.range' c k) rows) i ↔
        few i ∨ ∃ j < i, similar nodes (rowAt rows0 j) (rowAt rows0 i) = true := by
  intro k
  induction k with
  | zero =>
    intro c rows hc h hr
    refine ⟨h, fun i hi => (hr i hi).trans (or_congr_right ?_)⟩
    constructor
    · rintro ⟨j, a, _, b⟩; exact ⟨j, a, b⟩
    · rintro ⟨j, a, b⟩; exact ⟨j, a, by omega, b⟩
  | succ k ih =>
    intro c rows hc h hr
    rw [List.range'_succ, aggressiveLoop]
    by_cases h1 : (rowAt rows c).removedFromMaster = true
    · rw [if_pos h1]
      refine ih (c + 1) rows (by omega) h fun i hi => ?_
      rw [hr i hi]
      constructor
      · rintro (hf | ⟨j, a, b, e⟩)
        · exact .inl hf
        · exact .inr ⟨j, a, by omega, e⟩
      · rintro (hf | ⟨j, a, b, e⟩)
        · exact .inl hf
        · by_cases hj : j < c
          · exact .inr ⟨j, a, hj, e⟩
          · obtain rfl : j = c := by omega
            rcases (hr j (by omega)).1 h1 with hf | ⟨j', a', b', e'⟩
            · exact .inl (hfew _ _ (by omega) hi e hf)
            · exact .inr ⟨j', by omega, b', trans _ _ _ (by omega) (by omega) hi e' e⟩
    · rw [if_neg h1]
      obtain ⟨e1, e2⟩ := aggressiveInner_spec (nodes := nodes) c (List.range' (c + 1) (n - (c + 1))) rows h (by
        intro x hx
        rw [List.mem_range'_1] at hx
        have := h.1
        omega)
      refine ih (c + 1) _ (by omega) e1 fun i hi => ?_
      rw [e2, hr i hi, List.mem_range'_1]
      constructor
      · rintro ((hf | ⟨j, a, b, e⟩) | ⟨a, e⟩)
        · exact .inl hf
        · exact .inr ⟨j, a, by omega, e⟩
        · exact .inr ⟨c, by omega, by omega, e⟩
      · rintro (hf | ⟨j, a, b, e⟩)
        · exact .inl (.inl hf)
        · by_cases hj : j < c
          · exact .inl (.inr ⟨j, a, hj, e⟩)
          · obtain rfl : j = c := by omega
            exact .inr ⟨by omega, e⟩

section
variable {d : ℕ} {nodes : List Node} {splits : List Split} {X : List (List ℚ)} {paths : List Path}

theorem rowAt_mapX (f : List ℚ → Row) {i : ℕ} (hi : i < X.length) : rowAt (X.map f) i = f (X.getD i []) := by
  unfold rowAt
  rw [List.getD_eq_getElem?_getD, List.getElem?_map, List.getD_eq_getElem?_getD, List.getElem?_eq_getElem hi]
  rfl

/-- The comparison of two rows of the master problem decides whether they have the same view. -/
theorem similarM_iff (hd : 0 < d) (ht : Tree d (fullLeaves d) nodes splits)
    (hleaf : ∀ n ∈ nodes, n.childrenAreLeaves = true → 2 * n.id + 1 ≥ 2 ^ d - 1) (paths : List Path) (u v : List ℚ) :
    similar (preprocessNodes nodes d) (DTree.makeRow (fullLeaves d) (preprocessNodes nodes d) splits paths u)
      (DTree.makeRow (fullLeaves d) (preprocessNodes nodes d) splits paths v) = true ↔
      SameView d nodes (rowLeft splits u) (rowLeft splits v) := by
  obtain ⟨a1, _⟩ := DTree.makeRow_spec hd ht hleaf paths u
  obtain ⟨b1, _⟩ := DTree.makeRow_spec hd ht hleaf paths v
  have a4 : ∀ s < splits.length, s ∈ (DTree.makeRow (fullLeaves d) (preprocessNodes nodes d) splits paths u).leftSplits ↔ rowLeft splits u s = true :=
    fun s hs => DTree.mem_leftSplits_iff ht.split_id u hs
  have b4 : ∀ s < splits.length, s ∈ (DTree.makeRow (fullLeaves d) (preprocessNodes nodes d) splits paths v).leftSplits ↔ rowLeft splits v s = true :=
    fun s hs => DTree.mem_leftSplits_iff ht.split_id v hs
  unfold similar SameView
  rw [Bool.and_eq_true, setEq_iff, List.all_eq_true]
  refine and_congr ?_ ?_
  · exact forall_congr' fun n => by rw [a1, b1]; rfl
  · constructor
    · intro h n hn s hs
      have := h s ((mem_validSplits _ _ _).2 ⟨n, (a1 n).2 hn, by rw [cand_prep]; exact hs⟩)
      have hlt := cand_lt_of_tree ht n s hs
      rw [beq_iff_eq, decide_eq_decide, a4 s hlt, b4 s hlt] at this
      exact Bool.eq_iff_iff.2 this
    · intro h s hs
      obtain ⟨n, hn, hs⟩ := (mem_validSplits _ _ _).1 hs
      rw [cand_prep] at hs
      have hlt := cand_lt_of_tree ht n s hs
      rw [beq_iff_eq, decide_eq_decide, a4 s hlt, b4 s hlt, h n ((a1 n).1 hn) s hs]

theorem fewM_iff (hd : 0 < d) (ht : Tree d (fullLeaves d) nodes splits)
    (hleaf : ∀ n ∈ nodes, n.childrenAreLeaves = true → 2 * n.id + 1 ≥ 2 ^ d - 1) (paths : List Path) (u : List ℚ) :
    (DTree.makeRow (fullLeaves d) (preprocessNodes nodes d) splits paths u).removedFromMaster = true ↔ FewLeaves d nodes (rowLeft splits u) := by
  obtain ⟨_, a2, _, a3⟩ := DTree.makeRow_spec hd ht hleaf paths u
  have e : (DTree.makeRow (fullLeaves d) (preprocessNodes nodes d) splits paths u).removedFromMaster =
      decide ((DTree.makeRow (fullLeaves d) (preprocessNodes nodes d) splits paths u).reachableLeaves.length ≤ 2) := rfl
  rw [e, decide_eq_true_eq]
  constructor
  · intro h
    exact ⟨_, h, fun l hl hr => (a2 l).2 ⟨hl, hr⟩⟩
  · rintro ⟨L, hL, h⟩
    refine le_trans ?_ hL
    apply List.Subperm.length_le
    apply List.subperm_of_subset a3
    intro l hl
    obtain ⟨h1, h2⟩ := (a2 l).1 hl
    exact h l h1 h2

/-- Which rows are marked. -/
theorem aggressive_marks (hd : 0 < d) (ht : Tree d (fullLeaves d) nodes splits)
    (hleaf : ∀ n ∈ nodes, n.childrenAreLeaves = true → 2 * n.id + 1 ≥ 2 ^ d - 1) {i : ℕ} (hi : i < X.length) :
    RM (preprocessRows (fullLeaves d) nodes splits paths X true) i ↔
      FewRow d nodes splits X i ∨ ∃ j < i, SameRow d nodes splits X j i := by
  unfold preprocessRows
  simp only [log_full, if_true]
  obtain ⟨rows0, h0⟩ : ∃ r, r = X.map (DTree.makeRow (fullLeaves d) (preprocessNodes nodes d) splits paths) := ⟨_, rfl⟩
  rw [← h0]
  have hat : ∀ i < X.length, rowAt rows0 i = DTree.makeRow (fullLeaves d) (preprocessNodes nodes d) splits paths (X.getD i []) := by
    intro i hi; rw [h0]; exact rowAt_mapX _ hi
  have hsim : ∀ i j, i < X.length → j < X.length →
      (similar (preprocessNodes nodes d) (rowAt rows0 i) (rowAt rows0 j) = true ↔ SameRow d nodes splits X i j) := by
    intro i j hi hj
    rw [hat i hi, hat j hj]
    exact similarM_iff hd ht hleaf _ _ _
  have hmain := (aggressiveLoop_spec (nodes := preprocessNodes nodes d) (rows0 := rows0) (n := X.length) (few := FewRow d nodes splits X)
    (by rw [h0, List.length_map])
    (by
      intro a b c ha hb hc h1 h2
      rw [hsim _ _ ha hb] at h1
      rw [hsim _ _ hb hc] at h2
      rw [hsim _ _ ha hc]
      exact h1.trans h2)
    (by
      intro a b ha hb h1 h2
      rw [hsim _ _ ha hb] at h1
      exact h1.few h2)
    X.length 0 rows0 (by omega) ⟨rfl, fun _ => rfl⟩ (by
      intro i hi
      unfold RM
      rw [hat i hi, fewM_iff hd ht hleaf]
      constructor
      · exact .inl
      · rintro (h | ⟨j, _, h, _⟩)
        · exact h
        · omega)).2 i hi
  rw [List.range_eq_range', hmain]
  refine or_congr_right ?_
  constructor
  · rintro ⟨j, a, b⟩; exact ⟨j, a, (hsim _ _ (by omega) hi).1 b⟩
  · rintro ⟨j, a, b⟩; exact ⟨j, a, (hsim _ _ (by omega) hi).2 b⟩

/-! ## The theorems -/

/-- The paths over candidate splits that row `i` follows end in at most two leaves. -/
def FewEnds (d : ℕ) (nodes : List Node) (splits : List Split) (X : List (List ℚ)) (i : ℕ) : Prop :=
  ∃ L : List ℕ, L.length ≤ 2 ∧ ∀ p, WFPath d p → UsesCand nodes p → follows d splits X p i = true → p.leafId ∈ L

theorem fewRow_iff {i : ℕ} : FewRow d nodes splits X i ↔ FewEnds d nodes splits X i := by
  constructor
  · rintro ⟨L, hL, h⟩
    refine ⟨L, hL, fun p hp hc hf => h _ hp.leaf_lt ?_⟩
    rw [canReach_iff_path hp.leaf_lt]
    exact ⟨p, hp, rfl, hc, hf⟩
  · rintro ⟨L, hL, h⟩
    refine ⟨L, hL, fun l hl hr => ?_⟩
    obtain ⟨p, hp, rfl, hc, hf⟩ := (canReach_iff_path hl _).1 hr
    exact h p hp hc hf

/-- **C122** (nothing needed is removed). A row that `preprocess_rows(aggressive=True)` marks as removed follows only paths to at most two
leaves, or follows the same paths over candidate splits as an earlier row that is not marked. -/
theorem C122_sound (hd : 0 < d) (ht : Tree d (fullLeaves d) nodes splits)
    (hleaf : ∀ n ∈ nodes, n.childrenAreLeaves = true → 2 * n.id + 1 ≥ 2 ^ d - 1) {i : ℕ} (hi : i < X.length)
    (hr : (rowAt (preprocessRows (fullLeaves d) nodes splits paths X true) i).removedFromMaster = true) :
    FewEnds d nodes splits X i ∨
    ∃ j < i, (rowAt (preprocessRows (fullLeaves d) nodes splits paths X true) j).removedFromMaster = false ∧ SamePaths d nodes splits X j i := by
  rcases (aggressive_marks hd ht hleaf hi).1 hr with h | h
  · exact .inl (fewRow_iff.1 h)
  · by_cases hf : FewRow d nodes splits X i
    · exact .inl (fewRow_iff.1 hf)
    · right
      classical
      obtain ⟨j, ⟨hj, hs⟩, hmin⟩ : ∃ j, (j < i ∧ SameRow d nodes splits X j i) ∧ ∀ k < j, ¬ (k < i ∧ SameRow d nodes splits X k i) :=
        ⟨Nat.find h, Nat.find_spec h, fun k hk => Nat.find_min h hk⟩
      refine ⟨j, hj, ?_, hs.samePaths⟩
      rw [← Bool.not_eq_true]
      intro hm
      rcases (aggressive_marks hd ht hleaf (by omega)).1 hm with h' | ⟨k, hk, hks⟩
      · exact hf (hs.few h')
      · exact hmin k hk ⟨by omega, hks.trans hs⟩

/-- **C122** (exactly which rows are removed). When every node has a candidate split, a row is marked exactly if the paths over candidate
splits that it follows end in at most two leaves or an earlier row follows the same paths. -/
theorem C122_exact (hd : 0 < d) (ht : Tree d (fullLeaves d) nodes splits)
    (hleaf : ∀ n ∈ nodes, n.childrenAreLeaves = true → 2 * n.id + 1 ≥ 2 ^ d - 1) (hne : ∀ n < 2 ^ d - 1, cand nodes n ≠ [])
    {i : ℕ} (hi : i < X.length) :
    (rowAt (preprocessRows (fullLeaves d) nodes splits paths X true) i).removedFromMaster = true ↔
      FewEnds d nodes splits X i ∨ ∃ j < i, SamePaths d nodes splits X j i := by
  refine (aggressive_marks hd ht hleaf hi).trans (or_congr fewRow_iff ?_)
  constructor
  · rintro ⟨j, hj, h⟩; exact ⟨j, hj, h.samePaths⟩
  · rintro ⟨j, hj, h⟩; exact ⟨j, hj, sameRow_of_samePaths hne h⟩

/-- **C122** (nothing else changes). There is one row per row of the data, and apart from the mark it is the row that the call without
`aggressive` returns; a row which that call marks is marked. -/
theorem C122_rest (hd : 0 < d) (ht : Tree d (fullLeaves d) nodes splits)
    (hleaf : ∀ n ∈ nodes, n.childrenAreLeaves = true → 2 * n.id + 1 ≥ 2 ^ d - 1) :
    (preprocessRows (fullLeaves d) nodes splits paths X true).length = X.length ∧
    (preprocessRows (fullLeaves d) nodes splits paths X true).map (fun r => { r with removedFromMaster := false }) =
      (preprocessRows (fullLeaves d) nodes splits paths X false).map (fun r => { r with removedFromMaster := false }) ∧
    ∀ i < X.length, (rowAt (preprocessRows (fullLeaves d) nodes splits paths X false) i).removedFromMaster = true →
      (rowAt (preprocessRows (fullLeaves d) nodes splits paths X true) i).removedFromMaster = true := by
  refine ⟨?_, ?_, ?_⟩
  · unfold preprocessRows
    simp only [if_true]
    rw [aggressiveLoop_length, List.length_map]
  · apply List.ext_getElem?
    intro i
    rw [List.getElem?_map, List.getElem?_map, preprocessRows_fields rfl, preprocessRows_fields rfl]
  · intro i hi h
    refine (aggressive_marks hd ht hleaf hi).2 (.inl ?_)
    refine (fewM_iff hd ht hleaf paths _).1 ?_
    unfold preprocessRows at h
    simp only [log_full, Bool.false_eq_true, if_false] at h
    rw [rowAt_mapX _ hi] at h
    exact h

/-- **C122** (the linear program does not change). Take the constraints of any reached master problem whose paths use candidate splits, and a
fractional solution of its leaf and consistency constraints. If the row constraint "the values of the paths that the row follows sum to at
most one" holds for all rows that are not marked, it holds for all rows of the data. -/
theorem C122_constraints {c : Conf} {o : Oracle} {dataRows : Option (List Row)} (hs : Setup d c splits dataRows)
    (hp : ∀ p ∈ paths, GoodPath d splits p) (ho : CutSound o)
    (hleaf : ∀ n ∈ c.nodes, n.childrenAreLeaves = true → 2 * n.id + 1 ≥ 2 ^ d - 1) {s : MS}
    (h : Reached d c o paths splits dataRows s) (hc : ∀ p ∈ s.paths, UsesCand c.nodes p) (a : ℕ → ℚ) (hcore : Core d c s a) (ps : List Path)
    (hk : ∀ j < c.X.length, (rowAt (preprocessRows c.leaves c.nodes splits ps c.X true) j).removedFromMaster = false →
      pathSum s.paths a (fun p => rowSatisfiesPath (c.X.getD j []) (leafAt c.leaves p.leafId) s.splits p = true) ≤ 1)
    {i : ℕ} (hi : i < c.X.length) :
    pathSum s.paths a (fun p => rowSatisfiesPath (c.X.getD i []) (leafAt c.leaves p.leafId) s.splits p = true) ≤ 1 := by
  obtain ⟨cuts, own, cd, hinv⟩ := reached_inv hs hp ho h
  have ht := hs.tree
  have hl := ht.leaves
  rw [hl] at ht hk ⊢
  by_cases hr : (rowAt (preprocessRows (fullLeaves d) c.nodes splits ps c.X true) i).removedFromMaster = true
  · rcases C122_sound hs.depth ht hleaf hi hr with hf | ⟨j, hj, hm, hsp⟩
    · obtain ⟨L, hL, hall⟩ := fewRow_iff.2 hf
      have key := C43_two_leaves_redundant hs hp ho h hc a hcore (c.X.getD i [])
        (DTree.makeRow (fullLeaves d) (preprocessNodes c.nodes d) splits ps (c.X.getD i [])).reachableLeaves (by
          intro l
          rw [(DTree.makeRow_spec hs.depth ht hleaf ps (c.X.getD i [])).2.1, hl, ← hinv.same.rowLeft]
          exact and_congr_right fun hlt => canReach_iff_path hlt _) (by
          have := (fewM_iff hs.depth ht hleaf ps (c.X.getD i [])).2 ⟨L, hL, hall⟩
          exact of_decide_eq_true this)
      rw [hl] at key
      exact key.le
    · refine le_of_eq_of_le ?_ (hk j (by omega) hm)
      apply pathSum_congr
      intro p hpm
      have hw := (hinv.good p hpm).1
      have := hsp p hw (hc p hpm)
      unfold follows at this
      rw [Bool.eq_iff_iff, rowSatisfiesPath_iff hw, rowSatisfiesPath_iff hw] at this
      rw [rowSatisfiesPath_iff hw, rowSatisfiesPath_iff hw, hinv.same.rowLeft, hinv.same.rowLeft]
      exact this.symm
  · exact hk i hi (by simpa using hr)

/-- **C122** (the two implementations agree). Without time limit the aggressive mode of the experiment's own `preprocess` removes the same
rows from the master problem as `preprocess_rows(aggressive=True)` of the package, whatever the labels. -/
theorem C122_agree (hd : 0 < d) (ht : Tree d (fullLeaves d) nodes splits)
    (hleaf : ∀ n ∈ nodes, n.childrenAreLeaves = true → 2 * n.id + 1 ≥ 2 ^ d - 1) (hf : RowsFilled splits X) {y : List ℤ} {limit : ℚ}
    {elapsed : ℕ → ℚ} {rows : List Row} (h : preprocess nodes splits X.length y d true limit elapsed = .ok rows)
    (hk : limit ≤ 0 ∨ ∀ k, elapsed k ≤ limit) {i : ℕ} (hi : i < X.length) :
    (rowAt rows i).removedFromMaster = (rowAt (preprocessRows (fullLeaves d) nodes splits paths X true) i).removedFromMaster := by
  obtain ⟨_, _, h1, _, h2⟩ := preprocess_inv hd ht hleaf hf h
  have h2 := h2 rfl (by
    intro k
    unfold timeOver
    rcases hk with hk | hk
    · simp [not_lt.2 hk]
    · simp [not_lt.2 (hk k)])
  rw [Bool.eq_iff_iff]
  refine Iff.trans ?_ (aggressive_marks hd ht hleaf hi).symm
  constructor
  · intro hm
    rcases h1.master i hi hm with h | ⟨j, _, hj, _, _, hs⟩
    · exact .inl h
    · exact .inr ⟨j, hj, hs⟩
  · rintro (hfew | hex)
    · exact h1.fewRemoved i hi hfew
    · classical
      obtain ⟨j, ⟨hj, hs⟩, hmin⟩ : ∃ j, (j < i ∧ SameRow d nodes splits X j i) ∧ ∀ k < j, ¬ (k < i ∧ SameRow d nodes splits X k i) :=
        ⟨Nat.find hex, Nat.find_spec hex, fun k hk => Nat.find_min hex hk⟩
      by_cases hm : RM rows j
      · rcases h1.master j (by omega) hm with hfew | ⟨k, _, hk, _, _, hks⟩
        · exact h1.fewRemoved i hi (hs.few hfew)
        · exact absurd ⟨by omega, hks.trans hs⟩ (hmin k hk)
      · exact h2.m j i (.inl (by omega)) hj hi hm (fun hc => hm (h2.sub j (by omega) hc)) hs

end

/-! ## Concrete cases -/

/-- The hypotheses on the demonstration data, and the marks: rows 1, 3 and 5 follow the same paths as row 0, rows 2 and 4 reach one leaf.
Without `aggressive` only the rows 2 and 4 are marked. -/
example : Tree 2 (fullLeaves 2) demoNodes Demo.splits ∧ RowsFilled Demo.splits Demo.X ∧
    (∀ n ∈ demoNodes, n.childrenAreLeaves = true → 2 * n.id + 1 ≥ 2 ^ 2 - 1) ∧ (∀ n < 2 ^ 2 - 1, cand demoNodes n ≠ []) ∧
    (preprocessRows (fullLeaves 2) demoNodes Demo.splits [] Demo.X true).map (·.removedFromMaster) = [false, true, true, true, true, true] ∧
    (preprocessRows (fullLeaves 2) demoNodes Demo.splits [] Demo.X false).map (·.removedFromMaster) = [false, false, true, false, true, false] :=
  ⟨Demo.tree, Demo.filled, by decide +kernel, by decide +kernel, by decide +kernel, by decide +kernel⟩

/-- The experiment's `preprocess` on the same data, without time limit. -/
example : (preprocess demoNodes Demo.splits Demo.X.length Demo.y 2 true 0 (fun k => k)).toOption.map (List.map (·.removedFromMaster)) =
    some [false, true, true, true, true, true] := by decide +kernel

/-- Rows 0 and 2 of the second data set reach all leaves and are told apart by the split 1, so both stay; rows 1 and 3 are marked. -/
example : (preprocessRows (fullLeaves 2)
    [⟨0, [0, 2], [1, 1], 0, -1, 1, 2, false⟩, ⟨1, [0, 1, 2], [1, 1], 2, 0, 3, 4, true⟩, ⟨2, [0, 1, 2], [1, 1], 2, 0, 5, 6, true⟩]
    demoSplits [] [[2], [2], [5 / 2], [5 / 2]] true).map (·.removedFromMaster) = [false, true, false, true] := by decide +kernel

/-- The hypotheses of `C122_constraints`: a reached master problem and a fractional solution of its leaf and consistency constraints. -/
example : Core 2 (DTree.Demo.conf true) DTree.Demo.solved DTree.Demo.half ∧
    (preprocessRows (fullLeaves 2) DTree.Demo.nodes DTree.Demo.splits [] DTree.Demo.X true).map (·.removedFromMaster) =
      [false, false, true, true] := by
  refine ⟨?_, by decide +kernel⟩
  have h40 := C40_master_program (DTree.Demo.setup true) (DTree.Demo.good 1 0) DTree.Demo.cut_sound DTree.Demo.solved_reached
  exact ((h40.1 DTree.Demo.half).1 (by rw [DTree.Demo.solved_m]; exact DTree.Demo.checkLP_sound _ _ (by decide +kernel))).core

end Verif.Exp
