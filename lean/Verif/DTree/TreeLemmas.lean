import Mathlib.Tactic.Ring
import Mathlib.Tactic.Linarith
import Verif.DTree.Spec

/-!
# Lemmas about the numbering of complete binary trees and about paths
-/

namespace Verif.DTree

open Spec

/-! ## Arithmetic -/

theorem anc_zero {d l : ℕ} (h : l < 2 ^ d) : anc d l 0 = 0 := by
  simp [anc, Nat.div_eq_of_lt h]

theorem anc_self (d l : ℕ) : anc d l d = 2 ^ d - 1 + l := by simp [anc]

theorem goesLeft_eq (d l k : ℕ) : goesLeft d l k = decide (l / 2 ^ (d - 1 - k) % 2 = 0) := by
  unfold goesLeft
  rw [Nat.testBit_eq_decide_div_mod_eq]
  have := Nat.mod_two_eq_zero_or_one (l / 2 ^ (d - 1 - k))
  rcases this with h | h <;> simp [h]

theorem div_step {d k l : ℕ} (hk : k < d) : l / 2 ^ (d - k) = l / 2 ^ (d - 1 - k) / 2 := by
  rw [Nat.div_div_eq_div_mul]
  congr 1
  rw [← pow_succ]
  congr 1
  omega

/-- One step down the way to leaf `l`. -/
theorem anc_succ {d l k : ℕ} (hk : k < d) :
    anc d l (k + 1) = if goesLeft d l k then 2 * anc d l k + 1 else 2 * anc d l k + 2 := by
  rw [goesLeft_eq]
  unfold anc
  rw [div_step hk, show d - (k + 1) = d - 1 - k by omega]
  have := Nat.one_le_two_pow (n := k)
  have h2 : 2 ^ (k + 1) = 2 * 2 ^ k := by ring
  generalize l / 2 ^ (d - 1 - k) = m
  split_ifs with h <;> simp at h <;> omega

theorem anc_parent {d l k : ℕ} (hk : k < d) : (anc d l (k + 1) - 1) / 2 = anc d l k := by
  rw [anc_succ hk]
  split_ifs <;> omega

theorem anc_parity {d l k : ℕ} (hk : k < d) : decide (anc d l (k + 1) % 2 = 1) = goesLeft d l k := by
  rw [anc_succ hk]
  split_ifs with h
  · rw [h, decide_eq_true_eq]; omega
  · simp only [Bool.not_eq_true] at h; rw [h, decide_eq_false_iff_not]; omega

theorem anc_lower (d l k : ℕ) : 2 ^ k - 1 ≤ anc d l k := by unfold anc; exact Nat.le_add_right _ _

theorem div_lt {d l k : ℕ} (h : l < 2 ^ d) (hk : k ≤ d) : l / 2 ^ (d - k) < 2 ^ k := by
  rw [Nat.div_lt_iff_lt_mul (by positivity), ← pow_add]
  rwa [show k + (d - k) = d by omega]

theorem anc_upper {d l k : ℕ} (h : l < 2 ^ d) (hk : k ≤ d) : anc d l k < 2 ^ (k + 1) - 1 := by
  have := div_lt h hk
  have h2 : 2 ^ (k + 1) = 2 * 2 ^ k := by ring
  have := Nat.one_le_two_pow (n := k)
  unfold anc
  omega

theorem anc_lt {d l k : ℕ} (h : l < 2 ^ d) (hk : k < d) : anc d l k < 2 ^ d - 1 := by
  have h1 := anc_upper h hk.le
  have : 2 ^ (k + 1) ≤ 2 ^ d := Nat.pow_le_pow_right (by norm_num) hk
  omega

theorem anc_lt_anc {d l l' k k' : ℕ} (h : l < 2 ^ d) (hk : k < k') (hk' : k' ≤ d) : anc d l k < anc d l' k' := by
  have h1 := anc_upper h (by omega : k ≤ d)
  have h2 := anc_lower d l' k'
  have : 2 ^ (k + 1) ≤ 2 ^ k' := Nat.pow_le_pow_right (by norm_num) hk
  omega

theorem anc_level {d l l' k k' : ℕ} (h : l < 2 ^ d) (h' : l' < 2 ^ d) (hk : k ≤ d) (hk' : k' ≤ d) (he : anc d l k = anc d l' k') :
    k = k' := by
  rcases lt_trichotomy k k' with hlt | heq | hgt
  · have := anc_lt_anc (l' := l') h hlt hk'; omega
  · exact heq
  · have := anc_lt_anc (l' := l) h' hgt hk; omega

theorem anc_inj {d l k k' : ℕ} (h : l < 2 ^ d) (hk : k ≤ d) (hk' : k' ≤ d) (he : anc d l k = anc d l k') : k = k' :=
  anc_level h h hk hk' he

/-- Two ways through the same node agree above it. -/
theorem anc_above {d l l' k : ℕ} (hk : k ≤ d) (he : anc d l k = anc d l' k) : ∀ i ≤ k, anc d l i = anc d l' i := by
  induction k with
  | zero => intro i hi; obtain rfl : i = 0 := by omega
            exact he
  | succ k ih =>
    intro i hi
    have hp : anc d l k = anc d l' k := by
      rw [← anc_parent (l := l) (by omega : k < d), ← anc_parent (l := l') (by omega : k < d), he]
    rcases Nat.lt_or_ge i (k + 1) with h | h
    · exact ih (by omega) hp i (by omega)
    · obtain rfl : i = k + 1 := by omega
      exact he

theorem goesLeft_above {d l l' k : ℕ} (hk : k ≤ d) (he : anc d l k = anc d l' k) : ∀ i < k, goesLeft d l i = goesLeft d l' i := by
  intro i hi
  rw [← anc_parity (by omega : i < d), ← anc_parity (by omega : i < d), anc_above hk he (i + 1) (by omega)]

theorem leaf_eq {d l l' : ℕ} (h : anc d l d = anc d l' d) : l = l' := by
  rw [anc_self, anc_self] at h; omega

/-- Every position of the tree lies on the way to some leaf. -/
theorem exists_anc {d n : ℕ} (hn : n < 2 ^ (d + 1) - 1) : ∃ l < 2 ^ d, ∃ k ≤ d, n = anc d l k := by
  have hk1 : 2 ^ Nat.log 2 (n + 1) ≤ n + 1 := Nat.pow_log_le_self 2 (by omega)
  have hk2 : n + 1 < 2 ^ (Nat.log 2 (n + 1) + 1) := Nat.lt_pow_succ_log_self (by norm_num) _
  generalize Nat.log 2 (n + 1) = k at hk1 hk2
  have hkd : k ≤ d := by
    by_contra h
    have : 2 ^ (d + 1) ≤ 2 ^ k := Nat.pow_le_pow_right (by norm_num) (by omega)
    omega
  have h2 : 2 ^ (k + 1) = 2 * 2 ^ k := by ring
  refine ⟨(n + 1 - 2 ^ k) * 2 ^ (d - k), ?_, k, hkd, ?_⟩
  · have : 2 ^ d = 2 ^ k * 2 ^ (d - k) := by rw [← pow_add]; congr 1; omega
    rw [this]
    exact Nat.mul_lt_mul_of_pos_right (by omega) (by positivity)
  · unfold anc
    rw [Nat.mul_div_cancel _ (by positivity)]
    have := Nat.one_le_two_pow (n := k)
    omega

/-- Every node lies on the way to some leaf. -/
theorem exists_anc_node {d n : ℕ} (hn : n < 2 ^ d - 1) : ∃ l < 2 ^ d, ∃ k < d, n = anc d l k := by
  have h2 : 2 ^ (d + 1) = 2 * 2 ^ d := by ring
  obtain ⟨l, hl, k, hk, he⟩ := exists_anc (d := d) (n := n) (by omega)
  refine ⟨l, hl, k, ?_, he⟩
  by_contra hkd
  obtain rfl : k = d := by omega
  rw [anc_self] at he
  omega

/-! ## The walk -/

theorem walk_bounds (left : ℕ → Bool) : ∀ k, 2 ^ k - 1 ≤ walk left k ∧ walk left k < 2 ^ (k + 1) - 1 := by
  intro k
  induction k with
  | zero => simp [walk]
  | succ k ih =>
    have h2 : 2 ^ (k + 1) = 2 * 2 ^ k := by ring
    have h3 : 2 ^ (k + 1 + 1) = 4 * 2 ^ k := by ring
    have := Nat.one_le_two_pow (n := k)
    unfold walk
    split_ifs <;> omega

theorem walkLeaf_lt (left : ℕ → Bool) (d : ℕ) : walkLeaf left d < 2 ^ d := by
  have h := walk_bounds left d
  have h2 : 2 ^ (d + 1) = 2 * 2 ^ d := by ring
  unfold walkLeaf
  omega

theorem anc_walkLeaf_self (left : ℕ → Bool) (d : ℕ) : anc d (walkLeaf left d) d = walk left d := by
  have h := walk_bounds left d
  rw [anc_self, walkLeaf]
  omega

/-- A leaf is the one reached by the walk iff at every level the walk's choice at its node is the leaf's direction. -/
theorem walkLeaf_iff (left : ℕ → Bool) {d l : ℕ} (hl : l < 2 ^ d) :
    walkLeaf left d = l ↔ ∀ k < d, left (anc d l k) = goesLeft d l k := by
  have key : (∀ k < d, left (anc d l k) = goesLeft d l k) → ∀ k ≤ d, walk left k = anc d l k := by
    intro h k
    induction k with
    | zero => intro _; rw [anc_zero hl]; rfl
    | succ k ih =>
      intro hk
      rw [anc_succ (by omega : k < d), ← h k (by omega), ← ih (by omega)]
      rfl
  constructor
  · rintro rfl k hk
    have hup : ∀ j ≤ d, anc d (walkLeaf left d) (d - j) = walk left (d - j) := by
      intro j
      induction j with
      | zero => intro _; exact anc_walkLeaf_self left d
      | succ j ih =>
        intro hj
        have h1 := ih (by omega)
        have hlt : d - (j + 1) < d := by omega
        rw [← anc_parent hlt, show d - (j + 1) + 1 = d - j by omega, h1, show d - j = d - (j + 1) + 1 by omega]
        rw [walk]
        split_ifs <;> omega
    have hk0 : anc d (walkLeaf left d) k = walk left k := by
      have := hup (d - k) (by omega)
      rwa [show d - (d - k) = k by omega] at this
    have hk1 : anc d (walkLeaf left d) (k + 1) = walk left (k + 1) := by
      have := hup (d - (k + 1)) (by omega)
      rwa [show d - (d - (k + 1)) = k + 1 by omega] at this
    rw [← anc_parity hk, hk1, hk0, walk, eq_comm]
    split_ifs with h
    · rw [h, decide_eq_true_eq]; omega
    · simp only [Bool.not_eq_true] at h; rw [h, decide_eq_false_iff_not]; omega
  · intro h
    have := key h d le_rfl
    rw [walkLeaf, this, anc_self]
    omega

/-! ## The loops -/

theorem fathers_eq {d l : ℕ} (hl : l < 2 ^ d) : ∀ k ≤ d, ∀ fuel, anc d l k ≤ fuel →
    fathers fuel (anc d l k) = (List.range k).reverse.map (anc d l) := by
  intro k
  induction k with
  | zero =>
    intro _ fuel _
    rw [anc_zero hl]
    cases fuel <;> simp [fathers]
  | succ k ih =>
    intro hk fuel hf
    have hpos : 0 < anc d l (k + 1) := by rw [anc_succ (by omega : k < d)]; split_ifs <;> omega
    cases fuel with
    | zero => omega
    | succ fuel =>
      rw [fathers, if_pos hpos, anc_parent (by omega : k < d), ih (by omega) fuel]
      · rw [List.range_succ]; simp
      · have := anc_lt_anc (l' := l) hl (by omega : k < k + 1) hk
        omega

theorem leafLoop_eq {d l : ℕ} (hl : l < 2 ^ d) : ∀ k ≤ d, ∀ fuel acc, anc d l k ≤ fuel →
    leafLoop fuel (anc d l k) acc =
      (acc.1 ++ ((List.range k).reverse.filter (goesLeft d l)).map (anc d l),
        acc.2 ++ ((List.range k).reverse.filter (fun i => !goesLeft d l i)).map (anc d l)) := by
  intro k
  induction k with
  | zero =>
    intro _ fuel acc _
    rw [anc_zero hl]
    cases fuel <;> simp [leafLoop]
  | succ k ih =>
    intro hk fuel acc hf
    have hpos : 0 < anc d l (k + 1) := by rw [anc_succ (by omega : k < d)]; split_ifs <;> omega
    cases fuel with
    | zero => omega
    | succ fuel =>
      have hlt := anc_lt_anc (l' := l) hl (by omega : k < k + 1) hk
      rw [leafLoop, if_pos hpos]
      simp only
      rw [anc_parent (by omega : k < d), ih (by omega) fuel _ (by omega)]
      have hp := anc_parity (l := l) (by omega : k < d)
      rw [List.range_succ, List.reverse_append, List.reverse_singleton, List.singleton_append, List.filter_cons, List.filter_cons]
      by_cases h : anc d l (k + 1) % 2 = 0
      · rw [if_pos h]
        have hg : goesLeft d l k = false := by rw [← hp]; simp; omega
        simp [hg]
      · rw [if_neg h]
        have hg : goesLeft d l k = true := by rw [← hp]; simp; omega
        simp [hg]

theorem setLeaf_nodeIds (p : Path) {d l : ℕ} (hl : l < 2 ^ d) :
    (p.setLeaf l d).nodeIds = (List.range d).reverse.map (anc d l) := by
  have := fathers_eq hl d le_rfl (2 ^ d - 1 + l)
  rw [anc_self] at this
  exact this le_rfl

theorem createLeaf_eq {d l : ℕ} (hl : l < 2 ^ d) :
    createLeaf l d = ⟨l, ((List.range d).reverse.filter (goesLeft d l)).map (anc d l),
      ((List.range d).reverse.filter (fun i => !goesLeft d l i)).map (anc d l)⟩ := by
  have := leafLoop_eq hl d le_rfl (2 ^ d - 1 + l) ([], [])
  rw [anc_self] at this
  simp [createLeaf, this]

theorem mem_leftNodes {d l : ℕ} (hl : l < 2 ^ d) (n : ℕ) :
    n ∈ (createLeaf l d).leftNodes ↔ ∃ k < d, n = anc d l k ∧ goesLeft d l k = true := by
  rw [createLeaf_eq hl]
  simp only [List.mem_map, List.mem_filter, List.mem_reverse, List.mem_range]
  constructor
  · rintro ⟨k, ⟨hk, hg⟩, rfl⟩; exact ⟨k, hk, rfl, hg⟩
  · rintro ⟨k, hk, rfl, hg⟩; exact ⟨k, ⟨hk, hg⟩, rfl⟩

theorem mem_rightNodes {d l : ℕ} (hl : l < 2 ^ d) (n : ℕ) :
    n ∈ (createLeaf l d).rightNodes ↔ ∃ k < d, n = anc d l k ∧ goesLeft d l k = false := by
  rw [createLeaf_eq hl]
  simp only [List.mem_map, List.mem_filter, List.mem_reverse, List.mem_range, Bool.not_eq_true']
  constructor
  · rintro ⟨k, ⟨hk, hg⟩, rfl⟩; exact ⟨k, hk, rfl, hg⟩
  · rintro ⟨k, hk, rfl, hg⟩; exact ⟨k, ⟨hk, hg⟩, rfl⟩

theorem anc_mem_leftNodes {d l k : ℕ} (hl : l < 2 ^ d) (hk : k < d) :
    anc d l k ∈ (createLeaf l d).leftNodes ↔ goesLeft d l k = true := by
  rw [mem_leftNodes hl]
  constructor
  · rintro ⟨k', hk', he, hg⟩
    rwa [anc_inj hl hk.le hk'.le he]
  · intro h; exact ⟨k, hk, rfl, h⟩

/-! ## Rows on paths -/

theorem rowLoop_iff (row : List ℚ) (leaf : Leaf) (splits : List Split) (ps : List (ℕ × ℕ)) :
    rowLoop row leaf splits ps = true ↔ ∀ q ∈ ps, takesLeft row (splitAt splits q.2) = decide (q.1 ∈ leaf.leftNodes) := by
  induction ps with
  | nil => simp [rowLoop]
  | cons q ps ih =>
    obtain ⟨n, s⟩ := q
    rw [rowLoop]
    simp only [List.mem_cons, forall_eq_or_imp, takesLeft, ← not_le] at ih ⊢
    by_cases h1 : n ∈ leaf.leftNodes <;> by_cases h2 : feat row (splitAt splits s).feature ≤ (splitAt splits s).threshold <;>
      simp [h1, h2, ih]

theorem Spec.WFPath.pairs_fst {d : ℕ} {p : Path} (h : WFPath d p) : p.pairs.map Prod.fst = p.nodeIds := by
  unfold Path.pairs
  apply List.map_fst_zip
  rw [h.nodes.length_eq, h.splits]
  simp

theorem Spec.WFPath.nodup {d : ℕ} {p : Path} (h : WFPath d p) : p.nodeIds.Nodup := by
  rw [h.nodes.nodup_iff]
  refine List.Nodup.map_on ?_ List.nodup_range
  intro a ha b hb he
  rw [List.mem_range] at ha hb
  exact anc_inj h.leaf_lt ha.le hb.le he

theorem Spec.WFPath.mem_pairs {d : ℕ} {p : Path} (h : WFPath d p) {q : ℕ × ℕ} (hq : q ∈ p.pairs) :
    ∃ k < d, q.1 = anc d p.leafId k := by
  have : q.1 ∈ p.nodeIds := by
    rw [← h.pairs_fst]; exact List.mem_map_of_mem hq
  rw [h.nodes.mem_iff] at this
  simp only [List.mem_map, List.mem_range] at this
  obtain ⟨k, hk, he⟩ := this
  exact ⟨k, hk, he.symm⟩

/-- The split used by a well-formed path at each of its nodes exists and is unique. -/
theorem Spec.WFPath.exists_split {d : ℕ} {p : Path} (h : WFPath d p) {k : ℕ} (hk : k < d) :
    ∃ s, (anc d p.leafId k, s) ∈ p.pairs := by
  have : anc d p.leafId k ∈ p.pairs.map Prod.fst := by
    rw [h.pairs_fst, h.nodes.mem_iff]
    exact List.mem_map_of_mem (List.mem_range.2 hk)
  obtain ⟨q, hq, he⟩ := List.mem_map.1 this
  exact ⟨q.2, by rw [← he]; exact hq⟩

theorem unique_of_nodup_fst {l : List (ℕ × ℕ)} (h : (l.map Prod.fst).Nodup) {n s s' : ℕ} (h1 : (n, s) ∈ l) (h2 : (n, s') ∈ l) :
    s = s' := by
  have := List.inj_on_of_nodup_map h h1 h2 rfl
  exact (Prod.ext_iff.1 this).2

theorem Spec.WFPath.split_unique {d : ℕ} {p : Path} (h : WFPath d p) {n s s' : ℕ} (h1 : (n, s) ∈ p.pairs) (h2 : (n, s') ∈ p.pairs) :
    s = s' := unique_of_nodup_fst (by rw [h.pairs_fst]; exact h.nodup) h1 h2

theorem leafAt_full {d l : ℕ} (hl : l < 2 ^ d) : leafAt (fullLeaves d) l = createLeaf l d := by
  unfold leafAt fullLeaves
  rw [List.getD_eq_getElem?_getD, List.getElem?_map, List.getElem?_range hl]
  rfl

/-- Generic test against a path. -/
theorem follows_iff {d : ℕ} {p : Path} (h : WFPath d p) (left : ℕ → Bool) :
    Follows d left p ↔ ∀ q ∈ p.pairs, left q.2 = decide (q.1 ∈ (createLeaf p.leafId d).leftNodes) := by
  constructor
  · intro hf q hq
    obtain ⟨k, hk, he⟩ := h.mem_pairs hq
    have := hf k hk q.2 (by rw [← he]; exact hq)
    rw [this, he]
    cases hg : goesLeft d p.leafId k
    · symm; simp [anc_mem_leftNodes h.leaf_lt hk, hg]
    · symm; simp [anc_mem_leftNodes h.leaf_lt hk, hg]
  · intro hf k hk s hs
    rw [hf _ hs]
    cases hg : goesLeft d p.leafId k
    · simp [anc_mem_leftNodes h.leaf_lt hk, hg]
    · simp [anc_mem_leftNodes h.leaf_lt hk, hg]

/-- The left splits of a row as a pattern. -/
def rowLeft (splits : List Split) (row : List ℚ) (s : ℕ) : Bool := takesLeft row (splitAt splits s)

theorem rowSatisfiesPath_iff {d : ℕ} {p : Path} (h : WFPath d p) (splits : List Split) (row : List ℚ) :
    rowSatisfiesPath row (leafAt (fullLeaves d) p.leafId) splits p = true ↔ Follows d (rowLeft splits row) p := by
  rw [leafAt_full h.leaf_lt, rowSatisfiesPath, rowLoop_iff, follows_iff h]
  rfl

/-! ## Sets -/

theorem mem_setAdd {s : List ℕ} {x a : ℕ} : a ∈ setAdd s x ↔ a ∈ s ∨ a = x := by
  unfold setAdd
  split_ifs with h
  · constructor
    · exact Or.inl
    · rintro (h1 | rfl)
      · exact h1
      · exact h
  · simp

theorem nodup_setAdd {s : List ℕ} {x : ℕ} (h : s.Nodup) : (setAdd s x).Nodup := by
  unfold setAdd
  split_ifs with hx
  · exact h
  · rw [List.nodup_append]
    refine ⟨h, by simp, ?_⟩
    intro a ha b hb
    simp at hb
    rintro rfl
    exact hx (hb ▸ ha)

/-- The lookup by intersection of sets. -/
theorem satisfiedBy_eq {side : Split → Bool → List ℕ} {path : Path} {leaf : Leaf} {splits : List Split} {S : List ℕ}
    (h : satisfiedBy side path leaf splits = .ok S) (r : ℕ) :
    r ∈ S ↔ ∀ q ∈ path.pairs, r ∈ side (splitAt splits q.2) (decide (q.1 ∈ leaf.leftNodes)) := by
  have key : ∀ (ps : List (ℕ × ℕ)) (acc : List ℕ),
      r ∈ ps.foldl (fun acc q => acc.filter (fun r => r ∈ side (splitAt splits q.2) (decide (q.1 ∈ leaf.leftNodes)))) acc ↔
      r ∈ acc ∧ ∀ q ∈ ps, r ∈ side (splitAt splits q.2) (decide (q.1 ∈ leaf.leftNodes)) := by
    intro ps
    induction ps with
    | nil => simp
    | cons q ps ih =>
      intro acc
      rw [List.foldl_cons, ih]
      simp [List.mem_filter, and_assoc]
  unfold satisfiedBy at h
  cases hp : path.pairs with
  | nil => rw [hp] at h; cases h
  | cons q ps =>
    rw [hp] at h
    injection h with h
    rw [← h, key]
    simp

theorem satisfiedBy_error {side : Split → Bool → List ℕ} {path : Path} {leaf : Leaf} {splits : List Split} :
    satisfiedBy side path leaf splits = .error .indexError ↔ path.pairs = [] := by
  unfold satisfiedBy
  cases path.pairs with
  | nil => simp
  | cons q ps => simp

end Verif.DTree
