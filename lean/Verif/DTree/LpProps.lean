import Verif.DTree.MasterProps

/-!
# Property C43: rows that reach at most two leaves are redundant in the LP relaxation
-/

set_option linter.unusedSectionVars false
set_option linter.unusedSimpArgs false

namespace Verif.DTree

open MP Spec

/-! ## Walks with one decision flipped -/

theorem flip_leaf {d : ℕ} (w : ℕ → Bool) {k : ℕ} (hk : k < d) :
    let l0 := walkLeaf w d
    let l' := walkLeaf (Function.update w (anc d l0 k) (!goesLeft d l0 k)) d
    (∀ i ≤ k, anc d l' i = anc d l0 i) ∧ (∀ i < k, goesLeft d l' i = goesLeft d l0 i) ∧ goesLeft d l' k = !goesLeft d l0 k := by
  intro l0 l'
  have hl0 : l0 < 2 ^ d := walkLeaf_lt _ _
  have hl' : l' < 2 ^ d := walkLeaf_lt _ _
  have h0 := (walkLeaf_iff w hl0).1 rfl
  have h1 := (walkLeaf_iff (Function.update w (anc d l0 k) (!goesLeft d l0 k)) hl').1 rfl
  have hstep : ∀ i < k, anc d l' i = anc d l0 i → goesLeft d l' i = goesLeft d l0 i := by
    intro i hi he
    rw [← h1 i (by omega), he, Function.update_of_ne, h0 i (by omega)]
    intro e
    have := anc_inj hl0 (by omega) hk.le e
    omega
  have ha : ∀ i ≤ k, anc d l' i = anc d l0 i := by
    intro i
    induction i with
    | zero => intro _; rw [anc_zero hl', anc_zero hl0]
    | succ i ih =>
      intro hi
      have e := ih (by omega)
      rw [anc_succ (by omega : i < d), anc_succ (by omega : i < d), hstep i (by omega) e, e]
  refine ⟨ha, fun i hi => hstep i hi (ha i hi.le), ?_⟩
  rw [← h1 k hk, ha k le_rfl, Function.update_self]

theorem first_diff {d l l' : ℕ} (hl : l < 2 ^ d) (hl' : l' < 2 ^ d) (hne : l ≠ l') :
    ∃ k < d, anc d l k = anc d l' k ∧ goesLeft d l k ≠ goesLeft d l' k := by
  by_contra hcon
  push Not at hcon
  have : ∀ k ≤ d, anc d l k = anc d l' k := by
    intro k
    induction k with
    | zero => intro _; rw [anc_zero hl, anc_zero hl']
    | succ k ih =>
      intro hk
      have e := ih (by omega)
      rw [anc_succ (by omega : k < d), anc_succ (by omega : k < d), hcon k (by omega) e, e]
  exact hne (leaf_eq (this d le_rfl))

/-- Every decision of the walk is possible with some candidate. -/
def Possible (d : ℕ) (nodes : List Node) (left : ℕ → Bool) (w : ℕ → Bool) : Prop :=
  ∀ n < 2 ^ d - 1, ∃ s ∈ cand nodes n, left s = w n

theorem Possible.reach {d : ℕ} {nodes : List Node} {left w : ℕ → Bool} (h : Possible d nodes left w) :
    CanReach d nodes left (walkLeaf w d) d := by
  intro i hi
  have hl := walkLeaf_lt w d
  obtain ⟨s, hs, he⟩ := h _ (anc_lt hl hi)
  exact ⟨s, hs, he.trans ((walkLeaf_iff w hl).1 rfl i hi)⟩

theorem Possible.flip {d : ℕ} {nodes : List Node} {left w : ℕ → Bool} (h : Possible d nodes left w) {n : ℕ} {b : Bool} {s : ℕ}
    (hs : s ∈ cand nodes n) (hb : left s = b) : Possible d nodes left (Function.update w n b) := by
  intro m hm
  by_cases he : m = n
  · subst he
    rw [Function.update_self]
    exact ⟨s, hs, hb⟩
  · rw [Function.update_of_ne he]
    exact h m hm

/-! ## Sums over candidate splits -/

theorem sum_pathSum (paths : List Path) (a : ℕ → ℚ) (T : Finset ℕ) (P : ℕ → Path → Prop) (Q : Path → Prop)
    (h : ∀ p ∈ paths, ∑ t ∈ T, ind (P t p) = ind (Q p)) : ∑ t ∈ T, pathSum paths a (P t) = pathSum paths a Q := by
  simp only [pathSum_eq]
  induction paths with
  | nil => simp
  | cons p ps ih =>
    simp only [List.map_cons, List.sum_cons]
    rw [Finset.sum_add_distrib, ih (fun q hq => h q (List.mem_cons_of_mem _ hq)), ← Finset.sum_mul, h p (List.mem_cons_self ..)]

/-- The paths of a leaf are split up by their candidate at a node. -/
theorem split_up {d : ℕ} {nodes : List Node} {paths : List Path} (hw : ∀ p ∈ paths, WFPath d p) (hc : ∀ p ∈ paths, UsesCand nodes p)
    (a : ℕ → ℚ) {l k : ℕ} (hk : k < d) (Q : ℕ → Bool) :
    ∑ t ∈ (cand nodes (anc d l k)).toFinset.filter (fun t => Q t = true), pathSum paths a (fun p => p.leafId = l ∧ (anc d l k, t) ∈ p.pairs) =
      pathSum paths a (fun p => p.leafId = l ∧ ∃ t, (anc d l k, t) ∈ p.pairs ∧ Q t = true) := by
  apply sum_pathSum
  intro p hp
  by_cases hl : p.leafId = l
  · obtain ⟨t0, ht0⟩ := (hw p hp).exists_split hk
    rw [hl] at ht0
    by_cases hq : Q t0 = true
    · rw [ind_pos ⟨hl, t0, ht0, hq⟩]
      rw [Finset.sum_eq_single t0]
      · exact ind_pos ⟨hl, ht0⟩
      · intro t _ hne
        apply ind_neg
        rintro ⟨_, h⟩
        exact hne ((hw p hp).split_unique h ht0)
      · intro hn
        exfalso
        apply hn
        rw [Finset.mem_filter, List.mem_toFinset]
        exact ⟨hc p hp _ ht0, hq⟩
    · rw [ind_neg]
      · apply Finset.sum_eq_zero
        intro t ht
        rw [Finset.mem_filter] at ht
        apply ind_neg
        rintro ⟨_, h⟩
        rw [(hw p hp).split_unique h ht0] at ht
        exact hq ht.2
      · rintro ⟨_, t, h, hqt⟩
        rw [(hw p hp).split_unique h ht0] at hqt
        exact hq hqt
  · rw [ind_neg (fun h => hl h.1)]
    apply Finset.sum_eq_zero
    intro t _
    exact ind_neg (fun h => hl h.1)

theorem pathSum_or {paths : List Path} {a : ℕ → ℚ} {P Q R : Path → Prop} (h : ∀ p ∈ paths, R p ↔ P p ∨ Q p) (hd : ∀ p ∈ paths, P p → ¬ Q p) :
    pathSum paths a R = pathSum paths a P + pathSum paths a Q := by
  simp only [pathSum_eq]
  induction paths with
  | nil => simp
  | cons p ps ih =>
    simp only [List.map_cons, List.sum_cons]
    rw [ih (fun q hq => h q (List.mem_cons_of_mem _ hq)) (fun q hq => hd q (List.mem_cons_of_mem _ hq))]
    have h1 := h p (List.mem_cons_self ..)
    have h2 := hd p (List.mem_cons_self ..)
    have : ind (R p) = ind (P p) + ind (Q p) := by
      by_cases hP : P p
      · rw [ind_pos (h1.2 (Or.inl hP)), ind_pos hP, ind_neg (h2 hP), add_zero]
      · by_cases hQ : Q p
        · rw [ind_pos (h1.2 (Or.inr hQ)), ind_neg hP, ind_pos hQ, zero_add]
        · rw [ind_neg (fun h => (h1.1 h).elim hP hQ), ind_neg hP, ind_neg hQ, add_zero]
    rw [this]
    ring

/-- The core of C43. -/
theorem two_leaves {d : ℕ} {c : Conf} {s : MS} {a : ℕ → ℚ} (hw : ∀ p ∈ s.paths, WFPath d p) (hc : ∀ p ∈ s.paths, UsesCand c.nodes p)
    (h : Core d c s a) (left : ℕ → Bool) (m1 m2 : ℕ) (hfew : ∀ l < 2 ^ d, CanReach d c.nodes left l d → l = m1 ∨ l = m2) :
    pathSum s.paths a (Follows d left) = 1 := by
  -- candidates exist at every node
  have hne : ∀ n < 2 ^ d - 1, ∃ t, t ∈ cand c.nodes n := by
    intro n hn
    obtain ⟨l, hl, k, hk, rfl⟩ := exists_anc_node hn
    have hpos : 0 < pathSum s.paths a (fun p => p.leafId = l) := by rw [h.leaf l hl]; norm_num
    obtain ⟨p, hp, hpl, _⟩ := exists_of_pathSum hpos
    obtain ⟨t, ht⟩ := (hw p hp).exists_split hk
    rw [hpl] at ht
    exact ⟨t, hc p hp _ ht⟩
  have hch : ∀ n, ∃ b : Bool, n < 2 ^ d - 1 → ∃ t ∈ cand c.nodes n, left t = b := by
    intro n
    by_cases hn : n < 2 ^ d - 1
    · obtain ⟨t, ht⟩ := hne n hn
      exact ⟨left t, fun _ => ⟨t, ht, rfl⟩⟩
    · exact ⟨false, fun h => absurd h hn⟩
  choose w hw0 using hch
  have hposs : Possible d c.nodes left w := hw0
  set l0 := walkLeaf w d with hl0
  have hl0lt : l0 < 2 ^ d := walkLeaf_lt _ _
  have hr0 : CanReach d c.nodes left l0 d := hposs.reach
  -- a followed path ends in a reachable leaf
  have hfollow : ∀ p ∈ s.paths, Follows d left p → CanReach d c.nodes left p.leafId d := by
    intro p hp hf i hi
    obtain ⟨t, ht⟩ := (hw p hp).exists_split hi
    exact ⟨t, hc p hp _ ht, hf i hi t ht⟩
  by_cases hQ : ∃ k < d, ∃ t ∈ cand c.nodes (anc d l0 k), left t ≠ goesLeft d l0 k
  swap
  · push Not at hQ
    rw [← h.leaf l0 hl0lt]
    apply pathSum_congr
    intro p hp
    constructor
    · intro hf
      by_contra hl
      obtain ⟨k, hk, ha, hg⟩ := first_diff (hw p hp).leaf_lt hl0lt hl
      obtain ⟨t, ht, he⟩ := hfollow p hp hf k hk
      rw [ha] at ht
      exact hg (he.symm.trans (hQ k hk t ht))
    · intro hl k hk t ht
      have hcand := hc p hp _ ht
      simp only [hl] at hcand ⊢
      exact hQ k hk t hcand
  · obtain ⟨k, hk, t1, ht1, hd1⟩ := hQ
    have hd1' : left t1 = !goesLeft d l0 k := by
      cases h1 : left t1 <;> cases h2 : goesLeft d l0 k <;> simp_all
    have hposs1 : Possible d c.nodes left (Function.update w (anc d l0 k) (!goesLeft d l0 k)) := hposs.flip ht1 hd1'
    obtain ⟨f1, f2, f3⟩ := flip_leaf w hk
    rw [← hl0] at f1 f2 f3
    set w1 := Function.update w (anc d l0 k) (!goesLeft d l0 k) with hw1
    set l2 := walkLeaf w1 d with hl2
    have hl2lt : l2 < 2 ^ d := walkLeaf_lt _ _
    have hr2 : CanReach d c.nodes left l2 d := hposs1.reach
    have hne02 : l2 ≠ l0 := by
      intro e
      rw [e] at f3
      simp at f3
    have honly : ∀ l < 2 ^ d, CanReach d c.nodes left l d → l = l0 ∨ l = l2 := by
      intro l hl hr
      have a1 := hfew l hl hr
      have a2 := hfew l0 hl0lt hr0
      have a3 := hfew l2 hl2lt hr2
      omega
    -- other levels of the way to `l0` are forced
    have hforce0 : ∀ i < d, i ≠ k → ∀ t ∈ cand c.nodes (anc d l0 i), left t = goesLeft d l0 i := by
      intro i hi hik t ht
      by_contra hd
      have hd' : left t = !goesLeft d l0 i := by
        cases h1 : left t <;> cases h2 : goesLeft d l0 i <;> simp_all
      have hr3 := (hposs.flip ht hd').reach
      obtain ⟨g1, g2, g3⟩ := flip_leaf w hi
      rw [← hl0] at g1 g2 g3
      rcases honly _ (walkLeaf_lt _ _) hr3 with e | e
      · rw [e] at g3; simp at g3
      · rw [e] at g1 g2 g3
        rcases Nat.lt_or_gt_of_ne hik with hlt | hgt
        · rw [f2 i hlt] at g3; simp at g3
        · rw [g2 k hgt] at f3; simp at f3
    have hforce2 : ∀ i < d, i ≠ k → ∀ t ∈ cand c.nodes (anc d l2 i), left t = goesLeft d l2 i := by
      intro i hi hik t ht
      by_contra hd
      have hd' : left t = !goesLeft d l2 i := by
        cases h1 : left t <;> cases h2 : goesLeft d l2 i <;> simp_all
      have hr3 := (hposs1.flip ht hd').reach
      obtain ⟨g1, g2, g3⟩ := flip_leaf w1 hi
      rw [← hl2] at g1 g2 g3
      rcases honly _ (walkLeaf_lt _ _) hr3 with e | e
      · rw [e] at g1 g2 g3
        rcases Nat.lt_or_gt_of_ne hik with hlt | hgt
        · rw [f2 i hlt] at g3; simp at g3
        · rw [← g2 k hgt] at f3; simp at f3
      · rw [e] at g3; simp at g3
    have hj : anc d l2 k = anc d l0 k := f1 k le_rfl
    -- followed paths by leaf
    have hsplit : pathSum s.paths a (Follows d left) =
        pathSum s.paths a (fun p => p.leafId = l0 ∧ ∃ t, (anc d l0 k, t) ∈ p.pairs ∧ (left t == goesLeft d l0 k) = true) +
        pathSum s.paths a (fun p => p.leafId = l2 ∧ ∃ t, (anc d l2 k, t) ∈ p.pairs ∧ (left t == goesLeft d l2 k) = true) := by
      apply pathSum_or
      · intro p hp
        have hone : ∀ l, p.leafId = l → (∀ i < d, i ≠ k → ∀ t ∈ cand c.nodes (anc d l i), left t = goesLeft d l i) →
            (Follows d left p ↔ ∃ t, (anc d l k, t) ∈ p.pairs ∧ (left t == goesLeft d l k) = true) := by
          rintro l rfl hforce
          constructor
          · intro hf
            obtain ⟨t, ht⟩ := (hw p hp).exists_split hk
            exact ⟨t, ht, by rw [hf k hk t ht]; simp⟩
          · rintro ⟨t, ht, he⟩ i hi u hu
            by_cases hik : i = k
            · subst hik
              rw [(hw p hp).split_unique hu ht]
              simpa using he
            · exact hforce i hi hik u (hc p hp _ hu)
        constructor
        · intro hf
          rcases honly _ (hw p hp).leaf_lt (hfollow p hp hf) with e | e
          · exact Or.inl ⟨e, (hone l0 e hforce0).1 hf⟩
          · exact Or.inr ⟨e, (hone l2 e hforce2).1 hf⟩
        · rintro (⟨e, ht⟩ | ⟨e, ht⟩)
          · exact (hone l0 e hforce0).2 ht
          · exact (hone l2 e hforce2).2 ht
      · rintro p hp ⟨e, _⟩ ⟨e', _⟩
        exact hne02 (e'.symm.trans e)
    rw [hsplit, ← split_up hw hc a hk (fun t => left t == goesLeft d l0 k), ← split_up hw hc a hk (fun t => left t == goesLeft d l2 k)]
    have hrho : ∀ t ∈ cand c.nodes (anc d l0 k), pathSum s.paths a (fun p => p.leafId = l2 ∧ (anc d l2 k, t) ∈ p.pairs) =
        pathSum s.paths a (fun p => p.leafId = l0 ∧ (anc d l0 k, t) ∈ p.pairs) := by
      intro t ht
      obtain ⟨v, hv, e⟩ := h.consistent l0 hl0lt k hk t ht
      obtain ⟨v', hv', e'⟩ := h.consistent l2 hl2lt k hk t (by rw [hj]; exact ht)
      rw [hj] at hv'
      rw [hv] at hv'
      injection hv' with hv'
      rw [e, e', hv']
    have hsum2 : ∑ t ∈ (cand c.nodes (anc d l2 k)).toFinset.filter (fun t => (left t == goesLeft d l2 k) = true),
        pathSum s.paths a (fun p => p.leafId = l2 ∧ (anc d l2 k, t) ∈ p.pairs) =
        ∑ t ∈ (cand c.nodes (anc d l0 k)).toFinset.filter (fun t => ¬ (left t == goesLeft d l0 k) = true),
        pathSum s.paths a (fun p => p.leafId = l0 ∧ (anc d l0 k, t) ∈ p.pairs) := by
      have hset : (cand c.nodes (anc d l2 k)).toFinset.filter (fun t => (left t == goesLeft d l2 k) = true) =
          (cand c.nodes (anc d l0 k)).toFinset.filter (fun t => ¬ (left t == goesLeft d l0 k) = true) := by
        rw [hj]
        apply Finset.filter_congr
        intro t _
        rw [f3]
        cases left t <;> cases goesLeft d l0 k <;> simp
      rw [hset]
      apply Finset.sum_congr rfl
      intro t ht
      rw [Finset.mem_filter, List.mem_toFinset] at ht
      exact hrho t ht.1
    rw [hsum2, Finset.sum_filter_add_sum_filter_not]
    have hall := split_up hw hc a (l := l0) hk (fun _ => true)
    simp only [Finset.filter_true] at hall
    rw [hall, ← h.leaf l0 hl0lt]
    apply pathSum_congr
    intro p hp
    constructor
    · rintro ⟨e, _⟩; exact e
    · intro e
      obtain ⟨t, ht⟩ := (hw p hp).exists_split hk
      rw [e] at ht
      exact ⟨e, t, ht, trivial⟩

/-- **C43.** For every (fractional) solution of the leaf and consistency constraints of a reached state whose paths use candidate splits:
a row that reaches at most two leaves has path sum exactly 1. -/
theorem C43_two_leaves_redundant {d : ℕ} {c : Conf} {o : Oracle} {paths : List Path} {splits : List Split} {dataRows : Option (List Row)}
    (hs : Setup d c splits dataRows) (hp : ∀ p ∈ paths, GoodPath d splits p) (ho : CutSound o) {s : MS}
    (h : Reached d c o paths splits dataRows s) (hc : ∀ p ∈ s.paths, UsesCand c.nodes p) (a : ℕ → ℚ) (hcore : Core d c s a)
    (row : List ℚ) (reached : List ℕ) (hr : ∀ l, l ∈ reached ↔ l < 2 ^ d ∧ ∃ p : Path, WFPath d p ∧ p.leafId = l ∧ UsesCand c.nodes p ∧
      rowSatisfiesPath row (leafAt c.leaves p.leafId) s.splits p = true) (hfew : reached.length ≤ 2) :
    pathSum s.paths a (fun p => rowSatisfiesPath row (leafAt c.leaves p.leafId) s.splits p = true) = 1 := by
  obtain ⟨cuts, own, cd, hi⟩ := reached_inv hs hp ho h
  have hw : ∀ p ∈ s.paths, WFPath d p := fun p hp => (hi.good p hp).1
  have hreach : ∀ l < 2 ^ d, CanReach d c.nodes (rowLeft s.splits row) l d → l ∈ reached := by
    intro l hl hcr
    rw [hr]
    refine ⟨hl, ?_⟩
    rw [hs.tree.leaves]
    exact (canReach_iff_path hl row).1 hcr
  have hex : ∃ m1 m2, ∀ l ∈ reached, l = m1 ∨ l = m2 := by
    match reached, hfew with
    | [], _ => exact ⟨0, 0, by simp⟩
    | [x], _ => exact ⟨x, x, by simp⟩
    | [x, y], _ => exact ⟨x, y, by simp⟩
    | x :: y :: z :: r, h => exact absurd h (by simp)
  obtain ⟨m1, m2, hm⟩ := hex
  rw [← two_leaves hw hc hcore (rowLeft s.splits row) m1 m2 (fun l hl hcr => hm l (hreach l hl hcr))]
  apply pathSum_congr
  intro p hp
  rw [hs.tree.leaves]
  exact rowSatisfiesPath_iff (hw p hp) s.splits row

/-- **C43**, as the preprocessing uses it: every row that `preprocess_rows` removes (and every row it keeps with at most two recorded
leaves, there is none) satisfies its constraint with equality in every LP solution, so removing the constraint changes nothing. -/
theorem C43_removed_rows {d : ℕ} {c : Conf} {o : Oracle} {paths : List Path} {splits : List Split}
    (hs : Setup d c splits none) (hp : ∀ p ∈ paths, GoodPath d splits p) (ho : CutSound o)
    (hleaf : ∀ n ∈ c.nodes, n.childrenAreLeaves = true → 2 * n.id + 1 ≥ 2 ^ d - 1) {s : MS}
    (h : Reached d c o paths splits none s) (hc : ∀ p ∈ s.paths, UsesCand c.nodes p) (a : ℕ → ℚ) (hcore : Core d c s a)
    (ps : List Path) (i : ℕ) (r : Row) (row : List ℚ) (hX : c.X[i]? = some row)
    (hr : (preprocessRows c.leaves c.nodes splits ps c.X false)[i]? = some r) (hrem : r.removedFromMaster = true) :
    pathSum s.paths a (fun p => rowSatisfiesPath row (leafAt c.leaves p.leafId) s.splits p = true) = 1 := by
  obtain ⟨h1, _, _, _⟩ := C44_reachable_exact hs.depth hs.tree hleaf ps c.X false i r row hX hr
  obtain ⟨cuts, own, cd, hi⟩ := reached_inv hs hp ho h
  refine C43_two_leaves_redundant hs hp ho h hc a hcore row r.reachableLeaves ?_ ?_
  · intro l
    rw [h1]
    refine and_congr_right fun hl => ?_
    constructor
    · rintro ⟨p, hw, e, hu, hsat⟩
      refine ⟨p, hw, e, hu, ?_⟩
      rw [hs.tree.leaves] at hsat ⊢
      rw [rowSatisfiesPath_iff hw] at hsat ⊢
      rw [hi.same.rowLeft]; exact hsat
    · rintro ⟨p, hw, e, hu, hsat⟩
      refine ⟨p, hw, e, hu, ?_⟩
      rw [hs.tree.leaves] at hsat ⊢
      rw [rowSatisfiesPath_iff hw] at hsat ⊢
      rw [hi.same.rowLeft] at hsat; exact hsat
  · have hf : r.removedFromMaster = fewLeaves r.reachableLeaves := by
      unfold preprocessRows at hr
      simp only [Bool.false_eq_true, if_false] at hr
      rw [List.getElem?_map, hX] at hr
      simp only [Option.map_some, Option.some.injEq] at hr
      rw [← hr]
      rfl
    rw [hf] at hrem
    simpa [fewLeaves] using hrem

end Verif.DTree
