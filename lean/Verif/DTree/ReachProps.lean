import Verif.DTree.TreeProps

/-!
# Reachable nodes and leaves: C44, and what the aggressive preprocessing of the master removes
-/

namespace Verif.DTree

open Spec

/-- Positions (nodes and leaves in heap numbering) that a row with split pattern `left` can reach. -/
inductive Pos (nodes : List Node) (left : ℕ → Bool) : ℕ → Prop
  | root : Pos nodes left 0
  | step {n s : ℕ} : Pos nodes left n → s ∈ cand nodes n → Pos nodes left (if left s then 2 * n + 1 else 2 * n + 2)

theorem pos_inv {nodes : List Node} {left : ℕ → Bool} {m : ℕ} (h : Pos nodes left m) :
    m = 0 ∨ (Pos nodes left ((m - 1) / 2) ∧ ∃ s ∈ cand nodes ((m - 1) / 2), left s = decide (m % 2 = 1)) := by
  cases h with
  | root => exact .inl rfl
  | @step n s hn hs =>
    right
    by_cases hl : left s = true
    · have h1 : (2 * n + 1 - 1) / 2 = n := by omega
      simp only [hl, if_true, h1]
      refine ⟨hn, s, hs, ?_⟩
      rw [hl]; symm; rw [decide_eq_true_eq]; omega
    · simp only [Bool.not_eq_true] at hl
      have h1 : (2 * n + 2 - 1) / 2 = n := by omega
      simp only [hl, Bool.false_eq_true, if_false, h1]
      refine ⟨hn, s, hs, ?_⟩
      rw [hl]; symm; rw [decide_eq_false_iff_not]; omega

theorem pos_child {nodes : List Node} {left : ℕ → Bool} {m s : ℕ} (hm : m ≠ 0) (h : Pos nodes left ((m - 1) / 2))
    (hs : s ∈ cand nodes ((m - 1) / 2)) (hl : left s = decide (m % 2 = 1)) : Pos nodes left m := by
  have := Pos.step h hs
  rw [hl] at this
  by_cases ho : m % 2 = 1
  · simp only [ho, decide_true, if_true] at this
    rwa [show 2 * ((m - 1) / 2) + 1 = m by omega] at this
  · simp only [ho, decide_false, Bool.false_eq_true, if_false] at this
    rwa [show 2 * ((m - 1) / 2) + 2 = m by omega] at this

/-- Reaching a position on the way to a leaf, level by level. -/
theorem pos_anc {d l : ℕ} {nodes : List Node} {left : ℕ → Bool} (hl : l < 2 ^ d) :
    ∀ k ≤ d, Pos nodes left (anc d l k) ↔ CanReach d nodes left l k := by
  intro k
  induction k with
  | zero =>
    intro _
    rw [anc_zero hl]
    refine ⟨fun _ i hi => absurd hi (by omega), fun _ => .root⟩
  | succ k ih =>
    intro hk
    have hne : anc d l (k + 1) ≠ 0 := by rw [anc_succ (by omega : k < d)]; split_ifs <;> omega
    have hpar := anc_parent (l := l) (by omega : k < d)
    have hodd := anc_parity (l := l) (by omega : k < d)
    constructor
    · intro h
      rcases pos_inv h with h0 | ⟨h1, s, hs, he⟩
      · exact absurd h0 hne
      · rw [hpar] at h1 hs
        rw [hodd] at he
        intro i hi
        rcases Nat.lt_or_ge i k with hik | hik
        · exact (ih (by omega)).1 h1 i hik
        · obtain rfl : i = k := by omega
          exact ⟨s, hs, he⟩
    · intro h
      obtain ⟨s, hs, he⟩ := h k (by omega)
      refine pos_child hne ?_ (s := s) ?_ ?_
      · rw [hpar]; exact (ih (by omega)).2 (fun i hi => h i (by omega))
      · rw [hpar]; exact hs
      · rw [hodd]; exact he

/-- The children folded over the candidate splits of a node. -/
theorem fold_children (left : List ℕ) (cs : List ℕ) (lc rc : ℕ) (isLeaf : Bool) (st : List ℕ × List ℕ) :
    let st' := cs.foldl (fun st s =>
      let child := if s ∈ left then lc else rc
      if isLeaf then (st.1, setAdd st.2 child) else (setAdd st.1 child, st.2)) st
    (∀ m, m ∈ st'.1 ↔ m ∈ st.1 ∨ (isLeaf = false ∧ ∃ s ∈ cs, m = if s ∈ left then lc else rc)) ∧
    (∀ m, m ∈ st'.2 ↔ m ∈ st.2 ∨ (isLeaf = true ∧ ∃ s ∈ cs, m = if s ∈ left then lc else rc)) ∧
    (st.1.Nodup → st'.1.Nodup) ∧ (st.2.Nodup → st'.2.Nodup) := by
  induction cs generalizing st with
  | nil => simp
  | cons s cs ih =>
    intro st'
    have := ih (if isLeaf then (st.1, setAdd st.2 (if s ∈ left then lc else rc))
      else (setAdd st.1 (if s ∈ left then lc else rc), st.2))
    obtain ⟨h1, h2, h3, h4⟩ := this
    have hst : st' = cs.foldl (fun st s =>
      let child := if s ∈ left then lc else rc
      if isLeaf then (st.1, setAdd st.2 child) else (setAdd st.1 child, st.2))
        (if isLeaf then (st.1, setAdd st.2 (if s ∈ left then lc else rc))
          else (setAdd st.1 (if s ∈ left then lc else rc), st.2)) := rfl
    rw [← hst] at h1 h2 h3 h4
    refine ⟨?_, ?_, ?_, ?_⟩
    · intro m
      rw [h1]
      cases isLeaf
      · simp [mem_setAdd, or_assoc]
      · simp
    · intro m
      rw [h2]
      cases isLeaf
      · simp
      · simp [mem_setAdd, or_assoc]
    · intro h
      apply h3
      cases isLeaf
      · exact nodup_setAdd h
      · exact h
    · intro h
      apply h4
      cases isLeaf
      · exact h
      · exact nodup_setAdd h

/-- A node after `preprocess_nodes`. -/
def prepNode (depth : ℕ) (node : Node) : Node :=
  { node with
    parent := if node.id = 0 then -1 else (((node.id - 1) / 2 : ℕ) : ℤ)
    leftChild := if 2 * node.id + 1 ≥ 2 ^ depth - 1 then 2 * node.id + 1 - (2 ^ depth - 1) else 2 * node.id + 1
    rightChild := if 2 * node.id + 1 ≥ 2 ^ depth - 1 then 2 * node.id + 2 - (2 ^ depth - 1) else 2 * node.id + 2
    childrenAreLeaves := if 2 * node.id + 1 ≥ 2 ^ depth - 1 then true else node.childrenAreLeaves }

theorem preprocessNodes_eq (nodes : List Node) (depth : ℕ) : preprocessNodes nodes depth = nodes.map (prepNode depth) := by
  unfold preprocessNodes
  apply List.map_congr_left
  intro n _
  simp only [prepNode]
  split_ifs <;> rfl

/-- State of `reach` after the first `i` nodes. -/
theorem reach_prefix {d : ℕ} (hd : 0 < d) {nodes : List Node} (hlen : nodes.length = 2 ^ d - 1)
    (hid : ∀ i (n : Node), nodes[i]? = some n → n.id = i)
    (hleaf : ∀ n ∈ nodes, n.childrenAreLeaves = true → 2 * n.id + 1 ≥ 2 ^ d - 1) (left : List ℕ) :
    ∀ i ≤ nodes.length,
      let st := ((nodes.map (prepNode d)).take i).foldl (reachStep left) ([], [])
      (∀ m, m ∈ st.1 ↔ m < 2 ^ d - 1 ∧ Pos nodes (fun s => decide (s ∈ left)) m ∧ (m = 0 → 0 < i) ∧ (m ≠ 0 → (m - 1) / 2 < i)) ∧
      (∀ l, l ∈ st.2 ↔ l < 2 ^ d ∧ Pos nodes (fun s => decide (s ∈ left)) (2 ^ d - 1 + l) ∧ (2 ^ d - 1 + l - 1) / 2 < i) ∧
      st.1.Nodup ∧ st.2.Nodup := by
  intro i
  induction i with
  | zero =>
    intro _
    simp only [List.take_zero, List.foldl_nil]
    refine ⟨?_, ?_, List.nodup_nil, List.nodup_nil⟩
    · intro m; simp only [List.not_mem_nil, false_iff]
      rintro ⟨_, _, h1, h2⟩
      by_cases hm : m = 0
      · have := h1 hm; omega
      · have := h2 hm; omega
    · intro l; simp
  | succ i ih =>
    intro hi
    obtain ⟨ih1, ih2, ih3, ih4⟩ := ih (by omega)
    have hget : nodes[i]? = some nodes[i] := List.getElem?_eq_getElem (by omega)
    have hnid := hid i _ hget
    have hcand : cand nodes i = nodes[i].candidateSplits := by simp [cand, hget]
    have hmem : nodes[i] ∈ nodes := List.getElem_mem _
    have hlf := hleaf _ hmem
    have hpow := Nat.one_le_two_pow (n := d)
    have hpow2 : 2 ≤ 2 ^ d := by
      calc 2 = 2 ^ 1 := rfl
        _ ≤ 2 ^ d := Nat.pow_le_pow_right (by norm_num) hd
    have htake : (nodes.map (prepNode d)).take (i + 1) = (nodes.map (prepNode d)).take i ++ [prepNode d nodes[i]] := by
      rw [List.take_add_one, List.getElem?_map, hget]
      rfl
    intro st
    have hst : st = reachStep left (((nodes.map (prepNode d)).take i).foldl (reachStep left) ([], [])) (prepNode d nodes[i]) := by
      simp only [st]
      rw [htake, List.foldl_append]
      rfl
    generalize ((nodes.map (prepNode d)).take i).foldl (reachStep left) ([], []) = st0 at ih1 ih2 ih3 ih4 hst
    -- the condition of the step
    have hcond : ((prepNode d nodes[i]).parent = -1 ∨ (prepNode d nodes[i]).id ∈ st0.1) ↔
        Pos nodes (fun s => decide (s ∈ left)) i := by
      have e1 : (prepNode d nodes[i]).id = i := hnid
      have e2 : (prepNode d nodes[i]).parent = if i = 0 then -1 else (((i - 1) / 2 : ℕ) : ℤ) := by
        simp only [prepNode, hnid]
      rw [e1, e2, ih1]
      by_cases h0 : i = 0
      · subst h0; simp [Pos.root]
      · rw [if_neg h0]
        constructor
        · rintro (h | h)
          · omega
          · exact h.2.1
        · intro h
          exact .inr ⟨by omega, h, fun h' => absurd h' h0, fun _ => by omega⟩
    by_cases hp : Pos nodes (fun s => decide (s ∈ left)) i
    · have hst' : st = nodes[i].candidateSplits.foldl (fun st s =>
          let child := if s ∈ left then (prepNode d nodes[i]).leftChild else (prepNode d nodes[i]).rightChild
          if (prepNode d nodes[i]).childrenAreLeaves then (st.1, setAdd st.2 child) else (setAdd st.1 child, st.2))
          (setAdd st0.1 i, st0.2) := by
        rw [hst, reachStep, if_pos (hcond.2 hp)]
        have e1 : (prepNode d nodes[i]).id = i := hnid
        rw [e1]
        rfl
      obtain ⟨h1, h2, h3, h4⟩ := fold_children left nodes[i].candidateSplits (prepNode d nodes[i]).leftChild
        (prepNode d nodes[i]).rightChild (prepNode d nodes[i]).childrenAreLeaves (setAdd st0.1 i, st0.2)
      rw [← hst'] at h1 h2 h3 h4
      have hchild : ∀ m, m ≠ 0 → (m - 1) / 2 = i → (Pos nodes (fun s => decide (s ∈ left)) m ↔
          ∃ s ∈ nodes[i].candidateSplits, m = if s ∈ left then 2 * i + 1 else 2 * i + 2) := by
        intro m hm0 hmi
        constructor
        · intro h
          rcases pos_inv h with h0 | ⟨_, s, hs, he⟩
          · exact absurd h0 hm0
          · rw [hmi, hcand] at hs
            refine ⟨s, hs, ?_⟩
            by_cases hsl : s ∈ left
            · simp only [hsl, decide_true] at he
              have := of_decide_eq_true he.symm
              rw [if_pos hsl]; omega
            · simp only [hsl, decide_false] at he
              have := of_decide_eq_false he.symm
              rw [if_neg hsl]; omega
        · rintro ⟨s, hs, he⟩
          rw [← hcand] at hs
          have := Pos.step hp hs
          by_cases hsl : s ∈ left
          · rw [if_pos hsl] at he
            simp only [hsl, decide_true, if_true] at this
            rwa [he]
          · rw [if_neg hsl] at he
            simp only [hsl, decide_false, Bool.false_eq_true, if_false] at this
            rwa [he]
      by_cases hge : 2 * i + 1 ≥ 2 ^ d - 1
      · have hL : (prepNode d nodes[i]).childrenAreLeaves = true := by simp only [prepNode, hnid, if_pos hge]
        have hlc : (prepNode d nodes[i]).leftChild = 2 * i + 1 - (2 ^ d - 1) := by simp only [prepNode, hnid, if_pos hge]
        have hrc : (prepNode d nodes[i]).rightChild = 2 * i + 2 - (2 ^ d - 1) := by simp only [prepNode, hnid, if_pos hge]
        rw [hL, hlc, hrc] at h1 h2
        refine ⟨?_, ?_, h3 (nodup_setAdd ih3), h4 ih4⟩
        · intro m
          rw [h1, mem_setAdd, ih1]
          simp only [Bool.true_eq_false, false_and, or_false]
          constructor
          · rintro (⟨a, b, c, e⟩ | rfl)
            · exact ⟨a, b, fun _ => by omega, fun h => by have := e h; omega⟩
            · exact ⟨by omega, hp, fun _ => by omega, fun _ => by omega⟩
          · rintro ⟨a, b, c, e⟩
            by_cases hmi : m = i
            · exact .inr hmi
            · left
              refine ⟨a, b, fun h => ?_, fun h => ?_⟩
              · omega
              · have := e h
                by_contra hcon
                have : (m - 1) / 2 = i := by omega
                omega
        · intro l
          rw [h2, ih2]
          simp only [true_and]
          constructor
          · rintro (⟨a, b, c⟩ | ⟨s, hs, he⟩)
            · exact ⟨a, b, by omega⟩
            · have hl : 2 ^ d - 1 + l = if s ∈ left then 2 * i + 1 else 2 * i + 2 := by
                by_cases hsl : s ∈ left
                · rw [if_pos hsl] at he ⊢; omega
                · rw [if_neg hsl] at he ⊢; omega
              have hmi : (2 ^ d - 1 + l - 1) / 2 = i := by rw [hl]; split_ifs <;> omega
              refine ⟨?_, (hchild _ (by omega) hmi).2 ⟨s, hs, hl⟩, by omega⟩
              rw [← hlen] at hge hl
              split_ifs at hl <;> omega
          · rintro ⟨a, b, c⟩
            by_cases hmi : (2 ^ d - 1 + l - 1) / 2 = i
            · right
              obtain ⟨s, hs, he⟩ := (hchild _ (by omega) hmi).1 b
              refine ⟨s, hs, ?_⟩
              split_ifs at he ⊢ <;> omega
            · left
              exact ⟨a, b, by omega⟩
      · have hL : (prepNode d nodes[i]).childrenAreLeaves = false := by
          simp only [prepNode, hnid, if_neg hge]
          by_contra hcon
          simp only [Bool.not_eq_false] at hcon
          have := hlf hcon
          rw [hnid] at this
          exact hge this
        have hlc : (prepNode d nodes[i]).leftChild = 2 * i + 1 := by simp only [prepNode, hnid, if_neg hge]
        have hrc : (prepNode d nodes[i]).rightChild = 2 * i + 2 := by simp only [prepNode, hnid, if_neg hge]
        have heven : 2 * i + 2 < 2 ^ d - 1 := by
          obtain ⟨e, he⟩ : ∃ e, d = e + 1 := ⟨d - 1, by omega⟩
          have : 2 ^ d = 2 * 2 ^ e := by rw [he]; ring
          omega
        rw [hL, hlc, hrc] at h1 h2
        refine ⟨?_, ?_, h3 (nodup_setAdd ih3), h4 ih4⟩
        · intro m
          rw [h1, mem_setAdd, ih1]
          simp only [true_and]
          constructor
          · rintro ((⟨a, b, c, e⟩ | rfl) | ⟨s, hs, he⟩)
            · exact ⟨a, b, fun _ => by omega, fun h => by have := e h; omega⟩
            · exact ⟨by omega, hp, fun _ => by omega, fun _ => by omega⟩
            · have hm0 : m ≠ 0 := by rw [he]; split_ifs <;> omega
              have hmi : (m - 1) / 2 = i := by rw [he]; split_ifs <;> omega
              exact ⟨by rw [he]; split_ifs <;> omega, (hchild m hm0 hmi).2 ⟨s, hs, he⟩, fun h => absurd h hm0, fun _ => by omega⟩
          · rintro ⟨a, b, c, e⟩
            by_cases hm : m = i
            · exact .inl (.inr hm)
            · by_cases hm0 : m = 0
              · left; left
                exact ⟨a, b, fun _ => by omega, fun h => absurd hm0 h⟩
              · by_cases hmi : (m - 1) / 2 = i
                · exact .inr ((hchild m hm0 hmi).1 b)
                · left; left
                  exact ⟨a, b, fun h => absurd h hm0, fun h => by have := e h; omega⟩
        · intro l
          rw [h2, ih2]
          simp only [Bool.false_eq_true, false_and, or_false]
          constructor
          · rintro ⟨a, b, c⟩; exact ⟨a, b, by omega⟩
          · rintro ⟨a, b, c⟩
            refine ⟨a, b, ?_⟩
            omega
    · have hst' : st = st0 := by rw [hst, reachStep, if_neg (fun h => hp (hcond.1 h))]
      rw [hst']
      refine ⟨?_, ?_, ih3, ih4⟩
      · intro m
        rw [ih1]
        constructor
        · rintro ⟨a, b, c, e⟩
          exact ⟨a, b, fun _ => by omega, fun h => by have := e h; omega⟩
        · rintro ⟨a, b, c, e⟩
          refine ⟨a, b, fun h => ?_, fun h => ?_⟩
          · subst h
            by_contra hcon
            have : i = 0 := by omega
            subst this
            exact hp .root
          · have := e h
            by_contra hcon
            have hmi : (m - 1) / 2 = i := by omega
            rcases pos_inv b with h0 | ⟨h1, _⟩
            · exact h h0
            · rw [hmi] at h1; exact hp h1
      · intro l
        rw [ih2]
        constructor
        · rintro ⟨a, b, c⟩; exact ⟨a, b, by omega⟩
        · rintro ⟨a, b, c⟩
          refine ⟨a, b, ?_⟩
          by_contra hcon
          have hmi : (2 ^ d - 1 + l - 1) / 2 = i := by omega
          rcases pos_inv b with h0 | ⟨h1, _⟩
          · omega
          · rw [hmi] at h1; exact hp h1

/-- Reachable nodes and leaves of the loop. -/
theorem reach_spec {d : ℕ} (hd : 0 < d) {nodes : List Node} (hlen : nodes.length = 2 ^ d - 1)
    (hid : ∀ i (n : Node), nodes[i]? = some n → n.id = i)
    (hleaf : ∀ n ∈ nodes, n.childrenAreLeaves = true → 2 * n.id + 1 ≥ 2 ^ d - 1) (left : List ℕ) :
    let st := reach (preprocessNodes nodes d) left
    (∀ n, n ∈ st.1 ↔ ∃ l < 2 ^ d, ∃ k < d, n = anc d l k ∧ CanReach d nodes (fun s => decide (s ∈ left)) l k) ∧
    (∀ l, l ∈ st.2 ↔ l < 2 ^ d ∧ CanReach d nodes (fun s => decide (s ∈ left)) l d) ∧ st.1.Nodup ∧ st.2.Nodup := by
  intro st
  have hst : st = ((nodes.map (prepNode d)).take nodes.length).foldl (reachStep left) ([], []) := by
    have : (nodes.map (prepNode d)).take nodes.length = nodes.map (prepNode d) := by
      apply List.take_of_length_le; simp
    rw [this, ← preprocessNodes_eq]
    rfl
  obtain ⟨h1, h2, h3, h4⟩ := reach_prefix hd hlen hid hleaf left nodes.length le_rfl
  rw [← hst] at h1 h2 h3 h4
  have hpow2 : 2 ≤ 2 ^ d := by
    calc 2 = 2 ^ 1 := rfl
      _ ≤ 2 ^ d := Nat.pow_le_pow_right (by norm_num) hd
  refine ⟨?_, ?_, h3, h4⟩
  · intro n
    rw [h1]
    constructor
    · rintro ⟨a, b, _, _⟩
      obtain ⟨l, hl, k, hk, rfl⟩ := exists_anc_node a
      exact ⟨l, hl, k, hk, rfl, (pos_anc hl k hk.le).1 b⟩
    · rintro ⟨l, hl, k, hk, rfl, hr⟩
      have := anc_lt hl hk
      exact ⟨this, (pos_anc hl k hk.le).2 hr, fun _ => by omega, fun _ => by omega⟩
  · intro l
    rw [h2]
    constructor
    · rintro ⟨a, b, _⟩
      rw [← anc_self] at b
      exact ⟨a, (pos_anc a d le_rfl).1 b⟩
    · rintro ⟨a, b⟩
      refine ⟨a, ?_, by omega⟩
      rw [← anc_self]
      exact (pos_anc a d le_rfl).2 b

theorem mem_leftSplitsOf (splits : List Split) (row : List ℚ) (s : ℕ) :
    s ∈ leftSplitsOf splits row ↔ ∃ sp ∈ splits, sp.id = s ∧ takesLeft row sp = true := by
  have key : ∀ (l : List Split) (acc : List ℕ),
      s ∈ l.foldl (fun acc sp => if feat row sp.feature ≤ sp.threshold then setAdd acc sp.id else acc) acc ↔
      s ∈ acc ∨ ∃ sp ∈ l, sp.id = s ∧ takesLeft row sp = true := by
    intro l
    induction l with
    | nil => simp
    | cons a l ih =>
      intro acc
      rw [List.foldl_cons, ih]
      simp only [List.mem_cons, takesLeft, decide_eq_true_eq, exists_eq_or_imp]
      by_cases h : feat row a.feature ≤ a.threshold
      · rw [if_pos h, mem_setAdd]
        constructor
        · rintro ((h1 | h1) | h1)
          · exact .inl h1
          · exact .inr (.inl ⟨h1.symm, h⟩)
          · exact .inr (.inr h1)
        · rintro (h1 | h1 | h1)
          · exact .inl (.inl h1)
          · exact .inl (.inr h1.1.symm)
          · exact .inr h1
      · rw [if_neg h]
        constructor
        · rintro (h1 | h1)
          · exact .inl h1
          · exact .inr (.inr h1)
        · rintro (h1 | h1 | h1)
          · exact .inl h1
          · exact absurd h1.2 h
          · exact .inr h1
  unfold leftSplitsOf
  rw [key]
  simp

theorem mem_leftSplits_iff {splits : List Split} (hid : ∀ i (s : Split), splits[i]? = some s → s.id = i) (row : List ℚ) {s : ℕ}
    (hs : s < splits.length) : s ∈ leftSplitsOf splits row ↔ rowLeft splits row s = true := by
  rw [mem_leftSplitsOf]
  have hsp : splitAt splits s = splits[s] := by
    unfold splitAt
    rw [List.getD_eq_getElem?_getD, List.getElem?_eq_getElem hs]
    rfl
  unfold rowLeft
  rw [hsp]
  constructor
  · rintro ⟨sp, hm, he, ht⟩
    obtain ⟨i, hi, rfl⟩ := List.mem_iff_getElem.1 hm
    have := hid i _ (List.getElem?_eq_getElem hi)
    obtain rfl : i = s := by omega
    exact ht
  · intro h
    exact ⟨splits[s], List.getElem_mem _, hid _ _ (List.getElem?_eq_getElem hs), h⟩

/-- Reaching a level means: some well-formed path with candidate splits is followed down to that level. -/
theorem canReach_congr {d l k : ℕ} {nodes : List Node} {a b : ℕ → Bool} (h : ∀ n, ∀ s ∈ cand nodes n, a s = b s) :
    CanReach d nodes a l k ↔ CanReach d nodes b l k := by
  unfold CanReach
  constructor
  · intro hr i hi
    obtain ⟨s, hs, he⟩ := hr i hi
    exact ⟨s, hs, by rw [← h _ s hs]; exact he⟩
  · intro hr i hi
    obtain ⟨s, hs, he⟩ := hr i hi
    exact ⟨s, hs, by rw [h _ s hs]; exact he⟩

theorem cand_lt_of_tree {d : ℕ} {leaves : List Leaf} {nodes : List Node} {splits : List Split} (ht : Tree d leaves nodes splits) :
    ∀ n, ∀ s ∈ cand nodes n, s < splits.length := by
  intro n s hs
  unfold cand at hs
  cases hn : nodes[n]? with
  | none => rw [hn] at hs; simp at hs
  | some nd => rw [hn] at hs; exact ht.cand_lt nd (List.mem_of_getElem? hn) s hs

/-- The leaf is reachable iff some choice of candidate splits along its root path is satisfied by the row. -/
theorem canReach_iff_path {d l : ℕ} {nodes : List Node} {splits : List Split} (hl : l < 2 ^ d) (row : List ℚ) :
    CanReach d nodes (rowLeft splits row) l d ↔
      ∃ p : Path, WFPath d p ∧ p.leafId = l ∧ UsesCand nodes p ∧
        rowSatisfiesPath row (leafAt (fullLeaves d) p.leafId) splits p = true := by
  constructor
  · intro h
    have hch : ∀ k, ∃ s, k < d → s ∈ cand nodes (anc d l k) ∧ rowLeft splits row s = goesLeft d l k := by
      intro k
      by_cases hk : k < d
      · obtain ⟨s, hs, he⟩ := h k hk
        exact ⟨s, fun _ => ⟨hs, he⟩⟩
      · exact ⟨0, fun h => absurd h hk⟩
    choose σ hσ using hch
    refine ⟨⟨l, (List.range d).map (anc d l), (List.range d).map σ, 0, 0, 0, false⟩, ⟨hl, List.Perm.refl _, by simp⟩, rfl, ?_, ?_⟩
    · intro q hq
      unfold Path.pairs at hq
      simp only [List.zip_map', List.mem_map, List.mem_range] at hq
      obtain ⟨k, hk, rfl⟩ := hq
      exact (hσ k hk).1
    · rw [rowSatisfiesPath_iff ⟨hl, List.Perm.refl _, by simp⟩]
      intro k hk s hs
      unfold Path.pairs at hs
      simp only [List.zip_map', List.mem_map, List.mem_range, Prod.mk.injEq] at hs
      obtain ⟨k', hk', he, rfl⟩ := hs
      obtain rfl := anc_inj hl hk'.le hk.le he
      exact (hσ k' hk').2
  · rintro ⟨p, hw, rfl, hc, hr⟩ i hi
    rw [rowSatisfiesPath_iff hw] at hr
    obtain ⟨s, hs⟩ := hw.exists_split hi
    exact ⟨s, hc _ hs, hr i hi s hs⟩

/-- What the row loop records about one row. -/
theorem makeRow_spec {d : ℕ} (hd : 0 < d) {leaves : List Leaf} {nodes : List Node} {splits : List Split} (ht : Tree d leaves nodes splits)
    (hleaf : ∀ n ∈ nodes, n.childrenAreLeaves = true → 2 * n.id + 1 ≥ 2 ^ d - 1) (paths : List Path) (row : List ℚ) :
    let r := makeRow leaves (preprocessNodes nodes d) splits paths row
    (∀ n, n ∈ r.reachableNodes ↔ ∃ l < 2 ^ d, ∃ k < d, n = anc d l k ∧ CanReach d nodes (rowLeft splits row) l k) ∧
    (∀ l, l ∈ r.reachableLeaves ↔ l < 2 ^ d ∧ CanReach d nodes (rowLeft splits row) l d) ∧
    r.reachableNodes.Nodup ∧ r.reachableLeaves.Nodup := by
  intro r
  obtain ⟨h1, h2, h3, h4⟩ := reach_spec hd ht.nodes_length ht.node_id hleaf (leftSplitsOf splits row)
  have hc : ∀ n, ∀ s ∈ cand nodes n, decide (s ∈ leftSplitsOf splits row) = rowLeft splits row s := by
    intro n s hs
    rw [Bool.eq_iff_iff, decide_eq_true_eq]
    exact mem_leftSplits_iff ht.split_id row (cand_lt_of_tree ht n s hs)
  refine ⟨?_, ?_, h3, h4⟩
  · intro n
    refine (h1 n).trans ?_
    constructor
    · rintro ⟨l, hl, k, hk, e, hr⟩
      exact ⟨l, hl, k, hk, e, (canReach_congr hc).1 hr⟩
    · rintro ⟨l, hl, k, hk, e, hr⟩
      exact ⟨l, hl, k, hk, e, (canReach_congr hc).2 hr⟩
  · intro l
    refine (h2 l).trans ?_
    rw [canReach_congr hc]

theorem log_full {d : ℕ} : Nat.log 2 (fullLeaves d).length = d := by
  simp [fullLeaves, Nat.log_pow]

/-- Removing rows in the quadratic loop changes only `removed_from_master`. -/
theorem aggressiveInner_fields (nodes : List Node) (r1 : ℕ) (l : List ℕ) (rows : List Row) (i : ℕ) :
    ((aggressiveInner nodes r1 l rows)[i]?).map (fun r => { r with removedFromMaster := false }) =
      (rows[i]?).map (fun r => { r with removedFromMaster := false }) := by
  induction l generalizing rows with
  | nil => rfl
  | cons a l ih =>
    rw [aggressiveInner]
    split_ifs
    · exact ih _
    · rw [ih, List.getElem?_modify]
      split_ifs
      · cases rows[i]? <;> rfl
      · cases rows[i]? <;> rfl
    · exact ih _

theorem aggressiveLoop_fields (nodes : List Node) (n : ℕ) (l : List ℕ) (rows : List Row) (i : ℕ) :
    ((aggressiveLoop nodes n l rows)[i]?).map (fun r => { r with removedFromMaster := false }) =
      (rows[i]?).map (fun r => { r with removedFromMaster := false }) := by
  induction l generalizing rows with
  | nil => rfl
  | cons a l ih =>
    rw [aggressiveLoop]
    split_ifs
    · exact ih _
    · rw [ih, aggressiveInner_fields]

theorem preprocessRows_fields {d : ℕ} {leaves : List Leaf} {nodes : List Node} {splits : List Split} {paths : List Path}
    (hl : leaves = fullLeaves d) (X : List (List ℚ)) (aggressive : Bool) (i : ℕ) :
    ((preprocessRows leaves nodes splits paths X aggressive)[i]?).map (fun r => { r with removedFromMaster := false }) =
      (X[i]?).map (fun row => { makeRow leaves (preprocessNodes nodes d) splits paths row with removedFromMaster := false }) := by
  unfold preprocessRows
  simp only [hl, log_full]
  cases aggressive
  · simp only [Bool.false_eq_true, if_false]
    rw [List.getElem?_map, Option.map_map]
    rfl
  · simp only [if_true]
    rw [aggressiveLoop_fields, List.getElem?_map, Option.map_map]
    rfl

/-- **C44.** For every row the preprocessing records as reachable leaves exactly the leaves for which some well-formed path with candidate
splits is satisfied by the row, and as reachable nodes exactly the nodes `n` such that candidate splits of the nodes strictly above `n`
lead the row to `n`; nothing is recorded twice. The nodes must not claim beforehand to have leaf children unless they do. -/
theorem C44_reachable_exact {d : ℕ} (hd : 0 < d) {leaves : List Leaf} {nodes : List Node} {splits : List Split}
    (ht : Tree d leaves nodes splits) (hleaf : ∀ n ∈ nodes, n.childrenAreLeaves = true → 2 * n.id + 1 ≥ 2 ^ d - 1)
    (paths : List Path) (X : List (List ℚ)) (aggressive : Bool) (i : ℕ) (r : Row) (row : List ℚ) (hX : X[i]? = some row)
    (hr : (preprocessRows leaves nodes splits paths X aggressive)[i]? = some r) :
    (∀ l, l ∈ r.reachableLeaves ↔ l < 2 ^ d ∧ ∃ p : Path, WFPath d p ∧ p.leafId = l ∧ UsesCand nodes p ∧
      rowSatisfiesPath row (leafAt leaves p.leafId) splits p = true) ∧
    (∀ n, n ∈ r.reachableNodes ↔ ∃ l < 2 ^ d, ∃ k < d, n = anc d l k ∧ CanReach d nodes (rowLeft splits row) l k) ∧
    r.reachableLeaves.Nodup ∧ r.reachableNodes.Nodup := by
  have hf := preprocessRows_fields (nodes := nodes) (splits := splits) (paths := paths) ht.leaves X aggressive i
  rw [hr, hX] at hf
  simp only [Option.map_some, Option.some.injEq] at hf
  have e1 : r.reachableLeaves = (makeRow leaves (preprocessNodes nodes d) splits paths row).reachableLeaves := by
    have := congrArg Row.reachableLeaves hf; exact this
  have e2 : r.reachableNodes = (makeRow leaves (preprocessNodes nodes d) splits paths row).reachableNodes := by
    have := congrArg Row.reachableNodes hf; exact this
  obtain ⟨h1, h2, h3, h4⟩ := makeRow_spec hd ht hleaf paths row
  rw [e1, e2]
  refine ⟨?_, h1, h4, h3⟩
  intro l
  rw [h2]
  constructor
  · rintro ⟨hl, h⟩
    refine ⟨hl, ?_⟩
    rw [ht.leaves]
    exact (canReach_iff_path hl row).1 h
  · rintro ⟨hl, h⟩
    refine ⟨hl, ?_⟩
    rw [ht.leaves] at h
    exact (canReach_iff_path hl row).2 h

/-- A tree of depth 2 over one feature: thresholds 1, 2, 3; the root may use splits 0 or 1, the other nodes one split each. -/
def demoSplits : List Split := [⟨0, 0, 1, false, [], [], [], []⟩, ⟨1, 0, 2, false, [], [], [], []⟩, ⟨2, 0, 3, false, [], [], [], []⟩]

def demoNodes : List Node := [⟨0, [0, 1], [1, 1], 0, -1, 1, 2, false⟩, ⟨1, [2], [1], 2, 0, 3, 4, true⟩, ⟨2, [2, 0], [1, 1], 2, 0, 5, 6, true⟩]

theorem demo_tree : Tree 2 (fullLeaves 2) demoNodes demoSplits where
  leaves := rfl
  nodes_length := rfl
  node_id := by
    intro i n h
    match i, h with
    | 0, h => cases h; rfl
    | 1, h => cases h; rfl
    | 2, h => cases h; rfl
    | k + 3, h => exact absurd h (by simp [demoNodes])
  split_id := by
    intro i n h
    match i, h with
    | 0, h => cases h; rfl
    | 1, h => cases h; rfl
    | 2, h => cases h; rfl
    | k + 3, h => exact absurd h (by simp [demoSplits])
  cand_lt := by decide +kernel
  cand_nodup := by decide +kernel

/-- The hypotheses of `C44_reachable_exact` on the demo tree with three rows; the middle row can reach the leaves 0, 2 and 3 and all
nodes. -/
example : Tree 2 (fullLeaves 2) demoNodes demoSplits ∧
    (∀ n ∈ demoNodes, n.childrenAreLeaves = true → 2 * n.id + 1 ≥ 2 ^ 2 - 1) ∧
    ((preprocessRows (fullLeaves 2) demoNodes demoSplits [] [[1], [2], [5]] false).map (fun r => (r.reachableLeaves, r.reachableNodes))) =
      [([0], [0, 1]), ([0, 2, 3], [0, 2, 1]), ([3], [0, 2])] :=
  ⟨demo_tree, by decide +kernel, by decide +kernel⟩

end Verif.DTree
