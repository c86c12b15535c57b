import Mathlib.Tactic.Ring
import Mathlib.Tactic.Push
import Verif.Exp.SplitProps

/-!
# C60: CART node ids and heap numbering
-/

set_option linter.unusedSectionVars false
set_option linter.unusedSimpArgs false

namespace Verif.Exp

open Verif.DTree

/-! ## Binary trees in arrays -/

/-- `j` is the left (`b = true`) or right child of the inner node `i`. -/
def Cart.IsChild (c : Cart) (i : ℕ) (b : Bool) (j : ℕ) : Prop :=
  i < c.size ∧ c.isLeaf i = false ∧ (if b then c.left.getD i (-1) else c.right.getD i (-1)) = (j : ℤ)

/-- Node `i` is reached from the root by the steps `w` (`true` is left). -/
def Cart.At (c : Cart) (i : ℕ) : List Bool → Prop
  | [] => i = 0
  | b :: w => ∃ j, c.At j w ∧ c.IsChild j b i

/-- The arrays describe a binary tree of depth at most `d` whose nodes are numbered so that children come after their parents. The steps of
`At` are listed from the last to the first. -/
structure CartOk (d : ℕ) (c : Cart) : Prop where
  nonempty : 0 < c.size
  child : ∀ i < c.size, c.isLeaf i = false → ∀ b, ∃ j, c.IsChild i b j ∧ i < j ∧ j < c.size
  parent : ∀ j < c.size, 0 < j → ∃ i b, c.IsChild i b j ∧ i < j
  unique : ∀ i i' b b' j, c.IsChild i b j → c.IsChild i' b' j → i = i' ∧ b = b'
  depth : ∀ i w, c.At i w → c.isLeaf i = false → w.length < d

/-- The heap number of a position: 0 for the root, `2m+1` and `2m+2` for the children of `m`. -/
def heapId : List Bool → ℕ
  | [] => 0
  | b :: w => if b then 2 * heapId w + 1 else 2 * heapId w + 2

theorem heapId_bounds (w : List Bool) : 2 ^ w.length - 1 ≤ heapId w ∧ heapId w < 2 ^ (w.length + 1) - 1 := by
  induction w with
  | nil => simp [heapId]
  | cons b w ih =>
    have h1 : 2 ^ (w.length + 1) = 2 * 2 ^ w.length := by ring
    have h2 : 2 ^ (w.length + 2) = 4 * 2 ^ w.length := by ring
    have h3 := Nat.one_le_two_pow (n := w.length)
    simp only [heapId, List.length_cons]
    split_ifs <;> omega

theorem heapId_lt {w : List Bool} {d : ℕ} (h : w.length < d) : heapId w < 2 ^ d - 1 := by
  have h1 := (heapId_bounds w).2
  have h2 : 2 ^ (w.length + 1) ≤ 2 ^ d := Nat.pow_le_pow_right (by norm_num) h
  omega

theorem heapId_inj {w w' : List Bool} (h : heapId w = heapId w') : w = w' := by
  induction w generalizing w' with
  | nil =>
    cases w' with
    | nil => rfl
    | cons b w' => simp only [heapId] at h; split_ifs at h
  | cons a w ih =>
    cases w' with
    | nil => simp only [heapId] at h; split_ifs at h
    | cons b w' =>
      simp only [heapId] at h
      cases a <;> cases b <;> simp at h
      · rw [ih h]
      · omega
      · omega
      · rw [ih h]

section
variable {c : Cart} {d : ℕ}

theorem At.fun_right {i j : ℕ} {w : List Bool} (h : c.At i w) (h' : c.At j w) : i = j := by
  induction w generalizing i j with
  | nil => rw [h, h']
  | cons b w ih =>
    obtain ⟨a, ha, h1⟩ := h
    obtain ⟨a', ha', h2⟩ := h'
    obtain rfl := ih ha ha'
    have := h1.2.2.symm.trans h2.2.2
    exact_mod_cast this

theorem CartOk.child_pos (h : CartOk d c) {i j : ℕ} {b : Bool} (hc : c.IsChild i b j) : i < j ∧ j < c.size := by
  obtain ⟨j', hj', h1, h2⟩ := h.child i hc.1 hc.2.1 b
  have : j = j' := by
    have := hc.2.2.symm.trans hj'.2.2
    exact_mod_cast this
  subst this
  exact ⟨h1, h2⟩

theorem CartOk.at_fun (h : CartOk d c) : ∀ i w w', c.At i w → c.At i w' → w = w' := by
  intro i w
  induction w generalizing i with
  | nil =>
    intro w' h1 h2
    cases w' with
    | nil => rfl
    | cons b w' =>
      obtain ⟨j, _, hc⟩ := h2
      have := h.child_pos hc
      rw [h1] at this
      omega
  | cons b w ih =>
    intro w' h1 h2
    cases w' with
    | nil =>
      obtain ⟨j, _, hc⟩ := h1
      have := h.child_pos hc
      rw [h2] at this
      omega
    | cons b' w' =>
      obtain ⟨j, hj, hc⟩ := h1
      obtain ⟨j', hj', hc'⟩ := h2
      obtain ⟨rfl, rfl⟩ := h.unique _ _ _ _ _ hc hc'
      rw [ih j w' hj hj']

theorem CartOk.at_exists (h : CartOk d c) : ∀ i < c.size, ∃ w, c.At i w := by
  intro i
  induction i using Nat.strong_induction_on with
  | _ i ih =>
    intro hi
    by_cases h0 : i = 0
    · exact ⟨[], h0⟩
    · obtain ⟨j, b, hc, hj⟩ := h.parent i hi (by omega)
      obtain ⟨w, hw⟩ := ih j hj hc.1
      exact ⟨b :: w, j, hw, hc⟩

theorem dictGet_set {κ α : Type} [DecidableEq κ] (l : List (κ × α)) (k : κ) (v : α) (k' : κ) :
    dictGet (dictSet l k v) k' = if k = k' then some v else dictGet l k' := by
  unfold dictSet
  by_cases hk : (l.any fun e => decide (e.1 = k)) = true
  · rw [if_pos hk]
    simp only [List.any_eq_true, decide_eq_true_eq] at hk
    obtain ⟨e, he, hek⟩ := hk
    induction l with
    | nil => simp at he
    | cons a l ih =>
      rw [List.map_cons, dictGet, dictGet]
      by_cases hak : a.1 = k
      · simp only [hak, if_true]
        by_cases h' : k = k'
        · simp [h']
        · simp only [if_neg h']
          have : ∀ l : List (κ × α), dictGet (l.map fun e => if e.1 = k then (k, v) else e) k' = dictGet l k' := by
            intro l
            induction l with
            | nil => rfl
            | cons b l ih' =>
              rw [List.map_cons, dictGet, dictGet, ih']
              by_cases hb : b.1 = k
              · simp [hb, h']
              · simp [hb]
          exact this l
      · simp only [if_neg hak]
        by_cases h' : a.1 = k'
        · have : ¬ k = k' := fun h => hak (h'.trans h.symm)
          simp [h', this]
        · simp only [if_neg h']
          rcases List.mem_cons.1 he with rfl | he
          · exact absurd hek hak
          · exact ih he
  · rw [if_neg hk]
    simp only [List.any_eq_true, decide_eq_true_eq, not_exists, not_and] at hk
    induction l with
    | nil =>
      simp [dictGet]
    | cons a l ih =>
      rw [List.cons_append, dictGet, dictGet, ih (fun x hx => hk x (List.mem_cons_of_mem _ hx))]
      have := hk a List.mem_cons_self
      by_cases h' : a.1 = k'
      · have h2 : ¬ k = k' := fun h => this (h'.trans h.symm)
        simp [h', h2]
      · simp [h']

theorem dictSet_keys {κ α : Type} [DecidableEq κ] (l : List (κ × α)) (k : κ) (v : α) :
    (dictSet l k v).map Prod.fst = if k ∈ l.map Prod.fst then l.map Prod.fst else l.map Prod.fst ++ [k] := by
  unfold dictSet
  have hiff : (l.any fun e => decide (e.1 = k)) = true ↔ k ∈ l.map Prod.fst := by
    simp only [List.any_eq_true, decide_eq_true_eq, List.mem_map]
  by_cases hk : k ∈ l.map Prod.fst
  · rw [if_pos (hiff.2 hk), if_pos hk, List.map_map]
    apply List.map_congr_left
    intro e _
    simp only [Function.comp]
    split_ifs with h
    · exact h.symm
    · rfl
  · rw [if_neg (fun h => hk (hiff.1 h)), if_neg hk]
    simp

/-- State of the loop before node `i`. -/
structure NodesInv (c : Cart) (all : Splits) (i : ℕ) (st : List (ℕ × Node) × List (ℤ × ℕ)) : Prop where
  map : ∀ (j : ℕ) m, dictGet st.2 (j : ℤ) = some m → ∃ w, c.At j w ∧ m = heapId w
  has : ∀ (j : ℕ) w, c.At j w → (w = [] ∨ ∃ i' < i, ∃ b, c.IsChild i' b j) → dictGet st.2 (j : ℤ) = some (heapId w)
  nodes : ∀ m n, dictGet st.1 m = some n ↔ ∃ i' < i, i' < c.size ∧ c.isLeaf i' = false ∧ ∃ w, c.At i' w ∧ m = heapId w ∧
    n = cartNode all m (c.key i')
  nodup : (st.1.map Prod.fst).Nodup

theorem nodesInv (h : CartOk d c) (all : Splits) : ∀ i ≤ c.size,
    ∃ st, (List.range i).foldlM (nodesStep c all) ([], [((0 : ℤ), 0)]) = Except.ok st ∧ NodesInv c all i st := by
  intro i
  induction i with
  | zero =>
    intro _
    refine ⟨_, rfl, ?_, ?_, ?_, by simp⟩
    · intro j m hj
      rw [dictGet] at hj
      by_cases h0 : j = 0
      · subst h0
        simp at hj
        exact ⟨[], rfl, hj.symm⟩
      · have : ¬ ((0 : ℤ) = j) := by omega
        simp [this, dictGet] at hj
    · rintro j w hw (rfl | ⟨i', hi', _⟩)
      · rw [show j = 0 from hw]
        simp [dictGet, heapId]
      · omega
    · intro m n
      simp [dictGet]
  | succ i ih =>
    intro hi
    obtain ⟨st, hst, hinv⟩ := ih (by omega)
    rw [List.range_succ, List.foldlM_append, hst]
    change ∃ st', ([i] : List ℕ).foldlM (nodesStep c all) st = Except.ok st' ∧ _
    rw [List.foldlM_cons, nodesStep]
    cases hl : c.isLeaf i with
    | true =>
      refine ⟨st, rfl, hinv.map, ?_, ?_, hinv.nodup⟩
      · rintro j w hw (h1 | ⟨i', hi', b, hb⟩)
        · exact hinv.has j w hw (.inl h1)
        · refine hinv.has j w hw (.inr ⟨i', ?_, b, hb⟩)
          have : i' ≠ i := by rintro rfl; rw [hb.2.1] at hl; exact absurd hl (by simp)
          omega
      · intro m n
        rw [hinv.nodes]
        constructor
        · rintro ⟨i', h1, h2⟩; exact ⟨i', by omega, h2⟩
        · rintro ⟨i', h1, h2, h3, h4⟩
          have : i' ≠ i := by rintro rfl; rw [h3] at hl; exact absurd hl (by simp)
          exact ⟨i', by omega, h2, h3, h4⟩
    | false =>
      obtain ⟨w, hw⟩ := h.at_exists i (by omega)
      have hget : dictGet st.2 (i : ℤ) = some (heapId w) := by
        refine hinv.has i w hw ?_
        cases w with
        | nil => exact .inl rfl
        | cons b w =>
          obtain ⟨j, _, hc⟩ := hw
          exact .inr ⟨j, (h.child_pos hc).1, b, hc⟩
      rw [hget]
      simp only [Bool.false_eq_true, if_false]
      obtain ⟨jl, hjl, hjl1, hjl2⟩ := h.child i (by omega) hl true
      obtain ⟨jr, hjr, hjr1, hjr2⟩ := h.child i (by omega) hl false
      have el : c.left.getD i (-1) = (jl : ℤ) := by have := hjl.2.2; simpa using this
      have er : c.right.getD i (-1) = (jr : ℤ) := by have := hjr.2.2; simpa using this
      rw [el, er]
      have hne : jl ≠ jr := by
        intro e
        subst e
        have := (h.unique _ _ _ _ _ hjl hjr).2
        exact absurd this (by simp)
      have hatl : c.At jl (true :: w) := ⟨i, hw, hjl⟩
      have hatr : c.At jr (false :: w) := ⟨i, hw, hjr⟩
      refine ⟨_, rfl, ?_, ?_, ?_, ?_⟩
      · intro j m hj
        simp only [dictGet_set] at hj
        split_ifs at hj with h1 h2
        · have : j = jr := by exact_mod_cast h1.symm
          subst this
          simp only [Option.some.injEq] at hj
          exact ⟨_, hatr, by rw [← hj]; simp [heapId]⟩
        · have : j = jl := by exact_mod_cast h2.symm
          subst this
          simp only [Option.some.injEq] at hj
          exact ⟨_, hatl, by rw [← hj]; simp [heapId]⟩
        · exact hinv.map j m hj
      · intro j u hu hor
        simp only [dictGet_set]
        split_ifs with h1 h2
        · have : j = jr := by exact_mod_cast h1.symm
          subst this
          rw [h.at_fun _ _ _ hu hatr]
          simp [heapId]
        · have : j = jl := by exact_mod_cast h2.symm
          subst this
          rw [h.at_fun _ _ _ hu hatl]
          simp [heapId]
        · refine hinv.has j u hu ?_
          rcases hor with hor | ⟨i', hi', b, hb⟩
          · exact .inl hor
          · refine .inr ⟨i', ?_, b, hb⟩
            have : i' ≠ i := by
              rintro rfl
              cases b with
              | true =>
                have e := hb.2.2
                simp only [if_true] at e
                rw [el] at e
                exact h2 e
              | false =>
                have e := hb.2.2
                simp only [Bool.false_eq_true, if_false] at e
                rw [er] at e
                exact h1 e
            omega
      · intro m n
        simp only [dictGet_set]
        by_cases hm : heapId w = m
        · rw [if_pos hm]
          subst hm
          constructor
          · intro hn
            simp only [Option.some.injEq] at hn
            exact ⟨i, by omega, by omega, hl, w, hw, rfl, hn.symm⟩
          · rintro ⟨i', h1, h2, h3, w', hw', e, rfl⟩
            have := heapId_inj e
            subst this
            rw [At.fun_right hw hw']
        · rw [if_neg hm, hinv.nodes]
          constructor
          · rintro ⟨i', h1, h2⟩; exact ⟨i', by omega, h2⟩
          · rintro ⟨i', h1, h2, h3, w', hw', e, h4⟩
            have : i' ≠ i := by
              rintro rfl
              rw [h.at_fun _ _ _ hw' hw] at e
              exact hm e.symm
            exact ⟨i', by omega, h2, h3, w', hw', e, h4⟩
      · simp only
        rw [dictSet_keys]
        split_ifs with hm
        · exact hinv.nodup
        · rw [List.nodup_append]
          refine ⟨hinv.nodup, by simp, ?_⟩
          intro a ha b hb
          simp only [List.mem_singleton] at hb
          subst hb
          exact fun e => hm (e ▸ ha)

/-- The nodes returned by `get_all_nodes`. -/
theorem getAllNodes_spec (h : CartOk d c) (all : Splits) : ∃ dict, getAllNodes c all = .ok dict ∧ (dict.map Prod.fst).Nodup ∧
    ∀ m n, (m, n) ∈ dict ↔ ∃ i < c.size, c.isLeaf i = false ∧ ∃ w, c.At i w ∧ m = heapId w ∧ n = cartNode all m (c.key i) := by
  obtain ⟨st, hst, hinv⟩ := nodesInv h all c.size le_rfl
  refine ⟨st.1, ?_, hinv.nodup, ?_⟩
  · unfold getAllNodes
    rw [hst]
    rfl
  · intro m n
    have : (m, n) ∈ st.1 ↔ dictGet st.1 m = some n := ⟨mem_dictGet hinv.nodup, dictGet_mem⟩
    rw [this, hinv.nodes]
    constructor
    · rintro ⟨i, _, h⟩; exact ⟨i, h⟩
    · rintro ⟨i, hi, h⟩; exact ⟨i, hi, hi, h⟩

theorem cartNode_id (all : Splits) (m : ℕ) (k : ℕ × ℚ) : (cartNode all m k).id = m := by
  unfold cartNode
  cases dictGet all k <;> rfl

/-- **C60.** For a binary tree of depth at most `d` in arrays, `get_all_nodes` succeeds and returns exactly one node for every inner node of
the tree: for the inner node reached from the root by the steps `w` the node with the heap number of `w` as key and id. In particular the ids
are below `2^d - 1`, the root has id 0 and the inner children of the node with id `m` have the ids `2m+1` and `2m+2`. -/
theorem C60_heap_numbering (h : CartOk d c) (all : Splits) : ∃ dict, getAllNodes c all = .ok dict ∧
    (dict.map Prod.fst).Nodup ∧ dict.length = ((List.range c.size).filter fun i => !c.isLeaf i).length ∧
    (∀ m n, (m, n) ∈ dict → n.id = m ∧ m < 2 ^ d - 1 ∧ ∃ i w, c.At i w ∧ c.isLeaf i = false ∧ m = heapId w) ∧
    (∀ i w, c.At i w → i < c.size → c.isLeaf i = false → ∃ n, (heapId w, n) ∈ dict) := by
  obtain ⟨dict, h1, h2, h3⟩ := getAllNodes_spec h all
  refine ⟨dict, h1, h2, ?_, ?_, ?_⟩
  · -- the inner nodes correspond to the keys
    have hch : ∀ i, ∃ w, i < c.size → c.At i w := by
      intro i
      by_cases hi : i < c.size
      · obtain ⟨w, hw⟩ := h.at_exists i hi
        exact ⟨w, fun _ => hw⟩
      · exact ⟨[], fun h => absurd h hi⟩
    choose pos hpos using hch
    have hperm : (dict.map Prod.fst).Perm (((List.range c.size).filter fun i => !c.isLeaf i).map fun i => heapId (pos i)) := by
      rw [List.perm_ext_iff_of_nodup h2]
      · intro m
        simp only [List.mem_map, List.mem_filter, List.mem_range, Bool.not_eq_true', Prod.exists, exists_and_right, exists_eq_right]
        constructor
        · rintro ⟨n, hn⟩
          obtain ⟨i, hi, hl, w, hw, e, _⟩ := (h3 m n).1 hn
          exact ⟨i, ⟨hi, hl⟩, by rw [e, h.at_fun _ _ _ (hpos i hi) hw]⟩
        · rintro ⟨i, ⟨hi, hl⟩, e⟩
          exact ⟨_, (h3 m _).2 ⟨i, hi, hl, pos i, hpos i hi, e.symm, rfl⟩⟩
      · rw [List.nodup_map_iff_inj_on (List.Nodup.filter _ List.nodup_range)]
        intro a ha b hb e
        simp only [List.mem_filter, List.mem_range] at ha hb
        have hw := heapId_inj e
        have h1 := hpos a ha.1
        rw [hw] at h1
        exact At.fun_right h1 (hpos b hb.1)
    have := hperm.length_eq
    simpa using this
  · intro m n hmn
    obtain ⟨i, hi, hl, w, hw, e, hn⟩ := (h3 m n).1 hmn
    refine ⟨by rw [hn, cartNode_id], ?_, i, w, hw, hl, e⟩
    rw [e]
    exact heapId_lt (h.depth i w hw hl)
  · intro i w hw hi hl
    exact ⟨_, (h3 _ _).2 ⟨i, hi, hl, w, hw, rfl, rfl⟩⟩

end

/-! ## Examples -/

/-- A finite check of `CartOk`; `dep` is the depth of each node. -/
theorem CartOk.of_check {d : ℕ} {c : Cart} (dep : ℕ → ℕ) (h0 : 0 < c.size) (hd0 : dep 0 = 0)
    (hc : ∀ i < c.size, c.isLeaf i = false → ∀ b : Bool, ∃ j < c.size,
      (if b then c.left.getD i (-1) else c.right.getD i (-1)) = (j : ℤ) ∧ i < j ∧ dep j = dep i + 1)
    (hp : ∀ j < c.size, 0 < j → ∃ i < j, ∃ b : Bool, c.isLeaf i = false ∧ (if b then c.left.getD i (-1) else c.right.getD i (-1)) = (j : ℤ))
    (hu : ∀ i < c.size, ∀ i' < c.size, ∀ b : Bool, ∀ b' : Bool, (c.isLeaf i = false ∧ c.isLeaf i' = false ∧
      (if b then c.left.getD i (-1) else c.right.getD i (-1)) = (if b' then c.left.getD i' (-1) else c.right.getD i' (-1))) → i = i' ∧ b = b')
    (hd : ∀ i < c.size, c.isLeaf i = false → dep i < d) : CartOk d c := by
  have hchild : ∀ i j b, c.IsChild i b j → dep j = dep i + 1 ∧ j < c.size := by
    intro i j b h
    obtain ⟨j', h1, h2, _, h3⟩ := hc i h.1 h.2.1 b
    have e : j = j' := by exact_mod_cast h.2.2.symm.trans h2
    exact ⟨by rw [e]; exact h3, e ▸ h1⟩
  have hlen : ∀ w i, c.At i w → dep i = w.length ∧ i < c.size := by
    intro w
    induction w with
    | nil => intro i h; rw [show i = 0 from h]; exact ⟨hd0, h0⟩
    | cons b w ih =>
      rintro i ⟨j, hj, h⟩
      obtain ⟨h1, h2⟩ := hchild j i b h
      exact ⟨by rw [h1, (ih j hj).1]; rfl, h2⟩
  refine ⟨h0, ?_, ?_, ?_, ?_⟩
  · intro i hi hl b
    obtain ⟨j, h1, h2, h3, _⟩ := hc i hi hl b
    exact ⟨j, ⟨hi, hl, h2⟩, h3, h1⟩
  · intro j hj h
    obtain ⟨i, h1, b, h2, h3⟩ := hp j hj h
    exact ⟨i, b, ⟨by omega, h2, h3⟩, h1⟩
  · intro i i' b b' j h h'
    exact hu i h.1 i' h'.1 b b' ⟨h.2.1, h'.2.1, h.2.2.trans h'.2.2.symm⟩
  · intro i w h hl
    obtain ⟨h1, h2⟩ := hlen w i h
    rw [← h1]
    exact hd i h2 hl

namespace Demo

/-- A tree of depth 2 with three inner nodes, in the depth-first order of scikit-learn. -/
def cart : Cart := ⟨[1, 2, -1, -1, 5, -1, -1], [4, 3, -1, -1, 6, -1, -1], [0, 1, 0, 0, 1, 0, 0], [1, 5, 0, 0, 7, 0, 0]⟩

/-- A tree with two inner nodes; the left child of the root is a leaf. -/
def cart2 : Cart := ⟨[1, -1, 3, -1, -1], [2, -1, 4, -1, -1], [0, 0, 1, 0, 0], [1, 0, 5, 0, 0]⟩

theorem cart_ok : CartOk 2 cart :=
  .of_check (fun i => ([0, 1, 2, 2, 1, 2, 2] : List ℕ).getD i 0) (by decide) rfl (by decide +kernel) (by decide +kernel) (by decide +kernel)
    (by decide +kernel)

theorem cart2_ok : CartOk 2 cart2 :=
  .of_check (fun i => ([0, 1, 1, 2, 2] : List ℕ).getD i 0) (by decide) rfl (by decide +kernel) (by decide +kernel) (by decide +kernel)
    (by decide +kernel)

/-- The right child of the root of `cart2` gets the id 2; the id 1 is not used. -/
example : (getAllNodes cart2 (getAllSplits cart2)).toOption = some [(0, ⟨0, [0], [1], 0, -1, 0, 0, false⟩), (2, ⟨2, [1], [1], 1, -1, 0, 0, false⟩)] := by
  decide +kernel

example : ∃ dict, getAllNodes cart (getAllSplits cart) = .ok dict ∧ dict.map Prod.fst = [0, 1, 2] := ⟨_, rfl, by decide +kernel⟩

/-- The second tree brings one new split. -/
example : (mergedSplits [] [cart2, cart]).map (fun e => (e.1, e.2.id)) = [((0, 1), 0), ((1, 5), 1), ((1, 7), 2)] := by decide +kernel

example := C58_split_numbering [cart2] [cart]

example := C60_heap_numbering cart_ok (getAllSplits cart)

end Demo

end Verif.Exp
