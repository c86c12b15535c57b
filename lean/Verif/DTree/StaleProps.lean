import Verif.DTree.HeapShare
import Verif.DTree.ReachProps

/-!
# Property C126: node objects that were used for another tree

`preprocess_rows` sets `children_are_leaves` of the nodes on the last level and never clears it (`_dtree_classifier.py:747-750`). Node objects that a
shallower tree used carry the flag into a deeper tree.
-/

namespace Verif.DTree

open MP Spec Fit

variable {Ω : Type}

namespace Spec

/-- No node claims to have leaves as children unless it has in a tree of depth `d`. -/
def Unmarked (d : ℕ) (h : Heap) : Prop := ∀ a, (h.node a).childrenAreLeaves = true → 2 * (h.node a).id + 1 ≥ 2 ^ d - 1

/-- The depth that `preprocess_rows` computes from the number of leaves. -/
def HArgs.depthOf (H : HArgs) : ℕ := Nat.log 2 H.leaves.length

end Spec

theorem prepOne_eq (k : ℕ) (n : Node) : prepOne k n = prepNode k n := by
  unfold prepOne prepNode
  simp only
  split_ifs <;> rfl

/-! ## Trees that are not shallower do no harm -/

theorem unmarked_update {d k : ℕ} (hk : d ≤ k) {h : Heap} (hu : Unmarked d h) (a : ℕ) : Unmarked d (h.setNode a (prepOne k (h.node a))) := by
  intro b hb
  change (Function.update h.node a (prepOne k (h.node a)) b).childrenAreLeaves = true at hb
  change 2 * (Function.update h.node a (prepOne k (h.node a)) b).id + 1 ≥ _
  by_cases hab : b = a
  · subst hab
    rw [Function.update_self] at hb ⊢
    rw [prepOne_eq] at hb ⊢
    change (if 2 * (h.node b).id + 1 ≥ 2 ^ k - 1 then true else (h.node b).childrenAreLeaves) = true at hb
    change 2 * (h.node b).id + 1 ≥ _
    have hp : 2 ^ d ≤ 2 ^ k := Nat.pow_le_pow_right (by norm_num) hk
    by_cases hge : 2 * (h.node b).id + 1 ≥ 2 ^ k - 1
    · omega
    · rw [if_neg hge] at hb
      exact hu b hb
  · rw [Function.update_of_ne hab] at hb ⊢
    exact hu b hb

theorem unmarked_nodes {d k : ℕ} (hk : d ≤ k) (l : List ℕ) : ∀ {h : Heap}, Unmarked d h → Unmarked d (l.foldl (preprocessNodeH k) h) := by
  induction l with
  | nil => exact fun hu => hu
  | cons a l ih =>
    intro h hu
    rw [List.foldl_cons, preprocessNodeH_eq]
    exact ih (unmarked_update hk hu a)

/-- Only `preprocess_rows` writes nodes. -/
theorem preprocessRowsH_node (H : HArgs) (X : List (List ℚ)) (paths : List ℕ) (h : Heap) :
    (preprocessRowsH H X paths h).1.node = (H.nodes.foldl (preprocessNodeH (HArgs.depthOf H)) h).node := by
  unfold preprocessRowsH
  obtain ⟨n1, -⟩ := newRowsH H paths X (H.nodes.foldl (preprocessNodeH (Nat.log 2 H.leaves.length)) h) [] (fun a ha => absurd ha (List.not_mem_nil))
  rw [n1]
  rfl

theorem pathVarsH_node (l : List ℕ) (st : Model × Heap × List ℕ) : (l.foldl addPathVarH st).2.1.node = st.2.1.node := by
  rw [(addPathVarsH_frame l st).1]

/-- The nodes after `generate_mp`. -/
theorem generateMpH_node (H : HArgs) (X : List (List ℚ)) (s : HM) :
    (generateMpH H X s).2.heap.node = s.heap.node ∨
      (generateMpH H X s).2.heap.node = (H.nodes.foldl (preprocessNodeH (HArgs.depthOf H)) s.heap).node := by
  unfold generateMpH
  split
  · exact Or.inl rfl
  · cases createCutModel H.leaves (H.splits.map s.heap.split) (s.paths.map s.heap.path) with
    | error e => exact Or.inl rfl
    | ok t =>
      obtain ⟨cp, sv, pv⟩ := t
      simp only
      have hp := pathVarsH_node s.paths (s.rest.m, s.heap, [])
      generalize (s.paths.foldl addPathVarH (s.rest.m, s.heap, [])) = pr at hp
      unfold dataRowsH
      cases s.rows with
      | none =>
        refine Or.inr ?_
        simp only
        rw [preprocessRowsH_node, preprocessNodesH_eq, preprocessNodesH_eq]
        simp only
        rw [hp]
      | some rs =>
        refine Or.inl ?_
        simp only
        rw [computeSatisfiedPathsH_eq]
        exact hp

theorem cuts_node (s : List ℕ) (first : ℕ) (rows : List (List Bool)) (h : Heap) : (enterCutsH s first rows h).node = h.node := by
  rw [(enterCutsH_frame s first rows h).1]

variable {H : HArgs} {X : List (List ℚ)} {o : FitOracle Ω} {om : Oracle}

theorem addCutsH_node (s : HM) : (addCutsH H om s).2.heap.node = s.heap.node := by
  unfold addCutsH
  simp only
  split
  · rfl
  · exact cuts_node _ _ _ _

theorem cutRoundH_node (s : HM) : (cutRoundH H X om s).2.2.heap.node = s.heap.node := by
  unfold cutRoundH
  simp only
  change (if _ then _ else _ : List (List Bool) × HM).2.heap.node = _
  split
  · split
    · exact addCutsH_node _
    · rfl
  · split
    · exact addCutsH_node _
    · rfl

theorem cutRoundsH_node : ∀ (n : ℕ) (acc : List (List Bool)) (s : HM), (cutRoundsH H X om n acc s).2.heap.node = s.heap.node
  | 0, _, s => rfl
  | n + 1, acc, s => by
    unfold cutRoundsH
    simp only
    split
    · split
      · exact (cutRoundsH_node n _ _).trans (cutRoundH_node s)
      · exact cutRoundH_node s
    · rfl

theorem solveRmpH_node (s : HM) : (solveRmpH H X om s).2.heap.node = s.heap.node := by
  unfold solveRmpH
  split
  · simp only
    obtain ⟨s1, hs1⟩ : ∃ s1, s1 = s.put (lpSolve om { s.rest with
      prevRmpObj := s.rest.rmpObj
      iter := s.rest.iter + 1 }) := ⟨_, rfl⟩
    dsimp only at hs1 ⊢
    rw [← hs1]
    have h1 : s1.heap.node = s.heap.node := by rw [hs1]; rfl
    obtain ⟨r, hr⟩ : ∃ r, r = (if s1.rest.iter % 10 = 0 then cutRoundsH H X om H.cutsRound [] s1 else ([], s1)) := ⟨_, rfl⟩
    have h2 : r.2.heap.node = s.heap.node := by
      rw [hr]
      split
      · exact (cutRoundsH_node _ _ _).trans h1
      · exact h1
    rw [← hr]
    split
    · exact h2
    · exact h2
  · rfl

theorem solveIpH_node (s : HM) : (solveIpH om s).2.heap.node = s.heap.node := by
  unfold solveIpH
  split
  · simp only
    split <;> rfl
  · rfl

theorem addColumnH_node (p : Path) (s : HM) : (addColumnH H X p s).2.heap.node = s.heap.node ∧
    (addColumnH H X p s).2.rest.generated = s.rest.generated ∧ (addColumnH H X p s).2.rows = s.rows := by
  unfold addColumnH
  simp only
  split
  · exact ⟨rfl, rfl, rfl⟩
  · split
    · refine ⟨?_, rfl, rfl⟩
      simp only
      rw [(recordH_frame _ _ _ _).1]
      rfl
    · refine ⟨?_, rfl, rfl⟩
      simp only
      rw [(recordH_frame _ _ _ _).1]
      rfl

theorem unmarked_preserved {d : ℕ} (hd : d ≤ HArgs.depthOf H) : Preserved (envH o H X) (fun w _ => Unmarked d w.m.heap) := by
  have key : ∀ {h h' : Heap}, h'.node = h.node → Unmarked d h → Unmarked d h' := by
    intro h h' e hu a ha
    rw [e] at ha ⊢
    exact hu a ha
  constructor
  · exact fun w tr h => h
  · exact fun w tr t h => h
  · exact fun w tr s t h => h
  · exact fun w tr h => h
  · exact fun w tr h => h
  · intro w tr y h
    rcases generateMpH_node H X w.m with e | e
    · exact key e h
    · exact key e (unmarked_nodes hd _ h)
  · exact fun w tr h => key (solveRmpH_node w.m) h
  · exact fun w tr h => h
  · intro w tr l i D h
    change Unmarked d (updateAtH H X l i D w).2.m.heap
    unfold updateAtH
    split
    · exact key (cuts_node _ _ _ _) h
    · split <;> exact h
  · exact fun w tr l i D h => h
  · exact fun w tr l i p h => key (addColumnH_node p w.m).1 h
  · exact fun w tr h => key (solveIpH_node w.m) h

/-! ## The rows of the master problem -/

/-- The rows that `generate_mp` creates. -/
theorem generateMpH_rows {s : HM} (hg : s.rest.generated = false) (hr : s.rows = none) (hn : H.nodes.Nodup) (hok : (generateMpH H X s).1 = .ok ()) :
    ∃ rs ps, (generateMpH H X s).2.rows = some rs ∧ rs.map (generateMpH H X s).2.heap.row =
      X.map (makeRow H.leaves (preprocessNodes (H.nodes.map s.heap.node) (HArgs.depthOf H)) (H.splits.map s.heap.split) ps) := by
  unfold generateMpH at hok ⊢
  rw [if_neg (by rw [hg]; exact Bool.false_ne_true)] at hok ⊢
  split at hok
  · cases hok
  · rename_i cp sv pv heq
    simp only
    have hf := addPathVarsH_frame s.paths (s.rest.m, s.heap, [])
    generalize (s.paths.foldl addPathVarH (s.rest.m, s.heap, [])) = pr at hf
    obtain ⟨f1, -⟩ := hf
    rw [hr]
    refine ⟨_, s.paths.map pr.2.1.path, rfl, ?_⟩
    unfold dataRowsH
    simp only
    unfold preprocessRowsH
    rw [preprocessNodesH_eq]
    obtain ⟨-, -, n3, -⟩ := newRowsH H s.paths X { pr.2.1 with
      node := H.nodes.foldl (fun g a => Function.update g a (prepOne (Nat.log 2 H.leaves.length) (g a))) pr.2.1.node } [] (fun a ha => absurd ha (List.not_mem_nil))
    rw [n3]
    simp only [List.map_nil, List.nil_append]
    rw [updates_map _ _ hn, preprocessNodes_one]
    have e1 : pr.2.1.node = s.heap.node := by rw [f1]
    have e2 : pr.2.1.split = s.heap.split := by rw [f1]
    rw [e1, e2]
    rfl

/-! ## The loop over the nodes with stale marks -/

theorem setAdd_shift (c : ℕ) (l : List ℕ) (x : ℕ) : setAdd (l.map (c + ·)) (c + x) = (setAdd l x).map (c + ·) := by
  have : c + x ∈ l.map (c + ·) ↔ x ∈ l := by
    rw [List.mem_map]
    constructor
    · rintro ⟨z, hz, e⟩
      obtain rfl : z = x := by omega
      exact hz
    · exact fun h => ⟨x, h, rfl⟩
  unfold setAdd
  by_cases h : x ∈ l
  · rw [if_pos (this.2 h), if_pos h]
  · rw [if_neg (fun h' => h (this.1 h')), if_neg h, List.map_append]
    rfl

/-- One node that has the mark of the tree of depth `k`, in the tree of depth `d`. -/
theorem reachStep_stale {k d : ℕ} (hkd : k < d) {n : Node} (hid : n.id < 2 ^ k - 1) (hu : n.childrenAreLeaves = true → 2 * n.id + 1 ≥ 2 ^ k - 1)
    (left : List ℕ) (st : List ℕ × List ℕ) :
    reachStep left (st.1, st.2.map (2 ^ k - 1 + ·)) (prepNode d (prepNode k n)) =
      ((reachStep left st (prepNode k n)).1, (reachStep left st (prepNode k n)).2.map (2 ^ k - 1 + ·)) := by
  have hpow : 2 * 2 ^ k ≤ 2 ^ d := by
    calc 2 * 2 ^ k = 2 ^ (k + 1) := by rw [Nat.pow_succ, Nat.mul_comm]
      _ ≤ 2 ^ d := Nat.pow_le_pow_right (by norm_num) hkd
  have e1 : (prepNode d (prepNode k n)).id = (prepNode k n).id := rfl
  have e2 : (prepNode d (prepNode k n)).parent = (prepNode k n).parent := rfl
  have e3 : (prepNode d (prepNode k n)).candidateSplits = (prepNode k n).candidateSplits := rfl
  have hlt : ¬ 2 * n.id + 1 ≥ 2 ^ d - 1 := by omega
  have e4 : (prepNode d (prepNode k n)).leftChild = 2 * n.id + 1 := if_neg hlt
  have e5 : (prepNode d (prepNode k n)).rightChild = 2 * n.id + 2 := if_neg hlt
  have e6 : (prepNode d (prepNode k n)).childrenAreLeaves = (prepNode k n).childrenAreLeaves := if_neg hlt
  unfold reachStep
  rw [e1, e2, e3, e4, e5, e6]
  by_cases hc : (prepNode k n).parent = -1 ∨ (prepNode k n).id ∈ st.1
  · rw [if_pos hc, if_pos hc]
    generalize setAdd st.1 (prepNode k n).id = A
    generalize (prepNode k n).candidateSplits = cs
    by_cases hge : 2 * n.id + 1 ≥ 2 ^ k - 1
    · have f1 : (prepNode k n).childrenAreLeaves = true := if_pos hge
      have f2 : (prepNode k n).leftChild = 2 * n.id + 1 - (2 ^ k - 1) := if_pos hge
      have f3 : (prepNode k n).rightChild = 2 * n.id + 2 - (2 ^ k - 1) := if_pos hge
      rw [f1, f2, f3]
      generalize st.2 = B
      induction cs generalizing B with
      | nil => rfl
      | cons c cs ih =>
        rw [List.foldl_cons, List.foldl_cons]
        simp only [if_true]
        have hch : (if c ∈ left then 2 * n.id + 1 else 2 * n.id + 2) =
            2 ^ k - 1 + (if c ∈ left then 2 * n.id + 1 - (2 ^ k - 1) else 2 * n.id + 2 - (2 ^ k - 1)) := by
          split_ifs <;> omega
        rw [hch, setAdd_shift]
        have := ih (setAdd B (if c ∈ left then 2 * n.id + 1 - (2 ^ k - 1) else 2 * n.id + 2 - (2 ^ k - 1)))
        simp only [if_true] at this
        exact this
    · have f1 : (prepNode k n).childrenAreLeaves = false := by
        have : (prepNode k n).childrenAreLeaves = n.childrenAreLeaves := if_neg hge
        rw [this]
        cases hf : n.childrenAreLeaves with
        | false => rfl
        | true => exact absurd (hu hf) hge
      have f2 : (prepNode k n).leftChild = 2 * n.id + 1 := if_neg hge
      have f3 : (prepNode k n).rightChild = 2 * n.id + 2 := if_neg hge
      rw [f1, f2, f3]
      induction cs generalizing A with
      | nil => rfl
      | cons c cs ih =>
        rw [List.foldl_cons, List.foldl_cons]
        simp only [Bool.false_eq_true, if_false] at ih ⊢
        exact ih _
  · rw [if_neg hc, if_neg hc]

theorem reach_stale_front {k d : ℕ} (hkd : k < d) (left : List ℕ) (l : List Node) : ∀ (_ : ∀ n ∈ l, n.id < 2 ^ k - 1)
    (_ : ∀ n ∈ l, n.childrenAreLeaves = true → 2 * n.id + 1 ≥ 2 ^ k - 1) (st : List ℕ × List ℕ),
    (l.map (fun n => prepNode d (prepNode k n))).foldl (reachStep left) (st.1, st.2.map (2 ^ k - 1 + ·)) =
      (((l.map (prepNode k)).foldl (reachStep left) st).1, ((l.map (prepNode k)).foldl (reachStep left) st).2.map (2 ^ k - 1 + ·)) := by
  induction l with
  | nil => exact fun _ _ _ => rfl
  | cons n l ih =>
    intro h1 h2 st
    rw [List.map_cons, List.map_cons, List.foldl_cons, List.foldl_cons, reachStep_stale hkd (h1 n List.mem_cons_self) (h2 n List.mem_cons_self)]
    exact ih (fun m hm => h1 m (List.mem_cons_of_mem _ hm)) (fun m hm => h2 m (List.mem_cons_of_mem _ hm)) _

theorem reach_stale_back {d : ℕ} (left : List ℕ) (l : List Node) (st : List ℕ × List ℕ) (h : ∀ n ∈ l, n.id ≠ 0 ∧ n.id ∉ st.1) :
    (l.map (prepNode d)).foldl (reachStep left) st = st := by
  induction l with
  | nil => rfl
  | cons n l ih =>
    have hn := h n List.mem_cons_self
    have e : reachStep left st (prepNode d n) = st := by
      unfold reachStep
      refine if_neg ?_
      rintro (hp | hp)
      · have : (prepNode d n).parent = (((n.id - 1) / 2 : ℕ) : ℤ) := if_neg hn.1
        rw [this] at hp
        omega
      · exact hn.2 hp
    rw [List.map_cons, List.foldl_cons, e]
    exact ih (fun m hm => h m (List.mem_cons_of_mem _ hm))

/-- Nodes of which the first ones were used for a tree of depth `k`. -/
theorem reach_stale {k d : ℕ} (hk : 0 < k) (hkd : k < d) {nodes : List Node} (hlen : nodes.length = 2 ^ d - 1)
    (hid : ∀ i (n : Node), nodes[i]? = some n → n.id = i) (hu : ∀ n ∈ nodes, n.childrenAreLeaves = true → 2 * n.id + 1 ≥ 2 ^ k - 1) (left : List ℕ) :
    reach (preprocessNodes ((nodes.take (2 ^ k - 1)).map (prepNode k) ++ nodes.drop (2 ^ k - 1)) d) left =
      ((reach (preprocessNodes (nodes.take (2 ^ k - 1)) k) left).1, (reach (preprocessNodes (nodes.take (2 ^ k - 1)) k) left).2.map (2 ^ k - 1 + ·)) := by
  have hpow : 2 ^ k ≤ 2 ^ d := Nat.pow_le_pow_right (by norm_num) hkd.le
  have hpk : 2 ≤ 2 ^ k := by
    calc 2 = 2 ^ 1 := rfl
      _ ≤ 2 ^ k := Nat.pow_le_pow_right (by norm_num) hk
  have hlenT : (nodes.take (2 ^ k - 1)).length = 2 ^ k - 1 := by rw [List.length_take]; omega
  have hget : ∀ i (n : Node), (nodes.take (2 ^ k - 1))[i]? = some n → n.id = i := by
    intro i n h
    rw [List.getElem?_take] at h
    split at h
    · exact hid i n h
    · cases h
  have hfront : ∀ n ∈ nodes.take (2 ^ k - 1), n.id < 2 ^ k - 1 := by
    intro n hn
    obtain ⟨i, hi⟩ := List.mem_iff_getElem?.1 hn
    have := (List.getElem?_eq_some_iff.1 hi).1
    rw [hget i n hi]
    omega
  have hback : ∀ n ∈ nodes.drop (2 ^ k - 1), 2 ^ k - 1 ≤ n.id := by
    intro n hn
    obtain ⟨i, hi⟩ := List.mem_iff_getElem?.1 hn
    rw [List.getElem?_drop] at hi
    rw [hid _ n hi]
    omega
  have huT : ∀ n ∈ nodes.take (2 ^ k - 1), n.childrenAreLeaves = true → 2 * n.id + 1 ≥ 2 ^ k - 1 := fun n hn => hu n (List.mem_of_mem_take hn)
  rw [preprocessNodes_eq, preprocessNodes_eq, List.map_append, List.map_map]
  unfold reach
  rw [List.foldl_append]
  have h1 := reach_stale_front hkd left _ hfront huT ([], [])
  have h1' : ((nodes.take (2 ^ k - 1)).map (prepNode d ∘ prepNode k)).foldl (reachStep left) ([], []) = _ := h1
  rw [h1']
  refine reach_stale_back left _ _ fun n hn => ?_
  have hn' := hback n hn
  refine ⟨by omega, fun hm => ?_⟩
  have h2 := (reach_prefix hk hlenT hget huT left _ le_rfl).1
  rw [List.take_of_length_le (by simp)] at h2
  have := ((h2 n.id).1 hm).1
  omega

/-! ## What a shallower tree leaves behind -/

/-- The nodes in a session: as before, or as `preprocess_rows` leaves them. -/
def Marked (H : HArgs) (h0 : Heap) (w : HW Ω) : Prop :=
  (w.m.rest.generated = false ∧ w.m.rows = none ∧ w.m.heap.node = h0.node) ∨
    (w.m.heap.node = fun a => if a ∈ H.nodes then prepNode (HArgs.depthOf H) (h0.node a) else h0.node a)

theorem prepNode_idem (k : ℕ) (n : Node) : prepNode k (prepNode k n) = prepNode k n := by
  unfold prepNode
  simp only
  split_ifs <;> rfl

theorem prepNodes_apply (hn : H.nodes.Nodup) (h : Heap) : (H.nodes.foldl (preprocessNodeH (HArgs.depthOf H)) h).node =
    fun a => if a ∈ H.nodes then prepNode (HArgs.depthOf H) (h.node a) else h.node a := by
  rw [preprocessNodesH_eq]
  funext a
  simp only
  rw [updates_apply _ _ hn, prepOne_eq]

theorem marked_generateMp (hn : H.nodes.Nodup) {h0 : Heap} {w : HW Ω} (y : List ℕ) (h : Marked H h0 w) :
    Marked H h0 { w with
      m := (generateMpH H X w.m).2
      y := y } := by
  rcases h with ⟨g, r, e⟩ | e
  · unfold generateMpH
    rw [if_neg (by rw [g]; exact Bool.false_ne_true)]
    cases createCutModel H.leaves (H.splits.map w.m.heap.split) (w.m.paths.map w.m.heap.path) with
    | error e' => exact Or.inl ⟨g, r, e⟩
    | ok t =>
      obtain ⟨cp, sv, pv⟩ := t
      refine Or.inr ?_
      simp only
      have hp := pathVarsH_node w.m.paths (w.m.rest.m, w.m.heap, [])
      generalize (w.m.paths.foldl addPathVarH (w.m.rest.m, w.m.heap, [])) = pr at hp
      rw [r]
      unfold dataRowsH
      simp only
      rw [preprocessRowsH_node, prepNodes_apply hn, hp]
      funext a
      simp only
      rw [e]
  · refine Or.inr ?_
    rcases generateMpH_node H X w.m with e' | e'
    · exact e'.trans e
    · refine e'.trans ?_
      rw [prepNodes_apply hn, e]
      funext a
      simp only
      by_cases ha : a ∈ H.nodes
      · rw [if_pos ha, if_pos ha, prepNode_idem]
      · rw [if_neg ha, if_neg ha]

theorem marked_preserved (hn : H.nodes.Nodup) (h0 : Heap) : Preserved (envH o H X) (fun w _ => Marked H h0 w) := by
  constructor
  · exact fun w tr h => h
  · exact fun w tr t h => h
  · exact fun w tr s t h => h
  · exact fun w tr h => h
  · exact fun w tr h => h
  · exact fun w tr y h => marked_generateMp hn y h
  · intro w tr h
    rcases h with ⟨g, r, e⟩ | e
    · have hs : (solveRmpH H X o.master w.m).2 = w.m := by
        unfold solveRmpH
        rw [if_neg (by rw [g]; exact Bool.false_ne_true)]
      refine Or.inl ?_
      change (solveRmpH H X o.master w.m).2.rest.generated = false ∧ (solveRmpH H X o.master w.m).2.rows = none ∧
        (solveRmpH H X o.master w.m).2.heap.node = _
      rw [hs]
      exact ⟨g, r, e⟩
    · exact Or.inr ((solveRmpH_node w.m).trans e)
  · exact fun w tr h => h
  · intro w tr l i D h
    change Marked H h0 (updateAtH H X l i D w).2
    unfold updateAtH
    split
    · rcases h with ⟨g, r, e⟩ | e
      · exact Or.inl ⟨g, r, (cuts_node _ _ _ _).trans e⟩
      · exact Or.inr ((cuts_node _ _ _ _).trans e)
    · split <;> exact h
  · exact fun w tr l i D h => h
  · intro w tr l i p h
    obtain ⟨a1, a2, a3⟩ := addColumnH_node (H := H) (X := X) p w.m
    rcases h with ⟨g, r, e⟩ | e
    · exact Or.inl ⟨a2.trans g, a3.trans r, a1.trans e⟩
    · exact Or.inr (a1.trans e)
  · intro w tr h
    rcases h with ⟨g, r, e⟩ | e
    · have hs : (solveIpH o.master w.m).2 = w.m := by
        unfold solveIpH
        rw [if_neg (by rw [g]; exact Bool.false_ne_true)]
      refine Or.inl ?_
      change (solveIpH o.master w.m).2.rest.generated = false ∧ (solveIpH o.master w.m).2.rows = none ∧
        (solveIpH o.master w.m).2.heap.node = _
      rw [hs]
      exact ⟨g, r, e⟩
    · exact Or.inr ((solveIpH_node w.m).trans e)

theorem session_marked (hn : H.nodes.Nodup) (hr : H.dataRows = none) {h0 : Heap} {y : List ℤ} {w : HW Ω} (h : HSession o H h0 X y w) : Marked H h0 w := by
  induction h with
  | new ω =>
    refine Or.inl ⟨rfl, hr, ?_⟩
    change (H.paths.foldl (fun h a => h.setPath a { h.path a with initial := true }) h0).node = _
    rw [marksH]
  | idle _ _ ih => exact ih
  | fit _ maxIt limit fuel e0 hr ih => exact (marked_preserved hn h0).fit _ _ _ _ _ ih _ hr

/-! ## Property C126 -/

namespace Spec

/-- What `preprocess_rows` should record for a row in a tree of depth `d` (the statement of C44 and the rule for removing rows). -/
structure RightRow (d : ℕ) (nodes : List Node) (splits : List Split) (row : List ℚ) (r : Row) : Prop where
  leaves : ∀ l, l ∈ r.reachableLeaves ↔ l < 2 ^ d ∧ CanReach d nodes (rowLeft splits row) l d
  nodes : ∀ n, n ∈ r.reachableNodes ↔ ∃ l < 2 ^ d, ∃ k < d, n = anc d l k ∧ CanReach d nodes (rowLeft splits row) l k
  nodup : r.reachableLeaves.Nodup
  removed : r.removedFromMaster = true ↔ r.reachableLeaves.length ≤ 2

/-- What it records with marks of a shallower tree of depth `k`: the row ends at the nodes on level `k`, their numbers are recorded as leaves. -/
structure CutOffRow (k : ℕ) (nodes : List Node) (splits : List Split) (row : List ℚ) (r : Row) : Prop where
  leaves : ∀ l, l ∈ r.reachableLeaves ↔ ∃ l' < 2 ^ k, l = 2 ^ k - 1 + l' ∧ CanReach k nodes (rowLeft splits row) l' k
  nodes : ∀ n, n ∈ r.reachableNodes ↔ ∃ l < 2 ^ k, ∃ j < k, n = anc k l j ∧ CanReach k nodes (rowLeft splits row) l j
  nodup : r.reachableLeaves.Nodup
  removed : r.removedFromMaster = true ↔ r.reachableLeaves.length ≤ 2

/-- The rows of a master problem, in the order of the data. -/
def RowsAre (R : List ℚ → Row → Prop) (X : List (List ℚ)) (s : HM) : Prop :=
  ∃ rs : List ℕ, s.rows = some rs ∧ rs.length = X.length ∧ ∀ (i : ℕ) (row : List ℚ) (a : ℕ), X[i]? = some row → rs[i]? = some a → R row (s.heap.row a)

/-- A program in which all classifiers have trees of depth `d` or more. -/
def DeepRuns (d : ℕ) (h0 : Heap) (s : Prog Ω) : Prop :=
  Relation.ReflTransGen (fun s s' => ∃ i, Acts i s s' ∧ ∀ H w, s'.2 i = some (H, w) → d ≤ HArgs.depthOf H) (h0, fun _ => none) s

end Spec

theorem rowsAre_of_map {R : List ℚ → Row → Prop} {f : List ℚ → Row} {s : HM} {rs : List ℕ} (h1 : s.rows = some rs) (h2 : rs.map s.heap.row = X.map f)
    (h3 : ∀ row, R row (f row)) : RowsAre R X s := by
  refine ⟨rs, h1, ?_, ?_⟩
  · have := congrArg List.length h2
    simpa using this
  · intro i row a hX ha
    have h4 := congrArg (fun l : List Row => l[i]?) h2
    simp only [List.getElem?_map, hX, ha, Option.map_some, Option.some.injEq] at h4
    rw [h4]
    exact h3 row

theorem depthOf_tree {d : ℕ} {nodes : List Node} {splits : List Split} (ht : Tree d H.leaves nodes splits) : HArgs.depthOf H = d := by
  unfold HArgs.depthOf
  rw [ht.leaves, log_full]

theorem deep_unmarked {d : ℕ} {h0 : Heap} (hu : Unmarked d h0) {s : Prog Ω} (hs : DeepRuns d h0 s) : Unmarked d s.1 := by
  induction hs with
  | refl => exact hu
  | tail _ hstep ih =>
    obtain ⟨j, ha, hdeep⟩ := hstep
    cases ha with
    | construct h c j H' ω hex =>
      intro a ha
      have e : (HW.init H' h ω).m.heap.node = h.node := by
        change (H'.paths.foldl (fun h a => h.setPath a { h.path a with initial := true }) h).node = _
        rw [marksH]
      change ((HW.init H' h ω).m.heap.node a).childrenAreLeaves = true at ha
      change 2 * ((HW.init H' h ω).m.heap.node a).id + 1 ≥ _
      rw [e] at ha ⊢
      exact ih a ha
    | @fit h c j H' w' hc o' X' maxIt limit fuel y e0 r hr' =>
      have hd' := hdeep H' r.2.world (by change Function.update c j _ j = _; rw [Function.update_self])
      exact (unmarked_preserved hd').fit _ _ _ _ _ ih _ hr'

/-- **C126, no shallower tree.** In a program that constructs and fits any number of classifiers from any shared objects, all with trees of depth `d` or
more and starting with new nodes: a master problem of depth `d` records the right nodes and leaves for every row and removes the right rows. -/
theorem C126_not_shallower {d : ℕ} (hd : 0 < d) {h0 : Heap} (hu : Unmarked d h0) {s : Prog Ω} (hs : DeepRuns d h0 s) {i : ℕ} {w : HW Ω}
    (_ : s.2 i = some (H, w)) (ht : Tree d H.leaves (H.nodes.map s.1.node) (H.splits.map s.1.split)) (hn : H.nodes.Nodup)
    (hg : w.m.rest.generated = false) (hr : w.m.rows = none) (hok : (generateMpH H X (HWOn w s.1).m).1 = .ok ()) :
    RowsAre (RightRow d (H.nodes.map s.1.node) (H.splits.map s.1.split)) X (generateMpH H X (HWOn w s.1).m).2 := by
  have hum : Unmarked d s.1 := deep_unmarked hu hs
  obtain ⟨rs, ps, e1, e2⟩ := generateMpH_rows (H := H) (X := X) (s := (HWOn w s.1).m) hg hr hn hok
  rw [depthOf_tree ht] at e2
  refine rowsAre_of_map e1 e2 fun row => ?_
  have hleaf : ∀ n ∈ H.nodes.map s.1.node, n.childrenAreLeaves = true → 2 * n.id + 1 ≥ 2 ^ d - 1 := by
    intro n hn'
    obtain ⟨a, -, rfl⟩ := List.mem_map.1 hn'
    exact hum a
  obtain ⟨h1, h2, -, h4⟩ := makeRow_spec hd ht hleaf ps row
  exact ⟨h2, h1, h4, decide_eq_true_iff⟩

theorem cand_take {nodes : List Node} {m n : ℕ} (h : n < m) : cand (nodes.take m) n = cand nodes n := by
  unfold cand
  rw [List.getElem?_take, if_pos h]

theorem canReach_take {k l j : ℕ} {nodes : List Node} {left : ℕ → Bool} (hl : l < 2 ^ k) (hj : j ≤ k) :
    CanReach k (nodes.take (2 ^ k - 1)) left l j ↔ CanReach k nodes left l j := by
  unfold CanReach
  refine forall_congr' fun i => forall_congr' fun hi => ?_
  rw [cand_take (anc_lt hl (by omega))]

/-- The rows with stale marks. -/
theorem makeRow_stale {k d : ℕ} (hk : 0 < k) (hkd : k < d) {leaves : List Leaf} {nodes : List Node} {splits : List Split} (ht : Tree d leaves nodes splits)
    (hu : ∀ n ∈ nodes, n.childrenAreLeaves = false) (paths : List Path) (row : List ℚ) :
    CutOffRow k nodes splits row
      (makeRow leaves (preprocessNodes ((nodes.take (2 ^ k - 1)).map (prepNode k) ++ nodes.drop (2 ^ k - 1)) d) splits paths row) := by
  have hu' : ∀ n ∈ nodes, n.childrenAreLeaves = true → 2 * n.id + 1 ≥ 2 ^ k - 1 := fun n hn h => by rw [hu n hn] at h; cases h
  have hs := reach_stale hk hkd ht.nodes_length ht.node_id hu' (leftSplitsOf splits row)
  have hpow : 2 ^ k ≤ 2 ^ d := Nat.pow_le_pow_right (by norm_num) hkd.le
  have hlenT : (nodes.take (2 ^ k - 1)).length = 2 ^ k - 1 := by rw [List.length_take, ht.nodes_length]; omega
  have hget : ∀ i (n : Node), (nodes.take (2 ^ k - 1))[i]? = some n → n.id = i := by
    intro i n h
    rw [List.getElem?_take] at h
    split at h
    · exact ht.node_id i n h
    · cases h
  obtain ⟨h1, h2, h3, h4⟩ := reach_spec hk hlenT hget (fun n hn => hu' n (List.mem_of_mem_take hn)) (leftSplitsOf splits row)
  have hc : ∀ n, ∀ s ∈ cand nodes n, decide (s ∈ leftSplitsOf splits row) = rowLeft splits row s := by
    intro n s hs
    rw [Bool.eq_iff_iff, decide_eq_true_eq]
    exact mem_leftSplits_iff ht.split_id row (cand_lt_of_tree ht n s hs)
  have hconv : ∀ l < 2 ^ k, ∀ j ≤ k, CanReach k (nodes.take (2 ^ k - 1)) (fun s => decide (s ∈ leftSplitsOf splits row)) l j ↔
      CanReach k nodes (rowLeft splits row) l j := fun l hl j hj => (canReach_take hl hj).trans (canReach_congr hc)
  have eL : (makeRow leaves (preprocessNodes ((nodes.take (2 ^ k - 1)).map (prepNode k) ++ nodes.drop (2 ^ k - 1)) d) splits paths row).reachableLeaves =
      (reach (preprocessNodes (nodes.take (2 ^ k - 1)) k) (leftSplitsOf splits row)).2.map (2 ^ k - 1 + ·) := congrArg Prod.snd hs
  have eN : (makeRow leaves (preprocessNodes ((nodes.take (2 ^ k - 1)).map (prepNode k) ++ nodes.drop (2 ^ k - 1)) d) splits paths row).reachableNodes =
      (reach (preprocessNodes (nodes.take (2 ^ k - 1)) k) (leftSplitsOf splits row)).1 := (congrArg Prod.fst hs :)
  refine ⟨?_, ?_, ?_, decide_eq_true_iff⟩
  · intro l
    rw [eL, List.mem_map]
    constructor
    · rintro ⟨l', hl', rfl⟩
      obtain ⟨a, b⟩ := (h2 l').1 hl'
      exact ⟨l', a, rfl, (hconv l' a k le_rfl).1 b⟩
    · rintro ⟨l', a, rfl, b⟩
      exact ⟨l', (h2 l').2 ⟨a, (hconv l' a k le_rfl).2 b⟩, rfl⟩
  · intro n
    rw [eN]
    refine (h1 n).trans ?_
    constructor
    · rintro ⟨l, hl, j, hj, e, b⟩
      exact ⟨l, hl, j, hj, e, (hconv l hl j hj.le).1 b⟩
    · rintro ⟨l, hl, j, hj, e, b⟩
      exact ⟨l, hl, j, hj, e, (hconv l hl j hj.le).2 b⟩
  · rw [eL]
    exact h4.map (fun a b e => by simpa using e)

/-- The nodes of the deeper tree after the shallower one. -/
theorem marked_nodes {H2 : HArgs} {k : ℕ} (hn : H2.nodes.Nodup) (g : ℕ → Node) (hH : H.nodes = H2.nodes.take (2 ^ k - 1)) :
    H2.nodes.map (fun a => if a ∈ H.nodes then prepNode k (g a) else g a) =
      ((H2.nodes.map g).take (2 ^ k - 1)).map (prepNode k) ++ (H2.nodes.map g).drop (2 ^ k - 1) := by
  rw [hH]
  have hsplit := List.take_append_drop (2 ^ k - 1) H2.nodes
  have hd : ∀ a ∈ H2.nodes.drop (2 ^ k - 1), a ∉ H2.nodes.take (2 ^ k - 1) := by
    intro a ha hb
    have := hn
    rw [← hsplit, List.nodup_append] at this
    exact this.2.2 a hb a ha rfl
  conv_lhs => rw [← hsplit]
  rw [List.map_append, ← List.map_take, ← List.map_drop, List.map_map]
  congr 1
  · refine List.map_congr_left fun a ha => ?_
    rw [hsplit, if_pos ha]
    rfl
  · refine List.map_congr_left fun a ha => ?_
    rw [hsplit, if_neg (hd a ha)]

section

variable {Ω2 : Type} {k d : ℕ} {h0 : Heap} {H2 : HArgs} {y : List ℤ} {w : HW Ω}

/-- **C126, a shallower tree first.** A classifier with a tree of depth `k` built its master problem from the first nodes of a list of new nodes. If a
classifier with a deeper tree is then constructed from the whole list, its master problem stops every row at level `k`: it records as reachable leaves the
numbers of the nodes on that level, no node below, and removes the rows that reach at most two of these nodes. -/
theorem C126_shallower (hk : 0 < k) (hkd : k < d) (hw : HSession o H h0 X y w) (hgen : w.m.rest.generated = true) (hr : H.dataRows = none)
    (hdep : HArgs.depthOf H = k) (hnodes : H.nodes = H2.nodes.take (2 ^ k - 1)) (hn : H2.nodes.Nodup)
    (ht : Tree d H2.leaves (H2.nodes.map h0.node) (H2.splits.map w.m.heap.split)) (hnew : ∀ a ∈ H2.nodes, (h0.node a).childrenAreLeaves = false)
    (hr2 : H2.dataRows = none) (ω : Ω2) {Z : List (List ℚ)} (hok : (generateMpH H2 Z (HW.init H2 w.m.heap ω).m).1 = .ok ()) :
    RowsAre (CutOffRow k (H2.nodes.map h0.node) (H2.splits.map w.m.heap.split)) Z (generateMpH H2 Z (HW.init H2 w.m.heap ω).m).2 := by
  have hn1 : H.nodes.Nodup := by rw [hnodes]; exact hn.sublist (List.take_sublist _ _)
  obtain ⟨rs, ps, e1, e2⟩ := generateMpH_rows (H := H2) (X := Z) (s := (HW.init H2 w.m.heap ω).m) rfl hr2 hn hok
  have eh : (HW.init H2 w.m.heap ω).m.heap.node = w.m.heap.node ∧ (HW.init H2 w.m.heap ω).m.heap.split = w.m.heap.split := by
    change (H2.paths.foldl (fun h a => h.setPath a { h.path a with initial := true }) w.m.heap).node = _ ∧
      (H2.paths.foldl (fun h a => h.setPath a { h.path a with initial := true }) w.m.heap).split = _
    rw [marksH]
    exact ⟨rfl, rfl⟩
  rcases session_marked hn1 hr hw with ⟨g, -⟩ | e
  · rw [hgen] at g
    cases g
  · rw [eh.1, eh.2, e, hdep, marked_nodes hn h0.node hnodes, depthOf_tree ht] at e2
    refine rowsAre_of_map e1 e2 fun row => makeRow_stale hk hkd ht ?_ ps row
    intro n hn'
    obtain ⟨a, ha, rfl⟩ := List.mem_map.1 hn'
    exact hnew a ha

end

/-! ### After a tree of depth 1 -/

theorem Spec.CutOffRow.one {nodes : List Node} {splits : List Split} {row : List ℚ} {r : Row} (h : CutOffRow 1 nodes splits row r) : r.removedFromMaster = true := by
  rw [h.removed]
  have hsub : r.reachableLeaves ⊆ [1, 2] := by
    intro l hl
    obtain ⟨l', hl', rfl, -⟩ := (h.leaves l).1 hl
    have : l' = 0 ∨ l' = 1 := by omega
    rcases this with rfl | rfl <;> decide
  exact (h.nodup.subperm hsub).length_le

/-- Rows that reach at most two leaves, whatever the data are. -/
def Short (H : HArgs) (g : ℕ → Node) : Prop := ∀ left, (reach (preprocessNodes (H.nodes.map g) (HArgs.depthOf H)) left).2.length ≤ 2

theorem short_one {d : ℕ} (hd : 1 < d) {nodes : List Node} (hlen : nodes.length = 2 ^ d - 1) (hid : ∀ i (n : Node), nodes[i]? = some n → n.id = i)
    (hu : ∀ n ∈ nodes, n.childrenAreLeaves = false) (left : List ℕ) :
    (reach (preprocessNodes ((nodes.take (2 ^ 1 - 1)).map (prepNode 1) ++ nodes.drop (2 ^ 1 - 1)) d) left).2.length ≤ 2 := by
  have hu' : ∀ n ∈ nodes, n.childrenAreLeaves = true → 2 * n.id + 1 ≥ 2 ^ 1 - 1 := fun n hn h => by rw [hu n hn] at h; cases h
  rw [reach_stale Nat.one_pos hd hlen hid hu']
  have hpow : 2 ^ 1 ≤ 2 ^ d := Nat.pow_le_pow_right (by norm_num) hd.le
  have hlenT : (nodes.take (2 ^ 1 - 1)).length = 2 ^ 1 - 1 := by rw [List.length_take, hlen]; omega
  have hget : ∀ i (n : Node), (nodes.take (2 ^ 1 - 1))[i]? = some n → n.id = i := by
    intro i n h
    rw [List.getElem?_take] at h
    split at h
    · exact hid i n h
    · cases h
  obtain ⟨-, h2, -, h4⟩ := reach_spec Nat.one_pos hlenT hget (fun n hn => hu' n (List.mem_of_mem_take hn)) left
  rw [List.length_map]
  have hsub : (reach (preprocessNodes (nodes.take (2 ^ 1 - 1)) 1) left).2 ⊆ [0, 1] := by
    intro l hl
    have := ((h2 l).1 hl).1
    have : l = 0 ∨ l = 1 := by omega
    rcases this with rfl | rfl <;> decide
  exact (h4.subperm hsub).length_le

/-- All rows are removed and there is no row constraint. -/
structure NoRows (X : List (List ℚ)) (s : HM) : Prop where
  cons : ∀ r, s.rest.rowCons r = none
  rows : ∃ rs, s.rows = some rs ∧ rs.length = X.length ∧ ∀ a ∈ rs, (s.heap.row a).removedFromMaster = true

theorem NoRows.same {s s' : HM} (h : NoRows X s) (h1 : s'.rest.rowCons = s.rest.rowCons) (h2 : s'.rows = s.rows)
    (h3 : ∀ a, (s'.heap.row a).removedFromMaster = (s.heap.row a).removedFromMaster) : NoRows X s' := by
  obtain ⟨rs, e1, e2, e3⟩ := h.rows
  exact ⟨fun r => by rw [h1]; exact h.cons r, rs, h2.trans e1, e2, fun a ha => (h3 a).trans (e3 a ha)⟩

theorem NoRows.at {s : HM} (h : NoRows X s) {r : ℕ} (hr : r < X.length) : (rowAt ((s.view H).dataRows.getD []) r).removedFromMaster = true := by
  obtain ⟨rs, e1, e2, e3⟩ := h.rows
  have e : (s.view H).dataRows = some (rs.map s.heap.row) := by
    unfold HM.view
    simp only
    rw [e1]
    rfl
  rw [e]
  unfold rowAt
  have hlt : r < rs.length := by omega
  simp only [Option.getD_some, List.getD_eq_getElem?_getD, List.getElem?_map, List.getElem?_eq_getElem hlt, Option.map_some]
  exact e3 _ (List.getElem_mem _)

theorem betaLoop_removed (rows : List Row) (sol : ℕ → ℚ) (l : List ℕ) (b : BS) (h : ∀ r ∈ l, (rowAt rows r).removedFromMaster = true) :
    betaLoop rows sol l b = b := by
  induction l with
  | nil => rfl
  | cons r l ih =>
    rw [betaLoop, if_pos (h r List.mem_cons_self)]
    exact ih (fun q hq => h q (List.mem_cons_of_mem _ hq))

theorem NoRows.beta {s : HM} (h : NoRows X s) (h' : Heap) : (addBetaCuts (H.conf X h') (s.view H)).2.rowCons = s.rest.rowCons := by
  unfold addBetaCuts
  simp only
  rw [betaLoop_removed]
  · rfl
  · intro r hr
    exact h.at (List.mem_range.1 hr)

theorem clr_removed {a b : Row} (h : clr a = clr b) : a.removedFromMaster = b.removedFromMaster := by
  have := congrArg Row.removedFromMaster h
  exact this

theorem NoRows.addColumn {s : HM} (h : NoRows X s) (p : Path) : NoRows X (addColumnH H X p s).2 := by
  unfold addColumnH
  simp only
  split
  · exact h.same rfl rfl (fun _ => rfl)
  · split
    · exact h.same rfl rfl (fun a => clr_removed ((recordH_frame _ _ _ _).2.1 a))
    · exact h.same rfl rfl (fun a => clr_removed ((recordH_frame _ _ _ _).2.1 a))

theorem NoRows.cuts {s : HM} (h : NoRows X s) (sp : List ℕ) (first : ℕ) (rows : List (List Bool)) : NoRows X { s with heap := enterCutsH sp first rows s.heap } := by
  refine h.same rfl rfl fun a => ?_
  simp only
  rw [(enterCutsH_frame sp first rows s.heap).1]

theorem NoRows.addCuts {s : HM} (h : NoRows X s) : NoRows X (addCutsH H om s).2 := by
  unfold addCutsH
  simp only
  split
  · exact h.same rfl rfl (fun _ => rfl)
  · exact (h.cuts _ _ _).same rfl rfl (fun _ => rfl)

theorem NoRows.cutRound {s : HM} (h : NoRows X s) : NoRows X (cutRoundH H X om s).2.2 := by
  have h1 : NoRows X (s.put (storeLp s.rest)) := h.same rfl rfl (fun _ => rfl)
  have h2 : NoRows X ((s.put (storeLp s.rest)).put (addBetaCuts (H.conf X (s.put (storeLp s.rest)).heap) ((s.put (storeLp s.rest)).view H)).2) :=
    h1.same (h1.beta _) rfl (fun _ => rfl)
  have key : ∀ (g : List (List Bool) × HM) (m : MS), m.rowCons = g.2.rest.rowCons → NoRows X g.2 → NoRows X (g.2.put m) :=
    fun g m e hg => hg.same e rfl (fun _ => rfl)
  unfold cutRoundH
  simp only
  refine key _ _ rfl ?_
  split
  · split
    · exact h2.addCuts
    · exact h2
  · split
    · exact h1.addCuts
    · exact h1

theorem NoRows.cutRounds : ∀ (n : ℕ) (acc : List (List Bool)) {s : HM}, NoRows X s → NoRows X (cutRoundsH H X om n acc s).2
  | 0, _, _, h => h
  | n + 1, acc, s, h => by
    unfold cutRoundsH
    simp only
    split
    · split
      · exact NoRows.cutRounds n _ (h.cutRound.same rfl rfl (fun _ => rfl))
      · exact h.cutRound
    · exact h

theorem NoRows.solveRmp {s : HM} (h : NoRows X s) : NoRows X (solveRmpH H X om s).2 := by
  unfold solveRmpH
  split
  · simp only
    obtain ⟨s1, hs1⟩ : ∃ s1, s1 = s.put (lpSolve om { s.rest with
      prevRmpObj := s.rest.rmpObj
      iter := s.rest.iter + 1 }) := ⟨_, rfl⟩
    dsimp only at hs1 ⊢
    rw [← hs1]
    have h1 : NoRows X s1 := by rw [hs1]; exact h.same rfl rfl (fun _ => rfl)
    obtain ⟨r, hr⟩ : ∃ r, r = (if s1.rest.iter % 10 = 0 then cutRoundsH H X om H.cutsRound [] s1 else ([], s1)) := ⟨_, rfl⟩
    have h2 : NoRows X r.2 := by
      rw [hr]
      split
      · exact NoRows.cutRounds _ _ h1
      · exact h1
    rw [← hr]
    split
    · exact h2.same rfl rfl (fun _ => rfl)
    · exact h2
  · exact h

theorem NoRows.solveIp {s : HM} (h : NoRows X s) : NoRows X (solveIpH om s).2 := by
  unfold solveIpH
  split
  · simp only
    split <;> exact h.same rfl rfl (fun _ => rfl)
  · exact h

theorem rowCons_removed (c : Conf) (splits : List Split) (paths : List Path) (rows : List Row) (l : List ℕ) (st : Model × (ℕ → Option ℕ) × List Bool)
    (h : ∀ r ∈ l, (rowAt rows r).removedFromMaster = true) : l.foldl (addRowCons c splits paths rows) st = st := by
  induction l with
  | nil => rfl
  | cons r l ih =>
    rw [List.foldl_cons]
    have e : addRowCons c splits paths rows st r = st := if_pos (h r List.mem_cons_self)
    rw [e]
    exact ih (fun q hq => h q (List.mem_cons_of_mem _ hq))

/-- `generate_mp` on nodes with which every row is short. -/
theorem NoRows.generate (hn : H.nodes.Nodup) {s : HM} (hs : Short H s.heap.node) (hg : s.rest.generated = false) (hr : s.rows = none)
    (hc : ∀ r, s.rest.rowCons r = none) : (generateMpH H X s).2 = s ∨ NoRows X (generateMpH H X s).2 := by
  cases hok : (generateMpH H X s).1 with
  | error e =>
    left
    unfold generateMpH at hok ⊢
    rw [if_neg (by rw [hg]; exact Bool.false_ne_true)] at hok ⊢
    split at hok
    · rfl
    · cases hok
  | ok u =>
    right
    obtain ⟨rs, ps, e1, e2⟩ := generateMpH_rows (X := X) hg hr hn hok
    have hlen : rs.length = X.length := by
      have := congrArg List.length e2
      simpa using this
    have hrem : ∀ a ∈ rs, ((generateMpH H X s).2.heap.row a).removedFromMaster = true := by
      intro a ha
      have hm : (generateMpH H X s).2.heap.row a ∈ rs.map (generateMpH H X s).2.heap.row := List.mem_map_of_mem ha
      rw [e2] at hm
      obtain ⟨x, -, hx⟩ := List.mem_map.1 hm
      rw [← hx]
      exact decide_eq_true (hs _)
    refine ⟨?_, rs, e1, hlen, hrem⟩
    have hat : ∀ r < X.length, (rowAt (rs.map (generateMpH H X s).2.heap.row) r).removedFromMaster = true := by
      intro r hr'
      unfold rowAt
      have hlt : r < rs.length := by omega
      simp only [List.getD_eq_getElem?_getD, List.getElem?_map, List.getElem?_eq_getElem hlt, Option.map_some, Option.getD_some]
      exact hrem _ (List.getElem_mem _)
    clear hrem e2 hok
    unfold generateMpH at e1 hat ⊢
    rw [if_neg (by rw [hg]; exact Bool.false_ne_true)] at e1 hat ⊢
    revert e1 hat
    cases createCutModel H.leaves (H.splits.map s.heap.split) (s.paths.map s.heap.path) with
    | error e => exact fun _ _ => hc
    | ok t =>
      obtain ⟨cp, sv, pv⟩ := t
      intro e1 hat r
      simp only at e1 hat ⊢
      obtain rfl := Option.some.inj e1
      split
      · exact hc r
      · rw [rowCons_removed]
        · exact hc r
        · exact fun q hq => hat q (List.mem_range.1 hq)

theorem NoRows.again {s : HM} (h : NoRows X s) : NoRows X (generateMpH H X s).2 := by
  unfold generateMpH
  split
  · exact h
  · cases createCutModel H.leaves (H.splits.map s.heap.split) (s.paths.map s.heap.path) with
    | error e => exact h
    | ok t =>
      obtain ⟨cp, sv, pv⟩ := t
      simp only
      obtain ⟨rs, e1, e2, e3⟩ := h.rows
      have hf := (addPathVarsH_frame s.paths (s.rest.m, s.heap, [])).1
      generalize (s.paths.foldl addPathVarH (s.rest.m, s.heap, [])) = pr at hf
      rw [e1]
      unfold dataRowsH
      simp only
      have hrow : ∀ a, ((computeSatisfiedPathsH H X s.paths rs pr.2.1).row a).removedFromMaster = (s.heap.row a).removedFromMaster := by
        intro a
        rw [computeSatisfiedPathsH_eq]
        simp only
        have e4 : pr.2.1.row = s.heap.row := by rw [hf]
        rw [e4]
        exact updatesIdx_keep Row.removedFromMaster
          (fun i x => satRow H.leaves (H.splits.map pr.2.1.split) (s.paths.map pr.2.1.path) X i x) (fun i x => clr_removed (satRow_clr _ _ _ _ _ _)) rs 0 s.heap.row a
      generalize computeSatisfiedPathsH H X s.paths rs pr.2.1 = h2 at hrow
      refine h.same ?_ e1.symm hrow
      simp only
      split
      · rfl
      · rw [rowCons_removed]
        intro r hr
        have hlt : r < rs.length := by rw [e2]; exact List.mem_range.1 hr
        unfold rowAt
        simp only [List.getD_eq_getElem?_getD, List.getElem?_map, List.getElem?_eq_getElem hlt, Option.map_some, Option.getD_some]
        rw [hrow]
        exact e3 _ (List.getElem_mem _)

/-- The state before and after `generate_mp` in a session on such nodes. -/
def RowFree (X : List (List ℚ)) (g : ℕ → Node) (s : HM) : Prop :=
  (s.rest.generated = false ∧ s.rows = none ∧ s.heap.node = g ∧ ∀ r, s.rest.rowCons r = none) ∨ NoRows X s

theorem rowFree_preserved (hn : H.nodes.Nodup) {g : ℕ → Node} (hs : Short H g) : Preserved (envH o H X) (fun w _ => RowFree X g w.m) := by
  constructor
  · exact fun w tr h => h
  · exact fun w tr t h => h
  · exact fun w tr s t h => h
  · exact fun w tr h => h
  · exact fun w tr h => h
  · intro w tr y h
    change RowFree X g (generateMpH H X w.m).2
    rcases h with ⟨h1, h2, h3, h4⟩ | h
    · rcases NoRows.generate (X := X) hn (h3 ▸ hs) h1 h2 h4 with e | e
      · rw [e]
        exact Or.inl ⟨h1, h2, h3, h4⟩
      · exact Or.inr e
    · exact Or.inr h.again
  · intro w tr h
    change RowFree X g (solveRmpH H X o.master w.m).2
    rcases h with ⟨h1, h2⟩ | h
    · have e : (solveRmpH H X o.master w.m).2 = w.m := by
        unfold solveRmpH
        rw [if_neg (by rw [h1]; exact Bool.false_ne_true)]
      rw [e]
      exact Or.inl ⟨h1, h2⟩
    · exact Or.inr h.solveRmp
  · exact fun w tr h => h
  · intro w tr l i D h
    change RowFree X g (updateAtH H X l i D w).2.m
    unfold updateAtH
    split
    · rcases h with ⟨h1, h2, h3, h4⟩ | h
      · exact Or.inl ⟨h1, h2, (cuts_node _ _ _ _).trans h3, h4⟩
      · exact Or.inr (h.cuts _ _ _)
    · split <;> exact h
  · exact fun w tr l i D h => h
  · intro w tr l i p h
    change RowFree X g (addColumnH H X p w.m).2
    rcases h with ⟨h1, h2, h3, h4⟩ | h
    · obtain ⟨a1, a2, a3⟩ := addColumnH_node (H := H) (X := X) p w.m
      refine Or.inl ⟨a2.trans h1, a3.trans h2, a1.trans h3, ?_⟩
      unfold addColumnH
      simp only
      split
      · exact h4
      · split <;> exact h4
    · exact Or.inr (h.addColumn p)
  · intro w tr h
    change RowFree X g (solveIpH o.master w.m).2
    rcases h with ⟨h1, h2⟩ | h
    · have e : (solveIpH o.master w.m).2 = w.m := by
        unfold solveIpH
        rw [if_neg (by rw [h1]; exact Bool.false_ne_true)]
      rw [e]
      exact Or.inl ⟨h1, h2⟩
    · exact Or.inr h.solveIp

/-- **C126, a tree of depth 1 first.** After any calls of `fit` on a classifier with a tree of depth 1 that built its master problem from the first node of a
list of new nodes, a classifier with a deeper tree constructed from the whole list has no constraint for any row, whatever the data and the solvers
are and however often `fit` is called. -/
theorem C126_no_rows {Ω2 : Type} {o2 : FitOracle Ω2} {d : ℕ} (hd : 1 < d) {h0 : Heap} {H2 : HArgs} {y y2 : List ℤ} {w : HW Ω} {Z : List (List ℚ)} {w2 : HW Ω2}
    (hw : HSession o H h0 X y w) (hgen : w.m.rest.generated = true) (hr : H.dataRows = none) (hdep : HArgs.depthOf H = 1)
    (hnodes : H.nodes = H2.nodes.take 1) (hn : H2.nodes.Nodup) {splits : List Split} (ht : Tree d H2.leaves (H2.nodes.map h0.node) splits)
    (hnew : ∀ a ∈ H2.nodes, (h0.node a).childrenAreLeaves = false) (hr2 : H2.dataRows = none) (hw2 : HSession o2 H2 w.m.heap Z y2 w2) (r : ℕ) :
    w2.m.rest.rowCons r = none := by
  have hn1 : H.nodes.Nodup := by rw [hnodes]; exact hn.sublist (List.take_sublist _ _)
  have hshort : Short H2 w.m.heap.node := by
    rcases session_marked hn1 hr hw with ⟨g, -⟩ | e
    · rw [hgen] at g
      cases g
    · intro left
      have hnodes' : H.nodes = H2.nodes.take (2 ^ 1 - 1) := hnodes
      rw [e, hdep, marked_nodes hn h0.node hnodes', depthOf_tree ht]
      refine short_one hd ht.nodes_length ht.node_id ?_ left
      intro n hn'
      obtain ⟨a, ha, rfl⟩ := List.mem_map.1 hn'
      exact hnew a ha
  have h : RowFree Z w.m.heap.node w2.m := by
    induction hw2 with
    | new ω =>
      refine Or.inl ⟨rfl, hr2, ?_, fun _ => rfl⟩
      change (H2.paths.foldl (fun h a => h.setPath a { h.path a with initial := true }) w.m.heap).node = _
      rw [marksH]
    | idle _ _ ih => exact ih
    | fit _ maxIt limit fuel e0 hr ih => exact (rowFree_preserved hn hshort).fit _ _ _ _ _ ih _ hr
  rcases h with ⟨-, -, -, h⟩ | h
  · exact h r
  · exact h.cons r

end Verif.DTree
