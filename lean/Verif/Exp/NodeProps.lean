import Mathlib.Algebra.BigOperators.Group.List.Basic
import Mathlib.Data.List.Induction
import Mathlib.Tactic.Ring
import Verif.Exp.CartProps

/-!
# C59: candidate lists and their reduction
-/

set_option linter.unusedSectionVars false
set_option linter.unusedSimpArgs false

namespace Verif.Exp

open Verif.DTree

/-! ## Vocabulary -/

/-- One call of `merge_all_nodes`: the nodes of a tree and the weight. -/
abbrev Merge := List (ℕ × Node) × ℕ

/-- What `merge_all_nodes` expects of the second dictionary: keys once, candidate lists without repetition. -/
def MergeOk (m : Merge) : Prop := (m.1.map Prod.fst).Nodup ∧ ∀ e ∈ m.1, e.2.candidateSplits.Nodup

/-- Split `s` was seen at node `n`. -/
def Merge.sees (m : Merge) (n s : ℕ) : Bool := m.1.any fun e => decide (e.1 = n ∧ s ∈ e.2.candidateSplits)

/-- Total weight of the merges that saw split `s` at node `n`. -/
def seenWeight (ms : List Merge) (n s : ℕ) : ℕ := (ms.map fun m => if m.sees n s then m.2 else 0).sum

/-- The split given to node `n` by the last merge that has the node. -/
def lastGiven (ms : List Merge) (n : ℕ) : Option ℤ := (ms.reverse.findSome? fun m => (dictGet m.1 n).map (·.lastSplit))

/-- The calls one after the other. -/
def mergeHistory (nodes : List Node) (ms : List Merge) : List Node := ms.foldl (fun nodes m => mergeAllNodes nodes m.1 m.2) nodes

/-! ## One node -/

/-- Candidates without repetition, `S` tells which, `W` their counts. -/
structure CandInv (node : Node) (W : ℕ → ℕ) (S : ℕ → Prop) : Prop where
  nodup : node.candidateSplits.Nodup
  length : node.candidateSplitsCount.length = node.candidateSplits.length
  count : ∀ (i s c : ℕ), node.candidateSplits[i]? = some s → node.candidateSplitsCount[i]? = some c → c = W s
  mem : ∀ s, s ∈ node.candidateSplits ↔ S s
  zero : ∀ s, ¬ S s → W s = 0

theorem CandInv.congr {node : Node} {W W' : ℕ → ℕ} {S S' : ℕ → Prop} (h : CandInv node W S) (hW : ∀ s, W s = W' s)
    (hS : ∀ s, S s ↔ S' s) : CandInv node W' S' := by
  obtain rfl : W = W' := funext hW
  obtain rfl : S = S' := funext fun s => propext (hS s)
  exact h

theorem CandInv.addCand {node : Node} {W : ℕ → ℕ} {S : ℕ → Prop} (h : CandInv node W S) (count s : ℕ) :
    CandInv (Exp.addCand count node s) (fun u => W u + if u = s then count else 0) (fun u => S u ∨ u = s) := by
  unfold Exp.addCand
  by_cases hs : s ∈ node.candidateSplits
  · rw [if_pos hs]
    refine ⟨h.nodup, by simpa using h.length, ?_, ?_, ?_⟩
    · intro i u c hu hc
      simp only at hu hc
      rw [List.getElem?_modify] at hc
      have hi : i < node.candidateSplits.length := (List.getElem?_eq_some_iff.1 hu).1
      have hi' : i < node.candidateSplitsCount.length := by rw [h.length]; exact hi
      obtain ⟨c0, hc0⟩ : ∃ c0, node.candidateSplitsCount[i]? = some c0 := ⟨_, List.getElem?_eq_getElem hi'⟩
      rw [hc0] at hc
      have h0 := h.count i u c0 hu hc0
      by_cases hiu : node.candidateSplits.idxOf s = i
      · have : u = s := by
          have h1 := List.getElem?_idxOf hs
          rw [hiu, hu] at h1
          exact Option.some.inj h1
        simp [hiu] at hc
        simp only [if_pos this]
        omega
      · have : u ≠ s := by
          rintro rfl
          apply hiu
          have h1 : node.candidateSplits[i] = u := (List.getElem?_eq_some_iff.1 hu).2
          rw [← h1]
          exact h.nodup.idxOf_getElem i hi
        simp [hiu] at hc
        simp only [if_neg this]
        omega
    · intro u
      simp only
      rw [h.mem]
      constructor
      · exact .inl
      · rintro (hu | rfl)
        · exact hu
        · exact (h.mem _).1 hs
    · intro u hu
      push Not at hu
      simp only [if_neg hu.2, h.zero u hu.1]
  · rw [if_neg hs]
    refine ⟨?_, by simp [h.length], ?_, ?_, ?_⟩
    · simp only
      rw [List.nodup_append]
      refine ⟨h.nodup, by simp, ?_⟩
      intro a ha b hb e
      simp only [List.mem_singleton] at hb
      exact hs (by rw [← hb, ← e]; exact ha)
    · intro i u c hu hc
      simp only at hu hc
      rcases Nat.lt_trichotomy i node.candidateSplits.length with hi | hi | hi
      · rw [List.getElem?_append_left hi] at hu
        rw [List.getElem?_append_left (by rw [h.length]; exact hi)] at hc
        have : u ≠ s := by rintro rfl; exact hs (List.mem_of_getElem? hu)
        simp only [if_neg this]
        exact h.count i u c hu hc
      · subst hi
        rw [List.getElem?_append_right le_rfl] at hu
        rw [List.getElem?_append_right (by rw [h.length]), h.length] at hc
        simp at hu hc
        have h0 := h.zero s (fun h' => hs ((h.mem s).2 h'))
        rw [← hu]
        simp [h0, hc]
      · rw [List.getElem?_eq_none (by simp; omega)] at hu
        exact absurd hu (by simp)
    · intro u
      simp only [List.mem_append, List.mem_singleton, h.mem]
    · intro u hu
      push Not at hu
      simp only [if_neg hu.2, h.zero u hu.1]

theorem addCand_static (count : ℕ) (node : Node) (s : ℕ) : (addCand count node s).id = node.id ∧ (addCand count node s).lastSplit = node.lastSplit := by
  unfold addCand
  split_ifs <;> exact ⟨rfl, rfl⟩

theorem CandInv.fold (count : ℕ) : ∀ (l : List ℕ) {node : Node} {W : ℕ → ℕ} {S : ℕ → Prop}, CandInv node W S → l.Nodup →
    CandInv (l.foldl (Exp.addCand count) node) (fun u => W u + if u ∈ l then count else 0) (fun u => S u ∨ u ∈ l)
  | [], _, _, _, h, _ => h.congr (by simp) (by simp)
  | a :: l, _, _, _, h, hn => by
    rw [List.nodup_cons] at hn
    refine (CandInv.fold count l (h.addCand count a) hn.2).congr ?_ ?_
    · intro u
      by_cases h1 : u = a
      · subst h1; simp [hn.1]
      · simp [h1]
    · intro u
      simp only [List.mem_cons, or_assoc]

theorem fold_static (count : ℕ) (l : List ℕ) (node : Node) :
    (l.foldl (addCand count) node).id = node.id ∧ (l.foldl (addCand count) node).lastSplit = node.lastSplit := by
  induction l generalizing node with
  | nil => exact ⟨rfl, rfl⟩
  | cons a l ih =>
    rw [List.foldl_cons]
    have h1 := ih (addCand count node a)
    have h2 := addCand_static count node a
    exact ⟨h1.1.trans h2.1, h1.2.trans h2.2⟩

/-! ## One merge -/

theorem mergeAll_getElem (count : ℕ) : ∀ (dict : List (ℕ × Node)) (nodes : List Node) (n : ℕ), (dict.map Prod.fst).Nodup →
    (mergeAllNodes nodes dict count)[n]? = (nodes[n]?).map fun node => match dictGet dict n with
      | some node2 => mergeNode count node node2
      | none => node
  | [], nodes, n, _ => by simp [mergeAllNodes, dictGet]
  | e :: dict, nodes, n, h => by
    simp only [List.map_cons, List.nodup_cons] at h
    have ih := mergeAll_getElem count dict (nodes.modify e.1 fun x => mergeNode count x e.2) n h.2
    have hstep : mergeAllNodes nodes (e :: dict) count = mergeAllNodes (nodes.modify e.1 fun x => mergeNode count x e.2) dict count := rfl
    rw [hstep, ih, List.getElem?_modify, dictGet]
    by_cases hn : e.1 = n
    · have hnone : dictGet dict n = none := by
        cases hd : dictGet dict n with
        | none => rfl
        | some v => exact absurd (List.mem_map_of_mem (dictGet_mem hd)) (by rw [hn] at h; exact h.1)
      simp only [hn, hnone, if_true]
      cases nodes[n]? <;> rfl
    · simp [hn]

theorem sees_iff {m : Merge} (hm : MergeOk m) (n s : ℕ) :
    m.sees n s = true ↔ ∃ node, dictGet m.1 n = some node ∧ s ∈ node.candidateSplits := by
  unfold Merge.sees
  simp only [List.any_eq_true, decide_eq_true_eq]
  constructor
  · rintro ⟨e, he, rfl, hs⟩
    exact ⟨e.2, mem_dictGet hm.1 he, hs⟩
  · rintro ⟨node, hd, hs⟩
    exact ⟨(n, node), dictGet_mem hd, rfl, hs⟩

theorem merge_inv {m : Merge} (hm : MergeOk m) {nodes : List Node} {n : ℕ} {node : Node} {W : ℕ → ℕ} {S : ℕ → Prop}
    (hn : nodes[n]? = some node) (h : CandInv node W S) : ∃ node', (mergeAllNodes nodes m.1 m.2)[n]? = some node' ∧
      CandInv node' (fun s => W s + if m.sees n s then m.2 else 0) (fun s => S s ∨ m.sees n s = true) ∧ node'.id = node.id ∧
      node'.lastSplit = ((dictGet m.1 n).map (·.lastSplit)).getD node.lastSplit := by
  have hsees := sees_iff hm n
  rw [mergeAll_getElem m.2 m.1 nodes n hm.1, hn]
  cases hd : dictGet m.1 n with
  | none =>
    have hno : ∀ s, m.sees n s = false := by
      intro s
      cases hb : m.sees n s with
      | false => rfl
      | true => obtain ⟨x, hx, _⟩ := (hsees s).1 hb; rw [hd] at hx; exact absurd hx (by simp)
    exact ⟨node, rfl, h.congr (by simp [hno]) (by simp [hno]), rfl, rfl⟩
  | some node2 =>
    have hyes : ∀ s, m.sees n s = true ↔ s ∈ node2.candidateSplits := by
      intro s
      rw [hsees s, hd]
      simp
    refine ⟨mergeNode m.2 node node2, rfl, ?_, ?_, ?_⟩
    · have h0 : CandInv { node with lastSplit := node2.lastSplit } W S := ⟨h.nodup, h.length, h.count, h.mem, h.zero⟩
      refine (h0.fold m.2 node2.candidateSplits (hm.2 _ (dictGet_mem hd))).congr ?_ ?_
      · intro s
        by_cases hs : s ∈ node2.candidateSplits
        · simp [hs, (hyes s).2 hs]
        · have : ¬ m.sees n s = true := fun h => hs ((hyes s).1 h)
          simp [hs, this]
      · intro s; rw [hyes]
    · exact (fold_static _ _ _).1
    · exact (fold_static _ _ _).2

/-! ## All merges -/

theorem history_inv (ms : List Merge) (hms : ∀ m ∈ ms, MergeOk m) {nodes : List Node} {n : ℕ} {node : Node}
    (hn : nodes[n]? = some node) (hc : node.candidateSplits = []) (hk : node.candidateSplitsCount = []) :
    ∃ node', (mergeHistory nodes ms)[n]? = some node' ∧ CandInv node' (seenWeight ms n) (fun s => ∃ m ∈ ms, m.sees n s = true) ∧
      node'.id = node.id ∧ node'.lastSplit = (lastGiven ms n).getD node.lastSplit := by
  induction ms using List.reverseRecOn with
  | nil =>
    refine ⟨node, hn, ⟨by simp [hc], by simp [hc, hk], ?_, by simp [hc], ?_⟩, rfl, rfl⟩
    · intro i s c h; rw [hc] at h; simp at h
    · intro s _; rfl
  | append_singleton ms m ih =>
    obtain ⟨x, hx, h1, h2, h3⟩ := ih (fun m' hm' => hms m' (List.mem_append_left _ hm'))
    have hm := hms m (List.mem_append_right _ (List.mem_singleton_self m))
    obtain ⟨x', hx', g1, g2, g3⟩ := merge_inv hm hx h1
    refine ⟨x', ?_, g1.congr ?_ ?_, g2.trans h2, ?_⟩
    · unfold mergeHistory at hx ⊢
      rw [List.foldl_append]
      exact hx'
    · intro s
      unfold seenWeight
      simp
    · intro s
      simp only [List.mem_append, List.mem_singleton]
      constructor
      · rintro (⟨m', hm', h⟩ | h)
        · exact ⟨m', .inl hm', h⟩
        · exact ⟨m, .inr rfl, h⟩
      · rintro ⟨m', hm' | rfl, h⟩
        · exact .inl ⟨m', hm', h⟩
        · exact .inr h
    · rw [g3, h3]
      unfold lastGiven
      rw [List.reverse_append, List.reverse_singleton, List.singleton_append, List.findSome?_cons]
      cases (dictGet m.1 n).map (·.lastSplit) <;> rfl

theorem mergeAllNodes_length (nodes : List Node) (dict : List (ℕ × Node)) (count : ℕ) : (mergeAllNodes nodes dict count).length = nodes.length := by
  unfold mergeAllNodes
  induction dict generalizing nodes with
  | nil => rfl
  | cons e dict ih => rw [List.foldl_cons, ih]; simp

theorem mergeHistory_length (ms : List Merge) (nodes : List Node) : (mergeHistory nodes ms).length = nodes.length := by
  unfold mergeHistory
  induction ms generalizing nodes with
  | nil => rfl
  | cons m ms ih => rw [List.foldl_cons, ih, mergeAllNodes_length]

/-- **C59, first part.** After any sequence of merges into nodes without candidates, every node has every split that was seen there exactly
once as candidate, the count at the same position is the total weight of the merges that saw it, and the last split is that of the last
merge having the node. -/
theorem C59_merge (ms : List Merge) (hms : ∀ m ∈ ms, MergeOk m) (d : ℕ) (n : ℕ) (hn : n < 2 ^ d - 1) :
    (mergeHistory (freshNodes d) ms).length = 2 ^ d - 1 ∧
    ∃ node, (mergeHistory (freshNodes d) ms)[n]? = some node ∧ node.id = n ∧ node.candidateSplits.Nodup ∧
      (∀ s, s ∈ node.candidateSplits ↔ ∃ m ∈ ms, m.sees n s = true) ∧
      node.candidateSplitsCount = node.candidateSplits.map (seenWeight ms n) ∧
      node.lastSplit = (lastGiven ms n).getD (-1) := by
  have h0 : (freshNodes d)[n]? = some ⟨n, [], [], -1, -1, 0, 0, false⟩ := by
    unfold freshNodes
    rw [List.getElem?_map, List.getElem?_range hn]
    rfl
  refine ⟨by rw [mergeHistory_length]; simp [freshNodes], ?_⟩
  obtain ⟨node, g0, g1, g2, g3⟩ := history_inv ms hms h0 rfl rfl
  refine ⟨node, g0, g2, g1.nodup, g1.mem, ?_, g3⟩
  apply List.ext_getElem?
  intro i
  rw [List.getElem?_map]
  by_cases hi : i < node.candidateSplits.length
  · obtain ⟨s, hs⟩ : ∃ s, node.candidateSplits[i]? = some s := ⟨_, List.getElem?_eq_getElem hi⟩
    obtain ⟨c, hc⟩ : ∃ c, node.candidateSplitsCount[i]? = some c := ⟨_, List.getElem?_eq_getElem (by rw [g1.length]; exact hi)⟩
    rw [hs, hc, g1.count i s c hs hc]
    rfl
  · have := g1.length
    rw [List.getElem?_eq_none (by omega), List.getElem?_eq_none (by omega)]
    rfl

/-! ## Reduction -/

instance : Std.Total geLex := ⟨fun a b => by unfold geLex; omega⟩
instance : IsTrans (ℕ × ℕ) geLex := ⟨fun a b c => by unfold geLex; omega⟩

/-- The pairs of counts and candidates. -/
def Node.entries (n : Node) : List (ℕ × ℕ) := n.candidateSplitsCount.zip n.candidateSplits

/-- `node'` is the node reduced to `q` candidates: same node, as many of the old entries as possible, no other, the most frequent, the larger id
first among equally frequent ones. -/
structure Reduced (q : ℕ) (node node' : Node) : Prop where
  same : node' = { node with
    candidateSplits := node'.candidateSplits
    candidateSplitsCount := node'.candidateSplitsCount }
  nodup : node'.candidateSplits.Nodup
  parallel : node'.candidateSplitsCount.length = node'.candidateSplits.length
  size : node'.candidateSplits.length = min q node.candidateSplits.length
  old : ∀ e ∈ Node.entries node', e ∈ Node.entries node
  best : ∀ e ∈ Node.entries node, e ∉ Node.entries node' → ∀ e' ∈ Node.entries node', e.1 < e'.1 ∨ (e.1 = e'.1 ∧ e.2 < e'.2)

theorem zip_take_map {α β : Type} (l : List (α × β)) (q : ℕ) : ((l.map Prod.fst).take q).zip ((l.map Prod.snd).take q) = l.take q := by
  rw [← List.map_take, ← List.map_take]
  induction l.take q with
  | nil => rfl
  | cons a l ih => simp [ih]

theorem reduceNode_spec {qRoot qNode : ℕ} {node : Node} (hn : node.candidateSplits.Nodup)
    (hl : node.candidateSplitsCount.length = node.candidateSplits.length) (hne : node.candidateSplits ≠ []) :
    ∃ node', reduceNode qRoot qNode node = .ok node' ∧ Reduced (if node.id = 0 then qRoot else qNode) node node' := by
  obtain ⟨q, hq⟩ : ∃ q, q = if node.id = 0 then qRoot else qNode := ⟨_, rfl⟩
  obtain ⟨srt, hsrt⟩ : ∃ srt, srt = (node.candidateSplitsCount.zip node.candidateSplits).insertionSort geLex := ⟨_, rfl⟩
  have hperm : srt.Perm (node.candidateSplitsCount.zip node.candidateSplits) := hsrt ▸ List.perm_insertionSort _ _
  have hpw : srt.Pairwise geLex := hsrt ▸ List.pairwise_insertionSort _ _
  have hlen : srt.length = node.candidateSplits.length := by rw [hperm.length_eq]; simp [hl]
  have hne' : srt ≠ [] := by
    intro e; rw [e] at hlen; exact hne (List.length_eq_zero_iff.1 hlen.symm)
  have hsnd : (srt.map Prod.snd).Nodup := by
    rw [(hperm.map Prod.snd).nodup_iff, List.map_snd_zip (by omega)]
    exact hn
  have hval : reduceNode qRoot qNode node = .ok { node with
    candidateSplitsCount := (srt.map Prod.fst).take q
    candidateSplits := (srt.map Prod.snd).take q } := by
    unfold reduceNode
    simp only [← hsrt, ← hq]
    exact if_neg hne'
  refine ⟨_, hval, ?_⟩
  rw [← hq]
  have hent : Node.entries { node with
    candidateSplitsCount := (srt.map Prod.fst).take q
    candidateSplits := (srt.map Prod.snd).take q } = srt.take q := zip_take_map srt q
  refine ⟨rfl, ?_, ?_, ?_, ?_, ?_⟩
  · exact hsnd.sublist (List.take_sublist _ _)
  · simp
  · simp [hlen]
  · intro e he
    rw [hent] at he
    exact hperm.mem_iff.1 (List.mem_of_mem_take he)
  · intro e he hnot e' he'
    rw [hent] at hnot he'
    have hdrop : e ∈ srt.drop q := by
      have := hperm.mem_iff.2 he
      rw [← List.take_append_drop q srt, List.mem_append] at this
      exact this.resolve_left hnot
    have hge : geLex e' e := by
      have := hpw
      rw [← List.take_append_drop q srt, List.pairwise_append] at this
      exact this.2.2 e' he' e hdrop
    have hne2 : e ≠ e' := fun h => hnot (h ▸ he')
    unfold geLex at hge
    rcases hge with h | ⟨h1, h2⟩
    · exact .inl h
    · refine .inr ⟨h1, lt_of_le_of_ne h2 fun h => hne2 (Prod.ext h1 h)⟩

theorem mapM_ok {α β ε : Type} {f : α → Except ε β} {R : α → β → Prop} (l : List α) (h : ∀ a ∈ l, ∃ b, f a = .ok b ∧ R a b) :
    ∃ bs, l.mapM f = .ok bs ∧ bs.length = l.length ∧ ∀ (i : ℕ) a, l[i]? = some a → ∃ b, bs[i]? = some b ∧ R a b := by
  induction l with
  | nil => exact ⟨[], rfl, rfl, by simp⟩
  | cons a l ih =>
    obtain ⟨b, hb, hR⟩ := h a List.mem_cons_self
    obtain ⟨bs, hbs, hl, hi⟩ := ih fun x hx => h x (List.mem_cons_of_mem _ hx)
    refine ⟨b :: bs, ?_, by simp [hl], ?_⟩
    · rw [List.mapM_cons, hb, hbs]; rfl
    · intro i x hx
      cases i with
      | zero => simp at hx; subst hx; exact ⟨b, by simp, hR⟩
      | succ i => simp at hx; obtain ⟨b', h1, h2⟩ := hi i x hx; exact ⟨b', by simpa using h1, h2⟩

theorem mapM_err {α β ε : Type} {f : α → Except ε β} {l : List α} {a : α} (ha : a ∈ l) {e : ε} (hf : ∀ b ∈ l, (∃ c, f b = .ok c) ∨ f b = .error e)
    (hfa : f a = .error e) : l.mapM f = .error e := by
  induction l with
  | nil => simp at ha
  | cons b l ih =>
    rw [List.mapM_cons]
    rcases hf b List.mem_cons_self with ⟨c, hc⟩ | hc
    · rw [hc]
      have : a ∈ l := by
        rcases List.mem_cons.1 ha with rfl | h
        · rw [hfa] at hc; exact absurd hc (by simp)
        · exact h
      have h2 := ih this fun x hx => hf x (List.mem_cons_of_mem _ hx)
      change (l.mapM f >>= fun bs => pure (c :: bs)) = _
      rw [h2]
      rfl
    · rw [hc]; rfl

/-- **C59, second part.** If the nodes have candidate lists without repetition, parallel counts and at least one candidate, `reduce_splits`
reduces the root to `q_root` and every other node to `q_node` candidates, the most frequent ones, and a split is removed iff no node keeps it;
nothing else changes. -/
theorem C59_reduce (nodes : List Node) (splits : List Split) (qRoot qNode : ℕ) (hn : ∀ n ∈ nodes, n.candidateSplits.Nodup)
    (hl : ∀ n ∈ nodes, n.candidateSplitsCount.length = n.candidateSplits.length) (hne : ∀ n ∈ nodes, n.candidateSplits ≠ []) :
    ∃ nodes' splits', reduceSplits nodes splits qRoot qNode = .ok (nodes', splits') ∧
      nodes'.length = nodes.length ∧ splits'.length = splits.length ∧
      (∀ (i : ℕ) n, nodes[i]? = some n → ∃ n', nodes'[i]? = some n' ∧ Reduced (if n.id = 0 then qRoot else qNode) n n') ∧
      (∀ (i : ℕ) sp, splits[i]? = some sp → ∃ sp', splits'[i]? = some sp' ∧
        (∃ b, sp' = { sp with removed := b }) ∧ (sp'.removed = true ↔ ∀ n ∈ nodes', sp.id ∉ n.candidateSplits)) := by
  obtain ⟨nodes', h1, h2, h3⟩ := mapM_ok (R := fun n n' => Reduced (if n.id = 0 then qRoot else qNode) n n')
    (f := reduceNode qRoot qNode) nodes fun n hm => reduceNode_spec (hn n hm) (hl n hm) (hne n hm)
  refine ⟨nodes', _, by unfold reduceSplits; rw [h1], h2, by simp, h3, ?_⟩
  intro i sp hsp
  rw [List.getElem?_map, hsp]
  refine ⟨_, rfl, ⟨_, rfl⟩, ?_⟩
  simp

/-- A node without candidates makes `reduce_splits` raise `ValueError`. -/
theorem C59_reduce_error (nodes : List Node) (splits : List Split) (qRoot qNode : ℕ) (n : Node) (hn : n ∈ nodes) (he : n.candidateSplits = []) :
    reduceSplits nodes splits qRoot qNode = .error .valueError := by
  have : nodes.mapM (reduceNode qRoot qNode) = .error .valueError := by
    refine mapM_err hn ?_ ?_
    · intro b _
      unfold reduceNode
      simp only
      by_cases hs : (b.candidateSplitsCount.zip b.candidateSplits).insertionSort geLex = []
      · exact .inr (if_pos hs)
      · exact .inl ⟨_, if_neg hs⟩
    · unfold reduceNode
      simp [he]
  unfold reduceSplits
  rw [this]

/-! ## Concrete cases -/

namespace Demo

/-- A node as a tree brings it. -/
def one (id s : ℕ) : ℕ × Node := (id, ⟨id, [s], [1], s, -1, 0, 0, false⟩)

/-- Four trees of depth 2; the last one has weight 1000 and lacks node 2. -/
def ms : List Merge := [([one 0 0, one 1 1], 1), ([one 0 2, one 2 1], 1), ([one 0 2, one 1 3], 1), ([one 0 0, one 1 1], 1000)]

def merged : List Node := mergeHistory (freshNodes 2) ms

/-- The hypotheses of `C59_merge` hold and the counts add up. -/
example : (∀ m ∈ ms, MergeOk m) ∧ merged.map (fun n => (n.candidateSplits, n.candidateSplitsCount, n.lastSplit)) =
    [([0, 2], [1001, 2], 0), ([1, 3], [1001, 1], 1), ([1], [1], 1)] := by
  refine ⟨?_, by decide +kernel⟩
  unfold MergeOk
  decide +kernel

/-- The hypotheses of `C59_reduce` hold; with one candidate per node the splits 2 and 3 are removed. -/
example : (∀ n ∈ merged, n.candidateSplits.Nodup) ∧ (∀ n ∈ merged, n.candidateSplitsCount.length = n.candidateSplits.length) ∧
    (∀ n ∈ merged, n.candidateSplits ≠ []) ∧
    (reduceSplits merged ((List.range 4).map fun i => ⟨i, 0, i, false, [], [], [], []⟩) 1 1).toOption.map
      (fun r => (r.1.map (·.candidateSplits), r.2.map (·.removed))) = some ([[0], [1], [1]], [false, false, true, true]) := by
  refine ⟨by decide +kernel, by decide +kernel, by decide +kernel, by decide +kernel⟩

/-- A tie: the larger id is kept. -/
example : (reduceNode 1 1 ⟨0, [4, 7, 5], [2, 2, 1], 4, -1, 0, 0, false⟩).toOption.map (·.candidateSplits) = some [7] := by decide +kernel

/-- Without merges the nodes have no candidates. -/
example : reduceSplits (freshNodes 2) [] 1 1 = .error .valueError :=
  C59_reduce_error _ _ _ _ ⟨0, [], [], -1, -1, 0, 0, false⟩ (by decide) rfl

end Demo

end Verif.Exp
