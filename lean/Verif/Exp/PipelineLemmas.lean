import Verif.Exp.PathProps

/-!
# Nodes and splits along the preparation of the experiment
-/

set_option linter.unusedSectionVars false
set_option linter.unusedSimpArgs false

namespace Verif.Exp

open Verif.DTree Verif.DTree.Spec

/-! ## The nodes of one tree -/

theorem cartNode_known {all : Splits} (hall : SplitsOk all) {m : ℕ} {key : ℕ × ℚ} (hk : key ∈ all.map Prod.fst) :
    ∃ k < all.length, cartNode all m key = ⟨m, [k], [1], k, -1, 0, 0, false⟩ := by
  obtain ⟨sp, hsp⟩ := Option.isSome_iff_exists.1 ((dictGet_isSome all key).2 hk)
  have hmem := dictGet_mem hsp
  obtain ⟨i, hi, e⟩ := List.mem_iff_getElem.1 hmem
  have := hall.entry i key sp (by rw [List.getElem?_eq_getElem hi, e])
  refine ⟨i, hi, ?_⟩
  unfold cartNode
  rw [hsp]
  simp [this]

theorem cartNode_cases {all : Splits} (hall : SplitsOk all) (m : ℕ) (key : ℕ × ℚ) :
    (∃ k < all.length, cartNode all m key = ⟨m, [k], [1], k, -1, 0, 0, false⟩) ∨ cartNode all m key = ⟨m, [], [], -1, -1, 0, 0, false⟩ := by
  by_cases hk : key ∈ all.map Prod.fst
  · exact .inl (cartNode_known hall hk)
  · right
    have : dictGet all key = none := by
      cases h : dictGet all key with
      | none => rfl
      | some v => exact absurd ((dictGet_isSome all key).1 (by rw [h]; rfl)) hk
    unfold cartNode
    rw [this]

/-- The keys of the dictionary are the heap numbers of the inner nodes of the tree. -/
def CartKeys (c : Cart) (dict : List (ℕ × Node)) : Prop :=
  ∀ n, n ∈ dict.map Prod.fst ↔ ∃ i w, i < c.size ∧ c.isLeaf i = false ∧ c.At i w ∧ n = heapId w

/-- An entry with one split below `m`. -/
def OneSplit (m : ℕ) (e : ℕ × Node) : Prop := ∃ k < m, e.2.candidateSplits = [k] ∧ e.2.lastSplit = (k : ℤ)

structure DictOk (d m : ℕ) (dict : List (ℕ × Node)) : Prop where
  nodup : (dict.map Prod.fst).Nodup
  lt : ∀ n ∈ dict.map Prod.fst, n < 2 ^ d - 1
  one : ∀ e ∈ dict, OneSplit m e

theorem DictOk.mono {d m m' : ℕ} {dict : List (ℕ × Node)} (h : DictOk d m dict) (hm : m ≤ m') : DictOk d m' dict :=
  ⟨h.nodup, h.lt, fun e he => let ⟨k, h1, h2⟩ := h.one e he; ⟨k, by omega, h2⟩⟩

theorem DictOk.mergeOk {d m : ℕ} {dict : List (ℕ × Node)} (h : DictOk d m dict) (count : ℕ) : MergeOk (dict, count) :=
  ⟨h.nodup, fun e he => let ⟨k, _, h2, _⟩ := h.one e he; by rw [h2]; simp⟩

theorem keys_of_spec {c : Cart} {all : Splits} {dict : List (ℕ × Node)}
    (h : ∀ m n, (m, n) ∈ dict ↔ ∃ i < c.size, c.isLeaf i = false ∧ ∃ w, c.At i w ∧ m = heapId w ∧ n = cartNode all m (c.key i)) :
    CartKeys c dict := by
  intro n
  constructor
  · intro hn
    obtain ⟨e, he, rfl⟩ := List.mem_map.1 hn
    obtain ⟨i, hi, hl, w, hw, e1, _⟩ := (h e.1 e.2).1 he
    exact ⟨i, w, hi, hl, hw, e1⟩
  · rintro ⟨i, w, hi, hl, hw, e1⟩
    exact List.mem_map.2 ⟨(n, cartNode all n (c.key i)), (h _ _).2 ⟨i, hi, hl, w, hw, e1, rfl⟩, rfl⟩

theorem getAllNodes_known {d : ℕ} {c : Cart} (hc : CartOk d c) {all : Splits} (hall : SplitsOk all)
    (hk : ∀ k ∈ c.keys, k ∈ all.map Prod.fst) : ∃ dict, getAllNodes c all = .ok dict ∧ DictOk d all.length dict ∧ CartKeys c dict := by
  obtain ⟨dict, h1, h2, h3⟩ := getAllNodes_spec hc all
  refine ⟨dict, h1, ⟨h2, ?_, ?_⟩, keys_of_spec h3⟩
  · intro n hn
    obtain ⟨i, w, hi, hl, hw, e⟩ := (keys_of_spec h3 n).1 hn
    rw [e]
    exact heapId_lt (hc.depth i w hw hl)
  · intro e he
    obtain ⟨i, hi, hl, w, hw, e1, e2⟩ := (h3 e.1 e.2).1 he
    have hkey : c.key i ∈ c.keys := by
      unfold Cart.keys
      exact List.mem_map_of_mem (List.mem_filter.2 ⟨List.mem_range.2 hi, by simp [hl]⟩)
    obtain ⟨k, hk1, hk2⟩ := cartNode_known (m := e.1) hall (hk _ hkey)
    exact ⟨k, hk1, by rw [e2, hk2], by rw [e2, hk2]⟩

/-! ## The first loop -/

/-- What the loop over trees keeps true: `ms` are the merges so far. -/
structure PipeInv (d : ℕ) (carts : List Cart) (weights : List ℕ) (st : Splits × List Node) (ms : List Merge) : Prop where
  splits : SplitsOk st.1
  keys : ∀ k, k ∈ st.1.map Prod.fst ↔ ∃ c ∈ carts, k ∈ c.keys
  nodes : st.2 = mergeHistory (freshNodes d) ms
  weights : ms.map Prod.snd = weights
  dicts : ∀ m ∈ ms, DictOk d st.1.length m.1
  trees : List.Forall₂ (fun c m => CartKeys c m.1) carts ms

theorem PipeInv.nil (d : ℕ) : PipeInv d [] [] ([], freshNodes d) [] :=
  ⟨SplitsOk.nil, by simp, rfl, rfl, by simp, List.Forall₂.nil⟩

theorem mergeCart_ok {d : ℕ} {carts : List Cart} {weights : List ℕ} {st : Splits × List Node} {ms : List Merge} (h : PipeInv d carts weights st ms)
    {c : Cart} (hc : CartOk d c) (count : ℕ) : ∃ st' ms', mergeCart count st c = .ok st' ∧
      PipeInv d (carts ++ [c]) (weights ++ [count]) st' ms' ∧ ∃ dict, ms' = ms ++ [(dict, count)] ∧ CartKeys c dict ∧
        getAllNodes c st'.1 = .ok dict := by
  obtain ⟨a1, a2, a3⟩ := mergeAllSplits_ok (getAllSplits c) h.splits
  obtain ⟨_, g2⟩ := getAllSplits_ok c
  obtain ⟨dict, d1, d2, d3⟩ := getAllNodes_known hc a1 (fun k hk => (a3 k).2 (.inr ((g2 k).2 hk)))
  refine ⟨(mergeAllSplits st.1 (getAllSplits c), mergeAllNodes st.2 dict count), ms ++ [(dict, count)], by unfold mergeCart; rw [d1], ⟨a1, ?_, ?_, ?_, ?_, ?_⟩, dict, rfl, d3, d1⟩
  · intro k
    refine (a3 k).trans ?_
    rw [h.keys, g2]
    simp only [List.mem_append, List.mem_singleton]
    constructor
    · rintro (⟨c', h1, h2⟩ | h)
      · exact ⟨c', .inl h1, h2⟩
      · exact ⟨c, .inr rfl, h⟩
    · rintro ⟨c', h1 | rfl, h2⟩
      · exact .inl ⟨c', h1, h2⟩
      · exact .inr h2
  · simp only [h.nodes]
    unfold mergeHistory
    rw [List.foldl_append]
    rfl
  · rw [List.map_append, h.weights]; rfl
  · intro m hm
    rcases List.mem_append.1 hm with hm | hm
    · exact (h.dicts m hm).mono a2.length_le
    · rw [List.mem_singleton.1 hm]; exact d2
  · exact List.rel_append h.trees (List.Forall₂.cons d3 List.Forall₂.nil)

theorem mergeCarts_ok {d : ℕ} : ∀ (new : List Cart) {carts : List Cart} {weights : List ℕ} {st : Splits × List Node} {ms : List Merge},
    PipeInv d carts weights st ms → (∀ c ∈ new, CartOk d c) → ∃ st' ms', new.foldlM (mergeCart 1) st = .ok st' ∧
      PipeInv d (carts ++ new) (weights ++ new.map fun _ => 1) st' ms'
  | [], _, _, st, ms, h, _ => ⟨st, ms, rfl, by simpa using h⟩
  | c :: new, _, _, st, ms, h, hc => by
    obtain ⟨st1, ms1, e1, h1, _⟩ := mergeCart_ok h (hc c List.mem_cons_self) 1
    obtain ⟨st2, ms2, e2, h2⟩ := mergeCarts_ok new h1 fun x hx => hc x (List.mem_cons_of_mem _ hx)
    refine ⟨st2, ms2, ?_, by simpa using h2⟩
    rw [List.foldlM_cons, e1]
    exact e2

/-! ## Nodes after the loop -/

/-- The nodes before the reduction. `m` is the number of splits. -/
structure NodesOk (d m : ℕ) (nodes : List Node) : Prop where
  length : nodes.length = 2 ^ d - 1
  id : ∀ (i : ℕ) n, nodes[i]? = some n → n.id = i
  nodup : ∀ n ∈ nodes, n.candidateSplits.Nodup
  parallel : ∀ n ∈ nodes, n.candidateSplitsCount.length = n.candidateSplits.length
  lt : ∀ n ∈ nodes, ∀ s ∈ n.candidateSplits, s < m
  leaf : ∀ n ∈ nodes, n.childrenAreLeaves = false

theorem mergeNode_leaf (count : ℕ) (node node2 : Node) : (mergeNode count node node2).childrenAreLeaves = node.childrenAreLeaves := by
  unfold mergeNode
  have : ∀ (l : List ℕ) (x : Node), (l.foldl (addCand count) x).childrenAreLeaves = x.childrenAreLeaves := by
    intro l
    induction l with
    | nil => intro x; rfl
    | cons a l ih =>
      intro x
      rw [List.foldl_cons, ih]
      unfold addCand
      split_ifs <;> rfl
  rw [this]

theorem mergeHistory_leaf (ms : List Merge) (nodes : List Node) (h : ∀ n ∈ nodes, n.childrenAreLeaves = false) :
    ∀ n ∈ mergeHistory nodes ms, n.childrenAreLeaves = false := by
  unfold mergeHistory mergeAllNodes
  induction ms generalizing nodes with
  | nil => exact h
  | cons m ms ih =>
    rw [List.foldl_cons]
    apply ih
    generalize m.1 = dict
    induction dict generalizing nodes with
    | nil => exact h
    | cons e dict ih2 =>
      rw [List.foldl_cons]
      apply ih2
      intro n hn
      obtain ⟨i, hi, e'⟩ := List.mem_iff_getElem.1 hn
      rw [List.getElem_modify] at e'
      have h0 := h _ (List.getElem_mem (by simpa using hi : i < nodes.length))
      split_ifs at e'
      · rw [← e', mergeNode_leaf]; exact h0
      · rw [← e']; exact h0

theorem DictOk.sees {d m n s count : ℕ} {dict : List (ℕ × Node)} (h : DictOk d m dict) : Merge.sees (dict, count) n s = true ↔
    ∃ node, dictGet dict n = some node ∧ node.candidateSplits = [s] ∧ node.lastSplit = (s : ℤ) ∧ s < m := by
  rw [sees_iff (h.mergeOk count)]
  constructor
  · rintro ⟨node, h1, h2⟩
    obtain ⟨k, k1, k2, k3⟩ := h.one _ (dictGet_mem h1)
    simp only at k2 k3
    rw [k2] at h2
    obtain rfl := List.mem_singleton.1 h2
    exact ⟨node, h1, k2, k3, k1⟩
  · rintro ⟨node, h1, h2, _⟩
    exact ⟨node, h1, by rw [h2]; simp⟩

theorem findSome_mem {α β : Type} {f : α → Option β} {l : List α} {b : β} (h : l.findSome? f = some b) : ∃ a ∈ l, f a = some b := by
  obtain ⟨a, h1, h2⟩ := List.exists_of_findSome?_eq_some h
  exact ⟨a, h1, h2⟩

/-- Nodes after the loop: everything about node `n`. -/
theorem PipeInv.node {d : ℕ} {carts : List Cart} {weights : List ℕ} {st : Splits × List Node} {ms : List Merge} (h : PipeInv d carts weights st ms)
    {n : ℕ} (hn : n < 2 ^ d - 1) : ∃ node, st.2[n]? = some node ∧ node.id = n ∧ node.candidateSplits.Nodup ∧
      (∀ s, s ∈ node.candidateSplits ↔ ∃ m ∈ ms, m.sees n s = true) ∧
      node.candidateSplitsCount = node.candidateSplits.map (seenWeight ms n) ∧
      node.lastSplit = (lastGiven ms n).getD (-1) ∧ (∀ s ∈ node.candidateSplits, s < st.1.length) ∧
      (node.candidateSplits ≠ [] → ∃ s ∈ node.candidateSplits, node.lastSplit = (s : ℤ)) := by
  have hms : ∀ m ∈ ms, MergeOk m := fun m hm => (h.dicts m hm).mergeOk m.2
  obtain ⟨_, node, h1, h2, h3, h4, h5, h6⟩ := C59_merge ms hms d n hn
  rw [← h.nodes] at h1
  refine ⟨node, h1, h2, h3, h4, h5, h6, ?_, ?_⟩
  · intro s hs
    obtain ⟨m, hm, hse⟩ := (h4 s).1 hs
    obtain ⟨_, _, _, _, hlt⟩ := (h.dicts m hm).sees.1 hse
    exact hlt
  · intro hne
    obtain ⟨s, hs⟩ := List.exists_mem_of_ne_nil _ hne
    obtain ⟨m, hm, hse⟩ := (h4 s).1 hs
    obtain ⟨x, hx, _, hl, _⟩ := (h.dicts m hm).sees.1 hse
    have hsome : (lastGiven ms n).isSome := by
      unfold lastGiven
      rw [List.findSome?_isSome_iff]
      exact ⟨m, by simpa using hm, by rw [hx]; rfl⟩
    obtain ⟨z, hz⟩ := Option.isSome_iff_exists.1 hsome
    obtain ⟨m', hm', hz'⟩ := findSome_mem hz
    rw [List.mem_reverse] at hm'
    cases hg : dictGet m'.1 n with
    | none => rw [hg] at hz'; exact absurd hz' (by simp)
    | some x' =>
      rw [hg] at hz'
      simp only [Option.map_some, Option.some.injEq] at hz'
      obtain ⟨k, k1, k2, k3⟩ := (h.dicts m' hm').one _ (dictGet_mem hg)
      refine ⟨k, (h4 k).2 ⟨m', hm', (h.dicts m' hm').sees.2 ⟨x', hg, k2, k3, k1⟩⟩, ?_⟩
      rw [h6, hz, ← hz']
      exact k3

theorem PipeInv.nodesOk {d : ℕ} {carts : List Cart} {weights : List ℕ} {st : Splits × List Node} {ms : List Merge} (h : PipeInv d carts weights st ms) :
    NodesOk d st.1.length st.2 := by
  have hlen : st.2.length = 2 ^ d - 1 := by rw [h.nodes, mergeHistory_length]; simp [freshNodes]
  have hall : ∀ n ∈ st.2, n.candidateSplits.Nodup ∧ n.candidateSplitsCount.length = n.candidateSplits.length ∧
      ∀ s ∈ n.candidateSplits, s < st.1.length := by
    intro n hn
    obtain ⟨i, hi, e⟩ := List.mem_iff_getElem.1 hn
    obtain ⟨x, x1, x2, x3, x4, x5, x6, x7, x8⟩ := h.node (n := i) (by omega)
    rw [List.getElem?_eq_getElem hi, e] at x1
    obtain rfl := Option.some.inj x1
    exact ⟨x3, by rw [x5]; simp, x7⟩
  refine ⟨hlen, ?_, fun n hn => (hall n hn).1, fun n hn => (hall n hn).2.1, fun n hn => (hall n hn).2.2, ?_⟩
  · intro i n hi
    have hlt := (List.getElem?_eq_some_iff.1 hi).1
    obtain ⟨x, x1, x2, _⟩ := h.node (n := i) (by omega)
    rw [hi] at x1
    rw [Option.some.inj x1, x2]
  · rw [h.nodes]
    refine mergeHistory_leaf ms _ ?_
    intro n hn
    unfold freshNodes at hn
    obtain ⟨_, _, rfl⟩ := List.mem_map.1 hn
    rfl

/-! ## Nodes without candidates get split 0 -/

/-- Every node has a candidate and its last split is one. -/
structure FilledOk (d m : ℕ) (nodes : List Node) : Prop extends NodesOk d m nodes where
  last : ∀ n ∈ nodes, ∃ s ∈ n.candidateSplits, n.lastSplit = (s : ℤ)

theorem fillEmpty_get (nodes : List Node) (i : ℕ) : (fillEmpty nodes)[i]? = (nodes[i]?).map fun n => if n.candidateSplits = [] then
      { n with
        candidateSplits := [0]
        candidateSplitsCount := n.candidateSplitsCount ++ [0]
        lastSplit := 0 }
    else n := by
  unfold fillEmpty
  rw [List.getElem?_map]

theorem fillEmpty_ok {d m : ℕ} {nodes : List Node} (h : NodesOk d m nodes) (hm : 0 < m)
    (hl : ∀ n ∈ nodes, n.candidateSplits ≠ [] → ∃ s ∈ n.candidateSplits, n.lastSplit = (s : ℤ)) : FilledOk d m (fillEmpty nodes) := by
  have hmem : ∀ n' ∈ fillEmpty nodes, ∃ n ∈ nodes, n' = if n.candidateSplits = [] then
      { n with
        candidateSplits := [0]
        candidateSplitsCount := n.candidateSplitsCount ++ [0]
        lastSplit := 0 } else n := by
    intro n' hn'
    obtain ⟨n, h1, h2⟩ := List.mem_map.1 hn'
    exact ⟨n, h1, h2.symm⟩
  refine ⟨⟨by unfold fillEmpty; rw [List.length_map, h.length], ?_, ?_, ?_, ?_, ?_⟩, ?_⟩
  · intro i n hn
    rw [fillEmpty_get] at hn
    cases hg : nodes[i]? with
    | none => rw [hg] at hn; exact absurd hn (by simp)
    | some x =>
      rw [hg] at hn
      simp only [Option.map_some, Option.some.injEq] at hn
      rw [← hn]
      split_ifs
      · exact h.id i x hg
      · exact h.id i x hg
  · intro n' hn'
    obtain ⟨n, h1, rfl⟩ := hmem n' hn'
    split_ifs
    · simp
    · exact h.nodup n h1
  · intro n' hn'
    obtain ⟨n, h1, rfl⟩ := hmem n' hn'
    split_ifs with he
    · have := h.parallel n h1
      rw [he] at this
      simpa using this
    · exact h.parallel n h1
  · intro n' hn'
    obtain ⟨n, h1, rfl⟩ := hmem n' hn'
    split_ifs
    · intro s hs
      rw [List.mem_singleton.1 hs]; exact hm
    · exact h.lt n h1
  · intro n' hn'
    obtain ⟨n, h1, rfl⟩ := hmem n' hn'
    split_ifs
    · exact h.leaf n h1
    · exact h.leaf n h1
  · intro n' hn'
    obtain ⟨n, h1, rfl⟩ := hmem n' hn'
    split_ifs with he
    · exact ⟨0, by simp, rfl⟩
    · exact hl n h1 he

theorem PipeInv.filledOk {d : ℕ} {carts : List Cart} {weights : List ℕ} {st : Splits × List Node} {ms : List Merge} (h : PipeInv d carts weights st ms)
    (hm : 0 < st.1.length) : FilledOk d st.1.length (fillEmpty st.2) := by
  refine fillEmpty_ok h.nodesOk hm ?_
  intro n hn hne
  obtain ⟨i, hi, e⟩ := List.mem_iff_getElem.1 hn
  obtain ⟨x, x1, _, _, _, _, _, _, x8⟩ := h.node (n := i) (by have := h.nodesOk.length; omega)
  rw [List.getElem?_eq_getElem hi, e] at x1
  obtain rfl := Option.some.inj x1
  exact x8 hne

theorem FilledOk.lastOf {d m : ℕ} {nodes : List Node} (h : FilledOk d m nodes) {n : ℕ} (hn : n < 2 ^ d - 1) : lastOf nodes n < m := by
  have hi : n < nodes.length := by rw [h.length]; exact hn
  have hmem := List.getElem_mem hi
  obtain ⟨s, h1, h2⟩ := h.last _ hmem
  have e : nodeAt nodes n = nodes[n] := by
    unfold nodeAt; rw [List.getD_eq_getElem?_getD, List.getElem?_eq_getElem hi]; rfl
  unfold Exp.lastOf
  rw [e, h2]
  exact h.lt _ hmem s h1

/-! ## The list of splits -/

theorem known_map_some (l : List Split) : known (l.map some) = l := by
  unfold known
  induction l with
  | nil => rfl
  | cons a l ih => simp

/-- The splits of the classifier, up to the `removed` flags and the row sets. -/
structure SplitListOk (all : Splits) (splits : List Split) : Prop where
  length : splits.length = all.length
  get : ∀ (i : ℕ) sp, splits[i]? = some sp → ∃ k b, (all[i]?).map Prod.fst = some k ∧ sp = ⟨i, k.1, k.2, b, [], [], [], []⟩

theorem SplitListOk.of_ok {all : Splits} (h : SplitsOk all) : SplitListOk all (all.map Prod.snd) := by
  refine ⟨by simp, ?_⟩
  intro i sp hsp
  rw [List.getElem?_map] at hsp
  cases hg : all[i]? with
  | none => rw [hg] at hsp; exact absurd hsp (by simp)
  | some e =>
    rw [hg] at hsp
    simp only [Option.map_some, Option.some.injEq] at hsp
    exact ⟨e.1, false, rfl, by rw [← hsp]; exact h.entry i e.1 e.2 hg⟩

theorem SplitListOk.flags {all : Splits} {splits splits' : List Split} (h : SplitListOk all splits) (hlen : splits'.length = splits.length)
    (hg : ∀ (i : ℕ) sp, splits[i]? = some sp → ∃ sp', splits'[i]? = some sp' ∧ ∃ b, sp' = { sp with removed := b }) : SplitListOk all splits' := by
  refine ⟨by rw [hlen, h.length], ?_⟩
  intro i sp' hsp'
  have hi : i < splits.length := by have := (List.getElem?_eq_some_iff.1 hsp').1; omega
  obtain ⟨sp'', h1, b, h2⟩ := hg i _ (List.getElem?_eq_getElem hi)
  rw [hsp'] at h1
  obtain rfl := Option.some.inj h1
  obtain ⟨k, b', k1, k2⟩ := h.get i _ (List.getElem?_eq_getElem hi)
  exact ⟨k, b, k1, by rw [h2, k2]⟩

end Verif.Exp
