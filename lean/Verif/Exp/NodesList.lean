import Verif.Exp.NodeProps
import Verif.Exp.SplitProps

/-!
# Property C142: the remaining helpers for nodes of the experiment
-/

namespace Verif.Exp

open DTree

/-- `get_nodes_list`, `dtree_experiment.py:533-539`, without the prints; the dictionary is the list of its items in their order and `none` stands for `None`. Ids are natural numbers. -/
def getNodesList (all : List (ℕ × Node)) : Except Err (List (Option Node)) :=
  all.foldlM (fun l e => if e.2.id < l.length then .ok (l.set e.2.id (some e.2)) else .error .indexError) (List.replicate all.length none)

/-- `merge_all_nodes_last_split`, `dtree_experiment.py:746-757` (its only call is commented out); keys as in `mergeAllNodes`. Other keys are only reported. -/
def mergeLastSplit (nodes : List Node) (dict : List (ℕ × Node)) : List Node :=
  dict.foldl (fun nodes e => nodes.modify e.1 (fun n => { n with lastSplit := e.2.lastSplit })) nodes

/-- Slots are filled in any order; the last node with an id stays. -/
theorem fill_slots : ∀ (all : List (ℕ × Node)) (l : List (Option Node)), (∀ e ∈ all, e.2.id < l.length) →
    ∃ r, all.foldlM (fun l e => if e.2.id < l.length then (.ok (l.set e.2.id (some e.2)) : Except Err _) else .error .indexError) l = .ok r ∧ r.length = l.length ∧
      ∀ i < l.length, r[i]? = some ((all.reverse.find? (fun e => e.2.id == i)).elim (l[i]?.join) (fun e => some e.2))
  | [], l, _ => ⟨l, rfl, rfl, fun i hi => by simp [List.getElem?_eq_getElem hi]⟩
  | e :: all, l, h => by
    have h0 := h e List.mem_cons_self
    obtain ⟨r, h1, h2, h3⟩ := fill_slots all (l.set e.2.id (some e.2)) (fun e' he' => by rw [List.length_set]; exact h e' (List.mem_cons_of_mem _ he'))
    refine ⟨r, ?_, by rw [h2, List.length_set], fun i hi => ?_⟩
    · rw [List.foldlM_cons, if_pos h0]
      exact h1
    · rw [h3 i (by rw [List.length_set]; exact hi), List.reverse_cons, List.find?_append]
      cases hf : all.reverse.find? (fun e => e.2.id == i) with
      | some e' => rfl
      | none =>
        rw [Option.none_or, List.find?_cons, List.getElem?_set]
        by_cases he : e.2.id = i
        · subst he
          rw [if_pos rfl, if_pos h0]
          simp
        · rw [if_neg he]
          have : (e.2.id == i) = false := by simpa using he
          rw [this]
          simp

/-- **C142.** If all ids are below the number of nodes, `get_nodes_list` returns a list of that length; position `i` holds the last node with id `i`, or `None` if there is none. -/
theorem C142_nodes_list {all : List (ℕ × Node)} (h : ∀ e ∈ all, e.2.id < all.length) : ∃ r, getNodesList all = .ok r ∧ r.length = all.length ∧
    ∀ i < all.length, r[i]? = some ((all.reverse.find? (fun e => e.2.id == i)).map (·.2)) := by
  obtain ⟨r, h1, h2, h3⟩ := fill_slots all (List.replicate all.length none) (fun e he => by rw [List.length_replicate]; exact h e he)
  refine ⟨r, h1, by rw [h2, List.length_replicate], fun i hi => ?_⟩
  rw [h3 i (by rw [List.length_replicate]; exact hi)]
  cases all.reverse.find? (fun e => e.2.id == i) with
  | some e => rfl
  | none =>
    rw [List.getElem?_replicate, if_pos hi]
    rfl

/-- **C142.** Otherwise it raises `IndexError`. -/
theorem C142_nodes_list_error {all : List (ℕ × Node)} (h : ∃ e ∈ all, all.length ≤ e.2.id) : getNodesList all = .error .indexError := by
  unfold getNodesList
  have key : ∀ (es : List (ℕ × Node)) (l : List (Option Node)), (∃ e ∈ es, l.length ≤ e.2.id) →
      es.foldlM (fun l e => if e.2.id < l.length then (.ok (l.set e.2.id (some e.2)) : Except Err _) else .error .indexError) l = .error .indexError := by
    intro es
    induction es with
    | nil => rintro l ⟨e, he, -⟩; cases he
    | cons e es ih =>
      rintro l ⟨e', he', hle⟩
      rw [List.foldlM_cons]
      by_cases hlt : e.2.id < l.length
      · rw [if_pos hlt]
        refine ih _ ?_
        rcases List.mem_cons.1 he' with rfl | he'
        · omega
        · exact ⟨e', he', by rw [List.length_set]; exact hle⟩
      · rw [if_neg hlt]
        rfl
  refine key all _ ?_
  obtain ⟨e, he, hle⟩ := h
  exact ⟨e, he, by rw [List.length_replicate]; exact hle⟩

/-- **C142.** For nodes whose ids are their places, as in the experiment, the list is the list of the nodes. -/
theorem C142_nodes_list_id {nodes : List Node} (h : ∀ i (hi : i < nodes.length), nodes[i].id = i) :
    getNodesList ((List.range nodes.length).zip nodes) = .ok (nodes.map some) := by
  have hlen : ((List.range nodes.length).zip nodes).length = nodes.length := by simp
  obtain ⟨r, h1, h2, h3⟩ := C142_nodes_list (all := (List.range nodes.length).zip nodes) (fun e he => by
    obtain ⟨i, hi, rfl⟩ := List.mem_iff_getElem.1 he
    rw [hlen] at hi ⊢
    rw [List.getElem_zip, h i hi]
    exact hi)
  rw [h1]
  congr 1
  refine List.ext_getElem? fun i => ?_
  by_cases hi : i < nodes.length
  · rw [h3 i (by rw [hlen]; exact hi), List.getElem?_map, List.getElem?_eq_getElem hi, Option.map_some]
    congr 1
    cases hf : ((List.range nodes.length).zip nodes).reverse.find? (fun e => e.2.id == i) with
    | none =>
      rw [List.find?_eq_none] at hf
      have := hf (i, nodes[i]) (by
        rw [List.mem_reverse]
        refine List.mem_iff_getElem.2 ⟨i, by rw [hlen]; exact hi, ?_⟩
        rw [List.getElem_zip, List.getElem_range])
      rw [h i hi] at this
      simp at this
    | some e =>
      have h4 := List.find?_some hf
      have h5 := List.mem_reverse.1 (List.mem_of_find?_eq_some hf)
      obtain ⟨j, hj, rfl⟩ := List.mem_iff_getElem.1 h5
      rw [hlen] at hj
      rw [List.getElem_zip] at h4 ⊢
      simp only [h j hj, beq_iff_eq] at h4
      subst h4
      rfl
  · rw [List.getElem?_eq_none (by rw [h2, hlen]; omega), List.getElem?_eq_none (by rw [List.length_map]; omega)]

/-- **C142.** So the experiment gets its combined nodes in the order of their ids, none missing. -/
theorem C142_experiment (ms : List Merge) (hms : ∀ m ∈ ms, MergeOk m) (d : ℕ) :
    getNodesList ((List.range (2 ^ d - 1)).zip (fillEmpty (mergeHistory (freshNodes d) ms))) = .ok ((fillEmpty (mergeHistory (freshNodes d) ms)).map some) := by
  have hlen : (fillEmpty (mergeHistory (freshNodes d) ms)).length = 2 ^ d - 1 := by
    unfold fillEmpty
    rw [List.length_map, mergeHistory_length]
    simp [freshNodes]
  have h := C142_nodes_list_id (nodes := fillEmpty (mergeHistory (freshNodes d) ms)) (fun i hi => by
    have hi' : i < 2 ^ d - 1 := hlen ▸ hi
    obtain ⟨-, node, h1, h2, -⟩ := C59_merge ms hms d i hi'
    have hf : (fillEmpty (mergeHistory (freshNodes d) ms))[i]? = some ((fillEmpty (mergeHistory (freshNodes d) ms))[i]) := List.getElem?_eq_getElem hi
    rw [show (fillEmpty (mergeHistory (freshNodes d) ms))[i]? = (mergeHistory (freshNodes d) ms)[i]?.map _ from List.getElem?_map, h1, Option.map_some,
      Option.some.injEq] at hf
    rw [← hf]
    split <;> exact h2)
  rw [hlen] at h
  exact h

/-- **C142.** `merge_all_nodes_last_split` changes nothing but `last_split`, and this only for the keys of the second dictionary, where the value is the given one. -/
theorem C142_last_split : ∀ (dict : List (ℕ × Node)) (nodes : List Node), (dict.map (·.1)).Nodup → ∀ i,
    (mergeLastSplit nodes dict)[i]? = nodes[i]?.map (fun n => match dict.find? (fun e => e.1 == i) with
      | some e => { n with lastSplit := e.2.lastSplit }
      | none => n)
  | [], nodes, _, i => by simp [mergeLastSplit]
  | e :: dict, nodes, h, i => by
    have hn := List.nodup_cons.1 (by simpa using h : (e.1 :: dict.map (·.1)).Nodup)
    have ih := C142_last_split dict (nodes.modify e.1 (fun n => { n with lastSplit := e.2.lastSplit })) hn.2 i
    have hstep : mergeLastSplit nodes (e :: dict) = mergeLastSplit (nodes.modify e.1 (fun n => { n with lastSplit := e.2.lastSplit })) dict := rfl
    rw [hstep, ih, List.getElem?_modify, List.find?_cons]
    by_cases he : e.1 = i
    · subst he
      have hf : dict.find? (fun e' => e'.1 == e.1) = none := by
        rw [List.find?_eq_none]
        intro e' he' h'
        exact hn.1 (List.mem_map.2 ⟨e', he', by simpa using h'⟩)
      rw [hf]
      cases nodes[e.1]? with
      | none => simp
      | some n => simp
    · have : (e.1 == i) = false := by simpa using he
      rw [this]
      cases nodes[i]? with
      | none => rfl
      | some n => simp [he]

/-! ### Cases -/

/-- The nodes of a tree of depth 2 in another order, and two nodes with one id: a hole remains. -/
example : getNodesList [(2, ⟨2, [7], [1], 7, 0, 0, 0, false⟩), (0, ⟨0, [5], [1], 5, -1, 0, 0, false⟩), (1, ⟨1, [6], [1], 6, 0, 0, 0, false⟩)] =
      .ok [some ⟨0, [5], [1], 5, -1, 0, 0, false⟩, some ⟨1, [6], [1], 6, 0, 0, 0, false⟩, some ⟨2, [7], [1], 7, 0, 0, 0, false⟩] ∧
    getNodesList [(0, ⟨0, [5], [1], 5, -1, 0, 0, false⟩), (1, ⟨0, [6], [1], 6, 0, 0, 0, false⟩)] = .ok [some ⟨0, [6], [1], 6, 0, 0, 0, false⟩, none] ∧
    getNodesList [(0, ⟨1, [5], [1], 5, -1, 0, 0, false⟩)] = .error .indexError := by decide +kernel

/-- Only the node with key 1 gets another last split; key 9 is unknown. -/
example : mergeLastSplit [⟨0, [5], [1], 5, -1, 0, 0, false⟩, ⟨1, [6, 7], [1, 1], 6, 0, 0, 0, false⟩]
      [(1, ⟨1, [7], [1], 7, 0, 0, 0, false⟩), (9, ⟨9, [8], [1], 8, 0, 0, 0, false⟩)] =
    [⟨0, [5], [1], 5, -1, 0, 0, false⟩, ⟨1, [6, 7], [1, 1], 7, 0, 0, 0, false⟩] := by decide +kernel

end Verif.Exp
