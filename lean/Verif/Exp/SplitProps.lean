import Verif.Exp.Pipeline

/-!
# C58: numbering of the splits
-/

set_option linter.unusedSectionVars false
set_option linter.unusedSimpArgs false

namespace Verif.Exp

open Verif.DTree

/-- A dictionary of splits as it should be: the entry at position `i` has a split with id `i`, the feature and threshold of its key and empty
sets; no key occurs twice. -/
structure SplitsOk (all : Splits) : Prop where
  entry : ∀ (i : ℕ) (k : ℕ × ℚ) (sp : Split), all[i]? = some (k, sp) → sp = ⟨i, k.1, k.2, false, [], [], [], []⟩
  nodup : (all.map Prod.fst).Nodup

theorem SplitsOk.nil : SplitsOk [] := ⟨by simp, by simp⟩

theorem dictGet_isSome {κ α : Type} [DecidableEq κ] (d : List (κ × α)) (k : κ) : (dictGet d k).isSome = true ↔ k ∈ d.map Prod.fst := by
  induction d with
  | nil => simp [dictGet]
  | cons e d ih =>
    rw [dictGet]
    by_cases h : e.1 = k
    · simp [h]
    · rw [if_neg h, ih]
      simp only [List.map_cons, List.mem_cons]
      constructor
      · exact .inr
      · rintro (h' | h')
        · exact absurd h'.symm h
        · exact h'

theorem dictGet_mem {κ α : Type} [DecidableEq κ] {d : List (κ × α)} {k : κ} {v : α} (h : dictGet d k = some v) : (k, v) ∈ d := by
  induction d with
  | nil => simp [dictGet] at h
  | cons e d ih =>
    rw [dictGet] at h
    by_cases hk : e.1 = k
    · rw [if_pos hk] at h
      simp only [Option.some.injEq] at h
      subst hk h
      exact List.mem_cons_self
    · rw [if_neg hk] at h
      exact List.mem_cons_of_mem _ (ih h)

theorem mem_dictGet {κ α : Type} [DecidableEq κ] {d : List (κ × α)} (hn : (d.map Prod.fst).Nodup) {k : κ} {v : α} (h : (k, v) ∈ d) :
    dictGet d k = some v := by
  induction d with
  | nil => simp at h
  | cons e d ih =>
    rw [dictGet]
    simp only [List.map_cons, List.nodup_cons] at hn
    rcases List.mem_cons.1 h with rfl | h
    · simp
    · have : e.1 ≠ k := by
        rintro rfl
        exact hn.1 (List.mem_map.2 ⟨_, h, rfl⟩)
      rw [if_neg this]
      exact ih hn.2 h

theorem addSplit_ok {all : Splits} (h : SplitsOk all) (key : ℕ × ℚ) :
    SplitsOk (addSplit all key) ∧ all <+: addSplit all key ∧ ∀ k, k ∈ (addSplit all key).map Prod.fst ↔ k ∈ all.map Prod.fst ∨ k = key := by
  unfold addSplit
  by_cases hk : key ∈ all.map Prod.fst
  · rw [if_pos ((dictGet_isSome _ _).2 hk)]
    refine ⟨h, List.prefix_refl _, fun k => ⟨.inl, ?_⟩⟩
    rintro (h | rfl)
    · exact h
    · exact hk
  · rw [if_neg (fun h => hk ((dictGet_isSome _ _).1 h))]
    refine ⟨⟨?_, ?_⟩, List.prefix_append _ _, ?_⟩
    · intro i k sp hi
      by_cases hlt : i < all.length
      · rw [List.getElem?_append_left hlt] at hi
        exact h.entry i k sp hi
      · rw [List.getElem?_append_right (by omega)] at hi
        have : i - all.length = 0 := by
          by_contra hc
          rw [List.getElem?_eq_none (by simp; omega)] at hi
          exact absurd hi (by simp)
        rw [this] at hi
        simp only [List.getElem?_cons_zero, Option.some.injEq, Prod.mk.injEq] at hi
        obtain ⟨rfl, rfl⟩ := hi
        obtain rfl : i = all.length := by omega
        rfl
    · rw [List.map_append]
      simp only [List.map_cons, List.map_nil]
      rw [List.nodup_append]
      refine ⟨h.nodup, by simp, ?_⟩
      intro a ha b hb
      simp only [List.mem_singleton] at hb
      subst hb
      exact fun e => hk (e ▸ ha)
    · intro k
      simp

theorem fold_addSplit {α : Type} (f : α → Option (ℕ × ℚ)) (l : List α) {all : Splits} (h : SplitsOk all) :
    let all' := l.foldl (fun all a => match f a with | none => all | some k => addSplit all k) all
    SplitsOk all' ∧ all <+: all' ∧ ∀ k, k ∈ all'.map Prod.fst ↔ k ∈ all.map Prod.fst ∨ ∃ a ∈ l, f a = some k := by
  induction l generalizing all with
  | nil => exact ⟨h, List.prefix_refl _, by simp⟩
  | cons a l ih =>
    intro all'
    cases hf : f a with
    | none =>
      have e : all' = l.foldl (fun all a => match f a with | none => all | some k => addSplit all k) all := by
        simp only [all', List.foldl_cons, hf]
      obtain ⟨h1, h2, h3⟩ := ih h
      rw [e]
      refine ⟨h1, h2, fun k => ?_⟩
      rw [h3]
      simp [hf]
    | some key =>
      have e : all' = l.foldl (fun all a => match f a with | none => all | some k => addSplit all k) (addSplit all key) := by
        simp only [all', List.foldl_cons, hf]
      obtain ⟨g1, g2, g3⟩ := addSplit_ok h key
      obtain ⟨h1, h2, h3⟩ := ih g1
      rw [e]
      refine ⟨h1, g2.trans h2, fun k => ?_⟩
      rw [h3, g3]
      simp only [List.mem_cons, exists_eq_or_imp, hf, Option.some.injEq, or_assoc]
      constructor
      · rintro (h | h | h)
        · exact .inl h
        · exact .inr (.inl h.symm)
        · exact .inr (.inr h)
      · rintro (h | h | h)
        · exact .inl h
        · exact .inr (.inl h.symm)
        · exact .inr (.inr h)

/-- The pairs (feature, threshold) used by the inner nodes of a tree. -/
def Cart.keys (c : Cart) : List (ℕ × ℚ) := ((List.range c.size).filter fun i => !c.isLeaf i).map c.key

theorem getAllSplits_ok (c : Cart) : SplitsOk (getAllSplits c) ∧ ∀ k, k ∈ (getAllSplits c).map Prod.fst ↔ k ∈ c.keys := by
  obtain ⟨h1, _, h3⟩ := fold_addSplit (fun i => if c.isLeaf i then none else some (c.key i)) (List.range c.size) SplitsOk.nil
  have e : getAllSplits c = (List.range c.size).foldl (fun all i => match (if c.isLeaf i then none else some (c.key i)) with
      | none => all | some k => addSplit all k) [] := by
    unfold getAllSplits
    congr 1
    funext all i
    cases c.isLeaf i <;> simp
  rw [e]
  refine ⟨h1, fun k => ?_⟩
  rw [h3]
  unfold Cart.keys
  simp only [List.map_nil, List.not_mem_nil, false_or, List.mem_range, List.mem_map, List.mem_filter, Bool.not_eq_true']
  constructor
  · rintro ⟨i, hi, he⟩
    cases hl : c.isLeaf i with
    | true => rw [hl] at he; simp at he
    | false => rw [hl] at he; simp at he; exact ⟨i, ⟨hi, hl⟩, he⟩
  · rintro ⟨i, ⟨hi, hl⟩, he⟩
    exact ⟨i, hi, by simp [hl, he]⟩

theorem mergeAllSplits_ok {d1 : Splits} (d2 : Splits) (h : SplitsOk d1) :
    SplitsOk (mergeAllSplits d1 d2) ∧ d1 <+: mergeAllSplits d1 d2 ∧
    ∀ k, k ∈ (mergeAllSplits d1 d2).map Prod.fst ↔ k ∈ d1.map Prod.fst ∨ k ∈ d2.map Prod.fst := by
  obtain ⟨h1, h2, h3⟩ := fold_addSplit (fun e : (ℕ × ℚ) × Split => some e.1) d2 h
  refine ⟨h1, h2, fun k => ?_⟩
  refine (h3 k).trans ?_
  simp only [Option.some.injEq, List.mem_map]

/-- The list of splits in the order of their ids. -/
theorem getSplitsList_ok {all : Splits} (h : SplitsOk all) : getSplitsList all = .ok (all.map fun e => some e.2) := by
  have key : ∀ (l : Splits) (k : ℕ), k + l.length = all.length → (∀ i, l[i]? = all[k + i]?) →
      l.foldlM (m := Except Err) (fun l e => if e.2.id < l.length then .ok (l.set e.2.id (some e.2)) else .error .indexError)
        ((all.take k).map (fun e => some e.2) ++ List.replicate l.length none) = .ok (all.map fun e => some e.2) := by
    intro l
    induction l with
    | nil =>
      intro k hk _
      simp only [List.length_nil, Nat.add_zero] at hk
      simp [hk]
      rfl
    | cons e l ih =>
      intro k hk hi
      have he : all[k]? = some e := by have := hi 0; simpa using this.symm
      have hid : e.2.id = k := by rw [h.entry k e.1 e.2 he]
      simp only [List.length_cons] at hk
      rw [List.foldlM_cons, if_pos (by simp; omega)]
      have hset : ((all.take k).map (fun e : (ℕ × ℚ) × Split => some e.2) ++ List.replicate (e :: l).length none).set e.2.id (some e.2) =
          (all.take (k + 1)).map (fun e : (ℕ × ℚ) × Split => some e.2) ++ List.replicate l.length none := by
        rw [hid, List.set_append_right _ _ (by simp)]
        have : k - ((all.take k).map (fun e : (ℕ × ℚ) × Split => some e.2)).length = 0 := by simp; omega
        rw [this, List.take_add_one, he]
        simp [List.replicate_succ]
      rw [hset]
      exact ih (k + 1) (by omega) (fun i => by have := hi (i + 1); rw [List.getElem?_cons_succ] at this; rw [this]; congr 1; omega)
  have := key all 0 (by simp) (by simp)
  simpa [getSplitsList] using this

/-- The splits after a sequence of fitted trees. -/
def mergedSplits (start : Splits) (carts : List Cart) : Splits := carts.foldl (fun all c => mergeAllSplits all (getAllSplits c)) start

theorem mergedSplits_ok (carts : List Cart) {start : Splits} (h : SplitsOk start) :
    SplitsOk (mergedSplits start carts) ∧ start <+: mergedSplits start carts ∧
    ∀ k, k ∈ (mergedSplits start carts).map Prod.fst ↔ k ∈ start.map Prod.fst ∨ ∃ c ∈ carts, k ∈ c.keys := by
  induction carts generalizing start with
  | nil => exact ⟨h, List.prefix_refl _, by simp [mergedSplits]⟩
  | cons c carts ih =>
    obtain ⟨g1, g2, g3⟩ := mergeAllSplits_ok (getAllSplits c) h
    obtain ⟨h1, h2, h3⟩ := ih g1
    refine ⟨h1, g2.trans h2, fun k => ?_⟩
    refine (h3 k).trans ?_
    rw [g3, (getAllSplits_ok c).2]
    simp only [List.mem_cons, exists_eq_or_imp, or_assoc]

/-- **C58.** After any sequence of fitted trees `carts`, continued by any `more`: `get_splits_list` returns a list without `None` whose
`i`-th split has id `i`; no two splits have the same feature and threshold; the splits are exactly those of the inner nodes of the trees;
and the list before is the beginning of the list after, so ids never change. -/
theorem C58_split_numbering (carts more : List Cart) :
    ∃ l l' : List Split, getSplitsList (mergedSplits [] carts) = .ok (l.map some) ∧
      getSplitsList (mergedSplits (mergedSplits [] carts) more) = .ok (l'.map some) ∧ l <+: l' ∧
      (∀ (i : ℕ) (sp : Split), l'[i]? = some sp → sp.id = i) ∧
      (∀ (i j : ℕ) (sp sp' : Split), l'[i]? = some sp → l'[j]? = some sp' → sp.feature = sp'.feature → sp.threshold = sp'.threshold → i = j) ∧
      (∀ f t, (∃ sp ∈ l', sp.feature = f ∧ sp.threshold = t) ↔
        ∃ c ∈ carts ++ more, ∃ i < c.size, c.isLeaf i = false ∧ c.feature.getD i 0 = f ∧ c.threshold.getD i 0 = t) := by
  obtain ⟨a1, _, a3⟩ := mergedSplits_ok carts SplitsOk.nil
  obtain ⟨b1, b2, b3⟩ := mergedSplits_ok more a1
  obtain ⟨all, hall⟩ : ∃ all, all = mergedSplits (mergedSplits [] carts) more := ⟨_, rfl⟩
  rw [← hall] at b1 b2 b3 ⊢
  refine ⟨(mergedSplits [] carts).map Prod.snd, all.map Prod.snd, ?_, ?_, b2.map _, ?_, ?_, ?_⟩
  · rw [getSplitsList_ok a1, List.map_map]; rfl
  · rw [getSplitsList_ok b1, List.map_map]; rfl
  · intro i sp h
    rw [List.getElem?_map] at h
    cases he : all[i]? with
    | none => rw [he] at h; simp at h
    | some e =>
      rw [he] at h
      simp only [Option.map_some, Option.some.injEq] at h
      subst h
      rw [b1.entry i e.1 e.2 he]
  · intro i j sp sp' hi hj hf ht
    rw [List.getElem?_map] at hi hj
    cases he : all[i]? with
    | none => rw [he] at hi; simp at hi
    | some e =>
      cases he' : all[j]? with
      | none => rw [he'] at hj; simp at hj
      | some e' =>
        rw [he] at hi
        rw [he'] at hj
        simp only [Option.map_some, Option.some.injEq] at hi hj
        rw [← hi, ← hj, b1.entry i e.1 e.2 he, b1.entry j e'.1 e'.2 he'] at hf ht
        have hk : e.1 = e'.1 := Prod.ext hf ht
        have hil : i < all.length := (List.getElem?_eq_some_iff.1 he).1
        have hjl : j < all.length := (List.getElem?_eq_some_iff.1 he').1
        refine (List.Nodup.getElem_inj_iff b1.nodup (hi := by simpa using hil) (hj := by simpa using hjl)).1 ?_
        have e1 : all[i] = e := (List.getElem?_eq_some_iff.1 he).2
        have e2 : all[j] = e' := (List.getElem?_eq_some_iff.1 he').2
        simp [e1, e2, hk]
  · intro f t
    have hkey : (f, t) ∈ all.map Prod.fst ↔ ∃ sp ∈ all.map Prod.snd, sp.feature = f ∧ sp.threshold = t := by
      constructor
      · intro h
        obtain ⟨e, he, hk⟩ := List.mem_map.1 h
        obtain ⟨i, hi, hie⟩ := List.mem_iff_getElem.1 he
        refine ⟨e.2, List.mem_map_of_mem he, ?_⟩
        rw [b1.entry i e.1 e.2 (by rw [List.getElem?_eq_getElem hi, hie]), hk]
        exact ⟨rfl, rfl⟩
      · rintro ⟨sp, hsp, rfl, rfl⟩
        obtain ⟨e, he, rfl⟩ := List.mem_map.1 hsp
        obtain ⟨i, hi, hie⟩ := List.mem_iff_getElem.1 he
        refine List.mem_map.2 ⟨e, he, ?_⟩
        have := b1.entry i e.1 e.2 (by rw [List.getElem?_eq_getElem hi, hie])
        rw [this]
    rw [← hkey, b3, a3]
    simp only [List.map_nil, List.not_mem_nil, false_or, List.mem_append]
    have hkeys : ∀ c : Cart, (f, t) ∈ c.keys ↔ ∃ i < c.size, c.isLeaf i = false ∧ c.feature.getD i 0 = f ∧ c.threshold.getD i 0 = t := by
      intro c
      unfold Cart.keys Cart.key
      simp only [List.mem_map, List.mem_filter, List.mem_range, Bool.not_eq_true', Prod.mk.injEq, and_assoc]
    constructor
    · rintro (⟨c, hc, h⟩ | ⟨c, hc, h⟩)
      · exact ⟨c, .inl hc, (hkeys c).1 h⟩
      · exact ⟨c, .inr hc, (hkeys c).1 h⟩
    · rintro ⟨c, hc | hc, h⟩
      · exact .inl ⟨c, hc, (hkeys c).2 h⟩
      · exact .inr ⟨c, hc, (hkeys c).2 h⟩

end Verif.Exp
