import Verif.DTree.SubLemmas

/-!
# The feasible points of the integer pricing problems of the decision tree classifier
-/

set_option linter.unusedSectionVars false
set_option linter.unusedSimpArgs false

namespace Verif.DTree

open MP Spec

/-- The direction of the way to the leaf at node `n`, for split `s` and pattern `left`. -/
theorem mem_towards (c : SubConf) (left : ℕ → Bool) (n s : ℕ) :
    s ∈ c.towards left n ↔ s ∈ c.cands n ∧ left s = decide (n ∈ c.leaf.leftNodes) := by
  unfold SubConf.towards
  split_ifs with h <;> simp [h]

theorem sum_ite_mem {α : Type*} [DecidableEq α] (l : List α) (hn : l.Nodup) (x : α) (v : ℚ) :
    (l.map (fun s => if s = x then v else 0)).sum = if x ∈ l then v else 0 := by
  induction l with
  | nil => simp
  | cons y l ih =>
    rw [List.nodup_cons] at hn
    rw [List.map_cons, List.sum_cons, ih hn.2]
    by_cases hy : y = x
    · subst hy
      simp [hn.1]
    · have : ¬ x = y := fun e => hy e.symm
      simp [hy, this]

theorem sum_flatMap_map {α β : Type*} (l : List α) (f : α → List β) (g : β → ℚ) :
    ((l.flatMap f).map g).sum = (l.map (fun x => ((f x).map g).sum)).sum := by
  induction l with
  | nil => rfl
  | cons x l ih => simp [List.flatMap_cons, ih]

/-- A sum of indicators is below the number of terms iff one of them fails. -/
theorem sum_ind_le {α : Type*} (l : List α) (P : α → Prop) [DecidablePred P] :
    (l.map (fun x => if P x then (1 : ℚ) else 0)).sum ≤ l.length ∧
      (¬ (∀ x ∈ l, P x) → (l.map (fun x => if P x then (1 : ℚ) else 0)).sum ≤ (l.length : ℚ) - 1) ∧
      ((∀ x ∈ l, P x) → (l.map (fun x => if P x then (1 : ℚ) else 0)).sum = l.length) := by
  induction l with
  | nil => simp
  | cons x l ih =>
    obtain ⟨h1, h2, h3⟩ := ih
    simp only [List.map_cons, List.sum_cons, List.length_cons, Nat.cast_add, Nat.cast_one]
    by_cases hx : P x
    · simp only [hx, if_true]
      refine ⟨by linarith, ?_, ?_⟩
      · intro hn
        have : ¬ ∀ y ∈ l, P y := by
          intro hall
          apply hn
          intro y hy
          rcases List.mem_cons.1 hy with rfl | hy
          · exact hx
          · exact hall y hy
        linarith [h2 this]
      · intro hall
        rw [h3 (fun y hy => hall y (List.mem_cons_of_mem _ hy))]
        ring
    · simp only [hx, if_false]
      refine ⟨by linarith, fun _ => by linarith, ?_⟩
      intro hall
      exact absurd (hall x (by simp)) hx

/-- The values of the split variables describe the choice `σ`. -/
def Chooses (c : SubConf) (st : SubSt) (a : ℕ → ℚ) (σ : ℕ → ℕ) : Prop :=
  ∀ n ∈ c.leafNodes, σ n ∈ c.cands n ∧ ∀ s ∈ c.cands n, a (st.idx (.u n s)) = if s = σ n then 1 else 0

/-- The pattern goes towards the leaf at all nodes. -/
def Towards (c : SubConf) (left : ℕ → Bool) (σ : ℕ → ℕ) : Prop := ∀ n ∈ c.leafNodes, left (σ n) = decide (n ∈ c.leaf.leftNodes)

instance (c : SubConf) (left : ℕ → Bool) (σ : ℕ → ℕ) : Decidable (Towards c left σ) :=
  inferInstanceAs (Decidable (∀ n ∈ c.leafNodes, _))

theorem sum_towards {d : ℕ} {c : SubConf} (h : SubOk d c) {st : SubSt} {a : ℕ → ℚ} {σ : ℕ → ℕ} (hσ : Chooses c st a σ) (left : ℕ → Bool)
    {n : ℕ} (hn : n ∈ c.leafNodes) (x : ℚ) : ((c.towards left n).map (fun s => x * a (st.idx (.u n s)))).sum =
      if left (σ n) = decide (n ∈ c.leaf.leftNodes) then x else 0 := by
  have e : (c.towards left n).map (fun s => x * a (st.idx (.u n s))) = (c.towards left n).map (fun s => if s = σ n then x else 0) := by
    refine List.map_congr_left ?_
    intro s hs
    rw [(hσ n hn).2 s ((towards_sublist c left n).subset hs)]
    split_ifs <;> ring
  rw [e, sum_ite_mem _ ((h.cands_nodup n).sublist (towards_sublist c left n))]
  have hm := mem_towards c left n (σ n)
  by_cases hl : left (σ n) = decide (n ∈ c.leaf.leftNodes)
  · rw [if_pos (hm.2 ⟨(hσ n hn).1, hl⟩), if_pos hl]
  · rw [if_neg (fun hc => hl (hm.1 hc).2), if_neg hl]

theorem Spec.SubOk.leafNodes_length {d : ℕ} {c : SubConf} (h : SubOk d c) : c.leafNodes.length = d := by
  rw [h.leafNodes_perm.length_eq]; simp

/-- The constraints "row follows correct path" say that the variable is 1 exactly if the pattern follows the chosen path. -/
theorem follow_iff {d : ℕ} {c : SubConf} (h : SubOk d c) {st : SubSt} {a : ℕ → ℚ} {σ : ℕ → ℕ} (hσ : Chooses c st a σ) (left : ℕ → Bool)
    {o : SV} (ho : a (st.idx o) = 0 ∨ a (st.idx o) = 1) :
    (∀ k ∈ c.follow left o, inBounds k.lb k.ub ((k.terms.map (fun t => t.2 * a (st.idx t.1))).sum)) ↔
      (a (st.idx o) = if Towards c left σ then 1 else 0) := by
  have hsum : ((c.leafNodes.flatMap (fun n => (c.towards left n).map (fun s => (SV.u n s, (1 : ℚ))))).map (fun t => t.2 * a (st.idx t.1))).sum =
      (c.leafNodes.map (fun n => if left (σ n) = decide (n ∈ c.leaf.leftNodes) then (1 : ℚ) else 0)).sum := by
    rw [sum_flatMap_map]
    congr 1
    refine List.map_congr_left ?_
    intro n hn
    rw [List.map_map]
    exact sum_towards h hσ left hn 1
  have hnode : ∀ n ∈ c.leafNodes, (((c.towards left n).map (fun s => (SV.u n s, (-1 : ℚ)))).map (fun t => t.2 * a (st.idx t.1))).sum =
      if left (σ n) = decide (n ∈ c.leaf.leftNodes) then (-1 : ℚ) else 0 := by
    intro n hn
    rw [List.map_map]
    exact sum_towards h hσ left hn (-1)
  obtain ⟨i1, i2, i3⟩ := sum_ind_le c.leafNodes (fun n => left (σ n) = decide (n ∈ c.leaf.leftNodes))
  rw [h.leafNodes_length] at i1 i2 i3
  unfold SubConf.follow
  constructor
  · intro hk
    have hlb := hk _ (List.mem_cons_self)
    simp only [inBounds_le, List.map_cons, List.sum_cons] at hlb
    rw [hsum, h.depth] at hlb
    by_cases ht : Towards c left σ
    · rw [if_pos ht]
      rw [i3 ht] at hlb
      rcases ho with ho | ho
      · rw [ho] at hlb; linarith
      · exact ho
    · rw [if_neg ht]
      unfold Towards at ht
      push Not at ht
      obtain ⟨n, hn, hne⟩ := ht
      have h2 := hk _ (List.mem_cons_of_mem _ (List.mem_map.2 ⟨n, hn, rfl⟩))
      simp only [inBounds_le, List.map_cons, List.sum_cons] at h2
      rw [hnode n hn, if_neg hne] at h2
      rcases ho with ho | ho
      · exact ho
      · rw [ho] at h2; linarith
  · intro hv k hk
    rcases List.mem_cons.1 hk with rfl | hk
    · simp only [inBounds_le, List.map_cons, List.sum_cons]
      rw [hsum, h.depth, hv]
      by_cases ht : Towards c left σ
      · rw [if_pos ht, i3 ht]; linarith
      · rw [if_neg ht]; linarith [i2 ht]
    · obtain ⟨n, hn, rfl⟩ := List.mem_map.1 hk
      simp only [inBounds_le, List.map_cons, List.sum_cons]
      rw [hnode n hn, hv]
      by_cases ht : Towards c left σ
      · rw [if_pos ht, if_pos (ht n hn)]; norm_num
      · rw [if_neg ht]
        split_ifs <;> norm_num

theorem zipIdx_mem {cuts : List (List Bool)} {k : ℕ} (hk : k < cuts.length) : (cuts.getD k [], k) ∈ cuts.zipIdx 0 := by
  rw [List.mem_zipIdx_iff_getElem?]
  simp [List.getD_eq_getElem?_getD, List.getElem?_eq_getElem hk]

theorem zipIdx_of_mem {cuts : List (List Bool)} {r : List Bool × ℕ} (hr : r ∈ cuts.zipIdx 0) : r.2 < cuts.length ∧ r.1 = cuts.getD r.2 [] := by
  rw [List.mem_zipIdx_iff_getElem?] at hr
  refine ⟨(List.getElem?_eq_some_iff.1 hr).1, ?_⟩
  rw [List.getD_eq_getElem?_getD, hr]; rfl

/-- The meaning of a point, in terms of the choice of splits. -/
structure Means (c : SubConf) (cuts : List (List Bool)) (st : SubSt) (a : ℕ → ℚ) (σ : ℕ → ℕ) : Prop where
  split : Chooses c st a σ
  row : ∀ i, Kept c i → a (st.idx (.y i)) = if Towards c (rowPat c i) σ then 1 else 0
  cut : ∀ k < cuts.length, a (st.idx (.yc k)) = if Towards c (cutPat cuts k) σ then 1 else 0
  single : c.isOld = false → ((List.range c.targets.length).map (fun t => a (st.idx (.w t)))).sum ≤ 1 ∧
    (c.kind = .sat → ((List.range c.targets.length).map (fun t => a (st.idx (.w t)))).sum = 1)
  z_le : c.isOld = false → ∀ i, Kept c i → a (st.idx (.z i)) ≤ a (st.idx (.y i)) ∧ a (st.idx (.z i)) ≤ a (st.idx (.w (c.y.getD i 0)))

theorem rowSatisfiesSplit_eq (c : SubConf) (i : ℕ) : c.rowSatisfiesSplit i = rowPat c i := by
  funext s
  rfl

theorem SubInv.feasible_iff {d : ℕ} {c : SubConf} (h : SubOk d c) {nv : ℕ} {cuts : List (List Bool)} {own : List SV} {lins : List Lin}
    {st : SubSt} (hi : SubInv c nv cuts own lins st) (hnv : nv = cuts.length) (a : ℕ → ℚ) :
    st.m.Feasible a ↔ (∀ o ∈ c.allVars nv, a (st.idx o) = 0 ∨ a (st.idx o) = 1) ∧ ∃ σ, Means c cuts st a σ := by
  rw [hi.rep.feasible_iff]
  have hown : (∀ o ∈ own, a (st.idx o) = 0 ∨ a (st.idx o) = 1) ↔ ∀ o ∈ c.allVars nv, a (st.idx o) = 0 ∨ a (st.idx o) = 1 := by
    constructor <;> intro hx o ho
    · exact hx o (hi.vars.mem_iff.2 ho)
    · exact hx o (hi.vars.mem_iff.1 ho)
  rw [hown]
  refine and_congr_right ?_
  intro hb
  have hcons : (∀ k ∈ lins, inBounds k.lb k.ub ((k.terms.map (fun t => t.2 * a (st.idx t.1))).sum)) ↔
      ∀ k ∈ c.allLins cuts, inBounds k.lb k.ub ((k.terms.map (fun t => t.2 * a (st.idx t.1))).sum) := by
    constructor <;> intro hx k hk
    · exact hx k ((hi.lins k).2 hk)
    · exact hx k ((hi.lins k).1 hk)
  rw [hcons]
  have hu : ∀ n ∈ c.leafNodes, ∀ s ∈ c.cands n, a (st.idx (.u n s)) = 0 ∨ a (st.idx (.u n s)) = 1 := by
    intro n hn s hs
    exact hb _ ((mem_allVars c nv _).2 (Or.inr (Or.inr (Or.inl ((mem_splitVars c _).2 ⟨n, hn, s, hs, rfl⟩)))))
  have hy : ∀ i, Kept c i → a (st.idx (.y i)) = 0 ∨ a (st.idx (.y i)) = 1 := by
    intro i hk
    exact hb _ ((mem_allVars c nv _).2 (Or.inl ((mem_rowVars c _).2 (Or.inl ⟨i, hk, rfl⟩))))
  have hyc : ∀ k < cuts.length, a (st.idx (.yc k)) = 0 ∨ a (st.idx (.yc k)) = 1 := by
    intro k hk
    exact hb _ ((mem_allVars c nv _).2 (Or.inr (Or.inl ⟨k, hnv ▸ hk, rfl⟩)))
  have hone : ∀ n, ((c.cands n).map (fun s => ((SV.u n s, (1 : ℚ)) : SV × ℚ))).map (fun t => t.2 * a (st.idx t.1)) =
      (c.cands n).map (fun s => a (st.idx (.u n s))) := by
    intro n
    simp [List.map_map, Function.comp_def]
  have hsing : (c.single.terms.map (fun t => t.2 * a (st.idx t.1))).sum = ((List.range c.targets.length).map (fun t => a (st.idx (.w t)))).sum := by
    unfold SubConf.single
    simp [List.map_map, Function.comp_def]
  unfold SubConf.allLins
  constructor
  · intro hk
    have h1 : ∀ n ∈ c.leafNodes, ((c.cands n).map (fun s => a (st.idx (.u n s)))).sum = 1 := by
      intro n hn
      have := hk ⟨some 1, some 1, (c.cands n).map (fun s => (SV.u n s, 1))⟩ (by
        refine List.mem_append_left _ (List.mem_append_left _ (List.mem_append_left _ ?_))
        exact List.mem_map.2 ⟨n, hn, rfl⟩)
      rw [inBounds_both, hone] at this
      exact le_antisymm this.2 this.1
    have h2 : ∀ n ∈ c.leafNodes, ∃ s ∈ c.cands n, a (st.idx (.u n s)) = 1 ∧ ∀ t ∈ c.cands n, t ≠ s → a (st.idx (.u n t)) = 0 := by
      intro n hn
      obtain ⟨s, l1, l2, he, hs1, hs2⟩ := int_sum_one (c.cands n) (fun s => a (st.idx (.u n s)))
        (fun s hs => by rcases hu n hn s hs with e | e <;> rw [e]; exacts [⟨0, by simp⟩, ⟨1, by simp⟩])
        (fun s hs => by rcases hu n hn s hs with e | e <;> rw [e]; norm_num) (h1 n hn)
      refine ⟨s, by rw [he]; simp, hs1, ?_⟩
      intro t ht hne
      apply hs2
      rw [he] at ht
      simp only [List.mem_append, List.mem_cons] at ht ⊢
      tauto
    choose! σ hσ1 hσ2 hσ3 using h2
    have hσ : Chooses c st a σ := by
      intro n hn
      refine ⟨hσ1 n hn, ?_⟩
      intro s hs
      by_cases he : s = σ n
      · rw [if_pos he, he, hσ2 n hn]
      · rw [if_neg he, hσ3 n hn s hs he]
    refine ⟨σ, hσ, ?_, ?_, ?_, ?_⟩
    · intro i hi'
      refine (follow_iff h hσ (rowPat c i) (hy i hi')).1 ?_
      intro k hk'
      refine hk k (List.mem_append_left _ (List.mem_append_left _ (List.mem_append_right _ ?_)))
      exact List.mem_flatMap.2 ⟨i, (mem_kept c i).2 hi', hk'⟩
    · intro k hk'
      refine (follow_iff h hσ (cutPat cuts k) (hyc k hk')).1 ?_
      intro x hx
      refine hk x (List.mem_append_right _ ?_)
      exact List.mem_flatMap.2 ⟨_, zipIdx_mem hk', hx⟩
    · intro ho
      have := hk c.single (List.mem_append_left _ (List.mem_append_right _ (by rw [ho]; simp)))
      rw [hsing] at this
      refine ⟨this.2 1 rfl, ?_⟩
      intro hs
      refine le_antisymm (this.2 1 rfl) (this.1 1 ?_)
      simp [SubConf.single, hs]
    · intro ho i hi'
      have hz : ∀ k ∈ c.zCons, inBounds k.lb k.ub ((k.terms.map (fun t => t.2 * a (st.idx t.1))).sum) := by
        intro k hk'
        exact hk k (List.mem_append_left _ (List.mem_append_right _ (by rw [ho]; simp [hk'])))
      have e1 := hz ⟨none, some 0, [(.z i, 1), (.y i, -1)]⟩ (List.mem_flatMap.2 ⟨i, (mem_kept c i).2 hi', by simp⟩)
      have e2 := hz ⟨none, some 0, [(.z i, 1), (.w (c.y.getD i 0), -1)]⟩ (List.mem_flatMap.2 ⟨i, (mem_kept c i).2 hi', by simp⟩)
      simp only [inBounds_le, List.map_cons, List.map_nil, List.sum_cons, List.sum_nil] at e1 e2
      constructor <;> linarith
  · rintro ⟨σ, hm⟩ k hk
    simp only [List.mem_append] at hk
    rcases hk with ((hk | hk) | hk) | hk
    · obtain ⟨n, hn, rfl⟩ := List.mem_map.1 hk
      rw [inBounds_both, hone]
      have e : (c.cands n).map (fun s => a (st.idx (.u n s))) = (c.cands n).map (fun s => if s = σ n then (1 : ℚ) else 0) :=
        List.map_congr_left (fun s hs => (hm.split n hn).2 s hs)
      rw [e, sum_ite_mem _ (h.cands_nodup n), if_pos (hm.split n hn).1]
      exact ⟨le_rfl, le_rfl⟩
    · obtain ⟨i, hi', hk⟩ := List.mem_flatMap.1 hk
      have hi'' := (mem_kept c i).1 hi'
      exact (follow_iff h hm.split (rowPat c i) (hy i hi'')).2 (hm.row i hi'') k hk
    · by_cases ho : c.isOld
      · rw [if_pos ho] at hk; simp at hk
      · rw [if_neg ho] at hk
        have ho' : c.isOld = false := by simpa using ho
        have hw : ∀ t < c.targets.length, a (st.idx (.w t)) = 0 ∨ a (st.idx (.w t)) = 1 := fun t ht =>
          hb _ ((mem_allVars c nv _).2 (Or.inr (Or.inr (Or.inr ⟨ho', t, ht, rfl⟩))))
        rcases List.mem_cons.1 hk with rfl | hk
        · rw [hsing]
          obtain ⟨h1, h2⟩ := hm.single ho'
          refine ⟨?_, ?_⟩
          · intro l hl
            by_cases hs : c.kind = .sat
            · simp only [SubConf.single, hs, if_true, Option.some.injEq] at hl
              rw [h2 hs, ← hl]
            · simp only [SubConf.single, hs, if_false, Option.some.injEq] at hl
              rw [← hl]
              refine List.sum_nonneg ?_
              intro x hx
              obtain ⟨t, ht, rfl⟩ := List.mem_map.1 hx
              rcases hw t (List.mem_range.1 ht) with e | e <;> rw [e]; norm_num
          · intro u hu'
            simp only [SubConf.single, Option.some.injEq] at hu'
            rw [← hu']; exact h1
        · obtain ⟨i, hi', hk⟩ := List.mem_flatMap.1 hk
          obtain ⟨z1, z2⟩ := hm.z_le ho' i ((mem_kept c i).1 hi')
          simp only [List.mem_cons, List.not_mem_nil, or_false] at hk
          rcases hk with rfl | rfl <;>
            simp only [inBounds_le, List.map_cons, List.map_nil, List.sum_cons, List.sum_nil] <;> linarith
    · obtain ⟨r, hr, hk⟩ := List.mem_flatMap.1 hk
      obtain ⟨h1, h2⟩ := zipIdx_of_mem hr
      refine (follow_iff h hm.split (cutPat cuts r.2) (hyc r.2 h1)).2 (hm.cut r.2 h1) k ?_
      rw [h2] at hk
      exact hk

/-! ## The path described by a point -/

theorem find?_unique {α : Type*} (l : List α) (p : α → Bool) (x : α) (hx : x ∈ l) (hp : p x = true) (hu : ∀ y ∈ l, p y = true → y = x) :
    l.find? p = some x := by
  rcases hf : l.find? p with _ | y
  · rw [List.find?_eq_none] at hf
    exact absurd hp (hf x hx)
  · rw [hu y (List.mem_of_find?_eq_some hf) (List.find?_some hf)]

theorem pathOf_splits {c : SubConf} {st : SubSt} {a : ℕ → ℚ} {σ : ℕ → ℕ} (hσ : Chooses c st a σ) (order : List ℕ)
    (ho : ∀ n ∈ order, n ∈ c.leafNodes) (cost : ℚ) : (c.pathOf st a order cost).splits = order.map σ := by
  show order.filterMap _ = _
  have key : ∀ n ∈ order, (c.cands n).find? (fun s => decide (a (st.idx (.u n s)) > 1 / 2)) = some (σ n) := by
    intro n hn
    obtain ⟨h1, h2⟩ := hσ n (ho n hn)
    refine find?_unique _ _ _ h1 ?_ ?_
    · rw [h2 _ h1]; norm_num
    · intro s hs hp
      by_contra hne
      rw [h2 s hs, if_neg hne] at hp
      norm_num at hp
  clear ho
  induction order with
  | nil => rfl
  | cons n l ih =>
    rw [List.filterMap_cons, key n (by simp), ih (fun m hm => key m (by simp [hm]))]
    rfl

theorem pathOf_pairs {c : SubConf} {st : SubSt} {a : ℕ → ℚ} {σ : ℕ → ℕ} (hσ : Chooses c st a σ) (order : List ℕ)
    (ho : ∀ n ∈ order, n ∈ c.leafNodes) (cost : ℚ) : (c.pathOf st a order cost).pairs = order.map (fun n => (n, σ n)) := by
  unfold Path.pairs
  rw [pathOf_splits hσ order ho]
  show order.zip _ = _
  clear ho
  induction order with
  | nil => rfl
  | cons n l ih => simp [ih]

theorem pathOf_wf {d : ℕ} {c : SubConf} (h : SubOk d c) {st : SubSt} {a : ℕ → ℚ} {σ : ℕ → ℕ} (hσ : Chooses c st a σ) {order : List ℕ}
    (ho : order.Perm c.leafNodes) (cost : ℚ) : WFPath d (c.pathOf st a order cost) ∧ UsesCand c.nodes (c.pathOf st a order cost) := by
  have hm : ∀ n ∈ order, n ∈ c.leafNodes := fun n hn => ho.mem_iff.1 hn
  refine ⟨⟨h.leaf_lt, ho.trans h.leafNodes_perm, ?_⟩, ?_⟩
  · rw [pathOf_splits hσ order hm, List.length_map, ho.length_eq, h.leafNodes_length]
  · intro q hq
    rw [pathOf_pairs hσ order hm] at hq
    obtain ⟨n, hn, rfl⟩ := List.mem_map.1 hq
    rw [← c.cands_eq]
    exact (hσ n (hm n hn)).1

theorem pathOf_follows {d : ℕ} {c : SubConf} (h : SubOk d c) {st : SubSt} {a : ℕ → ℚ} {σ : ℕ → ℕ} (hσ : Chooses c st a σ) {order : List ℕ}
    (ho : order.Perm c.leafNodes) (cost : ℚ) (left : ℕ → Bool) :
    Follows d left (c.pathOf st a order cost) ↔ Towards c left σ := by
  have hm : ∀ n ∈ order, n ∈ c.leafNodes := fun n hn => ho.mem_iff.1 hn
  rw [follows_iff (pathOf_wf h hσ ho cost).1, pathOf_pairs hσ order hm]
  have e : (createLeaf (c.pathOf st a order cost).leafId d).leftNodes = c.leaf.leftNodes := by
    show (createLeaf c.leaf.id d).leftNodes = _
    rw [← h.leaf]
  rw [e]
  constructor
  · intro hq n hn
    exact hq _ (List.mem_map.2 ⟨n, ho.mem_iff.2 hn, rfl⟩)
  · intro ht q hq
    obtain ⟨n, hn, rfl⟩ := List.mem_map.1 hq
    exact ht n (hm n hn)

theorem two_le_sum {α : Type*} [DecidableEq α] (l : List α) (f : α → ℚ) (h0 : ∀ x ∈ l, 0 ≤ f x) {x y : α} (hx : x ∈ l) (hy : y ∈ l)
    (hne : x ≠ y) : f x + f y ≤ (l.map f).sum := by
  have hy' : y ∈ l.erase x := (List.mem_erase_of_ne hne.symm).2 hy
  have p1 := List.perm_cons_erase hx
  have p2 := List.perm_cons_erase hy'
  rw [(p1.map f).sum_eq, List.map_cons, List.sum_cons, (p2.map f).sum_eq, List.map_cons, List.sum_cons]
  have : 0 ≤ (((l.erase x).erase y).map f).sum := by
    refine List.sum_nonneg ?_
    intro z hz
    obtain ⟨w, hw, rfl⟩ := List.mem_map.1 hz
    exact h0 w (List.mem_of_mem_erase (List.mem_of_mem_erase hw))
  linarith

/-- The target of the path is the class whose variable is 1. -/
theorem pathOf_target {d : ℕ} {c : SubConf} (h : SubOk d c) {cuts : List (List Bool)} {st : SubSt} {a : ℕ → ℚ} {σ : ℕ → ℕ}
    (hm : Means c cuts st a σ) (ho : c.isOld = false) (hw : ∀ t < c.targets.length, a (st.idx (.w t)) = 0 ∨ a (st.idx (.w t)) = 1)
    (order : List ℕ) (cost : ℚ) {t : ℕ} (ht : t < c.targets.length) (h1 : a (st.idx (.w t)) = 1) :
    (c.pathOf st a order cost).target = t := by
  have hf : c.targets.find? (fun t => decide (a (st.idx (.w t)) > 1 / 2)) = some t := by
    refine find?_unique _ _ _ (h.targets.mem_iff.2 (List.mem_range.2 ht)) (by rw [h1]; norm_num) ?_
    intro t' ht' hp
    have ht'' : t' < c.targets.length := List.mem_range.1 (h.targets.mem_iff.1 ht')
    by_contra hne
    have h2 : a (st.idx (.w t')) = 1 := by
      rcases hw t' ht'' with e | e
      · rw [e] at hp; norm_num at hp
      · exact e
    have := two_le_sum (List.range c.targets.length) (fun t => a (st.idx (.w t))) (by
      intro x hx
      rcases hw x (List.mem_range.1 hx) with e | e <;> rw [e]; norm_num) (List.mem_range.2 ht'') (List.mem_range.2 ht) hne
    simp only [h1, h2] at this
    linarith [(hm.single ho).1]
  unfold SubConf.pathOf
  unfold SubConf.isOld at ho
  cases hk : c.kind with
  | mip => simp only [hf]
  | sat => simp only [hf]
  | old t => rw [hk] at ho; simp at ho

/-- Without a selected class the target is `-1`. -/
theorem pathOf_target_none {c : SubConf} {st : SubSt} {a : ℕ → ℚ} (ho : c.isOld = false)
    (hw : ∀ t ∈ c.targets, a (st.idx (.w t)) = 0) (order : List ℕ) (cost : ℚ) : (c.pathOf st a order cost).target = -1 := by
  have hf : c.targets.find? (fun t => decide (a (st.idx (.w t)) > 1 / 2)) = none := by
    rw [List.find?_eq_none]
    intro t ht
    rw [hw t ht]
    norm_num
  unfold SubConf.pathOf
  unfold SubConf.isOld at ho
  cases hk : c.kind with
  | mip => simp only [hf]
  | sat => simp only [hf]
  | old t => rw [hk] at ho; simp at ho

open Classical in
theorem keptSum_eq (c : SubConf) (P : ℕ → Prop) (f : ℕ → ℚ) : keptSum c P f = (c.kept.map (fun i => if P i then f i else 0)).sum := by
  unfold keptSum SubConf.kept
  have hk : ∀ i, i < c.X.length → (Kept c i ↔ (!c.removed i) = true) := by
    intro i hi
    rw [← mem_kept]
    unfold SubConf.kept
    rw [List.mem_filter]
    simp [hi]
  have : ∀ l : List ℕ, (∀ i ∈ l, i < c.X.length) → (l.map (fun i => if Kept c i ∧ P i then f i else 0)).sum =
      ((l.filter (fun i => !c.removed i)).map (fun i => if P i then f i else 0)).sum := by
    intro l
    induction l with
    | nil => intro _; rfl
    | cons i l ih =>
      intro hl
      rw [List.map_cons, List.sum_cons, ih (fun j hj => hl j (by simp [hj]))]
      have hi := hk i (hl i (by simp))
      by_cases hr : (!c.removed i) = true
      · rw [List.filter_cons_of_pos (p := fun i => !c.removed i) hr, List.map_cons, List.sum_cons]
        simp [hi.2 hr]
      · rw [List.filter_cons_of_neg (p := fun i => !c.removed i) hr]
        have : ¬ Kept c i := fun hc => hr (hi.1 hc)
        simp [this]
  exact this _ (fun i hi => List.mem_range.1 hi)

/-! ## The objective -/

theorem sum_map_neg' {α : Type*} (l : List α) (f : α → ℚ) : (l.map (fun x => -f x)).sum = -(l.map f).sum := by
  induction l with
  | nil => simp
  | cons x l ih => simp only [List.map_cons, List.sum_cons, ih]; ring

/-- The sum of the objective terms, grouped as in `PathGenerator`. -/
theorem objTerms_sum (c : SubConf) (D : Duals) (n : ℕ) (st : SubSt) (a : ℕ → ℚ) :
    ((c.objTerms D n).map (fun t => t.2 * a (st.idx t.1))).sum =
      c.costOf st a + (c.kept.map (fun i => -D.row.getD i 0 * a (st.idx (.y i)))).sum +
        ((List.range n).map (fun k => -D.cut.getD k 0 * a (st.idx (.yc k)))).sum +
        (c.leafNodes.map (fun m => ((c.cands m).map (fun s => -(D.ns c.leaf.id m s).getD 0 * a (st.idx (.u m s)))).sum)).sum := by
  unfold SubConf.objTerms
  rw [List.map_append, List.map_append, List.sum_append, List.sum_append, sum_flatMap_map, sum_flatMap_map]
  congr 1
  · congr 1
    · unfold SubConf.costOf
      cases hk : c.kind with
      | mip =>
        simp only [List.map_cons, List.map_nil, List.sum_cons, List.sum_nil, add_zero]
        rw [List.sum_map_add]
      | sat =>
        simp only [List.map_cons, List.map_nil, List.sum_cons, List.sum_nil, add_zero]
        rw [List.sum_map_add]
      | old t =>
        simp only [List.map_cons, List.map_nil, List.sum_cons, List.sum_nil, add_zero]
        have : ∀ l : List ℕ, (l.map (fun i => (if c.y.getD i 0 = t then 1 - D.row.getD i 0 else -D.row.getD i 0) * a (st.idx (.y i)))).sum =
            ((l.filter (fun i => c.y.getD i 0 = t)).map (fun i => a (st.idx (.y i)))).sum +
              (l.map (fun i => -D.row.getD i 0 * a (st.idx (.y i)))).sum := by
          intro l
          induction l with
          | nil => simp
          | cons i l ih =>
            rw [List.map_cons, List.sum_cons, ih, List.map_cons, List.sum_cons]
            by_cases hi : c.y.getD i 0 = t
            · rw [List.filter_cons_of_pos (by simpa using hi), if_pos hi, List.map_cons, List.sum_cons]
              ring
            · rw [List.filter_cons_of_neg (by simpa using hi), if_neg hi]
              ring
        exact this _
    · rw [List.map_map]
      rfl
  · congr 1
    refine List.map_congr_left ?_
    intro m _
    rw [List.map_map]
    rfl

/-- The objective of a point is the reduced cost of the path it describes. -/
theorem redCost_pathOf {d : ℕ} {c : SubConf} (h : SubOk d c) {cuts : List (List Bool)} {st : SubSt} {a : ℕ → ℚ} {σ : ℕ → ℕ}
    (hm : Means c cuts st a σ) {order : List ℕ} (ho : order.Perm c.leafNodes) (D : Duals) :
    redCost d c cuts D (c.pathOf st a order (c.costOf st a)) =
      ((c.objTerms D cuts.length).map (fun t => t.2 * a (st.idx t.1))).sum - D.leaf.getD c.leaf.id 0 := by
  classical
  rw [objTerms_sum]
  unfold redCost
  have e0 : (c.pathOf st a order (c.costOf st a)).cost = c.costOf st a := rfl
  have e1 : (c.pathOf st a order (c.costOf st a)).leafId = c.leaf.id := rfl
  rw [e0, e1, keptSum_eq, pathOf_pairs hm.split order (fun n hn => ho.mem_iff.1 hn), List.map_map]
  have r1 : (c.kept.map (fun i => -D.row.getD i 0 * a (st.idx (.y i)))).sum =
      -(c.kept.map (fun i => if Follows d (rowPat c i) (c.pathOf st a order (c.costOf st a)) then D.row.getD i 0 else 0)).sum := by
    rw [← sum_map_neg']
    congr 1
    refine List.map_congr_left ?_
    intro i hi
    rw [hm.row i ((mem_kept c i).1 hi)]
    have hf := pathOf_follows h hm.split ho (c.costOf st a) (rowPat c i)
    by_cases ht : Towards c (rowPat c i) σ
    · rw [if_pos ht, if_pos (hf.2 ht)]; ring
    · rw [if_neg ht, if_neg (fun hc => ht (hf.1 hc))]; ring
  have r2 : ((List.range cuts.length).map (fun k => -D.cut.getD k 0 * a (st.idx (.yc k)))).sum =
      -cutSum cuts.length (fun k => Follows d (cutPat cuts k) (c.pathOf st a order (c.costOf st a))) (fun k => D.cut.getD k 0) := by
    unfold cutSum
    rw [← sum_map_neg']
    congr 1
    refine List.map_congr_left ?_
    intro k hk
    rw [hm.cut k (List.mem_range.1 hk)]
    have hf := pathOf_follows h hm.split ho (c.costOf st a) (cutPat cuts k)
    by_cases ht : Towards c (cutPat cuts k) σ
    · rw [if_pos ht, if_pos (hf.2 ht)]; ring
    · rw [if_neg ht, if_neg (fun hc => ht (hf.1 hc))]; ring
  have r3 : (c.leafNodes.map (fun m => ((c.cands m).map (fun s => -(D.ns c.leaf.id m s).getD 0 * a (st.idx (.u m s)))).sum)).sum =
      -(order.map ((fun q : ℕ × ℕ => (D.ns c.leaf.id q.1 q.2).getD 0) ∘ fun n => (n, σ n))).sum := by
    rw [← sum_map_neg', (ho.map _).sum_eq]
    congr 1
    refine List.map_congr_left ?_
    intro n hn
    obtain ⟨h1, h2⟩ := hm.split n hn
    have : (c.cands n).map (fun s => -(D.ns c.leaf.id n s).getD 0 * a (st.idx (.u n s))) =
        (c.cands n).map (fun s => if s = σ n then -(D.ns c.leaf.id n (σ n)).getD 0 else 0) := by
      refine List.map_congr_left ?_
      intro s hs
      rw [h2 s hs]
      split_ifs with he
      · rw [he]; ring
      · ring
    rw [this, sum_ite_mem _ (h.cands_nodup n), if_pos h1]
    rfl
  rw [r1, r2, r3]
  ring

end Verif.DTree
