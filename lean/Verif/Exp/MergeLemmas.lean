import Mathlib.Algebra.BigOperators.Group.Finset.Basic
import Mathlib.Algebra.BigOperators.Group.Finset.Piecewise
import Mathlib.Data.List.GetD
import Verif.DTree.ReachProps
import Verif.Exp.Preprocess

/-!
# Invariants of the merging loop of `preprocess`
-/

set_option linter.unusedSectionVars false
set_option linter.unusedSimpArgs false

namespace Verif.Exp

open Verif.DTree Verif.DTree.Spec

/-- Row `i` is removed from the master problem / from the pricing problems. -/
abbrev RM (rows : List Row) (i : ℕ) : Prop := (rowAt rows i).removedFromMaster = true

abbrev RS (rows : List Row) (i : ℕ) : Prop := (rowAt rows i).removedFromSp = true

/-- The fields of a row that the merging loop does not change. -/
def static (r : Row) : Row :=
  { r with
    removedFromMaster := false
    removedFromSp := false
    weight := 0 }

theorem similar_static (nodes : List Node) (a b : Row) : similar nodes (static a) (static b) = similar nodes a b := rfl

theorem rowAt_modify (rows : List Row) (k i : ℕ) (f : Row → Row) (hk : k < rows.length) :
    rowAt (rows.modify k f) i = if i = k then f (rowAt rows i) else rowAt rows i := by
  unfold rowAt
  simp only [List.getD_eq_getElem?_getD, List.getElem?_modify]
  by_cases h : i = k
  · subst h
    rw [if_pos rfl, List.getElem?_eq_getElem hk]
    simp
  · rw [if_neg h]
    have : ¬ k = i := fun e => h e.symm
    simp [this]

theorem merge_length (same : Bool) (r1 r2 : ℕ) (rows : List Row) : (merge same r1 r2 rows).length = rows.length := by
  unfold merge
  simp only
  split_ifs <;> simp

/-- The effect of a merge. -/
theorem merge_spec (same : Bool) {r1 r2 : ℕ} (rows : List Row) (hne : r1 ≠ r2) (h1 : r1 < rows.length) (h2 : r2 < rows.length) (i : ℕ) :
    static (rowAt (merge same r1 r2 rows) i) = static (rowAt rows i) ∧
    (RM (merge same r1 r2 rows) i ↔ RM rows i ∨ (i = r2 ∧ ¬ RM rows r1)) ∧
    (RS (merge same r1 r2 rows) i ↔ RS rows i ∨ (i = r2 ∧ same = true)) ∧
    (rowAt (merge same r1 r2 rows) i).weight = (rowAt rows i).weight + if i = r1 ∧ same = true then 1 else 0 := by
  unfold merge RM RS
  simp only
  by_cases hm : (rowAt rows r1).removedFromMaster = true
  · rw [if_pos hm]
    cases same
    · simp [hm]
    · simp only [if_true]
      rw [rowAt_modify _ _ _ _ (by simpa using h1), rowAt_modify _ _ _ _ h2]
      by_cases e1 : i = r1
      · subst e1
        simp [hne, static]
      · by_cases e2 : i = r2
        · subst e2; simp [e1, static, hm]
        · simp [e1, e2]
  · rw [if_neg hm]
    cases same
    · simp only [Bool.false_eq_true, if_false]
      rw [rowAt_modify _ _ _ _ h2]
      by_cases e2 : i = r2
      · subst e2; simp [static, hm]
      · simp [e2]
    · simp only [if_true]
      rw [rowAt_modify _ _ _ _ (by simpa using h1), rowAt_modify _ _ _ _ (by simpa using h2), rowAt_modify _ _ _ _ h2]
      by_cases e1 : i = r1
      · subst e1
        simp [hne, static]
      · by_cases e2 : i = r2
        · subst e2; simp [e1, static, hm]
        · simp [e1, e2]

section
variable (n : ℕ) (few : ℕ → Prop) (S Y : ℕ → ℕ → Prop)

/-- The part of the invariant that holds whatever the clock does; all merges so far were into rows up to `c`. -/
structure Inv1 (c : ℕ) (rows : List Row) : Prop where
  w1 : ∀ i, c < i → (rowAt rows i).weight = 1
  pos : ∀ i, 1 ≤ (rowAt rows i).weight
  sum : ∀ P : ℕ → Bool, (∀ i j, i < n → j < n → S i j → Y i j → P i = P j) →
    ∑ i ∈ Finset.range n, (if RS rows i then 0 else if P i then (rowAt rows i).weight else 0) = ∑ i ∈ Finset.range n, if P i then 1 else 0
  fewRemoved : ∀ i < n, few i → RM rows i
  master : ∀ i < n, RM rows i → few i ∨ ∃ j ≤ c, j < i ∧ ¬ RM rows j ∧ ¬ RS rows j ∧ S j i
  sp : ∀ i < n, RS rows i → ∃ j ≤ c, j < i ∧ ¬ RS rows j ∧ S j i ∧ Y j i

/-- The part that needs all pairs `(j, i)` with `j < c`, or `j = c` and `i < e`, to have been compared. -/
structure Inv2 (c e : ℕ) (rows : List Row) : Prop where
  sub : ∀ i < n, RS rows i → RM rows i
  m : ∀ j i, (j < c ∨ j = c ∧ i < e) → j < i → i < n → ¬ RM rows j → ¬ RS rows j → S j i → RM rows i
  s : ∀ j i, (j < c ∨ j = c ∧ i < e) → j < i → i < n → ¬ RS rows j → S j i → Y j i → RS rows i

variable {n few S Y}

theorem Inv1.mono {c c' : ℕ} {rows : List Row} (h : Inv1 n few S Y c rows) (hc : c ≤ c') : Inv1 n few S Y c' rows where
  w1 := fun i hi => h.w1 i (by omega)
  pos := h.pos
  sum := h.sum
  fewRemoved := h.fewRemoved
  master := fun i hi hr => (h.master i hi hr).imp id (fun ⟨j, hj, h⟩ => ⟨j, hj.trans hc, h⟩)
  sp := fun i hi hr => let ⟨j, hj, h⟩ := h.sp i hi hr; ⟨j, hj.trans hc, h⟩

/-- A merge of row `r2` into row `r1` preserves the first part. -/
theorem Inv1.merge {r1 r2 : ℕ} {rows : List Row} {same : Bool} (h : Inv1 n few S Y r1 rows) (hlen : rows.length = n) (h12 : r1 < r2)
    (h2 : r2 < n) (hr1 : ¬ RS rows r1) (hr2 : ¬ RS rows r2) (hS : S r1 r2) (hY : same = true ↔ Y r1 r2) :
    Inv1 n few S Y r1 (merge same r1 r2 rows) := by
  have hs := merge_spec same rows (by omega : r1 ≠ r2) (by omega) (by omega)
  refine ⟨?_, ?_, ?_, ?_, ?_, ?_⟩
  · intro i hi
    rw [(hs i).2.2.2, h.w1 i hi, if_neg (by omega)]
  · intro i
    rw [(hs i).2.2.2]
    have := h.pos i
    omega
  · intro P hP
    rw [← h.sum P hP]
    cases same with
    | false =>
      apply Finset.sum_congr rfl
      intro i _
      have e1 : RS (Exp.merge false r1 r2 rows) i ↔ RS rows i := by rw [(hs i).2.2.1]; simp
      have e2 : (rowAt (Exp.merge false r1 r2 rows) i).weight = (rowAt rows i).weight := by rw [(hs i).2.2.2]; simp
      rw [e2]
      by_cases hh : RS rows i
      · rw [if_pos hh, if_pos (e1.2 hh)]
      · rw [if_neg hh, if_neg (fun h => hh (e1.1 h))]
    | true =>
      have hPP : P r1 = P r2 := hP r1 r2 (by omega) h2 hS (hY.1 rfl)
      have key : ∀ i ∈ Finset.range n, (if RS (Exp.merge true r1 r2 rows) i then 0 else if P i then (rowAt (Exp.merge true r1 r2 rows) i).weight else 0) +
          (if i = r2 then (if P r2 then 1 else 0) else 0) =
          (if RS rows i then 0 else if P i then (rowAt rows i).weight else 0) + (if i = r1 then (if P r1 then 1 else 0) else 0) := by
        intro i _
        have e1 := (hs i).2.2.1
        rw [(hs i).2.2.2]
        by_cases e2 : i = r2
        · subst e2
          rw [if_pos (e1.2 (.inr ⟨rfl, rfl⟩)), if_neg hr2, h.w1 i h12]
          have : ¬ i = r1 := by omega
          simp [this]
        · by_cases hh : RS rows i
          · rw [if_pos hh, if_pos (e1.2 (.inl hh))]
            have : ¬ i = r1 := fun e => hr1 (e ▸ hh)
            simp [this, e2]
          · have : ¬ RS (Exp.merge true r1 r2 rows) i := by rw [e1]; simp [hh, e2]
            rw [if_neg this, if_neg hh]
            by_cases e1 : i = r1
            · subst e1
              cases P i <;> simp [e2]
            · simp [e1, e2]
      have hsum := Finset.sum_congr rfl key
      rw [Finset.sum_add_distrib, Finset.sum_add_distrib] at hsum
      rw [Finset.sum_ite_eq' (Finset.range n) r2, Finset.sum_ite_eq' (Finset.range n) r1] at hsum
      rw [if_pos (Finset.mem_range.2 h2), if_pos (Finset.mem_range.2 (by omega : r1 < n)), hPP] at hsum
      exact Nat.add_right_cancel hsum
  · intro i hi hf
    rw [(hs i).2.1]
    exact .inl (h.fewRemoved i hi hf)
  · intro i hi hr
    rw [(hs i).2.1] at hr
    have hkeep : ∀ j, j ≤ r1 → ¬ RM rows j → ¬ RS rows j → ¬ RM (Exp.merge same r1 r2 rows) j ∧ ¬ RS (Exp.merge same r1 r2 rows) j := by
      intro j hj a b
      rw [(hs j).2.1, (hs j).2.2.1]
      have : ¬ j = r2 := by omega
      simp [a, b, this]
    rcases hr with hr | ⟨rfl, hr⟩
    · rcases h.master i hi hr with hf | ⟨j, hj, hji, a, b, c⟩
      · exact .inl hf
      · exact .inr ⟨j, hj, hji, (hkeep j hj a b).1, (hkeep j hj a b).2, c⟩
    · exact .inr ⟨r1, le_rfl, h12, (hkeep r1 le_rfl hr hr1).1, (hkeep r1 le_rfl hr hr1).2, hS⟩
  · intro i hi hr
    rw [(hs i).2.2.1] at hr
    have hkeep : ∀ j, j ≤ r1 → ¬ RS rows j → ¬ RS (Exp.merge same r1 r2 rows) j := by
      intro j hj b
      rw [(hs j).2.2.1]
      have : ¬ j = r2 := by omega
      simp [b, this]
    rcases hr with hr | ⟨rfl, hr⟩
    · obtain ⟨j, hj, hji, b, c⟩ := h.sp i hi hr
      exact ⟨j, hj, hji, hkeep j hj b, c⟩
    · exact ⟨r1, le_rfl, h12, hkeep r1 le_rfl hr1, hS, hY.1 hr⟩

/-- A merge preserves the second part and advances it. -/
theorem Inv2.merge {r1 r2 : ℕ} {rows : List Row} {same : Bool} (h : Inv2 n S Y r1 r2 rows) (h1 : Inv1 n few S Y r1 rows) (hlen : rows.length = n)
    (htrans : ∀ a b c, a < n → b < n → c < n → S a b → S b c → S a c) (hfew : ∀ a b, a < n → b < n → S a b → few a → few b)
    (h12 : r1 < r2) (h2 : r2 < n) (hr1 : ¬ RS rows r1) (hS : S r1 r2) (hY : same = true ↔ Y r1 r2) :
    Inv2 n S Y r1 (r2 + 1) (merge same r1 r2 rows) := by
  have hs := merge_spec same rows (by omega : r1 ≠ r2) (by omega) (by omega)
  refine ⟨?_, ?_, ?_⟩
  · intro i hi hr
    rw [(hs i).2.2.1] at hr
    rw [(hs i).2.1]
    rcases hr with hr | ⟨rfl, hr⟩
    · exact .inl (h.sub i hi hr)
    · by_cases hm : RM rows r1
      · left
        rcases h1.master r1 (by omega) hm with hf | ⟨j, hj, hji, a, b, c⟩
        · exact h1.fewRemoved i hi (hfew r1 i (by omega) hi hS hf)
        · exact h.m j i (.inl hji) (by omega) hi a b (htrans j r1 i (by omega) (by omega) hi c hS)
      · exact .inr ⟨rfl, hm⟩
  · intro j i hp hji hi a b c
    rw [(hs i).2.1]
    rw [(hs j).2.1] at a
    rw [(hs j).2.2.1] at b
    push Not at a b
    by_cases hnew : j = r1 ∧ i = r2
    · obtain ⟨rfl, rfl⟩ := hnew
      exact .inr ⟨rfl, a.1⟩
    · left
      refine h.m j i ?_ hji hi a.1 b.1 c
      omega
  · intro j i hp hji hi b c y
    rw [(hs i).2.2.1]
    rw [(hs j).2.2.1] at b
    push Not at b
    by_cases hnew : j = r1 ∧ i = r2
    · obtain ⟨rfl, rfl⟩ := hnew
      exact .inr ⟨rfl, hY.2 y⟩
    · left
      refine h.s j i ?_ hji hi b.1 c y
      omega

end

/-- The time test is monotone: once the time is over it stays over. -/
def Mono (limit : ℚ) (elapsed : ℕ → ℚ) : Prop := ∀ j k, j ≤ k → timeOver limit elapsed j = true → timeOver limit elapsed k = true

section
variable {nodes : List Node} {y : List ℤ} {limit : ℚ} {elapsed : ℕ → ℚ} {n : ℕ} {rows0 : List Row} {few : ℕ → Prop}

/-- Rows `i` and `j` are similar / have the same label. -/
abbrev SimR (nodes : List Node) (rows0 : List Row) (i j : ℕ) : Prop := similar nodes (rowAt rows0 i) (rowAt rows0 j) = true

abbrev SameY (y : List ℤ) (i j : ℕ) : Prop := y.getD i 0 = y.getD j 0

/-- The rows have kept their length and static fields. -/
def Same (rows0 rows : List Row) : Prop := rows.length = rows0.length ∧ ∀ i, static (rowAt rows i) = static (rowAt rows0 i)

theorem sim_same {rows : List Row} (h : Same rows0 rows) (i j : ℕ) :
    similar nodes (rowAt rows i) (rowAt rows j) = similar nodes (rowAt rows0 i) (rowAt rows0 j) := by
  rw [← similar_static, h.2 i, h.2 j, similar_static]

theorem Same.merge {rows : List Row} (h : Same rows0 rows) (same : Bool) {r1 r2 : ℕ} (hne : r1 ≠ r2) (h1 : r1 < rows0.length) (h2 : r2 < rows0.length) :
    Same rows0 (merge same r1 r2 rows) := by
  refine ⟨by rw [merge_length, h.1], fun i => ?_⟩
  rw [(merge_spec same rows hne (by rw [h.1]; exact h1) (by rw [h.1]; exact h2) i).1, h.2 i]

/-- The inner loop from position `e` on. Either it ran to the end or the time was over at its last test. -/
theorem mergeInner_inv (hn : rows0.length = n)
    (htrans : ∀ a b c, a < n → b < n → c < n → SimR nodes rows0 a b → SimR nodes rows0 b c → SimR nodes rows0 a c)
    (hfew : ∀ a b, a < n → b < n → SimR nodes rows0 a b → few a → few b) {r1 : ℕ} :
    ∀ (m e : ℕ) (st : ℕ × List Row), r1 < e → e + m = n → Same rows0 st.2 → ¬ RS st.2 r1 →
      Inv1 n few (SimR nodes rows0) (SameY y) r1 st.2 →
      let st' := mergeInner nodes y limit elapsed r1 (List.range' e m) st
      Same rows0 st'.2 ∧ Inv1 n few (SimR nodes rows0) (SameY y) r1 st'.2 ∧ st.1 ≤ st'.1 ∧
      (Inv2 n (SimR nodes rows0) (SameY y) r1 e st.2 →
        (Inv2 n (SimR nodes rows0) (SameY y) r1 n st'.2 ∨
          ((∃ e', Inv2 n (SimR nodes rows0) (SameY y) r1 e' st'.2) ∧ ∃ k < st'.1, timeOver limit elapsed k = true))) := by
  intro m
  induction m with
  | zero =>
    intro e st h1 he hs hr h
    refine ⟨hs, h, le_rfl, fun h2 => .inl ?_⟩
    obtain rfl : e = n := by omega
    exact h2
  | succ m ih =>
    intro e st h1 he hs hr h
    rw [List.range'_succ]
    simp only [mergeInner]
    have adv : Inv2 n (SimR nodes rows0) (SameY y) r1 e st.2 → (RS st.2 e ∨ ¬ SimR nodes rows0 r1 e) →
        Inv2 n (SimR nodes rows0) (SameY y) r1 (e + 1) st.2 := by
      intro h2 hor
      refine ⟨h2.sub, ?_, ?_⟩
      · intro j i hp hji hi a b c
        by_cases hnew : j = r1 ∧ i = e
        · obtain ⟨rfl, rfl⟩ := hnew
          rcases hor with hor | hor
          · exact h2.sub i hi hor
          · exact absurd c hor
        · exact h2.m j i (by omega) hji hi a b c
      · intro j i hp hji hi b c y
        by_cases hnew : j = r1 ∧ i = e
        · obtain ⟨rfl, rfl⟩ := hnew
          rcases hor with hor | hor
          · exact hor
          · exact absurd c hor
        · exact h2.s j i (by omega) hji hi b c y
    split_ifs with ht hrs hsim
    · refine ⟨hs, h, Nat.le_succ _, fun h2 => .inr ⟨⟨e, h2⟩, st.1, Nat.lt_succ_self _, ht⟩⟩
    · obtain ⟨a, b, c, d⟩ := ih (e + 1) (st.1 + 1, st.2) (by omega) (by omega) hs hr h
      exact ⟨a, b, by omega, fun h2 => d (adv h2 (.inl hrs))⟩
    · rw [sim_same hs] at hsim
      obtain ⟨sm, hsm⟩ : ∃ sm : Bool, sm = decide (y.getD r1 0 = y.getD e 0) := ⟨_, rfl⟩
      rw [← hsm]
      have hY : sm = true ↔ SameY y r1 e := by rw [hsm, decide_eq_true_eq]
      have hlen : st.2.length = n := by rw [hs.1, hn]
      have hr' : ¬ RS (merge sm r1 e st.2) r1 := by
        rw [(merge_spec sm st.2 (by omega : r1 ≠ e) (by omega) (by omega) r1).2.2.1]
        have : ¬ r1 = e := by omega
        simp [hr, this]
      obtain ⟨a, b, c, d⟩ := ih (e + 1) (st.1 + 1, merge sm r1 e st.2) (by omega) (by omega)
        (hs.merge sm (by omega) (by omega) (by omega)) hr' (h.merge hlen h1 (by omega) hr hrs hsim hY)
      exact ⟨a, b, by omega, fun h2 => d (h2.merge h hlen htrans hfew h1 (by omega) hr hsim hY)⟩
    · rw [sim_same hs] at hsim
      obtain ⟨a, b, c, d⟩ := ih (e + 1) (st.1 + 1, st.2) (by omega) (by omega) hs hr h
      exact ⟨a, b, by omega, fun h2 => d (adv h2 (.inr hsim))⟩

/-- The outer loop from row `c` on. -/
theorem mergeLoop_inv (hn : rows0.length = n)
    (htrans : ∀ a b c, a < n → b < n → c < n → SimR nodes rows0 a b → SimR nodes rows0 b c → SimR nodes rows0 a c)
    (hfew : ∀ a b, a < n → b < n → SimR nodes rows0 a b → few a → few b) :
    ∀ (m c : ℕ) (st : ℕ × List Row), c + m = n → Same rows0 st.2 →
      Inv1 n few (SimR nodes rows0) (SameY y) c st.2 →
      let st' := mergeLoop nodes y limit elapsed n (List.range' c m) st
      Same rows0 st'.2 ∧ Inv1 n few (SimR nodes rows0) (SameY y) n st'.2 ∧
      (Mono limit elapsed → Inv2 n (SimR nodes rows0) (SameY y) c c st.2 →
        (Inv2 n (SimR nodes rows0) (SameY y) n n st'.2 ∨
          ((∃ c' e', Inv2 n (SimR nodes rows0) (SameY y) c' e' st'.2) ∧ ∃ k < st'.1, timeOver limit elapsed k = true))) := by
  intro m
  induction m with
  | zero =>
    intro c st hc hs h
    obtain rfl : c = n := by omega
    exact ⟨hs, h, fun _ h2 => .inl h2⟩
  | succ m ih =>
    intro c st hc hs h
    rw [List.range'_succ]
    simp only [mergeLoop]
    split_ifs with ht hrs
    · exact ⟨hs, h.mono (by omega), fun _ h2 => .inr ⟨⟨c, c, h2⟩, st.1, Nat.lt_succ_self _, ht⟩⟩
    · obtain ⟨a, b, d⟩ := ih (c + 1) (st.1 + 1, st.2) (by omega) hs (h.mono (by omega))
      refine ⟨a, b, fun hm h2 => d hm ⟨h2.sub, ?_, ?_⟩⟩
      · intro j i hp hji hi a' b' c'
        by_cases hj : j = c
        · rw [hj] at b'; exact absurd hrs b'
        · exact h2.m j i (by omega) hji hi a' b' c'
      · intro j i hp hji hi b' c' y'
        by_cases hj : j = c
        · rw [hj] at b'; exact absurd hrs b'
        · exact h2.s j i (by omega) hji hi b' c' y'
    · obtain ⟨a, b, c', d⟩ := mergeInner_inv (limit := limit) (elapsed := elapsed) hn htrans hfew (n - (c + 1)) (c + 1) (st.1 + 1, st.2) (by omega)
        (by omega) hs hrs h
      obtain ⟨st1, hst1⟩ : ∃ s, s = mergeInner nodes y limit elapsed c (List.range' (c + 1) (n - (c + 1))) (st.1 + 1, st.2) := ⟨_, rfl⟩
      rw [← hst1] at a b c' d ⊢
      obtain ⟨a2, b2, d2⟩ := ih (c + 1) st1 (by omega) a (b.mono (by omega))
      refine ⟨a2, b2, fun hm h2 => ?_⟩
      have h3 : Inv2 n (SimR nodes rows0) (SameY y) c (c + 1) st.2 :=
        ⟨h2.sub, fun j i hp hji hi => h2.m j i (by omega) hji hi, fun j i hp hji hi => h2.s j i (by omega) hji hi⟩
      rcases d h3 with h4 | ⟨⟨e', h4⟩, k, hk, ht'⟩
      · exact d2 hm ⟨h4.sub, fun j i hp hji hi => h4.m j i (by omega) hji hi, fun j i hp hji hi => h4.s j i (by omega) hji hi⟩
      · -- the time is over and stays over
        right
        have hend : ∀ (m c : ℕ) (st : ℕ × List Row), timeOver limit elapsed st.1 = true →
            (mergeLoop nodes y limit elapsed n (List.range' c m) st).2 = st.2 ∧ st.1 ≤ (mergeLoop nodes y limit elapsed n (List.range' c m) st).1 := by
          intro m c st hst
          cases m with
          | zero => exact ⟨rfl, le_rfl⟩
          | succ m =>
            rw [List.range'_succ]
            simp only [mergeLoop]
            rw [if_pos hst]
            exact ⟨rfl, Nat.le_succ _⟩
        obtain ⟨e1, e2⟩ := hend m (c + 1) st1 (hm k st1.1 hk.le ht')
        refine ⟨⟨c, e', ?_⟩, k, by omega, ht'⟩
        rw [e1]
        exact h4

end

end Verif.Exp
