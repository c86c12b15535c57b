import Verif.DTree.MasterLemmas
import Verif.DTree.ReachProps

/-!
# Lemmas: invariant of the restricted master over all histories of calls
-/

set_option linter.unusedSectionVars false
set_option linter.unusedSimpArgs false

namespace Verif.DTree

open MP Spec

/-! ## Recorded paths of the data rows -/

/-- The recorded paths of the data rows are the paths that the rows follow. -/
def DataOk (d : ℕ) (splits : List Split) (X : List (List ℚ)) (paths : List Path) (rows : List Row) : Prop :=
  rows.length = X.length ∧ ∀ (r : ℕ) (row : Row), rows[r]? = some row → row.reachablePaths.Nodup ∧
    ∀ i, i ∈ row.reachablePaths ↔ ∃ p ∈ paths, p.id = i ∧ Follows d (rowLeft splits (X.getD r [])) p

theorem fold_setAdd (f : Path → Bool) (paths : List Path) (acc : List ℕ) (h : acc.Nodup) :
    let r := paths.foldl (fun acc p => if f p then setAdd acc p.id else acc) acc
    r.Nodup ∧ ∀ i, i ∈ r ↔ i ∈ acc ∨ ∃ p ∈ paths, p.id = i ∧ f p = true := by
  induction paths generalizing acc with
  | nil => exact ⟨h, by simp⟩
  | cons p ps ih =>
    simp only [List.foldl_cons]
    by_cases hf : f p = true
    · rw [if_pos hf]
      obtain ⟨h1, h2⟩ := ih (setAdd acc p.id) (nodup_setAdd h)
      refine ⟨h1, fun i => ?_⟩
      rw [h2, mem_setAdd]
      constructor
      · rintro ((h | h) | ⟨q, hq, h⟩)
        · exact .inl h
        · exact .inr ⟨p, by simp, h.symm, hf⟩
        · exact .inr ⟨q, by simp [hq], h⟩
      · rintro (h | ⟨q, hq, h⟩)
        · exact .inl (.inl h)
        · rcases List.mem_cons.1 hq with rfl | hq
          · exact .inl (.inr h.1.symm)
          · exact .inr ⟨q, hq, h⟩
    · rw [if_neg hf]
      obtain ⟨h1, h2⟩ := ih acc h
      refine ⟨h1, fun i => ?_⟩
      rw [h2]
      constructor
      · rintro (h | ⟨q, hq, h⟩)
        · exact .inl h
        · exact .inr ⟨q, by simp [hq], h⟩
      · rintro (h | ⟨q, hq, h⟩)
        · exact .inl h
        · rcases List.mem_cons.1 hq with rfl | hq
          · exact absurd h.2 hf
          · exact .inr ⟨q, hq, h⟩

theorem compute_fold (f : Path → Bool) (paths : List Path) (row : Row) :
    paths.foldl (fun row p => if f p then { row with reachablePaths := setAdd row.reachablePaths p.id } else row) row =
      { row with reachablePaths := paths.foldl (fun acc p => if f p then setAdd acc p.id else acc) row.reachablePaths } := by
  induction paths generalizing row with
  | nil => rfl
  | cons p ps ih =>
    simp only [List.foldl_cons]
    by_cases hf : f p = true
    · rw [if_pos hf, if_pos hf, ih]
    · rw [if_neg hf, if_neg hf, ih]

theorem compute_ok {d : ℕ} {splits : List Split} {X : List (List ℚ)} {paths : List Path} (hw : ∀ p ∈ paths, WFPath d p)
    {rows : List Row} (hl : rows.length = X.length) (h0 : ∀ r ∈ rows, r.reachablePaths = []) :
    DataOk d splits X paths (computeSatisfiedPaths (fullLeaves d) splits paths X rows) := by
  unfold computeSatisfiedPaths
  refine ⟨by simpa using hl, ?_⟩
  intro r row hr
  rw [List.getElem?_mapIdx] at hr
  cases hrow : rows[r]? with
  | none => rw [hrow] at hr; cases hr
  | some row0 =>
    rw [hrow] at hr
    simp only [Option.map_some, Option.some.injEq] at hr
    rw [← hr, compute_fold]
    simp only [h0 row0 (List.mem_of_getElem? hrow)]
    obtain ⟨h1, h2⟩ := fold_setAdd (fun p => rowSatisfiesPath (X.getD r []) (leafAt (fullLeaves d) p.leafId) splits p) paths [] List.nodup_nil
    refine ⟨h1, fun i => ?_⟩
    rw [h2]
    constructor
    · rintro (h | ⟨p, hp, h, h'⟩)
      · cases h
      · exact ⟨p, hp, h, (rowSatisfiesPath_iff (hw p hp) _ _).1 h'⟩
    · rintro ⟨p, hp, h, h'⟩
      exact .inr ⟨p, hp, h, (rowSatisfiesPath_iff (hw p hp) _ _).2 h'⟩

theorem preprocess_ok {d : ℕ} {nodes : List Node} {splits : List Split} {X : List (List ℚ)} {paths : List Path}
    (hw : ∀ p ∈ paths, WFPath d p) : DataOk d splits X paths (preprocessRows (fullLeaves d) nodes splits paths X false) := by
  unfold preprocessRows
  simp only [Bool.false_eq_true, if_false]
  refine ⟨by simp, ?_⟩
  intro r row hr
  rw [List.getElem?_map] at hr
  cases hrow : X[r]? with
  | none => rw [hrow] at hr; cases hr
  | some x =>
    rw [hrow] at hr
    simp only [Option.map_some, Option.some.injEq] at hr
    have hx : X.getD r [] = x := by rw [List.getD_eq_getElem?_getD, hrow]; rfl
    rw [← hr, hx]
    unfold makeRow
    simp only
    obtain ⟨h1, h2⟩ := fold_setAdd (fun p => rowSatisfiesPath x (leafAt (fullLeaves d) p.leafId) splits p) paths [] List.nodup_nil
    refine ⟨h1, fun i => ?_⟩
    rw [h2]
    constructor
    · rintro (h | ⟨p, hp, h, h'⟩)
      · cases h
      · exact ⟨p, hp, h, (rowSatisfiesPath_iff (hw p hp) _ _).1 h'⟩
    · rintro ⟨p, hp, h, h'⟩
      exact .inr ⟨p, hp, h, (rowSatisfiesPath_iff (hw p hp) _ _).2 h'⟩

/-! ## Cut generation model -/

/-- The pattern is monotone in the thresholds of each feature. -/
def Monotone (splits : List Split) (a : ℕ → Bool) : Prop :=
  ∀ i < splits.length, ∀ j < splits.length, (splitAt splits i).feature = (splitAt splits j).feature →
    (splitAt splits i).threshold < (splitAt splits j).threshold → a i = true → a j = true

/-- The cut generation model describes the paths and the dependencies of the splits. -/
structure CutInv (d : ℕ) (splits : List Split) (paths : List Path) (cp : Cp) (sv pv : List ℕ) : Prop where
  sv : sv = List.range splits.length
  pv : pv = List.range' splits.length paths.length
  nvars : cp.nvars = splits.length + paths.length
  holds : ∀ a, cp.Holds a ↔ (∀ (i : ℕ) (p : Path), paths[i]? = some p → (a (splits.length + i) = true ↔ Follows d a p)) ∧ Monotone splits a

theorem lit_eval (a : ℕ → Bool) (v : ℕ) (b : Bool) : (Lit.mk v b).eval a = true ↔ a v = b := by
  unfold Lit.eval
  cases b <;> simp

theorem neg_eval (a : ℕ → Bool) (l : Lit) : l.neg.eval a = true ↔ ¬ l.eval a = true := by
  obtain ⟨v, b⟩ := l
  unfold Lit.neg
  rw [lit_eval, lit_eval]
  cases b <;> simp

theorem pathLits_eval {d n : ℕ} {p : Path} (hw : WFPath d p) (hs : ∀ t ∈ p.splits, t < n) (a : ℕ → Bool) :
    (∀ l ∈ pathLits (List.range n) (leafAt (fullLeaves d) p.leafId) p, l.eval a = true) ↔ Follows d a p := by
  rw [leafAt_full hw.leaf_lt, follows_iff hw]
  unfold pathLits
  simp only [List.mem_map, forall_exists_index, and_imp, forall_apply_eq_imp_iff₂]
  refine forall₂_congr ?_
  intro q hq
  have hlt : q.2 < n := hs q.2 (List.of_mem_zip hq).2
  rw [lit_eval]
  have : (List.range n).getD q.2 0 = q.2 := by
    rw [List.getD_eq_getElem?_getD, List.getElem?_range hlt]; rfl
  rw [this]

theorem addCutPath_holds {d n : ℕ} {p : Path} (hw : WFPath d p) (hs : ∀ t ∈ p.splits, t < n) (st : Cp × List ℕ) (a : ℕ → Bool) :
    (addCutPath (fullLeaves d) (List.range n) st p).1.Holds a ↔ st.1.Holds a ∧ (a st.1.nvars = true ↔ Follows d a p) := by
  have hl := pathLits_eval hw hs a
  unfold addCutPath Cp.Holds
  simp only [List.mem_append, List.mem_cons, List.not_mem_nil, or_false]
  have e1 : (CpCons.andIf ⟨st.1.nvars, true⟩ (pathLits (List.range n) (leafAt (fullLeaves d) p.leafId) p)).Holds a ↔
      (a st.1.nvars = true → Follows d a p) := by
    simp only [CpCons.Holds]
    rw [lit_eval, hl]
  have e2 : (CpCons.orIf ⟨st.1.nvars, false⟩ ((pathLits (List.range n) (leafAt (fullLeaves d) p.leafId) p).map Lit.neg)).Holds a ↔
      (Follows d a p → a st.1.nvars = true) := by
    simp only [CpCons.Holds]
    rw [lit_eval, ← hl]
    constructor
    · intro h hall
      by_contra hn
      obtain ⟨l, hm, he⟩ := h (by simpa using hn)
      obtain ⟨l', hl', rfl⟩ := List.mem_map.1 hm
      exact (neg_eval a l').1 he (hall l' hl')
    · intro h hn
      by_contra hc
      push Not at hc
      have : a st.1.nvars = true := by
        apply h
        intro l hm
        by_contra hne
        exact hc l.neg (List.mem_map.2 ⟨l, hm, rfl⟩) ((neg_eval a l).2 hne)
      rw [hn] at this
      cases this
  constructor
  · intro h
    refine ⟨fun k hk => h k (.inl hk), e1.1 (h _ (.inr (.inl rfl))), e2.1 (h _ (.inr (.inr rfl)))⟩
  · rintro ⟨h1, h2⟩ k (hk | rfl | rfl)
    · exact h1 k hk
    · exact e1.2 h2.1
    · exact e2.2 h2.2

theorem CutInv.add {d : ℕ} {splits : List Split} {paths : List Path} {cp : Cp} {sv pv : List ℕ} (h : CutInv d splits paths cp sv pv)
    {p : Path} (hp : GoodPath d splits p) :
    CutInv d splits (paths ++ [p]) (addCutPath (fullLeaves d) sv (cp, pv) p).1 sv (addCutPath (fullLeaves d) sv (cp, pv) p).2 := by
  refine ⟨h.sv, ?_, ?_, ?_⟩
  · simp only [addCutPath, h.pv, h.nvars, List.length_append, List.length_singleton]
    rw [List.range'_concat]
    simp
  · simp only [addCutPath, h.nvars, List.length_append, List.length_singleton]
    omega
  · intro a
    rw [h.sv, addCutPath_holds hp.1 hp.2, h.holds, h.nvars]
    constructor
    · rintro ⟨⟨h1, h2⟩, h3⟩
      refine ⟨?_, h2⟩
      intro i q hq
      rcases Nat.lt_trichotomy i paths.length with hi | hi | hi
      · rw [List.getElem?_append_left hi] at hq
        exact h1 i q hq
      · subst hi
        simp at hq
        subst hq
        exact h3
      · rw [List.getElem?_eq_none (by simp; omega)] at hq
        cases hq
    · rintro ⟨h1, h2⟩
      refine ⟨⟨?_, h2⟩, ?_⟩
      · intro i q hq
        have hi := (List.getElem?_eq_some_iff.1 hq).1
        exact h1 i q (by rw [List.getElem?_append_left hi]; exact hq)
      · exact h1 paths.length p (by simp)

theorem mem_pairsBelow (n i j : ℕ) : (i, j) ∈ pairsBelow n ↔ i < j ∧ j < n := by
  unfold pairsBelow
  simp only [List.mem_flatMap, List.mem_range, List.mem_map, List.mem_range'_1, Prod.mk.injEq]
  constructor
  · rintro ⟨i', hi', j', hj', rfl, rfl⟩; omega
  · rintro ⟨h1, h2⟩; exact ⟨i, by omega, j, by omega, rfl, rfl⟩

theorem splitDeps_spec (splits : List Split) (ps : List (ℕ × ℕ)) (hps : ∀ q ∈ ps, q.1 < splits.length ∧ q.2 < splits.length) :
    (∀ cs, splitDeps (List.range splits.length) splits ps = .ok cs →
      (∀ a, (∀ k ∈ cs, k.Holds a) ↔ ∀ q ∈ ps, (splitAt splits q.1).feature = (splitAt splits q.2).feature →
        ((splitAt splits q.1).threshold < (splitAt splits q.2).threshold → a q.1 = true → a q.2 = true) ∧
        ((splitAt splits q.2).threshold < (splitAt splits q.1).threshold → a q.2 = true → a q.1 = true)) ∧
      ∀ q ∈ ps, (splitAt splits q.1).feature = (splitAt splits q.2).feature →
        (splitAt splits q.1).threshold ≠ (splitAt splits q.2).threshold) ∧
    (∀ e, splitDeps (List.range splits.length) splits ps = .error e → e = .assertionError ∧
      ∃ q ∈ ps, (splitAt splits q.1).feature = (splitAt splits q.2).feature ∧
        (splitAt splits q.1).threshold = (splitAt splits q.2).threshold) := by
  induction ps with
  | nil =>
    refine ⟨?_, ?_⟩
    · intro cs h
      simp only [splitDeps, Except.ok.injEq] at h
      subst h
      simp
    · intro e h
      simp [splitDeps] at h
  | cons q ps ih =>
    obtain ⟨i, j⟩ := q
    obtain ⟨hi, hj⟩ := hps (i, j) (by simp)
    obtain ⟨ih1, ih2⟩ := ih (fun q hq => hps q (by simp [hq]))
    have hgi : (List.range splits.length).getD i 0 = i := by
      rw [List.getD_eq_getElem?_getD, List.getElem?_range hi]; rfl
    have hgj : (List.range splits.length).getD j 0 = j := by
      rw [List.getD_eq_getElem?_getD, List.getElem?_range hj]; rfl
    have hdep : (∀ cs, splitDep (List.range splits.length) splits i j = .ok cs →
        (∀ a, (∀ k ∈ cs, k.Holds a) ↔ ((splitAt splits i).feature = (splitAt splits j).feature →
          ((splitAt splits i).threshold < (splitAt splits j).threshold → a i = true → a j = true) ∧
          ((splitAt splits j).threshold < (splitAt splits i).threshold → a j = true → a i = true))) ∧
        ((splitAt splits i).feature = (splitAt splits j).feature → (splitAt splits i).threshold ≠ (splitAt splits j).threshold)) ∧
        (∀ e, splitDep (List.range splits.length) splits i j = .error e → e = .assertionError ∧
          (splitAt splits i).feature = (splitAt splits j).feature ∧ (splitAt splits i).threshold = (splitAt splits j).threshold) := by
      unfold splitDep
      simp only [hgi, hgj]
      split_ifs with h1 h2 h3
      · refine ⟨?_, by intro e h; cases h⟩
        intro cs h
        cases h
        exact ⟨fun a => ⟨fun _ he => absurd he h1, fun _ k hk => by cases hk⟩, fun he => absurd he h1⟩
      · refine ⟨(by intro cs h; cases h), ?_⟩
        intro e h
        cases h
        exact ⟨rfl, not_not.1 h1, h2⟩
      · refine ⟨?_, by intro e h; cases h⟩
        intro cs h
        cases h
        refine ⟨fun a => ?_, fun _ => h2⟩
        simp only [List.mem_singleton, forall_eq, CpCons.Holds]
        rw [lit_eval, lit_eval]
        constructor
        · intro h _
          exact ⟨fun _ => h, fun hlt => absurd hlt (not_lt.2 h3.le)⟩
        · intro h
          exact (h (not_not.1 h1)).1 h3
      · refine ⟨?_, by intro e h; cases h⟩
        intro cs h
        cases h
        refine ⟨fun a => ?_, fun _ => h2⟩
        simp only [List.mem_singleton, forall_eq, CpCons.Holds]
        rw [lit_eval, lit_eval]
        constructor
        · intro h _
          exact ⟨fun hlt => absurd hlt h3, fun _ => h⟩
        · intro h
          exact (h (not_not.1 h1)).2 (lt_of_le_of_ne (not_lt.1 h3) (Ne.symm h2))
    unfold splitDeps
    cases hd : splitDep (List.range splits.length) splits i j with
    | error e =>
      simp only
      refine ⟨(by intro cs h; cases h), ?_⟩
      intro e' h
      cases h
      obtain ⟨h1, h2⟩ := hdep.2 _ hd
      exact ⟨h1, (i, j), by simp, h2⟩
    | ok cs1 =>
      simp only
      cases hr : splitDeps (List.range splits.length) splits ps with
      | error e =>
        simp only
        refine ⟨(by intro cs h; cases h), ?_⟩
        intro e' h
        cases h
        obtain ⟨h1, q, hq, h2⟩ := ih2 _ hr
        exact ⟨h1, q, by simp [hq], h2⟩
      | ok cs2 =>
        simp only
        refine ⟨?_, by intro e h; cases h⟩
        intro cs h
        cases h
        obtain ⟨d1, d2⟩ := hdep.1 _ hd
        obtain ⟨r1, r2⟩ := ih1 _ hr
        refine ⟨?_, ?_⟩
        · intro a
          simp only [List.mem_append, List.mem_cons]
          constructor
          · rintro h q (rfl | hq)
            · exact (d1 a).1 (fun k hk => h k (.inl hk))
            · exact (r1 a).1 (fun k hk => h k (.inr hk)) q hq
          · rintro h k (hk | hk)
            · exact (d1 a).2 (h (i, j) (.inl rfl)) k hk
            · exact (r1 a).2 (fun q hq => h q (.inr hq)) k hk
        · intro q hq
          rcases List.mem_cons.1 hq with rfl | hq
          · exact d2
          · exact r2 q hq

theorem cutFold_spec {d : ℕ} (splits : List Split) (paths : List Path) (hp : ∀ p ∈ paths, GoodPath d splits p) :
    let st := paths.foldl (addCutPath (fullLeaves d) (List.range splits.length)) (⟨splits.length, [], []⟩, [])
    st.2 = List.range' splits.length paths.length ∧ st.1.nvars = splits.length + paths.length ∧
      ∀ a, st.1.Holds a ↔ ∀ (i : ℕ) (p : Path), paths[i]? = some p → (a (splits.length + i) = true ↔ Follows d a p) := by
  induction paths using List.reverseRecOn with
  | nil => exact ⟨rfl, rfl, fun a => ⟨fun _ i p h => by simp at h, fun _ k hk => by cases hk⟩⟩
  | append_singleton ps p ih =>
    obtain ⟨h1, h2, h3⟩ := ih (fun q hq => hp q (by simp [hq]))
    have hgp := hp p (by simp)
    simp only [List.foldl_append, List.foldl_cons, List.foldl_nil]
    refine ⟨?_, ?_, ?_⟩
    · simp only [addCutPath] at h1 h2 ⊢
      rw [h1, h2, List.length_append, List.length_singleton, List.range'_concat]
      simp
    · simp only [addCutPath] at h2 ⊢
      rw [h2, List.length_append, List.length_singleton]
      omega
    · intro a
      rw [addCutPath_holds hgp.1 hgp.2, h3, h2]
      constructor
      · rintro ⟨k1, k2⟩ i q hq
        rcases Nat.lt_trichotomy i ps.length with hi | hi | hi
        · rw [List.getElem?_append_left hi] at hq
          exact k1 i q hq
        · subst hi
          simp at hq
          subst hq
          exact k2
        · rw [List.getElem?_eq_none (by simp; omega)] at hq
          cases hq
      · intro k1
        refine ⟨?_, ?_⟩
        · intro i q hq
          have hi := (List.getElem?_eq_some_iff.1 hq).1
          exact k1 i q (by rw [List.getElem?_append_left hi]; exact hq)
        · exact k1 ps.length p (by simp)

/-- Splits with the same feature have different thresholds. -/
def Distinct (splits : List Split) : Prop :=
  ∀ i < splits.length, ∀ j < splits.length, i ≠ j → (splitAt splits i).feature = (splitAt splits j).feature →
    (splitAt splits i).threshold ≠ (splitAt splits j).threshold

theorem createCutModel_spec {d : ℕ} (splits : List Split) (paths : List Path) (hp : ∀ p ∈ paths, GoodPath d splits p) :
    (∀ cp sv pv, createCutModel (fullLeaves d) splits paths = .ok (cp, sv, pv) → CutInv d splits paths cp sv pv ∧ Distinct splits) ∧
    (∀ e, createCutModel (fullLeaves d) splits paths = .error e → e = .assertionError ∧ ¬ Distinct splits) := by
  have hps : ∀ q ∈ pairsBelow splits.length, q.1 < splits.length ∧ q.2 < splits.length := by
    rintro ⟨i, j⟩ hq
    have := (mem_pairsBelow _ _ _).1 hq
    exact ⟨by simp only; omega, this.2⟩
  obtain ⟨hd1, hd2⟩ := splitDeps_spec splits (pairsBelow splits.length) hps
  obtain ⟨f1, f2, f3⟩ := cutFold_spec splits paths hp
  unfold createCutModel
  simp only
  cases hr : splitDeps (List.range splits.length) splits (pairsBelow splits.length) with
  | error e =>
    simp only
    refine ⟨(by intro _ _ _ h; cases h), ?_⟩
    intro e' h
    cases h
    obtain ⟨h1, ⟨i, j⟩, hq, h2, h3⟩ := hd2 _ hr
    have := (mem_pairsBelow _ _ _).1 hq
    exact ⟨h1, fun hdist => hdist i (by omega) j (by omega) (by omega) h2 h3⟩
  | ok cs =>
    simp only
    refine ⟨?_, by intro _ h; cases h⟩
    intro cp sv pv h
    cases h
    obtain ⟨g1, g2⟩ := hd1 _ hr
    have hdist : Distinct splits := by
      intro i hi j hj hne hf
      rcases Nat.lt_or_gt_of_ne hne with h | h
      · exact g2 (i, j) ((mem_pairsBelow _ _ _).2 ⟨h, hj⟩) hf
      · exact fun he => g2 (j, i) ((mem_pairsBelow _ _ _).2 ⟨h, hi⟩) hf.symm he.symm
    refine ⟨⟨rfl, f1, f2, ?_⟩, hdist⟩
    intro a
    have hsplit : (Cp.mk (List.foldl (addCutPath (fullLeaves d) (List.range splits.length)) (⟨splits.length, [], []⟩, []) paths).1.nvars
        ((List.foldl (addCutPath (fullLeaves d) (List.range splits.length)) (⟨splits.length, [], []⟩, []) paths).1.cons ++ cs) []).Holds a ↔
        (List.foldl (addCutPath (fullLeaves d) (List.range splits.length)) (⟨splits.length, [], []⟩, []) paths).1.Holds a ∧
          ∀ k ∈ cs, k.Holds a := by
      unfold Cp.Holds
      simp only [List.mem_append]
      constructor
      · intro h; exact ⟨fun k hk => h k (.inl hk), fun k hk => h k (.inr hk)⟩
      · rintro ⟨h1, h2⟩ k (hk | hk)
        · exact h1 k hk
        · exact h2 k hk
    rw [hsplit, f3, g1]
    refine and_congr_right ?_
    intro _
    constructor
    · intro h i hi j hj hf hlt
      have hne : i ≠ j := by rintro rfl; exact lt_irrefl _ hlt
      rcases Nat.lt_or_gt_of_ne hne with hij | hij
      · exact (h (i, j) ((mem_pairsBelow _ _ _).2 ⟨hij, hj⟩) hf).1 hlt
      · exact (h (j, i) ((mem_pairsBelow _ _ _).2 ⟨hij, hi⟩) hf.symm).2 hlt
    · rintro h ⟨i, j⟩ hq hf
      have := (mem_pairsBelow _ _ _).1 hq
      exact ⟨fun hlt => h i (by omega) j (by omega) hf hlt, fun hlt => h j (by omega) i (by omega) hf.symm hlt⟩

/-! ## The invariant -/

/-- Splits that differ at most in their cut sets. -/
def Same (splits splits' : List Split) : Prop :=
  splits.map (fun sp => (sp.id, sp.feature, sp.threshold, sp.leftRows, sp.rightRows)) =
    splits'.map (fun sp => (sp.id, sp.feature, sp.threshold, sp.leftRows, sp.rightRows))

theorem Same.length {splits splits' : List Split} (h : Same splits splits') : splits.length = splits'.length := by
  have := congrArg List.length h
  simpa using this

theorem Same.at {splits splits' : List Split} (h : Same splits splits') (i : ℕ) :
    (splitAt splits i).feature = (splitAt splits' i).feature ∧ (splitAt splits i).threshold = (splitAt splits' i).threshold := by
  have := congrArg (fun l => l[i]?) h
  simp only [List.getElem?_map] at this
  unfold splitAt
  rw [List.getD_eq_getElem?_getD, List.getD_eq_getElem?_getD]
  cases h1 : splits[i]? with
  | none =>
    cases h2 : splits'[i]? with
    | none => exact ⟨rfl, rfl⟩
    | some b => rw [h1, h2] at this; cases this
  | some a =>
    cases h2 : splits'[i]? with
    | none => rw [h1, h2] at this; cases this
    | some b =>
      rw [h1, h2] at this
      simp only [Option.map_some, Option.some.injEq, Prod.mk.injEq] at this
      exact ⟨this.2.1, this.2.2.1⟩

theorem Same.rowLeft {splits splits' : List Split} (h : Same splits splits') (row : List ℚ) : rowLeft splits row = rowLeft splits' row := by
  funext s
  unfold DTree.rowLeft takesLeft
  rw [(h.at s).1, (h.at s).2]

theorem Same.id {splits splits' : List Split} (h : Same splits splits') (hid : ∀ i (s : Split), splits'[i]? = some s → s.id = i) :
    ∀ i (s : Split), splits[i]? = some s → s.id = i := by
  intro i s hs
  have := congrArg (fun l => l[i]?) h
  simp only [List.getElem?_map, hs] at this
  cases h2 : splits'[i]? with
  | none => rw [h2] at this; cases this
  | some b =>
    rw [h2] at this
    simp only [Option.map_some, Option.some.injEq, Prod.mk.injEq] at this
    rw [this.1]
    exact hid i b h2

theorem Same.filled {splits splits' : List Split} (h : Same splits splits') {X : List (List ℚ)} (hf : RowsFilled splits' X) :
    RowsFilled splits X := by
  intro sp hsp r
  obtain ⟨i, hi, rfl⟩ := List.mem_iff_getElem.1 hsp
  have := congrArg (fun l => l[i]?) h
  simp only [List.getElem?_map, List.getElem?_eq_getElem hi] at this
  cases h2 : splits'[i]? with
  | none => rw [h2] at this; cases this
  | some b =>
    rw [h2] at this
    simp only [Option.map_some, Option.some.injEq, Prod.mk.injEq] at this
    obtain ⟨_, e2, e3, e4, e5⟩ := this
    have := hf b (List.mem_of_getElem? h2) r
    unfold takesLeft at *
    rw [e2, e3, e4, e5]
    exact this

/-- The pattern of cut `k` in a list of patterns. -/
def pat (cuts : List (List Bool)) (k s : ℕ) : Bool := (cuts.getD k []).getD s false

/-- The invariant: `cuts` are the patterns of the cuts, `own` and `cd` describe the variables and constraints. -/
structure Inv (d : ℕ) (c : Conf) (splits : List Split) (cuts : List (List Bool)) (own : List Own) (cd : List CD) (s : MS) : Prop where
  gen : s.generated = true
  same : Same s.splits splits
  rep : Rep (sig d (fun r => rowLeft splits (c.X.getD r [])) (pat cuts)) s.m own cd
  obj : ObjIs s.m own Own.cost
  off : s.m.offset = 0
  maxi : s.m.maximize = true
  paths : own.filterMap Own.path? = s.paths
  pidx : PathIdx own s.paths
  pvars : s.pathVars = s.paths.map (·.id)
  good : ∀ p ∈ s.paths, GoodPath d splits p
  nsv : ∀ n t v, s.nsVars n t = some v ↔ own[v]? = some (.ns n t)
  nsmem : ∀ n t, .ns n t ∈ own ↔ n < 2 ^ d - 1 ∧ t ∈ cand c.nodes n
  leafc : ∀ l i, s.leafCons l = some i ↔ cd[i]? = some (.leaf l)
  rowc : ∀ r i, s.rowCons r = some i ↔ cd[i]? = some (.row r)
  nsc : ∀ l n t i, s.nsCons l n t = some i ↔ cd[i]? = some (.ns l n t)
  cutc : ∀ (k i : ℕ), s.cutCons[k]? = some i ↔ cd[i]? = some (.cut k)
  leafmem : ∀ l, .leaf l ∈ cd ↔ l < 2 ^ d
  rowmem : ∀ r, .row r ∈ cd ↔ r < c.X.length ∧ s.addedRow.getD r false = true
  nscmem : ∀ l n t, .ns l n t ∈ cd ↔ l < 2 ^ d ∧ ∃ k < d, n = anc d l k ∧ t ∈ cand c.nodes n
  cutlen : s.cutCons.length = cuts.length
  added : s.addedRow.length = c.X.length + cuts.length
  data : ∃ rows, s.dataRows = some rows ∧ DataOk d splits c.X s.paths rows
  cutsFilled : CutsFilled s.splits cuts
  cut : CutInv d splits s.paths s.cp s.cutSplitVars s.cutPathVars
  distinct : Distinct splits

theorem addPathVar_good {d : ℕ} {splits : List Split} {p : Path} (h : GoodPath d splits p) (i : ℕ) :
    GoodPath d splits { p with id := i } := ⟨⟨h.1.leaf_lt, h.1.nodes, h.1.splits⟩, h.2⟩

theorem follows_id {d : ℕ} {left : ℕ → Bool} {p : Path} (i : ℕ) : Follows d left { p with id := i } ↔ Follows d left p := Iff.rfl

theorem cutInv_ids {d : ℕ} {splits : List Split} {paths paths' : List Path} {cp : Cp} {sv pv : List ℕ} (h : CutInv d splits paths cp sv pv)
    (hl : paths'.length = paths.length) (hi : ∀ (i : ℕ) (p : Path), paths[i]? = some p → ∃ k, paths'[i]? = some { p with id := k }) :
    CutInv d splits paths' cp sv pv := by
  refine ⟨h.sv, by rw [hl]; exact h.pv, by rw [hl]; exact h.nvars, ?_⟩
  intro a
  rw [h.holds]
  refine and_congr_left ?_
  intro _
  constructor
  · intro h1 i p' hp'
    have hlt := (List.getElem?_eq_some_iff.1 hp').1
    obtain ⟨k, hk⟩ := hi i _ (List.getElem?_eq_getElem (by omega))
    rw [hp'] at hk
    injection hk with hk
    rw [hk]
    have := h1 i paths[i] (List.getElem?_eq_getElem (by omega))
    exact this
  · intro h1 i p hp
    obtain ⟨k, hk⟩ := hi i p hp
    have := h1 i _ hk
    exact this

theorem exists_anc_node' {d n : ℕ} (hn : n < 2 ^ d - 1) : ∃ l < 2 ^ d, ∃ k < d, n = anc d l k := by
  obtain ⟨l, hl, k, hk, h⟩ := exists_anc_node hn
  exact ⟨l, hl, k, hk, h⟩

/-- `generate_mp` establishes the invariant. -/
theorem inv_generate {d : ℕ} {c : Conf} {paths : List Path} {splits : List Split} {dataRows : Option (List Row)}
    (hs : Setup d c splits dataRows) (hp : ∀ p ∈ paths, GoodPath d splits p) {s : MS}
    (h : generateMp c (MS.init paths splits dataRows) = (.ok (), s)) : ∃ own cd, Inv d c splits [] own cd s := by
  have hleaves : c.leaves = fullLeaves d := hs.tree.leaves
  unfold generateMp at h
  rw [if_neg (by simp [MS.init])] at h
  obtain ⟨hc1, hc2⟩ := createCutModel_spec splits paths hp
  cases hcm : createCutModel c.leaves (MS.init paths splits dataRows).splits (MS.init paths splits dataRows).paths with
  | error e => rw [hcm] at h; cases h
  | ok x =>
    obtain ⟨cp, sv, pv⟩ := x
    rw [hcm] at h
    simp only at h
    obtain ⟨hcut, hdist⟩ := hc1 cp sv pv (by rw [← hleaves]; exact hcm)
    let left : ℕ → ℕ → Bool := fun r => rowLeft splits (c.X.getD r [])
    let cl : ℕ → ℕ → Bool := pat []
    obtain ⟨own1, a1, a2, a3, a4, a5, a6, a7, a8, a9⟩ := addPathVars_spec d left cl paths Model.empty [] [] Rep.empty (ObjIs.empty _)
      (by intro v p; simp) rfl (by intro o ho; cases ho)
    simp only [List.nil_append, List.length_nil, Nat.zero_add] at a8 a9
    set P := (paths.foldl addPathVar (Model.empty, [])) with hP
    have hgood : ∀ p ∈ P.2, GoodPath d splits p := by
      intro p hm
      rw [a8] at hm
      obtain ⟨i, hi, rfl⟩ := List.mem_mapIdx.1 hm
      exact addPathVar_good (hp _ (List.getElem_mem hi)) i
    have a1' := a1.setMax true
    have t0 : Tab1 [] (MS.init paths splits dataRows).leafCons (MS.init paths splits dataRows).rowCons :=
      ⟨by intro l i; simp [MS.init], by intro l i; simp [MS.init]⟩
    obtain ⟨b1, b2, b3, b4, b5⟩ := addLeafCons_spec d left cl P.2 own1 a3 c.leaves _ _ _ [] a1' t0 (by
        rw [hleaves]; unfold fullLeaves; rw [List.map_map]
        have : (fun x : Leaf => x.id) ∘ (fun l => createLeaf l d) = id := by funext l; rfl
        rw [this, List.map_id]; exact List.nodup_range) (by intro l _ hm; cases hm)
    simp only [List.nil_append] at b1 b2
    set L := c.leaves.foldl (addLeafCons P.2) (P.1.setMax true, (MS.init paths splits dataRows).leafCons) with hL
    have hleafmem : ∀ l, CD.leaf l ∈ c.leaves.map (fun l => CD.leaf l.id) ↔ l < 2 ^ d := by
      intro l
      rw [hleaves]
      simp only [List.mem_map, CD.leaf.injEq]
      constructor
      · rintro ⟨leaf, hm, rfl⟩
        obtain ⟨l', hl', rfl⟩ := mem_fullLeaves.1 hm
        exact hl'
      · intro hl
        exact ⟨createLeaf l d, mem_fullLeaves.2 ⟨l, hl, rfl⟩, rfl⟩
    have hnorow : ∀ r, CD.row r ∉ c.leaves.map (fun l => CD.leaf l.id) := by
      intro r hm
      obtain ⟨_, _, he⟩ := List.mem_map.1 hm
      cases he
    -- rows
    set rows : List Row := (match (MS.init paths splits dataRows).dataRows with
        | none => preprocessRows c.leaves c.nodes (MS.init paths splits dataRows).splits P.2 c.X false
        | some rows => computeSatisfiedPaths c.leaves (MS.init paths splits dataRows).splits P.2 c.X rows) with hrows
    have hdata : DataOk d splits c.X P.2 rows := by
      rw [hrows]
      cases hdr : dataRows with
      | none =>
        simp only [MS.init]
        rw [hleaves]
        exact preprocess_ok (fun p hp => (hgood p hp).1)
      | some rs =>
        simp only [MS.init]
        rw [hleaves]
        obtain ⟨e1, e2⟩ := hs.rows rs hdr
        exact compute_ok (fun p hp => (hgood p hp).1) e1 e2
    have hrowphase : ∃ ext, Rep (sig d left cl) (if c.betaAsCuts then (L.1, (MS.init paths splits dataRows).rowCons, List.replicate c.X.length false)
        else (List.range c.X.length).foldl (addRowCons c (MS.init paths splits dataRows).splits P.2 rows)
          (L.1, (MS.init paths splits dataRows).rowCons, List.replicate c.X.length false)).1 own1 (c.leaves.map (fun l => CD.leaf l.id) ++ ext) ∧
        Tab1 (c.leaves.map (fun l => CD.leaf l.id) ++ ext) L.2 (if c.betaAsCuts then (L.1, (MS.init paths splits dataRows).rowCons, List.replicate c.X.length false)
        else (List.range c.X.length).foldl (addRowCons c (MS.init paths splits dataRows).splits P.2 rows)
          (L.1, (MS.init paths splits dataRows).rowCons, List.replicate c.X.length false)).2.1 ∧ (∀ x ∈ ext, ∃ r, x = .row r) ∧
        (∀ r, .row r ∈ c.leaves.map (fun l => CD.leaf l.id) ++ ext ↔ (if c.betaAsCuts then (L.1, (MS.init paths splits dataRows).rowCons, List.replicate c.X.length false)
        else (List.range c.X.length).foldl (addRowCons c (MS.init paths splits dataRows).splits P.2 rows)
          (L.1, (MS.init paths splits dataRows).rowCons, List.replicate c.X.length false)).2.2.getD r false = true) ∧
        (if c.betaAsCuts then (L.1, (MS.init paths splits dataRows).rowCons, List.replicate c.X.length false)
        else (List.range c.X.length).foldl (addRowCons c (MS.init paths splits dataRows).splits P.2 rows)
          (L.1, (MS.init paths splits dataRows).rowCons, List.replicate c.X.length false)).2.2.length = c.X.length ∧
        (if c.betaAsCuts then (L.1, (MS.init paths splits dataRows).rowCons, List.replicate c.X.length false)
        else (List.range c.X.length).foldl (addRowCons c (MS.init paths splits dataRows).splits P.2 rows)
          (L.1, (MS.init paths splits dataRows).rowCons, List.replicate c.X.length false)).1.obj = L.1.obj ∧
        (if c.betaAsCuts then (L.1, (MS.init paths splits dataRows).rowCons, List.replicate c.X.length false)
        else (List.range c.X.length).foldl (addRowCons c (MS.init paths splits dataRows).splits P.2 rows)
          (L.1, (MS.init paths splits dataRows).rowCons, List.replicate c.X.length false)).1.offset = L.1.offset ∧
        (if c.betaAsCuts then (L.1, (MS.init paths splits dataRows).rowCons, List.replicate c.X.length false)
        else (List.range c.X.length).foldl (addRowCons c (MS.init paths splits dataRows).splits P.2 rows)
          (L.1, (MS.init paths splits dataRows).rowCons, List.replicate c.X.length false)).1.maximize = L.1.maximize := by
      have hrep : ∀ r, (List.replicate c.X.length false).getD r false = false := by
        intro r
        rw [List.getD_eq_getElem?_getD, List.getElem?_replicate]
        split_ifs <;> rfl
      by_cases hb : c.betaAsCuts = true
      · simp only [hb, if_true]
        refine ⟨[], by simpa using b1, by simpa using b2, by simp, ?_, by simp, trivial, trivial, trivial⟩
        intro r
        rw [hrep, List.append_nil]
        constructor
        · intro hm; exact absurd hm (hnorow r)
        · intro h; cases h
      · simp only [hb, if_false]
        obtain ⟨ext, r1, r2, r3, r4, r5, _, r7, r8, r9⟩ := addRowCons_spec d left cl c splits P.2 own1 a3 rows (by
            intro r p hm
            rw [hleaves]
            exact rowSatisfiesPath_iff (hgood p hm).1 _ _) (List.range c.X.length) L.1 L.2 (MS.init paths splits dataRows).rowCons
          (List.replicate c.X.length false) _ b1 b2 (by
            intro r
            rw [hrep]
            constructor
            · intro hm; exact absurd hm (hnorow r)
            · intro h; cases h) List.nodup_range (by intro r hr; simpa using hr) (fun r _ => hnorow r)
        refine ⟨ext, r1, r2, r3, r4, r5.trans (by simp), r7, r8, r9⟩
    set R := (if c.betaAsCuts then (L.1, (MS.init paths splits dataRows).rowCons, List.replicate c.X.length false)
        else (List.range c.X.length).foldl (addRowCons c (MS.init paths splits dataRows).splits P.2 rows)
          (L.1, (MS.init paths splits dataRows).rowCons, List.replicate c.X.length false)) with hR
    obtain ⟨ext, c1, c2, c3, c4, c5, c6, c7, c8⟩ := hrowphase
    have hnons : ∀ n t, Own.ns n t ∉ own1 := by
      intro n t hm
      obtain ⟨p, he⟩ := a5 _ hm
      cases he
    have hnonsc : ∀ x ∈ c.leaves.map (fun l => CD.leaf l.id) ++ ext, x.isNs = false := by
      intro x hm
      rcases List.mem_append.1 hm with hm | hm
      · obtain ⟨_, _, rfl⟩ := List.mem_map.1 hm; rfl
      · obtain ⟨_, rfl⟩ := c3 x hm; rfl
    have hnocut : ∀ k, CD.cut k ∉ c.leaves.map (fun l => CD.leaf l.id) ++ ext := by
      intro k hm
      rcases List.mem_append.1 hm with hm | hm
      · obtain ⟨_, _, he⟩ := List.mem_map.1 hm; cases he
      · obtain ⟨_, he⟩ := c3 _ hm; cases he
    have n0 : NSInv d left cl P.2 R.1 own1 (c.leaves.map (fun l => CD.leaf l.id) ++ ext)
        ⟨R.1, fun _ _ => none, fun _ _ _ => none⟩ own1 (c.leaves.map (fun l => CD.leaf l.id) ++ ext) [] := by
      refine ⟨c1, a3, ⟨[], by simp, by simp⟩, ⟨[], by simp, by simp⟩, ?_, ?_, ?_, ?_, ?_, rfl, rfl⟩
      · intro n t v
        constructor
        · intro h; cases h
        · intro h; exact absurd (List.mem_of_getElem? h) (hnons n t)
      · intro n t
        constructor
        · intro hm; exact absurd hm (hnons n t)
        · rintro ⟨_, h⟩; cases h
      · intro l n t i
        constructor
        · intro h; cases h
        · intro h
          have := hnonsc _ (List.mem_of_getElem? h)
          cases this
      · intro l n t
        constructor
        · intro hm
          have := hnonsc _ hm
          cases this
        · intro h; cases h
      · have := a2
        unfold ObjIs at *
        rw [← this]
        exact c6.trans b3
    obtain ⟨own2, cd2, n1⟩ := n0.fold (triples c.leaves c.nodes) (by simpa using triples_nodup hs.tree)
    rw [← nsFold_eq, List.nil_append] at n1
    set N := c.leaves.foldl (addNsLeaf c.nodes P.2) ⟨R.1, fun _ _ => none, fun _ _ _ => none⟩ with hN
    have hsfin : s = { MS.init paths splits dataRows with
        generated := true
        m := N.m
        paths := P.2
        pathVars := P.2.map (·.id)
        dataRows := some rows
        leafCons := L.2
        rowCons := R.2.1
        addedRow := R.2.2
        cutCons := []
        nsVars := N.vars
        nsCons := N.cons
        cp := cp
        cutSplitVars := sv
        cutPathVars := pv } := by
      have := congrArg Prod.snd h
      exact this.symm
    obtain ⟨eo, heo, hno⟩ := n1.own_ext
    obtain ⟨ec, hec, hnc⟩ := n1.cd_ext
    have hold : ∀ (x : CD), x.isNs = false → ∀ i : ℕ, cd2[i]? = some x ↔ (c.leaves.map (fun l => CD.leaf l.id) ++ ext)[i]? = some x := by
      intro x hx i
      rw [hec]
      rcases Nat.lt_or_ge i (c.leaves.map (fun l => CD.leaf l.id) ++ ext).length with h1 | h1
      · rw [List.getElem?_append_left h1]
      · rw [List.getElem?_append_right h1, List.getElem?_eq_none h1]
        constructor
        · intro he
          have := hnc x (List.mem_of_getElem? he)
          rw [hx] at this
          cases this
        · intro he; cases he
    have holdm : ∀ (x : CD), x.isNs = false → (x ∈ cd2 ↔ x ∈ c.leaves.map (fun l => CD.leaf l.id) ++ ext) := by
      intro x hx
      rw [List.mem_iff_getElem?, List.mem_iff_getElem?]
      exact exists_congr (hold x hx)
    refine ⟨own2, cd2, ?_⟩
    rw [hsfin]
    refine ⟨rfl, rfl, n1.rep, n1.obj, ?_, ?_, ?_, n1.pidx, rfl, hgood, n1.vars, ?_, ?_, ?_, n1.cons, ?_, ?_, ?_, ?_, rfl, ?_,
      ⟨rows, rfl, hdata⟩, ?_, ?_, hdist⟩
    · exact n1.off.trans (c7.trans (b4.trans a6))
    · exact n1.maxi.trans (c8.trans b5)
    · change own2.filterMap Own.path? = P.2
      rw [heo, List.filterMap_append, a4]
      have : eo.filterMap Own.path? = [] := by
        rw [List.filterMap_eq_nil_iff]
        intro o ho
        obtain ⟨n, t, rfl⟩ := hno o ho
        rfl
      rw [this, List.append_nil]
    · intro n t
      rw [n1.vmem]
      constructor
      · rintro ⟨l, hm⟩
        obtain ⟨hl, k, hk, rfl, ht⟩ := (mem_triples hs.tree l n t).1 hm
        exact ⟨anc_lt hl hk, ht⟩
      · rintro ⟨hn, ht⟩
        obtain ⟨l, hl, k, hk, rfl⟩ := exists_anc_node' hn
        exact ⟨l, (mem_triples hs.tree _ _ _).2 ⟨hl, k, hk, rfl, ht⟩⟩
    · intro l i
      change L.2 l = some i ↔ _
      rw [hold _ rfl]
      exact c2.leafc l i
    · intro r i
      change R.2.1 r = some i ↔ _
      rw [hold _ rfl]
      exact c2.rowc r i
    · intro k i
      change ([] : List ℕ)[k]? = some i ↔ _
      rw [hold _ rfl]
      constructor
      · intro h; simp at h
      · intro h; exact absurd (List.mem_of_getElem? h) (hnocut k)
    · intro l
      rw [holdm _ rfl, List.mem_append, hleafmem]
      constructor
      · rintro (h | h)
        · exact h
        · obtain ⟨_, he⟩ := c3 _ h; cases he
      · exact .inl
    · intro r
      change _ ↔ r < c.X.length ∧ R.2.2.getD r false = true
      rw [holdm _ rfl, c4]
      constructor
      · intro h
        refine ⟨?_, h⟩
        by_contra hge
        rw [List.getD_eq_getElem?_getD, List.getElem?_eq_none (by rw [c5]; omega)] at h
        cases h
      · exact fun h => h.2
    · intro l n t
      rw [n1.cmem, mem_triples hs.tree]
    · change R.2.2.length = c.X.length + 0
      rw [c5]; rfl
    · intro sp hsp k
      obtain ⟨e1, e2⟩ := hs.no_cuts sp hsp
      rw [e1, e2]
      simp
    · refine cutInv_ids hcut ?_ ?_
      · change P.2.length = _
        rw [a8]; simp
      · intro i p hi
        refine ⟨i, ?_⟩
        change P.2[i]? = _
        rw [a8, List.getElem?_mapIdx]
        have : paths[i]? = some p := hi
        rw [this]
        rfl

/-! ## `add_column` -/

theorem Rep.of_eq {O C : Type} {S : Sig O C} {m m' : Model} {own : List O} {cd : List C} (h : Rep S m own cd) (hv : m'.vars = m.vars)
    (hc : m'.cons = m.cons) : Rep S m' own cd := ⟨by rw [hv]; exact h.vars, by rw [hc]; exact h.cons⟩

theorem setAll_cons_congr {m m' : Model} (h : m.cons = m'.cons) (v : ℕ) (x : ℚ) (cs : List ℕ) :
    (setAll m v x cs).cons = (setAll m' v x cs).cons := by
  apply List.ext_getElem?
  intro i
  rw [setAll_get, setAll_get, h]

theorem mem_colLeaf {d : ℕ} {s : MS} {p : Path} (hl : p.leafId < 2 ^ d) (i : ℕ) :
    i ∈ colLeaf (fullLeaves d) s p ↔ s.leafCons p.leafId = some i := by
  unfold colLeaf
  rw [List.mem_filterMap]
  constructor
  · rintro ⟨leaf, _, h⟩
    split_ifs at h with he
    rw [he]; exact h
  · intro h
    refine ⟨createLeaf p.leafId d, mem_fullLeaves.2 ⟨_, hl, rfl⟩, ?_⟩
    have : (createLeaf p.leafId d).id = p.leafId := rfl
    rw [this, if_pos rfl]
    exact h

theorem mem_colRows {s : MS} {rows : List ℕ} (i : ℕ) :
    i ∈ colRows s rows ↔ ∃ r ∈ rows, s.addedRow.getD r false = true ∧ s.rowCons r = some i := by
  unfold colRows
  rw [List.mem_filterMap]
  constructor
  · rintro ⟨r, hr, h⟩
    split_ifs at h with he
    exact ⟨r, hr, he, h⟩
  · rintro ⟨r, hr, he, h⟩
    exact ⟨r, hr, by rw [if_pos he]; exact h⟩

theorem mem_colNs {leaves : List Leaf} {nodes : List Node} {s : MS} {p : Path} (i : ℕ) :
    i ∈ colNs leaves nodes s p ↔ ∃ l n t, (l, n, t) ∈ triples leaves nodes ∧ (p.leafId = l ∧ (n, t) ∈ p.pairs) ∧ s.nsCons l n t = some i := by
  unfold colNs triples
  simp only [List.mem_flatMap, List.mem_filterMap, List.mem_map, Prod.mk.injEq]
  constructor
  · rintro ⟨leaf, hleaf, nd, hnd, t, ht, q, hq, h⟩
    split_ifs at h with he
    obtain ⟨e1, e2, e3⟩ := he
    refine ⟨leaf.id, (nodeAt nodes nd).id, t, ⟨leaf, hleaf, nd, hnd, t, ht, rfl, rfl, rfl⟩, ⟨e1, ?_⟩, h⟩
    rw [← e2, ← e3]
    exact hq
  · rintro ⟨l, n, t, ⟨leaf, hleaf, nd, hnd, t', ht', rfl, rfl, rfl⟩, ⟨e1, e2⟩, h⟩
    exact ⟨leaf, hleaf, nd, hnd, t', ht', _, e2, by rw [if_pos ⟨e1, rfl, rfl⟩]; exact h⟩

theorem modify_fold (v : ℕ) (rows : List ℕ) (ds : List Row) (j : ℕ) :
    (rows.foldl (fun ds r => ds.modify r (fun d => { d with reachablePaths := setAdd d.reachablePaths v })) ds)[j]? =
      (ds[j]?).map (fun d => if j ∈ rows then { d with reachablePaths := setAdd d.reachablePaths v } else d) := by
  induction rows generalizing ds with
  | nil => simp
  | cons r rs ih =>
    rw [List.foldl_cons, ih, List.getElem?_modify]
    cases ds[j]? with
    | none => rfl
    | some x =>
      simp only [Option.map_some, Option.some.injEq, List.mem_cons, Option.map_eq_map]
      by_cases h1 : r = j
      · subst h1
        by_cases h2 : r ∈ rs
        · simp only [h2, if_true, or_true]
          have hin : v ∈ setAdd x.reachablePaths v := mem_setAdd.2 (.inr rfl)
          have : setAdd (setAdd x.reachablePaths v) v = setAdd x.reachablePaths v := if_pos hin
          rw [this]
        · simp only [h2, if_true, or_false, if_false]
      · simp only [h1, Ne.symm h1, if_false, false_or]

theorem modify_fold_length (f : Row → Row) (rows : List ℕ) (ds : List Row) :
    (rows.foldl (fun ds r => ds.modify r f) ds).length = ds.length := by
  induction rows generalizing ds with
  | nil => rfl
  | cons r rs ih => rw [List.foldl_cons, ih, List.length_modify]

theorem dataOk_add {d : ℕ} {splits : List Split} {X : List (List ℚ)} {paths : List Path} {ds : List Row} (h : DataOk d splits X paths ds)
    (p : Path) (rows : List ℕ) (hr : ∀ r, r ∈ rows ↔ r < X.length ∧ Follows d (rowLeft splits (X.getD r [])) p) :
    DataOk d splits X (paths ++ [p])
      (rows.foldl (fun ds r => ds.modify r (fun d => { d with reachablePaths := setAdd d.reachablePaths p.id })) ds) := by
  refine ⟨by rw [modify_fold_length]; exact h.1, ?_⟩
  intro r row hrow
  rw [modify_fold] at hrow
  cases hd : ds[r]? with
  | none => rw [hd] at hrow; cases hrow
  | some row0 =>
    rw [hd] at hrow
    simp only [Option.map_some, Option.some.injEq] at hrow
    obtain ⟨h1, h2⟩ := h.2 r row0 hd
    have hlt : r < X.length := by rw [← h.1]; exact (List.getElem?_eq_some_iff.1 hd).1
    by_cases hm : r ∈ rows
    · rw [if_pos hm] at hrow
      rw [← hrow]
      refine ⟨nodup_setAdd h1, ?_⟩
      intro i
      rw [mem_setAdd, h2]
      constructor
      · rintro (⟨q, hq, h'⟩ | rfl)
        · exact ⟨q, by simp [hq], h'⟩
        · exact ⟨p, by simp, rfl, ((hr r).1 hm).2⟩
      · rintro ⟨q, hq, h'⟩
        rcases List.mem_append.1 hq with hq | hq
        · exact .inl ⟨q, hq, h'⟩
        · rw [List.mem_singleton] at hq
          subst hq
          exact .inr h'.1.symm
    · rw [if_neg hm] at hrow
      rw [← hrow]
      refine ⟨h1, ?_⟩
      intro i
      rw [h2]
      constructor
      · rintro ⟨q, hq, h'⟩
        exact ⟨q, by simp [hq], h'⟩
      · rintro ⟨q, hq, h'⟩
        rcases List.mem_append.1 hq with hq | hq
        · exact ⟨q, hq, h'⟩
        · rw [List.mem_singleton] at hq
          subst hq
          exact absurd ((hr r).2 ⟨hlt, h'.2⟩) hm

/-- `add_column` of a path of the tree succeeds and preserves the invariant; the new variable is described by the path. -/
theorem inv_addColumn {d : ℕ} {c : Conf} {splits : List Split} (hd : 0 < d) (ht : Tree d c.leaves c.nodes splits)
    (hf : RowsFilled splits c.X) {cuts : List (List Bool)} {own : List Own} {cd : List CD} {s : MS} (h : Inv d c splits cuts own cd s)
    {p : Path} (hp : GoodPath d splits p) :
    (addColumn c p s).1 = .ok true ∧ Inv d c splits cuts (own ++ [.path { p with id := s.m.vars.length }]) cd (addColumn c p s).2 ∧
      (addColumn c p s).2.paths = s.paths ++ [{ p with id := s.m.vars.length }] ∧
      (addColumn c p s).2.nsVars = s.nsVars ∧ (addColumn c p s).2.cutCons = s.cutCons ∧ (addColumn c p s).2.addedRow = s.addedRow ∧
      (addColumn c p s).2.splits = s.splits := by
  have hleaves : c.leaves = fullLeaves d := ht.leaves
  have hlv : s.m.vars.length = own.length := h.rep.length_vars
  have hlen := h.same.length
  set p' : Path := { p with id := s.m.vars.length } with hp'
  have hgp' : GoodPath d splits p' := addPathVar_good hp _
  have hne : p'.pairs ≠ [] := by
    obtain ⟨t, ht⟩ := hgp'.1.exists_split hd
    exact List.ne_nil_of_mem ht
  have hs' : ∀ t ∈ p'.splits, t < s.splits.length := by rw [hlen]; exact hgp'.2
  obtain ⟨rows, hrows, hrm⟩ := (C39_satisfied_rows (h.same.filled hf) (leafAt c.leaves p.leafId) p' hs').2 hne
  have hrm' : ∀ r, r ∈ rows ↔ r < c.X.length ∧ Follows d (rowLeft splits (c.X.getD r [])) p' := by
    intro r
    rw [hrm, hleaves]
    have := rowSatisfiesPath_iff hgp'.1 s.splits (c.X.getD r [])
    rw [h.same.rowLeft] at this
    exact and_congr_right (fun _ => this)
  obtain ⟨cs, hcs, hcm⟩ := C39_satisfied_cuts h.cutsFilled (h.same.id ht.split_id) hgp'.1 hd hs'
  have hleaf : leafAt c.leaves p.leafId = createLeaf p'.leafId d := by
    rw [hleaves]; exact leafAt_full hp.1.leaf_lt
  have hcs' : getSatisfiedCuts p' (leafAt c.leaves p.leafId) s.splits = .ok cs := by rw [hleaf]; exact hcs
  obtain ⟨ds, hds, hdok⟩ := h.data
  -- the resulting state
  let m4 := setAll ((s.m.addVar nonnegInt).setObj s.m.vars.length p.cost) s.m.vars.length 1
    (((colLeaf c.leaves s p ++ colRows s rows) ++ colNs c.leaves c.nodes s p') ++ cs.filterMap (fun k => s.cutCons[k]?))
  have hm4 : m4 = setOnes (setOnes (setOnes (setOnes ((s.m.addVar nonnegInt).setObj s.m.vars.length p.cost) s.m.vars.length
      (colLeaf c.leaves s p)) s.m.vars.length (colRows s rows)) s.m.vars.length (colNs c.leaves c.nodes s p')) s.m.vars.length
      (cs.filterMap (fun k => s.cutCons[k]?)) := by
    simp only [m4, setAll_append]
    rfl
  have hres : addColumn c p s = (.ok true, { s with
      m := m4
      paths := s.paths ++ [p']
      pathVars := s.pathVars ++ [s.m.vars.length]
      dataRows := s.dataRows.map (fun ds => rows.foldl (fun ds r => ds.modify r (fun d =>
        { d with reachablePaths := setAdd d.reachablePaths s.m.vars.length })) ds)
      cp := (addCutPath c.leaves s.cutSplitVars (s.cp, s.cutPathVars) p').1
      cutPathVars := (addCutPath c.leaves s.cutSplitVars (s.cp, s.cutPathVars) p').2 }) := by
    rw [hm4]
    unfold addColumn
    simp only
    rw [← hp', hrows]
    simp only
    rw [hcs']
  rw [hres]
  refine ⟨rfl, ?_, rfl, rfl, rfl, rfl, rfl⟩
  have hcoef : ∀ (i : ℕ) (x : CD), cd[i]? = some x → CD.coef d (fun r => rowLeft splits (c.X.getD r [])) (pat cuts) x (.path p') =
      if i ∈ ((colLeaf c.leaves s p ++ colRows s rows) ++ colNs c.leaves c.nodes s p') ++ cs.filterMap (fun k => s.cutCons[k]?)
      then 1 else 0 := by
    intro i x hx
    have hiff : i ∈ ((colLeaf c.leaves s p ++ colRows s rows) ++ colNs c.leaves c.nodes s p') ++ cs.filterMap (fun k => s.cutCons[k]?) ↔
        x.has d (fun r => rowLeft splits (c.X.getD r [])) (pat cuts) p' := by
      rw [List.mem_append, List.mem_append, List.mem_append, mem_colRows, mem_colNs, List.mem_filterMap, hleaves,
        mem_colLeaf hp.1.leaf_lt, h.leafc, ← hleaves]
      have hl2 : p'.leafId = p.leafId := rfl
      constructor
      · rintro (((h1 | ⟨r, h1, h2, h3⟩) | ⟨l, n, t, h1, h2, h3⟩) | ⟨k, h1, h2⟩)
        · rw [hx] at h1
          injection h1 with h1
          subst h1
          exact hl2
        · rw [h.rowc, hx] at h3
          injection h3 with h3
          subst h3
          exact ((hrm' r).1 h1).2
        · rw [h.nsc, hx] at h3
          injection h3 with h3
          subst h3
          exact h2
        · rw [h.cutc, hx] at h2
          injection h2 with h2
          subst h2
          exact ((hcm k).1 h1).2
      · intro hh
        have hmem := List.mem_of_getElem? hx
        cases x with
        | leaf l =>
          left; left; left
          have : p'.leafId = l := hh
          rw [← hl2, this]
          exact hx
        | row r =>
          left; left; right
          obtain ⟨e1, e2⟩ := (h.rowmem r).1 hmem
          exact ⟨r, (hrm' r).2 ⟨e1, hh⟩, e2, (h.rowc r i).2 hx⟩
        | ns l n t =>
          left; right
          exact ⟨l, n, t, (mem_triples ht l n t).2 ((h.nscmem l n t).1 hmem), hh, (h.nsc l n t i).2 hx⟩
        | cut k =>
          right
          have e1 := (h.cutc k i).2 hx
          refine ⟨k, (hcm k).2 ⟨?_, hh⟩, e1⟩
          rw [← h.cutlen]
          exact (List.getElem?_eq_some_iff.1 e1).1
    change ind _ = _
    by_cases hh : x.has d (fun r => rowLeft splits (c.X.getD r [])) (pat cuts) p'
    · rw [ind_pos hh, if_pos (hiff.2 hh)]
    · rw [ind_neg hh, if_neg (fun hm => hh (hiff.1 hm))]
  refine ⟨h.gen, h.same, ?_, ?_, ?_, ?_, ?_, ?_, ?_, ?_, ?_, ?_, h.leafc, h.rowc, h.nsc, h.cutc, h.leafmem, h.rowmem, h.nscmem, h.cutlen,
    h.added, ?_, h.cutsFilled, ?_, h.distinct⟩
  · have := h.rep.addVar (.path p') _ hcoef
    refine Rep.of_eq this ?_ ?_
    · simp only [m4, setAll_vars]; rfl
    · simp only [m4]
      rw [hlv]
      refine setAll_cons_congr ?_ _ _ _
      rfl
  · refine h.obj.add hlv (.path p') ?_
    simp only [m4, setAll_obj]
    rfl
  · simp only [m4, setAll_offset]; exact h.off
  · simp only [m4, setAll_maximize]; exact h.maxi
  · change (own ++ [Own.path p']).filterMap Own.path? = s.paths ++ [p']
    rw [List.filterMap_append, h.paths]
    rfl
  · exact h.pidx.append_path p' hlv
  · change s.pathVars ++ [s.m.vars.length] = (s.paths ++ [p']).map (·.id)
    rw [h.pvars, List.map_append]
    rfl
  · intro q hq
    rcases List.mem_append.1 hq with hq | hq
    · exact h.good q hq
    · rw [List.mem_singleton.1 hq]; exact hgp'
  · intro n t v
    rw [append_get_ne _ _ _ (by intro h; cases h)]
    exact h.nsv n t v
  · intro n t
    rw [List.mem_append, List.mem_singleton]
    constructor
    · rintro (h1 | h1)
      · exact (h.nsmem n t).1 h1
      · cases h1
    · intro h1; exact .inl ((h.nsmem n t).2 h1)
  · refine ⟨_, by rw [hds]; rfl, ?_⟩
    exact dataOk_add hdok p' rows hrm'
  · change CutInv d splits (s.paths ++ [p']) (addCutPath c.leaves s.cutSplitVars (s.cp, s.cutPathVars) p').1 s.cutSplitVars
      (addCutPath c.leaves s.cutSplitVars (s.cp, s.cutPathVars) p').2
    rw [hleaves]
    exact h.cut.add hgp'

end Verif.DTree
