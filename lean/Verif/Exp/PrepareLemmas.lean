import Verif.Exp.PipelineLemmas
import Verif.Exp.PreprocessProps
import Verif.DTree.FitProps

/-!
# Leaves, reduction, further trees and rows in the preparation of the experiment
-/

set_option linter.unusedSectionVars false
set_option linter.unusedSimpArgs false

namespace Verif.Exp

open Verif.DTree Verif.DTree.Spec

/-! ## Lists of splits with the same questions -/

theorem rowLeft_congr {all : Splits} {a b : List Split} (ha : SplitListOk all a) (hb : SplitListOk all b) (row : List ℚ) :
    rowLeft a row = rowLeft b row := by
  funext s
  unfold rowLeft splitAt
  rw [List.getD_eq_getElem?_getD, List.getD_eq_getElem?_getD]
  by_cases hs : s < all.length
  · have h1 : s < a.length := by rw [ha.length]; exact hs
    have h2 : s < b.length := by rw [hb.length]; exact hs
    obtain ⟨k, x, e1, e2⟩ := ha.get s _ (List.getElem?_eq_getElem h1)
    obtain ⟨k', x', e1', e2'⟩ := hb.get s _ (List.getElem?_eq_getElem h2)
    rw [e1] at e1'
    obtain rfl := Option.some.inj e1'
    rw [List.getElem?_eq_getElem h1, List.getElem?_eq_getElem h2, Option.getD_some, Option.getD_some, e2, e2']
    rfl
  · rw [List.getElem?_eq_none (by rw [ha.length]; omega), List.getElem?_eq_none (by rw [hb.length]; omega)]

theorem targetHits_splits {a b : List Split} (h : ∀ row, rowLeft a row = rowLeft b row) (d : ℕ) (X : List (List ℚ)) (y : List ℤ) (p : Path) (t : ℤ) :
    targetHits d a X y p t = targetHits d b X y p t := by
  have e : rowLeft a = rowLeft b := funext h
  unfold targetHits
  rw [e]

theorem Scored.congr {a b : List Split} (h : ∀ row, rowLeft a row = rowLeft b row) {d : ℕ} {X : List (List ℚ)} {y : List ℤ} {p p' : Path}
    (hs : Scored d a X y p) (h1 : p'.leafId = p.leafId) (h2 : p'.pairs = p.pairs) (h3 : p'.cost = p.cost) (h4 : p'.target = p.target) :
    Scored d b X y p' := by
  have e : ∀ t, targetHits d b X y p' t = targetHits d a X y p t := by
    intro t
    rw [← targetHits_splits h]
    exact targetHits_congr _ _ _ _ h1 h2 t
  exact ⟨by rw [e, h3, h4]; exact hs.cost, fun t => by rw [e, e, h4]; exact hs.best t, by rw [h4]; exact hs.known⟩

/-! ## Lists, leaves, reduction -/

structure Finished (d : ℕ) (st : Splits × List Node) (X : List (List ℚ)) (y : List ℤ) (paths : List Path) (nodes : List Node)
    (splits : List Split) : Prop where
  paths_length : paths.length = 2 ^ d
  path : ∀ l < 2 ^ d, ∃ p, paths[l]? = some p ∧ p.id = l ∧ p.leafId = l ∧ GoodPath d splits p ∧
    (∀ q ∈ p.pairs, q.2 = lastOf (fillEmpty st.2) q.1) ∧ Scored d splits X y p ∧ p.initial = false
  nodes_length : nodes.length = 2 ^ d - 1
  node : ∀ (i : ℕ) n, (fillEmpty st.2)[i]? = some n → ∃ n', nodes[i]? = some n' ∧
    Reduced (if n.id = 0 then quota 150 (2 ^ d - 1) else quota 100 (2 ^ d - 1)) n n'
  splits_ok : SplitListOk st.1 splits
  removed : ∀ sp ∈ splits, (sp.removed = true ↔ ∀ n ∈ nodes, sp.id ∉ n.candidateSplits)

theorem finish_ok {d : ℕ} {st : Splits × List Node} (hs : SplitsOk st.1) (hf : FilledOk d st.1.length (fillEmpty st.2))
    {X : List (List ℚ)} {y : List ℤ} (hy : y.length = X.length) (hne : y ≠ []) :
    ∃ paths nodes splits, finish d st X y = .ok (paths, fullLeaves d, nodes, splits) ∧ Finished d st X y paths nodes splits := by
  obtain ⟨spl, hspl⟩ : ∃ spl, spl = st.1.map Prod.snd := ⟨_, rfl⟩
  have hlist : getSplitsList st.1 = .ok (spl.map some) := by rw [getSplitsList_ok hs, hspl, List.map_map]; rfl
  have hok : SplitListOk st.1 spl := hspl ▸ SplitListOk.of_ok hs
  obtain ⟨paths, p1, p2, p3⟩ := C61_initial_paths (nodes := fillEmpty st.2) (splits := spl) (X := X) (y := y) hf.length
    (fun n hn => by rw [hok.length]; exact hf.lastOf hn) hy hne
  obtain ⟨nodes, splits, r1, r2, r3, r4, r5⟩ := C59_reduce (fillEmpty st.2) spl (quota 150 (2 ^ d - 1)) (quota 100 (2 ^ d - 1)) hf.nodup hf.parallel
    (fun n hn e => by obtain ⟨s, h1, _⟩ := hf.last n hn; rw [e] at h1; exact absurd h1 (by simp))
  have hok' : SplitListOk st.1 splits := hok.flags r3 fun i sp h => let ⟨sp', h1, h2, _⟩ := r5 i sp h; ⟨sp', h1, h2⟩
  refine ⟨paths, nodes, splits, ?_, ⟨p2, ?_, by rw [r2, hf.length], r4, hok', ?_⟩⟩
  · unfold finish
    simp only [hlist, known_map_some, p1, r1]
  · intro l hl
    obtain ⟨p, a1, a2, a3, a4, a5, a6, a7⟩ := p3 l hl
    exact ⟨p, a1, a2, a3, ⟨a4.1, fun t ht => by rw [hok'.length, ← hok.length]; exact a4.2 t ht⟩, a5,
      a6.congr (rowLeft_congr hok hok') rfl rfl rfl rfl, a7⟩
  · intro sp hsp
    obtain ⟨i, hi, e⟩ := List.mem_iff_getElem.1 hsp
    obtain ⟨sp', h1, ⟨b, h2⟩, h3⟩ := r5 i _ (List.getElem?_eq_getElem (by omega : i < spl.length))
    rw [List.getElem?_eq_getElem hi, e] at h1
    obtain rfl := Option.some.inj h1
    rw [h3, h2]

/-! ## Further trees -/

theorem walkUp_ok {tree : List (ℕ × Node)} {splits : List Split}
    (ht : ∀ e ∈ tree, e.2.lastSplit = -1 ∨ ∃ k < splits.length, e.2.lastSplit = (k : ℤ)) : ∀ ns : List ℕ, walkUp tree splits ns = .ok none ∨
      ∃ ss, walkUp tree splits ns = .ok (some ss) ∧ ss.length = ns.length ∧
        ∀ q ∈ ns.zip ss, q.2 < splits.length ∧ (splitAt splits q.2).removed = false ∧
          ∃ node, dictGet tree q.1 = some node ∧ node.lastSplit = (q.2 : ℤ)
  | [] => .inr ⟨[], rfl, rfl, by simp⟩
  | n :: ns => by
    rw [walkUp]
    cases hg : dictGet tree n with
    | none => exact .inl rfl
    | some node =>
      simp only
      rcases ht _ (dictGet_mem hg) with h | ⟨k, hk, h⟩
      · simp only at h
        rw [if_pos h]
        exact .inl rfl
      · simp only at h
        rw [if_neg (by omega), h, Int.toNat_natCast, List.getElem?_eq_getElem hk]
        simp only
        by_cases hr : splits[k].removed = true
        · rw [if_pos hr]; exact .inl rfl
        · rw [if_neg hr]
          rcases walkUp_ok ht ns with h1 | ⟨ss, h1, h2, h3⟩
          · rw [h1]; exact .inl rfl
          · rw [h1]
            refine .inr ⟨k :: ss, rfl, by simp [h2], ?_⟩
            intro q hq
            rcases List.mem_cons.1 hq with rfl | hq
            · refine ⟨hk, ?_, node, hg, h⟩
              have e : splitAt splits k = splits[k] := by
                unfold splitAt; rw [List.getD_eq_getElem?_getD, List.getElem?_eq_getElem hk]; rfl
              simp only [e]
              simpa using hr
            · exact h3 q hq

/-- A path of the experiment: nodes of its leaf, known splits, cost and target of its rows. -/
structure PathGood (d : ℕ) (splits : List Split) (X : List (List ℚ)) (y : List ℤ) (p : Path) : Prop where
  good : GoodPath d splits p
  scored : Scored d splits X y p
  initial : p.initial = false

theorem getPathForLeaf_ok {d : ℕ} {tree : List (ℕ × Node)} {splits : List Split}
    (ht : ∀ e ∈ tree, e.2.lastSplit = -1 ∨ ∃ k < splits.length, e.2.lastSplit = (k : ℤ)) {X : List (List ℚ)} {y : List ℤ}
    (hy : y.length = X.length) (hne : y ≠ []) {l : ℕ} (hl : l < 2 ^ d) : getPathForLeaf (createLeaf l d) tree d splits X y = .ok none ∨
      ∃ p, getPathForLeaf (createLeaf l d) tree d splits X y = .ok (some p) ∧ PathGood d splits X y p ∧ p.leafId = l ∧
        ∀ q ∈ p.pairs, (splitAt splits q.2).removed = false ∧ ∃ node, dictGet tree q.1 = some node ∧ node.lastSplit = (q.2 : ℤ) := by
  have hid : (createLeaf l d).id = l := rfl
  have hns : fathers (2 ^ d - 1 + (createLeaf l d).id) (2 ^ d - 1 + (createLeaf l d).id) = (List.range d).reverse.map (anc d l) := by
    rw [hid]; exact leaf_nodes hl
  unfold getPathForLeaf
  simp only [hns]
  rcases walkUp_ok ht ((List.range d).reverse.map (anc d l)) with h | ⟨ss, h, h2, h3⟩
  · rw [h]; exact .inl rfl
  · rw [h]
    right
    have hgood : GoodPath d splits ⟨l, (List.range d).reverse.map (anc d l), ss, 0, 0, 0, false⟩ := by
      refine ⟨⟨hl, (List.reverse_perm _).map _, by simpa using h2⟩, ?_⟩
      intro t htm
      obtain ⟨i, hi, e⟩ := List.mem_iff_getElem.1 htm
      simp only at hi
      have hi' : i < ((List.range d).reverse.map (anc d l)).length := by omega
      refine (h3 (((List.range d).reverse.map (anc d l))[i], t) ?_).1
      refine List.mem_iff_getElem.2 ⟨i, by simp only [List.length_zip]; omega, ?_⟩
      rw [List.getElem_zip, ← e]
    obtain ⟨cost, target, h4, h5⟩ := scorePath_ok (X := X) hy hne hgood
    refine ⟨_, ?_, ⟨?_, h5, rfl⟩, rfl, ?_⟩
    · change (scorePath splits X y ⟨(createLeaf l d).id, (List.range d).reverse.map (anc d l), ss, 0, 0, 0, false⟩ (createLeaf l d).leftNodes).map some = _
      rw [hid]
      rw [h4]
      rfl
    · exact ⟨⟨hgood.1.leaf_lt, hgood.1.nodes, hgood.1.splits⟩, hgood.2⟩
    · intro q hq
      exact (h3 q hq).2

/-- The list of paths: good ones, numbered, no two the same. -/
structure PathListOk (d : ℕ) (splits : List Split) (X : List (List ℚ)) (y : List ℤ) (paths : List Path) : Prop where
  good : ∀ p ∈ paths, PathGood d splits X y p
  id : ∀ (i : ℕ) p, paths[i]? = some p → p.id = i
  diff : paths.Pairwise fun p q => q.isSameAs p = false

theorem addLeafPath_ok {d : ℕ} {tree : List (ℕ × Node)} {splits : List Split}
    (ht : ∀ e ∈ tree, e.2.lastSplit = -1 ∨ ∃ k < splits.length, e.2.lastSplit = (k : ℤ)) {X : List (List ℚ)} {y : List ℤ}
    (hy : y.length = X.length) (hne : y ≠ []) {l : ℕ} (hl : l < 2 ^ d) {paths : List Path} (hp : PathListOk d splits X y paths) :
    ∃ paths', addLeafPath tree d splits X y paths (createLeaf l d) = .ok paths' ∧ PathListOk d splits X y paths' ∧ paths <+: paths' ∧
      ∀ p ∈ paths', p ∈ paths ∨ ∀ q ∈ p.pairs, (splitAt splits q.2).removed = false ∧ ∃ node, dictGet tree q.1 = some node ∧ node.lastSplit = (q.2 : ℤ) := by
  unfold addLeafPath
  rcases getPathForLeaf_ok ht hy hne hl with h | ⟨p, h, h1, h2, h3⟩
  · rw [h]; exact ⟨paths, rfl, hp, List.prefix_refl _, fun p hp => .inl hp⟩
  · rw [h]
    simp only
    by_cases hany : (paths.any fun q => p.isSameAs q) = true
    · rw [if_pos hany]; exact ⟨paths, rfl, hp, List.prefix_refl _, fun p hp => .inl hp⟩
    · rw [if_neg hany]
      refine ⟨_, rfl, ⟨?_, ?_, ?_⟩, List.prefix_append _ _, ?_⟩
      · intro q hq
        rcases List.mem_append.1 hq with hq | hq
        · exact hp.good q hq
        · rw [List.mem_singleton.1 hq]
          exact ⟨⟨⟨h1.good.1.leaf_lt, h1.good.1.nodes, h1.good.1.splits⟩, h1.good.2⟩, h1.scored.congr (fun _ => rfl) rfl rfl rfl rfl, h1.initial⟩
      · intro i q hq
        rcases Nat.lt_trichotomy i paths.length with hi | hi | hi
        · rw [List.getElem?_append_left hi] at hq
          exact hp.id i q hq
        · subst hi
          rw [List.getElem?_append_right le_rfl] at hq
          simp at hq
          rw [← hq]
        · rw [List.getElem?_eq_none (by simp; omega)] at hq
          exact absurd hq (by simp)
      · rw [List.pairwise_append]
        refine ⟨hp.diff, List.pairwise_singleton _ _, ?_⟩
        intro a ha b hb
        rw [List.mem_singleton.1 hb]
        simp only [List.any_eq_true, not_exists, not_and, Bool.not_eq_true] at hany
        exact hany a ha
      · intro q hq
        rcases List.mem_append.1 hq with hq | hq
        · exact .inl hq
        · right
          rw [List.mem_singleton.1 hq]
          exact h3

theorem addTreePaths_fold {d : ℕ} {tree : List (ℕ × Node)} {splits : List Split}
    (ht : ∀ e ∈ tree, e.2.lastSplit = -1 ∨ ∃ k < splits.length, e.2.lastSplit = (k : ℤ)) {X : List (List ℚ)} {y : List ℤ}
    (hy : y.length = X.length) (hne : y ≠ []) : ∀ (ls : List ℕ) (_ : ∀ l ∈ ls, l < 2 ^ d) {paths : List Path} (_ : PathListOk d splits X y paths),
    ∃ paths', (ls.map fun l => createLeaf l d).foldlM (addLeafPath tree d splits X y) paths = .ok paths' ∧ PathListOk d splits X y paths' ∧
      paths <+: paths' ∧ ∀ p ∈ paths', p ∈ paths ∨ ∀ q ∈ p.pairs, (splitAt splits q.2).removed = false
  | [], _, paths, hp => ⟨paths, rfl, hp, List.prefix_refl _, fun p hp => .inl hp⟩
  | l :: ls, hls, paths, hp => by
    obtain ⟨p1, e1, h1, h2, h3⟩ := addLeafPath_ok ht hy hne (hls l List.mem_cons_self) hp
    obtain ⟨p2, e2, g1, g2, g3⟩ := addTreePaths_fold ht hy hne ls (fun x hx => hls x (List.mem_cons_of_mem _ hx)) h1
    refine ⟨p2, ?_, g1, h2.trans g2, ?_⟩
    · rw [List.map_cons, List.foldlM_cons, e1]
      exact e2
    · intro p hp
      rcases g3 p hp with h | h
      · rcases h3 p h with h | h
        · exact .inl h
        · exact .inr fun q hq => (h q hq).1
      · exact .inr h

theorem addTreePaths_ok {d : ℕ} {all : Splits} (hall : SplitsOk all) {splits : List Split} (hlen : splits.length = all.length) {X : List (List ℚ)} {y : List ℤ}
    (hy : y.length = X.length) (hne : y ≠ []) {c : Cart} (hc : CartOk d c) {paths : List Path} (hp : PathListOk d splits X y paths) :
    ∃ paths', addTreePaths all d splits X y (fullLeaves d) paths c = .ok paths' ∧ PathListOk d splits X y paths' ∧
      paths <+: paths' ∧ ∀ p ∈ paths', p ∈ paths ∨ ∀ q ∈ p.pairs, (splitAt splits q.2).removed = false := by
  obtain ⟨tree, t1, t2, t3⟩ := getAllNodes_spec hc all
  have ht : ∀ e ∈ tree, e.2.lastSplit = -1 ∨ ∃ k < splits.length, e.2.lastSplit = (k : ℤ) := by
    intro e he
    obtain ⟨i, _, _, w, _, _, h⟩ := (t3 e.1 e.2).1 he
    rw [h]
    rcases cartNode_cases hall e.1 (c.key i) with ⟨k, hk, h⟩ | h
    · exact .inr ⟨k, by omega, by rw [h]⟩
    · exact .inl (by rw [h])
  unfold addTreePaths
  rw [t1]
  exact addTreePaths_fold ht hy hne (List.range (2 ^ d)) (fun l hl => List.mem_range.1 hl) hp

theorem extra_ok {d : ℕ} {all : Splits} (hall : SplitsOk all) {splits : List Split} (hlen : splits.length = all.length) {X : List (List ℚ)} {y : List ℤ}
    (hy : y.length = X.length) (hne : y ≠ []) : ∀ (cs : List Cart) (_ : ∀ c ∈ cs, CartOk d c) {paths : List Path} (_ : PathListOk d splits X y paths),
    ∃ paths', cs.foldlM (addTreePaths all d splits X y (fullLeaves d)) paths = .ok paths' ∧ PathListOk d splits X y paths' ∧
      paths <+: paths' ∧ ∀ p ∈ paths', p ∈ paths ∨ ∀ q ∈ p.pairs, (splitAt splits q.2).removed = false
  | [], _, paths, hp => ⟨paths, rfl, hp, List.prefix_refl _, fun p hp => .inl hp⟩
  | c :: cs, hcs, paths, hp => by
    obtain ⟨p1, e1, h1, h2, h3⟩ := addTreePaths_ok hall hlen hy hne (hcs c List.mem_cons_self) hp
    obtain ⟨p2, e2, g1, g2, g3⟩ := extra_ok hall hlen hy hne cs (fun x hx => hcs x (List.mem_cons_of_mem _ hx)) h1
    refine ⟨p2, ?_, g1, h2.trans g2, ?_⟩
    · rw [List.foldlM_cons, e1]
      exact e2
    · intro p hp
      rcases g3 p hp with h | h
      · exact h3 p h
      · exact .inr h

/-! ## Rows of the splits -/

theorem addRows_static (X : List (List ℚ)) (rs : List ℕ) (sp : Split) : ∃ l r, rs.foldl (fun sp r =>
    if feat (X.getD r []) sp.feature ≤ sp.threshold then { sp with leftRows := setAdd sp.leftRows r }
    else { sp with rightRows := setAdd sp.rightRows r }) sp = { sp with
      leftRows := l
      rightRows := r } := by
  induction rs generalizing sp with
  | nil => exact ⟨_, _, rfl⟩
  | cons a rs ih =>
    rw [List.foldl_cons]
    split_ifs
    · obtain ⟨l, r, e⟩ := ih { sp with leftRows := setAdd sp.leftRows a }
      exact ⟨l, r, by rw [e]⟩
    · obtain ⟨l, r, e⟩ := ih { sp with rightRows := setAdd sp.rightRows a }
      exact ⟨l, r, by rw [e]⟩

theorem addRows_get (splits : List Split) (X : List (List ℚ)) (i : ℕ) : ∃ l r, (addRowsToSplits splits X)[i]? = (splits[i]?).map fun sp => { sp with
      leftRows := l
      rightRows := r } := by
  unfold addRowsToSplits
  rw [List.getElem?_map]
  cases splits[i]? with
  | none => exact ⟨[], [], rfl⟩
  | some sp =>
    obtain ⟨l, r, e⟩ := addRows_static X (List.range X.length) sp
    exact ⟨l, r, by rw [Option.map_some, Option.map_some, e]⟩

theorem addRows_length (splits : List Split) (X : List (List ℚ)) : (addRowsToSplits splits X).length = splits.length := by
  simp [addRowsToSplits]

theorem addRows_rowLeft (splits : List Split) (X : List (List ℚ)) (row : List ℚ) : rowLeft (addRowsToSplits splits X) row = rowLeft splits row := by
  funext s
  unfold rowLeft splitAt
  rw [List.getD_eq_getElem?_getD, List.getD_eq_getElem?_getD]
  obtain ⟨l, r, e⟩ := addRows_get splits X s
  rw [e]
  cases splits[s]? <;> rfl

theorem addRows_removed (splits : List Split) (X : List (List ℚ)) (s : ℕ) :
    (splitAt (addRowsToSplits splits X) s).removed = (splitAt splits s).removed := by
  unfold splitAt
  rw [List.getD_eq_getElem?_getD, List.getD_eq_getElem?_getD]
  obtain ⟨l, r, e⟩ := addRows_get splits X s
  rw [e]
  cases splits[s]? <;> rfl

theorem PathListOk.addRows {d : ℕ} {splits : List Split} {X : List (List ℚ)} {y : List ℤ} {paths : List Path}
    (h : PathListOk d splits X y paths) : PathListOk d (addRowsToSplits splits X) X y paths := by
  refine ⟨fun p hp => ?_, h.id, h.diff⟩
  obtain ⟨h1, h2, h3⟩ := h.good p hp
  exact ⟨⟨h1.1, by rw [addRows_length]; exact h1.2⟩, h2.congr (fun row => (addRows_rowLeft splits X row).symm) rfl rfl rfl rfl, h3⟩

theorem Finished.pathList {d : ℕ} {st : Splits × List Node} {X : List (List ℚ)} {y : List ℤ} {paths : List Path} {nodes : List Node}
    {splits : List Split} (h : Finished d st X y paths nodes splits) : PathListOk d splits X y paths := by
  have hget : ∀ (i : ℕ) p, paths[i]? = some p → p.id = i ∧ p.leafId = i ∧ PathGood d splits X y p := by
    intro i p hp
    have hi := (List.getElem?_eq_some_iff.1 hp).1
    obtain ⟨p', a1, a2, a3, a4, a5, a6, a7⟩ := h.path i (by have := h.paths_length; omega)
    rw [hp] at a1
    obtain rfl := Option.some.inj a1
    exact ⟨a2, a3, a4, a6, a7⟩
  refine ⟨?_, fun i p hp => (hget i p hp).1, ?_⟩
  · intro p hp
    obtain ⟨i, hi, e⟩ := List.mem_iff_getElem.1 hp
    exact (hget i p (by rw [List.getElem?_eq_getElem hi, e])).2.2
  · rw [List.pairwise_iff_getElem]
    intro i j hi hj hij
    have h1 := (hget i _ (List.getElem?_eq_getElem hi)).2.1
    have h2 := (hget j _ (List.getElem?_eq_getElem hj)).2.1
    unfold Path.isSameAs
    rw [if_pos (by rw [h1, h2]; omega)]

theorem Finished.tree {d : ℕ} {st : Splits × List Node} {X : List (List ℚ)} {y : List ℤ} {paths : List Path} {nodes : List Node}
    {splits : List Split} (hf : FilledOk d st.1.length (fillEmpty st.2)) (h : Finished d st X y paths nodes splits) :
    Tree d (fullLeaves d) nodes (addRowsToSplits splits X) ∧ ∀ n ∈ nodes, n.childrenAreLeaves = false := by
  have hget : ∀ (i : ℕ) n', nodes[i]? = some n' → ∃ n, (fillEmpty st.2)[i]? = some n ∧ ∃ q, Reduced q n n' := by
    intro i n' hn'
    have hi := (List.getElem?_eq_some_iff.1 hn').1
    have hi' : i < (fillEmpty st.2).length := by rw [hf.length, ← h.nodes_length]; exact hi
    obtain ⟨x, h1, h2⟩ := h.node i _ (List.getElem?_eq_getElem hi')
    rw [hn'] at h1
    obtain rfl := Option.some.inj h1
    exact ⟨_, List.getElem?_eq_getElem hi', _, h2⟩
  have hmem : ∀ n' ∈ nodes, ∃ n ∈ fillEmpty st.2, ∃ q, Reduced q n n' := by
    intro n' hn'
    obtain ⟨i, hi, e⟩ := List.mem_iff_getElem.1 hn'
    obtain ⟨n, h1, h2⟩ := hget i n' (by rw [List.getElem?_eq_getElem hi, e])
    exact ⟨n, List.mem_of_getElem? h1, h2⟩
  refine ⟨⟨rfl, h.nodes_length, ?_, ?_, ?_, ?_⟩, ?_⟩
  · intro i n' hn'
    obtain ⟨n, h1, q, h2⟩ := hget i n' hn'
    rw [h2.same]
    exact hf.id i n h1
  · intro i sp hsp
    obtain ⟨l, r, e⟩ := addRows_get splits X i
    rw [e] at hsp
    cases hg : splits[i]? with
    | none => rw [hg] at hsp; exact absurd hsp (by simp)
    | some sp0 =>
      rw [hg] at hsp
      simp only [Option.map_some, Option.some.injEq] at hsp
      obtain ⟨k, b, _, e2⟩ := h.splits_ok.get i sp0 hg
      rw [← hsp, e2]
  · intro n' hn' s hs
    obtain ⟨n, h1, q, h2⟩ := hmem n' hn'
    rw [addRows_length, h.splits_ok.length]
    obtain ⟨i, hi, e⟩ := List.mem_iff_getElem.1 hs
    have hi' : i < n'.candidateSplitsCount.length := by rw [h2.parallel]; exact hi
    have : (n'.candidateSplitsCount[i], s) ∈ Node.entries n' := by
      unfold Node.entries
      refine List.mem_iff_getElem.2 ⟨i, by simp only [List.length_zip]; omega, ?_⟩
      rw [List.getElem_zip, e]
    exact hf.lt n h1 s (List.of_mem_zip (h2.old _ this)).2
  · intro n' hn'
    obtain ⟨n, h1, q, h2⟩ := hmem n' hn'
    exact h2.nodup
  · intro n' hn'
    obtain ⟨n, h1, q, h2⟩ := hmem n' hn'
    rw [h2.same]
    exact hf.leaf n h1

theorem tree_prep {d : ℕ} {leaves : List Leaf} {nodes : List Node} {splits : List Split} (h : Tree d leaves nodes splits) :
    Tree d leaves (preprocessNodes nodes d) splits := by
  have hget : ∀ (i : ℕ) n', (preprocessNodes nodes d)[i]? = some n' → ∃ n, nodes[i]? = some n ∧ n'.id = n.id ∧ n'.candidateSplits = n.candidateSplits := by
    intro i n' hn'
    unfold preprocessNodes at hn'
    rw [List.getElem?_map] at hn'
    cases hg : nodes[i]? with
    | none => rw [hg] at hn'; exact absurd hn' (by simp)
    | some n =>
      rw [hg] at hn'
      simp only [Option.map_some, Option.some.injEq] at hn'
      refine ⟨n, rfl, ?_⟩
      rw [← hn']
      split_ifs <;> exact ⟨rfl, rfl⟩
  have hmem : ∀ n' ∈ preprocessNodes nodes d, ∃ n ∈ nodes, n'.candidateSplits = n.candidateSplits := by
    intro n' hn'
    obtain ⟨i, hi, e⟩ := List.mem_iff_getElem.1 hn'
    obtain ⟨n, h1, _, h2⟩ := hget i n' (by rw [List.getElem?_eq_getElem hi, e])
    exact ⟨n, List.mem_of_getElem? h1, h2⟩
  refine ⟨h.leaves, by simpa [preprocessNodes] using h.nodes_length, ?_, h.split_id, ?_, ?_⟩
  · intro i n' hn'
    obtain ⟨n, h1, h2, _⟩ := hget i n' hn'
    rw [h2]; exact h.node_id i n h1
  · intro n' hn'
    obtain ⟨n, h1, h2⟩ := hmem n' hn'
    rw [h2]; exact h.cand_lt n h1
  · intro n' hn'
    obtain ⟨n, h1, h2⟩ := hmem n' hn'
    rw [h2]; exact h.cand_nodup n h1

theorem cand_preprocess (nodes : List Node) (d n : ℕ) : cand (preprocessNodes nodes d) n = cand nodes n := by
  unfold cand preprocessNodes
  rw [List.getElem?_map]
  cases nodes[n]? with
  | none => rfl
  | some x =>
    simp only [Option.map_some, Option.getD_some]
    split_ifs <;> rfl

theorem distinct_of {all : Splits} (hall : SplitsOk all) {splits : List Split} (h : SplitListOk all splits) (X : List (List ℚ)) :
    Distinct (addRowsToSplits splits X) := by
  have hat : ∀ i < splits.length, ∃ k, (all[i]?).map Prod.fst = some k ∧ (splitAt (addRowsToSplits splits X) i).feature = k.1 ∧
      (splitAt (addRowsToSplits splits X) i).threshold = k.2 := by
    intro i hi
    obtain ⟨k, b, h1, h2⟩ := h.get i _ (List.getElem?_eq_getElem hi)
    obtain ⟨l, r, e⟩ := addRows_get splits X i
    refine ⟨k, h1, ?_⟩
    unfold splitAt
    rw [List.getD_eq_getElem?_getD, e, List.getElem?_eq_getElem hi, h2]
    exact ⟨rfl, rfl⟩
  intro i hi j hj hij hfe hth
  rw [addRows_length] at hi hj
  obtain ⟨k, a1, a2, a3⟩ := hat i hi
  obtain ⟨k', b1, b2, b3⟩ := hat j hj
  have hk : k = k' := Prod.ext (by rw [← a2, ← b2, hfe]) (by rw [← a3, ← b3, hth])
  have hi' : i < all.length := by rw [← h.length]; exact hi
  have hj' : j < all.length := by rw [← h.length]; exact hj
  apply hij
  refine (List.Nodup.getElem_inj_iff hall.nodup (hi := by simpa using hi') (hj := by simpa using hj')).1 ?_
  rw [List.getElem?_eq_getElem hi'] at a1
  rw [List.getElem?_eq_getElem hj'] at b1
  simp only [Option.map_some, Option.some.injEq] at a1 b1
  rw [List.getElem_map, List.getElem_map, a1, b1, hk]

end Verif.Exp
