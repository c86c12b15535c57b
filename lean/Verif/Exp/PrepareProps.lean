import Mathlib.Tactic.IntervalCases
import Verif.Exp.PrepareLemmas

/-!
# C62, C76, C77: the result of the preparation
-/

set_option linter.unusedSectionVars false
set_option linter.unusedSimpArgs false

namespace Verif.Exp

open Verif.DTree Verif.DTree.Spec

variable {d : ℕ} {carts extra : List Cart} {final : Cart} {X : List (List ℚ)} {y : List ℤ} {aggressive : Bool} {limit : ℚ} {elapsed : ℕ → ℚ}

/-! ## Vocabulary -/

/-- Inputs of the preparation: positive depth, trees of at most this depth, at least one of the merged trees has a split, as many labels as
rows, at least one row. -/
structure PrepInput (d : ℕ) (carts : List Cart) (final : Cart) (extra : List Cart) (X : List (List ℚ)) (y : List ℤ) : Prop where
  depth : 0 < d
  carts_ok : ∀ c ∈ carts, CartOk d c
  final_ok : CartOk d final
  extra_ok : ∀ c ∈ extra, CartOk d c
  split : ∃ c ∈ carts ++ [final], c.keys ≠ []
  rows : y.length = X.length
  ne : y ≠ []

/-! ## The run -/

/-- The intermediate results of a run. -/
structure PrepRun (d : ℕ) (carts : List Cart) (final : Cart) (X : List (List ℚ)) (y : List ℤ) (aggressive : Bool) (limit : ℚ)
    (elapsed : ℕ → ℚ) (P : Prepared) (st : Splits × List Node) (ms : List Merge) (paths : List Path) (nodes : List Node) (splits : List Split) :
    Prop where
  inv : PipeInv d (carts ++ [final]) (carts.map (fun _ => 1) ++ [1000]) st ms
  last : ∃ ms0 dict, ms = ms0 ++ [(dict, 1000)] ∧ ms0.map Prod.snd = carts.map (fun _ => 1) ∧ CartKeys final dict
  lastNodes : ∃ ms0 dict, ms = ms0 ++ [(dict, 1000)] ∧ getAllNodes final st.1 = .ok dict
  filled : FilledOk d st.1.length (fillEmpty st.2)
  fin : Finished d st X y paths nodes splits
  pos : 0 < st.1.length
  paths_ok : PathListOk d splits X y P.paths
  pre : paths <+: P.paths
  new : ∀ p ∈ P.paths, p ∈ paths ∨ ∀ q ∈ p.pairs, (splitAt splits q.2).removed = false
  leaves : P.leaves = fullLeaves d
  nodes_eq : P.nodes = preprocessNodes nodes d
  splits_eq : P.splits = addRowsToSplits splits X
  targets : P.targets = Sk.uniqueLabels y
  rows : preprocess nodes (addRowsToSplits splits X) X.length y d aggressive limit elapsed = .ok P.rows

theorem prepare_ok (h : PrepInput d carts final extra X y) (aggressive : Bool) (limit : ℚ) (elapsed : ℕ → ℚ) :
    ∃ P st ms paths nodes splits, prepare d carts final extra X y aggressive limit elapsed = .ok P ∧
      PrepRun d carts final X y aggressive limit elapsed P st ms paths nodes splits := by
  obtain ⟨st1, ms1, e1, i1⟩ := mergeCarts_ok carts (PipeInv.nil d) h.carts_ok
  obtain ⟨st, ms, e2, i2, dict, e2', k2, n2⟩ := mergeCart_ok i1 h.final_ok 1000
  rw [List.nil_append, List.nil_append] at i2
  have hpos : 0 < st.1.length := by
    obtain ⟨c, hc, hk⟩ := h.split
    obtain ⟨k, hk⟩ := List.exists_mem_of_ne_nil _ hk
    have := (i2.keys k).2 ⟨c, hc, hk⟩
    have := List.length_pos_of_mem this
    simpa using this
  have hf := i2.filledOk hpos
  obtain ⟨paths, nodes, splits, e3, f⟩ := finish_ok i2.splits hf h.rows h.ne
  obtain ⟨paths', e4, g1, g2, g3⟩ := extra_ok i2.splits f.splits_ok.length h.rows h.ne extra h.extra_ok f.pathList
  have hX : X.length ≠ 0 := by rw [← h.rows]; simpa using h.ne
  obtain ⟨rows, e5⟩ : ∃ rows, preprocess nodes (addRowsToSplits splits X) X.length y d aggressive limit elapsed = .ok rows := by
    unfold preprocess
    simp only [if_neg hX]
    split_ifs <;> exact ⟨_, rfl⟩
  refine ⟨⟨paths', fullLeaves d, preprocessNodes nodes d, addRowsToSplits splits X, Sk.uniqueLabels y, rows⟩, st, ms, paths, nodes, splits, ?_,
    ⟨i2, ⟨ms1, dict, e2', by simpa using i1.weights, k2⟩, ⟨ms1, dict, e2', n2⟩, hf, f, hpos, g1, g2, g3, rfl, rfl, rfl, rfl, e5⟩⟩
  unfold prepare
  have h0 : ¬ 2 ^ d - 1 = 0 := by
    have := Nat.pow_lt_pow_right (a := 2) (by norm_num) h.depth
    omega
  simp only [if_neg h0, e1, e2, e3, e4, e5]

/-! ## C62: candidates of the nodes -/

theorem PrepRun.cand_length {P : Prepared} {st : Splits × List Node} {ms : List Merge} {paths : List Path} {nodes : List Node} {splits : List Split}
    (r : PrepRun d carts final X y aggressive limit elapsed P st ms paths nodes splits) {n : ℕ} (hn : n < 2 ^ d - 1) :
    ∃ m > 0, (cand P.nodes n).length = min (if n = 0 then quota 150 (2 ^ d - 1) else quota 100 (2 ^ d - 1)) m := by
  have hn' : n < (fillEmpty st.2).length := by rw [r.filled.length]; exact hn
  obtain ⟨x, h1, h2⟩ := r.fin.node n _ (List.getElem?_eq_getElem hn')
  obtain ⟨s, h3, _⟩ := r.filled.last _ (List.getElem_mem hn')
  refine ⟨_, List.length_pos_of_mem h3, ?_⟩
  rw [r.nodes_eq, cand_preprocess]
  unfold cand
  rw [h1]
  have hid := r.filled.id n _ (List.getElem?_eq_getElem hn')
  have := h2.size
  rw [hid] at this
  exact this

/-- **C62 for depths up to 6.** Every node keeps at least one candidate split. Missing: depth 7 and more, where the statement is false
(`C62_refuted`). -/
theorem C62_candidates_partial (h : PrepInput d carts final extra X y) (hd : d ≤ 6) {P : Prepared}
    (hr : prepare d carts final extra X y aggressive limit elapsed = .ok P) : ∀ n < 2 ^ d - 1, cand P.nodes n ≠ [] := by
  obtain ⟨P', st, ms, paths, nodes, splits, e, r⟩ := prepare_ok h aggressive limit elapsed
  rw [hr] at e
  obtain rfl := Except.ok.inj e
  intro n hn hc
  obtain ⟨m, hm, hl⟩ := r.cand_length hn
  rw [hc] at hl
  have hq : 0 < quota 150 (2 ^ d - 1) ∧ 0 < quota 100 (2 ^ d - 1) := by
    have := h.depth
    interval_cases d <;> decide
  simp only [List.length_nil] at hl
  split_ifs at hl <;> omega

/-- **C62 is false of the code.** For depth 7 and more no node but the root keeps a candidate split, for depth 8 and more the root neither. -/
theorem C62_refuted (h : PrepInput d carts final extra X y) (hd : 7 ≤ d) {P : Prepared}
    (hr : prepare d carts final extra X y aggressive limit elapsed = .ok P) {n : ℕ} (hn : n < 2 ^ d - 1) (h0 : n ≠ 0 ∨ 8 ≤ d) :
    cand P.nodes n = [] := by
  obtain ⟨P', st, ms, paths, nodes, splits, e, r⟩ := prepare_ok h aggressive limit elapsed
  rw [hr] at e
  obtain rfl := Except.ok.inj e
  obtain ⟨m, hm, hl⟩ := r.cand_length hn
  have h7 : 2 ^ 7 ≤ 2 ^ d := Nat.pow_le_pow_right (by norm_num) hd
  have q1 : quota 100 (2 ^ d - 1) = 0 := Nat.div_eq_of_lt (by omega)
  have : (cand P.nodes n).length = 0 := by
    rw [hl]
    rcases h0 with h0 | h0
    · rw [if_neg h0, q1]; simp
    · have h8 : 2 ^ 8 ≤ 2 ^ d := Nat.pow_le_pow_right (by norm_num) h0
      have q2 : quota 150 (2 ^ d - 1) = 0 := Nat.div_eq_of_lt (by omega)
      rw [q1, q2]; simp
  exact List.eq_nil_of_length_eq_zero this

/-- Depth 0 raises: the quotas are divided by the number of nodes. -/
theorem C62_depth_zero : prepare 0 carts final extra X y aggressive limit elapsed = .error .zeroDivisionError := rfl

/-! ## C76: the paths -/

theorem PathGood.pathOk {splits : List Split} {p : Path} (h : PathGood d splits X y p) : PathOk p :=
  ⟨by rw [h.good.1.splits, h.good.1.nodes.length_eq]; simp, h.good.1.nodup⟩

/-- **C76.** Every prepared path runs from the root to its leaf over known splits, has as cost the largest number of rows of one label that
follow it and as target such a label; its id is its position; no two paths agree in leaf, target, cost and splits of the nodes; the first
`2^d` paths are one per leaf and agree on a split for every node; the others only use candidate splits (of some node). -/
theorem C76_paths (h : PrepInput d carts final extra X y) {P : Prepared} (hr : prepare d carts final extra X y aggressive limit elapsed = .ok P) :
    (∀ p ∈ P.paths, GoodPath d P.splits p ∧ Scored d P.splits X y p) ∧
    (∀ (i : ℕ) p, P.paths[i]? = some p → p.id = i) ∧
    (∀ (i j : ℕ) p q, i ≠ j → P.paths[i]? = some p → P.paths[j]? = some q →
      ¬ (p.leafId = q.leafId ∧ p.target = q.target ∧ p.cost = q.cost ∧ ∀ x, x ∈ p.pairs ↔ x ∈ q.pairs)) ∧
    (∃ σ : ℕ → ℕ, ∀ l < 2 ^ d, ∃ p, P.paths[l]? = some p ∧ p.leafId = l ∧ ∀ q ∈ p.pairs, q.2 = σ q.1) ∧
    (∀ (i : ℕ) p, 2 ^ d ≤ i → P.paths[i]? = some p → ∀ q ∈ p.pairs, ∃ n < 2 ^ d - 1, q.2 ∈ cand P.nodes n) := by
  obtain ⟨P', st, ms, paths, nodes, splits, e, r⟩ := prepare_ok h aggressive limit elapsed
  rw [hr] at e
  obtain rfl := Except.ok.inj e
  have hp := r.paths_ok.addRows
  rw [← r.splits_eq] at hp
  refine ⟨fun p hm => ⟨(hp.good p hm).good, (hp.good p hm).scored⟩, hp.id, ?_, ?_, ?_⟩
  · have key : ∀ (i j : ℕ) p q, i < j → P.paths[i]? = some p → P.paths[j]? = some q →
        ¬ (p.leafId = q.leafId ∧ p.target = q.target ∧ p.cost = q.cost ∧ ∀ x, x ∈ p.pairs ↔ x ∈ q.pairs) := by
      intro i j p q hij h1 h2 hs
      obtain ⟨hi, e1⟩ := List.getElem?_eq_some_iff.1 h1
      obtain ⟨hj, e2⟩ := List.getElem?_eq_some_iff.1 h2
      have hd := List.pairwise_iff_getElem.1 hp.diff i j hi hj hij
      rw [e1, e2] at hd
      have hq := (C38_meaning (hp.good q (List.mem_of_getElem? h2)).pathOk (hp.good p (List.mem_of_getElem? h1)).pathOk).2
        ⟨hs.1.symm, hs.2.1.symm, hs.2.2.1.symm, fun x => (hs.2.2.2 x).symm⟩
      rw [hd] at hq
      exact absurd hq (by simp)
    intro i j p q hij h1 h2
    rcases Nat.lt_or_gt_of_ne hij with h | h
    · exact key i j p q h h1 h2
    · intro hs
      exact key j i q p h h2 h1 ⟨hs.1.symm, hs.2.1.symm, hs.2.2.1.symm, fun x => (hs.2.2.2 x).symm⟩
  · refine ⟨lastOf (fillEmpty st.2), fun l hl => ?_⟩
    obtain ⟨p, a1, a2, a3, a4, a5, _⟩ := r.fin.path l hl
    obtain ⟨t, ht⟩ := r.pre
    refine ⟨p, ?_, a3, a5⟩
    rw [← ht, List.getElem?_append_left (List.getElem?_eq_some_iff.1 a1).1]
    exact a1
  · intro i p hi hpi q hq
    have hnew : ∀ q ∈ p.pairs, (splitAt splits q.2).removed = false := by
      rcases r.new p (List.mem_of_getElem? hpi) with hm | hm
      · exfalso
        obtain ⟨j, hj, e⟩ := List.mem_iff_getElem.1 hm
        have hjl : j < 2 ^ d := by rw [← r.fin.paths_length]; exact hj
        have : p.id = j := by rw [← e]; exact r.fin.pathList.id j _ (List.getElem?_eq_getElem hj)
        have := hp.id i p hpi
        omega
      · exact hm
    have hlt : q.2 < splits.length := (r.paths_ok.good p (List.mem_of_getElem? hpi)).good.2 _ (List.of_mem_zip hq).2
    have hrem := r.fin.removed _ (List.getElem_mem hlt)
    have hf := hnew q hq
    have e : splitAt splits q.2 = splits[q.2] := by
      unfold splitAt; rw [List.getD_eq_getElem?_getD, List.getElem?_eq_getElem hlt]; rfl
    rw [e] at hf
    rw [hf] at hrem
    have hne : ¬ ∀ n ∈ nodes, splits[q.2].id ∉ n.candidateSplits := fun hh => absurd (hrem.2 hh) (by simp)
    push Not at hne
    obtain ⟨n, hn, hs⟩ := hne
    obtain ⟨k, b, _, ek⟩ := r.fin.splits_ok.get q.2 _ (List.getElem?_eq_getElem hlt)
    rw [ek] at hs
    obtain ⟨j, hj, ej⟩ := List.mem_iff_getElem.1 hn
    refine ⟨j, by rw [← r.fin.nodes_length]; exact hj, ?_⟩
    rw [r.nodes_eq, cand_preprocess]
    unfold cand
    rw [List.getElem?_eq_getElem hj, ej]
    exact hs

/-! ## C77: the arguments of `DTreeClassifier` -/

/-- The call of `DTreeClassifier`, `dtree_experiment.py:296-308`; `old` is `use_old_sp`. -/
def Prepared.args (P : Prepared) (d : ℕ) (old : Bool) : Args :=
  ⟨P.paths, P.leaves, P.nodes, P.splits, d, P.targets.map Int.toNat, 10, true, false, some P.rows, old⟩

theorem encoded_labels (raw : List ℤ) : ∀ v : ℤ, v ∈ (encoded raw).map Int.ofNat ↔ 0 ≤ v ∧ v < (Sk.uniqueLabels raw).length := by
  intro v
  unfold encoded Sk.transform
  simp only [List.map_map, List.mem_map, Function.comp_apply]
  constructor
  · rintro ⟨a, ha, rfl⟩
    have := List.idxOf_lt_length_of_mem ((Sk.mem_uniqueLabels raw a).2 ha)
    exact ⟨Int.natCast_nonneg _, Int.ofNat_lt.2 this⟩
  · rintro ⟨h0, h1⟩
    have hlt : v.toNat < (Sk.uniqueLabels raw).length := by omega
    refine ⟨(Sk.uniqueLabels raw)[v.toNat], (Sk.mem_uniqueLabels raw _).1 (List.getElem_mem hlt), ?_⟩
    rw [List.Nodup.idxOf_getElem (Sk.nodup_uniqueLabels raw)]
    simp [h0]

theorem targets_perm {k : ℕ} (hy : ∀ v : ℤ, v ∈ y ↔ 0 ≤ v ∧ v < k) : ((Sk.uniqueLabels y).map Int.toNat).Perm (List.range k) := by
  rw [List.perm_ext_iff_of_nodup]
  · intro n
    simp only [List.mem_map, Sk.mem_uniqueLabels, List.mem_range, hy]
    constructor
    · rintro ⟨v, h, rfl⟩; omega
    · intro h; exact ⟨n, by omega, by simp⟩
  · rw [List.nodup_map_iff_inj_on (Sk.nodup_uniqueLabels y)]
    intro a ha b hb hab
    rw [Sk.mem_uniqueLabels, hy] at ha hb
    omega
  · exact List.nodup_range

/-- **C77.** On valid trees and labels encoded by `LabelEncoder` the preparation raises no exception, and if its paths use candidate
splits its result meets all requirements of `DTreeClassifier.fit` (those of C71-C74), for every point at which the time limit stops the
merging of rows, provided that the clock does not run backwards. -/
theorem C77_prepared (h : PrepInput d carts final extra X y) {raw : List ℤ} (hy : y = (encoded raw).map Int.ofNat)
    (hclock : ∀ k, elapsed k ≤ elapsed (k + 1)) (old : Bool) :
    ∃ P, prepare d carts final extra X y aggressive limit elapsed = .ok P ∧
      ((∀ p ∈ P.paths, UsesCand P.nodes p) → FitOk d (P.args d old) X (encoded y)) := by
  obtain ⟨P, st, ms, paths, nodes, splits, e, r⟩ := prepare_ok h aggressive limit elapsed
  refine ⟨P, e, fun hcand => ?_⟩
  obtain ⟨ht, hl⟩ := r.fin.tree r.filled
  have hrows0 : ∀ sp ∈ splits, sp = ⟨sp.id, sp.feature, sp.threshold, sp.removed, [], [], [], []⟩ := by
    intro sp hsp
    obtain ⟨i, hi, e⟩ := List.mem_iff_getElem.1 hsp
    obtain ⟨k, b, _, e2⟩ := r.fin.splits_ok.get i sp (by rw [List.getElem?_eq_getElem hi, e])
    rw [e2]
  have hfill : RowsFilled (addRowsToSplits splits X) X := (C39_add_rows splits X fun sp hsp => by
    rw [hrows0 sp hsp]; exact ⟨rfl, rfl⟩).1
  have hleaf : ∀ n ∈ nodes, n.childrenAreLeaves = true → 2 * n.id + 1 ≥ 2 ^ d - 1 := by
    intro n hn hc
    rw [hl n hn] at hc
    exact absurd hc (by simp)
  obtain ⟨hlen, hstat, hinv, _, _⟩ := preprocess_inv h.depth ht hleaf hfill r.rows
  have hp := r.paths_ok.addRows
  rw [← r.splits_eq] at hp
  have hkeys : (P.args d old).targets.Perm (List.range (Sk.uniqueLabels raw).length) := by
    change (P.targets.map Int.toNat).Perm _
    rw [r.targets]
    exact targets_perm (by rw [hy]; exact encoded_labels raw)
  have htl : (P.args d old).targets.length = (Sk.uniqueLabels raw).length := by rw [hkeys.length_eq, List.length_range]
  have htl' : (P.args d old).targets.length = (Sk.uniqueLabels y).length := by
    change (P.targets.map Int.toNat).length = _
    rw [r.targets, List.length_map]
  refine ⟨⟨h.depth, ?_, ?_, ?_, ?_⟩, rfl, ?_, fun p hm => (hp.good p hm).good, hcand, ?_, ?_, ?_, ?_, ?_⟩
  · change Tree d P.leaves P.nodes P.splits
    rw [r.leaves, r.nodes_eq, r.splits_eq]
    exact tree_prep ht
  · change RowsFilled P.splits X
    rw [r.splits_eq]
    exact hfill
  · change ∀ sp ∈ P.splits, _
    rw [r.splits_eq]
    intro sp hsp
    obtain ⟨i, hi, e⟩ := List.mem_iff_getElem.1 hsp
    obtain ⟨a, b, eg⟩ := addRows_get splits X i
    rw [List.getElem?_eq_getElem hi, e, List.getElem?_eq_getElem (by rw [addRows_length] at hi; exact hi)] at eg
    simp only [Option.map_some, Option.some.injEq] at eg
    rw [eg, hrows0 _ (List.getElem_mem _)]
    exact ⟨rfl, rfl⟩
  · rintro rows hrows
    obtain rfl := Option.some.inj hrows
    refine ⟨hlen, ?_⟩
    intro row hrow
    obtain ⟨i, hi, e⟩ := List.mem_iff_getElem.1 hrow
    have hat : rowAt P.rows i = row := by
      unfold rowAt; rw [List.getD_eq_getElem?_getD, List.getElem?_eq_getElem hi, e]; rfl
    have := hstat i (by omega)
    rw [hat] at this
    exact congrArg Row.reachablePaths this
  · change Distinct P.splits
    rw [r.splits_eq]
    exact distinct_of r.inv.splits r.fin.splits_ok X
  · obtain ⟨_, _, _, ⟨σ, hσ⟩, _⟩ := C76_paths h e
    refine ⟨σ, fun l => P.paths.getD l ⟨0, [], [], 0, 0, 0, false⟩, fun l hl => ?_⟩
    obtain ⟨p, h1, h2, h3⟩ := hσ l hl
    have : P.paths.getD l ⟨0, [], [], 0, 0, 0, false⟩ = p := by rw [List.getD_eq_getElem?_getD, h1]; rfl
    simp only [this]
    exact ⟨List.mem_of_getElem? h1, h2, h3⟩
  · rw [htl]; exact hkeys
  · intro i hi
    rw [htl']
    have hi' : i < (encoded y).length := by simpa [encoded, Sk.transform, h.rows] using hi
    rw [List.getD_eq_getElem?_getD, List.getElem?_eq_getElem hi']
    simp only [Option.getD_some, encoded, Sk.transform, List.getElem_map]
    exact List.idxOf_lt_length_of_mem ((Sk.mem_uniqueLabels y _).2 (List.getElem_mem _))
  · rintro rows hrows i hs
    obtain rfl := Option.some.inj hrows
    by_cases hi : i < X.length
    · exact (C45_removed_sp h.depth ht hleaf hfill r.rows hi hs).1 hclock
    · exfalso
      unfold rowAt at hs
      rw [List.getD_eq_default _ _ (by omega)] at hs
      exact absurd hs (by decide)
  · rintro - rows hrows i hi _
    obtain rfl := Option.some.inj hrows
    exact hinv.pos i

end Verif.Exp
