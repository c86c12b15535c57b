import Mathlib.Data.Finset.Card
import Verif.Exp.NodeProps
import Verif.DTree.MasterProps

/-!
# C61: the initial paths
-/

set_option linter.unusedSectionVars false
set_option linter.unusedSimpArgs false

namespace Verif.Exp

open Verif.DTree Verif.DTree.Spec Verif.MP

/-! ## Vocabulary -/

open Classical in
/-- Number of rows with target `t` that follow the path. -/
noncomputable def targetHits (d : ℕ) (splits : List Split) (X : List (List ℚ)) (y : List ℤ) (p : Path) (t : ℤ) : ℕ :=
  ((Finset.range X.length).filter fun r => Follows d (rowLeft splits (X.getD r [])) p ∧ y.getD r 0 = t).card

/-- Cost and target of the path are those of a most frequent target among the rows that follow it. -/
structure Scored (d : ℕ) (splits : List Split) (X : List (List ℚ)) (y : List ℤ) (p : Path) : Prop where
  cost : p.cost = (targetHits d splits X y p p.target : ℚ)
  best : ∀ t, targetHits d splits X y p t ≤ targetHits d splits X y p p.target
  known : p.target ∈ y

/-! ## Scoring -/

theorem rowFollows_ok {splits : List Split} (row : List ℚ) (leaf : Leaf) : ∀ (ps : List (ℕ × ℕ)), (∀ q ∈ ps, q.2 < splits.length) →
    rowFollows splits row leaf.leftNodes ps = .ok (rowLoop row leaf splits ps)
  | [], _ => rfl
  | (n, s) :: ps, h => by
    have hs : s < splits.length := h (n, s) List.mem_cons_self
    have ih := rowFollows_ok row leaf ps fun q hq => h q (List.mem_cons_of_mem _ hq)
    have e : splitAt splits s = splits[s] := by
      unfold splitAt
      rw [List.getD_eq_getElem?_getD, List.getElem?_eq_getElem hs]
      rfl
    rw [rowFollows, rowLoop, List.getElem?_eq_getElem hs]
    simp only [e, ih]
    split_ifs <;> rfl

/-- The number of the first `n` rows with `F` and target `t`. -/
def firstHits (F : ℕ → Bool) (y : List ℤ) (n : ℕ) (t : ℤ) : ℕ := ((List.range n).filter fun r => F r && decide (y.getD r 0 = t)).length

structure ScoreInv (F : ℕ → Bool) (y : List ℤ) (n : ℕ) (s : Score) : Prop where
  counts : ∀ t, s.counts t = firstHits F y n t
  cost : s.cost = firstHits F y n s.target
  best : ∀ t, firstHits F y n t ≤ s.cost
  known : s.target ∈ y

theorem firstHits_succ (F : ℕ → Bool) (y : List ℤ) (n : ℕ) (t : ℤ) :
    firstHits F y (n + 1) t = firstHits F y n t + if F n = true ∧ y.getD n 0 = t then 1 else 0 := by
  unfold firstHits
  rw [List.range_succ, List.filter_append, List.length_append]
  congr 1
  by_cases h : F n = true ∧ y.getD n 0 = t
  · rw [if_pos h]; simp [h.1, ← h.2]
  · rw [if_neg h]
    by_cases h1 : F n = true
    · have : ¬ y.getD n 0 = t := fun h2 => h ⟨h1, h2⟩
      simp [this] 
      simp at this
      exact fun _ => this
    · simp [h1]

theorem scoreLoop_inv {splits : List Split} {X : List (List ℚ)} {y : List ℤ} {path : Path} {left : List ℕ} {F : ℕ → Bool} {N : ℕ}
    (hF : ∀ r < N, rowFollows splits (X.getD r []) left path.pairs = .ok (F r)) (hy : y.length = N) : ∀ (k n : ℕ), n + k = N →
    ∀ s, ScoreInv F y n s → ∃ s', scoreLoop splits X y path left (List.range' n k) s = .ok s' ∧ ScoreInv F y N s'
  | 0, n, hk, s, hs => ⟨s, rfl, by rw [← hk]; exact hs⟩
  | k + 1, n, hk, s, hs => by
    rw [List.range'_succ, scoreLoop, hF n (by omega)]
    cases hb : F n with
    | false =>
      refine scoreLoop_inv hF hy k (n + 1) (by omega) s ?_
      have : ∀ t, firstHits F y (n + 1) t = firstHits F y n t := by intro t; rw [firstHits_succ]; simp [hb]
      exact ⟨fun t => by rw [this]; exact hs.counts t, by rw [this]; exact hs.cost, fun t => by rw [this]; exact hs.best t, hs.known⟩
    | true =>
      refine scoreLoop_inv hF hy k (n + 1) (by omega) _ ?_
      obtain ⟨t0, ht0⟩ : ∃ t0, t0 = y.getD n 0 := ⟨_, rfl⟩
      have hmem : t0 ∈ y := by
        rw [ht0, List.getD_eq_getElem?_getD, List.getElem?_eq_getElem (by omega)]
        exact List.getElem_mem _
      rw [← ht0]
      have hstep : ∀ t, firstHits F y (n + 1) t = firstHits F y n t + if t = t0 then 1 else 0 := by
        intro t
        rw [firstHits_succ, ← ht0]
        simp [hb, eq_comm]
      have hb0 := hs.best t0
      have hc0 := hs.counts t0
      unfold Score.add
      by_cases hgt : s.counts t0 + 1 > s.cost
      · simp only [if_pos hgt]
        refine ⟨?_, ?_, ?_, hmem⟩
        · intro t
          simp only
          rw [hstep]
          split_ifs with h
          · rw [h, hc0]
          · exact hs.counts t
        · rw [hstep]; simp [hc0]
        · intro t
          change _ ≤ s.counts t0 + 1
          rw [hstep]
          have := hs.best t
          split_ifs <;> omega
      · simp only [if_neg hgt]
        have hne : s.target ≠ t0 := by
          intro e
          have := hs.cost
          rw [e] at this
          omega
        refine ⟨?_, ?_, ?_, hs.known⟩
        · intro t
          simp only
          rw [hstep]
          split_ifs with h
          · rw [h, hc0]
          · exact hs.counts t
        · rw [hstep, if_neg hne]; exact hs.cost
        · intro t
          change _ ≤ s.cost
          rw [hstep]
          have := hs.best t
          split_ifs with h
          · rw [h]; omega
          · omega

theorem firstHits_eq (d : ℕ) {p : Path} (hp : WFPath d p) (splits : List Split) (X : List (List ℚ)) (y : List ℤ) (t : ℤ) :
    firstHits (fun r => rowLoop (X.getD r []) (createLeaf p.leafId d) splits p.pairs) y X.length t = targetHits d splits X y p t := by
  classical
  unfold firstHits targetHits
  have hnd : ((List.range X.length).filter fun r => rowLoop (X.getD r []) (createLeaf p.leafId d) splits p.pairs && decide (y.getD r 0 = t)).Nodup :=
    List.nodup_range.filter _
  rw [← List.toFinset_card_of_nodup hnd]
  congr 1
  ext r
  have := rowSatisfiesPath_iff hp splits (X.getD r [])
  rw [leafAt_full hp.leaf_lt, rowSatisfiesPath] at this
  simp only [List.mem_toFinset, List.mem_filter, List.mem_range, Finset.mem_filter, Finset.mem_range, Bool.and_eq_true, decide_eq_true_eq, this]

/-- Cost, target, id and mark are not part of the shape of a path. -/
theorem targetHits_congr (d : ℕ) (splits : List Split) (X : List (List ℚ)) (y : List ℤ) {p p' : Path} (h1 : p.leafId = p'.leafId)
    (h2 : p.pairs = p'.pairs) (t : ℤ) : targetHits d splits X y p t = targetHits d splits X y p' t := by
  unfold targetHits Follows
  rw [h1, h2]

theorem scorePath_ok {d : ℕ} {splits : List Split} {X : List (List ℚ)} {y : List ℤ} (hy : y.length = X.length) (hne : y ≠ []) {p : Path}
    (hp : GoodPath d splits p) : ∃ (cost : ℚ) (target : ℤ), scorePath splits X y p (createLeaf p.leafId d).leftNodes = .ok { p with
        cost := cost
        target := target } ∧ Scored d splits X y { p with
        cost := cost
        target := target } := by
  have hlt : ∀ q ∈ p.pairs, q.2 < splits.length := by
    intro q hq
    exact hp.2 q.2 (List.of_mem_zip (show (q.1, q.2) ∈ _ from hq)).2
  obtain ⟨y0, ys, rfl⟩ : ∃ y0 ys, y = y0 :: ys := by
    cases y with
    | nil => exact absurd rfl hne
    | cons a l => exact ⟨a, l, rfl⟩
  have hF : ∀ r < X.length, rowFollows splits (X.getD r []) (createLeaf p.leafId d).leftNodes p.pairs =
      .ok (rowLoop (X.getD r []) (createLeaf p.leafId d) splits p.pairs) := fun r _ => rowFollows_ok _ _ _ hlt
  obtain ⟨s', h1, h2⟩ := scoreLoop_inv (path := p) hF hy X.length 0 (by omega) ⟨fun _ => 0, 0, y0⟩
    ⟨fun t => by simp [firstHits], by simp [firstHits], fun t => by simp [firstHits], List.mem_cons_self⟩
  refine ⟨s'.cost, s'.target, ?_, ?_⟩
  · unfold scorePath
    simp only [List.range_eq_range', h1]
  · have hh : ∀ t, targetHits d splits X (y0 :: ys) { p with
        cost := (s'.cost : ℚ)
        target := s'.target } t = firstHits (fun r => rowLoop (X.getD r []) (createLeaf p.leafId d) splits p.pairs) (y0 :: ys) X.length t := by
      intro t
      rw [firstHits_eq d hp.1]
      exact targetHits_congr _ _ _ _ rfl rfl _
    refine ⟨?_, ?_, h2.known⟩
    · rw [hh]; simp only; rw [h2.cost]
    · intro t
      rw [hh, hh]
      simp only
      rw [← h2.cost]
      exact h2.best t

/-! ## The paths of the leaves -/

theorem leaf_nodes {d l : ℕ} (hl : l < 2 ^ d) : fathers (2 ^ d - 1 + l) (2 ^ d - 1 + l) = (List.range d).reverse.map (anc d l) := by
  have := fathers_eq hl d le_rfl (2 ^ d - 1 + l)
  rw [anc_self] at this
  exact this le_rfl

/-- The split that node `n` was given last. -/
def lastOf (nodes : List Node) (n : ℕ) : ℕ := (nodeAt nodes n).lastSplit.toNat

theorem leafPath_ok {d : ℕ} {nodes : List Node} {splits : List Split} {X : List (List ℚ)} {y : List ℤ} (hn : nodes.length = 2 ^ d - 1)
    (hs : ∀ n < 2 ^ d - 1, lastOf nodes n < splits.length) (hy : y.length = X.length) (hne : y ≠ []) {l : ℕ} (hl : l < 2 ^ d) :
    ∃ p, leafPath nodes d splits X y l = .ok p ∧ p.id = l ∧ p.leafId = l ∧ GoodPath d splits p ∧ (∀ q ∈ p.pairs, q.2 = lastOf nodes q.1) ∧
      Scored d splits X y p ∧ p.initial = false := by
  obtain ⟨ns, hns⟩ : ∃ ns, ns = (List.range d).reverse.map (anc d l) := ⟨_, rfl⟩
  have hlt : ∀ n ∈ ns, n < 2 ^ d - 1 := by
    intro n h
    rw [hns] at h
    simp only [List.mem_map, List.mem_reverse, List.mem_range] at h
    obtain ⟨k, hk, rfl⟩ := h
    exact anc_lt hl hk
  have hgood : GoodPath d splits ⟨l, ns, ns.map fun n => (nodeAt nodes n).lastSplit.toNat, 0, l, 0, false⟩ := by
    refine ⟨⟨hl, ?_, ?_⟩, ?_⟩
    · simp only [hns]
      exact (List.reverse_perm _).map _
    · simp [hns]
    · intro t ht
      simp only [List.mem_map] at ht
      obtain ⟨n, hn, rfl⟩ := ht
      exact hs n (hlt n hn)
  obtain ⟨cost, target, h1, h2⟩ := scorePath_ok (X := X) hy hne hgood
  refine ⟨_, ?_, ?_, ?_, ?_, ?_, h2, ?_⟩
  · unfold leafPath
    simp only [leaf_nodes hl, ← hns]
    refine (if_pos ?_).trans h1
    simp only [List.all_eq_true, decide_eq_true_eq, hn]
    exact hlt
  · rfl
  · rfl
  · exact ⟨⟨hgood.1.leaf_lt, hgood.1.nodes, hgood.1.splits⟩, hgood.2⟩
  · intro q hq
    have : q ∈ ns.zip (ns.map fun n => (nodeAt nodes n).lastSplit.toNat) := hq
    rw [List.zip_map_right, List.mem_map] at this
    obtain ⟨a, ha, rfl⟩ := this
    have h3 : a.1 = a.2 := by
      have h4 : ∀ (l : List ℕ) (a : ℕ × ℕ), a ∈ l.zip l → a.1 = a.2 := by
        intro l a h
        induction l with
        | nil => simp at h
        | cons b l ih => rcases List.mem_cons.1 h with rfl | h
                         · rfl
                         · exact ih h
      exact h4 _ _ ha
    simp only [Prod.map, lastOf, h3, id]
  · rfl

/-- **C61.** If every node has a last split, `get_all_leaves_paths` returns all leaves and one path per leaf, in order: the path has the nodes on the
way to its leaf, each with the last split of the node, so the paths agree on every node; its target is a most frequent one among the rows that
follow it and its cost the number of these rows. -/
theorem C61_initial_paths {d : ℕ} {nodes : List Node} {splits : List Split} {X : List (List ℚ)} {y : List ℤ} (hn : nodes.length = 2 ^ d - 1)
    (hs : ∀ n < 2 ^ d - 1, lastOf nodes n < splits.length) (hy : y.length = X.length) (hne : y ≠ []) :
    ∃ paths, getAllLeavesPaths nodes d splits X y = .ok (fullLeaves d, paths) ∧ paths.length = 2 ^ d ∧
      ∀ l < 2 ^ d, ∃ p, paths[l]? = some p ∧ p.id = l ∧ p.leafId = l ∧ GoodPath d splits p ∧ (∀ q ∈ p.pairs, q.2 = lastOf nodes q.1) ∧
        Scored d splits X y p ∧ p.initial = false := by
  obtain ⟨paths, h1, h2, h3⟩ := mapM_ok (f := leafPath nodes d splits X y) (R := fun l p => p.id = l ∧ p.leafId = l ∧ GoodPath d splits p ∧
    (∀ q ∈ p.pairs, q.2 = lastOf nodes q.1) ∧ Scored d splits X y p ∧ p.initial = false) (List.range (2 ^ d))
    fun l hl => leafPath_ok hn hs hy hne (List.mem_range.1 hl)
  refine ⟨paths, ?_, by simpa using h2, ?_⟩
  · unfold getAllLeavesPaths
    rw [h1]
    rfl
  · intro l hl
    exact h3 l l (List.getElem?_range hl)

/-- **C61, master problem.** The master problem generated from these paths is feasible with all of them chosen. -/
theorem C61_feasible {d : ℕ} {nodes : List Node} {splits : List Split} {X : List (List ℚ)} {y : List ℤ} (hn : nodes.length = 2 ^ d - 1)
    (hs : ∀ n < 2 ^ d - 1, lastOf nodes n < splits.length) (hy : y.length = X.length) (hne : y ≠ []) {paths : List Path} {leaves : List Leaf}
    (hr : getAllLeavesPaths nodes d splits X y = .ok (leaves, paths)) {c : Conf} {splits' : List Split} {rows : Option (List Row)}
    (hset : Setup d c splits' rows) (hlen : splits'.length = splits.length) {s : MS}
    (hgen : generateMp c (MS.init (paths.map fun p => { p with initial := true }) splits' rows) = (.ok (), s)) :
    s.paths.length = 2 ^ d ∧ ∃ a, s.m.Feasible a ∧ ∀ p ∈ s.paths, a p.id = 1 := by
  obtain ⟨paths', g1, g2, g3⟩ := C61_initial_paths (X := X) hn hs hy hne
  rw [hr] at g1
  obtain ⟨rfl, rfl⟩ : leaves = fullLeaves d ∧ paths = paths' := by
    simp only [Except.ok.injEq, Prod.mk.injEq] at g1
    exact g1
  have hget : ∀ p ∈ paths, p.leafId < 2 ^ d ∧ paths[p.leafId]? = some p ∧ GoodPath d splits p ∧ ∀ q ∈ p.pairs, q.2 = lastOf nodes q.1 := by
    intro p hp
    obtain ⟨l, hl, e⟩ := List.mem_iff_getElem.1 hp
    obtain ⟨p', h1, h2, h3, h4, h5, _⟩ := g3 l (by omega)
    rw [List.getElem?_eq_getElem hl, e] at h1
    obtain rfl := Option.some.inj h1
    exact ⟨by omega, by rw [h3, List.getElem?_eq_getElem hl, e], h4, h5⟩
  have hgood : ∀ p ∈ paths.map (fun p => ({ p with initial := true } : Path)), GoodPath d splits' p := by
    intro p hp
    obtain ⟨p0, h0, rfl⟩ := List.mem_map.1 hp
    obtain ⟨_, _, h, _⟩ := hget p0 h0
    exact ⟨⟨h.1.leaf_lt, h.1.nodes, h.1.splits⟩, by rw [hlen]; exact h.2⟩
  let o : Oracle := ⟨fun _ _ => noAnswer, fun _ _ => [], fun _ => noAnswer⟩
  have ho : CutSound o := by intro cp k a ha; exact absurd ha (by simp [o])
  have hre : Reached d c o (paths.map fun p => { p with initial := true }) splits' rows s := .generate hgen
  have hpaths := ((C40_paths_and_rows hset hgood ho).1 _ hgen).1
  have hall : ∀ p ∈ s.paths, p.leafId < 2 ^ d ∧ s.paths[p.leafId]? = some p ∧ ∀ q ∈ p.pairs, q.2 = lastOf nodes q.1 := by
    intro p hp
    rw [hpaths] at hp ⊢
    obtain ⟨i, hi, e⟩ := List.mem_iff_getElem.1 hp
    simp only [List.getElem_mapIdx, List.getElem_map] at e
    obtain ⟨h1, h2, _, h3⟩ := hget _ (List.getElem_mem (by simpa using hi : i < paths.length))
    have hlid : p.leafId = (paths[i]'(by simpa using hi)).leafId := by rw [← e]
    have hi' : i < paths.length := by simpa using hi
    have hidx : paths[i].leafId = i := by
      obtain ⟨p', k1, k2, k3, _⟩ := g3 i (by omega)
      rw [List.getElem?_eq_getElem hi'] at k1
      rw [Option.some.inj k1]; exact k3
    refine ⟨by rw [hlid]; exact h1, ?_, ?_⟩
    · rw [hlid, hidx, List.getElem?_eq_getElem hi]
      simp only [List.getElem_mapIdx, List.getElem_map, e]
    · rw [← e]; exact h3
  have hslen : s.paths.length = 2 ^ d := by rw [hpaths]; simpa using g2
  refine ⟨hslen, ?_⟩
  obtain ⟨a, ha, hsel⟩ := C42_trees_stay_feasible hset hgood ho hre (lastOf nodes) (fun l => s.paths.getD l ⟨0, [], [], 0, 0, 0, false⟩) (by
    intro l hl
    have e : s.paths.getD l ⟨0, [], [], 0, 0, 0, false⟩ = s.paths[l]'(by omega) := by
      rw [List.getD_eq_getElem?_getD, List.getElem?_eq_getElem]; rfl
    have hm : s.paths[l]'(by omega) ∈ s.paths := List.getElem_mem _
    obtain ⟨h1, h2, h3⟩ := hall _ hm
    refine ⟨by rw [e]; exact hm, ?_, by rw [e]; exact h3⟩
    rw [e]
    have : (s.paths[l]'(by omega)).leafId = l := by
      have hi' : l < paths.length := by omega
      obtain ⟨p', k1, k2, k3, _⟩ := g3 l hl
      rw [List.getElem?_eq_getElem hi'] at k1
      have := Option.some.inj k1
      simp only [hpaths, List.getElem_mapIdx, List.getElem_map]
      rw [this]; exact k3
    exact this)
  refine ⟨a, ha, ?_⟩
  intro p hp
  refine (hsel p hp).1 ?_
  rw [List.getD_eq_getElem?_getD, (hall p hp).2.1]
  rfl

/-! ## A concrete case -/

namespace Demo

def pathSplits : List Split := [⟨0, 0, 1, false, [], [], [], []⟩, ⟨1, 0, 2, false, [], [], [], []⟩]

/-- Depth 2: the root asks `x ≤ 1`, both children `x ≤ 2`. -/
def pathNodes : List Node := [⟨0, [0], [1], 0, -1, 0, 0, false⟩, ⟨1, [1], [1], 1, -1, 0, 0, false⟩, ⟨2, [1, 0], [1, 1], 1, -1, 0, 0, false⟩]

def pathX : List (List ℚ) := [[0], [1], [3 / 2], [5], [6], [7]]

def pathY : List ℤ := [1, 1, 0, 2, 0, 2]

/-- The hypotheses of `C61_initial_paths` hold. No row reaches leaf 1, whose target is the first label; in leaf 3 two of three rows have
label 2. -/
example : pathNodes.length = 2 ^ 2 - 1 ∧ (∀ n < 2 ^ 2 - 1, Exp.lastOf pathNodes n < pathSplits.length) ∧ pathY.length = pathX.length ∧ pathY ≠ [] ∧
    (getAllLeavesPaths pathNodes 2 pathSplits pathX pathY).toOption.map (fun r => r.2.map fun p => (p.leafId, p.pairs, p.cost, p.target)) =
      some [(0, [(1, 1), (0, 0)], 2, 1), (1, [(1, 1), (0, 0)], 0, 1), (2, [(2, 1), (0, 0)], 1, 0), (3, [(2, 1), (0, 0)], 2, 2)] := by
  refine ⟨rfl, by decide +kernel, rfl, by decide, by decide +kernel⟩

def pathConf : Conf := ⟨fullLeaves 2, pathNodes, pathX, true, false, 10⟩

def pathMs (paths : List Path) : Except Err Unit × MS :=
  generateMp pathConf (MS.init (paths.map fun p => { p with initial := true }) (addRowsToSplits pathSplits pathX) none)

theorem two : ∀ (i m : ℕ), [0, 1][i]? = some m → m = i
  | 0, _, h => by simpa using h.symm
  | 1, _, h => by simpa using h.symm
  | k + 2, _, h => by simp at h

theorem pathThree : ∀ (i m : ℕ), [0, 1, 2][i]? = some m → m = i
  | 0, _, h => by simpa using h.symm
  | 1, _, h => by simpa using h.symm
  | 2, _, h => by simpa using h.symm
  | k + 3, _, h => by simp at h

theorem pathSetup : Setup 2 pathConf (addRowsToSplits pathSplits pathX) none where
  depth := by decide
  tree :=
    { leaves := rfl
      nodes_length := rfl
      node_id := by
        have hm : pathNodes.map (·.id) = [0, 1, 2] := by decide +kernel
        intro i n h
        have h' : (pathNodes.map (·.id))[i]? = some n.id := by rw [List.getElem?_map]; exact congrArg _ h
        rw [hm] at h'
        exact pathThree i _ h'
      split_id := by
        have hm : (addRowsToSplits pathSplits pathX).map (·.id) = [0, 1] := by decide +kernel
        intro i n h
        have h' : ((addRowsToSplits pathSplits pathX).map (·.id))[i]? = some n.id := by rw [List.getElem?_map, h]; rfl
        rw [hm] at h'
        exact two i _ h'
      cand_lt := by decide +kernel
      cand_nodup := by decide +kernel }
  filled := (C39_add_rows pathSplits pathX (by decide)).1
  no_cuts := by decide +kernel
  rows := by intro rows h; exact absurd h (by simp)

/-- The hypotheses of `C61_feasible` hold for the master problem built from these paths. -/
example : ∃ leaves paths s, getAllLeavesPaths pathNodes 2 pathSplits pathX pathY = .ok (leaves, paths) ∧
    Setup 2 pathConf (addRowsToSplits pathSplits pathX) none ∧ (addRowsToSplits pathSplits pathX).length = pathSplits.length ∧
    pathMs paths = (.ok (), s) ∧ s.paths.length = 4 := by
  obtain ⟨paths, h, _⟩ := C61_initial_paths (d := 2) (nodes := pathNodes) (splits := pathSplits) (X := pathX) (y := pathY) rfl
    (by decide +kernel) rfl (by decide)
  have hp : paths = [⟨0, [1, 0], [1, 0], 2, 0, 1, false⟩, ⟨1, [1, 0], [1, 0], 0, 1, 1, false⟩, ⟨2, [2, 0], [1, 0], 1, 2, 0, false⟩,
      ⟨3, [2, 0], [1, 0], 2, 3, 2, false⟩] := by
    have : (getAllLeavesPaths pathNodes 2 pathSplits pathX pathY).toOption.map Prod.snd = some
        [⟨0, [1, 0], [1, 0], 2, 0, 1, false⟩, ⟨1, [1, 0], [1, 0], 0, 1, 1, false⟩, ⟨2, [2, 0], [1, 0], 1, 2, 0, false⟩,
          ⟨3, [2, 0], [1, 0], 2, 3, 2, false⟩] := by decide +kernel
    rw [h] at this
    simpa [Except.toOption] using this
  have hok : (pathMs paths).1.toOption = some () := by rw [hp]; decide +kernel
  have hlen : (pathMs paths).2.paths.length = 4 := by rw [hp]; decide +kernel
  refine ⟨_, paths, (pathMs paths).2, h, pathSetup, rfl, ?_, hlen⟩
  refine Prod.ext ?_ rfl
  cases he : (pathMs paths).1 with
  | ok u => rfl
  | error e => rw [he] at hok; exact absurd hok (by simp [Except.toOption])

end Demo

end Verif.Exp
