import Verif.DTree.HeurProps
import Verif.DTree.FloatPrice

/-!
# The random pricing heuristic of the tree classifier with rounded arithmetic (C120)

`Verif.DTree.Heur` computes `get_reduced_cost` with exact numbers. Python uses floats: every subtraction is rounded (`Fl.Rounding`; `Fl.binary64`
is the one of Python), so that the order in which the set of satisfied cuts is listed matters.
-/

set_option linter.unusedSectionVars false
set_option linter.unusedSimpArgs false

namespace Verif.DTree

open MP Spec Fl

/-! ## The model -/

/-- Subtracting `duals[i]` for all `i` in a list, every result rounded; `IndexError` outside the list. -/
def subtractAllR (rnd : ℚ → ℚ) (duals : List ℚ) : List ℕ → ℚ → Except Err ℚ
  | [], acc => .ok acc
  | i :: is, acc =>
    match duals[i]? with
    | none => .error .indexError
    | some x => subtractAllR rnd duals is (rnd (acc - x))

/-- The loop over the nodes of the path, `_dtree_classifier.py:2063-2066`, every result rounded. -/
def subtractNsR (rnd : ℚ → ℚ) (ns : ℕ → ℕ → Option ℚ) : List (ℕ × ℕ) → ℚ → Except Err ℚ
  | [], acc => .ok acc
  | q :: qs, acc =>
    match ns q.1 q.2 with
    | none => .error .keyError
    | some x => subtractNsR rnd ns qs (rnd (acc - x))

/-- `get_reduced_cost`, `_dtree_classifier.py:2036-2068`. `path.cost` is an integer, which Python converts to a float before it is added. A missing
leaf dual is caught: nothing is subtracted, which is the same as subtracting 0. `order` lists the elements of the set of satisfied cuts. -/
def HConf.reducedCostR (rnd : ℚ → ℚ) (order : List ℕ → List ℕ) (c : HConf) (splits : List Split) (D : Duals) (path : Path) (satisfied : List ℕ) :
    Except Err ℚ :=
  match subtractAllR rnd D.row ((List.range c.X.length).filter (fun r => r ∈ satisfied))
      (rnd (rnd (0 - D.leaf.getD path.leafId 0) + rnd path.cost)) with
  | .error e => .error e
  | .ok x =>
    match getSatisfiedCuts path (leafAt c.leaves path.leafId) splits with
    | .error e => .error e
    | .ok cs =>
      match subtractAllR rnd D.cut (order cs.dedup) x with
      | .error e => .error e
      | .ok x => subtractNsR rnd (D.ns path.leafId) path.pairs x

/-- One round of the loop, `_dtree_classifier.py:1944-2018`, with the function that evaluates the reduced cost and the limit as arguments. -/
def HConf.roundOf (c : HConf) (splits : List Split) (dr : Draws) (rc : Path → List ℕ → Except Err ℚ) (lim : ℚ) (i : ℕ) (gen : List Path) :
    Except Err (Option Path) :=
  if c.leaves.isEmpty then .error .indexError
  else
    let leaf := leafAt c.leaves (dr.choice i 0 % c.leaves.length)
    let nodeIds := leaf.leftNodes ++ leaf.rightNodes
    match pickSplits c.nodes (dr.choice i) 1 nodeIds [] with
    | none => .ok none
    | some sp =>
      let path : Path := ⟨leaf.id, nodeIds, sp, 0, 0, -1, false⟩
      match getSatisfiedRows path leaf splits with
      | .error e => .error e
      | .ok rows =>
        let b := c.bestTarget (dr.order rows.dedup)
        let path := { path with
          target := b.target
          cost := (b.count : ℚ) }
        if gen.any (fun old => path.isSameAs old) then .ok none
        else
          match rc path rows with
          | .error e => .error e
          | .ok x => if x > lim then .ok (some path) else .ok none

/-- The rounds with the given numbers, as in `HConf.rounds`. -/
def HConf.roundsOf (c : HConf) (splits : List Split) (dr : Draws) (rc : Path → List ℕ → Except Err ℚ) (lim : ℚ) :
    List ℕ → List Path → ℕ → Except Err (List Path) × ℕ
  | [], gen, failed => (.ok gen, failed)
  | i :: is, gen, failed =>
    match c.roundOf splits dr rc lim i gen with
    | .error e => (.error e, failed)
    | .ok none => c.roundsOf splits dr rc lim is gen (failed + 1)
    | .ok (some p) => c.roundsOf splits dr rc lim is (gen ++ [p]) failed

/-- `generate_columns`, `_dtree_classifier.py:1937-2022`, with rounded reduced costs. The literal `1e-6` is the rounded number. The counts of
the targets are sums of integers, which are exact. -/
def HConf.generateR (rnd : ℚ → ℚ) (c : HConf) (D : Duals) (dr : Draws) (st : HeurSt) : Except Err (List Path) × HeurSt :=
  match c.roundsOf st.splits dr (c.reducedCostR rnd dr.order st.splits D) (rnd (1 / 1000000)) (List.range 100) [] st.failed with
  | (.error e, f) => (.error e, { st with failed := f })
  | (.ok ps, f) =>
    (.ok ps, { st with
      failed := f
      success := st.success + ps.length })

/-! ## What is claimed -/

open Classical in
/-- The sum of the absolute values of all numbers that enter the reduced cost of a path. -/
noncomputable def Spec.pathMagnitude (d : ℕ) (X : List (List ℚ)) (splits : List Split) (cuts : List (List Bool)) (D : Duals) (p : Path) : ℚ :=
  |p.cost| + |D.leaf.getD p.leafId 0| +
    ((List.range X.length).map (fun r => if Follows d (rowLeft splits (X.getD r [])) p then |D.row.getD r 0| else 0)).sum +
    cutSum cuts.length (fun k => Follows d (cutPat cuts k) p) (fun k => |D.cut.getD k 0|) +
    (p.pairs.map (fun q => |(D.ns p.leafId q.1 q.2).getD 0|)).sum

/-- What is claimed about a path returned by the heuristic, when its reduced cost is only known up to `ε`. -/
structure Spec.HeurPathUpTo (d : ℕ) (c : HConf) (splits : List Split) (cuts : List (List Bool)) (D : Duals) (ε : Path → ℚ) (p : Path) : Prop where
  wf : WFPath d p
  cand : UsesCand c.nodes p
  different : p.splits.Nodup
  cost : p.cost = hHits d c splits p p.target
  best : ∀ t, hHits d c splits p t ≤ hHits d c splits p p.target
  target : (p.target = -1 ∧ p.cost = 0) ∨ ∃ r < c.X.length, HKept c r ∧ Follows d (rowLeft splits (c.X.getD r [])) p ∧
    p.target = (c.y.getD r 0 : ℕ)
  improving : colRed d c.X splits cuts D p > 1 / 1000000 - ε p
  new : p.initial = false

/-- The error of the comparison of the reduced cost of a path with `1e-6`. -/
noncomputable def Spec.heurSlack (u η : ℚ) (d : ℕ) (c : HConf) (splits : List Split) (cuts : List (List Bool)) (D : Duals) (p : Path) : ℚ :=
  evalSlack u η (c.X.length + cuts.length + d + 1) (pathMagnitude d c.X splits cuts D p)

/-- The total weight of the rows. -/
def Spec.totalWeight (c : HConf) : ℕ := ((List.range c.X.length).map (hWeight c)).sum

/-! ## The rounds -/

/-- What a round draws: nothing, or a path with its rows; only the last test depends on the reduced costs and the paths found before. -/
theorem roundOf_draw {d : ℕ} {c : HConf} {splits : List Split} {cuts : List (List Bool)} {D : Duals} (h : HeurOk d c splits cuts D) {dr : Draws}
    (hd : Spec.Draws.Ok dr) (i : ℕ) :
    (∀ rc lim gen, c.roundOf splits dr rc lim i gen = .ok none) ∨
    ∃ p rows, WFPath d p ∧ UsesCand c.nodes p ∧ p.splits.Nodup ∧ p.cost = hHits d c splits p p.target ∧
      (∀ t, hHits d c splits p t ≤ hHits d c splits p p.target) ∧
      ((p.target = -1 ∧ p.cost = 0) ∨ ∃ r < c.X.length, HKept c r ∧ Follows d (rowLeft splits (c.X.getD r [])) p ∧ p.target = (c.y.getD r 0 : ℕ)) ∧
      p.initial = false ∧ (∀ r, r ∈ rows ↔ r < c.X.length ∧ Follows d (rowLeft splits (c.X.getD r [])) p) ∧
      ∀ rc lim gen, c.roundOf splits dr rc lim i gen =
        if gen.any (fun old => p.isSameAs old) then .ok none
        else
          match rc p rows with
          | .error e => .error e
          | .ok x => if x > lim then .ok (some p) else .ok none := by
  have hlen : c.leaves.length = 2 ^ d := by rw [h.tree.leaves]; simp [fullLeaves]
  have hne : c.leaves.isEmpty = false := by
    rw [List.isEmpty_eq_false_iff]
    intro he
    rw [he] at hlen
    have := Nat.two_pow_pos d
    simp at hlen
    omega
  have hne' : ¬ c.leaves.isEmpty = true := by rw [hne]; simp
  simp only [HConf.roundOf, if_neg hne']
  obtain ⟨l, hl⟩ : ∃ l, l = dr.choice i 0 % c.leaves.length := ⟨_, rfl⟩
  have hlt : l < 2 ^ d := by rw [hl, hlen]; exact Nat.mod_lt _ (Nat.two_pow_pos d)
  simp only [← hl, tree_leaf h.tree hlt]
  rcases hpick : pickSplits c.nodes (dr.choice i) 1 ((createLeaf l d).leftNodes ++ (createLeaf l d).rightNodes) [] with _ | sp
  · exact Or.inl (fun _ _ _ => rfl)
  right
  simp only
  obtain ⟨hnd, new, hspn, hln, hcand⟩ := pickSplits_spec c.nodes _ h.tree.cand_nodup _ _ _ _ hpick List.nodup_nil
  rw [List.nil_append] at hspn
  rw [← hspn] at hln hcand
  have hid : (createLeaf l d).id = l := rfl
  rw [hid]
  have hperm := leafNodes_perm' hlt
  have hwf : ∀ cost t, WFPath d ⟨l, (createLeaf l d).leftNodes ++ (createLeaf l d).rightNodes, sp, cost, 0, t, false⟩ := by
    intro cost t
    refine ⟨hlt, hperm, ?_⟩
    simp only
    rw [hln, hperm.length_eq]
    simp
  have hcs : ∀ cost t, UsesCand c.nodes ⟨l, (createLeaf l d).leftNodes ++ (createLeaf l d).rightNodes, sp, cost, 0, t, false⟩ :=
    fun cost t q hq => hcand q hq
  obtain ⟨p0, hp0⟩ : ∃ p0 : Path, p0 = ⟨l, (createLeaf l d).leftNodes ++ (createLeaf l d).rightNodes, sp, 0, 0, -1, false⟩ := ⟨_, rfl⟩
  have hw0 : WFPath d p0 := by rw [hp0]; exact hwf _ _
  have hc0 : UsesCand c.nodes p0 := by rw [hp0]; exact hcs _ _
  have hsp0 : p0.splits = sp := by rw [hp0]
  have hl0 : p0.leafId = l := by rw [hp0]
  rw [← hp0]
  have hs : ∀ s ∈ p0.splits, s < splits.length := by
    intro s hs
    have : s ∈ p0.pairs.map Prod.snd := by
      unfold Path.pairs
      rw [List.map_snd_zip (by rw [hw0.splits, hw0.nodes.length_eq]; simp)]
      exact hs
    obtain ⟨q, hq, rfl⟩ := List.mem_map.1 this
    exact cand_lt_of_tree h.tree _ _ (hc0 q hq)
  have hpne : p0.pairs ≠ [] := by
    obtain ⟨t, ht⟩ := hw0.exists_split h.depth
    exact List.ne_nil_of_mem ht
  obtain ⟨rows, hrows, hrm⟩ := (C39_satisfied_rows h.filled (createLeaf l d) p0 hs).2 hpne
  rw [hrows]
  simp only
  have hrm' : ∀ r, r ∈ rows ↔ r < c.X.length ∧ Follows d (rowLeft splits (c.X.getD r [])) p0 := by
    intro r
    rw [hrm]
    have := rowSatisfiesPath_iff hw0 splits (c.X.getD r [])
    rw [hl0, leafAt_full hlt] at this
    exact and_congr_right (fun _ => this)
  obtain ⟨b, hb⟩ : ∃ b, b = c.bestTarget (dr.order rows.dedup) := ⟨_, rfl⟩
  rw [← hb]
  obtain ⟨b1, b2⟩ := bestTarget_spec c (dr.order rows.dedup)
  rw [← hb] at b1 b2
  obtain ⟨p, hp⟩ : ∃ p : Path, p = { p0 with target := b.target, cost := (b.count : ℚ) } := ⟨_, rfl⟩
  have hpe : p = ⟨l, (createLeaf l d).leftNodes ++ (createLeaf l d).rightNodes, sp, (b.count : ℚ), 0, b.target, false⟩ := by rw [hp, hp0]
  rw [← hpe]
  have hfol : ∀ left, Follows d left p ↔ Follows d left p0 := by intro left; rw [hp]; exact Iff.rfl
  have hwp : WFPath d p := by rw [hp]; exact ⟨hw0.leaf_lt, hw0.nodes, hw0.splits⟩
  have hcp : UsesCand c.nodes p := by rw [hp]; exact hc0
  have hcnt : ∀ t, c.cnt (dr.order rows.dedup) t = hHits d c splits p t := by
    intro t
    refine cnt_eq c splits p ((hd _).nodup_iff.2 (List.nodup_dedup _)) ?_ t
    intro r
    rw [(hd _).mem_iff, List.mem_dedup, hrm', hfol]
  have hrm2 : ∀ r, r ∈ rows ↔ r < c.X.length ∧ Follows d (rowLeft splits (c.X.getD r [])) p := by
    intro r; rw [hrm', hfol]
  have hpcost : p.cost = hHits d c splits p p.target := by
    have hpt : p.target = b.target := by rw [hp]
    have hpc : p.cost = (b.count : ℚ) := by rw [hp]
    rw [hpc, hpt]
    rcases b2 with ⟨h1, h2⟩ | ⟨t, h1, h2, _⟩
    · rw [h1, h2, hHits_neg c splits p (by norm_num)]
    · rw [h1, h2, hcnt]
  have hpt : p.target = b.target := by rw [hp]
  have hpc : p.cost = (b.count : ℚ) := by rw [hp]
  refine ⟨p, rows, hwp, hcp, by rw [hp]; show p0.splits.Nodup; rw [hsp0]; exact hnd, hpcost, ?_, ?_, by rw [hp, hp0], hrm2, ?_⟩
  · intro t
    have hle : hHits d c splits p t ≤ b.count := by
      rcases lt_or_ge t 0 with ht | ht
      · rw [hHits_neg c splits p ht]; exact Nat.zero_le _
      · have := b1 t.toNat
        rw [hcnt, Int.toNat_of_nonneg ht] at this
        exact this
    rw [hpt]
    rcases b2 with ⟨h1, h2⟩ | ⟨t', h1, h2, _⟩
    · rw [h1, hHits_neg c splits p (show (-1 : ℤ) < 0 by norm_num)]; omega
    · rw [h1, ← hcnt, ← h2]; exact hle
  · rw [hpt, hpc]
    rcases b2 with ⟨h1, h2⟩ | ⟨t, h1, h2, h3⟩
    · exact Or.inl ⟨h1, by rw [h2]; simp⟩
    · right
      have hpos : ∃ r ∈ dr.order rows.dedup, (if c.removed r = false ∧ c.y.getD r 0 = t then c.weight r else 0) ≠ 0 := by
        by_contra hcon
        push Not at hcon
        unfold HConf.cnt at h3
        rw [List.sum_eq_zero] at h3
        · omega
        · intro x hx
          obtain ⟨r, hr, rfl⟩ := List.mem_map.1 hx
          exact hcon r hr
      obtain ⟨r, hr, hne⟩ := hpos
      rw [(hd _).mem_iff, List.mem_dedup, hrm2] at hr
      by_cases hcc : c.removed r = false ∧ c.y.getD r 0 = t
      · exact ⟨r, hr.1, (removed_iff c r).1 hcc.1, hr.2, by rw [h1, hcc.2]⟩
      · rw [if_neg hcc] at hne; exact absurd rfl hne
  · intro rc lim gen
    rfl

theorem roundOf_spec {d : ℕ} {c : HConf} {splits : List Split} {cuts : List (List Bool)} {D : Duals} (h : HeurOk d c splits cuts D) {dr : Draws}
    (hd : Spec.Draws.Ok dr) {rc : Path → List ℕ → Except Err ℚ} {lim : ℚ} {ε : Path → ℚ}
    (hrc : ∀ p rows, WFPath d p → UsesCand c.nodes p → (∃ t, p.cost = hHits d c splits p t) →
      (∀ r, r ∈ rows ↔ r < c.X.length ∧ Follows d (rowLeft splits (c.X.getD r [])) p) →
      ∃ x, rc p rows = .ok x ∧ (x > lim → colRed d c.X splits cuts D p > 1 / 1000000 - ε p))
    (i : ℕ) (gen : List Path) (hgen : ∀ p ∈ gen, HeurPathUpTo d c splits cuts D ε p) :
    ∃ r, c.roundOf splits dr rc lim i gen = .ok r ∧ ∀ p, r = some p → HeurPathUpTo d c splits cuts D ε p ∧ ∀ q ∈ gen, ¬ SamePath p q := by
  rcases roundOf_draw h hd i with hn | ⟨p, rows, hwp, hcp, hnd, hpcost, hbest, htar, hini, hrm, he⟩
  · exact ⟨none, hn _ _ _, by simp⟩
  rw [he]
  by_cases hsame : gen.any (fun old => p.isSameAs old) = true
  · rw [if_pos hsame]; exact ⟨none, rfl, by simp⟩
  obtain ⟨x, hx, hgood⟩ := hrc p rows hwp hcp ⟨_, hpcost⟩ hrm
  rw [if_neg hsame, hx]
  simp only
  by_cases hgt : x > lim
  · rw [if_pos hgt]
    refine ⟨some p, rfl, ?_⟩
    intro p' hp'
    injection hp' with hp'
    subst hp'
    refine ⟨⟨hwp, hcp, hnd, hpcost, hbest, htar, hgood hgt, hini⟩, ?_⟩
    intro q hq hsp
    have hok : PathOk p := ⟨by rw [hwp.splits, hwp.nodes.length_eq]; simp, hwp.nodup⟩
    have hwq := (hgen q hq).wf
    have hokq : PathOk q := ⟨by rw [hwq.splits, hwq.nodes.length_eq]; simp, hwq.nodup⟩
    apply hsame
    rw [List.any_eq_true]
    exact ⟨q, hq, (C38_meaning hok hokq).2 hsp⟩
  · rw [if_neg hgt]; exact ⟨none, rfl, by simp⟩

theorem roundsOf_spec {d : ℕ} {c : HConf} {splits : List Split} {cuts : List (List Bool)} {D : Duals} (h : HeurOk d c splits cuts D) {dr : Draws}
    (hd : Spec.Draws.Ok dr) {rc : Path → List ℕ → Except Err ℚ} {lim : ℚ} {ε : Path → ℚ}
    (hrc : ∀ p rows, WFPath d p → UsesCand c.nodes p → (∃ t, p.cost = hHits d c splits p t) →
      (∀ r, r ∈ rows ↔ r < c.X.length ∧ Follows d (rowLeft splits (c.X.getD r [])) p) →
      ∃ x, rc p rows = .ok x ∧ (x > lim → colRed d c.X splits cuts D p > 1 / 1000000 - ε p)) (is : List ℕ) (gen : List Path) (failed : ℕ) (hgen : ∀ p ∈ gen, HeurPathUpTo d c splits cuts D ε p)
    (hpair : gen.Pairwise (fun p q => ¬ SamePath p q)) :
    ∃ ps f, c.roundsOf splits dr rc lim is gen failed = (.ok ps, f) ∧ (∀ p ∈ ps, HeurPathUpTo d c splits cuts D ε p) ∧
      ps.Pairwise (fun p q => ¬ SamePath p q) ∧ ps.length + f = gen.length + failed + is.length := by
  induction is generalizing gen failed with
  | nil => exact ⟨gen, failed, rfl, hgen, hpair, by simp⟩
  | cons i is ih =>
    obtain ⟨r, hr, hp⟩ := roundOf_spec h hd hrc i gen hgen
    rw [HConf.roundsOf, hr]
    rcases r with _ | p
    · obtain ⟨ps, f, h1, h2, h3, h4⟩ := ih gen (failed + 1) hgen hpair
      exact ⟨ps, f, h1, h2, h3, by rw [h4, List.length_cons]; omega⟩
    · obtain ⟨hp1, hp2⟩ := hp p rfl
      obtain ⟨ps, f, h1, h2, h3, h4⟩ := ih (gen ++ [p]) failed (by
        intro q hq
        rcases List.mem_append.1 hq with hq | hq
        · exact hgen q hq
        · rw [List.mem_singleton.1 hq]; exact hp1) (by
        rw [List.pairwise_append]
        refine ⟨hpair, by simp, ?_⟩
        intro a ha b hb hs
        rw [List.mem_singleton.1 hb] at hs
        exact hp2 a ha ⟨hs.1.symm, hs.2.1.symm, hs.2.2.1.symm, fun x => (hs.2.2.2 x).symm⟩)
      exact ⟨ps, f, h1, h2, h3, by rw [h4, List.length_append, List.length_cons]; simp; omega⟩


/-! ## The rounded reduced cost -/

theorem subtractAllR_ok (rnd : ℚ → ℚ) (duals : List ℚ) (l : List ℕ) (acc : ℚ) (h : ∀ i ∈ l, i < duals.length) :
    subtractAllR rnd duals l acc = .ok (flSum rnd acc (l.map (fun i => -duals.getD i 0))) := by
  induction l generalizing acc with
  | nil => rfl
  | cons i l ih =>
    unfold subtractAllR
    have hi := h i (by simp)
    rw [List.getElem?_eq_getElem hi]
    simp only
    rw [ih _ (fun j hj => h j (by simp [hj]))]
    unfold flSum
    rw [List.map_cons, List.foldl_cons, List.getD_eq_getElem?_getD, List.getElem?_eq_getElem hi, Option.getD_some, sub_eq_add_neg]

theorem subtractNsR_ok (rnd : ℚ → ℚ) (ns : ℕ → ℕ → Option ℚ) (l : List (ℕ × ℕ)) (acc : ℚ) (h : ∀ q ∈ l, (ns q.1 q.2).isSome = true) :
    subtractNsR rnd ns l acc = .ok (flSum rnd acc (l.map (fun q => -(ns q.1 q.2).getD 0))) := by
  induction l generalizing acc with
  | nil => rfl
  | cons q l ih =>
    unfold subtractNsR
    obtain ⟨x, hx⟩ := Option.isSome_iff_exists.1 (h q (by simp))
    rw [hx]
    simp only
    rw [ih _ (fun j hj => h j (by simp [hj]))]
    unfold flSum
    rw [List.map_cons, List.foldl_cons, hx, Option.getD_some, sub_eq_add_neg]

theorem hHits_le_total (d : ℕ) (c : HConf) (splits : List Split) (p : Path) (t : ℤ) : hHits d c splits p t ≤ totalWeight c := by
  classical
  unfold hHits totalWeight
  refine List.sum_le_sum ?_
  intro r _
  split_ifs
  · exact le_rfl
  · exact Nat.zero_le _

theorem pathMagnitude_nonneg (d : ℕ) (X : List (List ℚ)) (splits : List Split) (cuts : List (List Bool)) (D : Duals) (p : Path) :
    0 ≤ pathMagnitude d X splits cuts D p := by
  classical
  unfold pathMagnitude cutSum
  have h1 : 0 ≤ ((List.range X.length).map (fun r => if Follows d (rowLeft splits (X.getD r [])) p then |D.row.getD r 0| else 0)).sum := by
    refine List.sum_nonneg ?_
    intro x hx
    obtain ⟨r, _, rfl⟩ := List.mem_map.1 hx
    split_ifs
    · exact abs_nonneg _
    · exact le_rfl
  have h2 : 0 ≤ ((List.range cuts.length).map (fun k => if Follows d (cutPat cuts k) p then |D.cut.getD k 0| else 0)).sum := by
    refine List.sum_nonneg ?_
    intro x hx
    obtain ⟨r, _, rfl⟩ := List.mem_map.1 hx
    split_ifs
    · exact abs_nonneg _
    · exact le_rfl
  have h3 : 0 ≤ (p.pairs.map (fun q => |(D.ns p.leafId q.1 q.2).getD 0|)).sum := by
    refine List.sum_nonneg ?_
    intro x hx
    obtain ⟨r, _, rfl⟩ := List.mem_map.1 hx
    exact abs_nonneg _
  have := abs_nonneg p.cost
  have := abs_nonneg (D.leaf.getD p.leafId 0)
  linarith

theorem reducedCostR_ok {p : ℕ} {emin : ℤ} (R : Rounding p emin) (hemin : emin ≤ 0) {u η : ℚ} (ha : Accurate R.rnd u η) (hu : 0 ≤ u) (hη : 0 ≤ η)
    {d : ℕ} {c : HConf} {splits : List Split} {cuts : List (List Bool)} {D : Duals} (h : HeurOk d c splits cuts D)
    (hw : (totalWeight c : ℚ) ≤ 2 ^ p) (hn : 2 * ((c.X.length : ℚ) + cuts.length + d + 2) * u ≤ 1)
    {order : List ℕ → List ℕ} (hord : ∀ l, (order l).Perm l)
    {q : Path} (hwf : WFPath d q) (hc : UsesCand c.nodes q) (hcost : ∃ t, q.cost = hHits d c splits q t) {rows : List ℕ}
    (hm : ∀ r, r ∈ rows ↔ r < c.X.length ∧ Follows d (rowLeft splits (c.X.getD r [])) q) :
    ∃ x, c.reducedCostR R.rnd order splits D q rows = .ok x ∧
      |(x - R.rnd (1 / 1000000)) - (colRed d c.X splits cuts D q - 1 / 1000000)| ≤ heurSlack u η d c splits cuts D q := by
  classical
  have hs : ∀ s ∈ q.splits, s < splits.length := by
    intro s hs
    have : s ∈ q.pairs.map Prod.snd := by
      unfold Path.pairs
      rw [List.map_snd_zip (by rw [hwf.splits, hwf.nodes.length_eq]; simp)]
      exact hs
    obtain ⟨q, hq, rfl⟩ := List.mem_map.1 this
    exact cand_lt_of_tree h.tree _ _ (hc q hq)
  have hrc : R.rnd q.cost = q.cost := by
    obtain ⟨t, ht⟩ := hcost
    rw [ht]
    have h1 : ((hHits d c splits q t : ℕ) : ℚ) ≤ 2 ^ p := by
      refine le_trans ?_ hw
      exact_mod_cast hHits_le_total d c splits q t
    have h2 : |((hHits d c splits q t : ℕ) : ℤ)| ≤ 2 ^ p := by
      rw [abs_of_nonneg (by positivity)]
      exact_mod_cast h1
    have := R.fix _ (rep_int hemin h2)
    push_cast at this
    exact this
  unfold HConf.reducedCostR
  rw [hrc, subtractAllR_ok _ _ _ _ (by
    intro i hi
    rw [List.mem_filter, List.mem_range] at hi
    rw [h.rowDuals]; exact hi.1)]
  simp only
  have hl : leafAt c.leaves q.leafId = createLeaf q.leafId d := by rw [h.tree.leaves]; exact leafAt_full hwf.leaf_lt
  obtain ⟨cs, hcs, hcm⟩ := C39_satisfied_cuts h.cutsFilled h.tree.split_id hwf h.depth hs
  rw [hl, hcs]
  simp only
  rw [subtractAllR_ok _ _ _ _ (by
    intro i hi
    rw [(hord _).mem_iff, List.mem_dedup, hcm] at hi
    rw [h.cutDuals]; exact hi.1)]
  simp only
  rw [subtractNsR_ok _ _ _ _ (by
    intro q' hq
    obtain ⟨k, hk, he⟩ := hwf.mem_pairs hq
    have := hc q' hq
    rw [he] at this ⊢
    exact h.nsDuals _ hwf.leaf_lt k hk _ this)]
  refine ⟨_, rfl, ?_⟩
  obtain ⟨fr, hfr⟩ : ∃ fr, fr = (List.range c.X.length).filter (fun r => decide (r ∈ rows)) := ⟨_, rfl⟩
  obtain ⟨oc, hoc⟩ : ∃ oc, oc = order cs.dedup := ⟨_, rfl⟩
  rw [← hfr, ← hoc]
  have hp : oc.Perm ((List.range cuts.length).filter (fun k => decide (Follows d (cutPat cuts k) q))) := by
    rw [hoc]
    refine (hord _).trans ((List.perm_ext_iff_of_nodup (List.nodup_dedup _) (List.Nodup.filter _ List.nodup_range)).2 ?_)
    intro k
    rw [List.mem_dedup, hcm, List.mem_filter, List.mem_range, decide_eq_true_iff]
    rfl
  have e1 : ∀ f : ℕ → ℚ, (fr.map f).sum = ((List.range c.X.length).map (fun r => if Follows d (rowLeft splits (c.X.getD r [])) q then f r else 0)).sum := by
    intro f
    rw [hfr, sum_filter_ite']
    congr 1
    refine List.map_congr_left ?_
    intro r hr
    rw [List.mem_range] at hr
    simp only [decide_eq_true_eq]
    exact if_congr ((hm r).trans ⟨fun h => h.2, fun h => ⟨hr, h⟩⟩) rfl rfl
  have e2 : ∀ f : ℕ → ℚ, (oc.map f).sum = cutSum cuts.length (fun k => Follows d (cutPat cuts k) q) f := by
    intro f
    rw [(hp.map _).sum_eq, sum_filter_ite']
    unfold cutSum
    congr 1
    refine List.map_congr_left ?_
    intro k _
    simp only [decide_eq_true_eq]
  obtain ⟨L, hL⟩ : ∃ L : List ℚ, L = -D.leaf.getD q.leafId 0 :: q.cost :: (fr.map (fun i => -D.row.getD i 0) ++
      (oc.map (fun i => -D.cut.getD i 0) ++ q.pairs.map (fun q' => -(D.ns q.leafId q'.1 q'.2).getD 0))) := ⟨_, rfl⟩
  have eL : flSum R.rnd (flSum R.rnd (flSum R.rnd (R.rnd (R.rnd (0 - D.leaf.getD q.leafId 0) + q.cost)) (fr.map (fun i => -D.row.getD i 0)))
      (oc.map (fun i => -D.cut.getD i 0))) (q.pairs.map (fun q' => -(D.ns q.leafId q'.1 q'.2).getD 0)) = flSum R.rnd 0 L := by
    rw [hL, ← flSum_append, ← flSum_append]
    unfold flSum
    rw [List.foldl_cons, List.foldl_cons, zero_sub, zero_add]
  have sL : L.sum = colRed d c.X splits cuts D q := by
    rw [hL, List.sum_cons, List.sum_cons, List.sum_append, List.sum_append]
    unfold colRed
    rw [sum_map_neg', sum_map_neg', sum_map_neg', e1, e2]
    ring
  have aL : (L.map (fun x => |x|)).sum = pathMagnitude d c.X splits cuts D q := by
    rw [hL]
    simp only [List.map_cons, List.map_append, List.sum_cons, List.sum_append, List.map_map, Function.comp_def, abs_neg]
    rw [e1 (fun i => |D.row.getD i 0|), e2 (fun i => |D.cut.getD i 0|)]
    unfold pathMagnitude
    ring
  have lL : L.length ≤ c.X.length + cuts.length + d + 2 := by
    rw [hL]
    simp only [List.length_cons, List.length_append, List.length_map]
    have l1 : fr.length ≤ c.X.length := by
      rw [hfr]
      exact (List.length_filter_le _ _).trans (by simp)
    have l2 : oc.length ≤ cuts.length := by
      rw [hp.length_eq]
      exact (List.length_filter_le _ _).trans (by simp)
    have l3 : q.pairs.length ≤ d := by
      unfold Path.pairs
      rw [List.length_zip, hwf.splits]
      exact min_le_right _ _
    omega
  have lL' : (L.length : ℚ) ≤ c.X.length + cuts.length + d + 2 := by exact_mod_cast lL
  rw [eL]
  have h1 := flSum_error ha hu hη (A := pathMagnitude d c.X splits cuts D q) 0 L (by rw [abs_zero, zero_add, aL])
    (le_trans (mul_le_mul_of_nonneg_right (by linarith) hu) hn)
  rw [zero_add, sL] at h1
  have h2 := ha (1 / 1000000)
  rw [abs_of_pos (show (0 : ℚ) < 1 / 1000000 by norm_num)] at h2
  have hmn := pathMagnitude_nonneg d c.X splits cuts D q
  unfold heurSlack evalSlack
  obtain ⟨A, hA⟩ : ∃ A, A = pathMagnitude d c.X splits cuts D q := ⟨_, rfl⟩
  rw [← hA] at h1 hmn ⊢
  have hb0 : 0 ≤ u * A + η := by positivity
  have h3 : 2 * (L.length : ℚ) * (u * A + η) ≤ 2 * (c.X.length + cuts.length + d + 2) * (u * A + η) :=
    mul_le_mul_of_nonneg_right (by linarith) hb0
  have e4 : ∀ a b c d : ℚ, (a - b) - (c - d) = (a - c) - (b - d) := by intros; ring
  rw [e4]
  refine (abs_sub _ _).trans ?_
  push_cast
  have e3 : u / 1000000 = u * (1 / 1000000) := by ring
  rw [e3]
  have e5 : 2 * ((c.X.length : ℚ) + cuts.length + d + 1 + 1) * (u * A + η) = 2 * (c.X.length + cuts.length + d + 2) * (u * A + η) := by ring
  rw [e5]
  linarith

/-! ## C120 -/

theorem roundsOf_exact (c : HConf) (splits : List Split) (D : Duals) (dr : Draws) (is : List ℕ) (gen : List Path) (failed : ℕ) :
    c.roundsOf splits dr (c.reducedCost splits D) (1 / 1000000) is gen failed = c.rounds splits D dr is gen failed := by
  have e : ∀ i gen, c.roundOf splits dr (c.reducedCost splits D) (1 / 1000000) i gen = c.round splits D dr i gen := fun _ _ => rfl
  induction is generalizing gen failed with
  | nil => rfl
  | cons i is ih =>
    rw [HConf.roundsOf, HConf.rounds, e]
    rcases c.round splits D dr i gen with _ | _ | p
    · rfl
    · exact ih _ _
    · exact ih _ _

theorem subtractAllR_id (duals : List ℚ) (l : List ℕ) (acc : ℚ) : subtractAllR id duals l acc = subtractAll duals l acc := by
  induction l generalizing acc with
  | nil => rfl
  | cons i l ih =>
    unfold subtractAllR subtractAll
    simp only [id_eq, ih]
    cases duals[i]? <;> rfl

theorem subtractNsR_id (ns : ℕ → ℕ → Option ℚ) (l : List (ℕ × ℕ)) (acc : ℚ) : subtractNsR id ns l acc = subtractNs ns l acc := by
  induction l generalizing acc with
  | nil => rfl
  | cons i l ih =>
    unfold subtractNsR subtractNs
    simp only [id_eq, ih]
    cases ns i.1 i.2 <;> rfl

theorem subtractAll_bad (duals : List ℚ) (l : List ℕ) (acc : ℚ) (h : ¬ ∀ i ∈ l, i < duals.length) : subtractAll duals l acc = .error .indexError := by
  induction l generalizing acc with
  | nil => simp at h
  | cons i l ih =>
    unfold subtractAll
    by_cases hi : i < duals.length
    · rw [List.getElem?_eq_getElem hi]
      simp only
      refine ih _ ?_
      intro hall
      refine h ?_
      intro j hj
      rcases List.mem_cons.1 hj with rfl | hj
      · exact hi
      · exact hall j hj
    · rw [List.getElem?_eq_none (not_lt.1 hi)]

theorem subtractAll_perm (duals : List ℚ) {l l' : List ℕ} (hp : l.Perm l') (acc : ℚ) : subtractAll duals l acc = subtractAll duals l' acc := by
  by_cases h : ∀ i ∈ l, i < duals.length
  · rw [subtractAll_ok _ _ _ h, subtractAll_ok _ _ _ (fun i hi => h i (hp.mem_iff.2 hi)), (hp.map _).sum_eq]
  · rw [subtractAll_bad _ _ _ h, subtractAll_bad _ _ _ (fun h' => h (fun i hi => h' i (hp.mem_iff.1 hi)))]

/-- **C120**, without rounding the model is the exact one of `Verif.DTree.Heur`. -/
theorem C120_tree_exact (c : HConf) (D : Duals) {dr : Draws} (hd : Spec.Draws.Ok dr) (st : HeurSt) : c.generateR id D dr st = c.generate D dr st := by
  have e : c.reducedCostR id dr.order st.splits D = c.reducedCost st.splits D := by
    funext q rows
    unfold HConf.reducedCostR HConf.reducedCost
    simp only [subtractAllR_id, subtractNsR_id, id_eq]
    rcases subtractAll D.row ((List.range c.X.length).filter (fun r => decide (r ∈ rows))) (0 - D.leaf.getD q.leafId 0 + q.cost) with _ | x
    · rfl
    simp only
    rcases getSatisfiedCuts q (leafAt c.leaves q.leafId) st.splits with _ | cs
    · rfl
    simp only
    rw [subtractAll_perm D.cut (hd cs.dedup) x]
    cases subtractAll D.cut cs.dedup x <;> rfl
  unfold HConf.generateR HConf.generate
  rw [e, show (id (1 / 1000000 : ℚ)) = 1 / 1000000 from rfl, roundsOf_exact]
  rcases c.rounds st.splits D dr (List.range 100) [] st.failed with ⟨_ | _, _⟩ <;> rfl

/-- A bound on the magnitude of all paths, from bounds on the duals. -/
theorem pathMagnitude_le {d : ℕ} {c : HConf} {splits : List Split} {cuts : List (List Bool)} {D : Duals} {q : Path} (hwf : WFPath d q)
    (hcost : ∃ t, q.cost = hHits d c splits q t) {L B : ℚ} (hL : ∀ l, |D.leaf.getD l 0| ≤ L) (hB : ∀ l n s, |(D.ns l n s).getD 0| ≤ B) :
    pathMagnitude d c.X splits cuts D q ≤ totalWeight c + L + ((List.range c.X.length).map (fun r => |D.row.getD r 0|)).sum +
      ((List.range cuts.length).map (fun k => |D.cut.getD k 0|)).sum + d * B := by
  classical
  unfold pathMagnitude cutSum
  have h1 : |q.cost| ≤ totalWeight c := by
    obtain ⟨t, ht⟩ := hcost
    rw [ht, abs_of_nonneg (by positivity)]
    exact_mod_cast hHits_le_total d c splits q t
  have h2 : ((List.range c.X.length).map (fun r => if Follows d (rowLeft splits (c.X.getD r [])) q then |D.row.getD r 0| else 0)).sum ≤
      ((List.range c.X.length).map (fun r => |D.row.getD r 0|)).sum := by
    refine List.sum_le_sum ?_
    intro r _
    split_ifs
    · exact le_rfl
    · exact abs_nonneg _
  have h3 : ((List.range cuts.length).map (fun k => if Follows d (cutPat cuts k) q then |D.cut.getD k 0| else 0)).sum ≤
      ((List.range cuts.length).map (fun k => |D.cut.getD k 0|)).sum := by
    refine List.sum_le_sum ?_
    intro r _
    split_ifs
    · exact le_rfl
    · exact abs_nonneg _
  have h4 : (q.pairs.map (fun q' => |(D.ns q.leafId q'.1 q'.2).getD 0|)).sum ≤ d * B := by
    have : ∀ l : List (ℕ × ℕ), (l.map (fun q' => |(D.ns q.leafId q'.1 q'.2).getD 0|)).sum ≤ l.length * B := by
      intro l
      induction l with
      | nil => simp
      | cons x l ih =>
        rw [List.map_cons, List.sum_cons, List.length_cons]
        push_cast
        have := hB q.leafId x.1 x.2
        linarith
    have hl : q.pairs.length = d := by
      unfold Path.pairs
      rw [List.length_zip, hwf.splits, hwf.nodes.length_eq]
      simp
    have := this q.pairs
    rw [hl] at this
    exact this
  have h5 := hL q.leafId
  linarith

section

variable {p : ℕ} {emin : ℤ} (R : Rounding p emin)

/-- **C120**: in the situation of `fit`, for all random draws and all orders in which sets are listed, `generate_columns` of the tree heuristic with
rounded arithmetic does not raise; every returned path has its claimed form, cost and target, and a reduced cost above `1e-6` minus the rounding error;
no two returned paths are the same; and the 100 rounds are counted. -/
theorem C120_tree (hemin : emin ≤ 0) {u η : ℚ} (ha : Accurate R.rnd u η) (hu : 0 ≤ u) (hη : 0 ≤ η)
    {d : ℕ} {c : HConf} {cuts : List (List Bool)} {D : Duals} {st : HeurSt} (h : HeurOk d c st.splits cuts D)
    (hw : (totalWeight c : ℚ) ≤ 2 ^ p) (hn : 2 * ((c.X.length : ℚ) + cuts.length + d + 2) * u ≤ 1) {dr : Draws} (hd : Spec.Draws.Ok dr) :
    ∃ ps st', c.generateR R.rnd D dr st = (.ok ps, st') ∧ (∀ q ∈ ps, HeurPathUpTo d c st.splits cuts D (heurSlack u η d c st.splits cuts D) q) ∧
      ps.Pairwise (fun a b => ¬ SamePath a b) ∧ st'.success = st.success + ps.length ∧ ps.length + st'.failed = st.failed + 100 ∧
      st'.splits = st.splits ∧ st'.numCuts = st.numCuts := by
  obtain ⟨ps, f, h1, h2, h3, h4⟩ := roundsOf_spec h hd (rc := c.reducedCostR R.rnd dr.order st.splits D) (lim := R.rnd (1 / 1000000))
    (ε := heurSlack u η d c st.splits cuts D) (by
      intro q rows hwf hc hcost hm
      obtain ⟨x, hx, hb⟩ := reducedCostR_ok R hemin ha hu hη h hw hn hd hwf hc hcost hm
      refine ⟨x, hx, fun hgt => ?_⟩
      rw [abs_le] at hb
      linarith [hb.2]) (List.range 100) [] st.failed (by simp) List.Pairwise.nil
  unfold HConf.generateR
  rw [h1]
  refine ⟨ps, _, rfl, h2, h3, rfl, ?_, rfl, rfl⟩
  simp only [List.length_nil, List.length_range, zero_add] at h4
  exact h4

/-- **C120**: when no path has a reduced cost within the rounding error of `1e-6`, the heuristic behaves exactly as with exact numbers: the same
paths in the same order, and the same counters. -/
theorem C120_tree_same (hemin : emin ≤ 0) {u η : ℚ} (ha : Accurate R.rnd u η) (hu : 0 ≤ u) (hη : 0 ≤ η)
    {d : ℕ} {c : HConf} {cuts : List (List Bool)} {D : Duals} {st : HeurSt} (h : HeurOk d c st.splits cuts D)
    (hw : (totalWeight c : ℚ) ≤ 2 ^ p) (hn : 2 * ((c.X.length : ℚ) + cuts.length + d + 2) * u ≤ 1) {dr : Draws} (hd : Spec.Draws.Ok dr)
    (hgap : ∀ q, WFPath d q → UsesCand c.nodes q → (∃ t, q.cost = hHits d c st.splits q t) →
      heurSlack u η d c st.splits cuts D q < |colRed d c.X st.splits cuts D q - 1 / 1000000|) :
    c.generateR R.rnd D dr st = c.generate D dr st := by
  have e : ∀ i gen, c.roundOf st.splits dr (c.reducedCostR R.rnd dr.order st.splits D) (R.rnd (1 / 1000000)) i gen =
      c.roundOf st.splits dr (c.reducedCost st.splits D) (1 / 1000000) i gen := by
    intro i gen
    rcases roundOf_draw h hd i with hn' | ⟨q, rows, hwq, hcq, hnd, hpcost, hbest, htar, hini, hrm, he⟩
    · rw [hn', hn']
    rw [he, he]
    by_cases hsame : gen.any (fun old => q.isSameAs old) = true
    · rw [if_pos hsame, if_pos hsame]
    rw [if_neg hsame, if_neg hsame, reducedCost_ok h hwq hcq hrm]
    obtain ⟨x, hx, hb⟩ := reducedCostR_ok R hemin ha hu hη h hw hn hd hwq hcq ⟨_, hpcost⟩ hrm
    rw [hx]
    simp only
    have hg := hgap q hwq hcq ⟨_, hpcost⟩
    rw [abs_le] at hb
    refine if_congr ?_ rfl rfl
    rcases lt_abs.1 hg with h' | h'
    · constructor
      · intro _; linarith [hb.1, hb.2]
      · intro _; linarith [hb.1, hb.2]
    · constructor
      · intro _; linarith [hb.1, hb.2]
      · intro _; linarith [hb.1, hb.2]
  have e2 : ∀ is gen failed, c.roundsOf st.splits dr (c.reducedCostR R.rnd dr.order st.splits D) (R.rnd (1 / 1000000)) is gen failed =
      c.rounds st.splits D dr is gen failed := by
    intro is
    induction is with
    | nil => intro gen failed; rfl
    | cons i is ih =>
      intro gen failed
      have e3 : c.roundOf st.splits dr (c.reducedCost st.splits D) (1 / 1000000) i gen = c.round st.splits D dr i gen := rfl
      rw [HConf.roundsOf, HConf.rounds, e, e3]
      rcases c.round st.splits D dr i gen with _ | _ | q
      · rfl
      · exact ih _ _
      · exact ih _ _
  unfold HConf.generateR HConf.generate
  rw [e2]
  rcases c.rounds st.splits D dr (List.range 100) [] st.failed with ⟨_ | _, _⟩ <;> rfl

end

/-- **C120** with Python's floats: when the number of rows, cuts and levels, and its product with the magnitude of the paths, stay below `2 ^ 28`, every
returned path has a reduced cost above `9e-7`. -/
theorem C120_tree64 {d : ℕ} {c : HConf} {cuts : List (List Bool)} {D : Duals} {st : HeurSt} (h : HeurOk d c st.splits cuts D)
    (hw : totalWeight c ≤ 2 ^ 53) (hn : c.X.length + cuts.length + d + 2 ≤ 2 ^ 28)
    (hA : ∀ q, WFPath d q → UsesCand c.nodes q → (∃ t, q.cost = hHits d c st.splits q t) →
      ((c.X.length : ℚ) + cuts.length + d + 2) * pathMagnitude d c.X st.splits cuts D q ≤ 2 ^ 28)
    {dr : Draws} (hd : Spec.Draws.Ok dr) :
    ∃ ps st', c.generateR binary64.rnd D dr st = (.ok ps, st') ∧ ps.Pairwise (fun a b => ¬ SamePath a b) ∧
      ∀ q ∈ ps, WFPath d q ∧ UsesCand c.nodes q ∧ q.cost = hHits d c st.splits q q.target ∧
        (∀ t, hHits d c st.splits q t ≤ hHits d c st.splits q q.target) ∧ colRed d c.X st.splits cuts D q > 9 / 10000000 := by
  have hn' : ((c.X.length : ℚ) + cuts.length + d + 2) ≤ 2 ^ 28 := by exact_mod_cast hn
  obtain ⟨ps, st', h1, h2, h3, -⟩ := C120_tree binary64 (by norm_num) binary64_accurate (by positivity) (by positivity) h
    (by exact_mod_cast hw) (by norm_num at hn' ⊢; linarith) hd
  refine ⟨ps, st', h1, h3, fun q hq => ?_⟩
  have g := h2 q hq
  refine ⟨g.wf, g.cand, g.cost, g.best, ?_⟩
  have hs := (slack64 (n := c.X.length + cuts.length + d + 1) (pathMagnitude_nonneg d c.X st.splits cuts D q) hn (by
    have := hA q g.wf g.cand ⟨_, g.cost⟩
    push_cast
    refine le_trans (le_of_eq ?_) this
    ring)).1
  have gi := g.improving
  unfold heurSlack at gi
  linarith

end Verif.DTree
