import Verif.DTree.LinkProps
import Verif.DTree.SubDemo

/-!
# A concrete instance of C68, C69 and C70

A tree of depth 1 with two candidate splits and three rows, the last of which is removed as a copy of the first.
-/

set_option linter.unusedSectionVars false
set_option linter.unusedSimpArgs false

namespace Verif.DTree.Demo

open MP Spec

/-! ## Deciding optimality by enumeration -/

/-- All lists of bits of a length. -/
def bitLists : ℕ → List (List Bool)
  | 0 => [[]]
  | n + 1 => (bitLists n).flatMap (fun l => [false :: l, true :: l])

theorem mem_bitLists (l : List Bool) : l ∈ bitLists l.length := by
  induction l with
  | nil => simp [bitLists]
  | cons b l ih =>
    simp only [List.length_cons, bitLists, List.mem_flatMap]
    exact ⟨l, ih, by cases b <;> simp⟩

def ofBits (l : List Bool) (i : ℕ) : ℚ := if l.getD i false then 1 else 0

theorem bOk_of (lb ub : Option ℚ) (x : ℚ) (h : inBounds lb ub x) : bOk lb ub x = true := by
  unfold bOk
  obtain ⟨h1, h2⟩ := h
  cases lb <;> cases ub <;> simp_all

theorem act_congr {n : ℕ} (f : ℕ → ℚ) {a b : ℕ → ℚ} (h : ∀ i < n, a i = b i) : act n f a = act n f b := by
  unfold act
  congr 1
  refine List.map_congr_left ?_
  intro i hi
  rw [h i (List.mem_range.1 hi)]

/-- The constraints and the objective in terms of lists, so that they can be evaluated fast. -/
def dot : List ℚ → List Bool → ℚ
  | c :: cs, b :: bs => (if b then c else 0) + dot cs bs
  | _, _ => 0

theorem dot_eq (n : ℕ) (f : ℕ → ℚ) (l : List Bool) (hl : l.length = n) : dot ((List.range n).map f) l = act n f (ofBits l) := by
  induction n generalizing f l with
  | zero =>
    cases l
    · rfl
    · simp at hl
  | succ n ih =>
    cases l with
    | nil => simp at hl
    | cons b l =>
      rw [List.range_succ_eq_map, List.map_cons, List.map_map]
      have := ih (f ∘ Nat.succ) l (by simpa using hl)
      unfold dot
      rw [this]
      unfold act
      rw [List.range_succ_eq_map, List.map_cons, List.map_map, List.sum_cons]
      congr 1
      unfold ofBits
      cases b <;> simp

/-- No 0/1 point that satisfies the constraints has a value above `b`. -/
def checkMax (m : Model) (b : ℚ) : Bool :=
  let n := m.vars.length
  let rows := m.cons.map (fun k => (k.lb, k.ub, (List.range n).map k.coeff))
  let obj := (List.range n).map m.obj
  (bitLists n).all (fun l => !(rows.all (fun k => bOk k.1 k.2.1 (dot k.2.2 l))) || decide (dot obj l + m.offset ≤ b))

theorem checkMax_sound (m : Model) (hv : ∀ v ∈ m.vars, v = boolVar) (b : ℚ) (h : checkMax m b = true) (a : ℕ → ℚ) (ha : m.Feasible a) :
    m.value a ≤ b := by
  let l : List Bool := (List.range m.vars.length).map (fun i => decide (a i = 1))
  have hll : l.length = m.vars.length := by simp [l]
  have hal : ∀ i < m.vars.length, a i = ofBits l i := by
    intro i hi
    have e : m.vars[i]? = some boolVar := by rw [List.getElem?_eq_getElem hi, hv _ (List.getElem_mem hi)]
    obtain ⟨h1, h2⟩ := ha.bounds i boolVar e
    obtain ⟨z, hz⟩ := ha.integral i boolVar e rfl
    have h1 := h1 0 rfl
    have h2 := h2 1 rfl
    have hgl : l.getD i false = decide (a i = 1) := by simp [l, List.getD_eq_getElem?_getD, List.getElem?_range hi]
    unfold ofBits
    rw [hgl]
    by_cases h3 : a i = 1
    · simp [h3]
    · simp only [h3, decide_false, Bool.false_eq_true, if_false]
      rw [hz] at h1 h2 h3 ⊢
      have h1 : 0 ≤ z := by exact_mod_cast h1
      have h2 : z ≤ 1 := by exact_mod_cast h2
      have h3 : z ≠ 1 := by exact_mod_cast h3
      have : z = 0 := by omega
      simp [this]
  unfold checkMax at h
  simp only [List.all_eq_true] at h
  have hl := h l (by rw [← hll]; exact mem_bitLists l)
  have hrows : ((m.cons.map (fun k => (k.lb, k.ub, (List.range m.vars.length).map k.coeff))).all (fun k => bOk k.1 k.2.1 (dot k.2.2 l))) = true := by
    rw [List.all_eq_true]
    intro k hk
    obtain ⟨k, hk', rfl⟩ := List.mem_map.1 hk
    obtain ⟨i, hi⟩ := List.mem_iff_getElem?.1 hk'
    refine bOk_of _ _ _ ?_
    rw [dot_eq _ _ _ hll, ← act_congr _ hal, act_eq]
    exact ha.cons i k hi
  rw [hrows] at hl
  simp only [Bool.not_true, Bool.false_or, decide_eq_true_eq] at hl
  rw [dot_eq _ _ _ hll, ← act_congr _ hal, act_eq] at hl
  exact hl

/-! ## The instance -/

def qSplits0 : List Split := [⟨0, 0, 1/2, false, [], [], [], []⟩, ⟨1, 1, 1/2, false, [], [], [], []⟩]

def qX : List (List ℚ) := [[0, 0], [1, 0], [0, 0]]

def qSplits : List Split := addRowsToSplits qSplits0 qX

def qNodes : List Node := [⟨0, [0, 1], [1, 1], 0, -1, 1, 2, false⟩]

def qConf : Conf := ⟨fullLeaves 1, qNodes, qX, false, true, 2⟩

/-- Row 2 is a copy of row 0. -/
def qRows : List Row := [⟨[], [], [], [], [], false, false, 2⟩, ⟨[], [], [], [], [], false, false, 1⟩, ⟨[], [], [], [], [], true, true, 1⟩]

def qPaths : List Path := [⟨0, [0], [0], 2, 0, 0, true⟩, ⟨1, [0], [0], 1, 0, 1, true⟩, ⟨0, [0], [1], 2, 0, 0, true⟩, ⟨1, [0], [1], 0, 0, 1, true⟩]

/-- The tree with split 0. -/
def qSol (i : ℕ) : ℚ := if i ∈ [0, 1, 4] then 1 else 0

/-- Dual 1 for both leaves and for row 0. -/
def qDual (i : ℕ) : ℚ := if i ∈ [0, 1, 2] then 1 else 0

def qOracle : Oracle where
  lp := fun m _ => ⟨.optimal, qSol, qDual, act m.vars.length m.obj qSol + m.offset⟩
  cut := fun _ _ => []
  ip := fun m => ⟨.optimal, qSol, fun _ => 0, act m.vars.length m.obj qSol + m.offset⟩

theorem qSetup : Setup 1 qConf qSplits (some qRows) where
  depth := by norm_num
  tree :=
    { leaves := rfl
      nodes_length := rfl
      node_id := by
        intro i n h
        have : ∀ q ∈ qNodes.zipIdx, q.1.id = q.2 := by decide +kernel
        exact this (n, i) (by rw [List.mem_zipIdx_iff_getElem?]; exact h)
      split_id := by
        intro i n h
        have : ∀ q ∈ qSplits.zipIdx, q.1.id = q.2 := by decide +kernel
        exact this (n, i) (by rw [List.mem_zipIdx_iff_getElem?]; simpa using h)
      cand_lt := by
        show ∀ n ∈ qNodes, ∀ s ∈ n.candidateSplits, s < qSplits.length
        decide +kernel
      cand_nodup := by
        show ∀ n ∈ qNodes, n.candidateSplits.Nodup
        decide +kernel }
  filled := (C39_add_rows qSplits0 qX (by decide +kernel)).1
  no_cuts := by decide +kernel
  rows := by
    intro rows h
    simp only [Option.some.injEq] at h
    subst h
    exact ⟨rfl, by decide +kernel⟩

theorem qGood : ∀ p ∈ qPaths, GoodPath 1 qSplits p := by decide +kernel

theorem qSound : CutSound qOracle := by
  intro cp k a ha
  simp [qOracle] at ha

def qStart : MS := (generateMp qConf (MS.init qPaths qSplits (some qRows))).2

theorem qGen : generateMp qConf (MS.init qPaths qSplits (some qRows)) = (.ok (), qStart) := by
  have : (generateMp qConf (MS.init qPaths qSplits (some qRows))).1 = .ok () := by decide +kernel
  exact Prod.ext this rfl

theorem qReached : Reached 1 qConf qOracle qPaths qSplits (some qRows) qStart := .generate qGen

def qEnd : MS := (solveRmp qConf qOracle qStart).2

def qDuals : Duals :=
  match (solveRmp qConf qOracle qStart).1 with
  | .ok D => D
  | .error _ => ⟨[], [], fun _ _ _ => none, [], []⟩

theorem qSolve : solveRmp qConf qOracle qStart = (.ok qDuals, qEnd) := by
  refine Prod.ext ?_ rfl
  have h : (solveRmp qConf qOracle qStart).1.isOk = true := by decide +kernel
  unfold qDuals
  rcases hr : (solveRmp qConf qOracle qStart).1 with e | D
  · rw [hr] at h; cases h
  · rfl

theorem qStatus : qEnd.last.status = .optimal := by decide +kernel

example : qDuals.leaf = [1, 1] ∧ qDuals.row = [1, 0, 0] ∧ qEnd.rmpObj = 3 := by decide +kernel

theorem qDelivered : Delivered qStart [] := (C68_cuts_delivered qSetup qGood qSound).1 _ qGen

theorem qDelivered' : Delivered qEnd [] := by
  have h := (((C68_cuts_delivered qSetup qGood qSound).2 _ qReached _ qDelivered).1 _ _ qSolve).1
  have e : qDuals.newCuts = [] := by decide +kernel
  rw [e] at h
  exact h

/-! ### Duals -/

def checkDuals (m : Model) (tol : ℚ) (ans : Answer) : Bool :=
  m.cons.zipIdx.all (fun k => (k.1.lb.isSome || decide (0 ≤ ans.duals k.2)) && (k.1.ub.isSome || decide (ans.duals k.2 ≤ 0))) &&
  (List.range m.vars.length).all (fun v => decide (m.obj v - (m.cons.zipIdx.map (fun k => ans.duals k.2 * k.1.coeff v)).sum ≤ tol)) &&
  decide ((m.cons.zipIdx.map (fun k => ans.duals k.2 * k.1.rhs)).sum + m.offset = ans.objective)

theorem sum_zipIdx (l : List Cons) (dl : ℕ → ℚ) (f : Cons → ℚ) :
    (l.zipIdx.map (fun k => dl k.2 * f k.1)).sum = ∑ c ∈ Finset.range l.length, dl c * ((l[c]?).map f).getD 0 := by
  have h := sum_range_list l.zipIdx (fun c => dl c * ((l[c]?).map f).getD 0) (fun k => dl k.2 * f k.1) (by
    intro i x hx
    rw [List.getElem?_zipIdx] at hx
    rcases hl : l[i]? with _ | y
    · rw [hl] at hx; cases hx
    · rw [hl] at hx
      simp only [Option.map_some, Option.some.injEq, Nat.zero_add] at hx
      rw [← hx]
      simp)
  rw [List.length_zipIdx] at h
  exact h.symm

theorem checkDuals_sound (m : Model) (tol : ℚ) (ans : Answer) (h : checkDuals m tol ans = true) : OptimalDuals m tol ans := by
  unfold checkDuals at h
  simp only [Bool.and_eq_true, List.all_eq_true, decide_eq_true_eq, Bool.or_eq_true] at h
  obtain ⟨⟨h1, h2⟩, h3⟩ := h
  refine ⟨?_, ?_, ?_, ?_⟩
  · intro c k hk hlb
    have := (h1 (k, c) (by rw [List.mem_zipIdx_iff_getElem?]; simpa using hk)).1
    simpa [hlb] using this
  · intro c k hk hub
    have := (h1 (k, c) (by rw [List.mem_zipIdx_iff_getElem?]; simpa using hk)).2
    simpa [hub] using this
  · intro v hv
    have := h2 v (List.mem_range.2 hv)
    rw [sum_zipIdx _ _ (fun k => k.coeff v)] at this
    exact this
  · rw [sum_zipIdx] at h3
    exact h3

theorem qOptimal : OptimalDuals qEnd.m 0 qEnd.last := checkDuals_sound _ _ _ (by decide +kernel)

/-! ### C68 and C69 -/

/-- C68: the reduced cost of a new column for leaf 1 with split 1 and class 0. -/
example : (addColumn qConf ⟨1, [0], [1], 0, 0, 0, false⟩ qEnd).1 = .ok true ∧
    (addColumn qConf ⟨1, [0], [1], 0, 0, 0, false⟩ qEnd).2.m.reducedCost qEnd.last.duals qEnd.m.vars.length =
      colRed 1 qX qSplits [] qDuals ⟨1, [0], [1], 0, 0, 0, false⟩ :=
  (C68_duals_price_columns qSetup qGood qSound qReached qSolve qStatus qDelivered').2 _ (by decide +kernel)

example : (addColumn qConf ⟨1, [0], [1], 0, 0, 0, false⟩ qEnd).2.m.obj qEnd.m.vars.length -
    ((addColumn qConf ⟨1, [0], [1], 0, 0, 0, false⟩ qEnd).2.m.cons.zipIdx.map (fun k => qEnd.last.duals k.2 * k.1.coeff qEnd.m.vars.length)).sum =
      -1 := by decide +kernel

/-- C69 with the four columns of the two trees as further columns. -/
example : (addColumns qConf qPaths qEnd).m.value qSol ≤ qEnd.rmpObj + 2 ^ 1 * 0 + (2 ^ 1 - 1) * 0 := by
  refine C69_lp_bound qSetup qGood qSound qReached qSolve qStatus qDelivered' le_rfl le_rfl qOptimal qGood ?_
    (checkLP_sound _ _ (by decide +kernel))
  have h := (C68_duals_price_columns qSetup qGood qSound qReached qSolve qStatus qDelivered').1
  have hids : ∀ p ∈ qPaths, ∃ p' ∈ qEnd.paths, p'.leafId = p.leafId ∧ p'.nodeIds = p.nodeIds ∧ p'.splits = p.splits ∧ p'.cost = p.cost := by
    decide +kernel
  have hids' : ∀ p ∈ qEnd.paths, p.id < qEnd.m.vars.length := by decide +kernel
  intro p hp
  obtain ⟨p', hp', e1, e2, e3, e4⟩ := hids p hp
  have e : colRed 1 qConf.X qSplits [] qDuals p = colRed 1 qConf.X qSplits [] qDuals p' := by
    unfold colRed Path.pairs Follows Path.pairs
    rw [e1, e2, e3, e4]
  rw [e, ← h p' hp']
  exact qOptimal.cost _ (hids' p' hp')

/-! ### C70 -/

def qPrice (l : ℕ) : SubConf := priceConf .mip 1 qConf qSplits [0, 1] [0, 1, 0] (some qRows) l

theorem qSubOk (l : ℕ) (hl : l < 2 ^ 1) : SubOk 1 (qPrice l) where
  pos := by norm_num
  depth := rfl
  leaf_lt := by
    show (createLeaf l 1).id < 2 ^ 1
    exact hl
  leaf := rfl
  nodes := rfl
  cand_nodup := by
    show ∀ n ∈ qNodes, n.candidateSplits.Nodup
    decide +kernel
  targets := List.Perm.refl _
  y_lt := by
    intro i hi
    have hi : i < 3 := hi
    show ([0, 1, 0] : List ℕ).getD i 0 < 2
    match i, hi with
    | 0, _ => decide
    | 1, _ => decide
    | 2, _ => decide

def qSt (l : ℕ) : SubSt := ((qPrice l).update qDuals SubSt.new).2

/-- The best points: split 0 with the class of its row. -/
def qBest (l v : ℕ) : ℚ := if v ∈ [SV.z l, .y l, .u 0 0, .w l].map (qSt l).idx then 1 else 0

def qAns (l : ℕ) : Answer := ⟨.optimal, qBest l, fun _ => 0, 0⟩

theorem qPriceFacts : ∀ l < 2, ((qPrice l).update qDuals SubSt.new).1 = .ok () ∧ (∀ v ∈ (qSt l).m.vars, v = boolVar) ∧
    checkLP (qSt l).m (qBest l) = true ∧ checkInt (qSt l).m (qBest l) = true ∧
    act (qSt l).m.vars.length (qSt l).m.obj (qBest l) + (qSt l).m.offset = 0 ∧ (qSt l).m.maximize = true ∧
    checkMax (qSt l).m 0 = true ∧ (qPrice l).generateMip (qSt l) (qAns l) = [] := by decide +kernel

/-- C70: no tree beats the bound 3, which the tree with split 0 attains. -/
theorem qBound (σ τ : ℕ → ℕ) (hσ : ∀ n < 2 ^ 1 - 1, σ n ∈ Spec.cand qNodes n) (hτ : ∀ l < 2 ^ 1, τ l ∈ [0, 1]) :
    treeHits 1 (qPrice 0) σ τ ≤ 3 + 2 ^ 1 * (1 / 1000000) + (2 ^ 1 - 1) * 0 := by
  have h := C70_no_tree_beats_bound qSetup qGood qSound qReached qSolve qStatus qDelivered le_rfl (by norm_num) qOptimal (by
      intro rows h
      simp only [Option.some.injEq] at h
      subst h
      intro r hr
      match r, hr with
      | 0, h => exact h
      | 1, h => exact h
      | 2, h => exact h
      | k + 3, h => exact h) (targets := [0, 1]) (y := [0, 1, 0]) qSubOk (st := fun _ => SubSt.new) (st' := qSt) (ans := qAns)
    (fun l _ => .new) (fun l hl => Prod.ext (qPriceFacts l hl).1 rfl) (by
      intro l hl
      obtain ⟨h1, h2, h3, h4, h5, h6, h7, -⟩ := qPriceFacts l hl
      rw [act_eq] at h5
      refine ⟨rfl, ⟨check_sound _ _ h3 h4, h5.symm⟩, ?_⟩
      intro a ha
      unfold Model.better
      rw [h6, if_pos rfl]
      exact checkMax_sound _ h2 _ h7 a ha) (fun l hl => (qPriceFacts l hl).2.2.2.2.2.2.2) hσ hτ
  have e : qEnd.rmpObj = 3 := by decide +kernel
  rw [e] at h
  exact h

theorem qKept (i : ℕ) : Kept (qPrice 0) i ↔ i < 2 := by
  have e : ∀ i, Kept (qPrice 0) i ↔ i < 3 ∧ (rowAt qRows i).removedFromSp = false := by
    intro i
    constructor
    · rintro ⟨h1, h2⟩; exact ⟨h1, h2 _ rfl⟩
    · rintro ⟨h1, h2⟩
      refine ⟨h1, ?_⟩
      intro rows h
      have h : some qRows = some rows := h
      simp only [Option.some.injEq] at h
      subst h
      exact h2
  rw [e]
  constructor
  · rintro ⟨h1, h2⟩
    match i, h1, h2 with
    | 0, _, _ => decide
    | 1, _, _ => decide
    | 2, _, h => exact absurd h (by decide +kernel)
  · intro h
    match i, h with
    | 0, _ => decide +kernel
    | 1, _ => decide +kernel

example : treeHits 1 (qPrice 0) (fun _ => 0) (fun l => l) = 3 := by
  unfold treeHits keptSum
  simp only [qKept]
  have hr : List.range (qPrice 0).X.length = [0, 1, 2] := by decide +kernel
  rw [hr]
  have e0 : (qPrice 0).y.getD 0 0 = walkLeaf (fun _ => takesLeft ((qPrice 0).X.getD 0 []) (splitAt (qPrice 0).splits 0)) 1 := by decide +kernel
  have e1 : (qPrice 0).y.getD 1 0 = walkLeaf (fun _ => takesLeft ((qPrice 0).X.getD 1 []) (splitAt (qPrice 0).splits 0)) 1 := by decide +kernel
  have w0 : rowWeight (qPrice 0) 0 = 2 := by decide +kernel
  have w1 : rowWeight (qPrice 0) 1 = 1 := by decide +kernel
  simp only [List.map_cons, List.map_nil, List.sum_cons, List.sum_nil]
  rw [if_pos ⟨by norm_num, e0⟩, if_pos ⟨by norm_num, e1⟩, if_neg (by rintro ⟨h, _⟩; omega), w0, w1]
  norm_num

/-! ### C70 with `DTreeSubProblemSat` -/

def qSat (l : ℕ) : SubConf := priceConf .sat 1 qConf qSplits [0, 1] [0, 1, 0] (some qRows) l

def qSatSt (l : ℕ) : SubSt := ((qSat l).update qDuals SubSt.new).2

def qSatBest (l v : ℕ) : ℚ := if v ∈ [SV.z l, .y l, .u 0 0, .w l].map (qSt l).idx then 1 else 0

/-- A solver that passes the feasible ones of the two points to the callback. -/
def qSols (m : Model) : List (ℕ → ℚ) := [qSatBest 0, qSatBest 1].filter (fun a => checkLP m a && checkInt m a)

def qSatEnd (l : ℕ) : SubSt := ((qSat l).generateSat qDuals qSols (qSatSt l)).2

theorem qSatFacts : ∀ l < 2, ((qSat l).update qDuals SubSt.new).1 = .ok () ∧ ((qSat l).generateSat qDuals qSols (qSatSt l)).1 = .ok [] ∧
    (∀ v ∈ (qSatEnd l).m.vars, v = boolVar) ∧ checkLP (qSatEnd l).m (qSatBest l) = true ∧ checkInt (qSatEnd l).m (qSatBest l) = true ∧
    checkMax (qSatEnd l).m (act (qSatEnd l).m.vars.length (qSatEnd l).m.obj (qSatBest l) + (qSatEnd l).m.offset) = true ∧
    numTerms 1 (qSat l) [] = 6 := by decide +kernel

example (σ τ : ℕ → ℕ) (hσ : ∀ n < 2 ^ 1 - 1, σ n ∈ Spec.cand qNodes n) (hτ : ∀ l < 2 ^ 1, τ l ∈ [0, 1]) :
    treeHits 1 (qSat 0) σ τ ≤ qEnd.rmpObj + 2 ^ 1 * (1 / 1000000 + (6 : ℕ) / 100000) + (2 ^ 1 - 1) * 0 := by
  have e : qDuals.newCuts = [] := by decide +kernel
  refine C70_sat qSetup qGood qSound qReached qSolve qStatus qDelivered le_rfl (by norm_num) qOptimal (by
      intro rows h
      simp only [Option.some.injEq] at h
      subst h
      intro r hr
      match r, hr with
      | 0, h => exact h
      | 1, h => exact h
      | 2, h => exact h
      | k + 3, h => exact h) (targets := [0, 1]) (y := [0, 1, 0]) (st := qSatSt) (st' := qSatEnd) (sols := fun _ => qSols) (best := qSatBest)
    (fun l hl => ⟨(qSubOk l hl).pos, rfl, (qSubOk l hl).leaf_lt, rfl, rfl, (qSubOk l hl).cand_nodup, (qSubOk l hl).targets, (qSubOk l hl).y_lt⟩) ?_ ?_ ?_ ?_ hσ hτ
  · intro l hl
    refine SubReached.update (cuts := []) .new qDuals ?_ (Prod.ext (qSatFacts l hl).1 rfl)
    have : qDuals.cut.length = 0 := by decide +kernel
    rw [this, e]
    rfl
  · intro l hl
    exact Prod.ext (qSatFacts l hl).2.1 rfl
  · intro l hl
    obtain ⟨-, -, h3, h4, h5, h6, -⟩ := qSatFacts l hl
    refine ⟨?_, check_sound _ _ h4 h5, ?_⟩
    · unfold qSols
      rw [List.mem_filter]
      refine ⟨?_, by rw [h4, h5]; rfl⟩
      have hl : l < 2 := hl
      match l, hl with
      | 0, _ => simp
      | 1, _ => simp
    · intro a ha
      have := checkMax_sound _ h3 _ h6 a ha
      rw [act_eq] at this
      exact this
  · intro l hl
    rw [e]
    exact le_of_eq (qSatFacts l hl).2.2.2.2.2.2

end Verif.DTree.Demo
