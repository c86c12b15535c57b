import Verif.DTree.OrderProps
import Verif.DTree.ReuseProps

/-!
# C105: path ids recorded in the data rows

The master problem enters path ids into the row objects of the caller. Only `add_beta_cuts` reads them. Without
`master_beta_constraints_as_cuts` they have no influence, and rows that were passed to one classifier can be passed to another.
-/

set_option linter.unusedSectionVars false
set_option linter.unusedSimpArgs false

namespace Verif.DTree

open MP Spec Fit
open Fit.Spec

namespace Spec

/-- The lists of rows agree in everything but the recorded paths. -/
def SameRows (a b : Option (List Row)) : Prop :=
  a.map (List.map fun r => { r with reachablePaths := [] }) = b.map (List.map fun r => { r with reachablePaths := [] })

end Spec

/-- A row without recorded paths. -/
def clr (r : Row) : Row := { r with reachablePaths := [] }

theorem sameRows_some {a b : List Row} : SameRows (some a) (some b) ↔ a.map clr = b.map clr := by
  unfold SameRows
  simp only [Option.map_some, Option.some.injEq]
  rfl

theorem rowAt_clr {a b : List Row} (h : a.map clr = b.map clr) (i : ℕ) : clr (rowAt a i) = clr (rowAt b i) := by
  have e : ∀ l : List Row, clr (rowAt l i) = rowAt (l.map clr) i := by
    intro l
    unfold rowAt
    rw [List.getD_eq_getElem?_getD, List.getD_eq_getElem?_getD, List.getElem?_map]
    cases l[i]? <;> rfl
  rw [e, e, h]

theorem rowAt_master {a b : List Row} (h : a.map clr = b.map clr) (i : ℕ) : (rowAt a i).removedFromMaster = (rowAt b i).removedFromMaster := by
  have := congrArg Row.removedFromMaster (rowAt_clr h i)
  exact this

theorem rowAt_sp {a b : List Row} (h : a.map clr = b.map clr) (i : ℕ) : (rowAt a i).removedFromSp = (rowAt b i).removedFromSp := by
  have := congrArg Row.removedFromSp (rowAt_clr h i)
  exact this

theorem rowAt_weight {a b : List Row} (h : a.map clr = b.map clr) (i : ℕ) : (rowAt a i).weight = (rowAt b i).weight := by
  have := congrArg Row.weight (rowAt_clr h i)
  exact this

theorem Spec.SameRows.cases {a b : Option (List Row)} (h : SameRows a b) : (a = none ∧ b = none) ∨ ∃ x y, a = some x ∧ b = some y ∧ x.map clr = y.map clr := by
  cases a with
  | none =>
    cases b with
    | none => exact .inl ⟨rfl, rfl⟩
    | some y => unfold SameRows at h; simp at h
  | some x =>
    cases b with
    | none => unfold SameRows at h; simp at h
    | some y => exact .inr ⟨x, y, rfl, rfl, sameRows_some.1 h⟩

/-! ## The master problem -/

/-- Two states of the master problem that differ in the recorded paths only. -/
structure RowTwin (s s' : MS) : Prop where
  same : s' = { s with dataRows := s'.dataRows }
  rows : SameRows s.dataRows s'.dataRows

theorem computeSatisfiedPaths_clr (leaves : List Leaf) (splits : List Split) (paths : List Path) (X : List (List ℚ)) (rows : List Row) :
    (computeSatisfiedPaths leaves splits paths X rows).map clr = rows.map clr := by
  unfold computeSatisfiedPaths
  have key : ∀ (r : ℕ) (ps : List Path) (row : Row), clr (ps.foldl (fun row p =>
      if rowSatisfiesPath (X.getD r []) (leafAt leaves p.leafId) splits p then { row with reachablePaths := setAdd row.reachablePaths p.id }
      else row) row) = clr row := by
    intro r ps
    induction ps with
    | nil => exact fun _ => rfl
    | cons p ps ih =>
      intro row
      rw [List.foldl_cons, ih]
      split <;> rfl
  apply List.ext_getElem?
  intro i
  rw [List.getElem?_map, List.getElem?_map, List.getElem?_mapIdx]
  cases rows[i]? with
  | none => rfl
  | some row =>
    simp only [Option.map_some]
    rw [key]

theorem addRowCons_rowsAlike (c : Conf) (splits : List Split) (paths : List Path) {a b : List Row} (h : a.map clr = b.map clr)
    (rs : List ℕ) (st : Model × (ℕ → Option ℕ) × List Bool) :
    rs.foldl (addRowCons c splits paths a) st = rs.foldl (addRowCons c splits paths b) st := by
  have e : addRowCons c splits paths a = addRowCons c splits paths b := by
    funext st r
    unfold addRowCons
    rw [rowAt_master h r]
  rw [e]

theorem generateMp_rowsAlike (c : Conf) {s s' : MS} (h : RowTwin s s') :
    (generateMp c s).1 = (generateMp c s').1 ∧ RowTwin (generateMp c s).2 (generateMp c s').2 := by
  obtain ⟨h1, h2⟩ := h
  generalize s'.dataRows = rows' at h1 h2
  subst h1
  rcases h2.cases with ⟨e1, e2⟩ | ⟨x, y, e1, e2, h⟩
  · subst e2
    have e : ({ s with dataRows := none } : MS) = s := by rw [← e1]
    rw [e]
    exact ⟨rfl, rfl, rfl⟩
  · subst e2
    unfold generateMp
    simp only [e1]
    by_cases hg : s.generated = true
    · rw [if_pos hg, if_pos hg]
      exact ⟨rfl, rfl, h2⟩
    · rw [if_neg hg, if_neg hg]
      cases createCutModel c.leaves s.splits s.paths with
      | error e => exact ⟨rfl, rfl, h2⟩
      | ok t =>
        have hc : (computeSatisfiedPaths c.leaves s.splits (s.paths.foldl addPathVar (s.m, [])).2 c.X x).map clr =
            (computeSatisfiedPaths c.leaves s.splits (s.paths.foldl addPathVar (s.m, [])).2 c.X y).map clr := by
          rw [computeSatisfiedPaths_clr, computeSatisfiedPaths_clr, h]
        simp only
        rw [addRowCons_rowsAlike c s.splits _ hc]
        exact ⟨trivial, rfl, sameRows_some.2 hc⟩

theorem modify_clr (v : ℕ) (rs : List ℕ) (ds : List Row) :
    (rs.foldl (fun ds r => ds.modify r (fun d => { d with reachablePaths := setAdd d.reachablePaths v })) ds).map clr = ds.map clr := by
  induction rs generalizing ds with
  | nil => rfl
  | cons r rs ih =>
    rw [List.foldl_cons, ih]
    apply List.ext_getElem?
    intro i
    rw [List.getElem?_map, List.getElem?_map, List.getElem?_modify]
    split
    · cases ds[i]? <;> rfl
    · cases ds[i]? <;> rfl

theorem addColumn_rowsAlike (c : Conf) (p : Path) {s s' : MS} (h : RowTwin s s') :
    (addColumn c p s).1 = (addColumn c p s').1 ∧ RowTwin (addColumn c p s).2 (addColumn c p s').2 := by
  obtain ⟨h1, h2⟩ := h
  generalize s'.dataRows = rows' at h1 h2
  subst h1
  unfold addColumn
  simp only
  cases getSatisfiedRows { p with id := s.m.vars.length } (leafAt c.leaves p.leafId) s.splits with
  | error e => exact ⟨rfl, rfl, h2⟩
  | ok rs =>
    simp only
    have hd : SameRows (s.dataRows.map (fun ds => rs.foldl (fun ds r => ds.modify r (fun d =>
          { d with reachablePaths := setAdd d.reachablePaths s.m.vars.length })) ds))
        (rows'.map (fun ds => rs.foldl (fun ds r => ds.modify r (fun d =>
          { d with reachablePaths := setAdd d.reachablePaths s.m.vars.length })) ds)) := by
      rcases h2.cases with ⟨e1, e2⟩ | ⟨x, y, e1, e2, h⟩
      · rw [e1, e2]; rfl
      · rw [e1, e2]
        simp only [Option.map_some]
        rw [sameRows_some, modify_clr, modify_clr, h]
    cases getSatisfiedCuts { p with id := s.m.vars.length } (leafAt c.leaves p.leafId) s.splits with
    | error e => exact ⟨rfl, rfl, hd⟩
    | ok cuts => exact ⟨rfl, rfl, hd⟩

theorem addCuts_rowsAlike (o : Oracle) (s : MS) (rows : Option (List Row)) :
    addCuts o { s with dataRows := rows } = ((addCuts o s).1, { (addCuts o s).2 with dataRows := rows }) := by
  have e : cutObjective { s with dataRows := rows } = cutObjective s := rfl
  unfold addCuts
  simp only [e]
  split <;> rfl

theorem cutRound_rowsAlike (c : Conf) (hb : c.betaAsCuts = false) (o : Oracle) (s : MS) (rows : Option (List Row)) :
    cutRound c o { s with dataRows := rows } =
      ((cutRound c o s).1, (cutRound c o s).2.1, { (cutRound c o s).2.2 with dataRows := rows }) := by
  have e : storeLp { s with dataRows := rows } = { storeLp s with dataRows := rows } := rfl
  unfold cutRound
  simp only [hb, Bool.false_eq_true, if_false, e]
  cases hg : (c.generateCuts && (0 : ℕ) == 0) with
  | true =>
    simp only [if_true]
    rw [addCuts_rowsAlike]
  | false => simp only [Bool.false_eq_true, if_false]

theorem cutRounds_rowsAlike (c : Conf) (hb : c.betaAsCuts = false) (o : Oracle) (rows : Option (List Row)) :
    ∀ (n : ℕ) (acc : List (List Bool)) (s : MS), cutRounds c o n acc { s with dataRows := rows } =
      ((cutRounds c o n acc s).1, { (cutRounds c o n acc s).2 with dataRows := rows })
  | 0, _, _ => rfl
  | n + 1, acc, s => by
    unfold cutRounds
    simp only
    split
    · rw [cutRound_rowsAlike c hb]
      simp only
      split
      · exact cutRounds_rowsAlike c hb o rows n _ (lpSolve o (cutRound c o s).2.2)
      · rfl
    · rfl

theorem solveRmp_rowsAlike (c : Conf) (hb : c.betaAsCuts = false) (o : Oracle) {s s' : MS} (h : RowTwin s s') :
    (solveRmp c o s).1 = (solveRmp c o s').1 ∧ RowTwin (solveRmp c o s).2 (solveRmp c o s').2 ∧ (solveRmp c o s').2.dataRows = s'.dataRows := by
  obtain ⟨h1, h2⟩ := h
  generalize s'.dataRows = rows' at h1 h2
  subst h1
  have hkeep : ∀ (n : ℕ) (acc : List (List Bool)) (s : MS), (cutRounds c o n acc s).2.dataRows = s.dataRows := by
    intro n acc s
    have := cutRounds_rowsAlike c hb o s.dataRows n acc s
    have e : ({ s with dataRows := s.dataRows } : MS) = s := rfl
    rw [e] at this
    exact congrArg (fun x : List (List Bool) × MS => x.2.dataRows) this
  unfold solveRmp
  simp only
  split
  · have e : lpSolve o { ({ s with dataRows := rows' } : MS) with
        prevRmpObj := s.rmpObj
        iter := s.iter + 1 } = { lpSolve o { s with
        prevRmpObj := s.rmpObj
        iter := s.iter + 1 } with dataRows := rows' } := rfl
    obtain ⟨s1, hs1⟩ : ∃ s1, s1 = lpSolve o { s with
        prevRmpObj := s.rmpObj
        iter := s.iter + 1 } := ⟨_, rfl⟩
    have hd : s1.dataRows = s.dataRows := by rw [hs1]; rfl
    rw [e, ← hs1]
    simp only
    obtain ⟨r, hr⟩ : ∃ r, r = (if s1.iter % 10 = 0 then cutRounds c o c.numCutsRound [] s1 else ([], s1)) := ⟨_, rfl⟩
    have hr' : (if s1.iter % 10 = 0 then cutRounds c o c.numCutsRound [] { s1 with dataRows := rows' } else ([], { s1 with dataRows := rows' })) =
        (r.1, { r.2 with dataRows := rows' }) := by
      rw [hr]
      split
      · exact cutRounds_rowsAlike c hb o rows' _ _ _
      · rfl
    have hrd : r.2.dataRows = s.dataRows := by
      rw [hr]
      split
      · rw [hkeep, hd]
      · exact hd
    rw [hr', ← hr]
    simp only
    split
    · exact ⟨rfl, ⟨rfl, by change SameRows r.2.dataRows rows'; rw [hrd]; exact h2⟩, rfl⟩
    · exact ⟨rfl, ⟨rfl, by change SameRows r.2.dataRows rows'; rw [hrd]; exact h2⟩, rfl⟩
  · exact ⟨rfl, ⟨rfl, h2⟩, rfl⟩

theorem solveIp_rowsAlike (o : Oracle) {s s' : MS} (h : RowTwin s s') :
    (solveIp o s).1 = (solveIp o s').1 ∧ RowTwin (solveIp o s).2 (solveIp o s').2 := by
  obtain ⟨h1, h2⟩ := h
  generalize s'.dataRows = rows' at h1 h2
  subst h1
  unfold solveIp
  simp only
  split
  · split
    · exact ⟨rfl, rfl, h2⟩
    · exact ⟨rfl, rfl, h2⟩
  · exact ⟨rfl, rfl, h2⟩

/-! ## The pricing problems -/

/-- Two pricing problems that differ in the recorded paths of their rows only. -/
structure RowCousin (c c' : SubConf) : Prop where
  same : c' = { c with dataRows := c'.dataRows }
  rows : SameRows c.dataRows c'.dataRows

section
variable {c c' : SubConf}

theorem RowCousin.removed (h : RowCousin c c') : c'.removed = c.removed := by
  funext i
  unfold SubConf.removed
  rcases h.rows.cases with ⟨e1, e2⟩ | ⟨x, y, e1, e2, h⟩
  · rw [e1, e2]
  · rw [e1, e2]
    exact (rowAt_sp h i).symm

theorem RowCousin.weight (h : RowCousin c c') : c'.weight = c.weight := by
  funext i
  unfold SubConf.weight
  rcases h.rows.cases with ⟨e1, e2⟩ | ⟨x, y, e1, e2, h⟩
  · rw [e1, e2]
  · rw [e1, e2]
    have : (rowAt x i).weight = (rowAt y i).weight := rowAt_weight h i
    simp only [this]

theorem RowCousin.kept (h : RowCousin c c') : c'.kept = c.kept := by
  have e : c'.X = c.X := by rw [h.same]
  unfold SubConf.kept
  rw [e, h.removed]

theorem RowCousin.fields (h : RowCousin c c') : c'.kind = c.kind ∧ c'.leaf = c.leaf ∧ c'.nodes = c.nodes ∧ c'.targets = c.targets ∧ c'.y = c.y ∧
    c'.isOld = c.isOld ∧ c'.leafNodes = c.leafNodes ∧ c'.cands = c.cands ∧ c'.splitVars = c.splitVars ∧ c'.oneSplit = c.oneSplit ∧
    c'.single = c.single ∧ c'.follow = c.follow ∧ c'.rowSatisfiesSplit = c.rowSatisfiesSplit := by
  rw [h.same]
  exact ⟨rfl, rfl, rfl, rfl, rfl, rfl, rfl, rfl, rfl, rfl, rfl, rfl, rfl⟩

theorem RowCousin.setObjective (h : RowCousin c c') (D : Duals) (st : SubSt) : c'.setObjective D st = c.setObjective D st := by
  obtain ⟨f1, f2, f3, f4, f5, f6, f7, f8, f9, f10, f11, f12, f13⟩ := h.fields
  have e : ∀ n, c'.objTerms D n = c.objTerms D n := by
    intro n
    unfold SubConf.objTerms
    rw [h.kept, f1, f7, f8, f2, h.weight, f5]
  unfold SubConf.setObjective
  rw [e, f1, f2]

theorem RowCousin.refresh (h : RowCousin c c') (D : Duals) (st : SubSt) : c'.refresh D st = c.refresh D st := by
  obtain ⟨f1, f2, f3, f4, f5, f6, f7, f8, f9, f10, f11, f12, f13⟩ := h.fields
  have e1 : c'.rowVars = c.rowVars := by
    unfold SubConf.rowVars
    rw [h.kept, f6]
  have e2 : c'.zCons = c.zCons := by
    unfold SubConf.zCons
    rw [h.kept, f5]
  have e3 : c'.create D st = c.create D st := by
    unfold SubConf.create
    simp only
    rw [e1, f9, f10, f12, f13, h.kept, f6, f11, e2, f4, h.setObjective]
  have e4 : c'.updateObjective D st = c.updateObjective D st := by
    unfold SubConf.updateObjective
    rw [h.setObjective]
  unfold SubConf.refresh
  rw [f2, e3, e4]

theorem RowCousin.update (h : RowCousin c c') (D : Duals) (st : SubSt) : c'.update D st = c.update D st := by
  obtain ⟨f1, f2, f3, f4, f5, f6, f7, f8, f9, f10, f11, f12, f13⟩ := h.fields
  have e : ∀ rows st, c'.addCutRows rows st = c.addCutRows rows st := by
    intro rows st
    unfold SubConf.addCutRows
    simp only [f12]
  unfold SubConf.update
  rw [f1, h.refresh]
  simp only [e]

theorem RowCousin.pathOf (h : RowCousin c c') (st : SubSt) (val : ℕ → ℚ) (order : List ℕ) (cost : ℚ) :
    c'.pathOf st val order cost = c.pathOf st val order cost := by
  rw [h.same]
  rfl

theorem RowCousin.costOf (h : RowCousin c c') (st : SubSt) (val : ℕ → ℚ) : c'.costOf st val = c.costOf st val := by
  obtain ⟨f1, f2, f3, f4, f5, f6, f7, f8, f9, f10, f11, f12, f13⟩ := h.fields
  unfold SubConf.costOf
  rw [f1, h.kept, f5, h.weight]

theorem RowCousin.generateMip (h : RowCousin c c') (st : SubSt) (ans : Answer) : c'.generateMip st ans = c.generateMip st ans := by
  obtain ⟨f1, f2, f3, f4, f5, f6, f7, f8, f9, f10, f11, f12, f13⟩ := h.fields
  unfold SubConf.generateMip
  rw [h.pathOf, h.costOf, f3, f7]

theorem RowCousin.generateSat (h : RowCousin c c') (D : Duals) (sols : Model → List (ℕ → ℚ)) (st : SubSt) :
    c'.generateSat D sols st = c.generateSat D sols st := by
  obtain ⟨f1, f2, f3, f4, f5, f6, f7, f8, f9, f10, f11, f12, f13⟩ := h.fields
  have e : ∀ st1, c'.callback D st1 = c.callback D st1 := by
    intro st1
    funext acc val
    unfold SubConf.callback SubConf.origObjective
    rw [h.costOf, h.kept, f7, f8, f2, h.pathOf]
  unfold SubConf.generateSat
  rw [h.refresh]
  simp only [e]

end

theorem round_rowsAlike {c c' : HConf} (hs : c' = { c with dataRows := c'.dataRows }) (h : SameRows c.dataRows c'.dataRows) (L : List Split) (D : Duals)
    (dr : Draws) (i : ℕ) (gen : List Path) : c'.round L D dr i gen = c.round L D dr i gen := by
  generalize c'.dataRows = rows' at hs h
  subst hs
  have e1 : HConf.removed { c with dataRows := rows' } = c.removed := by
    funext i
    unfold HConf.removed
    simp only
    rcases h.cases with ⟨e1, e2⟩ | ⟨x, y, e1, e2, h⟩
    · rw [e1, e2]
    · rw [e1, e2]
      exact (rowAt_sp h i).symm
  have e2 : HConf.weight { c with dataRows := rows' } = c.weight := by
    funext i
    unfold HConf.weight
    simp only
    rcases h.cases with ⟨e1, e2⟩ | ⟨x, y, e1, e2, h⟩
    · rw [e1, e2]
    · rw [e1, e2]
      exact (rowAt_weight h i).symm
  have e3 : HConf.countRow { c with dataRows := rows' } = c.countRow := by
    funext b r
    unfold HConf.countRow
    rw [e1, e2]
  have e4 : ∀ p sat, HConf.reducedCost { c with dataRows := rows' } L D p sat = c.reducedCost L D p sat := fun _ _ => rfl
  have e5 : HConf.bestTarget { c with dataRows := rows' } = c.bestTarget := by
    funext l
    unfold HConf.bestTarget
    rw [e3]
  unfold HConf.round
  simp only [e5, e4]

theorem rounds_rowsAlike {c c' : HConf} (hs : c' = { c with dataRows := c'.dataRows }) (h : SameRows c.dataRows c'.dataRows) (L : List Split) (D : Duals)
    (dr : Draws) : ∀ (is : List ℕ) (gen : List Path) (f : ℕ), c'.rounds L D dr is gen f = c.rounds L D dr is gen f
  | [], _, _ => rfl
  | i :: is, gen, f => by
    unfold HConf.rounds
    rw [round_rowsAlike hs h]
    split
    · rfl
    · exact rounds_rowsAlike hs h L D dr is _ _
    · exact rounds_rowsAlike hs h L D dr is _ _

/-! ## The classifier -/

variable {Ω : Type} {A A' : Args} {X : List (List ℚ)} {o : FitOracle Ω}

/-- Two worlds that differ in the recorded paths only. -/
structure RowTwinW (w w' : World Ω) : Prop where
  same : w' = { w with master := w'.master }
  master : RowTwin w.master w'.master

theorem subConfs_rowsAlike (hs : A' = { A with dataRows := A'.dataRows }) (h : SameRows A.dataRows A'.dataRows) (y : List ℕ) (i : ℕ) :
    ((A.subConfs X y)[i]? = none ∧ (A'.subConfs X y)[i]? = none) ∨
      ∃ c c', (A.subConfs X y)[i]? = some c ∧ (A'.subConfs X y)[i]? = some c' ∧ RowCousin c c' := by
  have e : A'.subConfs X y = (A.subConfs X y).map (fun c => { c with dataRows := A'.dataRows }) := by
    unfold Args.subConfs
    rw [hs]
    simp only [List.map_flatMap]
    refine List.flatMap_congr (fun leaf _ => ?_)
    split
    · rw [List.map_map]
      rfl
    · rfl
  have hm : ∀ c ∈ A.subConfs X y, c.dataRows = A.dataRows := by
    intro c hc
    unfold Args.subConfs at hc
    obtain ⟨leaf, -, hc⟩ := List.mem_flatMap.1 hc
    split at hc
    · obtain ⟨t, -, rfl⟩ := List.mem_map.1 hc
      rfl
    · rw [List.mem_singleton.1 hc]
      rfl
  cases hc : (A.subConfs X y)[i]? with
  | none => exact Or.inl ⟨rfl, by rw [e]; simp [hc]⟩
  | some c =>
    refine Or.inr ⟨c, { c with dataRows := A'.dataRows }, rfl, by rw [e]; simp [hc], ⟨rfl, ?_⟩⟩
    rw [hm c (List.mem_of_getElem? hc)]
    exact h

theorem twins_rowsAlike (hs : A' = { A with dataRows := A'.dataRows }) (hr : SameRows A.dataRows A'.dataRows) (hb : A.betaAsCuts = false) :
    Twins (env o A X) (env o A' X) (fun _ => True) RowTwinW := by
  have hmc : A'.masterConf X = A.masterConf X := by
    unfold Args.masterConf
    rw [hs]
  constructor
  · intro w w' h
    obtain ⟨h1, h2⟩ := h
    generalize w'.master = m' at h1 h2
    subst h1
    exact ⟨rfl, rfl, h2⟩
  · intro y w w' h
    obtain ⟨h1, h2⟩ := h
    generalize w'.master = m' at h1 h2
    subst h1
    have := generateMp_rowsAlike (A.masterConf X) h2
    change (generateMp (A.masterConf X) w.master).1 = (generateMp (A'.masterConf X) m').1 ∧ _
    refine ⟨by rw [hmc]; exact this.1, rfl, ?_⟩
    change RowTwin (generateMp (A.masterConf X) w.master).2 (generateMp (A'.masterConf X) m').2
    rw [hmc]
    exact this.2
  · intro w w' h
    obtain ⟨h1, h2⟩ := h
    generalize w'.master = m' at h1 h2
    subst h1
    have := solveRmp_rowsAlike (A.masterConf X) hb o.master h2
    change (solveRmp (A.masterConf X) o.master w.master).1 = (solveRmp (A'.masterConf X) o.master m').1 ∧ _
    refine ⟨by rw [hmc]; exact this.1, rfl, ?_⟩
    change RowTwin (solveRmp (A.masterConf X) o.master w.master).2 (solveRmp (A'.masterConf X) o.master m').2
    rw [hmc]
    exact this.2.1
  · intro w w' h
    refine ⟨?_, h⟩
    change Except.ok _ = Except.ok _
    rw [h.master.same]
    rfl
  · exact fun _ _ _ => rfl
  · exact fun _ _ h => h
  · intro l i D w w' h
    change (updateAt A X l i D w).1 = (updateAt A' X l i D w').1 ∧ RowTwinW (updateAt A X l i D w).2 (updateAt A' X l i D w').2
    obtain ⟨h1, h2⟩ := h
    generalize w'.master = m' at h1 h2
    subst h1
    unfold updateAt
    split
    · refine ⟨rfl, rfl, ?_⟩
      obtain ⟨h3, h4⟩ := h2
      generalize m'.dataRows = rows' at h3 h4
      subst h3
      exact ⟨rfl, h4⟩
    · simp only
      rcases subConfs_rowsAlike hs hr w.y i with ⟨e1, e2⟩ | ⟨c, c', e1, e2, hc⟩
      · rw [e1, e2]
        exact ⟨rfl, rfl, h2⟩
      · rw [e1, e2]
        simp only
        rw [hc.update]
        exact ⟨rfl, rfl, h2⟩
  · intro l i D w w' h
    change (generateAt o A X l i D w).1 = (generateAt o A' X l i D w').1 ∧ RowTwinW (generateAt o A X l i D w).2 (generateAt o A' X l i D w').2
    obtain ⟨h1, h2⟩ := h
    generalize w'.master = m' at h1 h2
    subst h1
    unfold generateAt
    split
    · simp only
      have hhc : A'.heurConf X w.y = { A.heurConf X w.y with dataRows := (A'.heurConf X w.y).dataRows } := by
        unfold Args.heurConf
        rw [hs]
      unfold HConf.generate World.heur
      simp only
      rw [rounds_rowsAlike hhc hr]
      obtain ⟨h3, h4⟩ := h2
      generalize m'.dataRows = rows' at h3 h4
      subst h3
      generalize HConf.rounds (A.heurConf X w.y) w.master.splits D (o.draws w.ω).1 (List.range 100) [] w.failed = r
      obtain ⟨r, f⟩ := r
      cases r with
      | error e => exact ⟨rfl, rfl, rfl, h4⟩
      | ok ps => exact ⟨rfl, rfl, rfl, h4⟩
    · simp only
      rcases subConfs_rowsAlike hs hr w.y i with ⟨e1, e2⟩ | ⟨c, c', e1, e2, hc⟩
      · rw [e1, e2]
        exact ⟨rfl, rfl, h2⟩
      · rw [e1, e2]
        simp only
        unfold priceAt
        rw [hc.fields.2.2.2.2.2.1]
        simp only
        rw [hc.generateMip, hc.generateSat]
        split
        · exact ⟨rfl, rfl, h2⟩
        · exact ⟨rfl, rfl, h2⟩
  · exact fun _ _ _ _ _ _ _ _ _ _ => trivial
  · intro p w w' _ h
    obtain ⟨h1, h2⟩ := h
    generalize w'.master = m' at h1 h2
    subst h1
    have := addColumn_rowsAlike (A.masterConf X) p h2
    change (addColumn (A.masterConf X) p w.master).1 = (addColumn (A'.masterConf X) p m').1 ∧ _
    refine ⟨by rw [hmc]; exact this.1, rfl, ?_⟩
    change RowTwin (addColumn (A.masterConf X) p w.master).2 (addColumn (A'.masterConf X) p m').2
    rw [hmc]
    exact this.2
  · intro w w' h
    obtain ⟨h1, h2⟩ := h
    generalize w'.master = m' at h1 h2
    subst h1
    have := solveIp_rowsAlike o.master h2
    exact ⟨this.1, rfl, this.2⟩

/-! ## The rows over a run -/

theorem Spec.SameRows.refl (a : Option (List Row)) : SameRows a a := rfl

theorem Spec.SameRows.symm {a b : Option (List Row)} (h : SameRows a b) : SameRows b a := Eq.symm h

theorem Spec.SameRows.trans {a b c : Option (List Row)} (h : SameRows a b) (h' : SameRows b c) : SameRows a c := Eq.trans h h'

theorem generateMp_keeps (c : Conf) (s : MS) {x : List Row} (h : SameRows (some x) s.dataRows) : SameRows (some x) (generateMp c s).2.dataRows := by
  unfold generateMp
  split
  · exact h
  · split
    · exact h
    · rcases h.cases with ⟨e, -⟩ | ⟨x', z, e1, e2, hz⟩
      · cases e
      · cases e1
        rw [e2]
        simp only
        rw [sameRows_some, computeSatisfiedPaths_clr]
        exact hz

theorem addColumn_rowsKept (c : Conf) (p : Path) (s : MS) : SameRows s.dataRows (addColumn c p s).2.dataRows := by
  unfold addColumn
  simp only
  split
  · rfl
  · rename_i rs _
    have hd : SameRows s.dataRows (s.dataRows.map (fun ds => rs.foldl (fun ds r => ds.modify r (fun d =>
          { d with reachablePaths := setAdd d.reachablePaths s.m.vars.length })) ds)) := by
      cases s.dataRows with
      | none => rfl
      | some l =>
        simp only [Option.map_some]
        rw [sameRows_some, modify_clr]
    split
    · exact hd
    · exact hd

theorem addCuts_keeps (o : Oracle) (s : MS) : (addCuts o s).2.dataRows = s.dataRows := by
  unfold addCuts
  simp only
  split <;> rfl

theorem cutRound_keeps (c : Conf) (o : Oracle) (s : MS) : (cutRound c o s).2.2.dataRows = s.dataRows := by
  obtain ⟨b, hb⟩ : ∃ b, b = if c.betaAsCuts then addBetaCuts c (storeLp s) else (0, storeLp s) := ⟨_, rfl⟩
  have e : (cutRound c o s).2.2.dataRows = (if c.generateCuts && b.1 == 0 then addCuts o b.2 else ([], b.2)).2.dataRows := by
    rw [hb]; rfl
  have hb' : b.2.dataRows = s.dataRows := by rw [hb]; split_ifs <;> rfl
  rw [e]
  split_ifs
  · exact (addCuts_keeps o b.2).trans hb'
  · exact hb'

theorem cutRounds_keeps (c : Conf) (o : Oracle) (n : ℕ) : ∀ acc s, (cutRounds c o n acc s).2.dataRows = s.dataRows := by
  induction n with
  | zero => intro acc s; rfl
  | succ n ih =>
    intro acc s
    unfold cutRounds
    simp only
    split_ifs with h1 h2
    · exact (ih _ (lpSolve o (cutRound c o s).2.2)).trans (cutRound_keeps c o s)
    · exact cutRound_keeps c o s
    · rfl

theorem solveRmp_keeps (c : Conf) (o : Oracle) (s : MS) : (solveRmp c o s).2.dataRows = s.dataRows := by
  unfold solveRmp
  by_cases hg : s.generated
  · obtain ⟨s1, hs1⟩ : ∃ s1, s1 = lpSolve o { s with
      prevRmpObj := s.rmpObj
      iter := s.iter + 1 } := ⟨_, rfl⟩
    have hp1 : s1.dataRows = s.dataRows := by rw [hs1]; rfl
    obtain ⟨r, hr⟩ : ∃ r, r = if s1.iter % 10 = 0 then cutRounds c o c.numCutsRound [] s1 else ([], s1) := ⟨_, rfl⟩
    have hr' : r.2.dataRows = s.dataRows := by
      rw [hr]
      split_ifs
      · exact (cutRounds_keeps _ _ _ _ _).trans hp1
      · exact hp1
    rw [if_pos hg]
    simp only
    rw [← hs1, ← hr]
    split
    · exact hr'
    · exact hr'
  · rw [if_neg hg]

theorem solveIp_keeps (o : Oracle) (s : MS) : (solveIp o s).2.dataRows = s.dataRows := by
  unfold solveIp
  simp only
  split
  · split <;> rfl
  · rfl

theorem reached_rowsAlike {d : ℕ} {c : Conf} {o : Oracle} {paths : List Path} {splits : List Split} {x : List Row} {s : MS}
    (h : Reached d c o paths splits (some x) s) : SameRows (some x) s.dataRows := by
  induction h with
  | @generate s h =>
    have := generateMp_keeps c (MS.init paths splits (some x)) (.refl _)
    rw [h] at this
    exact this
  | again h ih => exact generateMp_keeps c _ ih
  | column h p hp ih => exact ih.trans (addColumn_rowsKept c p _)
  | beta h ih => exact ih
  | cuts h ih => rw [addCuts_keeps]; exact ih
  | rmp h ih => rw [solveRmp_keeps]; exact ih
  | ip h ih => rw [solveIp_keeps]; exact ih

/-! ## C105 -/

/-- The used objects of `Args.after`, but with the data rows of `A` as they were. -/
def Args.renewed (A : Args) (w : World Ω) : Args := { A.after w with dataRows := A.dataRows }

variable {d : ℕ} {y : List ℤ} {o' : FitOracle Ω} {tol tol' : ℚ} {maxIt maxIt' : ℤ} {limit limit' : ℚ}
  {fuel fuel' : ℕ} {e0 e0' : Fit.Est} {ω ω' : Ω} {w : World Ω} {u u' : Unit} {s s' : Fit.St (World Ω) Duals Path} {res : Except Err Unit}

/-- **C105.** The data rows that the caller passed keep everything but the recorded paths, whatever the options, in any number of calls. -/
theorem C105_rows_kept (hf : FitOk d A X (encoded y)) (hc : FitContract d A X o tol) (hy : TwoClasses y) (h : Session o A X y w) :
    SameRows A.dataRows (A.after w).dataRows := by
  cases ha : A.dataRows with
  | none => unfold Args.after; rw [ha]; rfl
  | some x =>
    have e : (A.after w).dataRows = w.master.dataRows := by unfold Args.after; rw [ha]; rfl
    rw [e]
    rcases session_state hf hc hy h with e | ⟨cuts, hw⟩
    · rw [e]
      change SameRows _ A.dataRows
      rw [ha]
      rfl
    · have : Reached d (A.masterConf X) o.master (marked A) A.splits A.dataRows w.master := hw.reached
      rw [ha] at this
      exact reached_rowsAlike this

/-- **C105.** Without `master_beta_constraints_as_cuts` the recorded paths have no influence: classifiers whose data rows differ in them only are
fitted by the same calls with the same answers, to the same result, and predict alike. Nothing is assumed about the solvers, the data or
the tree. -/
theorem C105_rows_ignored (A : Args) (rows : Option (List Row)) (hrows : SameRows A.dataRows rows) (hb : A.betaAsCuts = false) (o : FitOracle Ω)
    (maxIt : ℤ) (limit : ℚ) (X : List (List ℚ)) (fuel : ℕ) (y : List ℤ) (e0 : Fit.Est) (ω : Ω) :
    (fitNew o { A with dataRows := rows } maxIt limit X fuel y e0 ω = none ↔ fitNew o A maxIt limit X fuel y e0 ω = none) ∧
    ∀ res s, fitNew o A maxIt limit X fuel y e0 ω = some (res, s) →
      ∃ s', fitNew o { A with dataRows := rows } maxIt limit X fuel y e0 ω = some (res, s') ∧ s'.est = s.est ∧ s'.trace = s.trace ∧
        s'.world.master.m = s.world.master.m ∧ s'.world.master.paths = s.world.master.paths ∧ s'.world.master.selected = s.world.master.selected ∧
        ∀ Z, predictFitted { A with dataRows := rows } s' Z = predictFitted A s Z := by
  have ht : Twins (env o A X) (env o { A with dataRows := rows } X) (fun _ => True) RowTwinW := twins_rowsAlike rfl hrows hb
  have h0 : RowTwinW (World.init A ω) (World.init { A with dataRows := rows } ω) := ⟨rfl, rfl, hrows⟩
  have hcfg : config { A with dataRows := rows } maxIt limit = config A maxIt limit := by
    unfold config Args.subConfs
    simp only [List.length_flatMap]
    cases A.useOld <;> simp
  have := (fit_twin ht (config A maxIt limit) fuel y e0 h0).cases
  unfold fitNew
  rw [hcfg]
  refine ⟨this.1, ?_⟩
  intro res s hr
  obtain ⟨s', hr', h⟩ := this.2 res s hr
  have hw := h.world
  have hm := hw.master.same
  refine ⟨s', hr', h.est.symm, h.trace.symm, ?_, ?_, ?_, ?_⟩
  · rw [hm]
  · rw [hm]
  · rw [hm]
  · intro Z
    unfold predictFitted
    rw [← h.est, hm]

/-- **C105, part that holds.** If no cut was added, and either no data rows were passed or `master_beta_constraints_as_cuts` is off, a second
classifier from the used objects can be fitted with any solvers that meet their contracts: its `fit` ends and raises nothing, and if its integer
master problem is solved to optimality, the costs of its tree add up to at least those of the tree of the first. The contracts are about the
programs for data rows without recorded paths, which by `C105_rows_ignored` are the programs of this run. Missing for C105: added cuts, and
used data rows together with `master_beta_constraints_as_cuts`; there it fails. -/
theorem C105_second_fit_rows_partial (hf : FitOk d A X (encoded y)) (hc : FitContract d A X o tol) (hy : TwoClasses y) (h : Session o A X y w)
    (hr : Fit.fit (env o A X) (config A maxIt limit) fuel y e0 w = some (.ok u, s)) (hcuts : s.world.master.cutCons = [])
    (hrows : A.dataRows = none ∨ A.betaAsCuts = false) (hc' : FitContract d (A.renewed s.world) X o' tol') :
    (∃ r, fitNew o' (A.after s.world) maxIt' limit' X (enough d (A.renewed s.world) X) y e0' ω = some r) ∧
    (∀ res s', fitNew o' (A.after s.world) maxIt' limit' X fuel' y e0' ω = some (res, s') → res = .ok () ∧
      (IpOptimal d (A.renewed s.world) X o' → (s.world.master.selected.map (·.cost)).sum ≤ (s'.world.master.selected.map (·.cost)).sum)) := by
  have hs' : Session o A X y s.world := .fit h maxIt limit fuel e0 hr
  rcases hrows with hrows | hb
  · have e : A.renewed s.world = A.after s.world := by
      unfold Args.renewed Args.after
      rw [hrows]
      rfl
    rw [e] at hc' ⊢
    exact C105_second_fit_partial hf hc hy h hr hcuts hrows hc'
  · have hsame := C105_rows_kept hf hc hy hs'
    obtain ⟨σ, P, hP⟩ := hf.tree
    obtain ⟨Q, hQ, -⟩ := after_tree hf hc hy hs' hP
    have hf' : FitOk d (A.renewed s.world) X (encoded y) :=
      reuse_ok hf hc hy hs' hcuts s.world.master.paths (fun _ hp => hp) ⟨σ, Q, fun l hl => ⟨List.take_subset _ _ (hQ l hl).1, (hQ l hl).2⟩⟩
    have hsame' : SameRows (A.after s.world).dataRows A.dataRows := hsame.symm
    have e : { A.renewed s.world with dataRows := (A.after s.world).dataRows } = A.after s.world := rfl
    refine ⟨?_, ?_⟩
    · obtain ⟨⟨res, s2⟩, h2⟩ := C71_terminates hf' hc' maxIt' limit' e0' ω
      obtain ⟨s3, h3, -⟩ := (C105_rows_ignored (A.renewed s.world) (A.after s.world).dataRows hsame hb o' maxIt' limit' X _ y e0' ω).2 res s2 h2
      rw [e] at h3
      exact ⟨_, h3⟩
    · intro res s' hr'
      obtain ⟨s3, h3, -, -, -, -, hsel, -⟩ := (C105_rows_ignored (A.after s.world) A.dataRows hsame' hb o' maxIt' limit' X fuel' y e0' ω).2 res s' hr'
      have h3' : fitNew o' (A.renewed s.world) maxIt' limit' X fuel' y e0' ω = some (res, s3) := h3
      obtain rfl := C71_fit_succeeds hf' hc' hy h3'
      refine ⟨rfl, fun hip => ?_⟩
      rw [← hsel]
      obtain ⟨s1, σ, P, -, -, hM, ht, hperm, -⟩ := fit_final hf hc hy (session_inv hf hc hy h) hr
      rw [(hperm.map _).sum_eq, List.map_map]
      refine C73_beats_initial_trees hf' hc' hy hip h3' (σ := σ) (P := P) ?_
      intro l hl
      refine ⟨?_, ht.leaf l hl, ht.splits l hl⟩
      change P l ∈ s.world.master.paths
      rw [hM, solveIp_paths]
      exact ht.mem l hl

end Verif.DTree
