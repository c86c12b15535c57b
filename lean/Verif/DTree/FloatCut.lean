import Verif.DTree.CutComplete
import Verif.DTree.FloatPrice

/-!
# Cut generation of the decision tree master with rounded arithmetic (C121)

`Verif.DTree.Master` computes the scaled objective of `add_cuts`, the sum of `CutGenerator.on_solution_callback` and the test
`violated_row_constraint` with exact numbers. Python uses floats: here every operation is rounded by a parameter, and the paths of a row are
summed in the arbitrary order in which a Python set is listed.
-/

set_option linter.unusedSectionVars false
set_option linter.unusedSimpArgs false

namespace Verif.DTree

open MP Spec Fl

/-! ## The model -/

/-- The terms that `on_solution_callback` adds, `_dtree_classifier.py:515-519`. -/
def hitTerms (pathVars : List ℕ) (coeffs : List ℚ) (a : ℕ → Bool) : List ℚ := ((pathVars.zip coeffs).filter (fun t => a t.1)).map (·.2)

/-- `CutGenerator.on_solution_callback`, `_dtree_classifier.py:510-526`; `1 + 1e-6` is a rounded sum of a rounded literal. -/
def cutCallbackR (rnd : ℚ → ℚ) (pathVars splitVars : List ℕ) (coeffs : List ℚ) (acc : List (List Bool × List Bool)) (a : ℕ → Bool) :
    List (List Bool × List Bool) :=
  if flSum rnd 0 (hitTerms pathVars coeffs a) > rnd (1 + rnd (1 / 1000000)) then acc ++ [(pathVars.map a, splitVars.map a)] else acc

/-- The objective of the cut generation model, `_dtree_classifier.py:929-939`: `int(floor(value * 1000000))` of a rounded product. -/
def cutObjectiveR (rnd : ℚ → ℚ) (s : MS) : List (ℕ × ℤ) :=
  s.cutPathVars.zip (s.paths.map (fun p => ⌊rnd (s.pathSol p.id * 1000000)⌋))

/-- The cuts recorded by the callback. -/
def recordedR (rnd : ℚ → ℚ) (o : Oracle) (s : MS) : List (List Bool × List Bool) :=
  (o.cut ⟨s.cp.nvars, s.cp.cons, cutObjectiveR rnd s⟩ s.cutCalls).foldl
    (cutCallbackR rnd s.cutPathVars s.cutSplitVars (s.paths.map (fun p => s.pathSol p.id))) []

/-- `add_cuts`, `_dtree_classifier.py:927-975`. -/
def addCutsR (rnd : ℚ → ℚ) (o : Oracle) (s : MS) : List (List Bool) × MS :=
  storeCuts s ⟨s.cp.nvars, s.cp.cons, cutObjectiveR rnd s⟩ (recordedR rnd o s)

/-- `violated_row_constraint`, `_dtree_classifier.py:981-988`. -/
def violatedRowR (rnd : ℚ → ℚ) (sol : ℕ → ℚ) (ids : List ℕ) : Bool :=
  decide (|rnd (flSum rnd 0 (ids.map sol) - 1)| > rnd (1 / 1000000))

/-- `add_beta_cuts`, `_dtree_classifier.py:990-1013`. `ord` lists the set of the paths of a row (`get_satisfied_path_ids`, line 977-979): the
order may depend on the time of the call and on the row. -/
def addBetaCutsR (rnd : ℚ → ℚ) (ord : ℕ → ℕ → List ℕ → List ℕ) (c : Conf) (s : MS) : ℕ × MS :=
  storeBeta c (fun r => ord s.lpCalls r (rowAt (s.dataRows.getD []) r).reachablePaths)
    (fun r => violatedRowR rnd s.pathSol (ord s.lpCalls r (rowAt (s.dataRows.getD []) r).reachablePaths)) s

/-- The cut round, `_dtree_classifier.py:1041-1072`. -/
def cutRoundR (rnd : ℚ → ℚ) (ord : ℕ → ℕ → List ℕ → List ℕ) (c : Conf) (o : Oracle) (s : MS) : ℕ × List (List Bool) × MS :=
  let s := storeLp s
  let b := if c.betaAsCuts then addBetaCutsR rnd ord c s else (0, s)
  let g := if c.generateCuts && b.1 == 0 then addCutsR rnd o b.2 else ([], b.2)
  (b.1, g.1, { g.2 with totalCuts := g.2.totalCuts + (g.1.length + b.1) })

/-- The loop over the cut rounds. -/
def cutRoundsR (rnd : ℚ → ℚ) (ord : ℕ → ℕ → List ℕ → List ℕ) (c : Conf) (o : Oracle) : ℕ → List (List Bool) → MS → List (List Bool) × MS
  | 0, acc, s => (acc, s)
  | n + 1, acc, s =>
    if s.last.status = .optimal then
      let r := cutRoundR rnd ord c o s
      if r.2.1.length > 0 ∨ r.1 > 0 then cutRoundsR rnd ord c o n (acc ++ r.2.1) (lpSolve o r.2.2)
      else (acc, r.2.2)
    else (acc, s)

/-- `solve_rmp`, `_dtree_classifier.py:1024-1113`. -/
def solveRmpR (rnd : ℚ → ℚ) (ord : ℕ → ℕ → List ℕ → List ℕ) (c : Conf) (o : Oracle) (s : MS) : Except Err Duals × MS :=
  if s.generated then
    let s1 := lpSolve o { s with
      prevRmpObj := s.rmpObj
      iter := s.iter + 1 }
    let r := if s1.iter % 10 = 0 then cutRoundsR rnd ord c o c.numCutsRound [] s1 else ([], s1)
    if r.2.last.status = .optimal then (.ok (readDuals c r.2 r.1), storeLp r.2)
    else (.ok ⟨[], [], fun _ _ _ => none, [], r.1⟩, r.2)
  else (.error .assertionError, s)

/-! ## What is claimed -/

/-- `ord` lists sets. -/
def Spec.Lists (ord : ℕ → ℕ → List ℕ → List ℕ) : Prop := ∀ k r l, (ord k r l).Perm l

/-- States of a master problem after `generate_mp` and any sequence of calls, with rounded arithmetic. -/
inductive Spec.ReachedR (rnd : ℚ → ℚ) (ord : ℕ → ℕ → List ℕ → List ℕ) (d : ℕ) (c : Conf) (o : Oracle) (paths : List Path) (splits : List Split)
    (dataRows : Option (List Row)) : MS → Prop
  | generate {s : MS} (h : generateMp c (MS.init paths splits dataRows) = (.ok (), s)) : ReachedR rnd ord d c o paths splits dataRows s
  | again {s : MS} (h : ReachedR rnd ord d c o paths splits dataRows s) : ReachedR rnd ord d c o paths splits dataRows (generateMp c s).2
  | column {s : MS} (h : ReachedR rnd ord d c o paths splits dataRows s) (p : Path) (hp : GoodPath d splits p) :
      ReachedR rnd ord d c o paths splits dataRows (addColumn c p s).2
  | beta {s : MS} (h : ReachedR rnd ord d c o paths splits dataRows s) : ReachedR rnd ord d c o paths splits dataRows (addBetaCutsR rnd ord c s).2
  | cuts {s : MS} (h : ReachedR rnd ord d c o paths splits dataRows s) : ReachedR rnd ord d c o paths splits dataRows (addCutsR rnd o s).2
  | rmp {s : MS} (h : ReachedR rnd ord d c o paths splits dataRows s) : ReachedR rnd ord d c o paths splits dataRows (solveRmpR rnd ord c o s).2
  | ip {s : MS} (h : ReachedR rnd ord d c o paths splits dataRows s) : ReachedR rnd ord d c o paths splits dataRows (solveIp o s).2

/-- The sum of the absolute values of the stored LP solution over the paths. -/
def Spec.pathMass (s : MS) : ℚ := (s.paths.map (fun p => |s.pathSol p.id|)).sum

/-- Error of a sum of at most `n` terms with absolute sum `A`. -/
def Spec.sumSlack (u η : ℚ) (n : ℕ) (A : ℚ) : ℚ := 2 * n * (u * A + η)

/-- Error of the literal `1e-6`. -/
def Spec.litSlack (u η : ℚ) : ℚ := u / 1000000 + η

/-- Error of the comparison of `on_solution_callback`. -/
def Spec.cutSlack (u η : ℚ) (n : ℕ) (A : ℚ) : ℚ := sumSlack u η n A + (litSlack u η + (u * (1 + 1 / 1000000 + litSlack u η) + η))

/-- Error of the scaled objective of `add_cuts`, twice. -/
def Spec.floorSlack (u η : ℚ) (n : ℕ) (A : ℚ) : ℚ := 2 * (u * A + n * η / 1000000)

/-- Error of the comparison of `violated_row_constraint`. -/
def Spec.betaSlack (u η : ℚ) (n : ℕ) (A : ℚ) : ℚ := sumSlack u η n A + (u * (A + sumSlack u η n A + 1) + η) + litSlack u η

/-! ## The invariant -/

theorem cutCallbackR_mem (rnd : ℚ → ℚ) (pv sv : List ℕ) (coeffs : List ℚ) (sols : List (ℕ → Bool)) (acc : List (List Bool × List Bool))
    (x : List Bool × List Bool) (hx : x ∈ sols.foldl (cutCallbackR rnd pv sv coeffs) acc) :
    x ∈ acc ∨ ∃ a ∈ sols, x = (pv.map a, sv.map a) ∧ flSum rnd 0 (hitTerms pv coeffs a) > rnd (1 + rnd (1 / 1000000)) := by
  induction sols generalizing acc with
  | nil => exact Or.inl hx
  | cons a l ih =>
    rw [List.foldl_cons] at hx
    rcases ih _ hx with h | ⟨b, hb, h⟩
    · unfold cutCallbackR at h
      split_ifs at h with hc
      · rcases List.mem_append.1 h with h | h
        · exact Or.inl h
        · exact Or.inr ⟨a, by simp, List.mem_singleton.1 h, hc⟩
      · exact Or.inl h
    · exact Or.inr ⟨b, List.mem_cons_of_mem _ hb, h⟩

theorem cutCallbackR_records (rnd : ℚ → ℚ) (pv sv : List ℕ) (coeffs : List ℚ) (sols : List (ℕ → Bool)) (acc : List (List Bool × List Bool))
    (h : sols.foldl (cutCallbackR rnd pv sv coeffs) acc = []) :
    acc = [] ∧ ∀ a ∈ sols, flSum rnd 0 (hitTerms pv coeffs a) ≤ rnd (1 + rnd (1 / 1000000)) := by
  induction sols generalizing acc with
  | nil => exact ⟨h, by simp⟩
  | cons a l ih =>
    rw [List.foldl_cons] at h
    obtain ⟨h1, h2⟩ := ih _ h
    unfold cutCallbackR at h1
    split_ifs at h1 with hc
    · simp at h1
    · refine ⟨h1, ?_⟩
      intro b hb
      rcases List.mem_cons.1 hb with rfl | hb
      · exact not_lt.1 hc
      · exact h2 b hb

theorem hitTerms_sum (pv : List ℕ) (coeffs : List ℚ) (a : ℕ → Bool) : (hitTerms pv coeffs a).sum = hitSum pv coeffs a := by
  unfold hitTerms hitSum
  induction pv.zip coeffs with
  | nil => rfl
  | cons t l ih =>
    rw [List.filter_cons, List.map_cons, List.sum_cons, ← ih]
    cases a t.1 <;> simp

theorem hitTerms_sublist (pv : List ℕ) (coeffs : List ℚ) (a : ℕ → Bool) : (hitTerms pv coeffs a).Sublist coeffs := by
  unfold hitTerms
  induction pv generalizing coeffs with
  | nil => simp
  | cons v vs ih =>
    cases coeffs with
    | nil => simp
    | cons x xs =>
      rw [List.zip_cons_cons, List.filter_cons]
      cases a v
      · exact (ih xs).cons _
      · exact (ih xs).cons_cons _

theorem sublist_abs {l l' : List ℚ} (h : l.Sublist l') : (l.map (fun x => |x|)).sum ≤ (l'.map (fun x => |x|)).sum := by
  induction h with
  | slnil => exact le_rfl
  | cons x _ ih => rw [List.map_cons, List.sum_cons]; have := abs_nonneg x; linarith
  | cons_cons x _ ih => rw [List.map_cons, List.sum_cons, List.map_cons, List.sum_cons]; linarith

/-- What is known about a solution of the cut generation model. -/
theorem Inv.solution {d : ℕ} {c : Conf} {splits : List Split} {cuts : List (List Bool)} {own : List Own} {cd : List CD} {s : MS}
    (h : Inv d c splits cuts own cd s) {a : ℕ → Bool} (hold : s.cp.Holds a) :
    (s.cutSplitVars.map a).length = splits.length ∧ Monotone splits (fun t => (s.cutSplitVars.map a).getD t false) ∧
    (∀ (i : ℕ) (p : Path), s.paths[i]? = some p →
      ((s.cutPathVars.map a)[i]? = some true ↔ Follows d (fun t => (s.cutSplitVars.map a).getD t false) p)) ∧
    hitSum s.cutPathVars (s.paths.map (fun p => s.pathSol p.id)) a =
      pathSum s.paths s.pathSol (Follows d (fun t => (s.cutSplitVars.map a).getD t false)) := by
  obtain ⟨h1, h2⟩ := (h.cut.holds a).1 hold
  have hrow : ∀ t < splits.length, (s.cutSplitVars.map a).getD t false = a t := by
    intro t ht
    rw [h.cut.sv, List.getD_eq_getElem?_getD, List.getElem?_map, List.getElem?_range ht]
    rfl
  have hfol : ∀ (i : ℕ) (p : Path), s.paths[i]? = some p →
      (a (splits.length + i) = true ↔ Follows d (fun t => (s.cutSplitVars.map a).getD t false) p) := by
    intro i p hip
    have hg := h.good p (List.mem_of_getElem? hip)
    rw [h1 i p hip]
    exact follows_congr (fun t ht => (hrow t (hg.2 t ht)).symm)
  refine ⟨by simp [h.cut.sv], ?_, ?_, ?_⟩
  · intro i hi j hj hf hlt
    simp only
    rw [hrow i hi, hrow j hj]
    exact h2 i hi j hj hf hlt
  · intro i p hip
    have hi := (List.getElem?_eq_some_iff.1 hip).1
    rw [h.cut.pv, List.getElem?_map, List.getElem?_range' (by omega)]
    simp only [one_mul, Option.map_some, Option.some.injEq]
    exact hfol i p hip
  · refine hitSum_paths _ _ _ _ _ (by rw [h.cut.pv]; simp) ?_
    intro i v p hv hip
    have hi := (List.getElem?_eq_some_iff.1 hip).1
    rw [h.cut.pv, List.getElem?_range' (by omega)] at hv
    injection hv with hv
    rw [← hv, one_mul]
    exact hfol i p hip

theorem recordedR_sol {rnd : ℚ → ℚ} {o : Oracle} (ho : CutSound o) {s : MS} {x : List Bool × List Bool} (hx : x ∈ recordedR rnd o s) :
    ∃ a, s.cp.Holds a ∧ x = (s.cutPathVars.map a, s.cutSplitVars.map a) ∧
      flSum rnd 0 (hitTerms s.cutPathVars (s.paths.map (fun p => s.pathSol p.id)) a) > rnd (1 + rnd (1 / 1000000)) := by
  rcases cutCallbackR_mem _ _ _ _ _ _ x hx with hx | ⟨a, ha, rfl, hobj⟩
  · cases hx
  · have := ho _ _ a ha
    exact ⟨a, this, rfl, hobj⟩

theorem inv_addCutsR {rnd : ℚ → ℚ} {d : ℕ} {c : Conf} {splits : List Split} (hid : ∀ i (s : Split), splits[i]? = some s → s.id = i)
    {cuts : List (List Bool)} {own : List Own} {cd : List CD} {s : MS}
    (h : Inv d c splits cuts own cd s) {o : Oracle} (ho : CutSound o) :
    Inv d c splits (cuts ++ (recordedR rnd o s).map (·.2)) own (cd ++ (List.range' cuts.length (recordedR rnd o s).length).map .cut)
        (addCutsR rnd o s).2 ∧
      (addCutsR rnd o s).1 = (recordedR rnd o s).map (·.2) ∧
      (addCutsR rnd o s).2.paths = s.paths ∧ (addCutsR rnd o s).2.nsVars = s.nsVars := by
  refine inv_storeCuts hid h (cutObjectiveR rnd s) ?_
  intro x hx
  obtain ⟨a, ha, rfl, -⟩ := recordedR_sol ho hx
  exact (h.solution ha).2.2.1

theorem inv_addBetaCutsR {rnd : ℚ → ℚ} {ord : ℕ → ℕ → List ℕ → List ℕ} (hord : Lists ord) {d : ℕ} {c : Conf} {splits : List Split}
    {cuts : List (List Bool)} {own : List Own} {cd : List CD} {s : MS} (h : Inv d c splits cuts own cd s) :
    ∃ new : List ℕ, Inv d c splits cuts own (cd ++ new.map .row) (addBetaCutsR rnd ord c s).2 ∧ (addBetaCutsR rnd ord c s).1 = new.length ∧
      new.length ≤ 10 ∧ new.Nodup ∧
      (∀ r ∈ new, r < c.X.length ∧ (rowAt (s.dataRows.getD []) r).removedFromMaster = false ∧ s.addedRow.getD r false = false ∧
        violatedRowR rnd s.pathSol (ord s.lpCalls r (rowAt (s.dataRows.getD []) r).reachablePaths) = true ∧
        (addBetaCutsR rnd ord c s).2.addedRow.getD r false = true) ∧
      (∀ r, r ∉ new → (addBetaCutsR rnd ord c s).2.addedRow.getD r false = s.addedRow.getD r false) ∧
      (addBetaCutsR rnd ord c s).2.paths = s.paths ∧ (addBetaCutsR rnd ord c s).2.nsVars = s.nsVars ∧
      (addBetaCutsR rnd ord c s).2.cutCons = s.cutCons ∧ (addBetaCutsR rnd ord c s).2.splits = s.splits ∧
      (addBetaCutsR rnd ord c s).2.m.cons.length = s.m.cons.length + new.length :=
  inv_storeBeta h (ids := fun r => ord s.lpCalls r (rowAt (s.dataRows.getD []) r).reachablePaths) (fun r _ => (hord _ r _).mem_iff)
    (fun r => violatedRowR rnd s.pathSol (ord s.lpCalls r (rowAt (s.dataRows.getD []) r).reachablePaths))

theorem inv_cutRoundR {rnd : ℚ → ℚ} {ord : ℕ → ℕ → List ℕ → List ℕ} (hord : Lists ord) {d : ℕ} {c : Conf} {splits : List Split}
    (hid : ∀ i (s : Split), splits[i]? = some s → s.id = i) {o : Oracle}
    (ho : CutSound o) {cuts : List (List Bool)} {own : List Own} {cd : List CD} {s : MS} (h : Inv d c splits cuts own cd s) :
    ∃ cuts' cd', Inv d c splits cuts' own cd' (cutRoundR rnd ord c o s).2.2 := by
  have h1 : Inv d c splits cuts own cd (storeLp s) := h.of_eq rfl
  obtain ⟨b, hb⟩ : ∃ b, b = if c.betaAsCuts then addBetaCutsR rnd ord c (storeLp s) else (0, storeLp s) := ⟨_, rfl⟩
  have h2 : ∃ cd2, Inv d c splits cuts own cd2 b.2 := by
    rw [hb]
    split_ifs
    · obtain ⟨new, k, -⟩ := inv_addBetaCutsR (rnd := rnd) hord h1
      exact ⟨_, k⟩
    · exact ⟨cd, h1⟩
  obtain ⟨cd2, h2⟩ := h2
  obtain ⟨g, hg⟩ : ∃ g, g = if c.generateCuts && b.1 == 0 then addCutsR rnd o b.2 else ([], b.2) := ⟨_, rfl⟩
  have h3 : ∃ cuts3 cd3, Inv d c splits cuts3 own cd3 g.2 := by
    rw [hg]
    split_ifs
    · exact ⟨_, _, (inv_addCutsR hid h2 ho).1⟩
    · exact ⟨cuts, cd2, h2⟩
  obtain ⟨cuts3, cd3, h3⟩ := h3
  have e : cutRoundR rnd ord c o s = (b.1, g.1, { g.2 with totalCuts := g.2.totalCuts + (g.1.length + b.1) }) := by
    rw [hg, hb]; rfl
  rw [e]
  exact ⟨cuts3, cd3, h3.of_eq rfl⟩

theorem inv_cutRoundsR {rnd : ℚ → ℚ} {ord : ℕ → ℕ → List ℕ → List ℕ} (hord : Lists ord) {d : ℕ} {c : Conf} {splits : List Split}
    (hid : ∀ i (s : Split), splits[i]? = some s → s.id = i) {o : Oracle}
    (ho : CutSound o) (n : ℕ) (acc : List (List Bool)) {cuts : List (List Bool)} {own : List Own} {cd : List CD} {s : MS}
    (h : Inv d c splits cuts own cd s) : ∃ cuts' cd', Inv d c splits cuts' own cd' (cutRoundsR rnd ord c o n acc s).2 := by
  induction n generalizing acc cuts cd s with
  | zero => exact ⟨cuts, cd, h⟩
  | succ n ih =>
    obtain ⟨cuts1, cd1, h1⟩ := inv_cutRoundR (rnd := rnd) hord hid ho h
    unfold cutRoundsR
    simp only
    split_ifs with e1 e2
    · exact ih _ (s := lpSolve o (cutRoundR rnd ord c o s).2.2) (h1.of_eq rfl)
    · exact ⟨cuts1, cd1, h1⟩
    · exact ⟨cuts, cd, h⟩

theorem inv_solveRmpR {rnd : ℚ → ℚ} {ord : ℕ → ℕ → List ℕ → List ℕ} (hord : Lists ord) {d : ℕ} {c : Conf} {splits : List Split}
    (hid : ∀ i (s : Split), splits[i]? = some s → s.id = i) {o : Oracle}
    (ho : CutSound o) {cuts : List (List Bool)} {own : List Own} {cd : List CD} {s : MS} (h : Inv d c splits cuts own cd s) :
    ∃ cuts' cd', Inv d c splits cuts' own cd' (solveRmpR rnd ord c o s).2 := by
  obtain ⟨s1, hs1⟩ : ∃ s1, s1 = lpSolve o { s with
      prevRmpObj := s.rmpObj
      iter := s.iter + 1 } := ⟨_, rfl⟩
  have h1 : Inv d c splits cuts own cd s1 := by rw [hs1]; exact h.of_eq rfl
  obtain ⟨r, hr⟩ : ∃ r, r = if s1.iter % 10 = 0 then cutRoundsR rnd ord c o c.numCutsRound [] s1 else ([], s1) := ⟨_, rfl⟩
  have h2 : ∃ cuts2 cd2, Inv d c splits cuts2 own cd2 r.2 := by
    rw [hr]
    split_ifs
    · exact inv_cutRoundsR hord hid ho _ _ h1
    · exact ⟨cuts, cd, h1⟩
  obtain ⟨cuts2, cd2, h2⟩ := h2
  have e : solveRmpR rnd ord c o s = if r.2.last.status = .optimal then (.ok (readDuals c r.2 r.1), storeLp r.2)
      else (.ok ⟨[], [], fun _ _ _ => none, [], r.1⟩, r.2) := by
    unfold solveRmpR
    rw [if_pos h.gen, hr, hs1]
  rw [e]
  split_ifs
  · exact ⟨cuts2, cd2, h2.of_eq rfl⟩
  · exact ⟨cuts2, cd2, h2⟩

theorem reachedR_inv {rnd : ℚ → ℚ} {ord : ℕ → ℕ → List ℕ → List ℕ} (hord : Lists ord) {d : ℕ} {c : Conf} {o : Oracle} {paths : List Path}
    {splits : List Split} {dataRows : Option (List Row)}
    (hs : Setup d c splits dataRows) (hp : ∀ p ∈ paths, GoodPath d splits p) (ho : CutSound o) {s : MS}
    (h : ReachedR rnd ord d c o paths splits dataRows s) : ∃ cuts own cd, Inv d c splits cuts own cd s := by
  induction h with
  | generate h =>
    obtain ⟨own, cd, h⟩ := inv_generate hs hp h
    exact ⟨_, own, cd, h⟩
  | again h ih =>
    obtain ⟨cuts, own, cd, ih⟩ := ih
    refine ⟨cuts, own, cd, ?_⟩
    unfold generateMp
    rw [if_pos ih.gen]
    exact ih
  | column h p hp ih =>
    obtain ⟨cuts, own, cd, ih⟩ := ih
    exact ⟨cuts, _, cd, (inv_addColumn hs.depth hs.tree hs.filled ih hp).2.1⟩
  | beta h ih =>
    obtain ⟨cuts, own, cd, ih⟩ := ih
    obtain ⟨new, k, _⟩ := inv_addBetaCutsR (rnd := rnd) hord ih
    exact ⟨cuts, own, _, k⟩
  | cuts h ih =>
    obtain ⟨cuts, own, cd, ih⟩ := ih
    exact ⟨_, own, _, (inv_addCutsR hs.tree.split_id ih ho).1⟩
  | rmp h ih =>
    obtain ⟨cuts, own, cd, ih⟩ := ih
    obtain ⟨cuts', cd', k⟩ := inv_solveRmpR hord hs.tree.split_id ho ih
    exact ⟨cuts', own, cd', k⟩
  | ip h ih =>
    obtain ⟨cuts, own, cd, ih⟩ := ih
    refine ⟨cuts, own, cd, ?_⟩
    unfold solveIp
    rw [if_pos ih.gen]
    simp only
    split_ifs
    · exact ih.of_eq rfl
    · exact ih.of_eq rfl

/-! ## Rounding errors -/

theorem litR {rnd : ℚ → ℚ} {u η : ℚ} (ha : Accurate rnd u η) : |rnd (1 / 1000000) - 1 / 1000000| ≤ litSlack u η := by
  have h := ha (1 / 1000000)
  unfold litSlack
  rw [abs_of_pos (show (0 : ℚ) < 1 / 1000000 by norm_num)] at h
  linarith

theorem thresholdR {rnd : ℚ → ℚ} {u η : ℚ} (ha : Accurate rnd u η) (hu : 0 ≤ u) :
    |rnd (1 + rnd (1 / 1000000)) - (1 + 1 / 1000000)| ≤ litSlack u η + (u * (1 + 1 / 1000000 + litSlack u η) + η) := by
  have h1 := litR ha
  have h2 := ha (1 + rnd (1 / 1000000))
  rw [abs_le] at h1
  have h3 : |1 + rnd (1 / 1000000)| ≤ 1 + 1 / 1000000 + litSlack u η := by
    rw [abs_le]
    constructor <;> linarith
  have h4 := mul_le_mul_of_nonneg_left h3 hu
  rw [abs_le] at h2 ⊢
  constructor <;> linarith [h2.1, h2.2]

theorem hitR_error {rnd : ℚ → ℚ} {u η : ℚ} (ha : Accurate rnd u η) (hu : 0 ≤ u) (hη : 0 ≤ η) {l l' : List ℚ} (h : l.Sublist l')
    (hn : 2 * (l'.length : ℚ) * u ≤ 1) : |flSum rnd 0 l - l.sum| ≤ sumSlack u η l'.length (l'.map (fun x => |x|)).sum := by
  have hlen : (l.length : ℚ) ≤ l'.length := by exact_mod_cast h.length_le
  have hs := sublist_abs h
  have h1 := flSum_error ha hu hη (A := (l'.map (fun x => |x|)).sum) 0 l (by simpa using hs) (by nlinarith)
  rw [zero_add] at h1
  refine h1.trans ?_
  have := sum_abs_nonneg l'
  have h0 : 0 ≤ u * (l'.map (fun x => |x|)).sum + η := by positivity
  unfold sumSlack
  nlinarith

theorem floorR_error {rnd : ℚ → ℚ} {u η : ℚ} (ha : Accurate rnd u η) (hu : 0 ≤ u) (hη : 0 ≤ η) (vs : List ℕ) (cs : List ℚ) (b : ℕ → Bool) :
    (hitSumInt vs (cs.map (fun x => ⌊rnd (x * 1000000)⌋)) b : ℚ) ≤
        1000000 * hitSum vs cs b + (1000000 * u * (cs.map (fun x => |x|)).sum + cs.length * η) ∧
    1000000 * hitSum vs cs b ≤ hitSumInt vs (cs.map (fun x => ⌊rnd (x * 1000000)⌋)) b + cs.length +
      (1000000 * u * (cs.map (fun x => |x|)).sum + cs.length * η) := by
  unfold hitSum hitSumInt
  induction vs generalizing cs with
  | nil =>
    have := sum_abs_nonneg cs
    have h1 : 0 ≤ 1000000 * u * (cs.map (fun x => |x|)).sum + cs.length * η := by positivity
    have h2 : (0 : ℚ) ≤ cs.length := by positivity
    simp only [List.zip_nil_left, List.map_nil, List.sum_nil, Int.cast_zero, mul_zero, zero_add]
    constructor <;> linarith
  | cons v vs ih =>
    cases cs with
    | nil => simp
    | cons x xs =>
      obtain ⟨i1, i2⟩ := ih xs
      have hr := ha (x * 1000000)
      rw [abs_mul, abs_of_pos (show (0 : ℚ) < 1000000 by norm_num), abs_le] at hr
      have hf1 : ((⌊rnd (x * 1000000)⌋ : ℤ) : ℚ) ≤ rnd (x * 1000000) := Int.floor_le _
      have hf2 : rnd (x * 1000000) < ((⌊rnd (x * 1000000)⌋ : ℤ) : ℚ) + 1 := Int.lt_floor_add_one _
      have hx : 0 ≤ u * |x| := by positivity
      simp only [List.map_cons, List.zip_cons_cons, List.sum_cons, List.length_cons, Int.cast_add, Nat.cast_add, Nat.cast_one]
      cases b v
      · simp only [Bool.false_eq_true, if_false, Int.cast_zero, zero_add]
        constructor <;> nlinarith
      · simp only [if_true]
        constructor <;> nlinarith [hr.1, hr.2]

theorem violatedR_error {rnd : ℚ → ℚ} {u η : ℚ} (ha : Accurate rnd u η) (hu : 0 ≤ u) (hη : 0 ≤ η) {l l' : List ℚ} (h : l.Sublist l')
    (hn : 2 * (l'.length : ℚ) * u ≤ 1) :
    |(|rnd (flSum rnd 0 l - 1)| - rnd (1 / 1000000)) - (|l.sum - 1| - 1 / 1000000)| ≤
      betaSlack u η l'.length (l'.map (fun x => |x|)).sum := by
  have h1 := hitR_error ha hu hη h hn
  have h2 := ha (flSum rnd 0 l - 1)
  have h3 := litR ha
  have h4 : |l.sum| ≤ (l'.map (fun x => |x|)).sum := (abs_sum_le l).trans (sublist_abs h)
  obtain ⟨E, hE⟩ : ∃ E, E = sumSlack u η l'.length (l'.map (fun x => |x|)).sum := ⟨_, rfl⟩
  obtain ⟨A, hA⟩ : ∃ A, A = (l'.map (fun x => |x|)).sum := ⟨_, rfl⟩
  unfold betaSlack
  rw [← hA] at h1 h4 hE ⊢
  rw [← hE] at h1 ⊢
  have h5 : |flSum rnd 0 l - 1| ≤ A + E + 1 := by
    rw [abs_le] at h1 h4 ⊢
    constructor <;> linarith [h1.1, h1.2, h4.1, h4.2]
  have h6 := mul_le_mul_of_nonneg_left h5 hu
  have h7 : |rnd (flSum rnd 0 l - 1) - (l.sum - 1)| ≤ E + (u * (A + E + 1) + η) := by
    rw [abs_le] at h1 h2 ⊢
    constructor <;> linarith [h1.1, h1.2, h2.1, h2.2]
  have h8 := (abs_abs_sub_abs_le_abs_sub (rnd (flSum rnd 0 l - 1)) (l.sum - 1)).trans h7
  rw [abs_le] at h3 h8 ⊢
  constructor <;> linarith [h3.1, h3.2, h8.1, h8.2]

/-! ## The rows of `add_beta_cuts` -/

theorem betaLoopWith_num (rows : List Row) (ids : ℕ → List ℕ) (viol : ℕ → Bool) (rs : List ℕ) (b : BS) :
    b.num ≤ (betaLoopWith rows ids viol rs b).num ∧ ∀ r, b.addedRow.getD r false = true →
      (betaLoopWith rows ids viol rs b).addedRow.getD r false = true := by
  induction rs generalizing b with
  | nil => exact ⟨le_rfl, fun _ h => h⟩
  | cons r rs ih =>
    unfold betaLoopWith
    by_cases h1 : (rowAt rows r).removedFromMaster = true
    · rw [if_pos h1]; exact ih b
    rw [if_neg h1]
    by_cases h2 : b.num ≥ 10
    · rw [if_pos h2]; exact ⟨le_rfl, fun _ h => h⟩
    rw [if_neg h2]
    by_cases h3 : b.addedRow.getD r false = true
    · rw [if_pos h3]; exact ih b
    rw [if_neg h3]
    by_cases h4 : viol r = true
    · rw [if_pos h4]
      obtain ⟨k1, k2⟩ := ih ⟨addRow b.m none (some 1) ((ids r).map (fun i => (i, 1))), Function.update b.rowCons r (some b.m.cons.length),
        b.addedRow.set r true, b.num + 1⟩
      refine ⟨by simp only at k1; omega, fun x hx => k2 x ?_⟩
      simp only
      by_cases hr : r < b.addedRow.length
      · exact (getD_set_true _ hr x).2 (Or.inr hx)
      · rw [List.set_eq_of_length_le (by omega)]; exact hx
    · rw [if_neg h4]; exact ih b

theorem betaLoopWith_complete (rows : List Row) (ids : ℕ → List ℕ) (viol : ℕ → Bool) (rs : List ℕ) (b : BS)
    (hlt : ∀ r ∈ rs, r < b.addedRow.length) (hn : (betaLoopWith rows ids viol rs b).num < 10) (r : ℕ) (hr : r ∈ rs)
    (hrem : (rowAt rows r).removedFromMaster = false) (hadd : (betaLoopWith rows ids viol rs b).addedRow.getD r false = false) :
    viol r = false := by
  induction rs generalizing b with
  | nil => cases hr
  | cons x rs ih =>
    have hb := betaLoopWith_num rows ids viol (x :: rs) b
    unfold betaLoopWith at hn hadd
    by_cases h1 : (rowAt rows x).removedFromMaster = true
    · rw [if_pos h1] at hn hadd
      rcases List.mem_cons.1 hr with rfl | hr
      · rw [hrem] at h1; cases h1
      · exact ih b (fun y hy => hlt y (List.mem_cons_of_mem _ hy)) hn hr hadd
    rw [if_neg h1] at hn hadd
    by_cases h2 : b.num ≥ 10
    · have := hb.1
      rw [if_pos h2] at hn
      omega
    rw [if_neg h2] at hn hadd
    by_cases h3 : b.addedRow.getD x false = true
    · rw [if_pos h3] at hn hadd
      rcases List.mem_cons.1 hr with rfl | hr
      · rw [(betaLoopWith_num rows ids viol rs b).2 r h3] at hadd
        cases hadd
      · exact ih b (fun y hy => hlt y (List.mem_cons_of_mem _ hy)) hn hr hadd
    rw [if_neg h3] at hn hadd
    by_cases h4 : viol x = true
    · rw [if_pos h4] at hn hadd
      rcases List.mem_cons.1 hr with rfl | hr
      · rw [(betaLoopWith_num rows ids viol rs _).2 r ((getD_set_true _ (hlt r (by simp)) r).2 (Or.inl rfl))] at hadd
        cases hadd
      · exact ih _ (fun y hy => by simpa using hlt y (List.mem_cons_of_mem _ hy)) hn hr hadd
    · rw [if_neg h4] at hn hadd
      rcases List.mem_cons.1 hr with rfl | hr
      · simpa using h4
      · exact ih b (fun y hy => hlt y (List.mem_cons_of_mem _ hy)) hn hr hadd

/-- The recorded paths of a row are the paths it follows. -/
theorem Inv.row_terms {d : ℕ} {c : Conf} {splits : List Split} {cuts : List (List Bool)} {own : List Own} {cd : List CD} {s : MS}
    (hi : Inv d c splits cuts own cd s) {r : ℕ} (hr : r < c.X.length) {l : List ℕ} (hl : l.Perm (rowAt (s.dataRows.getD []) r).reachablePaths) :
    (l.map s.pathSol).sum = pathSum s.paths s.pathSol (Follows d (rowLeft splits (c.X.getD r []))) ∧
    ∃ l', l'.Perm (s.paths.map (fun p => s.pathSol p.id)) ∧ (l.map s.pathSol).Sublist l' := by
  classical
  obtain ⟨rows, hrows, hlen, hdata⟩ := hi.data
  have hget : rows[r]? = some (rowAt (s.dataRows.getD []) r) := by
    rw [hrows, Option.getD_some]
    unfold rowAt
    rw [List.getD_eq_getElem?_getD, List.getElem?_eq_getElem (by omega)]
    rfl
  obtain ⟨hnd, hmem⟩ := hdata r _ hget
  have hperm : (rowAt (s.dataRows.getD []) r).reachablePaths.Perm
      ((s.paths.filter (fun p => decide (Follows d (rowLeft splits (c.X.getD r [])) p))).map (·.id)) := by
    rw [List.perm_ext_iff_of_nodup hnd]
    · intro i
      rw [hmem, List.mem_map]
      constructor
      · rintro ⟨p, hp, hid, hf⟩
        exact ⟨p, List.mem_filter.2 ⟨hp, by simpa using hf⟩, hid⟩
      · rintro ⟨p, hp, hid⟩
        obtain ⟨hp1, hp2⟩ := List.mem_filter.1 hp
        exact ⟨p, hp1, hid, by simpa using hp2⟩
    · exact List.Nodup.sublist (List.Sublist.map _ List.filter_sublist) hi.ids_nodup
  have hp2 := (hl.trans hperm).map s.pathSol
  rw [List.map_map] at hp2
  constructor
  · rw [hp2.sum_eq]
    unfold pathSum
    apply congrArg
    have : ∀ (f g : Path → Bool), (∀ p, f p = g p) →
        (s.paths.filter f).map (s.pathSol ∘ fun p => p.id) = (s.paths.filter g).map (fun p => s.pathSol p.id) := by
      intro f g hfg
      rw [funext hfg]
      rfl
    apply this
    intro p
    congr
  · have hsub : ((s.paths.filter (fun p => decide (Follows d (rowLeft splits (c.X.getD r [])) p))).map (s.pathSol ∘ fun p => p.id)).Sublist
        (s.paths.map (fun p => s.pathSol p.id)) := List.Sublist.map _ List.filter_sublist
    obtain ⟨rest, hrest⟩ := hsub.exists_perm_append
    exact ⟨l.map s.pathSol ++ rest, (hp2.append_right rest).trans hrest.symm, List.sublist_append_left _ _⟩

/-- The total weight of the paths, leaf by leaf. -/
theorem mass_leaves {d : ℕ} (ps : List Path) (a : ℕ → ℚ) (h : ∀ p ∈ ps, p.leafId < 2 ^ d) :
    (ps.map (fun p => a p.id)).sum = ((List.range (2 ^ d)).map (fun l => pathSum ps a (fun p => p.leafId = l))).sum := by
  simp only [pathSum_eq]
  induction ps with
  | nil => simp
  | cons p ps ih =>
    simp only [List.map_cons, List.sum_cons]
    rw [List.sum_map_add, ih (fun q hq => h q (List.mem_cons_of_mem _ hq))]
    congr 1
    have hp := h p (by simp)
    generalize 2 ^ d = n at hp
    induction n with
    | zero => omega
    | succ n ihn =>
      rw [List.range_succ, List.map_append, List.sum_append, List.map_singleton, List.sum_singleton]
      by_cases he : p.leafId = n
      · rw [ind_pos he, one_mul]
        have : ((List.range n).map (fun l => ind (p.leafId = l) * a p.id)).sum = 0 := by
          apply List.sum_eq_zero
          intro y hy
          obtain ⟨l, hl, rfl⟩ := List.mem_map.1 hy
          rw [ind_neg (by have := List.mem_range.1 hl; omega), zero_mul]
        rw [this, zero_add]
      · rw [ind_neg he, zero_mul, add_zero]
        exact ihn (by omega)

theorem pathMass_nonneg (s : MS) : 0 ≤ pathMass s := by
  refine List.sum_nonneg ?_
  intro x hx
  obtain ⟨p, -, rfl⟩ := List.mem_map.1 hx
  exact abs_nonneg _

theorem pathMass_terms (s : MS) : ((s.paths.map (fun p => s.pathSol p.id)).map (fun x => |x|)).sum = pathMass s := by
  rw [List.map_map]
  rfl

/-- A solution of the cut generation model: error of the comparison of the callback. -/
theorem callback_error {rnd : ℚ → ℚ} {u η : ℚ} (ha : Accurate rnd u η) (hu : 0 ≤ u) (hη : 0 ≤ η) {s : MS}
    (hn : 2 * (s.paths.length : ℚ) * u ≤ 1) (a : ℕ → Bool) :
    |(flSum rnd 0 (hitTerms s.cutPathVars (s.paths.map (fun p => s.pathSol p.id)) a) - rnd (1 + rnd (1 / 1000000))) -
      (hitSum s.cutPathVars (s.paths.map (fun p => s.pathSol p.id)) a - (1 + 1 / 1000000))| ≤ cutSlack u η s.paths.length (pathMass s) := by
  have h1 := hitR_error ha hu hη (hitTerms_sublist s.cutPathVars (s.paths.map (fun p => s.pathSol p.id)) a) (by rw [List.length_map]; exact hn)
  have h2 := thresholdR ha hu
  rw [hitTerms_sum, pathMass_terms, List.length_map] at h1
  unfold cutSlack
  rw [abs_le] at h1 h2 ⊢
  constructor <;> linarith [h1.1, h1.2, h2.1, h2.2]

theorem Inv.recordedR_sum {rnd : ℚ → ℚ} {u η : ℚ} (ha : Accurate rnd u η) (hu : 0 ≤ u) (hη : 0 ≤ η) {d : ℕ} {c : Conf} {splits : List Split}
    {cuts : List (List Bool)} {own : List Own} {cd : List CD} {s : MS}
    (hi : Inv d c splits cuts own cd s) {o : Oracle} (ho : CutSound o) (hn : 2 * (s.paths.length : ℚ) * u ≤ 1) {y : List Bool × List Bool}
    (hy : y ∈ recordedR rnd o s) :
    pathSum s.paths s.pathSol (Follows d (fun t => y.2.getD t false)) > 1 + 1 / 1000000 - cutSlack u η s.paths.length (pathMass s) := by
  obtain ⟨a, hold, rfl, hobj⟩ := recordedR_sol ho hy
  have he := callback_error ha hu hη hn a
  rw [(hi.solution hold).2.2.2, abs_le] at he
  have := he.2
  simp only at hobj ⊢
  linarith

theorem Inv.no_violationR {rnd : ℚ → ℚ} {u η : ℚ} (ha : Accurate rnd u η) (hu : 0 ≤ u) (hη : 0 ≤ η) {d : ℕ} {c : Conf} {splits : List Split}
    (hid : ∀ i (s : Split), splits[i]? = some s → s.id = i) {cuts : List (List Bool)} {own : List Own} {cd : List CD} {s : MS}
    (hi : Inv d c splits cuts own cd s) {o : Oracle} (ho : CutSound o) (hopt : CutOptimal o) (hn : 2 * (s.paths.length : ℚ) * u ≤ 1)
    (hnil : (addCutsR rnd o s).1 = []) (row : List ℚ) :
    pathSum s.paths s.pathSol (Follows d (rowLeft s.splits row)) ≤
      1 + cutTol s.paths.length + (cutSlack u η s.paths.length (pathMass s) + floorSlack u η s.paths.length (pathMass s)) := by
  rw [hi.same.rowLeft row]
  obtain ⟨b, hb, hbv⟩ := hi.point row
  have hpl : s.cutPathVars.length = s.paths.length := by rw [hi.cut.pv]; simp
  obtain ⟨a, ham, _, hmax⟩ := hopt ⟨s.cp.nvars, s.cp.cons, cutObjectiveR rnd s⟩ s.cutCalls ⟨b, hb⟩
  have hrec : recordedR rnd o s = [] := by
    rw [(inv_addCutsR hid hi ho).2.1] at hnil
    exact List.map_eq_nil_iff.1 hnil
  have hle := (cutCallbackR_records _ _ _ _ _ _ hrec).2 a ham
  have hv := hmax b hb
  have e : ∀ x : ℕ → Bool, Cp.value ⟨s.cp.nvars, s.cp.cons, cutObjectiveR rnd s⟩ x =
      hitSumInt s.cutPathVars ((s.paths.map (fun p => s.pathSol p.id)).map (fun x => ⌊rnd (x * 1000000)⌋)) x := by
    intro x
    unfold Cp.value hitSumInt cutObjectiveR
    rw [List.map_map]
    rfl
  rw [e, e] at hv
  have hv' : (hitSumInt s.cutPathVars ((s.paths.map (fun p => s.pathSol p.id)).map (fun x => ⌊rnd (x * 1000000)⌋)) b : ℚ) ≤
      hitSumInt s.cutPathVars ((s.paths.map (fun p => s.pathSol p.id)).map (fun x => ⌊rnd (x * 1000000)⌋)) a := by exact_mod_cast hv
  have h1 := (floorR_error ha hu hη s.cutPathVars (s.paths.map (fun p => s.pathSol p.id)) a).1
  have h2 := (floorR_error ha hu hη s.cutPathVars (s.paths.map (fun p => s.pathSol p.id)) b).2
  have h3 := callback_error ha hu hη hn a
  rw [pathMass_terms, List.length_map] at h1 h2
  rw [← hitSum_paths s.cutPathVars s.paths s.pathSol b _ hpl hbv]
  rw [abs_le] at h3
  have h4 := h3.1
  unfold cutTol floorSlack
  linarith

/-! ## C121 -/

section
variable {rnd : ℚ → ℚ} {u η : ℚ} {ord : ℕ → ℕ → List ℕ → List ℕ} {d : ℕ} {c : Conf} {o : Oracle} {paths : List Path} {splits : List Split}
  {dataRows : Option (List Row)} {s : MS}

/-- **C121**, sizes: the stored solution of a master program whose constraints it satisfies up to `δ` has total weight at most
`(1 + δ) * 2 ^ d`, and exactly `2 ^ d` if it satisfies them. -/
theorem C121_mass (hord : Lists ord) (hs : Setup d c splits dataRows) (hp : ∀ p ∈ paths, GoodPath d splits p) (ho : CutSound o)
    (h : ReachedR rnd ord d c o paths splits dataRows s) (h0 : ∀ p ∈ s.paths, 0 ≤ s.pathSol p.id) :
    (∀ δ, (∀ l < 2 ^ d, pathSum s.paths s.pathSol (fun p => p.leafId = l) ≤ 1 + δ) → pathMass s ≤ 2 ^ d * (1 + δ)) ∧
    ((∀ l < 2 ^ d, pathSum s.paths s.pathSol (fun p => p.leafId = l) = 1) → pathMass s = 2 ^ d) := by
  obtain ⟨cuts, own, cd, hi⟩ := reachedR_inv hord hs hp ho h
  have e : pathMass s = ((List.range (2 ^ d)).map (fun l => pathSum s.paths s.pathSol (fun p => p.leafId = l))).sum := by
    rw [← mass_leaves s.paths s.pathSol (fun p hp => (hi.good p hp).1.leaf_lt)]
    unfold pathMass
    congr 1
    exact List.map_congr_left (fun p hp => abs_of_nonneg (h0 p hp))
  constructor
  · intro δ hδ
    rw [e]
    refine (List.sum_le_card_nsmul _ (1 + δ) ?_).trans ?_
    · intro x hx
      obtain ⟨l, hl, rfl⟩ := List.mem_map.1 hx
      exact hδ l (List.mem_range.1 hl)
    · simp
  · intro h1
    rw [e, List.map_congr_left (g := fun _ => (1 : ℚ)) (fun l hl => h1 l (List.mem_range.1 hl))]
    simp

/-- **C121**, found cuts: with rounded arithmetic every recorded cut is exceeded by the stored solution by more than `1e-6` minus the rounding
error, is the pattern of some row, becomes a new cut constraint, and its pattern is remembered by the splits. -/
theorem C121_sound (ha : Accurate rnd u η) (hu : 0 ≤ u) (hη : 0 ≤ η) (hord : Lists ord)
    (hs : Setup d c splits dataRows) (hp : ∀ p ∈ paths, GoodPath d splits p) (ho : CutSound o)
    (h : ReachedR rnd ord d c o paths splits dataRows s) (hn : 2 * (s.paths.length : ℚ) * u ≤ 1) :
    (addCutsR rnd o s).2.cutCons.length = s.cutCons.length + (addCutsR rnd o s).1.length ∧
    ∀ (k : ℕ) (x : List Bool), (addCutsR rnd o s).1[k]? = some x →
      pathSum s.paths s.pathSol (Follows d (fun t => x.getD t false)) > 1 + 1 / 1000000 - cutSlack u η s.paths.length (pathMass s) ∧
      (∀ t < splits.length, cutLeft (addCutsR rnd o s).2.splits (s.cutCons.length + k) t = x.getD t false) ∧
      (∃ row : List ℚ, ∀ t < splits.length, takesLeft row (splitAt s.splits t) = x.getD t false) ∧
      (∀ a, MasterFeasible d c (addCutsR rnd o s).2 a → pathSum s.paths a (Follows d (fun t => x.getD t false)) = 1) := by
  obtain ⟨cuts, own, cd, hi⟩ := reachedR_inv hord hs hp ho h
  obtain ⟨k1, k2, k3, k4⟩ := inv_addCutsR (rnd := rnd) hs.tree.split_id hi ho
  have hlen : (addCutsR rnd o s).2.cutCons.length = s.cutCons.length + (addCutsR rnd o s).1.length := by
    rw [k1.cutlen, k2, hi.cutlen]; simp
  refine ⟨hlen, ?_⟩
  intro k x hx
  rw [k2, List.getElem?_map] at hx
  cases hrec : (recordedR rnd o s)[k]? with
  | none => rw [hrec] at hx; cases hx
  | some y =>
    rw [hrec] at hx
    injection hx with hx
    simp only at hx
    subst hx
    have hklt : k < (recordedR rnd o s).length := (List.getElem?_eq_some_iff.1 hrec).1
    have hcl : ∀ t < splits.length, cutLeft (addCutsR rnd o s).2.splits (s.cutCons.length + k) t = y.2.getD t false := by
      intro t ht
      rw [cutLeft_eq k1.cutsFilled (k1.same.id hs.tree.split_id) (by rw [hi.cutlen]; simp; omega) (by rw [k1.same.length]; exact ht)]
      unfold pat
      rw [hi.cutlen, List.getD_eq_getElem?_getD, List.getD_eq_getElem?_getD, List.getElem?_append_right (by omega),
        show cuts.length + k - cuts.length = k by omega, List.getElem?_map, hrec]
      simp [List.getD_eq_getElem?_getD]
    obtain ⟨a, hold, rfl, hobj⟩ := recordedR_sol ho (List.mem_of_getElem? hrec)
    obtain ⟨r1, r2, r3, r4⟩ := hi.solution hold
    refine ⟨?_, hcl, ?_, ?_⟩
    · exact hi.recordedR_sum ha hu hη ho hn (List.mem_of_getElem? hrec)
    · obtain ⟨row, hrow⟩ := (realizable splits hi.distinct _).1 r2
      exact ⟨row, (monotone_same hi.same hs.tree.split_id).2 hrow⟩
    · intro b hb
      have hc := hb.cuts (s.cutCons.length + k) (by rw [hlen, k2]; simp; omega)
      rw [k3] at hc
      rw [← hc]
      apply pathSum_congr
      intro p hp
      apply follows_congr
      intro t ht
      exact (hcl t ((hi.good p hp).2 t ht)).symm

/-- **C121**, nothing found: when `add_cuts` records nothing (and an optimal solution was passed to the callback), no row of numbers is given
more weight than `1` by the stored solution, up to the accuracy of the search and the rounding errors. -/
theorem C121_complete (ha : Accurate rnd u η) (hu : 0 ≤ u) (hη : 0 ≤ η) (hord : Lists ord)
    (hs : Setup d c splits dataRows) (hp : ∀ p ∈ paths, GoodPath d splits p) (ho : CutSound o) (hopt : CutOptimal o)
    (h : ReachedR rnd ord d c o paths splits dataRows s) (hn : 2 * (s.paths.length : ℚ) * u ≤ 1) (hnil : (addCutsR rnd o s).1 = []) (row : List ℚ) :
    pathSum s.paths s.pathSol (Follows d (rowLeft s.splits row)) ≤
      1 + cutTol s.paths.length + (cutSlack u η s.paths.length (pathMass s) + floorSlack u η s.paths.length (pathMass s)) := by
  obtain ⟨cuts, own, cd, hi⟩ := reachedR_inv hord hs hp ho h
  exact hi.no_violationR ha hu hη hs.tree.split_id ho hopt hn hnil row

/-- **C121**, no repetition: as long as the stored solution satisfies the cut constraints up to `δ`, and `δ` plus the rounding error is at most
`1e-6`, `add_cuts` never records a pattern that is already the pattern of a cut. -/
theorem C121_new (ha : Accurate rnd u η) (hu : 0 ≤ u) (hη : 0 ≤ η) (hord : Lists ord)
    (hs : Setup d c splits dataRows) (hp : ∀ p ∈ paths, GoodPath d splits p) (ho : CutSound o)
    (h : ReachedR rnd ord d c o paths splits dataRows s) (hn : 2 * (s.paths.length : ℚ) * u ≤ 1) {δ : ℚ}
    (hδ : δ + cutSlack u η s.paths.length (pathMass s) ≤ 1 / 1000000) (k : ℕ)
    (hf : pathSum s.paths s.pathSol (Follows d (cutLeft s.splits k)) ≤ 1 + δ) (x : List Bool) (hx : x ∈ (addCutsR rnd o s).1) :
    ∃ t < splits.length, cutLeft s.splits k t ≠ x.getD t false := by
  obtain ⟨i, hx⟩ := List.mem_iff_getElem?.1 hx
  have h1 := ((C121_sound ha hu hη hord hs hp ho h hn).2 i x hx).1
  obtain ⟨cuts, own, cd, hi⟩ := reachedR_inv hord hs hp ho h
  by_contra hno
  push Not at hno
  have : pathSum s.paths s.pathSol (Follows d (cutLeft s.splits k)) = pathSum s.paths s.pathSol (Follows d (fun t => x.getD t false)) := by
    apply pathSum_congr
    intro p hp
    apply follows_congr
    intro t ht
    exact hno t ((hi.good p hp).2 t ht)
  rw [this] at hf
  linarith

/-- The comparison of `violated_row_constraint` for a row. -/
theorem row_error (ha : Accurate rnd u η) (hu : 0 ≤ u) (hη : 0 ≤ η) (hord : Lists ord)
    (hs : Setup d c splits dataRows) (hp : ∀ p ∈ paths, GoodPath d splits p) (ho : CutSound o)
    (h : ReachedR rnd ord d c o paths splits dataRows s) (hn : 2 * (s.paths.length : ℚ) * u ≤ 1) {r : ℕ} (hr : r < c.X.length) :
    |(|rnd (flSum rnd 0 ((ord s.lpCalls r (rowAt (s.dataRows.getD []) r).reachablePaths).map s.pathSol) - 1)| - rnd (1 / 1000000)) -
        (|pathSum s.paths s.pathSol (Follows d (rowLeft s.splits (c.X.getD r []))) - 1| - 1 / 1000000)| ≤
      betaSlack u η s.paths.length (pathMass s) := by
  obtain ⟨cuts, own, cd, hi⟩ := reachedR_inv hord hs hp ho h
  obtain ⟨h1, l', h2, h3⟩ := hi.row_terms hr (hord s.lpCalls r (rowAt (s.dataRows.getD []) r).reachablePaths)
  have hl : l'.length = s.paths.length := by rw [h2.length_eq, List.length_map]
  have h4 := violatedR_error ha hu hη h3 (by rw [hl]; exact hn)
  rw [hi.same.rowLeft (c.X.getD r []), ← h1]
  rw [(h2.map _).sum_eq, pathMass_terms, hl] at h4
  exact h4

/-- **C121**, row constraints: with rounded arithmetic, in whatever order the paths of a row are listed, a row that gets a constraint has a
weight that differs from `1` by more than `1e-6` minus the rounding error; and if fewer than ten rows got a constraint, the weight of every row
that is not removed and still has no constraint differs from `1` by at most `1e-6` plus the rounding error. -/
theorem C121_beta (ha : Accurate rnd u η) (hu : 0 ≤ u) (hη : 0 ≤ η) (hord : Lists ord)
    (hs : Setup d c splits dataRows) (hp : ∀ p ∈ paths, GoodPath d splits p) (ho : CutSound o)
    (h : ReachedR rnd ord d c o paths splits dataRows s) (hn : 2 * (s.paths.length : ℚ) * u ≤ 1) (r : ℕ) (hr : r < c.X.length) :
    (s.addedRow.getD r false = false → (addBetaCutsR rnd ord c s).2.addedRow.getD r false = true →
      |pathSum s.paths s.pathSol (Follows d (rowLeft s.splits (c.X.getD r []))) - 1| >
        1 / 1000000 - betaSlack u η s.paths.length (pathMass s)) ∧
    ((addBetaCutsR rnd ord c s).1 < 10 → (rowAt (s.dataRows.getD []) r).removedFromMaster = false →
      (addBetaCutsR rnd ord c s).2.addedRow.getD r false = false →
      |pathSum s.paths s.pathSol (Follows d (rowLeft s.splits (c.X.getD r []))) - 1| ≤
        1 / 1000000 + betaSlack u η s.paths.length (pathMass s)) := by
  have he := row_error ha hu hη hord hs hp ho h hn hr
  rw [abs_le] at he
  obtain ⟨cuts, own, cd, hi⟩ := reachedR_inv hord hs hp ho h
  constructor
  · intro hnot hadd
    obtain ⟨new, -, -, -, -, k5, k6, -⟩ := inv_addBetaCutsR (rnd := rnd) hord hi
    have hrn : r ∈ new := by
      by_contra hn
      rw [k6 r hn, hnot] at hadd
      cases hadd
    have hv := (k5 r hrn).2.2.2.1
    unfold violatedRowR at hv
    rw [decide_eq_true_eq] at hv
    linarith [he.2]
  · intro hnum hrem hadd
    have hv := betaLoopWith_complete _ _ _ (List.range c.X.length) _
      (by intro x hx; have := hi.added; have := List.mem_range.1 hx; simp only; omega) hnum r (List.mem_range.2 hr) hrem hadd
    unfold violatedRowR at hv
    rw [decide_eq_false_iff_not, not_lt] at hv
    linarith [he.1]

end

end Verif.DTree
