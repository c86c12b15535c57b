import Verif.DTree.CutProps

/-!
# Concrete instances of the decision tree theorems, and property C55

A tree of depth 2 with two candidate splits at every node, four rows of data and twelve initial paths. Eight of the paths carry a
fractional solution of the linear relaxation that violates the bound of a row in both directions.
-/

set_option linter.unusedSectionVars false
set_option linter.unusedSimpArgs false

namespace Verif.DTree.Demo

open MP Spec

/-! ## Deciding feasibility of concrete points -/

def bOk (lb ub : Option ℚ) (x : ℚ) : Bool := (match lb with | some l => decide (l ≤ x) | none => true) && (match ub with | some u => decide (x ≤ u) | none => true)

def act (n : ℕ) (f a : ℕ → ℚ) : ℚ := ((List.range n).map (fun i => f i * a i)).sum

def checkLP (m : Model) (a : ℕ → ℚ) : Bool :=
  m.vars.zipIdx.all (fun v => bOk v.1.lb v.1.ub (a v.2)) && m.cons.all (fun k => bOk k.lb k.ub (act m.vars.length k.coeff a))

def checkInt (m : Model) (a : ℕ → ℚ) : Bool := (List.range m.vars.length).all (fun i => (a i).den == 1)

theorem bOk_iff (lb ub : Option ℚ) (x : ℚ) (h : bOk lb ub x = true) : inBounds lb ub x := by
  unfold bOk at h
  cases lb <;> cases ub <;> simp_all [inBounds]

theorem act_eq (n : ℕ) (f a : ℕ → ℚ) : act n f a = activity n f a := by
  unfold act activity
  induction n with
  | zero => simp
  | succ n ih => rw [List.range_succ, List.map_append, List.sum_append, ih, Finset.sum_range_succ]; simp

theorem checkLP_sound (m : Model) (a : ℕ → ℚ) (h : checkLP m a = true) : m.FeasibleLP a := by
  unfold checkLP at h
  rw [Bool.and_eq_true, List.all_eq_true, List.all_eq_true] at h
  refine ⟨?_, ?_⟩
  · intro i v hv
    have := h.1 (v, i) (by rw [List.mem_zipIdx_iff_getElem?]; simpa using hv)
    exact bOk_iff _ _ _ this
  · intro c k hk
    have := h.2 k (List.mem_of_getElem? hk)
    rw [act_eq] at this
    exact bOk_iff _ _ _ this

theorem check_sound (m : Model) (a : ℕ → ℚ) (h : checkLP m a = true) (h' : checkInt m a = true) : m.Feasible a := by
  refine ⟨checkLP_sound m a h, ?_⟩
  intro i v hv _
  unfold checkInt at h'
  rw [List.all_eq_true] at h'
  have := h' i (List.mem_range.2 (List.getElem?_eq_some_iff.1 hv).1)
  have hd : (a i).den = 1 := by simpa using this
  exact ⟨(a i).num, ((Rat.den_eq_one_iff (a i)).1 hd).symm⟩

instance (a : ℕ → Bool) (k : CpCons) : Decidable (k.Holds a) := by
  cases k <;> unfold CpCons.Holds <;> infer_instance

instance (c : Cp) (a : ℕ → Bool) : Decidable (c.Holds a) := by unfold Cp.Holds; infer_instance

/-! ## The tree -/

/-- Splits 0, 1 for the root, 2, 3 for its left child, 4, 5 for its right child; split 6 is on the feature of split 0 and unused. -/
def splits0 : List Split := [⟨0, 0, 1/2, false, [], [], [], []⟩, ⟨1, 1, 1/2, false, [], [], [], []⟩, ⟨2, 2, 1/2, false, [], [], [], []⟩,
  ⟨3, 3, 1/2, false, [], [], [], []⟩, ⟨4, 4, 1/2, false, [], [], [], []⟩, ⟨5, 5, 1/2, false, [], [], [], []⟩, ⟨6, 0, 3/2, false, [], [], [], []⟩]

def nodes : List Node := [⟨0, [0, 1], [1, 1], 0, -1, 1, 2, false⟩, ⟨1, [2, 3], [1, 1], 2, 0, 3, 4, false⟩, ⟨2, [4, 5], [1, 1], 4, 0, 5, 6, false⟩]

def X : List (List ℚ) := [[0, 1, 1, 0, 1, 0], [0, 1, 0, 1, 0, 1], [0, 0, 0, 0, 0, 0], [1, 1, 1, 1, 1, 1]]

def y : List ℤ := [0, 1, 0, 1]

def splits : List Split := addRowsToSplits splits0 X

def mkPath (cost : ℚ) (l n s r : ℕ) (t : ℤ) : Path := ⟨l, [n, 0], [s, r], cost, 0, t, true⟩

/-- Eight paths of cost `c` and four paths of a tree of cost `e`. -/
def paths (c e : ℚ) : List Path :=
  [mkPath c 0 1 3 0 0, mkPath c 0 1 2 1 0, mkPath c 1 1 2 0 0, mkPath c 1 1 3 1 0,
   mkPath c 2 2 5 1 1, mkPath c 2 2 4 0 1, mkPath c 3 2 4 1 1, mkPath c 3 2 5 0 1,
   mkPath e 0 1 2 0 0, mkPath e 1 1 2 0 1, mkPath e 2 2 4 0 0, mkPath e 3 2 4 0 1]

def conf (beta : Bool) : Conf := ⟨fullLeaves 2, nodes, X, beta, true, 2⟩

theorem tree : Tree 2 (fullLeaves 2) nodes splits where
  leaves := rfl
  nodes_length := rfl
  node_id := by
    intro i n h
    match i, h with
    | 0, h => cases h; rfl
    | 1, h => cases h; rfl
    | 2, h => cases h; rfl
    | k + 3, h => exact absurd h (by simp [nodes])
  split_id := by
    intro i n h
    have : ∀ q ∈ splits.zipIdx, q.1.id = q.2 := by decide +kernel
    exact this (n, i) (by rw [List.mem_zipIdx_iff_getElem?]; simpa using h)
  cand_lt := by decide +kernel
  cand_nodup := by decide +kernel

theorem setup (b : Bool) : Setup 2 (conf b) splits none where
  depth := by norm_num
  tree := tree
  filled := (C39_add_rows splits0 X (by decide +kernel)).1
  no_cuts := by decide +kernel
  rows := by intro rows h; cases h

instance (d : ℕ) (p : Path) : Decidable (WFPath d p) :=
  decidable_of_iff (p.leafId < 2 ^ d ∧ p.nodeIds.Perm ((List.range d).map (anc d p.leafId)) ∧ p.splits.length = d)
    ⟨fun h => ⟨h.1, h.2.1, h.2.2⟩, fun h => ⟨h.1, h.2, h.3⟩⟩

instance (d : ℕ) (splits : List Split) (p : Path) : Decidable (GoodPath d splits p) := by unfold GoodPath; infer_instance

theorem good (c e : ℚ) : ∀ p ∈ paths c e, GoodPath 2 splits p := by
  have h : ∀ p ∈ paths 0 0, GoodPath 2 splits p := by decide +kernel
  intro p hp
  have hq : ∃ q ∈ paths 0 0, p.leafId = q.leafId ∧ p.nodeIds = q.nodeIds ∧ p.splits = q.splits := by
    simp only [paths, List.mem_cons, List.not_mem_nil, or_false] at hp
    rcases hp with h | h | h | h | h | h | h | h | h | h | h | h <;> subst h <;>
      first
      | exact ⟨_, List.getElem_mem (n := 0) (by decide), rfl, rfl, rfl⟩
      | exact ⟨_, List.getElem_mem (n := 1) (by decide), rfl, rfl, rfl⟩
      | exact ⟨_, List.getElem_mem (n := 2) (by decide), rfl, rfl, rfl⟩
      | exact ⟨_, List.getElem_mem (n := 3) (by decide), rfl, rfl, rfl⟩
      | exact ⟨_, List.getElem_mem (n := 4) (by decide), rfl, rfl, rfl⟩
      | exact ⟨_, List.getElem_mem (n := 5) (by decide), rfl, rfl, rfl⟩
      | exact ⟨_, List.getElem_mem (n := 6) (by decide), rfl, rfl, rfl⟩
      | exact ⟨_, List.getElem_mem (n := 7) (by decide), rfl, rfl, rfl⟩
      | exact ⟨_, List.getElem_mem (n := 8) (by decide), rfl, rfl, rfl⟩
      | exact ⟨_, List.getElem_mem (n := 9) (by decide), rfl, rfl, rfl⟩
      | exact ⟨_, List.getElem_mem (n := 10) (by decide), rfl, rfl, rfl⟩
      | exact ⟨_, List.getElem_mem (n := 11) (by decide), rfl, rfl, rfl⟩
  obtain ⟨q, hq, e1, e2, e3⟩ := hq
  obtain ⟨hw, hs⟩ := h q hq
  exact ⟨⟨by rw [e1]; exact hw.leaf_lt, by rw [e1, e2]; exact hw.nodes, by rw [e3]; exact hw.splits⟩, by rw [e3]; exact hs⟩

/-- The fractional solution: one half for the first eight paths and all splits. -/
def half (i : ℕ) : ℚ := if i < 8 ∨ 12 ≤ i then 1 / 2 else 0

/-- The solution of the tree with splits 0, 2 and 4. -/
def treeSol (i : ℕ) : ℚ := if i ∈ [8, 9, 10, 11, 12, 14, 16] then 1 else 0

/-- The cut solution for the split pattern of row 0. -/
def pat0 (v : ℕ) : Bool := decide (v ∈ [0, 3, 5, 6, 7, 9, 11, 13, 16])

/-- Solvers that report these solutions whenever they are feasible. -/
def oracle : Oracle where
  lp := fun m _ => if checkLP m half then ⟨.optimal, half, fun _ => 0, act m.vars.length m.obj half + m.offset⟩ else noAnswer
  cut := fun cp _ => if cp.Holds pat0 then [pat0] else []
  ip := fun m => if checkLP m treeSol && checkInt m treeSol then ⟨.feasible, treeSol, fun _ => 0, act m.vars.length m.obj treeSol + m.offset⟩
    else noAnswer

theorem cut_sound : CutSound oracle := by
  intro cp k a ha
  simp only [oracle] at ha
  split at ha
  · rename_i h
    rw [List.mem_singleton] at ha
    rw [ha]; exact h
  · cases ha

theorem ip_sound : IpSound oracle := by
  intro m h
  by_cases hc : (checkLP m treeSol && checkInt m treeSol) = true
  · have : oracle.ip m = ⟨.feasible, treeSol, fun _ => 0, act m.vars.length m.obj treeSol + m.offset⟩ := if_pos hc
    rw [this]
    rw [Bool.and_eq_true] at hc
    exact ⟨check_sound _ _ hc.1 hc.2, by simp only [act_eq]; rfl⟩
  · have : oracle.ip m = noAnswer := if_neg hc
    rw [this] at h
    simp [noAnswer] at h

/-- The master after `generate_mp`. -/
def start (b : Bool) (c e : ℚ) : MS := (generateMp (conf b) (MS.init (paths c e) splits none)).2

theorem start_ok : (generateMp (conf true) (MS.init (paths 1 0) splits none)).1 = .ok () ∧
    (generateMp (conf false) (MS.init (paths 1 0) splits none)).1 = .ok () := by decide +kernel

theorem start_reached (b : Bool) : Reached 2 (conf b) oracle (paths 1 0) splits none (start b 1 0) := by
  refine .generate ?_
  have h := start_ok
  cases b
  · exact Prod.ext h.2 rfl
  · exact Prod.ext h.1 rfl

/-- After one `solve_rmp`. -/
def solved : MS := (solveRmp (conf true) oracle (start true 1 0)).2

theorem solved_reached : Reached 2 (conf true) oracle (paths 1 0) splits none solved := .rmp (start_reached true)

theorem solved_facts : solved.last.status = .optimal ∧ (addBetaCuts (conf true) solved).1 = 2 ∧
    (addCuts oracle solved).1 = [[true, false, false, true, false, true, true]] ∧ (solveIp oracle solved).1 = .ok true := by decide +kernel

/-! ## C55 -/

theorem start_paths : (start true 1 0).paths = (paths 1 0).mapIdx (fun i p => { p with id := i }) := by decide +kernel

/-- A `solve_rmp` without cut rounds. -/
theorem solveRmp_plain (c : Conf) (o : Oracle) (s : MS) (hg : s.generated = true) (hi : (s.iter + 1) % 10 ≠ 0)
    (hst : (o.lp s.m s.lpCalls).status = .optimal) :
    (solveRmp c o s).2 = storeLp (lpSolve o { s with
      prevRmpObj := s.rmpObj
      iter := s.iter + 1 }) := by
  unfold solveRmp
  rw [if_pos hg]
  simp only
  have h1 : ¬ ((lpSolve o { s with
      prevRmpObj := s.rmpObj
      iter := s.iter + 1 }).iter % 10 = 0) := hi
  rw [if_neg h1]
  exact congrArg Prod.snd (if_pos hst)

theorem lp_start : oracle.lp (start true 1 0).m (start true 1 0).lpCalls =
    ⟨.optimal, half, fun _ => 0, act (start true 1 0).m.vars.length (start true 1 0).m.obj half + (start true 1 0).m.offset⟩ :=
  if_pos (by decide +kernel)

theorem solved_eq : solved = storeLp (lpSolve oracle { start true 1 0 with
      prevRmpObj := (start true 1 0).rmpObj
      iter := (start true 1 0).iter + 1 }) :=
  solveRmp_plain _ _ _ (by decide +kernel) (by decide +kernel) (by rw [lp_start])

theorem solved_m : solved.m = (start true 1 0).m := by rw [solved_eq]; rfl

theorem solved_last : solved.last = ⟨.optimal, half, fun _ => 0, act solved.m.vars.length solved.m.obj half + solved.m.offset⟩ := by
  rw [solved_m, solved_eq]
  exact lp_start

theorem solved_sol : solved.pathSol = half := by
  have : solved.pathSol = solved.last.values := by rw [solved_eq]; rfl
  rw [this, solved_last]

theorem half_optimal : IsOptimalLP solved.m solved.last := by
  rw [solved_last]
  refine ⟨?_, ?_, ?_⟩
  · rw [solved_m]
    exact checkLP_sound _ _ (by decide +kernel)
  · simp only [act_eq]
    rfl
  · intro a ha
    have h40 := C40_master_program (setup true) (good 1 0) cut_sound (start_reached true)
    rw [solved_m] at ha ⊢
    unfold Model.better
    rw [if_pos h40.2.2.1, h40.2.1 a]
    have hf := (h40.1 a).1 ha
    have hv : act (start true 1 0).m.vars.length (start true 1 0).m.obj half + (start true 1 0).m.offset = 4 := by decide +kernel
    simp only
    rw [hv]
    have hl0 := hf.leaf 0 (by norm_num)
    have hl1 := hf.leaf 1 (by norm_num)
    have hl2 := hf.leaf 2 (by norm_num)
    have hl3 := hf.leaf 3 (by norm_num)
    have hnn := hf.path_nonneg
    rw [pathSum_eq, start_paths] at hl0 hl1 hl2 hl3
    rw [start_paths] at hnn ⊢
    simp [paths, mkPath, ind] at hl0 hl1 hl2 hl3 hnn ⊢
    linarith [hnn.2.2.2.2.2.2.2.2.1, hnn.2.2.2.2.2.2.2.2.2.1, hnn.2.2.2.2.2.2.2.2.2.2.1, hnn.2.2.2.2.2.2.2.2.2.2.2]

theorem beta_last : (addBetaCuts (conf true) solved).2.m.cons.length - 1 < (addBetaCuts (conf true) solved).2.m.cons.length := by decide +kernel

/-- **C55 is false**: in this reached state, with an optimal LP solution, `add_beta_cuts` adds a constraint for row 1, which the solution
satisfies (its left hand side is 0, below the bound 1). -/
theorem C55_refuted : ∃ (d : ℕ) (c : Conf) (o : Oracle) (paths : List Path) (splits : List Split) (s : MS),
    Setup d c splits none ∧ (∀ p ∈ paths, GoodPath d splits p) ∧ CutSound o ∧ Reached d c o paths splits none s ∧
    s.last.status = .optimal ∧ IsOptimalLP s.m s.last ∧ s.pathSol = s.last.values ∧
    ∃ r i con, s.addedRow.getD r false = false ∧ (addBetaCuts c s).2.addedRow.getD r false = true ∧
      (addBetaCuts c s).2.rowCons r = some i ∧ (addBetaCuts c s).2.m.cons[i]? = some con ∧
      inBounds con.lb con.ub (activity (addBetaCuts c s).2.m.vars.length con.coeff s.pathSol) := by
  refine ⟨2, conf true, oracle, paths 1 0, splits, solved, setup true, good 1 0, cut_sound, solved_reached, solved_facts.1, half_optimal, ?_,
    1, (addBetaCuts (conf true) solved).2.m.cons.length - 1, ?_⟩
  · rw [solved_sol, solved_last]
  · have h1 : solved.addedRow.getD 1 false = false := by decide +kernel
    have h2 : (addBetaCuts (conf true) solved).2.addedRow.getD 1 false = true := by decide +kernel
    have h3 : (addBetaCuts (conf true) solved).2.rowCons 1 = some ((addBetaCuts (conf true) solved).2.m.cons.length - 1) := by decide +kernel
    refine ⟨_, h1, h2, h3, List.getElem?_eq_getElem beta_last, ?_⟩
    apply bOk_iff
    rw [← act_eq]
    decide +kernel

/-! ## The hypotheses of the theorems -/

instance (nodes : List Node) (p : Path) : Decidable (UsesCand nodes p) := by unfold UsesCand; infer_instance

/-- After the solve, a cut and the two row constraints; then a column. -/
def later : MS := (addColumn (conf true) (mkPath 2 1 1 3 0 1) (addBetaCuts (conf true) (addCuts oracle solved).2).2).2

theorem new_good : GoodPath 2 splits (mkPath 2 1 1 3 0 1) := by decide +kernel

theorem later_reached : Reached 2 (conf true) oracle (paths 1 0) splits none later := .column (.beta (.cuts solved_reached)) _ new_good

/-- Hypotheses of C40, C42, C52, C53, C54 and C56: a reached state with 13 paths, 2 row constraints and a cut. -/
example : Setup 2 (conf true) splits none ∧ (∀ p ∈ paths 1 0, GoodPath 2 splits p) ∧ CutSound oracle ∧
    Reached 2 (conf true) oracle (paths 1 0) splits none later ∧ later.paths.length = 13 ∧ later.cutCons.length = 1 ∧
    later.addedRow.take 4 = [true, true, false, false] ∧ later.m.cons.length = 4 + 16 + 2 + 1 ∧
    (∀ p ∈ later.paths, UsesCand nodes p) ∧ later.m.Feasible treeSol ∧ (∀ i, ∃ z : ℤ, treeSol i = z) := by
  refine ⟨setup true, good 1 0, cut_sound, later_reached, by decide +kernel, by decide +kernel, by decide +kernel, by decide +kernel,
    by decide +kernel, check_sound _ _ (by decide +kernel) (by decide +kernel), ?_⟩
  intro i
  unfold treeSol
  split_ifs
  · exact ⟨1, by norm_num⟩
  · exact ⟨0, by norm_num⟩

/-- Hypotheses of C41: the integer solver reports the tree; four paths are selected. -/
example : IpSound oracle ∧ (solveIp oracle later).1 = .ok true ∧ ((solveIp oracle later).2.selected.map (·.leafId)) = [0, 1, 2, 3] :=
  ⟨ip_sound, by decide +kernel, by decide +kernel⟩

/-- Paths with true costs. -/
def pathsHits : List Path := (paths 1 0).map (fun p => { p with cost := (hits (fullLeaves 2) splits X y p : ℚ) })

/-- Hypotheses of C50: the costs of the paths are the numbers of rows classified correctly; the tree has value 2. -/
example : (∀ p ∈ pathsHits, GoodPath 2 splits p ∧ UsesCand nodes p) ∧
    (generateMp (conf false) (MS.init pathsHits splits none)).1 = .ok () ∧
    (∀ p ∈ (generateMp (conf false) (MS.init pathsHits splits none)).2.paths, p.cost = hits (fullLeaves 2) splits X y p) ∧
    (solveIp oracle (generateMp (conf false) (MS.init pathsHits splits none)).2).1 = .ok true ∧
    (oracle.ip (generateMp (conf false) (MS.init pathsHits splits none)).2.m).objective = 2 := by
  refine ⟨by decide +kernel, by decide +kernel, by decide +kernel, by decide +kernel, by decide +kernel⟩

/-- Hypotheses of C43: row 2 can reach leaf 0 only and is removed; row 0 can reach all leaves and is kept; the fractional solution
satisfies the core of the program. -/
example : (∀ n ∈ nodes, n.childrenAreLeaves = true → 2 * n.id + 1 ≥ 2 ^ 2 - 1) ∧ Core 2 (conf true) solved half ∧
    ((preprocessRows (fullLeaves 2) nodes splits [] X false).map (fun r => (r.reachableLeaves.length, r.removedFromMaster))) =
      [(4, false), (4, false), (1, true), (1, true)] := by
  refine ⟨by decide +kernel, ?_, by decide +kernel⟩
  have h40 := C40_master_program (setup true) (good 1 0) cut_sound solved_reached
  exact ((h40.1 half).1 (by rw [solved_m]; exact checkLP_sound _ _ (by decide +kernel))).core

/-- C53 on the demo: the sum of the paths that follow the recorded cut is 2. -/
example : (addCuts oracle solved).1 = [[true, false, false, true, false, true, true]] ∧
    ((solved.paths.filter (fun p => rowSatisfiesPath (X.getD 0 []) (leafAt (fullLeaves 2) p.leafId) splits p)).map
      (fun p => solved.pathSol p.id)).sum = 2 := by
  refine ⟨by decide +kernel, by decide +kernel⟩

/-- C52: the split pattern "first split left, last split right" (same feature, smaller and larger threshold) is not realizable and not
part of a solution of the cut model. -/
example : ¬ Monotone splits (fun i => decide (i = 0)) ∧ Monotone splits pat0 := by
  constructor
  · intro h
    have := h 0 (by decide +kernel) 6 (by decide +kernel) (by decide +kernel) (by decide +kernel) (by decide)
    revert this
    decide
  · unfold Monotone
    decide +kernel

end Verif.DTree.Demo
