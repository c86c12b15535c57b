import Verif.DTree.CutComplete
import Verif.DTree.Demo

/-!
# A concrete instance of properties C88 and C89

The tree of `Demo`, with an LP solver that reports the solution of the tree, a cut search that passes an optimal solution, and 200 cut
rounds (more than the 128 patterns of seven splits plus four rows). The tenth `solve_rmp` runs the rounds.
-/

set_option linter.unusedSectionVars false
set_option linter.unusedSimpArgs false

namespace Verif.DTree.Demo

open MP Spec

/-- As `conf false`, with more cut rounds. -/
def conf200 : Conf := ⟨fullLeaves 2, nodes, X, false, true, 200⟩

open Classical in
noncomputable def best : Oracle where
  lp := fun m _ => if m.FeasibleLP treeSol then ⟨.optimal, treeSol, fun _ => 0, 0⟩ else noAnswer
  cut := bestCut
  ip := fun _ => noAnswer

open Classical in
theorem best_lp : LpFeasible best := by
  intro m k h
  have e : best.lp m k = if m.FeasibleLP treeSol then ⟨.optimal, treeSol, fun _ => 0, 0⟩ else noAnswer := rfl
  rw [e] at h ⊢
  by_cases hf : m.FeasibleLP treeSol
  · rw [if_pos hf]; exact hf
  · rw [if_neg hf] at h; simp [noAnswer] at h

theorem best_cut : CutSound best ∧ CutOptimal best := bestCut_sound best rfl

theorem setup200 : Setup 2 conf200 splits none := ⟨(setup false).depth, (setup false).tree, (setup false).filled, (setup false).no_cuts, (setup false).rows⟩

def start200 : MS := (generateMp conf200 (MS.init (paths 1 0) splits none)).2

theorem start200_reached : Reached 2 conf200 best (paths 1 0) splits none start200 :=
  .generate (Prod.ext (by decide +kernel) rfl)

theorem start200_tree : start200.m.Feasible treeSol := check_sound _ _ (by decide +kernel) (by decide +kernel)

/-- After `k` solves. -/
noncomputable def after : ℕ → MS
  | 0 => start200
  | k + 1 => (solveRmp conf200 best (after k)).2

theorem after_reached : ∀ k, Reached 2 conf200 best (paths 1 0) splits none (after k)
  | 0 => start200_reached
  | k + 1 => .rmp (after_reached k)

theorem after_m : ∀ k ≤ 9, (after k).m = start200.m ∧ (after k).iter = k ∧ (after k).generated = true ∧ (after k).paths = start200.paths
  | 0, _ => ⟨rfl, by change start200.iter = 0; decide +kernel, by change start200.generated = true; decide +kernel, rfl⟩
  | k + 1, hk => by
    obtain ⟨h1, h2, h3, h4⟩ := after_m k (by omega)
    have hl : (best.lp (after k).m (after k).lpCalls).status = .optimal := by
      rw [h1]
      exact congrArg Answer.status (if_pos start200_tree.1)
    have e : after (k + 1) = storeLp (lpSolve best { after k with
        prevRmpObj := (after k).rmpObj
        iter := (after k).iter + 1 }) := solveRmp_plain _ _ _ h3 (by omega) hl
    rw [e]
    exact ⟨h1, by change (after k).iter + 1 = k + 1; rw [h2], h3, h4⟩

theorem treeSol_int (i : ℕ) : ∃ z : ℤ, treeSol i = z := by
  unfold treeSol
  split_ifs
  · exact ⟨1, by norm_num⟩
  · exact ⟨0, by norm_num⟩

theorem treeSol_one (left : ℕ → Bool) : pathSum start200.paths treeSol (Follows 2 left) = 1 := by
  have hc : ∀ p ∈ start200.paths, UsesCand conf200.nodes p := by decide +kernel
  have h := C42_cuts_keep_integer_points setup200 (good 1 0) best_cut.1 start200_reached hc treeSol (fun p _ => treeSol_int p.id)
  exact h.2 (((C40_master_program setup200 (good 1 0) best_cut.1 start200_reached).1 treeSol).1 start200_tree.1).core left

/-- The tenth solve stores the solution of the tree. -/
theorem tenth : (after 10).last.status = .optimal ∧ (after 10).pathSol = treeSol := by
  obtain ⟨h1, h2, h3, h4⟩ := after_m 9 (le_refl 9)
  obtain ⟨cuts, own, cd, hi⟩ := reached_inv setup200 (good 1 0) best_cut.1 (after_reached 9)
  obtain ⟨s1, hs1⟩ : ∃ s1, s1 = lpSolve best { after 9 with
      prevRmpObj := (after 9).rmpObj
      iter := (after 9).iter + 1 } := ⟨_, rfl⟩
  have hl : s1.last = ⟨.optimal, treeSol, fun _ => 0, 0⟩ := by
    rw [hs1]
    change best.lp (after 9).m (after 9).lpCalls = _
    rw [h1]
    exact if_pos start200_tree.1
  have hi1 : Inv 2 conf200 splits cuts own cd (storeLp s1) := by rw [hs1]; exact hi.of_eq rfl
  have hsol : (storeLp s1).pathSol = treeSol := by
    change s1.last.values = _
    rw [hl]
  have hpth : (storeLp s1).paths = start200.paths := by
    rw [hs1]
    exact h4
  have hnil : (addCuts best (storeLp s1)).1 = [] := by
    rw [(inv_addCuts setup200.tree.split_id hi1 best_cut.1).2.1, List.map_eq_nil_iff]
    by_contra hne
    obtain ⟨y, hy⟩ := List.exists_mem_of_ne_nil _ hne
    obtain ⟨_, _, r3, r4⟩ := recorded_spec hi1 best_cut.1 y hy
    rw [zip_filter_sum _ y.1 _ _ r3, hsol, hpth, treeSol_one] at r4
    unfold eps at r4
    norm_num at r4
  have hround : (cutRound conf200 best s1).2.1 = [] ∧ (cutRound conf200 best s1).1 = 0 := ⟨hnil, rfl⟩
  have hf : s1.m.FeasibleLP s1.last.values := by
    rw [hl]
    have : s1.m = start200.m := by rw [hs1]; exact h1
    rw [this]
    exact start200_tree.1
  obtain ⟨_, _, _, _, k3, k4, _, _⟩ := cutRound_progress setup200.tree.split_id best_cut.1 (s := s1) (hi1.of_eq rfl) hf
  have e : cutRounds conf200 best 200 [] s1 = ([], (cutRound conf200 best s1).2.2) := by
    rw [cutRounds, if_pos (by rw [hl])]
    refine if_neg ?_
    rw [hround.1, hround.2]
    simp
  have e2 : after 10 = storeLp (cutRound conf200 best s1).2.2 := by
    change (solveRmp conf200 best (after 9)).2 = _
    unfold solveRmp
    rw [if_pos h3]
    simp only
    rw [← hs1]
    have hit : s1.iter % 10 = 0 := by
      rw [hs1]
      change ((after 9).iter + 1) % 10 = 0
      rw [h2]
    have hr : (if s1.iter % 10 = 0 then cutRounds conf200 best conf200.numCutsRound [] s1 else ([], s1)) =
        ([], (cutRound conf200 best s1).2.2) := (if_pos hit).trans e
    rw [hr]
    exact congrArg Prod.snd (if_pos (by simp only; rw [k3, hl]))
  rw [e2]
  constructor
  · change (cutRound conf200 best s1).2.2.last.status = _
    rw [k3, hl]
  · change (cutRound conf200 best s1).2.2.last.values = _
    rw [k3, hl]

/-- The hypotheses of `C89_rounds_end_clean` hold for the tenth solve. -/
example : Setup 2 conf200 splits none ∧ (∀ p ∈ paths 1 0, GoodPath 2 splits p) ∧ CutSound best ∧ CutOptimal best ∧ LpFeasible best ∧
    Reached 2 conf200 best (paths 1 0) splits none (after 9) ∧ ((after 9).iter + 1) % 10 = 0 ∧ conf200.generateCuts = true ∧
    2 ^ splits.length + conf200.X.length < conf200.numCutsRound ∧ (solveRmp conf200 best (after 9)).2.last.status = .optimal :=
  ⟨setup200, good 1 0, best_cut.1, best_cut.2, best_lp, after_reached 9, by rw [(after_m 9 (le_refl 9)).2.1], rfl, by decide +kernel, tenth.1⟩

/-- The hypotheses of `C88_no_cut_no_violation` hold after the tenth solve, with integral values. -/
example : Reached 2 conf200 best (paths 1 0) splits none (after 10) ∧ (addCuts best (after 10)).1 = [] ∧
    ∀ p ∈ (after 10).paths, ∃ z : ℤ, (after 10).pathSol p.id = z := by
  refine ⟨after_reached 10, ?_, ?_⟩
  · obtain ⟨cuts, own, cd, hi⟩ := reached_inv setup200 (good 1 0) best_cut.1 (after_reached 10)
    have hpth : (after 10).paths = start200.paths := by
      rw [← (after_m 9 (le_refl 9)).2.2.2]
      exact ((C40_paths_and_rows setup200 (good 1 0) best_cut.1).2 _ (after_reached 9)).2.2.2.1
    rw [(inv_addCuts setup200.tree.split_id hi best_cut.1).2.1, List.map_eq_nil_iff]
    by_contra hne
    obtain ⟨y, hy⟩ := List.exists_mem_of_ne_nil _ hne
    obtain ⟨_, _, r3, r4⟩ := recorded_spec hi best_cut.1 y hy
    rw [zip_filter_sum _ y.1 _ _ r3, tenth.2, hpth, treeSol_one] at r4
    unfold eps at r4
    norm_num at r4
  · intro p _
    rw [tenth.2]
    exact treeSol_int p.id

/-! ## A second cut

Three more paths, and two fractional solutions: the second one satisfies the cut of the first, and violates the bound of another pattern. -/

def paths2 : List Path := paths 1 0 ++ [mkPath 1 0 1 3 1 0, mkPath 1 1 1 3 0 0, mkPath 1 1 1 2 1 0]

def frac1 (i : ℕ) : ℚ := if i < 8 ∨ 15 ≤ i then 1 / 2 else 0

def frac2 (i : ℕ) : ℚ := if i ∈ [4, 5, 6, 7, 8, 12, 13, 14] ∨ 15 ≤ i then 1 / 2 else 0

/-- The point of the cut model with the given left splits. -/
def point (ls : List ℕ) (v : ℕ) : Bool :=
  if v < 7 then decide (v ∈ ls) else rowSatisfiesPath (ls.foldl (fun r t => r.set t 0) (List.replicate 7 1)) (leafAt (fullLeaves 2) ((paths2.getD (v - 7) (mkPath 0 0 0 0 0 0)).leafId)) splits
    (paths2.getD (v - 7) (mkPath 0 0 0 0 0 0))

def oracle2 : Oracle where
  lp := fun m k => if checkLP m (if k = 0 then frac1 else frac2) then ⟨.optimal, if k = 0 then frac1 else frac2, fun _ => 0, 0⟩ else noAnswer
  cut := fun cp k => if cp.Holds (if k = 0 then point [0, 3, 5, 6] else point [0, 2, 5, 6]) then [if k = 0 then point [0, 3, 5, 6] else point [0, 2, 5, 6]] else []
  ip := fun _ => noAnswer

theorem cut_sound2 : CutSound oracle2 := by
  intro cp k a ha
  simp only [oracle2] at ha
  split_ifs at ha with _ h h
  · rw [List.mem_singleton.1 ha]; exact h
  · cases ha
  · rw [List.mem_singleton.1 ha]; exact h
  · cases ha

theorem good2 : ∀ p ∈ paths2, GoodPath 2 splits p := by
  intro p hp
  rcases List.mem_append.1 hp with hp | hp
  · exact good 1 0 p hp
  · have h : ∀ p ∈ [mkPath 1 0 1 3 1 0, mkPath 1 1 1 3 0 0, mkPath 1 1 1 2 1 0], GoodPath 2 splits p := by decide +kernel
    exact h p hp

def start2 : MS := (generateMp (conf true) (MS.init paths2 splits none)).2

/-- A solve, a cut, a solve. -/
def twice : MS := (solveRmp (conf true) oracle2 (addCuts oracle2 (solveRmp (conf true) oracle2 start2).2).2).2

/-- The hypotheses of `C89_cuts_are_new`: the state has a cut, and the next call finds another one. -/
example : Setup 2 (conf true) splits none ∧ (∀ p ∈ paths2, GoodPath 2 splits p) ∧ CutSound oracle2 ∧
    Reached 2 (conf true) oracle2 paths2 splits none twice ∧ twice.m.FeasibleLP twice.pathSol ∧ twice.cutCons.length = 1 ∧
    (addCuts oracle2 twice).1 = [[true, false, true, false, false, true, true]] ∧
    (List.range 7).map (cutLeft twice.splits 0) = [true, false, false, true, false, true, true] := by
  refine ⟨setup true, good2, cut_sound2, .rmp (.cuts (.rmp (.generate (Prod.ext (by decide +kernel) rfl)))), checkLP_sound _ _ (by decide +kernel),
    by decide +kernel, by decide +kernel, by decide +kernel⟩

end Verif.DTree.Demo
