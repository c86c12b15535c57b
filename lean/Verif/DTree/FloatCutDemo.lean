import Verif.DTree.FloatRounds
import Verif.DTree.CutCompleteDemo

/-!
# Concrete instances of property C121
-/

set_option linter.unusedSectionVars false
set_option linter.unusedSimpArgs false

namespace Verif.DTree.FloatDemo

open MP Spec Fl

/-- The sets are listed backwards. -/
def back (_ _ : ℕ) (l : List ℕ) : List ℕ := l.reverse

theorem back_lists : Lists back := fun _ _ l => List.reverse_perm l

/-- The first solve of the instance with a fractional solution, with Python's floats. -/
def half : MS := (solveRmpR binary64.rnd back (Demo.conf true) Demo.oracle2 Demo.start2).2

theorem half_reached : ReachedR binary64.rnd back 2 (Demo.conf true) Demo.oracle2 Demo.paths2 Demo.splits none half :=
  .rmp (.generate (Prod.ext (by decide +kernel) rfl))

/-- The hypotheses of `C121_sound`, `C121_binary64` and `C121_beta` hold, a cut is found, and a row gets a constraint. -/
example : Lists back ∧ Setup 2 (Demo.conf true) Demo.splits none ∧ (∀ p ∈ Demo.paths2, GoodPath 2 Demo.splits p) ∧ CutSound Demo.oracle2 ∧
    ReachedR binary64.rnd back 2 (Demo.conf true) Demo.oracle2 Demo.paths2 Demo.splits none half ∧
    ((half.paths.length : ℚ) + 1) * (pathMass half + 1) ≤ 2 ^ 28 ∧
    (addCutsR binary64.rnd Demo.oracle2 half).1 = [[true, false, false, true, false, true, true]] ∧
    (List.range 4).map (fun r => (half.addedRow.getD r false, (addBetaCutsR binary64.rnd back (Demo.conf true) half).2.addedRow.getD r false)) =
      [(false, true), (false, true), (false, false), (false, false)] :=
  ⟨back_lists, Demo.setup true, Demo.good2, Demo.cut_sound2, half_reached, by decide +kernel, by decide +kernel, by decide +kernel⟩

/-- After the cut and another solve, the hypotheses of `C121_new` hold with `δ = 0`, and a second cut is found. -/
def again : MS := (solveRmpR binary64.rnd back (Demo.conf true) Demo.oracle2 (addCutsR binary64.rnd Demo.oracle2 half).2).2

example : ReachedR binary64.rnd back 2 (Demo.conf true) Demo.oracle2 Demo.paths2 Demo.splits none again ∧
    again.m.FeasibleLP again.pathSol ∧ ((again.paths.length : ℚ) + 1) * (pathMass again + 1) ≤ 2 ^ 28 ∧ again.cutCons.length = 1 ∧
    (addCutsR binary64.rnd Demo.oracle2 again).1 = [[true, false, true, false, false, true, true]] :=
  ⟨.rmp (.cuts half_reached), Demo.checkLP_sound _ _ (by decide +kernel), by decide +kernel, by decide +kernel, by decide +kernel⟩

/-! ## Rounding changes what is found -/

/-- Four paths of the pattern of `Demo.oracle2` get values that sum to a little more than `1 + 1e-6`, all of them floats. -/
def near (i : ℕ) : ℚ := match i with
  | 0 => 1
  | 2 => binary64.rnd (1 / 1000000)
  | 4 => 1 / 2 ^ 60
  | _ => 0

def nearOracle : Oracle where
  lp := fun _ _ => ⟨.optimal, near, fun _ => 0, 0⟩
  cut := Demo.oracle2.cut
  ip := Demo.oracle2.ip

def nearState : MS := (solveRmp (Demo.conf true) nearOracle Demo.start2).2

/-- **C121**: the results with Python's floats do differ from those of exact arithmetic: the exact search finds a cut, the rounded one none. -/
theorem C121_differs : Reached 2 (Demo.conf true) nearOracle Demo.paths2 Demo.splits none nearState ∧
    nearState.pathSol = near ∧ (∀ i, binary64.rnd (near i) = near i) ∧
    (addCuts nearOracle nearState).1 = [[true, false, false, true, false, true, true]] ∧
    (addCutsR binary64.rnd nearOracle nearState).1 = [] := by
  refine ⟨.rmp (.generate (Prod.ext (by decide +kernel) rfl)), ?_, ?_, by decide +kernel, by decide +kernel⟩
  · have h : (solveRmp (Demo.conf true) nearOracle Demo.start2).2 = _ :=
      Demo.solveRmp_plain (Demo.conf true) nearOracle Demo.start2 (by decide +kernel) (by decide +kernel) rfl
    unfold nearState
    rw [h]
    rfl
  · intro i
    unfold near
    split
    · decide +kernel
    · decide +kernel
    · decide +kernel
    · decide +kernel

/-! ## All rounds -/

theorem solveRmpR_plain (rnd : ℚ → ℚ) (ord : ℕ → ℕ → List ℕ → List ℕ) (c : Conf) (o : Oracle) (s : MS) (hg : s.generated = true)
    (hi : (s.iter + 1) % 10 ≠ 0) : solveRmpR rnd ord c o s = solveRmp c o s := by
  unfold solveRmpR solveRmp
  rw [if_pos hg, if_pos hg]
  simp only
  have h1 : ¬ ((lpSolve o { s with
      prevRmpObj := s.rmpObj
      iter := s.iter + 1 }).iter % 10 = 0) := hi
  rw [if_neg h1, if_neg h1]

theorem after_reachedR : ∀ k ≤ 9, ReachedR binary64.rnd back 2 Demo.conf200 Demo.best (Demo.paths 1 0) Demo.splits none (Demo.after k)
  | 0, _ => .generate (Prod.ext (by decide +kernel) rfl)
  | k + 1, hk => by
    obtain ⟨h1, h2, h3, h4⟩ := Demo.after_m k (by omega)
    have h := ReachedR.rmp (after_reachedR k (by omega))
    rw [solveRmpR_plain _ _ _ _ _ h3 (by omega)] at h
    exact h

theorem best_near : LpNear 0 Demo.best := by
  intro m k h
  have hf := Demo.best_lp m k h
  constructor
  · intro i v hv l hl
    rw [sub_zero]
    exact (hf.bounds i v hv).1 l hl
  · intro c k hk
    refine ⟨fun l hl => ?_, fun u hu => ?_⟩
    · rw [sub_zero]; exact (hf.cons c k hk).1 l hl
    · rw [add_zero]; exact (hf.cons c k hk).2 u hu

/-- The tenth solve with Python's floats ends with an optimal solution. -/
theorem tenthR : (solveRmpR binary64.rnd back Demo.conf200 Demo.best (Demo.after 9)).2.last.status = .optimal := by
  obtain ⟨h1, h2, h3, h4⟩ := Demo.after_m 9 (le_refl 9)
  obtain ⟨cuts, own, cd, hi⟩ := reachedR_inv back_lists Demo.setup200 (Demo.good 1 0) Demo.best_cut.1 (after_reachedR 9 le_rfl)
  obtain ⟨s1, hs1⟩ : ∃ s1, s1 = lpSolve Demo.best { Demo.after 9 with
      prevRmpObj := (Demo.after 9).rmpObj
      iter := (Demo.after 9).iter + 1 } := ⟨_, rfl⟩
  have hl : s1.last = ⟨.optimal, Demo.treeSol, fun _ => 0, 0⟩ := by
    rw [hs1]
    change Demo.best.lp (Demo.after 9).m (Demo.after 9).lpCalls = _
    rw [h1]
    exact if_pos Demo.start200_tree.1
  have hi1 : Inv 2 Demo.conf200 Demo.splits cuts own cd s1 := by rw [hs1]; exact hi.of_eq rfl
  have hpth : s1.paths = Demo.start200.paths := by rw [hs1]; exact h4
  have hlen : s1.paths.length = 12 := by rw [hpth]; decide +kernel
  have hnear : Near 0 s1.m s1.last.values := by
    have : s1.last = Demo.best.lp (Demo.after 9).m (Demo.after 9).lpCalls := by rw [hs1]; rfl
    have hm : s1.m = (Demo.after 9).m := by rw [hs1]; rfl
    rw [hm, this]
    exact best_near _ _ (by rw [← this, hl])
  obtain ⟨g1, g2, -⟩ := cut64 (n := s1.paths.length) (A := massBound 0 2 s1.paths.length) (by unfold massBound; positivity)
    (by rw [hlen]; unfold massBound; norm_num)
  obtain ⟨_, _, _, _, k3, _, _⟩ := cutRoundR_progress binary64_accurate (by positivity) (by positivity) back_lists le_rfl
    Demo.setup200.tree.split_id Demo.best_cut.1 hi1 g1 (by linarith) hnear
  have hnil : (addCutsR binary64.rnd Demo.best (storeLp s1)).1 = [] := by
    have hi2 : Inv 2 Demo.conf200 Demo.splits cuts own cd (storeLp s1) := hi1.of_eq rfl
    rw [(inv_addCutsR Demo.setup200.tree.split_id hi2 Demo.best_cut.1).2.1, List.map_eq_nil_iff]
    by_contra hne
    obtain ⟨y, hy⟩ := List.exists_mem_of_ne_nil _ hne
    have hsum := hi2.recordedR_sum binary64_accurate (by positivity) (by positivity) Demo.best_cut.1 (by exact g1) hy
    have hm : pathMass (storeLp s1) ≤ massBound 0 2 s1.paths.length := by
      obtain ⟨n1, n2, -⟩ := hi1.near hnear
      exact mass_near (fun p hp => (hi1.good p hp).1.leaf_lt) le_rfl n1 n2
    have hmono := cutSlack_mono (u := 1 / 2 ^ 53) (η := 1 / 2 ^ 1075) (by positivity) s1.paths.length hm
    have hsol : (storeLp s1).pathSol = Demo.treeSol := by
      change s1.last.values = _
      rw [hl]
    have hp2 : (storeLp s1).paths = s1.paths := rfl
    rw [hp2, hsol, hpth, Demo.treeSol_one, ← hpth] at hsum
    linarith
  have e : cutRoundsR binary64.rnd back Demo.conf200 Demo.best 200 [] s1 = ([], (cutRoundR binary64.rnd back Demo.conf200 Demo.best s1).2.2) := by
    rw [cutRoundsR, if_pos (by rw [hl])]
    refine if_neg ?_
    have hr : (cutRoundR binary64.rnd back Demo.conf200 Demo.best s1).2.1 = [] ∧ (cutRoundR binary64.rnd back Demo.conf200 Demo.best s1).1 = 0 :=
      ⟨hnil, rfl⟩
    rw [hr.1, hr.2]
    simp
  have hok : (cutRoundR binary64.rnd back Demo.conf200 Demo.best s1).2.2.last.status = .optimal := by rw [k3, hl]
  unfold solveRmpR
  rw [if_pos h3]
  simp only
  rw [← hs1]
  have hit : s1.iter % 10 = 0 := by
    rw [hs1]
    change ((Demo.after 9).iter + 1) % 10 = 0
    rw [h2]
  have hr : (if s1.iter % 10 = 0 then cutRoundsR binary64.rnd back Demo.conf200 Demo.best Demo.conf200.numCutsRound [] s1 else ([], s1)) =
      ([], (cutRoundR binary64.rnd back Demo.conf200 Demo.best s1).2.2) := (if_pos hit).trans e
  rw [hr, if_pos hok]
  exact hok

/-- The hypotheses of `C121_rounds64` hold for the tenth solve. -/
example : Lists back ∧ LpNear 0 Demo.best ∧ Setup 2 Demo.conf200 Demo.splits none ∧ CutSound Demo.best ∧ CutOptimal Demo.best ∧
    ReachedR binary64.rnd back 2 Demo.conf200 Demo.best (Demo.paths 1 0) Demo.splits none (Demo.after 9) ∧ ((Demo.after 9).iter + 1) % 10 = 0 ∧
    Demo.conf200.generateCuts = true ∧ (((Demo.after 9).paths.length : ℚ) + 1) * (massBound 0 2 (Demo.after 9).paths.length + 1) ≤ 2 ^ 28 ∧
    2 ^ Demo.splits.length + Demo.conf200.X.length < Demo.conf200.numCutsRound ∧
    (solveRmpR binary64.rnd back Demo.conf200 Demo.best (Demo.after 9)).2.last.status = .optimal := by
  refine ⟨back_lists, best_near, Demo.setup200, Demo.best_cut.1, Demo.best_cut.2, after_reachedR 9 le_rfl,
    by rw [(Demo.after_m 9 (le_refl 9)).2.1], rfl, ?_, by decide +kernel, tenthR⟩
  have : (Demo.after 9).paths.length = 12 := by
    rw [(Demo.after_m 9 (le_refl 9)).2.2.2]
    decide +kernel
  rw [this]
  unfold massBound
  norm_num

end Verif.DTree.FloatDemo
