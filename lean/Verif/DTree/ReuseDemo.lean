import Verif.DTree.ReuseProps
import Verif.DTree.StrictDemo

/-!
# Examples for C105, and what goes wrong with used objects
-/

namespace Verif.DTree.Demo

open MP Spec
open Fit.Spec

/-! ## Objects that can be used again, but not with the same list -/

theorem fRun_used : returned fRun (fun s => decide (s.world.master.cutCons = []) && decide (∃ p ∈ s.world.master.paths, p.target = -1)) = true := by
  decide +kernel

/-- C105: after the demo run the objects are fit for another classifier as far as `fit` is concerned, and a second `fit` with exact solvers is at
least as good; but the constructor accepts them only with copies of the lists, since a path with target `-1` was appended to the list. -/
example : ∃ s, fRun = some (.ok (), s) ∧ FitOk 2 (fArgs.after s.world) fX (encoded fy) ∧ fArgs.accepted = .ok () ∧
    (fArgs.after s.world).accepted = .error .assertionError ∧ (fArgs.afterCopy s.world).accepted = .ok () ∧
    (∃ r, fitNew fO (fArgs.after s.world) 5 100 fX (enough 2 (fArgs.after s.world) fX) fy est0 () = some r) ∧
    ∀ res s', fitNew fO (fArgs.after s.world) 5 100 fX (enough 2 (fArgs.after s.world) fX) fy est0 () = some (res, s') → res = .ok () ∧
      (s.world.master.selected.map (·.cost)).sum ≤ (s'.world.master.selected.map (·.cost)).sum := by
  obtain ⟨s, h1, h2⟩ := returned_spec fRun_used
  simp only [Bool.and_eq_true, decide_eq_true_eq] at h2
  have h1' : Fit.fit (env fO fArgs fX) (config fArgs 1 100) 10 fy est0 (World.init fArgs ()) = some (.ok (), s) := h1
  have hs : Session fO fArgs fX fy s.world := .fit (.new ()) 1 100 10 est0 h1'
  have h0 : fArgs.accepted = .ok () := by decide +kernel
  have hf := C105_reuse_partial fFitOk fContract fTwo hs h2.1 rfl
  have hc : FitContract 2 (fArgs.after s.world) fX fO 0 := guided_contract hf.1 _ _ _ _
  obtain ⟨k1, k2⟩ := C105_second_fit_partial (e0' := est0) (ω := ()) (maxIt' := 5) (limit' := 100) (fuel' := enough 2 (fArgs.after s.world) fX)
    fFitOk fContract fTwo (.new ()) h1' h2.1 rfl hc
  obtain ⟨-, c2, c3⟩ := C105_constructor fFitOk fContract fTwo hs h0
  exact ⟨s, h1, hf.1, h0, c2 h2.2, c3, k1, fun res s' hr => ⟨(k2 res s' hr).1, (k2 res s' hr).2 (guided_ipOptimal _ _ _ _)⟩⟩

/-! ## Used data rows -/

/-- Two rows of different classes, the split that separates them, and a split that does not. -/
def uX : List (List ℚ) := [[0], [1]]

def uSplits : List Split := addRowsToSplits [⟨0, 0, 1 / 2, false, [], [], [], []⟩, ⟨1, 0, 5, false, [], [], [], []⟩] uX

def uFresh : List Row := List.replicate 2 ⟨[], [], [], [], [], false, false, 1⟩

/-- A tree of depth 1 with the second split, as in `examples/dtree_experiment.py:296-307`: data rows are passed, the row constraints are cuts. -/
def uArgs (rows : List Row) : Args :=
  ⟨[⟨0, [0], [1], 1, 0, 0, false⟩, ⟨1, [0], [1], 0, 0, 0, false⟩], fullLeaves 1, [⟨0, [0, 1], [1, 1], 0, -1, 1, 2, true⟩], uSplits, 1, [0, 1], 10,
    true, false, some rows, false⟩

def uConf : Conf := (uArgs uFresh).masterConf uX

/-- The two paths of the tree that separates the rows. -/
def uLeft : Path := ⟨0, [0], [0], 1, 0, 0, false⟩
def uRight : Path := ⟨1, [0], [0], 1, 0, 1, false⟩

/-- The master problem after construction, with the given columns added. -/
def uMaster (rows : List Row) (cols : List Path) : MS :=
  cols.foldl (fun s p => (addColumnS uConf p s).2) (generateMpS uConf (MS.init (marked (uArgs rows)) uSplits (some rows))).2

/-- The data rows after a first classifier generated both paths. -/
def uUsed : List Row := (uMaster uFresh [uLeft, uRight]).dataRows.getD []

/-- The optimal solution of the relaxation with all four paths: the separating tree, in whichever order its paths were added. -/
def uOracle (vals : ℕ → ℚ) (obj : ℚ) : Oracle := ⟨fun _ _ => ⟨.optimal, vals, fun _ => 0, obj⟩, fun _ _ => [], fun _ => ⟨.other, fun _ => 0, fun _ => 0, 0⟩⟩

/-- `solve_rmp` called `n` times. -/
def rmpTimes (o : Oracle) : ℕ → MS → Except Err Unit × MS
  | 0, s => (.ok (), s)
  | n + 1, s => match solveRmpS uConf o s with
    | (.error e, s) => (.error e, s)
    | (.ok _, s) => rmpTimes o n s

def uTree (v : ℕ) : ℚ := if v ∈ [2, 4, 5] then 1 else 0

def uStump (v : ℕ) : ℚ := if v ∈ [0, 1, 3] then 1 else 0

/-- **C105 fails for used data rows, I.** A first classifier generates two paths, with the ids 4 and 5, and leaves these ids in the data rows. In a
second classifier with the same data rows and copies of the lists these ids have no solution value: the tenth `solve_rmp`, in which the row
constraints are checked, raises `KeyError`. With fresh data rows it does not. -/
theorem C105_refuted_keyError : uUsed.map (·.reachablePaths) = [[0, 4], [0, 5]] ∧
    (rmpTimes (uOracle uStump 1) 9 (uMaster uUsed [])).1 = .ok () ∧ (rmpTimes (uOracle uStump 1) 10 (uMaster uUsed [])).1 = .error .keyError ∧
    (rmpTimes (uOracle uStump 1) 10 (uMaster uFresh [])).1 = .ok () := by decide +kernel

/-- Some constraint of the model has upper bound 1, coefficients 1 for the variables `v` and `v'` and no negative coefficients; no variable may be
negative. -/
def excludes (m : Model) (v v' : ℕ) : Bool :=
  m.cons.any (fun c => decide (c.ub = some 1) && decide (c.coeff v = 1) && decide (c.coeff v' = 1) &&
    (List.range m.vars.length).all (fun i => decide (0 ≤ c.coeff i))) &&
  m.vars.all (fun x => decide (x.lb = some 0)) && decide (v < m.vars.length) && decide (v' < m.vars.length) && decide (v ≠ v')

/-- Then the two variables are not both 1 in any solution of the relaxation. -/
theorem excludes_sound {m : Model} {v v' : ℕ} (h : excludes m v v' = true) {a : ℕ → ℚ} (ha : m.FeasibleLP a) : ¬(a v = 1 ∧ a v' = 1) := by
  rintro ⟨h1, h2⟩
  unfold excludes at h
  simp only [Bool.and_eq_true, List.any_eq_true, List.all_eq_true, decide_eq_true_eq, List.mem_range] at h
  obtain ⟨⟨⟨⟨⟨c, hc, ⟨⟨hub, hv⟩, hv'⟩, hpos⟩, hlb⟩, hlt⟩, hlt'⟩, hne⟩ := h
  obtain ⟨i, hi, rfl⟩ := List.mem_iff_getElem.1 hc
  have hle := (ha.cons i _ (List.getElem?_eq_getElem hi)).2 1 hub
  have hnn : ∀ j ∈ Finset.range m.vars.length, 0 ≤ m.cons[i].coeff j * a j := by
    intro j hj
    have hj' := Finset.mem_range.1 hj
    exact mul_nonneg (hpos j hj') ((ha.bounds j _ (List.getElem?_eq_getElem hj')).1 0 (hlb _ (List.getElem_mem hj')))
  have hsub : ∑ j ∈ ({v, v'} : Finset ℕ), m.cons[i].coeff j * a j ≤ activity m.vars.length m.cons[i].coeff a := by
    refine Finset.sum_le_sum_of_subset_of_nonneg ?_ (fun j hj _ => hnn j hj)
    intro j hj
    rcases Finset.mem_insert.1 hj with rfl | hj
    · exact Finset.mem_range.2 hlt
    · rw [Finset.mem_singleton.1 hj]; exact Finset.mem_range.2 hlt'
  rw [Finset.sum_pair hne, hv, hv', h1, h2] at hsub
  have := hsub.trans hle
  norm_num at this

/-- The second classifier with both paths, added in the other order, after ten times `solve_rmp`. -/
def uBad : MS := (rmpTimes (uOracle uTree 2) 10 (uMaster uUsed [uRight, uLeft])).2

def uGood : MS := (rmpTimes (uOracle uTree 2) 10 (uMaster uFresh [uRight, uLeft])).2

/-- **C105 fails for used data rows, II.** If the second classifier generates the same paths in another order, nothing is raised: the ids in the
data rows now belong to other paths. The tenth `solve_rmp` adds a constraint that excludes the tree of the two paths (variables 4 and 5), the best
one, although the tree is in the model and satisfies all constraints there are with fresh data rows. -/
theorem C105_refuted_wrong_row :
    (rmpTimes (uOracle uTree 2) 10 (uMaster uUsed [uRight, uLeft])).1 = .ok () ∧
    uBad.paths.map (fun p => (p.leafId, p.splits, p.id)) = [(0, [1], 0), (1, [1], 1), (1, [0], 4), (0, [0], 5)] ∧
    (∀ a, uBad.m.FeasibleLP a → ¬(a 4 = 1 ∧ a 5 = 1)) ∧
    uGood.m.Feasible uTree ∧ uGood.m.value uTree = 2 ∧ uTree 4 = 1 ∧ uTree 5 = 1 := by
  have h1 : (rmpTimes (uOracle uTree 2) 10 (uMaster uUsed [uRight, uLeft])).1 = .ok () ∧
    uBad.paths.map (fun p => (p.leafId, p.splits, p.id)) = [(0, [1], 0), (1, [1], 1), (1, [0], 4), (0, [0], 5)] := by decide +kernel
  have h2 : excludes uBad.m 4 5 = true := by decide +kernel
  refine ⟨h1.1, h1.2, fun a ha => excludes_sound h2 ha, check_sound _ _ (by decide +kernel) (by decide +kernel), ?_, by decide +kernel, by decide +kernel⟩
  unfold Model.value
  rw [← act_eq]
  decide +kernel

/-! ## Used splits -/

/-- **C105 fails for used splits.** Cuts that a first classifier entered into the splits do not exist in a second one: `add_column` raises
`IndexError`. -/
theorem C105_refuted_cuts :
    let sp := addCutsToSplits uSplits 0 [[true, true]]
    (addColumnS uConf uLeft (generateMpS uConf (MS.init (marked (uArgs uFresh)) sp (some uFresh))).2).1 = .error .indexError ∧
    (addColumnS uConf uLeft (generateMpS uConf (MS.init (marked (uArgs uFresh)) uSplits (some uFresh))).2).1 = .ok true := by decide +kernel

end Verif.DTree.Demo
