import Verif.DTree.StaleProps
import Verif.DTree.LifeDemo

/-!
# C126: a tree of depth 1, then a tree of depth 2 from the same nodes
-/

set_option synthInstance.maxSize 1000

namespace Verif.DTree.StaleDemo

open MP Spec Demo

/-- The objects of the demo tree of depth 2, and two paths of a tree of depth 1. -/
def heap : Heap where
  path a := (paths 1 0 ++ [(⟨0, [0], [0], 2, 0, 0, true⟩ : Path), ⟨1, [0], [0], 1, 0, 1, true⟩]).getD a ⟨0, [], [], 0, 0, 0, false⟩
  split a := splits.getD a ⟨0, 0, 0, false, [], [], [], []⟩
  node a := nodes.getD a ⟨0, [], [], 0, 0, 0, 0, false⟩
  row _ := ⟨[], [], [], [], [], false, false, 0⟩
  nextPath := 14
  nextRow := 0

def shallow : HArgs := ⟨[12, 13], fullLeaves 1, [0], [0, 1, 2, 3, 4, 5, 6], 1, [0, 1], 2, false, true, none, false⟩

def deep : HArgs := ⟨[0, 1, 2, 3, 4, 5, 6, 7, 8, 9, 10, 11], fullLeaves 2, [0, 1, 2], [0, 1, 2, 3, 4, 5, 6], 2, [0, 1], 2, false, true, none, false⟩

/-- `fit` of the first classifier. -/
def run := Fit.fit (envH LifeDemo.plainOracle shallow X) (configH shallow 1 0) 4 y est0 (HW.init shallow heap ())

/-- The master problem of the second classifier. -/
def master (h : Heap) : HM := (generateMpH deep X (HW.init deep h ()).m).2

def shown (s : HM) : List (List ℕ × List ℕ × Bool) :=
  (s.rows.getD []).map fun a => ((s.heap.row a).reachableLeaves, (s.heap.row a).reachableNodes, (s.heap.row a).removedFromMaster)

/-- The first classifier is trained. -/
theorem run_ok : run.map (fun r => (r.1.isOk, r.2.world.m.rest.generated, deep.splits.map r.2.world.m.heap.split)) = some (true, true, splits) := by decide +kernel

/-- The second one, with new nodes: two rows reach all leaves and are kept. -/
example : shown (master heap) = [([1, 0, 3, 2], [0, 1, 2], false), ([0, 1, 2, 3], [0, 1, 2], false), ([0], [0, 1], true), ([3], [0, 2], true)] ∧
    [0, 1, 2, 3].map (master heap).rest.rowCons = [some 4, some 5, none, none] := by
  decide +kernel

/-- With the nodes of the first classifier: all rows are removed. -/
example : run.map (fun r => (shown (master r.2.world.m.heap), [0, 1, 2, 3].map (master r.2.world.m.heap).rest.rowCons)) =
    some ([([1, 2], [0], true), ([1, 2], [0], true), ([1], [0], true), ([2], [0], true)], [none, none, none, none]) := by
  decide +kernel

/-- The removed rows are not redundant (contrast C43): the fractional solution `half` is cut off in the first program and feasible in the second. -/
example : (∃ k ∈ (master heap).rest.m.cons, k.ub = some 1 ∧ act (master heap).rest.m.vars.length k.coeff half = 2) ∧
    run.map (fun r => checkLP (master r.2.world.m.heap).rest.m half) = some true := by
  decide +kernel

/-- The hypotheses of `C126_shallower` and `C126_no_rows`. -/
example : ∃ r, run = some r ∧ HSession LifeDemo.plainOracle shallow heap X y r.2.world ∧ r.2.world.m.rest.generated = true ∧
    HArgs.depthOf shallow = 1 ∧ shallow.nodes = deep.nodes.take (2 ^ 1 - 1) ∧ deep.nodes.Nodup ∧
    Tree 2 deep.leaves (deep.nodes.map heap.node) (deep.splits.map r.2.world.m.heap.split) ∧
    (∀ a ∈ deep.nodes, (heap.node a).childrenAreLeaves = false) ∧ (generateMpH deep X (HW.init deep r.2.world.m.heap ()).m).1 = .ok () := by
  have hg : run.map (fun r => (generateMpH deep X (HW.init deep r.2.world.m.heap ()).m).1.isOk) = some true := by decide +kernel
  cases hr : run with
  | none =>
    have := run_ok
    rw [hr] at this
    cases this
  | some r =>
    have h := run_ok
    rw [hr] at h hg
    simp only [Option.map_some, Option.some.injEq, Prod.mk.injEq] at h hg
    refine ⟨r, rfl, .fit (.new ()) 1 0 4 est0 hr, h.2.1, by decide +kernel, rfl, by decide, ?_, by decide +kernel, ?_⟩
    · rw [h.2.2]
      exact tree
    · generalize (generateMpH deep X (HW.init deep r.2.world.m.heap ()).m).1 = v at hg
      cases v with
      | error e => cases hg
      | ok u => rfl

/-- The hypotheses of `C126_not_shallower`: the second classifier alone. -/
example : Unmarked 2 heap ∧ ∃ s : Prog Unit, DeepRuns 2 heap s ∧ ∃ w, s.2 0 = some (deep, w) ∧ Tree 2 deep.leaves (deep.nodes.map s.1.node) (deep.splits.map s.1.split) ∧
    (generateMpH deep X (HWOn w s.1).m).1 = .ok () := by
  refine ⟨?_, _, Relation.ReflTransGen.refl.tail ⟨0, .construct heap (fun _ => none) 0 deep () (by decide), ?_⟩, HW.init deep heap (), ?_, ?_, ?_⟩
  · intro a ha
    exfalso
    match a, ha with
    | 0, h => exact absurd h (by decide +kernel)
    | 1, h => exact absurd h (by decide +kernel)
    | 2, h => exact absurd h (by decide +kernel)
    | k + 3, h => exact absurd h (by simp [heap, nodes])
  · intro H w h
    have h' : some (deep, HW.init deep heap ()) = some (H, w) := (Function.update_self (0 : ℕ) (some (deep, HW.init deep heap ())) (fun _ => none)).symm.trans h
    obtain ⟨rfl, -⟩ := Prod.mk.inj (Option.some.inj h')
    decide +kernel
  · exact Function.update_self (0 : ℕ) (some (deep, HW.init deep heap ())) (fun _ => none)
  · exact tree
  · decide +kernel

end Verif.DTree.StaleDemo
