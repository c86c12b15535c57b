import Verif.DTree.HeapDup
import Verif.DTree.HeapShare
import Verif.DTree.LifeDemo

/-!
# C125: runs on objects
-/

set_option synthInstance.maxSize 1000

namespace Verif.DTree.HeapDemo

open MP Spec Fit.Spec Demo

/-- The objects of `qArgs`, at the addresses 0, 1, ... of their kind; path 4 has the same attributes as path 0. -/
def heap : Heap where
  path a := (qPaths ++ [(⟨0, [0], [0], 2, 0, 0, true⟩ : Path)]).getD a ⟨0, [], [], 0, 0, 0, false⟩
  split a := qSplits.getD a ⟨0, 0, 0, false, [], [], [], []⟩
  node a := qNodes.getD a ⟨0, [], [], 0, 0, 0, 0, false⟩
  row a := qRows.getD a ⟨[], [], [], [], [], false, false, 0⟩
  nextPath := 5
  nextRow := 3

def args (paths : List ℕ) : HArgs := ⟨paths, fullLeaves 1, [0], [0, 1], 1, [0, 1], 2, false, true, some [0, 1, 2], false⟩

theorem read_args : (args [0, 1, 2, 3]).read heap = qArgs := rfl

theorem distinct : DistinctObjects (args [0, 1, 2, 3]) heap := by
  refine ⟨by decide, by decide, by decide, ?_, by decide, ?_⟩
  · intro rs h
    obtain rfl := Option.some.inj h
    decide
  · intro rs h
    obtain rfl := Option.some.inj h
    decide

/-- The run `qRun` of the value model is the run on the objects. -/
example : ∃ s, Fit.fit (envH qO (args [0, 1, 2, 3]) qX) (configH (args [0, 1, 2, 3]) 5 100) 10 qy est0 (HW.init (args [0, 1, 2, 3]) heap ()) = some (.ok (), s) ∧
    s.est.mpOptimal = true ∧ predictH (args [0, 1, 2, 3]) s.est.classes s.world.m.heap s.world.m.selected qX = .ok qy := by
  obtain ⟨s, h1, h2⟩ := returned_spec qRun_facts
  simp only [Bool.and_eq_true, decide_eq_true_eq] at h2
  obtain ⟨-, h⟩ := C125_refines distinct (HSession.new (o := qO) (X := qX) (y := qy) ())
  obtain ⟨k1, k2⟩ := h 5 100 10 est0
  rw [(init_stands distinct ()).1] at k1 k2
  have e : Fit.fit (env qO ((args [0, 1, 2, 3]).read heap) qX) (config ((args [0, 1, 2, 3]).read heap) 5 100) 10 qy est0
      (World.init ((args [0, 1, 2, 3]).read heap) ()) = some (.ok (), s) := h1
  cases hr : Fit.fit (envH qO (args [0, 1, 2, 3]) qX) (configH (args [0, 1, 2, 3]) 5 100) 10 qy est0 (HW.init (args [0, 1, 2, 3]) heap ()) with
  | none =>
    rw [k1.1 hr] at e
    cases e
  | some r =>
    obtain ⟨res, t⟩ := r
    obtain ⟨s', e1, e2, -, -, e5⟩ := k2 res t hr
    rw [e] at e1
    obtain ⟨rfl, rfl⟩ := Prod.mk.inj (Option.some.inj e1)
    refine ⟨t, rfl, ?_, ?_⟩
    · rw [← e2]
      exact h2.1.1.1
    · rw [e5]
      exact h2.2

/-! ## One object twice -/

/-- Path 0 twice: its first variable is in no constraint. A second object with the same attributes is another matter: there the first variable is in the
constraints of its leaf and of its rows. -/
example : (generateMpH (args [0, 0, 1]) qX (HW.init (args [0, 0, 1]) heap ()).m).1 = .ok () ∧
    Loose (generateMpH (args [0, 0, 1]) qX (HW.init (args [0, 0, 1]) heap ()).m).2.rest.m 0 ∧
    (generateMpH (args [0, 0, 1]) qX (HW.init (args [0, 0, 1]) heap ()).m).2.rest.m.cons.map (fun k => (k.coeff 0, k.coeff 1)) =
      [(0, 1), (0, 0), (0, 1), (0, 0), (0, 1), (0, 0), (0, 0), (0, 0)] ∧
    (generateMpH (args [0, 4, 1]) qX (HW.init (args [0, 4, 1]) heap ()).m).2.rest.m.cons.map (fun k => (k.coeff 0, k.coeff 1)) =
      [(1, 1), (0, 0), (1, 1), (0, 0), (1, 1), (0, 0), (0, 0), (0, 0)] := by
  have hok : (generateMpH (args [0, 0, 1]) qX (HW.init (args [0, 0, 1]) heap ()).m).1 = .ok () := by decide +kernel
  exact ⟨hok, (C125_same_object heap () (i := 0) (j := 1) (a := 0) (by decide) rfl rfl (by decide +kernel) hok).1, by decide +kernel, by decide +kernel⟩

/-- Exact solvers. -/
noncomputable def exactO : FitOracle Unit := exact (fun _ => (0, ())) (fun _ => (⟨fun i _ => i, id⟩, ())) (fun _ _ => [])

theorem exact_honest : Honest exactO := by
  refine ⟨fun m k h => ?_, fun m h => exactIp_sound m h⟩
  change (exactLp m).status = _ at h
  change IsOptimalLP m (exactLp m)
  unfold exactLp at *
  split at h
  · rename_i hc
    rw [dif_pos hc]
    exact hc.choose_spec.2.1
  · cases h

/-- With exact solvers `fit` succeeds on the objects 0, 1, 2, 3 (C71), and on 0, 0, 1, 2, 3 it does not. -/
example : (∀ {fuel res s}, Fit.fit (envH exactO (args [0, 1, 2, 3]) qX) (configH (args [0, 1, 2, 3]) 5 100) fuel qy est0
      (HW.init (args [0, 1, 2, 3]) heap ()) = some (res, s) → res = .ok ()) ∧
    ∀ {fuel u s}, Fit.fit (envH exactO (args [0, 0, 1, 2, 3]) qX) (configH (args [0, 0, 1, 2, 3]) 5 100) fuel qy est0
      (HW.init (args [0, 0, 1, 2, 3]) heap ()) ≠ some (.ok u, s) := by
  refine ⟨fun {fuel res s} hr => ?_, fun {fuel u s} => ?_⟩
  · obtain ⟨-, h⟩ := C125_refines distinct (HSession.new (o := exactO) (X := qX) (y := qy) ())
    obtain ⟨s', e1, -⟩ := (h 5 100 fuel est0).2 res s hr
    rw [(init_stands distinct ()).1] at e1
    have hc : FitContract 1 qArgs qX exactO 0 := exact_contract qFitOk _ (fun _ l => List.Perm.refl l) (fun _ _ _ h => absurd h List.not_mem_nil)
    exact C71_fit_succeeds qFitOk hc qTwo e1
  · exact C125_same_object_fit exact_honest (by decide) (i := 0) (j := 1) (a := 0) (by decide) rfl rfl (by decide +kernel) (HSession.new ()) 5 100 fuel est0

/-! ## Two classifiers on the same objects -/

open LifeDemo in
def run0 (w : HW Unit) := Fit.fit (envH plainOracle (args [0, 1, 2, 3]) qX) (configH (args [0, 1, 2, 3]) 1 0) 4 qy est0 (HWOn w w.m.heap)

open LifeDemo in
/-- The second classifier has the objects of the first one, in another order. -/
def run1 (w : HW Unit) := Fit.fit (envH plainOracle (args [3, 2, 1, 0]) qX) (configH (args [3, 2, 1, 0]) 1 0) 4 [8, 5, 8] est0 (HWOn w w.m.heap)

/-- Predictions of the first classifier before and after the second one is constructed and fitted, predictions of the second one, and the variable numbers
in the path objects at these times. -/
def both : Option (Option (List ℤ) × Option (List ℤ) × Option (List ℤ) × List ℕ × List ℕ) :=
  (run0 (HW.init (args [0, 1, 2, 3]) heap ())).bind fun r0 => (run1 (HW.init (args [3, 2, 1, 0]) r0.2.world.m.heap ())).map fun r1 =>
    ((predictH (args [0, 1, 2, 3]) r0.2.est.classes r0.2.world.m.heap r0.2.world.m.selected qX).toOption,
      (predictH (args [0, 1, 2, 3]) r0.2.est.classes r1.2.world.m.heap r0.2.world.m.selected qX).toOption,
      (predictH (args [3, 2, 1, 0]) r1.2.est.classes r1.2.world.m.heap r1.2.world.m.selected qX).toOption,
      [0, 1, 2, 3].map (fun a => (r0.2.world.m.heap.path a).id), [0, 1, 2, 3].map (fun a => (r1.2.world.m.heap.path a).id))

/-- The second `fit` writes to the paths that the first classifier selected, and the predictions stay. -/
theorem both_eq : both = some (some [3, 7, 3], some [3, 7, 3], some [5, 5, 5], [0, 1, 2, 3], [3, 2, 1, 0]) := by decide +kernel

/-- This is a run of a program. -/
example : ∃ (s s' : Prog Unit) (w : HW Unit) (a : ℕ), ProgRuns heap s ∧ s.2 0 = some (args [0, 1, 2, 3], w) ∧ Others 0 s s' ∧ a ∈ w.m.selected ∧
    s'.1.path a ≠ s.1.path a ∧ ∀ classes Z, predictH (args [0, 1, 2, 3]) classes s'.1 w.m.selected Z = predictH (args [0, 1, 2, 3]) classes s.1 w.m.selected Z := by
  cases h0 : run0 (HW.init (args [0, 1, 2, 3]) heap ()) with
  | none =>
    have h := both_eq
    unfold both at h
    rw [h0] at h
    cases h
  | some r0 =>
    cases h1 : run1 (HW.init (args [3, 2, 1, 0]) r0.2.world.m.heap ()) with
    | none =>
      have h := both_eq
      unfold both at h
      rw [h0, Option.bind_some, h1] at h
      cases h
    | some r1 =>
      have h := both_eq
      unfold both at h
      rw [h0, Option.bind_some, h1] at h
      have hid0 : (r0.2.world.m.heap.path 0).id = 0 := by
        have := congrArg (fun t => t.map (fun t => t.2.2.2.1)) h
        simp at this
        exact this.1
      have hid1 : (r1.2.world.m.heap.path 0).id = 3 := by
        have := congrArg (fun t => t.map (fun t => t.2.2.2.2)) h
        simp at this
        exact this.1
      have hsel : 0 ∈ r0.2.world.m.selected := by
        have : (run0 (HW.init (args [0, 1, 2, 3]) heap ())).map (fun r => r.2.world.m.selected) = some [0, 1] := by decide +kernel
        rw [h0] at this
        simp at this
        rw [this]
        simp
      have a1 : Acts (Ω := Unit) 0 (heap, fun _ => none) _ := .construct heap _ 0 (args [0, 1, 2, 3]) () (by decide)
      have a2 : Acts (Ω := Unit) 0 _ _ := .fit (HW.init (args [0, 1, 2, 3]) heap ()).m.heap
        (Function.update (fun _ => none) 0 (some (args [0, 1, 2, 3], HW.init (args [0, 1, 2, 3]) heap ()))) 0 (Function.update_self ..)
        LifeDemo.plainOracle qX 1 0 4 qy est0 h0
      have hrun : ProgRuns heap _ := (Relation.ReflTransGen.refl.tail ⟨0, a1⟩).tail ⟨0, a2⟩
      have hlt : r0.2.world.m.heap.nextPath ≥ 5 := (acts_grow a2).1
      obtain ⟨c0, hc0⟩ : ∃ c0 : ℕ → Option (HArgs × HW Unit), c0 = Function.update (Function.update ((fun _ => none : ℕ → Option (HArgs × HW Unit))) 0 (some (args [0, 1, 2, 3], HW.init (args [0, 1, 2, 3]) heap ()))) 0
        (some (args [0, 1, 2, 3], r0.2.world)) := ⟨_, rfl⟩
      rw [← hc0] at hrun
      have a3 : Acts 1 (r0.2.world.m.heap, c0) _ := .construct _ _ 1 (args [3, 2, 1, 0]) () (by
        intro a ha
        have : a < 5 := (by decide : ∀ a ∈ [3, 2, 1, 0], a < 5) a ha
        omega)
      have a4 : Acts (Ω := Unit) 1 _ _ := .fit (HW.init (args [3, 2, 1, 0]) r0.2.world.m.heap ()).m.heap
        (Function.update c0 1 (some (args [3, 2, 1, 0], HW.init (args [3, 2, 1, 0]) r0.2.world.m.heap ()))) 1 (Function.update_self ..)
        LifeDemo.plainOracle qX 1 0 4 [8, 5, 8] est0 h1
      have hoth : Others 0 (r0.2.world.m.heap, c0) _ := (Relation.ReflTransGen.refl.tail ⟨1, by decide, a3⟩).tail ⟨1, by decide, a4⟩
      have hw : c0 0 = some (args [0, 1, 2, 3], r0.2.world) := by rw [hc0]; exact Function.update_self ..
      refine ⟨_, _, r0.2.world, 0, hrun, hw, hoth, hsel, fun e => ?_, (C125_shared hrun hw hoth).2⟩
      have e' : (r1.2.world.m.heap.path 0).id = (r0.2.world.m.heap.path 0).id := congrArg Path.id e
      rw [hid0, hid1] at e'
      cases e'

end Verif.DTree.HeapDemo
