import Verif.DTree.SharedProps
import Verif.DTree.ReuseDemo

/-!
# Examples for C113, and what `fit` does to a classifier whose objects another one has used
-/

namespace Verif.DTree.SharedDemo

open MP Spec Demo
open Fit.Spec

/-- A tree of depth 1 for two rows; the initial paths use the split that does not separate them. -/
def vArgs : Args :=
  ⟨[⟨0, [0], [1], 1, 0, 0, false⟩, ⟨1, [0], [1], 0, 0, 0, false⟩], fullLeaves 1, [⟨0, [0, 1], [1, 1], 0, -1, 1, 2, true⟩], uSplits, 1, [0, 1], 10,
    false, false, none, false⟩

def vy : List ℤ := [0, 1]

theorem vFitOk : FitOk 1 vArgs uX (encoded vy) where
  setup :=
    { depth := by norm_num
      tree :=
        { leaves := rfl
          nodes_length := rfl
          node_id := by
            intro i n h
            have : ∀ q ∈ vArgs.nodes.zipIdx, q.1.id = q.2 := by decide +kernel
            exact this (n, i) (by rw [List.mem_zipIdx_iff_getElem?]; exact h)
          split_id := by
            intro i n h
            have : ∀ q ∈ uSplits.zipIdx, q.1.id = q.2 := by decide +kernel
            exact this (n, i) (by rw [List.mem_zipIdx_iff_getElem?]; exact h)
          cand_lt := by
            show ∀ n ∈ vArgs.nodes, ∀ s ∈ n.candidateSplits, s < uSplits.length
            decide +kernel
          cand_nodup := by
            show ∀ n ∈ vArgs.nodes, n.candidateSplits.Nodup
            decide +kernel }
      filled := (C39_add_rows _ uX (by decide +kernel)).1
      no_cuts := by
        show ∀ sp ∈ uSplits, sp.leftCuts = [] ∧ sp.rightCuts = []
        decide +kernel
      rows := by intro rows h; cases h }
  depth := rfl
  distinct := by unfold Distinct; decide +kernel
  good := by decide +kernel
  cand := by decide +kernel
  tree := by
    refine ⟨fun _ => 1, fun l => vArgs.paths.getD l (mkPath 0 0 0 0 0 0), ?_⟩
    unfold HasTree
    decide +kernel
  targets := List.Perm.refl _
  y_lt := by decide +kernel
  removed := by intro rows h; cases h
  weights := by intro h; cases h

/-- Solutions with their dual values: of the first program with the initial paths, of the first program with all four paths, and of the second. -/
def vStart : (ℕ → ℚ) × (ℕ → ℚ) :=
  (fun i => if i ∈ [0, 1, 3] then 1 else 0, fun i => if i = 0 then 1 else if i = 2 then -1 / 2 else if i = 4 then 1 / 2 else 0)

def vFirst : (ℕ → ℚ) × (ℕ → ℚ) := (fun i => if i ∈ [2, 4, 5] then 1 else 0, fun i => if i ∈ [0, 1] then 1 else 0)

def vOther : (ℕ → ℚ) × (ℕ → ℚ) := (fun i => if i ∈ [2, 3, 4] then 1 else 0, fun i => if i ∈ [0, 1] then 1 else 0)

/-- Exact solvers. -/
noncomputable def vO : FitOracle Unit :=
  guided [vStart, vFirst, vOther] [vFirst, vOther] [fun i => if i ∈ [0, 1, 4, 6] then 1 else 0, fun i => if i ∈ [2, 3, 4, 7] then 1 else 0]
    (fun i k => if k = 0 then i else 0)

/-- The first classifier is trained. -/
noncomputable def vRun : Option (Except Err Unit × Fit.St (World Unit) Duals Path) := fitNewS vO vArgs 1 100 uX 10 vy est0 ()

theorem vRun_facts : returned vRun (fun s => decide (s.world.master.paths.map (fun p => (p.leafId, p.splits, p.id)) =
    [(0, [1], 0), (1, [1], 1), (0, [0], 4), (1, [0], 5)]) && decide (s.world.master.selected.map (·.id) = [4, 5]) &&
    decide (predictFittedS vArgs s uX = .ok vy)) = true := by decide +kernel

/-- The second classifier is constructed from the objects of the first and trained on the same data. -/
noncomputable def vSecond (w : World Unit) : Option (Except Err Unit × Fit.St (World Unit) Duals Path) :=
  fitNewS vO (vArgs.after w) 5 100 uX 10 vy est0 ()

/-- `fit` is called again on a classifier in the world `w`. -/
noncomputable def vAgain (s : Fit.St (World Unit) Duals Path) (w : World Unit) : Option (Except Err Unit × Fit.St (World Unit) Duals Path) :=
  Fit.fit (envS vO vArgs uX) (config vArgs 5 100) 10 vy s.est w

/-- The world of the first classifier, last in `w`, after the second one was constructed and reached the world `w2`. -/
def vSeen (w w2 : World Unit) : World Unit := (w.sees false (World.init (vArgs.after w) ())).sees false w2

theorem vAgain_facts : returned vRun (fun s => returned (vSecond s.world) (fun s2 =>
    decide (s2.world.master.paths.map (fun p => (p.leafId, p.splits, p.id)) = [(0, [1], 0), (1, [1], 1), (0, [0], 2), (1, [0], 3)]) &&
    decide (predictFittedS vArgs s2 uX = .ok vy) &&
    decide (predictFittedS vArgs s uX = .ok vy) &&
    returned (vAgain s s.world) (fun s3 => decide (predictFittedS vArgs s3 uX = .ok vy)) &&
    returned (vAgain s (vSeen s.world s2.world)) (fun s4 =>
      decide (s4.world.master.selected.map (fun p => (p.leafId, p.splits)) = [(0, [0])]) &&
      decide (predictFittedS vArgs s4 uX = .ok [0, 0])))) = true := by decide +kernel

/-- **C113: the objects cannot be used for training.** With exact solvers: a classifier learns two training rows. A second one is constructed from
its objects and learns them too; the first still predicts both rows correctly, and had `fit` been called on it again without the second, it
would have done so afterwards. But if `fit` is called on it after the second was trained, on the same data, the selected paths are looked up
under the ids of the second classifier: one leaf has no path and its row gets the wrong label. -/
theorem C113_refit_refuted : FitOk 1 vArgs uX (encoded vy) ∧ FitContract 1 vArgs uX vO 0 ∧ IpOptimal 1 vArgs uX vO ∧ PriceOptimal vO ∧
    ∃ s s2 s3 s4, fitNewS vO vArgs 1 100 uX 10 vy est0 () = some (.ok (), s) ∧ vSecond s.world = some (.ok (), s2) ∧
      Turns vArgs (vArgs.after s.world) false (vSeen s.world s2.world) s2.world ∧
      predictFittedS vArgs s uX = .ok vy ∧ predictFittedS (vArgs.after s.world) s2 uX = .ok vy ∧
      predictFittedS vArgs { s with world := vSeen s.world s2.world } uX = .ok vy ∧
      vAgain s s.world = some (.ok (), s3) ∧ predictFittedS vArgs s3 uX = .ok vy ∧
      vAgain s (vSeen s.world s2.world) = some (.ok (), s4) ∧ s4.world.master.selected.length = 1 ∧ predictFittedS vArgs s4 uX = .ok [0, 0] := by
  refine ⟨vFitOk, guided_contract vFitOk _ _ _ _, guided_ipOptimal _ _ _ _, guided_priceOptimal _ _ _ _, ?_⟩
  obtain ⟨s, h1, h2⟩ := returned_spec vAgain_facts
  obtain ⟨s2, h3, h4⟩ := returned_spec h2
  simp only [Bool.and_eq_true, decide_eq_true_eq] at h4
  obtain ⟨⟨⟨⟨h5, h6⟩, h7⟩, h8⟩, h9⟩ := h4
  obtain ⟨s3, h10, h11⟩ := returned_spec h8
  obtain ⟨s4, h12, h13⟩ := returned_spec h9
  simp only [Bool.and_eq_true, decide_eq_true_eq] at h11 h13
  have hf : Fits vArgs (World.init vArgs ()) s.world := .fit (.refl _) vO uX vy 1 100 10 est0 h1
  have ht : Turns vArgs (vArgs.after s.world) false (s.world.sees false (World.init (vArgs.after s.world) ())) (World.init (vArgs.after s.world) ()) :=
    .start hf rfl rfl ()
  have hg : Fits (vArgs.after s.world) (World.init (vArgs.after s.world) ()) s2.world := .fit (.refl _) vO uX vy 5 100 10 est0 h3
  refine ⟨s, s2, s3, s4, h1, h3, .second ht hg, h7, h6, ?_, h10, h11, h12, by simpa using congrArg List.length h13.1, h13.2⟩
  rw [show vSeen s.world s2.world = (s.world.sees false (World.init (vArgs.after s.world) ())).sees false s2.world from rfl,
    (C113_predictions ht s uX).2 _ hg, C113_construct hf rfl rfl]
  exact h7

end Verif.DTree.SharedDemo
