import Verif.DTree.Narrow
import Verif.DTree.FitDemo

/-!
# C118: a fitted tree, and a row that has every feature on its way and still is refused

The root asks for feature 0, its left child for feature 2, and its right child for feature 1. The row `[1, 0]` goes to the right and is never
asked for feature 2 by the tree, but `predict` first tries the path of the leftmost leaf, which lists the lower node before the root.
-/

set_option linter.unusedSectionVars false

namespace Verif.DTree.NarrowDemo

open MP Spec Demo

def nSplits0 : List Split := [⟨0, 0, 1/2, false, [], [], [], []⟩, ⟨1, 2, 1/2, false, [], [], [], []⟩, ⟨2, 1, 1/2, false, [], [], [], []⟩]

def nX : List (List ℚ) := [[0, 0, 0], [0, 0, 1], [1, 0, 0], [1, 1, 0]]

def ny : List ℤ := [0, 1, 0, 1]

def nSplits : List Split := addRowsToSplits nSplits0 nX

def nNodes : List Node := [⟨0, [0], [1], 0, -1, 1, 2, false⟩, ⟨1, [1], [1], 1, 0, 3, 4, true⟩, ⟨2, [2], [1], 2, 0, 5, 6, true⟩]

def nPaths : List Path := [⟨0, [1, 0], [1, 0], 1, 0, 0, true⟩, ⟨1, [1, 0], [1, 0], 1, 1, 1, true⟩, ⟨2, [2, 0], [2, 0], 1, 2, 0, true⟩,
  ⟨3, [2, 0], [2, 0], 1, 3, 1, true⟩]

def nArgs : Args := ⟨nPaths, fullLeaves 2, nNodes, nSplits, 2, [0, 1], 2, false, true, none, false⟩

theorem nFitOk : FitOk 2 nArgs nX (encoded ny) where
  setup :=
    { depth := by norm_num
      tree :=
        { leaves := rfl
          nodes_length := rfl
          node_id := by
            intro i n h
            have : ∀ q ∈ nNodes.zipIdx, q.1.id = q.2 := by decide +kernel
            exact this (n, i) (by rw [List.mem_zipIdx_iff_getElem?]; exact h)
          split_id := by
            intro i n h
            have : ∀ q ∈ nSplits.zipIdx, q.1.id = q.2 := by decide +kernel
            exact this (n, i) (by rw [List.mem_zipIdx_iff_getElem?]; exact h)
          cand_lt := by
            show ∀ n ∈ nNodes, ∀ s ∈ n.candidateSplits, s < nSplits.length
            decide +kernel
          cand_nodup := by
            show ∀ n ∈ nNodes, n.candidateSplits.Nodup
            decide +kernel }
      filled := (C39_add_rows nSplits0 nX (by decide +kernel)).1
      no_cuts := by
        show ∀ sp ∈ nSplits, sp.leftCuts = [] ∧ sp.rightCuts = []
        decide +kernel
      rows := by intro rows h; cases h }
  depth := rfl
  distinct := by unfold Distinct; decide +kernel
  good := by decide +kernel
  cand := by decide +kernel
  tree := by
    refine ⟨fun n => n, fun l => nPaths.getD l (mkPath 0 0 0 0 0 0), ?_⟩
    unfold HasTree
    decide +kernel
  targets := List.Perm.refl _
  y_lt := by decide +kernel
  removed := by intro rows h; cases h
  weights := by intro h; cases h

def nSol : (ℕ → ℚ) × (ℕ → ℚ) := (fun _ => 1, fun i => if i < 4 then 1 else 0)

noncomputable def nO : FitOracle Unit :=
  guided [nSol] [nSol] (([[0, 1, 8, 9, 10], [2, 3, 8, 9, 11], [4, 5, 8, 9, 10], [6, 7, 8, 9, 11]] : List (List ℕ)).map
    (fun l i => if i ∈ l then 1 else 0)) (fun _ _ => 0)

noncomputable def nRun : Option (Except Err Unit × Fit.St (World Unit) Duals Path) := fitNew nO nArgs (-1) (-1) nX 10 ny est0 ()

theorem nRun_facts : returned nRun (fun s => s.est.mpOptimal && decide (predictFittedX nArgs s nX = .ok ny) &&
    decide (predictFittedX nArgs s [[0, 0, 1, 7], [1, 1]] = .error .indexError) && decide (predictFittedX nArgs s [[1, 0]] = .error .indexError) &&
    decide (predictFittedX nArgs s [[0, 0, 1, 7]] = .ok [1])) = true := by decide +kernel

/-- The certified run, on which `C118_fitted` holds: all training rows are predicted correctly, a further feature does not matter, and a missing one
that is needed raises `IndexError`. -/
example : ∃ s : Fit.St (World Unit) Duals Path, s.est.mpOptimal = true ∧ predictFittedX nArgs s nX = .ok ny ∧
    predictFittedX nArgs s [[0, 0, 1, 7]] = .ok [1] ∧ predictFittedX nArgs s [[0, 0]] = .error .indexError := by
  obtain ⟨s, h1, h2⟩ := returned_spec nRun_facts
  simp only [Bool.and_eq_true, decide_eq_true_eq] at h2
  obtain ⟨⟨⟨⟨h3, h4⟩, -⟩, -⟩, h7⟩ := h2
  have h1' : Fit.fit (env nO nArgs nX) (config nArgs (-1) (-1)) 10 ny est0 (World.init nArgs ()) = some (.ok (), s) := h1
  obtain ⟨σ, τ, hσ, hbad, -⟩ := C118_fitted nFitOk (guided_contract nFitOk _ _ _ _) ⟨0, by decide, 1, by decide, by decide⟩ (.new ()) h1'
  refine ⟨s, h3, h4, h7, hbad _ ⟨[0, 0], by simp, fun h => ?_⟩⟩
  have e0 : σ 0 = 0 := by have := hσ 0 (by norm_num); simpa [cand, nArgs, nNodes] using this
  have e1 : σ 1 = 1 := by have := hσ 1 (by norm_num); simpa [cand, nArgs, nNodes] using this
  have hw : onWay nArgs.splits σ [0, 0] 1 = 1 := by
    have : takesLeft [0, 0] (splitAt nArgs.splits 0) = true := by decide +kernel
    simp [onWay, walk, e0, this]
  have h5 := h 1 (by norm_num)
  rw [hw, e1] at h5
  exact absurd h5 (by decide +kernel)

/-- **C118**, converse. A row may have every feature that it is asked for on its way through the tree, and `predict` still raises `IndexError`. In
this run, certified optimal, every node has one candidate split only, so that there is no doubt about the tree. -/
theorem C118_off_the_way_refuted : ∃ (d : ℕ) (A : Args) (X : List (List ℚ)) (y : List ℤ) (o : FitOracle Unit) (s : Fit.St (World Unit) Duals Path)
    (row : List ℚ), FitOk d A X (encoded y) ∧ FitContract d A X o 0 ∧ IpOptimal d A X o ∧ PriceOptimal o ∧ TwoClasses y ∧
    (∃ maxIt limit fuel, fitNew o A maxIt limit X fuel y est0 () = some (.ok (), s)) ∧ s.est.mpOptimal = true ∧ predictFittedX A s X = .ok y ∧
    (∀ σ : ℕ → ℕ, (∀ n < 2 ^ d - 1, σ n ∈ cand A.nodes n) → HasWay d A.splits σ row) ∧ predictFittedX A s [row] = .error .indexError := by
  obtain ⟨s, h1, h2⟩ := returned_spec nRun_facts
  simp only [Bool.and_eq_true, decide_eq_true_eq] at h2
  obtain ⟨⟨⟨⟨h3, h4⟩, -⟩, h6⟩, -⟩ := h2
  refine ⟨2, nArgs, nX, ny, nO, s, [1, 0], nFitOk, guided_contract nFitOk _ _ _ _, guided_ipOptimal _ _ _ _, guided_priceOptimal _ _ _ _,
    ⟨0, by decide, 1, by decide, by decide⟩, ⟨-1, -1, 10, h1⟩, h3, h4, ?_, h6⟩
  intro σ hσ k hk
  have e0 : σ 0 = 0 := by have := hσ 0 (by norm_num); simpa [cand, nArgs, nNodes] using this
  have e2 : σ 2 = 2 := by have := hσ 2 (by norm_num); simpa [cand, nArgs, nNodes] using this
  obtain rfl | rfl : k = 0 ∨ k = 1 := by omega
  · show (splitAt nArgs.splits (σ 0)).feature < _
    rw [e0]
    decide +kernel
  · have hw : onWay nArgs.splits σ [1, 0] 1 = 2 := by
      have : takesLeft [1, 0] (splitAt nArgs.splits 0) = false := by decide +kernel
      simp [onWay, walk, e0, this]
    rw [hw, e2]
    decide +kernel

end Verif.DTree.NarrowDemo
