import Verif.DTree.MoreRowsProps
import Verif.DTree.SwapDemo

/-!
# C134 on two concrete runs

The run of `NarrowDemo`, and a run with one further row, which has the features of the last row and the other label. No tree is right for both of them: the
number of rows with the right answer stays four.
-/

set_option linter.unusedSectionVars false

namespace Verif.DTree.MoreRowsDemo

open MP Spec Demo NarrowDemo

def mX : List (List ℚ) := nX ++ [[1, 1, 0]]

def my : List ℤ := ny ++ [0]

def mSplits : List Split := addRowsToSplits nSplits0 mX

def mArgs : Args := ⟨nPaths, fullLeaves 2, nNodes, mSplits, 2, [0, 1], 2, false, true, none, false⟩

theorem mFitOk : FitOk 2 mArgs mX (encoded my) where
  setup :=
    { depth := by norm_num
      tree :=
        { leaves := rfl
          nodes_length := rfl
          node_id := nFitOk.setup.tree.node_id
          split_id := by
            intro i n h
            have : ∀ q ∈ mSplits.zipIdx, q.1.id = q.2 := by decide +kernel
            exact this (n, i) (by rw [List.mem_zipIdx_iff_getElem?]; exact h)
          cand_lt := by
            show ∀ n ∈ nNodes, ∀ s ∈ n.candidateSplits, s < mSplits.length
            decide +kernel
          cand_nodup := nFitOk.setup.tree.cand_nodup }
      filled := (C39_add_rows nSplits0 mX (by decide +kernel)).1
      no_cuts := by
        show ∀ sp ∈ mSplits, sp.leftCuts = [] ∧ sp.rightCuts = []
        decide +kernel
      rows := by intro rows h; cases h }
  depth := rfl
  distinct := by unfold Distinct; decide +kernel
  good := by decide +kernel
  cand := by decide +kernel
  tree := by
    refine ⟨fun n => n, fun l => nPaths.getD l (mkPath 0 0 0 0 0 0), ?_⟩
    unfold HasTree
    decide +kernel
  targets := List.Perm.refl _
  y_lt := by decide +kernel
  removed := by intro rows h; cases h
  weights := by intro h; cases h

noncomputable def mO : FitOracle Unit :=
  guided [nSol] [nSol] (([[0, 1, 10, 11, 12], [2, 3, 10, 11, 13], [4, 5, 10, 11, 12], [6, 7, 9, 10, 11, 13]] : List (List ℕ)).map
    (fun l i => if i ∈ l then 1 else 0)) (fun _ _ => 0)

noncomputable def mRun : Option (Except Err Unit × Fit.St (World Unit) Duals Path) := fitNew mO mArgs (-1) (-1) mX 10 my est0 ()

theorem mRun_gap : returned mRun (fun s => s.est.mpOptimal && decide (predictFitted mArgs s mX = .ok [0, 1, 0, 1, 1]) && decide (s.world.master.rmpObj +
    2 ^ 2 * (1 / 1000000 + ((2 * 5 + s.world.master.cutCons.length + 2 * 3 : ℕ) : ℚ) / 100000) + (2 ^ 2 - 1) * 0 <
      (s.world.master.selected.map (·.cost)).sum + 1)) = true := by decide +kernel

theorem costs : ∀ p ∈ mArgs.paths, p.cost ≤ hitsOf 2 (Args.base mArgs 2 mX (encoded my)) p p.target := by
  have e : ∀ p ∈ mArgs.paths, p.cost ≤ ((List.range 5).map (fun r => if Follows 2 (rowPat (Args.base mArgs 2 mX (encoded my)) r) p ∧
      (((encoded my).getD r 0 : ℕ) : ℤ) = p.target then rowWeight (Args.base mArgs 2 mX (encoded my)) r else 0)).sum := by decide +kernel
  intro p hp
  refine (e p hp).trans (le_of_eq ?_)
  unfold hitsOf keptSum
  have hl : (Args.base mArgs 2 mX (encoded my)).X.length = 5 := rfl
  rw [hl]
  congr 1
  refine List.map_congr_left fun r hr => ?_
  have hk : Kept (Args.base mArgs 2 mX (encoded my)) r := ⟨by rw [hl]; exact List.mem_range.1 hr, fun rows h => by cases h⟩
  have hy : (Args.base mArgs 2 mX (encoded my)).y = encoded my := rfl
  rw [hy]
  by_cases hq : Follows 2 (rowPat (Args.base mArgs 2 mX (encoded my)) r) p ∧ (((encoded my).getD r 0 : ℕ) : ℤ) = p.target
  · rw [if_pos hq, if_pos ⟨hk, hq⟩]
  · rw [if_neg hq, if_neg fun h => hq h.2]

/-- All hypotheses of C134 hold for the two runs. -/
example : ∃ s s', nRun = some (.ok (), s) ∧ mRun = some (.ok (), s') ∧ predictFitted nArgs s nX = .ok ny ∧
    predictFitted mArgs s' mX = .ok [0, 1, 0, 1, 1] ∧ right nArgs s (nX.zip ny) ≤ right mArgs s' (mX.zip my) ∧
    right mArgs s' (mX.zip my) ≤ right nArgs s (nX.zip ny) + 1 ∧ right mArgs s' (nX.zip ny) ≤ right nArgs s (nX.zip ny) ∧
    right nArgs s (nX.zip ny) ≤ right mArgs s' (nX.zip ny) + 1 := by
  obtain ⟨s, h1, h2⟩ := returned_spec SwapDemo.nRun_gap
  obtain ⟨s', h1', h2'⟩ := returned_spec mRun_gap
  simp only [Bool.and_eq_true, decide_eq_true_eq] at h2 h2'
  have hq : FewerQuestions 2 nNodes mSplits nNodes nSplits := by
    unfold FewerQuestions
    decide +kernel
  have hq' : FewerQuestions 2 nNodes nSplits nNodes mSplits := by
    unfold FewerQuestions
    decide +kernel
  exact ⟨s, s', h1, h1', h2.1.2, h2'.1.2, C134_more_rows (R := [([1, 1, 0], 0)]) (by decide +kernel) nFitOk (guided_contract nFitOk _ _ _ _)
    ⟨0, by decide, 1, by decide, by decide⟩ rfl (guided_priceOptimal _ _ _ _) rfl rfl (SwapDemo.costs rfl (by decide +kernel)) (.new ()) h1 h2.1.1 h2.2
    mFitOk (guided_contract mFitOk _ _ _ _) ⟨0, by decide, 1, by decide, by decide⟩ rfl (guided_priceOptimal _ _ _ _) rfl rfl
    costs (.new ()) h1' h2'.1.1 h2'.2 hq hq'⟩

end Verif.DTree.MoreRowsDemo
