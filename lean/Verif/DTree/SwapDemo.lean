import Verif.DTree.SwapProps
import Verif.DTree.NarrowDemo

/-!
# C130 on two concrete runs

The run of `NarrowDemo`, and a run on the same rows with the classes exchanged (and initial paths with the exchanged targets).
-/

set_option linter.unusedSectionVars false

namespace Verif.DTree.SwapDemo

open MP Spec Demo NarrowDemo

def swap (v : ℤ) : ℤ := 1 - v

def wPaths : List Path := nPaths.map (fun p => { p with target := 1 - p.target })

def wArgs : Args := ⟨wPaths, fullLeaves 2, nNodes, nSplits, 2, [0, 1], 2, false, true, none, false⟩

theorem wFitOk : FitOk 2 wArgs nX (encoded (ny.map swap)) where
  setup :=
    { depth := by norm_num
      tree := nFitOk.setup.tree
      filled := (C39_add_rows nSplits0 nX (by decide +kernel)).1
      no_cuts := by
        show ∀ sp ∈ nSplits, sp.leftCuts = [] ∧ sp.rightCuts = []
        decide +kernel
      rows := by intro rows h; cases h }
  depth := rfl
  distinct := by unfold Distinct; decide +kernel
  good := by decide +kernel
  cand := by decide +kernel
  tree := by
    refine ⟨fun n => n, fun l => wPaths.getD l (mkPath 0 0 0 0 0 0), ?_⟩
    unfold HasTree
    decide +kernel
  targets := List.Perm.refl _
  y_lt := by decide +kernel
  removed := by intro rows h; cases h
  weights := by intro h; cases h

noncomputable def wO : FitOracle Unit :=
  guided [nSol] [nSol] (([[0, 1, 8, 9, 11], [2, 3, 8, 9, 10], [4, 5, 8, 9, 11], [6, 7, 8, 9, 10]] : List (List ℕ)).map
    (fun l i => if i ∈ l then 1 else 0)) (fun _ _ => 0)

noncomputable def wRun : Option (Except Err Unit × Fit.St (World Unit) Duals Path) := fitNew wO wArgs (-1) (-1) nX 10 (ny.map swap) est0 ()

theorem nRun_gap : returned nRun (fun s => s.est.mpOptimal && decide (predictFitted nArgs s nX = .ok ny) && decide (s.world.master.rmpObj +
    2 ^ 2 * (1 / 1000000 + ((2 * 4 + s.world.master.cutCons.length + 2 * 3 : ℕ) : ℚ) / 100000) + (2 ^ 2 - 1) * 0 <
      (s.world.master.selected.map (·.cost)).sum + 1)) = true := by decide +kernel

theorem wRun_gap : returned wRun (fun s => s.est.mpOptimal && decide (predictFitted wArgs s nX = .ok (ny.map swap)) && decide (s.world.master.rmpObj +
    2 ^ 2 * (1 / 1000000 + ((2 * 4 + s.world.master.cutCons.length + 2 * 3 : ℕ) : ℚ) / 100000) + (2 ^ 2 - 1) * 0 <
      (s.world.master.selected.map (·.cost)).sum + 1)) = true := by decide +kernel

theorem costs {A : Args} {y : List ℤ} (hrows : A.dataRows = none)
    (e : ∀ p ∈ A.paths, p.cost ≤ ((List.range 4).map (fun r => if Follows 2 (rowPat (Args.base A 2 nX (encoded y)) r) p ∧
      (((encoded y).getD r 0 : ℕ) : ℤ) = p.target then rowWeight (Args.base A 2 nX (encoded y)) r else 0)).sum) :
    ∀ p ∈ A.paths, p.cost ≤ hitsOf 2 (Args.base A 2 nX (encoded y)) p p.target := by
  intro p hp
  refine (e p hp).trans (le_of_eq ?_)
  unfold hitsOf keptSum
  have hl : (Args.base A 2 nX (encoded y)).X.length = 4 := rfl
  rw [hl]
  congr 1
  refine List.map_congr_left fun r hr => ?_
  have hk : Kept (Args.base A 2 nX (encoded y)) r := ⟨by rw [hl]; exact List.mem_range.1 hr, fun rows h => by
    have h : A.dataRows = some rows := h
    rw [hrows] at h
    cases h⟩
  have hy : (Args.base A 2 nX (encoded y)).y = encoded y := rfl
  rw [hy]
  by_cases hq : Follows 2 (rowPat (Args.base A 2 nX (encoded y)) r) p ∧ (((encoded y).getD r 0 : ℕ) : ℤ) = p.target
  · rw [if_pos hq, if_pos ⟨hk, hq⟩]
  · rw [if_neg hq, if_neg fun h => hq h.2]

/-- All hypotheses of C130 hold for the two runs; both are right for all four rows. -/
example : ∃ s s', nRun = some (.ok (), s) ∧ wRun = some (.ok (), s') ∧ predictFitted nArgs s nX = .ok ny ∧
    predictFitted wArgs s' nX = .ok (ny.map swap) ∧
    (nX.zip ny).countP (fun q => predictFitted nArgs s [q.1] = .ok [q.2]) =
      (nX.zip (ny.map swap)).countP (fun q => predictFitted wArgs s' [q.1] = .ok [q.2]) := by
  obtain ⟨s, h1, h2⟩ := returned_spec nRun_gap
  obtain ⟨s', h1', h2'⟩ := returned_spec wRun_gap
  simp only [Bool.and_eq_true, decide_eq_true_eq] at h2 h2'
  have hq : FewerQuestions 2 nNodes nSplits nNodes nSplits := fun n _ i hi => ⟨i, hi, rfl, rfl⟩
  exact ⟨s, s', h1, h1', h2.1.2, h2'.1.2, C130_tree_swap (fun a _ b _ h => by unfold swap at h; omega) rfl nFitOk (guided_contract nFitOk _ _ _ _)
    ⟨0, by decide, 1, by decide, by decide⟩ (guided_priceOptimal _ _ _ _) rfl rfl (costs rfl (by decide +kernel)) (.new ()) h1 h2.1.1 h2.2
    wFitOk (guided_contract wFitOk _ _ _ _) ⟨0, by decide, 1, by decide, by decide⟩ (guided_priceOptimal _ _ _ _) rfl rfl
    (costs rfl (by decide +kernel)) (.new ()) h1' h2'.1.1 h2'.2 hq hq⟩

end Verif.DTree.SwapDemo
