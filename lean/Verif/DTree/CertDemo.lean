import Verif.DTree.CertProps
import Verif.DTree.FitDemo

/-!
# C108 on a concrete run

The run `qRun` ends with `mp_optimal_` and an integer solution as good as the relaxation. The other classifier knows the second question only,
under another number, and is fitted to other data.
-/

namespace Verif.DTree.Demo

open MP Spec

def oSplits0 : List Split := [⟨0, 1, 1/2, false, [], [], [], []⟩]

def cX : List (List ℚ) := [[5, 0], [5, 1], [4, 1]]

def cy : List ℤ := [3, 7, 7]

def oSplits : List Split := addRowsToSplits oSplits0 cX

def cNodes : List Node := [⟨0, [0], [1], 0, -1, 1, 2, false⟩]

def cArgs : Args := ⟨[⟨0, [0], [0], 1, 0, 0, true⟩, ⟨1, [0], [0], 2, 0, 1, true⟩], fullLeaves 1, cNodes, oSplits, 1, [0, 1], 2, true, false, none, false⟩

theorem oFitOk : FitOk 1 cArgs cX (encoded cy) where
  setup :=
    { depth := by norm_num
      tree :=
        { leaves := rfl
          nodes_length := rfl
          node_id := by
            intro i n h
            have : ∀ q ∈ cNodes.zipIdx, q.1.id = q.2 := by decide +kernel
            exact this (n, i) (by rw [List.mem_zipIdx_iff_getElem?]; exact h)
          split_id := by
            intro i n h
            have : ∀ q ∈ oSplits.zipIdx, q.1.id = q.2 := by decide +kernel
            exact this (n, i) (by rw [List.mem_zipIdx_iff_getElem?]; exact h)
          cand_lt := by
            show ∀ n ∈ cNodes, ∀ s ∈ n.candidateSplits, s < oSplits.length
            decide +kernel
          cand_nodup := by
            show ∀ n ∈ cNodes, n.candidateSplits.Nodup
            decide +kernel }
      filled := (C39_add_rows oSplits0 cX (by decide +kernel)).1
      no_cuts := by
        show ∀ sp ∈ oSplits, sp.leftCuts = [] ∧ sp.rightCuts = []
        decide +kernel
      rows := by intro rows h; cases h }
  depth := rfl
  distinct := by unfold Distinct; decide +kernel
  good := by decide +kernel
  cand := by decide +kernel
  tree := by
    refine ⟨fun _ => 0, fun l => if l = 0 then ⟨0, [0], [0], 1, 0, 0, true⟩ else ⟨1, [0], [0], 2, 0, 1, true⟩, ?_⟩
    unfold HasTree
    decide +kernel
  targets := List.Perm.refl _
  y_lt := by decide +kernel
  removed := by intro rows h; cases h
  weights := by intro h; cases h

/-- The other run, with exact solvers. -/
noncomputable def oO : FitOracle Unit := guided [] [] [] (fun _ _ => 0)

theorem oContract : FitContract 1 cArgs cX oO 0 := guided_contract oFitOk _ _ _ _

theorem oTwo : TwoClasses cy := ⟨3, by decide, 7, by decide, by decide⟩

theorem qCosts : ∀ p ∈ qArgs.paths, p.cost ≤ hitsOf 1 (Args.base qArgs 1 qX (encoded qy)) p p.target := by
  have hk : ∀ i, Kept (Args.base qArgs 1 qX (encoded qy)) i ↔ i < 2 := qKept
  have e : ∀ p ∈ qArgs.paths, p.cost ≤ ((List.range 3).map (fun r => if r < 2 ∧ Follows 1 (rowPat (Args.base qArgs 1 qX (encoded qy)) r) p ∧
      (((encoded qy).getD r 0 : ℕ) : ℤ) = p.target then rowWeight (Args.base qArgs 1 qX (encoded qy)) r else 0)).sum := by decide +kernel
  intro p hp
  refine (e p hp).trans (le_of_eq ?_)
  unfold hitsOf keptSum
  simp only [hk]
  have hl : (Args.base qArgs 1 qX (encoded qy)).X.length = 3 := rfl
  rw [hl]
  congr 1

theorem qRun_gap : returned qRun (fun s => s.est.mpOptimal && decide (s.world.master.rmpObj +
    2 ^ 1 * (1 / 1000000 + ((2 * 3 + s.world.master.cutCons.length + 1 * 2 : ℕ) : ℚ) / 100000) + (2 ^ 1 - 1) * 0 <
      (s.world.master.selected.map (·.cost)).sum + 1)) = true := by decide +kernel

/-- All hypotheses of C108 hold, and both classifiers are fitted. -/
example : ∃ s s', qRun = some (.ok (), s) ∧ (∃ fuel, fitNew oO cArgs 3 50 cX fuel cy est0 () = some (.ok (), s')) ∧
    (∀ t : Questions, t.Within 1 qNodes qSplits → rowsWith 1 qArgs qX qy (fun row label => t.answer row = label) ≤
      rowsWith 1 qArgs qX qy (fun row label => predictFitted qArgs s [row] = .ok [label])) ∧
    rowsWith 1 qArgs qX qy (fun row label => predictFitted cArgs s' [row] = .ok [label]) ≤
      rowsWith 1 qArgs qX qy (fun row label => predictFitted qArgs s [row] = .ok [label]) := by
  obtain ⟨s, h1, h2⟩ := returned_spec qRun_gap
  simp only [Bool.and_eq_true, decide_eq_true_eq] at h2
  obtain ⟨⟨res, s'⟩, hr'⟩ := C71_terminates oFitOk oContract 3 50 est0 ()
  obtain rfl := C71_fit_succeeds oFitOk oContract oTwo hr'
  refine ⟨s, s', h1, ⟨_, hr'⟩, ?_, ?_⟩
  · exact C108_best_tree qFitOk qContract qTwo rfl (guided_priceOptimal _ _ _ _) rfl qCosts (.new ()) h1 h2.1 h2.2
  · refine C108_beats_other_runs qFitOk qContract qTwo rfl (guided_priceOptimal _ _ _ _) rfl qCosts (.new ()) h1 h2.1 h2.2 oFitOk oContract oTwo
      (.new ()) hr' (le_refl _) ?_
    unfold FewerQuestions
    decide +kernel

/-- A tree without any question is within. -/
example : (⟨0, fun _ => 0, fun _ => 0, fun _ => 3⟩ : Questions).Within 1 qNodes qSplits := ⟨by norm_num, fun n hn => absurd hn (by simp)⟩

/-- `C108_count` for the other classifier's data. -/
example : rowsWith 1 cArgs cX cy (fun row label => row.getD 1 0 = 1 ∧ label = 7) = 2 := by
  rw [C108_count rfl rfl]
  norm_cast

end Verif.DTree.Demo
