import Verif.DTree.RowsProps
import Verif.DTree.ReuseDemo

/-!
# Examples for C105 with data rows
-/

namespace Verif.DTree.Demo

open MP Spec
open Fit.Spec

/-- Rows as `preprocess_rows` makes them for the demo data. -/
def rRows : List Row := List.replicate 4 ⟨[], [], [], [], [], true, false, 1⟩

/-- The demo classifier with data rows. -/
def rArgs : Args := { fArgs with dataRows := some rRows }

theorem rFitOk : FitOk 2 rArgs fX (encoded fy) := by
  have h := fFitOk
  refine ⟨⟨h.setup.depth, h.setup.tree, h.setup.filled, h.setup.no_cuts, ?_⟩, h.depth, h.distinct, h.good, h.cand, h.tree, h.targets, h.y_lt, ?_, ?_⟩
  · intro rows e
    cases e
    exact ⟨rfl, by decide⟩
  · intro rows e r hr
    cases e
    unfold rowAt rRows at hr
    rw [List.getD_eq_getElem?_getD, List.getElem?_replicate] at hr
    split at hr <;> cases hr
  · intro hu
    cases hu

theorem rContract : FitContract 2 rArgs fX fO 0 := guided_contract rFitOk _ _ _ _

noncomputable def rRun : Option (Except Err Unit × Fit.St (World Unit) Duals Path) := fitNew fO rArgs 1 100 fX 10 fy est0 ()

theorem rRun_used : returned rRun (fun s => decide (s.world.master.cutCons = []) &&
    decide (((rArgs.after s.world).dataRows.getD []).map (·.reachablePaths.length) = [2, 2, 2, 2]) &&
    decide ((s.world.master.selected.map (·.cost)).sum = 4)) = true := by
  decide +kernel

/-- C105: after the demo run every data row has recorded two paths, and yet a second classifier from these rows is fitted, with a tree that is at least as
good. -/
example : ∃ s, rRun = some (.ok (), s) ∧ ((rArgs.after s.world).dataRows.getD []).map (·.reachablePaths.length) = [2, 2, 2, 2] ∧
    ¬ FitOk 2 (rArgs.after s.world) fX (encoded fy) ∧
    (∃ r, fitNew fO (rArgs.after s.world) 5 100 fX (enough 2 (rArgs.renewed s.world) fX) fy est0 () = some r) ∧
    ∀ res s', fitNew fO (rArgs.after s.world) 5 100 fX (enough 2 (rArgs.renewed s.world) fX) fy est0 () = some (res, s') → res = .ok () ∧
      4 ≤ (s'.world.master.selected.map (·.cost)).sum := by
  obtain ⟨s, h1, h2⟩ := returned_spec rRun_used
  simp only [Bool.and_eq_true, decide_eq_true_eq] at h2
  have h1' : Fit.fit (env fO rArgs fX) (config rArgs 1 100) 10 fy est0 (World.init rArgs ()) = some (.ok (), s) := h1
  have hs : Session fO rArgs fX fy s.world := .fit (.new ()) 1 100 10 est0 h1'
  obtain ⟨σ, P, hP⟩ := rFitOk.tree
  obtain ⟨Q, hQ, -⟩ := after_tree rFitOk rContract fTwo hs hP
  have hf : FitOk 2 (rArgs.renewed s.world) fX (encoded fy) :=
    reuse_ok rFitOk rContract fTwo hs h2.1.1 s.world.master.paths (fun _ hp => hp) ⟨σ, Q, fun l hl => ⟨List.take_subset _ _ (hQ l hl).1, (hQ l hl).2⟩⟩
  have hc : FitContract 2 (rArgs.renewed s.world) fX fO 0 := guided_contract hf _ _ _ _
  obtain ⟨k1, k2⟩ := C105_second_fit_rows_partial (e0' := est0) (ω := ()) (maxIt' := 5) (limit' := 100) (fuel' := enough 2 (rArgs.renewed s.world) fX)
    rFitOk rContract fTwo (.new ()) h1' h2.1.1 (.inr rfl) hc
  obtain ⟨rows, e, hlen, hrow⟩ := C105_rows_used_up rFitOk rContract fTwo (.new ()) h1' (by intro h; cases h)
  refine ⟨s, h1, h2.1.2, ?_, k1, fun res s' hr => ⟨(k2 res s' hr).1, ?_⟩⟩
  · intro hok
    have h4 := (hok.setup.rows rows e).2
    obtain ⟨row, hr0⟩ : ∃ row, rows[0]? = some row := ⟨_, List.getElem?_eq_getElem (by rw [hlen]; decide)⟩
    exact (hrow 0 row hr0).2 (h4 row (List.mem_of_getElem? hr0))
  · have := (k2 res s' hr).2 (guided_ipOptimal _ _ _ _)
    rw [h2.2] at this
    exact this

/-- C105: with other recorded paths the classifier is fitted alike. -/
example : ∃ s s', fitNew fO rArgs 1 100 fX 10 fy est0 () = some (.ok (), s) ∧
    fitNew fO { rArgs with dataRows := some (List.replicate 4 ⟨[], [7, 99], [], [], [], true, false, 1⟩) } 1 100 fX 10 fy est0 () = some (.ok (), s') ∧
    s'.est = s.est ∧ s'.world.master.selected = s.world.master.selected := by
  obtain ⟨s, h1, -⟩ := returned_spec rRun_used
  obtain ⟨s', h3, h4, -, -, -, h5, -⟩ := (C105_rows_ignored rArgs (some (List.replicate 4 ⟨[], [7, 99], [], [], [], true, false, 1⟩))
    rfl rfl fO 1 100 fX 10 fy est0 ()).2 _ s h1
  exact ⟨s, s', h1, h3, h4, h5⟩

end Verif.DTree.Demo
