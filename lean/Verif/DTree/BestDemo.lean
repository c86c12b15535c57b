import Verif.DTree.BestProps
import Verif.DTree.RefitDemo

/-!
# The hypotheses of C132 hold for a concrete run
-/

namespace Verif.DTree.BestDemo

open MP Spec Demo
open Fit.Spec

/-- The tree with split 0 at the root, as the master problem holds it. -/
def other (l : ℕ) : Path := { (marked fArgs).getD l (mkPath 0 0 0 0 0 0) with id := l }

theorem run_facts : returned fRun (fun s => decide ((s.world.master.selected.map (·.cost)).sum = 4) &&
    (List.range 4).all (fun l => s.world.master.paths.any (fun q => decide (q = other l)))) = true := by
  decide +kernel

/-- The hypotheses of C132 hold for the run; the tree with split 0 at the root is contained in its paths and is worth two rows, the selected one four. -/
example : ∃ s, Session fO fArgs fX fy (World.init fArgs ()) ∧
    Fit.fit (env fO fArgs fX) (config fArgs 1 100) 10 fy est0 (World.init fArgs ()) = some (.ok (), s) ∧ (s.world.master.selected.map (·.cost)).sum = 4 ∧
    HasTree 2 s.world.master.paths (fun n => if n = 0 then 0 else 2) other ∧ ((List.range (2 ^ 2)).map (fun l => (other l).cost)).sum = 2 ∧
    ((List.range (2 ^ 2)).map (fun l => (other l).cost)).sum ≤ (s.world.master.selected.map (·.cost)).sum ∧
    ∀ p ∈ s.world.master.selected, ∀ q ∈ s.world.master.paths, q.leafId = p.leafId → (∀ a ∈ q.pairs, a ∈ p.pairs) → q.cost ≤ p.cost := by
  obtain ⟨s, h1, h2⟩ := returned_spec run_facts
  simp only [Bool.and_eq_true, decide_eq_true_eq, List.all_eq_true, List.any_eq_true, List.mem_range] at h2
  have h1' : Fit.fit (env fO fArgs fX) (config fArgs 1 100) 10 fy est0 (World.init fArgs ()) = some (.ok (), s) := h1
  have hT : HasTree 2 s.world.master.paths (fun n => if n = 0 then 0 else 2) other := by
    intro l hl
    obtain ⟨q, hq, rfl⟩ := h2.2 l hl
    refine ⟨hq, ?_⟩
    have : ∀ l < 2 ^ 2, (other l).leafId = l ∧ ∀ q ∈ (other l).pairs, q.2 = (fun n => if n = 0 then 0 else 2) q.1 := by decide +kernel
    exact this l hl
  exact ⟨s, .new (), h1', h2.1, hT, by decide +kernel, C132_best fFitOk fContract fTwo (guided_ipOptimal _ _ _ _) (.new ()) h1' hT,
    C132_leaf fFitOk fContract fTwo (guided_ipOptimal _ _ _ _) (.new ()) h1'⟩

end Verif.DTree.BestDemo
