import Verif.DTree.RefitProps
import Verif.DTree.FitDemo

/-!
# Examples for C92
-/

namespace Verif.DTree.Demo

open MP Spec
open Fit.Spec

theorem fContract : FitContract 2 fArgs fX fO 0 := guided_contract fFitOk _ _ _ _

theorem fTwo : TwoClasses fy := ⟨0, by decide, 1, by decide, by decide⟩

theorem fRun_paths : returned fRun (fun s => decide (s.world.master.paths.length = 8) && decide ((s.world.master.selected.map (·.cost)).sum = 4) &&
    s.world.master.generated) = true := by decide +kernel

/-- C92: the first `fit` adds a path to the seven initial ones and ends because of the iteration limit; a second `fit` without limits returns
normally, has the eight paths, and its tree is worth at least the four rows. -/
example : ∃ s s', fRun = some (.ok (), s) ∧ s.world.master.paths.length = 8 ∧ fPaths.length = 7 ∧ Session fO fArgs fX fy s.world ∧
    Fit.fit (env fO fArgs fX) (config fArgs (-1) (-1)) (enough 2 fArgs fX) fy s.est s.world = some (.ok (), s') ∧
    s.world.master.paths <+: s'.world.master.paths ∧ 4 ≤ (s'.world.master.selected.map (·.cost)).sum := by
  obtain ⟨s, h1, h2⟩ := returned_spec fRun_paths
  simp only [Bool.and_eq_true, decide_eq_true_eq] at h2
  have h1' : Fit.fit (env fO fArgs fX) (config fArgs 1 100) 10 fy est0 (World.init fArgs ()) = some (.ok (), s) := h1
  have hs : Session fO fArgs fX fy s.world := .fit (.new ()) 1 100 10 est0 h1'
  obtain ⟨s', hs'⟩ := C92_refit_succeeds fFitOk fContract fTwo hs (-1) (-1) s.est
  refine ⟨s, s', h1, h2.1.1, rfl, hs, hs', ?_, ?_⟩
  · exact C92_paths_kept fFitOk fContract fTwo (.new ()) h1' s.world.ω hs'
  · have := C92_not_worse fFitOk fContract fTwo (guided_ipOptimal _ _ _ _) (.new ()) h1' s.world.ω hs'
    rwa [h2.1.2] at this

end Verif.DTree.Demo
