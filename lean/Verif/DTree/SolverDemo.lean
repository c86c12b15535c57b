import Verif.DTree.SolverProps
import Verif.DTree.FitDemo

/-!
# The tree classifier without a solver for the master problem (C123)
-/

namespace Verif.DTree.Demo

open Spec

theorem qDistinct : DistinctSplits qArgs.splits := by
  unfold DistinctSplits
  decide +kernel

/-- The arguments of a run that returns with the solver (`qRun_facts`): two attempts without it, both raise. -/
example : ∃ w, Tries qO qArgs w ∧ ∃ s, Fit.fit (envNoLp qO qArgs qX) (config qArgs 5 100) 10 qy est0 w = some (.error .attributeError, s) ∧
    s.est.isFitted = false := by
  obtain ⟨s, t, e, h1, -, -, -, h2, -⟩ := C123_no_lp_tree qO qArgs qX 5 100 10 qy est0 (World.init qArgs ()) rfl qTwo
  have hT := Tries.fit (Tries.new (o := qO) (A := qArgs) ()) qX qy 5 100 10 est0 h1
  refine ⟨_, hT, ?_⟩
  obtain ⟨s', e', h4, h5, -, h6, -⟩ := C123_no_lp_tree_session hT qX qy 5 100 10 est0
  rw [h6 qTwo qDistinct] at h4
  exact ⟨s', h4, h5⟩

/-- A split given twice is reported first. -/
example : ¬ DistinctSplits (qArgs.splits ++ qArgs.splits) := by
  unfold DistinctSplits
  decide +kernel

end Verif.DTree.Demo
