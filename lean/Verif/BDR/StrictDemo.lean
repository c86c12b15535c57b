import Verif.BDR.StrictProps
import Verif.BDR.FitExamples

/-!
# Checked accesses: the hypotheses of C107 hold for the demo run, and runs in which an access fails
-/

namespace Verif.BDR.Demo

open MP Spec

theorem rect : Rect X := by
  intro row hrow
  simp only [X, List.mem_cons, List.not_mem_nil, or_false] at hrow
  rcases hrow with rfl | rfl | rfl <;> rfl

/-- The hypotheses of C107 hold for the demo run, with a later call of `fit` and of `predict`. -/
example : ∃ s s', fitNewS oracle 10 1 (heuristicKinds 10) (-1) 0 X 4 labels est0 0 = some (.ok (), s) ∧
    Fit.fit (envS oracle X (heuristicKinds 10)) (config (heuristicKinds 10) 7 3) 4 labels s.est s.world = some (.ok (), s') ∧
    predictS [4, 9] s'.world.master.explanation X.rows = predict [4, 9] s'.world.master.explanation X.rows := by
  obtain ⟨s, hr, -⟩ := C107_returns (X := X) (y := labels) (maxIt := -1) (limit := 0) (e0 := est0) rect rfl (by decide +kernel) contract (.new 0)
  have hs : SessionS oracle 10 1 (heuristicKinds 10) X labels s.world := (SessionS.new 0).fit (-1) 0 _ est0 hr
  obtain ⟨s', hr', -⟩ := C107_returns (X := X) (y := labels) (maxIt := 7) (limit := 3) (e0 := s.est) rect rfl (by decide +kernel) contract hs
  exact ⟨s, s', hr, hr', C107_predict_fitted rect rfl hs hr' [4, 9] X.rows (fun row h => (rect row h).ge)⟩

/-- The features of `X` and one more. -/
def wide : Data := ⟨[[1, 0, 1], [0, 1, 1], [0, 0, 0]], 3⟩

/-- A second `fit` on data with one more feature raises `IndexError`: the pricing problem of the first call has no variable for it. -/
theorem C107_refit_fails : ((fitNewS oracle 10 1 (heuristicKinds 10) (-1) 0 X 4 labels est0 0).bind (fun r =>
      Fit.fit (envS oracle wide (heuristicKinds 10)) (config (heuristicKinds 10) (-1) 0) 4 labels r.2.est r.2.world)).map (fun r => r.1) =
      some (.error .indexError) := by decide +kernel

/-- The rule `x0 or x1` on rows with one feature: it can be evaluated if the feature is not zero, and stumbles otherwise. -/
example : Stumbles [0] [[0], [1]] ∧ ¬ Stumbles [1] [[0], [1]] ∧ predictS [4, 9] [[0], [1]] [[1]] = .ok [9] ∧
    predictS [4, 9] [[0], [1]] [[1], [0]] = .error .indexError := by
  refine ⟨⟨[[0]], [1], [], [], 1, [], rfl, rfl, by decide, by decide, by decide⟩, ?_, by decide +kernel, by decide +kernel⟩
  rw [← rowReads_fail, not_not]
  have : rowReads [1] [[0], [1]] = [(true, .indexError)] := by decide +kernel
  rw [this]
  intro r hr
  rw [List.mem_singleton.1 hr]

/-- The pricing problem after one call on `X`: with `wide` it fails, with fewer features it does not. -/
example : ((subAfter 10 X [1, 1, 0] [((0, [0, 0]), fun _ => ⟨.optimal, fun _ => 0, fun _ => 0, 0⟩)]).generateColumnsS wide [1, 1, 0] (0, [1, 1])
      (fun _ => ⟨.optimal, fun _ => 0, fun _ => 0, 0⟩)).1 = .error .indexError ∧
    ((subAfter 10 X [1, 1, 0] [((0, [0, 0]), fun _ => ⟨.optimal, fun _ => 0, fun _ => 0, 0⟩)]).generateColumnsS ⟨[[1], [0], [1]], 1⟩ [1, 1, 0] (0, [1, 1])
      (fun _ => ⟨.optimal, fun _ => 0, fun _ => 0, 0⟩)).1 ≠ .error .indexError := by
  have hg : (subAfter 10 X [1, 1, 0] [((0, [0, 0]), fun _ => ⟨.optimal, fun _ => 0, fun _ => 0, 0⟩)]).generated = true := by decide +kernel
  rw [Ne, C107_other_data _ _ _ _ hg _ _ rfl _ (by norm_num) (by norm_num), C107_other_data _ _ _ _ hg _ _ rfl _ (by norm_num) (by norm_num)]
  decide

end Verif.BDR.Demo
