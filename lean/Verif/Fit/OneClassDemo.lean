import Verif.Fit.OneClassProps
import Verif.BDR.LifeDemo
import Verif.DTree.LifeDemo

/-!
# C138 on a rule and on a tree
-/

namespace Verif

theorem any_some {α : Type} {q : Option α} {f : α → Bool} (h : q.any f = true) : ∃ a, q = some a ∧ f a = true := by
  cases q with
  | none => cases h
  | some a => exact ⟨a, rfl, h⟩

end Verif

namespace Verif.BDR.LifeDemo

open MP Spec Fit.Spec Demo

theorem fitted : ∃ st : State, steps [(false, some (X, labels))] start = some st ∧ EverFitted st.1 ∧ lastLabels st.1 = [9, 9, 4] ∧
    predictCall checkX (some [[1, 0], [0, 0]]) st.2.1 st.2.2 = .ok [9, 4] ∧ predictCall checkX (some [[0, 0]]) st.2.1 st.2.2 = .ok [4] := by
  have h : (steps [(false, some (X, labels))] start).any (fun st => st.1.any (fun r => r.result.toBool) && decide (lastLabels st.1 = [9, 9, 4]) &&
      decide (predictCall checkX (some [[1, 0], [0, 0]]) st.2.1 st.2.2 = .ok [9, 4]) && decide (predictCall checkX (some [[0, 0]]) st.2.1 st.2.2 = .ok [4])) = true := by
    decide +kernel
  obtain ⟨st, h1, h2⟩ := any_some h
  simp only [Bool.and_eq_true, decide_eq_true_eq, List.any_eq_true] at h2
  obtain ⟨⟨⟨⟨r, hr, hok⟩, h3⟩, h4⟩, h5⟩ := h2
  refine ⟨st, h1, ⟨r, hr, ?_⟩, h3, h4, h5⟩
  cases hr' : r.result with
  | ok u => rfl
  | error er => rw [hr'] at hok; cases hok

/-- C138: the rule classifier is fitted on the labels 4 and 9; `fit` with the single label 7 raises `ValueError`; now `predict` raises `ValueError` on a row that
got 9, and answers 7 on a row that got 4. -/
theorem one_class : ∃ (h : List (Fit.Rec Clause)) (e : Fit.Est) (w : World (ℕ × Bool)) (r : Except Err Unit × Fit.St (World (ℕ × Bool)) (ℚ × List ℚ) Clause),
    Life flagOracle 10 1 (heuristicKinds 10) checkXy h e w ∧ EverFitted h ∧
      Fit.fitRaw checkXy (fun w : World (ℕ × Bool) => ((flagOracle.clock w.ω).1, { w with ω := (flagOracle.clock w.ω).2 })) (fun X => env flagOracle X (heuristicKinds 10))
        (config (heuristicKinds 10) (-1) 0) 4 (some (X, [7, 7, 7])) e w = some r ∧ r.1 = .error .valueError ∧
      predictCall checkX (some [[1, 0], [0, 0]]) e w = .ok [9, 4] ∧ predictCall checkX (some [[1, 0], [0, 0]]) r.2.est r.2.world = .error .valueError ∧
      predictCall checkX (some [[0, 0]]) e w = .ok [4] ∧ predictCall checkX (some [[0, 0]]) r.2.est r.2.world = .ok [7] := by
  obtain ⟨st, h1, hf, h2, h3, h4⟩ := fitted
  have hl := steps_life _ start_life h1
  obtain ⟨s, hs, -⟩ := (Fit.C09_single_class (env flagOracle X (heuristicKinds 10)) (config (heuristicKinds 10) (-1) 0) 4 [7, 7, 7] st.2.1 st.2.2).1 (by decide)
  replace hs : Fit.fitRaw checkXy (fun w : World (ℕ × Bool) => ((flagOracle.clock w.ω).1, { w with ω := (flagOracle.clock w.ω).2 }))
    (fun X => env flagOracle X (heuristicKinds 10)) (config (heuristicKinds 10) (-1) 0) 4 (some (X, [7, 7, 7])) st.2.1 st.2.2 = some (.error .valueError, s) := hs
  have k1 := C138_one_class (raw := some (X, [7, 7, 7])) (m := 7) hl hf rfl (by decide) (by decide) hs h3
  have k2 := C138_one_class (raw := some (X, [7, 7, 7])) (m := 7) hl hf rfl (by decide) (by decide) hs h4
  rw [h2] at k1 k2
  exact ⟨st.1, st.2.1, st.2.2, _, hl, hf, hs, k1.1, h3, k1.2.2 (by decide), h4, k2.2.1 (by decide)⟩

/-- Input that is refused by the validation. -/
example : ∃ (h : List (Fit.Rec Clause)) (e : Fit.Est) (w : World (ℕ × Bool)), Life flagOracle 10 1 (heuristicKinds 10) checkXy h e w ∧ EverFitted h ∧
    ∀ r, Fit.fitRaw checkXy (fun w : World (ℕ × Bool) => ((flagOracle.clock w.ω).1, { w with ω := (flagOracle.clock w.ω).2 })) (fun X => env flagOracle X (heuristicKinds 10))
      (config (heuristicKinds 10) (-1) 0) 4 none e w = some r → predictCall checkX (some [[1, 0], [0, 0]]) r.2.est r.2.world = .ok [9, 4] := by
  obtain ⟨st, h1, hf, -, h3, -⟩ := fitted
  have hl := steps_life _ start_life h1
  exact ⟨_, _, _, hl, hf, fun r hr => (C138_refused hl hf rfl hr).2.trans h3⟩

/-- The same calls meet the hypotheses of `C138_ranks`. -/
example : ∃ (h t : List (Fit.Rec Clause)) (e e' : Fit.Est) (w w' : World (ℕ × Bool)), Life flagOracle 10 1 (heuristicKinds 10) checkXy h e w ∧
    Life flagOracle 10 1 (heuristicKinds 10) checkXy (h ++ t) e' w' ∧ t ≠ [] ∧ predictCall checkX (some [[0, 0]]) e w = .ok [4] ∧
    ∀ ys', predictCall checkX (some [[0, 0]]) e' w' = .ok ys' ↔ List.Forall₂ (SamePlace (lastLabels h) (lastLabels (h ++ t))) [4] ys' := by
  obtain ⟨st, h1, hf, h2, h3, h4⟩ := fitted
  have hl := steps_life _ start_life h1
  obtain ⟨s, hs, htr, -⟩ := (Fit.C09_single_class (env flagOracle X (heuristicKinds 10)) (config (heuristicKinds 10) (-1) 0) 4 [7, 7, 7] st.2.1 st.2.2).1 (by decide)
  have hl' := Fit.Life.fit hl (config (heuristicKinds 10) (-1) 0) 4 (some (X, [7, 7, 7])) (r := (.error .valueError, s)) hs
  refine ⟨_, _, _, _, _, _, hl, hl', by simp, h4, (C138_ranks hl hl' hf ?_ h4).1⟩
  intro r hr
  rw [List.mem_singleton.1 hr]
  exact ⟨by simp, by simp only [htr]; rfl⟩

/-- Places: 9 is the second of 4 and 9, as 3 is of 1, 3 and 5. -/
example : SamePlace [9, 9, 4] [5, 3, 1] 9 3 ∧ ∀ v', ¬ SamePlace [9, 9, 4] [7, 7, 7] 9 v' := by
  refine ⟨⟨by decide, by decide, by decide⟩, ?_⟩
  rintro v' ⟨-, h2, h3⟩
  have : v' = 7 := by simpa using h2
  subst this
  revert h3
  decide

end Verif.BDR.LifeDemo

namespace Verif.DTree.LifeDemo

open MP Spec Fit.Spec Demo

theorem fitted : ∃ st : State, steps [some (qX, qy)] start = some st ∧ EverFitted st.1 ∧ lastLabels st.1 = [3, 7, 3] ∧
    predictCall qArgs checkX (some [[0, 0], [1, 0]]) st.2.1 st.2.2 = .ok [3, 7] ∧ predictCall qArgs checkX (some [[0, 0]]) st.2.1 st.2.2 = .ok [3] := by
  have h : (steps [some (qX, qy)] start).any (fun st => st.1.any (fun r => r.result.toBool) && decide (lastLabels st.1 = [3, 7, 3]) &&
      decide (predictCall qArgs checkX (some [[0, 0], [1, 0]]) st.2.1 st.2.2 = .ok [3, 7]) &&
      decide (predictCall qArgs checkX (some [[0, 0]]) st.2.1 st.2.2 = .ok [3])) = true := by
    decide +kernel
  obtain ⟨st, h1, h2⟩ := any_some h
  simp only [Bool.and_eq_true, decide_eq_true_eq, List.any_eq_true] at h2
  obtain ⟨⟨⟨⟨r, hr, hok⟩, h3⟩, h4⟩, h5⟩ := h2
  refine ⟨st, h1, ⟨r, hr, ?_⟩, h3, h4, h5⟩
  cases hr' : r.result with
  | ok u => rfl
  | error er => rw [hr'] at hok; cases hok

/-- C138: a tree classifier, fitted on the labels 3 and 7, then refused with the single label 5. -/
theorem one_class_tree : ∃ (h : List (Fit.Rec Path)) (e : Fit.Est) (w : World Unit) (r : Except Err Unit × Fit.St (World Unit) Duals Path),
    Life plainOracle qArgs checkXy h e w ∧ EverFitted h ∧
      Fit.fitRaw checkXy (fun w : World Unit => ((plainOracle.clock w.ω).1, { w with ω := (plainOracle.clock w.ω).2 })) (fun X => env plainOracle qArgs X)
        (config qArgs 1 0) 4 (some (qX, [5, 5, 5])) e w = some r ∧ r.1 = .error .valueError ∧
      predictCall qArgs checkX (some [[0, 0], [1, 0]]) e w = .ok [3, 7] ∧ predictCall qArgs checkX (some [[0, 0], [1, 0]]) r.2.est r.2.world = .error .valueError ∧
      predictCall qArgs checkX (some [[0, 0]]) e w = .ok [3] ∧ predictCall qArgs checkX (some [[0, 0]]) r.2.est r.2.world = .ok [5] := by
  obtain ⟨st, h1, hf, h2, h3, h4⟩ := fitted
  have hl := steps_life _ start_life h1
  obtain ⟨s, hs, -⟩ := (Fit.C09_single_class (env plainOracle qArgs qX) (config qArgs 1 0) 4 [5, 5, 5] st.2.1 st.2.2).1 (by decide)
  replace hs : Fit.fitRaw checkXy (fun w : World Unit => ((plainOracle.clock w.ω).1, { w with ω := (plainOracle.clock w.ω).2 }))
    (fun X => env plainOracle qArgs X) (config qArgs 1 0) 4 (some (qX, [5, 5, 5])) st.2.1 st.2.2 = some (.error .valueError, s) := hs
  have k1 := C138_one_class_tree (raw := some (qX, [5, 5, 5])) (m := 5) hl hf rfl (by decide) (by decide) hs h3
  have k2 := C138_one_class_tree (raw := some (qX, [5, 5, 5])) (m := 5) hl hf rfl (by decide) (by decide) hs h4
  rw [h2] at k1 k2
  exact ⟨st.1, st.2.1, st.2.2, _, hl, hf, hs, k1.1, h3, k1.2.2 (by decide), h4, k2.2.1 (by decide)⟩

/-- Input that is refused by the validation. -/
example : ∃ (h : List (Fit.Rec Path)) (e : Fit.Est) (w : World Unit), Life plainOracle qArgs checkXy h e w ∧ EverFitted h ∧
    ∀ r, Fit.fitRaw checkXy (fun w : World Unit => ((plainOracle.clock w.ω).1, { w with ω := (plainOracle.clock w.ω).2 })) (fun X => env plainOracle qArgs X)
      (config qArgs 1 0) 4 none e w = some r → predictCall qArgs checkX (some [[0, 0], [1, 0]]) r.2.est r.2.world = .ok [3, 7] := by
  obtain ⟨st, h1, hf, -, h3, -⟩ := fitted
  have hl := steps_life _ start_life h1
  exact ⟨_, _, _, hl, hf, fun r hr => (C138_refused_tree hl hf rfl hr).2.trans h3⟩

/-- The calls of `one_class_tree` meet the hypotheses of `C138_ranks_tree`. -/
example : ∃ (h t : List (Fit.Rec Path)) (e e' : Fit.Est) (w w' : World Unit), Life plainOracle qArgs checkXy h e w ∧
    Life plainOracle qArgs checkXy (h ++ t) e' w' ∧ t ≠ [] ∧ predictCall qArgs checkX (some [[0, 0]]) e w = .ok [3] ∧
    ∀ ys', predictCall qArgs checkX (some [[0, 0]]) e' w' = .ok ys' ↔ List.Forall₂ (SamePlace (lastLabels h) (lastLabels (h ++ t))) [3] ys' := by
  obtain ⟨st, h1, hf, h2, h3, h4⟩ := fitted
  have hl := steps_life _ start_life h1
  obtain ⟨s, hs, htr, -⟩ := (Fit.C09_single_class (env plainOracle qArgs qX) (config qArgs 1 0) 4 [5, 5, 5] st.2.1 st.2.2).1 (by decide)
  have hl' := Fit.Life.fit hl (config qArgs 1 0) 4 (some (qX, [5, 5, 5])) (r := (.error .valueError, s)) hs
  refine ⟨_, _, _, _, _, _, hl, hl', by simp, h4, (C138_ranks_tree hl hl' hf ?_ h4).1⟩
  intro r hr
  rw [List.mem_singleton.1 hr]
  exact ⟨by simp, by simp only [htr]; rfl⟩

end Verif.DTree.LifeDemo
