import Verif.DTree.OtherData
import Verif.DTree.FitDemo

/-!
# Example and counterexamples for C115

The arguments satisfy the conditions for both labellings of the rows: the costs of the initial paths are 0. The first `fit` generates the paths of
the tree that asks the first question, ends with `mp_optimal_` and predicts all training labels. Then the same classifier is fitted to other data.
-/

namespace Verif.DTree.OtherDemo

open MP Spec Demo
open Fit.Spec

/-- The tree that asks the second question; the costs are lower bounds for all labels. -/
def rPaths : List Path := [⟨0, [0], [1], 0, 0, 0, true⟩, ⟨1, [0], [1], 0, 0, 1, true⟩]

def rArgs : Args := ⟨rPaths, fullLeaves 1, qNodes, qSplits, 1, [0, 1], 2, false, true, some qRows, false⟩

/-- Other features: the answers to the first question are exchanged. -/
def X2 : List (List ℚ) := [[1, 0], [0, 0], [1, 0]]

/-- Other labels: the two classes are exchanged. -/
def y2 : List ℤ := [7, 3, 7]

theorem rFitOk (y : List ℤ) (hy : ∀ r < 3, (encoded y).getD r 0 < 2) : FitOk 1 rArgs qX (encoded y) where
  setup := qSetup
  depth := rfl
  distinct := by unfold Distinct; decide +kernel
  good := by
    change ∀ p ∈ rPaths, GoodPath 1 qSplits p
    decide +kernel
  cand := by decide +kernel
  tree := by
    refine ⟨fun _ => 1, fun l => if l = 0 then ⟨0, [0], [1], 0, 0, 0, true⟩ else ⟨1, [0], [1], 0, 0, 1, true⟩, ?_⟩
    unfold HasTree
    decide +kernel
  targets := List.Perm.refl _
  y_lt := hy
  removed := qFitOk.removed
  weights := by intro h; cases h

theorem rCosts (y : List ℤ) : ∀ p ∈ rArgs.paths, p.cost ≤ hitsOf 1 (Args.base rArgs 1 qX (encoded y)) p p.target := by
  have h : ∀ p ∈ rArgs.paths, p.cost = 0 := by decide +kernel
  intro p hp
  rw [h p hp]
  unfold hitsOf keptSum
  refine List.sum_nonneg ?_
  intro x hx
  obtain ⟨r, -, rfl⟩ := List.mem_map.1 hx
  split
  · change (0 : ℚ) ≤ ((rowAt qRows r).weight : ℚ)
    positivity
  · exact le_refl _

def sol1 (i : ℕ) : ℚ := if i ∈ [0, 1, 3] then 1 else 0

def sol2 (i : ℕ) : ℚ := if i ∈ [2, 4, 5] then 1 else 0

/-- Like `qSatBest` with the other target. -/
def satBest2 (l v : ℕ) : ℚ := if v ∈ [SV.z l, .y l, .u 0 0, .w (1 - l)].map (qSt l).idx then 1 else 0

/-- Exact solvers; the heuristic tries the first question at both leaves. -/
noncomputable def rO : FitOracle Unit := guided [(sol1, fun _ => 0), (sol2, qDual)] [(sol2, qDual)] [qSatBest 0, qSatBest 1, satBest2 0, satBest2 1]
  (fun i k => if k = 0 then i else 0)

/-- The first `fit`. -/
noncomputable def run1 (y : List ℤ) : Option (Except Err Unit × Fit.St (World Unit) Duals Path) := fitNew rO rArgs 5 100 qX 10 y est0 ()

/-- The second `fit` of the same object. -/
noncomputable def run2 (X : List (List ℚ)) (y : List ℤ) : Option (Except Err Unit × Fit.St (World Unit) Duals Path) :=
  (run1 qy).bind (fun r => Fit.fit (envOn rO rArgs qX X) (config rArgs 5 100) 10 y r.2.est r.2.world)

theorem first : returned (run1 qy) (fun s => s.est.mpOptimal && decide (predictFitted rArgs s qX = .ok qy)) = true := by decide +kernel

theorem fresh : returned (run1 y2) (fun s => s.est.mpOptimal && decide (predictFitted rArgs s qX = .ok y2)) = true := by decide +kernel

theorem refitLabels : returned (run2 qX y2) (fun s => s.est.mpOptimal && decide (predictFitted rArgs s qX = .ok qy)) = true := by decide +kernel

theorem refitFeatures : returned (run2 X2 qy) (fun s => s.est.mpOptimal && decide (predictFitted rArgs s X2 = .ok y2) &&
    decide (predictFitted rArgs s qX = .ok qy)) = true := by decide +kernel

theorem rTwo : TwoClasses qy ∧ TwoClasses y2 := ⟨⟨3, by decide, 7, by decide, by decide⟩, 3, by decide, 7, by decide, by decide⟩

/-- C115: a case that meets the hypotheses, and its consequence. The second `fit` is given the features `X2`; the tree it returns predicts all
labels on the old features and none on those it was given. -/
example : ∃ s s', run1 qy = some (.ok (), s) ∧ s.est.mpOptimal = true ∧ X2.length = qX.length ∧
    Fit.fit (envOn rO rArgs qX X2) (config rArgs 5 100) 10 qy s.est s.world = some (.ok (), s') ∧
    Fit.fit (env rO rArgs qX) (config rArgs 5 100) 10 qy s.est s.world = some (.ok (), s') ∧
    predictFitted rArgs s' qX = .ok qy ∧ ∃ l, predictFitted rArgs s' X2 = .ok l ∧ l.length = qy.length ∧ ∀ q ∈ l.zip qy, q.1 ≠ q.2 := by
  obtain ⟨s, h1, h2⟩ := returned_spec first
  obtain ⟨s', h3, h4⟩ := returned_spec refitFeatures
  unfold run2 at h3
  rw [h1] at h3
  simp only [Bool.and_eq_true, decide_eq_true_eq] at h2 h4
  have h3 : Fit.fit (envOn rO rArgs qX X2) (config rArgs 5 100) 10 qy s.est s.world = some (.ok (), s') := h3
  refine ⟨s, s', h1, h2.1, rfl, h3, ?_, h4.2, y2, h4.1.2, rfl, by decide⟩
  rw [← h3]
  have h1' : Fit.fit (env rO rArgs qX) (config rArgs 5 100) 10 qy est0 (World.init rArgs ()) = some (.ok (), s) := h1
  have key := C115_features (maxIt' := 5) (limit' := 100) (fuel' := 10) (e0' := s.est) h1' h2.1 (X2 := X2) rfl s.world.ω qy
  exact key.symm

/-- C115: the old costs survive as well. -/
example : ∃ s s', run1 qy = some (.ok (), s) ∧
    Fit.fit (envOn rO rArgs qX X2) (config rArgs 5 100) (enough 1 rArgs qX) qy s.est s.world = some (.ok (), s') ∧
    (s.world.master.selected.map (·.cost)).sum ≤ trainHits 1 rArgs qX (encoded qy) s'.world.master.splits s'.world.master.selected := by
  obtain ⟨s, h1, h2⟩ := returned_spec first
  simp only [Bool.and_eq_true, decide_eq_true_eq] at h2
  have hf := rFitOk qy (by decide +kernel)
  have h1' : Fit.fit (env rO rArgs qX) (config rArgs 5 100) 10 qy est0 (World.init rArgs ()) = some (.ok (), s) := h1
  obtain ⟨s', h3, h4⟩ := C115_old_tree hf (guided_contract hf _ _ _ _) rTwo.1 (guided_ipOptimal _ _ _ _) (rCosts qy) h1' h2.1 (X2 := X2) rfl s.world.ω 5 100
    s.est
  exact ⟨s, s', h1, h3, h4⟩

/-- **C115, C34 (refutation for the tree classifier).** A second `fit` does not train on the new labels either. All solvers are exact, and the
arguments are right for both labellings. A new classifier that is fitted to the labels `y2` predicts all of them. The classifier that was fitted to
`qy` before and is now fitted to `y2`, on the same features, returns normally with `mp_optimal_`, and predicts none of them. -/
theorem C115_labels_refuted : FitOk 1 rArgs qX (encoded qy) ∧ FitOk 1 rArgs qX (encoded y2) ∧ FitContract 1 rArgs qX rO 0 ∧
    IpOptimal 1 rArgs qX rO ∧ PriceOptimal rO ∧ TwoClasses y2 ∧
    (∀ p ∈ rArgs.paths, p.cost ≤ hitsOf 1 (Args.base rArgs 1 qX (encoded y2)) p p.target) ∧
    (∃ s, fitNew rO rArgs 5 100 qX 10 y2 est0 () = some (.ok (), s) ∧ predictFitted rArgs s qX = .ok y2) ∧
    ∃ s s', fitNew rO rArgs 5 100 qX 10 qy est0 () = some (.ok (), s) ∧
      Fit.fit (envOn rO rArgs qX qX) (config rArgs 5 100) 10 y2 s.est s.world = some (.ok (), s') ∧ s'.est.mpOptimal = true ∧
      ∃ l, predictFitted rArgs s' qX = .ok l ∧ l.length = y2.length ∧ ∀ q ∈ l.zip y2, q.1 ≠ q.2 := by
  have hf1 := rFitOk qy (by decide +kernel)
  have hf2 := rFitOk y2 (by decide +kernel)
  obtain ⟨s, h1, h2⟩ := returned_spec first
  obtain ⟨s2, h3, h4⟩ := returned_spec fresh
  obtain ⟨s', h5, h6⟩ := returned_spec refitLabels
  unfold run2 at h5
  rw [h1] at h5
  simp only [Bool.and_eq_true, decide_eq_true_eq] at h2 h4 h6
  exact ⟨hf1, hf2, guided_contract hf1 _ _ _ _, guided_ipOptimal _ _ _ _, guided_priceOptimal _ _ _ _, rTwo.2, rCosts y2,
    ⟨s2, h3, h4.2⟩, s, s', h1, h5, h6.1, qy, h6.2, rfl, by decide⟩

end Verif.DTree.OtherDemo
