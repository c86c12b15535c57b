import Verif.Check
import Verif.DTree.StrictProps
import Verif.DTree.Narrow
import Verif.Fit.Life

/-!
# Property C136: what `fit` and `predict` of a tree classifier do with any numbers
-/

set_option linter.unusedSectionVars false

namespace Verif.DTree

open MP Spec Sk.Spec
open Fit.Spec

variable {Ω : Type} {o : FitOracle Ω} {d : ℕ} {A : Args} {X : List (List ℚ)} {n : ℕ} {y : List ℤ} {tol : ℚ} {maxIt : ℤ} {limit : ℚ}
  {fuel : ℕ} {e0 : Fit.Est} {ω : Ω} {raw : Sk.RawX × List (Option ℚ)}

/-- The validated input. -/
def checkData (raw : Sk.RawX × List (Option ℚ)) : Except Err (List (List ℚ) × List ℤ) := (Sk.checkXY raw).map (fun r => (r.1.1, r.2))

/-- `fit` of a newly constructed classifier with any input. -/
def fitAny (o : FitOracle Ω) (A : Args) (maxIt : ℤ) (limit : ℚ) (fuel : ℕ) (raw : Sk.RawX × List (Option ℚ)) (e0 : Fit.Est) (ω : Ω) :
    Option (Except Err Unit × Fit.St (World Ω) Duals Path) :=
  Fit.fitRaw checkData (fun w => ((o.clock w.ω).1, { w with ω := (o.clock w.ω).2 })) (fun X => envS o A X) (config A maxIt limit) fuel raw e0 (World.init A ω)

/-- `predict` with any input. -/
def predictAny (A : Args) (Z : Sk.RawX) (s : Fit.St (World Ω) Duals Path) : Except Err (List ℤ) :=
  Fit.predictRaw Sk.checkArray (fun _ X => predictFittedX A s X.1) Z s.est

theorem fitAny_valid (h : Training raw X n y) :
    fitAny o A maxIt limit fuel raw e0 ω = Fit.fit (envS o A X) (config A maxIt limit) fuel y e0 (World.init A ω) := by
  unfold fitAny Fit.fitRaw checkData
  rw [Sk.checkXY_ok.2 h]
  rfl

/-- **C136.** Input that is not a matrix of numbers with one integer label for every row is refused with `ValueError`; the estimator has not changed. -/
theorem C136_refused (h : ¬ ∃ X n y, Training raw X n y) :
    ∃ s, fitAny o A maxIt limit fuel raw e0 ω = some (.error .valueError, s) ∧ s.est = e0 ∧ ∃ ω', s.world = World.init A ω' := by
  rcases Sk.checkXY_cases raw with ⟨X, n, y, h1, -⟩ | ⟨-, h1⟩
  · exact absurd ⟨X, n, y, h1⟩ h
  · unfold fitAny Fit.fitRaw checkData
    rw [h1]
    exact ⟨_, rfl, rfl, (o.clock ω).2, rfl⟩

/-- **C136.** One class only: `ValueError`, and the classifier is as little fitted as before. -/
theorem C136_one_class (h : Training raw X n y) (h1 : ∀ a ∈ y, ∀ b ∈ y, a = b) :
    ∃ s, fitAny o A maxIt limit fuel raw e0 ω = some (.error .valueError, s) ∧ s.est.isFitted = e0.isFitted ∧ ∃ ω', s.world = World.init A ω' := by
  rw [fitAny_valid h]
  obtain ⟨s, h2, -, h3, h4⟩ := (Fit.C09_single_class (envS o A X) (config A maxIt limit) fuel y e0 (World.init A ω)).1 h1
  exact ⟨s, h2, h4, (o.clock ω).2, by rw [h3]; rfl⟩

theorem inRange (h : Training raw X n y) (hn : ∀ sp ∈ A.splits, sp.feature < n) : InRange A X (encoded y) where
  rows := h.1.2.1
  feat := fun row hrow sp hsp => by rw [h.1.2.2.2 row hrow]; exact hn sp hsp
  labels := by rw [← h.2.2]; simp [Sk.transform]

/-- **C136.** Two or more classes, a tree for these data whose splits ask for columns of the matrix, and solvers that keep their contracts: `fit` returns. -/
theorem C136_returns (h : Training raw X n y) (hn : ∀ sp ∈ A.splits, sp.feature < n) (hf : FitOk d A X (encoded y)) (hc : FitContract d A X o tol)
    (hy : TwoClasses y) : ∃ s, fitAny o A maxIt limit (enough d A X) raw e0 ω = some (.ok (), s) ∧ s.est.isFitted = true := by
  rw [fitAny_valid h]
  obtain ⟨s, hr⟩ := (C104_same_runs (maxIt := maxIt) (limit := limit) (e0 := e0) (fuel := 0) hf hc (inRange h hn) hy (.new ω)).2
  exact ⟨s, hr, (Fit.C10_returns hr).1⟩

theorem inverseTransform_cases (classes codes : List ℤ) :
    (∃ ys, Sk.inverseTransform classes codes = .ok ys ∧ ys.length = codes.length ∧ ∀ v ∈ ys, v ∈ classes) ∨
      Sk.inverseTransform classes codes = .error .valueError := by
  have h1 : ∀ c e, Sk.inverseOne classes c = .error e → e = .valueError := by
    intro c e h
    unfold Sk.inverseOne at h
    split at h
    · split at h
      · cases h
      · cases h; rfl
    · cases h; rfl
  have h2 : ∀ c v, Sk.inverseOne classes c = .ok v → v ∈ classes := by
    intro c v h
    unfold Sk.inverseOne at h
    split at h
    · split at h
      · rename_i h3
        cases h
        exact List.mem_of_getElem? h3
      · cases h
    · cases h
  unfold Sk.inverseTransform
  cases h : codes.mapM (Sk.inverseOne classes) with
  | error e =>
    obtain ⟨c, -, h3⟩ := Sk.mapM_error_of h
    exact Or.inr (by rw [h1 _ _ h3])
  | ok ys =>
    have h3 := Sk.mapM_ok_iff.1 h
    refine Or.inl ⟨ys, rfl, h3.length_eq.symm, ?_⟩
    clear h
    induction h3 with
    | nil => intro v hv; cases hv
    | cons h4 _ ih =>
      intro v hv
      rcases List.mem_cons.1 hv with rfl | hv
      · exact h2 _ _ h4
      · exact ih v hv

/-- **C136.** `predict` after such a `fit`: it refuses what is not a matrix of numbers with `ValueError`. For a matrix it returns one training label for every row, or raises
`ValueError` (a leaf without a class, C51), or, if the matrix does not have the feature of some split, `IndexError`. -/
theorem C136_predict {s : Fit.St (World Ω) Duals Path} (h : Training raw X n y) (hn : ∀ sp ∈ A.splits, sp.feature < n) (hf : FitOk d A X (encoded y))
    (hc : FitContract d A X o tol) (hy : TwoClasses y) (hr : fitAny o A maxIt limit fuel raw e0 ω = some (.ok (), s)) (Z : Sk.RawX) :
    ((¬ ∃ R m, Matrix Z R m) → predictAny A Z s = .error .valueError) ∧
      ∀ R m, Matrix Z R m → (∃ ys, predictAny A Z s = .ok ys ∧ ys.length = R.length ∧ ∀ v ∈ ys, v ∈ y) ∨ predictAny A Z s = .error .valueError ∨
        ((∃ sp ∈ A.splits, m ≤ sp.feature) ∧ predictAny A Z s = .error .indexError) := by
  constructor
  · intro hZ
    rcases Sk.checkArray_cases Z with ⟨R, m, h2, -⟩ | ⟨-, h2⟩
    · exact absurd ⟨R, m, h2⟩ hZ
    · unfold predictAny Fit.predictRaw
      rw [h2]
  · intro R m hZ
    rw [fitAny_valid h] at hr
    obtain ⟨-, k, hk⟩ := C104_no_access_fails hf hc (inRange h hn) hy (.new ω) hr
    have hfit : s.est.isFitted = true := (Fit.C10_returns hk).1
    have hp : predictAny A Z s = predictFittedX A s R := by
      unfold predictAny Fit.predictRaw
      rw [Sk.checkArray_ok.2 hZ]
      simp only [hfit, if_true]
    have hcl : s.est.classes = Sk.uniqueLabels y := Fit.fit_classes hk
    rw [hp]
    have h0 : (∃ ys, predictFitted A s R = .ok ys ∧ ys.length = R.length ∧ ∀ v ∈ ys, v ∈ y) ∨ predictFitted A s R = .error .valueError := by
      unfold predictFitted predict
      rcases inverseTransform_cases s.est.classes (R.map (fun row => predictRow A.leaves s.world.master.splits row s.world.master.selected)) with
        ⟨ys, h1, h2, h3⟩ | h1
      · exact Or.inl ⟨ys, h1, by rw [h2, List.length_map], fun v hv => (Sk.mem_uniqueLabels y v).1 (hcl ▸ h3 v hv)⟩
      · exact Or.inr h1
    by_cases hst : ∃ row ∈ R, StumblesOn A.leaves s.world.master.splits row s.world.master.selected
    · refine Or.inr (Or.inr ⟨?_, (C118_exact A s R).1 hst⟩)
      by_contra hm
      push Not at hm
      obtain ⟨σ, τ, hσ, -, h5, -⟩ := C118_fitted hf hc hy (.new ω) hk
      have h6 := h5 R ?_
      · rw [(C118_exact A s R).1 hst] at h6
        rcases inverseTransform_cases s.est.classes (R.map fun row => τ (walkLeaf (fun n => takesLeft row (splitAt A.splits (σ n))) d)) with ⟨ys, h7, -⟩ | h7
        · rw [h7] at h6; cases h6
        · rw [h7] at h6; cases h6
      · intro row hrow i hi
        rw [hZ.2.2.2 row hrow]
        refine hm _ (splitAt_mem ?_)
        have h7 := hσ i hi
        unfold cand at h7
        cases h8 : A.nodes[i]? with
        | none => rw [h8] at h7; simp at h7
        | some N =>
          rw [h8] at h7
          exact hf.setup.tree.cand_lt N (List.mem_of_getElem? h8) _ (by simpa using h7)
    · rw [(C118_exact A s R).2 fun row hrow hs => hst ⟨row, hrow, hs⟩]
      rcases h0 with h0 | h0
      · exact Or.inl h0
      · exact Or.inr (Or.inl h0)

end Verif.DTree
