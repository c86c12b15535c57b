import Verif.Check
import Verif.BDR.StrictProps
import Verif.BDR.MultiProps
import Verif.Fit.Life

/-!
# Property C136: what `fit` and `predict` of a rule classifier do with any numbers

`Verif/Check.lean` has the validation, `Strict.lean` the plug-ins with checked accesses. Together they cover every list of lists of numbers, also
with NaN, ragged rows, missing or fractional labels.
-/

set_option linter.unusedSectionVars false

namespace Verif.BDR

open MP Spec Sk.Spec
open Fit.Spec

variable {Ω : Type} {o : Oracle Ω} {C p : ℚ} {kinds : List (List Kind)} {X : List (List ℚ)} {n : ℕ} {y : List ℤ} {maxIt : ℤ} {limit : ℚ}
  {fuel : ℕ} {e0 : Fit.Est} {ω : Ω} {raw : Sk.RawX × List (Option ℚ)}

/-- The validated input. -/
def checkData (raw : Sk.RawX × List (Option ℚ)) : Except Err (Data × List ℤ) := (Sk.checkXY raw).map (fun r => (⟨r.1.1, r.1.2⟩, r.2))

/-- `fit` of a newly constructed classifier with any input. -/
def fitAny (o : Oracle Ω) (C p : ℚ) (kinds : List (List Kind)) (maxIt : ℤ) (limit : ℚ) (fuel : ℕ) (raw : Sk.RawX × List (Option ℚ)) (e0 : Fit.Est) (ω : Ω) :
    Option (Except Err Unit × Fit.St (World Ω) (ℚ × List ℚ) Clause) :=
  Fit.fitRaw checkData (fun w => ((o.clock w.ω).1, { w with ω := (o.clock w.ω).2 })) (fun X => envS o X kinds) (config kinds maxIt limit) fuel raw e0
    (World.init C p kinds ω)

/-- `predict` with any input. -/
def predictAny (Z : Sk.RawX) (s : Fit.St (World Ω) (ℚ × List ℚ) Clause) : Except Err (List ℤ) :=
  Fit.predictRaw Sk.checkArray (fun classes X => predictS classes s.world.master.explanation X.1) Z s.est

theorem fitAny_valid (h : Training raw X n y) :
    fitAny o C p kinds maxIt limit fuel raw e0 ω = Fit.fit (envS o ⟨X, n⟩ kinds) (config kinds maxIt limit) fuel y e0 (World.init C p kinds ω) := by
  unfold fitAny Fit.fitRaw checkData
  rw [Sk.checkXY_ok.2 h]
  rfl

theorem training_rect (h : Training raw X n y) : Rect ⟨X, n⟩ := h.1.2.2.2

/-- **C136.** Input that is not a matrix of numbers with one integer label for every row is refused with `ValueError`; the estimator has not changed. -/
theorem C136_refused (h : ¬ ∃ X n y, Training raw X n y) :
    ∃ s, fitAny o C p kinds maxIt limit fuel raw e0 ω = some (.error .valueError, s) ∧ s.est = e0 ∧
      s.world.master = (World.init C p kinds ω).master ∧ s.world.subs = (World.init C p kinds ω).subs := by
  rcases Sk.checkXY_cases raw with ⟨X, n, y, h1, -⟩ | ⟨-, h1⟩
  · exact absurd ⟨X, n, y, h1⟩ h
  · unfold fitAny Fit.fitRaw checkData
    rw [h1]
    exact ⟨_, rfl, rfl, rfl, rfl⟩

/-- **C136.** One class only: `ValueError`, and the classifier is as little fitted as before. -/
theorem C136_one_class (h : Training raw X n y) (h1 : ∀ a ∈ y, ∀ b ∈ y, a = b) :
    ∃ s, fitAny o C p kinds maxIt limit fuel raw e0 ω = some (.error .valueError, s) ∧ s.est.isFitted = e0.isFitted ∧
      s.world.master = (World.init C p kinds ω).master ∧ s.world.subs = (World.init C p kinds ω).subs := by
  rw [fitAny_valid h]
  obtain ⟨s, h2, -, h3, h4⟩ := (Fit.C09_single_class (envS o ⟨X, n⟩ kinds) (config kinds maxIt limit) fuel y e0 (World.init C p kinds ω)).1 h1
  exact ⟨s, h2, h4, by rw [h3]; rfl, by rw [h3]; rfl⟩

/-- **C136.** Two classes, and solvers that keep their contracts: `fit` returns. -/
theorem C136_two_classes (h : Training raw X n y) (h2 : (Sk.uniqueLabels y).length = 2) (hc : Contract o C p kinds ⟨X, n⟩ (encoded y)) :
    ∃ s, fitAny o C p kinds maxIt limit (2 ^ n) raw e0 ω = some (.ok (), s) ∧ s.est.isFitted = true := by
  rw [fitAny_valid h]
  exact C107_returns (training_rect h) h.2.2 h2 hc (.new ω)

/-- **C136.** Any number of classes and any solvers: `fit` ends, and returns or raises `AssertionError`, unless there is one class only. -/
theorem C136_ends (h : Training raw X n y) (h2 : ∃ a ∈ y, ∃ b ∈ y, a ≠ b) :
    ∃ res s, fitAny o C p kinds maxIt limit (2 ^ n) raw e0 ω = some (res, s) ∧ (res = .ok () ∨ res = .error .assertionError) := by
  rw [fitAny_valid h]
  obtain ⟨⟨res, s⟩, hr⟩ := (C107_same_runs (o := o) (C := C) (p := p) (kinds := kinds) (maxIt := maxIt) (limit := limit) (fuel := 0) (e0 := e0)
    (training_rect h) h.2.2 (.new ω)).2
  refine ⟨res, s, hr, ?_⟩
  cases res with
  | ok u => exact Or.inl rfl
  | error e =>
    rcases (C107_no_access_fails (training_rect h) h.2.2 (.new ω) hr).2 e rfl with h3 | ⟨-, h3⟩
    · exact Or.inr (by rw [h3])
    · obtain ⟨a, ha, b, hb, hab⟩ := h2
      exact absurd (h3 a ha b hb) hab

/-- **C136.** `predict` after such a `fit`: it refuses what is not a matrix of numbers with `ValueError`; a matrix with at least as many columns as the training data gets one
training label for every row; with fewer columns it gets such labels or `IndexError`. -/
theorem C136_predict {s : Fit.St (World Ω) (ℚ × List ℚ) Clause} (hr : fitAny o C p kinds maxIt limit fuel raw e0 ω = some (.ok (), s)) (Z : Sk.RawX) :
    ∃ X n y, Training raw X n y ∧
      ((¬ ∃ R m, Matrix Z R m) → predictAny Z s = .error .valueError) ∧
      ∀ R m, Matrix Z R m → ((∃ ys, predictAny Z s = .ok ys ∧ ys.length = R.length ∧ ∀ v ∈ ys, v ∈ y) ∨ (m < n ∧ predictAny Z s = .error .indexError)) := by
  rcases Sk.checkXY_cases raw with ⟨X, n, y, h1, -⟩ | ⟨h1, -⟩
  · refine ⟨X, n, y, h1, ?_, ?_⟩
    · intro hZ
      rcases Sk.checkArray_cases Z with ⟨R, m, h2, -⟩ | ⟨-, h2⟩
      · exact absurd ⟨R, m, h2⟩ hZ
      · unfold predictAny Fit.predictRaw
        rw [h2]
    · intro R m hZ
      rw [fitAny_valid h1] at hr
      obtain ⟨⟨k, hk⟩, -⟩ := C107_no_access_fails (training_rect h1) h1.2.2 (.new ω) hr
      have hf : s.est.isFitted = true := (Fit.C10_returns hk).1
      have hp : predictAny Z s = predictS s.est.classes s.world.master.explanation R := by
        unfold predictAny Fit.predictRaw
        rw [Sk.checkArray_ok.2 hZ, hf]
        rfl
      rw [hp]
      obtain ⟨ys, h3, h4⟩ := C112_two_labels o C p kinds maxIt limit ⟨X, n⟩ (fuel + k) y e0 ω hk R
      have hlen : ys.length = R.length := by
        unfold predict Sk.inverseTransform at h3
        rw [← (Sk.mapM_ok_iff.1 h3).length_eq, List.length_map]
      by_cases hst : ∃ row ∈ R, Stumbles row s.world.master.explanation
      · refine Or.inr ⟨?_, (C107_predict _ _ _).1 hst⟩
        by_contra hmn
        have h5 := C107_predict_fitted (training_rect h1) h1.2.2 (.new ω) hr s.est.classes R (fun row hrow => by
          rw [hZ.2.2.2 row hrow]; exact not_lt.1 hmn)
        rw [(C107_predict _ _ _).1 hst, h3] at h5
        cases h5
      · refine Or.inl ⟨ys, ?_, hlen, fun v hv => (h4 v hv).1⟩
        rw [(C107_predict _ _ _).2 (fun row hrow hs => hst ⟨row, hrow, hs⟩), h3]
  · obtain ⟨s', h2, -⟩ := C136_refused (o := o) (C := C) (p := p) (kinds := kinds) (maxIt := maxIt) (limit := limit) (fuel := fuel) (e0 := e0) (ω := ω) h1
    rw [h2] at hr
    cases hr

/-- **C136.** `predict` before any successful `fit`: invalid input is refused first, then the missing training. -/
theorem C136_not_fitted {s : Fit.St (World Ω) (ℚ × List ℚ) Clause} (hs : s.est.isFitted = false) (Z : Sk.RawX) :
    ((¬ ∃ R m, Matrix Z R m) → predictAny Z s = .error .valueError) ∧ ((∃ R m, Matrix Z R m) → predictAny Z s = .error Fit.notFitted) := by
  unfold predictAny Fit.predictRaw
  rcases Sk.checkArray_cases Z with ⟨R, m, h2, h3⟩ | ⟨h2, h3⟩
  · rw [h3]
    refine ⟨fun h => absurd ⟨R, m, h2⟩ h, fun _ => ?_⟩
    rw [hs]
    rfl
  · rw [h3]
    exact ⟨fun _ => rfl, fun h => absurd h h2⟩

end Verif.BDR
