import Verif.DTree.StrictAgree
import Verif.DTree.RefitProps

/-!
# Property C104: no access of `DTreeClassifier.fit` and `predict` fails

`Verif/DTree/Strict.lean` has the plug-ins with checked accesses. Its runs are those of the model without checks, on which all other theorems
about `DTreeClassifier` rest, provided the data has rows and the splits ask for features that the data has.
-/

set_option linter.unusedSectionVars false

namespace Verif.DTree

open MP Spec
open Fit.Spec
open Verif.Fit (Ev Guided Agree)

variable {Ω : Type} {d : ℕ} {A : Args} {X : List (List ℚ)} {y : List ℤ} {o : FitOracle Ω} {tol : ℚ} {maxIt : ℤ} {limit : ℚ}
  {fuel : ℕ} {e0 : Fit.Est} {w : World Ω} {res : Except Err Unit} {s : Fit.St (World Ω) Duals Path}

namespace Spec

/-- The states of a classifier that is constructed and then fitted any number of times on the data `X`, `y`, with checked accesses. -/
inductive SessionS (o : FitOracle Ω) (A : Args) (X : List (List ℚ)) (y : List ℤ) : World Ω → Prop
  | new (ω : Ω) : SessionS o A X y (World.init A ω)
  | idle {w : World Ω} (h : SessionS o A X y w) (ω : Ω) : SessionS o A X y { w with ω := ω }
  | fit {w : World Ω} (h : SessionS o A X y w) (maxIt : ℤ) (limit : ℚ) (fuel : ℕ) (e0 : Fit.Est) {r : Except Err Unit × Fit.St (World Ω) Duals Path}
      (hr : Fit.fit (envS o A X) (config A maxIt limit) fuel y e0 w = some r) : SessionS o A X y r.2.world

end Spec

/-- From a state that satisfies the invariant of `fit`, the runs with checked accesses are the runs without. -/
theorem strict_from (hf : FitOk d A X (encoded y)) (hc : FitContract d A X o tol) (hi : InRange A X (encoded y))
    (hw : FitInv d A X (encoded y) o tol w []) :
    (∀ r, Fit.fit (env o A X) (config A maxIt limit) fuel y e0 w = some r → Fit.fit (envS o A X) (config A maxIt limit) fuel y e0 w = some r) ∧
    ∀ r, Fit.fit (envS o A X) (config A maxIt limit) fuel y e0 w = some r →
      ∃ k, Fit.fit (env o A X) (config A maxIt limit) (fuel + k) y e0 w = some r := by
  have h1 : ∀ fuel r, Fit.fit (env o A X) (config A maxIt limit) fuel y e0 w = some r →
      Fit.fit (envS o A X) (config A maxIt limit) fuel y e0 w = some r :=
    fun fuel r hr => Fit.fit_congr (fitInv_guided hf hc maxIt limit) (envS_agree hf hc hi maxIt limit) hw hr
  refine ⟨h1 fuel, ?_⟩
  intro r hr
  obtain ⟨q, hq⟩ := terminates_from hf hc maxIt limit e0 hw
  have h2 := Fit.C01_fuel_irrelevant (h1 _ _ hq) fuel
  have h3 := Fit.C01_fuel_irrelevant hr (enough d A X)
  have h4 := Fit.C01_fuel_irrelevant hq fuel
  have he : (A.paths.length + 2 ^ d * (A.splits.length ^ d * (totalWeight A X + 1)) + 2) = enough d A X := rfl
  rw [Nat.add_comm] at h2 h4
  refine ⟨enough d A X, ?_⟩
  rw [← he] at h3 ⊢
  rw [h2] at h3
  rw [h4, h3]

/-- The states of the strict model are states of the model. -/
theorem Spec.SessionS.session (hf : FitOk d A X (encoded y)) (hc : FitContract d A X o tol) (hi : InRange A X (encoded y)) (hy : TwoClasses y)
    (h : SessionS o A X y w) : Session o A X y w := by
  induction h with
  | new ω => exact .new ω
  | idle h ω ih => exact .idle ih ω
  | fit h maxIt limit fuel e0 hr ih =>
    obtain ⟨k, hk⟩ := (strict_from hf hc hi (session_inv hf hc hy ih)).2 _ hr
    exact .fit ih maxIt limit (fuel + k) e0 hk

/-- **C104.** On data with rows and with all features that the splits ask for, no access to a list, dictionary or `None` entry fails during `fit`,
in the first call or in any later one: every run of the plug-ins with checked accesses returns normally, and is a run of the plug-ins
without checks. -/
theorem C104_no_access_fails (hf : FitOk d A X (encoded y)) (hc : FitContract d A X o tol) (hi : InRange A X (encoded y)) (hy : TwoClasses y)
    (hs : SessionS o A X y w) (hr : Fit.fit (envS o A X) (config A maxIt limit) fuel y e0 w = some (res, s)) :
    res = .ok () ∧ ∃ k, Fit.fit (env o A X) (config A maxIt limit) (fuel + k) y e0 w = some (res, s) := by
  have hw := session_inv hf hc hy (hs.session hf hc hi hy)
  obtain ⟨k, hk⟩ := (strict_from hf hc hi hw).2 _ hr
  exact ⟨succeeds_from hf hc hy hw hk, k, hk⟩

/-- **C104.** Conversely every run without checks is a run with checked accesses, and such runs end. -/
theorem C104_same_runs (hf : FitOk d A X (encoded y)) (hc : FitContract d A X o tol) (hi : InRange A X (encoded y)) (hy : TwoClasses y)
    (hs : SessionS o A X y w) :
    (∀ r, Fit.fit (env o A X) (config A maxIt limit) fuel y e0 w = some r → Fit.fit (envS o A X) (config A maxIt limit) fuel y e0 w = some r) ∧
    ∃ s, Fit.fit (envS o A X) (config A maxIt limit) (enough d A X) y e0 w = some (.ok (), s) := by
  have hw := session_inv hf hc hy (hs.session hf hc hi hy)
  refine ⟨(strict_from hf hc hi hw).1, ?_⟩
  obtain ⟨⟨q, s⟩, hq⟩ := terminates_from hf hc maxIt limit e0 hw
  obtain rfl := succeeds_from hf hc hy hw hq
  exact ⟨s, (strict_from hf hc hi hw).1 _ hq⟩

/-- **C104** for a newly constructed classifier. -/
theorem C104_fit (hf : FitOk d A X (encoded y)) (hc : FitContract d A X o tol) (hi : InRange A X (encoded y)) (hy : TwoClasses y) {ω : Ω}
    (hr : fitNewS o A maxIt limit X fuel y e0 ω = some (res, s)) : res = .ok () ∧ ∃ k, fitNew o A maxIt limit X (fuel + k) y e0 ω = some (res, s) :=
  C104_no_access_fails hf hc hi hy (.new ω) hr

/-- **C104** for `predict`: after `fit`, no access fails on rows with all features that the splits ask for. -/
theorem C104_predict (hf : FitOk d A X (encoded y)) (hc : FitContract d A X o tol) (hi : InRange A X (encoded y)) (hy : TwoClasses y)
    (hs : SessionS o A X y w) (hr : Fit.fit (envS o A X) (config A maxIt limit) fuel y e0 w = some (res, s)) (R : List (List ℚ))
    (hR : ∀ row ∈ R, ∀ sp ∈ A.splits, sp.feature < row.length) : predictFittedS A s R = predictFitted A s R := by
  obtain ⟨rfl, k, hk⟩ := C104_no_access_fails hf hc hi hy hs hr
  have hw := session_inv hf hc hy (hs.session hf hc hi hy)
  obtain ⟨s1, σ, P, hs1, -, -, -, hsel, -, hsp, -, hsame, -⟩ := fit_final hf hc hy hw hk
  obtain ⟨cuts1, own, cd, hinv⟩ := reached_inv hf.setup (marked_good hf) hc.cut hs1
  have hgood : ∀ p ∈ s.world.master.selected, GoodPath d A.splits p := by
    obtain ⟨s2, -, -, hs2, -, hM, -⟩ := fit_final hf hc hy hw hk
    obtain ⟨cuts2, own2, cd2, hinv2⟩ := reached_inv hf.setup (marked_good hf) hc.cut (s := s.world.master) (by rw [hM]; exact .ip hs2)
    obtain ⟨s3, -, -, hs3, hok3, hM3, -⟩ := fit_final hf hc hy hw hk
    intro p hp
    refine hinv2.good p ?_
    rw [hM3] at hp ⊢
    unfold solveIp at hp hok3 ⊢
    simp only at hp hok3 ⊢
    split_ifs at hp hok3 ⊢
    exact (List.mem_filter.1 hp).1
  refine guardedE_safe ?_ _
  unfold predictReads
  have hlv : A.leaves = fullLeaves d := hf.setup.tree.leaves
  refine .append (.flatMap fun p hp => pathReads_safe hlv (hgood p hp) (by rw [hsp, hsame.length])) (.flatMap fun row hrow => .flatMap fun p hp => ?_)
  refine .map fun q hq => atIndex_ok ?_
  rw [hsp, (hsame.at q.2).1]
  exact hR row hrow _ (splitAt_mem (pair_lt (hgood p hp) hq))

end Verif.DTree
