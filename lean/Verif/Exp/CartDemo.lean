import Verif.Exp.CartCompare
import Verif.Exp.PrepareDemo

/-!
# C91 on concrete data
-/

namespace Verif.Exp.Demo

open Verif.DTree Verif.DTree.Spec Verif.DTree.Demo MP

/-- The CART tree with the best labels of its leaves gets four of six rows right, like the initial tree. -/
example : cart.predict (fun i => if i = 2 ∨ i = 6 then 0 else 1) hX = [0, 1, 1, 0, 1, 0] ∧
    correct hy (cart.predict (fun i => if i = 2 ∨ i = 6 then 0 else 1) hX) = 4 ∧ correct hy (initialPreds hP 2 hX) = 4 := by decide +kernel

/-- C91: all hypotheses hold for exact solvers and a run of `fit` exists. -/
example : ∃ s preds fuel, fitNew hO (hP.args 2 false) (-1) (-1) hX fuel hy est0 () = some (.ok (), s) ∧
    predictFitted (hP.args 2 false) s hX = .ok preds ∧ 4 ≤ correct hy preds := by
  obtain ⟨⟨res, s⟩, hr⟩ := C71_terminates hFitOk hContract (-1) (-1) est0 ()
  obtain rfl := C71_fit_succeeds hFitOk hContract hTwo hr
  obtain ⟨preds, h1, -, h2⟩ := C91_not_worse_than_cart hInput hEnc (fun _ => le_refl _) hPrep_ok hCand hContract hTwo (exact_ipOptimal _ _ _) hr
    (fun i => if i = 2 ∨ i = 6 then 0 else 1)
  refine ⟨s, preds, _, hr, h1, ?_⟩
  have e : correct hy (cart.predict (fun i => if i = 2 ∨ i = 6 then 0 else 1) hX) = 4 := by decide +kernel
  omega

/-- The hypotheses of `C91_experiment` hold here as well. -/
example := C91_experiment (Ω := Unit) (aggressive := true) (limit := 0) hInput (by norm_num) hEnc (fun k => le_refl ((fun _ => 0 : ℕ → ℚ) k)) hTwo
  (.inr (by decide))

/-- **C91 needs the condition on the paths.** With further trees whose splits are not candidates of their nodes (C78), exact solvers return a
classifier that gets three of five training rows right where the CART tree fitted to all data gets all of them right. -/
theorem C91_needs_candidates : ∃ (d : ℕ) (carts : List Cart) (final : Cart) (extra : List Cart) (X : List (List ℚ)) (y : List ℤ) (P : Prepared)
    (o : FitOracle Unit) (s : Fit.St (World Unit) Duals Path) (preds : List ℤ) (label : ℕ → ℤ),
    PrepInput d carts final extra X y ∧ y = (encoded y).map Int.ofNat ∧ TwoClasses y ∧
    prepare d carts final extra X y true 0 (fun _ => 0) = .ok P ∧
    (∀ m k, (o.master.lp m k).status = .optimal → OptimalDuals m 0 (o.master.lp m k)) ∧ IpOptimal d (P.args d false) X o ∧ PriceOptimal o ∧
    fitNew o (P.args d false) (-1) (-1) X 10 y est0 () = some (.ok (), s) ∧
    predictFitted (P.args d false) s X = .ok preds ∧ X.length = 5 ∧ correct y preds = 3 ∧ correct y (final.predict label X) = 5 := by
  obtain ⟨s, h1, h2⟩ := returned_spec gRun_facts
  simp only [Bool.and_eq_true, decide_eq_true_eq] at h2
  obtain ⟨⟨⟨h3, h4⟩, h5⟩, h6⟩ := h2
  exact ⟨2, [], gFinal, [gE1, gE2], gX, gy, gP, gO, s, _, fun i => if i = 2 then 0 else 1, gInput, by decide +kernel,
    ⟨0, by decide, 1, by decide, by decide⟩, gPrep_ok, guided_lp _ _ _ _, guided_ipOptimal _ _ _ _, guided_priceOptimal _ _ _ _, h1, h6, rfl,
    by decide +kernel, by decide +kernel⟩

end Verif.Exp.Demo
