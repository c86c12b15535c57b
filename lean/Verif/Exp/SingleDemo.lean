import Verif.Exp.SingleProps
import Verif.Exp.PrepareDemo

/-!
# C116 on concrete data: a value that the conversion changes, and a tie

A tree with one question and two training rows. With the values `1 + 2^-40` and `3` the conversion changes a value but no answer. With `1 + 2^-23`
and `1 + 3 * 2^-24` the second value lies in the middle of two single precision numbers; it is converted to the larger one, and the threshold
is the value itself.
-/

namespace Verif.Exp.SingleDemo

open Verif.DTree Verif.DTree.Spec Verif.DTree.Demo Verif.Fl Verif.Exp.Spec MP

/-- Conversion to `float32`. -/
def toSingle : Rounding 24 (-149) := nearestEven 24 (-149) (by norm_num)

theorem toSingle_nearest : Nearest toSingle := nearestEven_nearest _

/-- A tree with one question. -/
def stump (t : ℚ) : Cart := ⟨[1, -1, -1], [2, -1, -1], [0, 0, 0], [t, 0, 0]⟩

/-- The midpoint of `a < b` is fitted to rows whose converted values are not between them. -/
theorem stump_fitted {t a b : ℚ} {X : List (List ℚ)} (ha : Single a) (hb : Single b) (hab : a < b) (ht : t = binary64.rnd ((a + b) / 2))
    (hX : ∀ row ∈ X, toSingle.rnd (feat row 0) ≤ a ∨ b ≤ toSingle.rnd (feat row 0)) : FittedTo (stump t) toSingle binary64 X := by
  intro i hi hl
  have h0 : i = 0 := by
    have hi : i < 3 := hi
    interval_cases i
    · rfl
    · exact absurd hl (by simp [stump, Cart.isLeaf])
    · exact absurd hl (by simp [stump, Cart.isLeaf])
  subst h0
  exact ⟨a, b, ha, hb, hab, ht, fun row hrow _ => hX row hrow⟩

def label (i : ℕ) : ℤ := if i = 1 then 0 else 1

def sy : List ℤ := [0, 1]

theorem sEnc : sy = (encoded sy).map Int.ofNat := by decide +kernel

theorem sTwo : TwoClasses sy := ⟨0, by decide, 1, by decide, by decide⟩

/-! ## Without a tie -/

def aX : List (List ℚ) := [[1 + 1 / 2 ^ 40], [3]]

theorem aOk : CartOk 1 (stump 2) :=
  .of_check (fun i => ([0, 1, 1] : List ℕ).getD i 0) (by decide) rfl (by decide +kernel) (by decide +kernel) (by decide +kernel) (by decide +kernel)

theorem aInput : PrepInput 1 [] (stump 2) [] aX sy where
  depth := by decide
  carts_ok := by simp
  final_ok := aOk
  extra_ok := by simp
  split := ⟨stump 2, by simp, by decide +kernel⟩
  rows := rfl
  ne := by decide

theorem aFitted : FittedTo (stump 2) toSingle binary64 aX :=
  stump_fitted (a := 1) (b := 3) ⟨1, 0, by norm_num, by norm_num, by norm_num⟩ ⟨3, 0, by norm_num, by norm_num, by norm_num⟩ (by norm_num)
    (by decide +kernel) (by decide +kernel)

theorem aDouble : ∀ row ∈ aX, ∀ x ∈ row, Double x := by
  intro row hrow x hx
  simp only [aX, List.mem_cons, List.not_mem_nil, or_false] at hrow
  rcases hrow with rfl | rfl <;> rw [List.mem_singleton.1 hx]
  · exact ⟨2 ^ 40 + 1, -40, by norm_num, by norm_num, by norm_num⟩
  · exact ⟨3, 0, by norm_num, by norm_num, by norm_num⟩

theorem aNoTie : ∀ row ∈ aX, ¬Tie (stump 2) toSingle row := by
  rintro row hrow ⟨i, ⟨hi, hl, -⟩, ht⟩
  have hi : i < 3 := hi
  have hall : ∀ row ∈ aX, ∀ i < 3, (stump 2).isLeaf i = false → feat row ((stump 2).key i).1 ≠ ((stump 2).key i).2 := by decide +kernel
  exact hall row hrow i hi hl ht

/-- The conversion changes the first value. -/
example : toSingle.rnd (1 + 1 / 2 ^ 40) = 1 := by decide +kernel

/-- The rows end in the same leaves, as C116 says. -/
example : ∀ row ∈ aX, (stump 2).apply (row.map toSingle.rnd) = (stump 2).apply row :=
  fun _ hrow => C116_same_leaf aOk toSingle_nearest aFitted aDouble hrow (aNoTie _ hrow)

/-- The hypotheses of `C116_not_worse` hold for exact solvers, a run exists, there are no ties, and the CART tree gets both rows right. -/
example : ∃ (P : Prepared) (o : FitOracle Unit) (s : Fit.St (World Unit) Duals Path) (preds : List ℤ) (fuel : ℕ),
    prepare 1 [] (stump 2) [] aX sy true 0 (fun _ => 0) = .ok P ∧
    fitNew o (P.args 1 false) (-1) (-1) aX fuel sy est0 () = some (.ok (), s) ∧ predictFitted (P.args 1 false) s aX = .ok preds ∧
    correct sy ((stump 2).predictSingle toSingle label aX) = 2 ∧ 2 ≤ correct sy preds := by
  obtain ⟨P, hP, hall⟩ := C91_experiment (Ω := Unit) (aggressive := true) (limit := 0) (elapsed := fun _ => 0) aInput (by norm_num) sEnc
    (fun _ => le_refl _) sTwo (.inr (by decide))
  have hok : FitOk 1 (P.args 1 false) aX (encoded sy) := C78_fitOk aInput (by norm_num) sEnc (fun _ => le_refl _) hP (.inr (by decide)) false
  have hcontract : FitContract 1 (P.args 1 false) aX (exact (fun _ => (0, ())) (fun _ => (⟨fun _ _ => 0, id⟩, ())) (fun _ _ => [])) 0 :=
    exact_contract hok _ (fun _ _ => List.Perm.refl _) (fun _ _ _ h => by simp at h)
  obtain ⟨fuel, s, preds, h1, h2, -, h3⟩ := hall false _ _ hcontract (exact_ipOptimal _ _ _) (-1) (-1) est0 ()
  have e : correct sy ((stump 2).predictSingle toSingle label aX) = 2 := by decide +kernel
  have h4 := (C116_accuracy (y := sy) aOk toSingle_nearest aFitted aDouble rfl label).1
  have h5 : ties (stump 2) toSingle aX = 0 := by
    classical
    unfold ties
    rw [List.length_eq_zero_iff, List.filter_eq_nil_iff]
    intro row hrow
    simpa using aNoTie row hrow
  have h6 := h3 label
  exact ⟨P, _, s, preds, fuel, hP, h1, h2, e, by omega⟩

/-! ## With a tie -/

/-- The threshold. -/
def tieT : ℚ := 1 + 3 / 2 ^ 24

def tX : List (List ℚ) := [[1 + 1 / 2 ^ 23], [1 + 3 / 2 ^ 24]]

theorem tOk : CartOk 1 (stump tieT) :=
  .of_check (fun i => ([0, 1, 1] : List ℕ).getD i 0) (by decide) rfl (by decide +kernel) (by decide +kernel) (by decide +kernel) (by decide +kernel)

theorem tInput : PrepInput 1 [] (stump tieT) [] tX sy where
  depth := by decide
  carts_ok := by simp
  final_ok := tOk
  extra_ok := by simp
  split := ⟨stump tieT, by simp, by decide +kernel⟩
  rows := rfl
  ne := by decide

theorem tFitted : FittedTo (stump tieT) toSingle binary64 tX :=
  stump_fitted (a := 1 + 1 / 2 ^ 23) (b := 1 + 1 / 2 ^ 22) ⟨2 ^ 23 + 1, -23, by norm_num, by norm_num, by norm_num⟩
    ⟨2 ^ 22 + 1, -22, by norm_num, by norm_num, by norm_num⟩ (by norm_num) (by decide +kernel) (by decide +kernel)

theorem tDouble : ∀ row ∈ tX, ∀ x ∈ row, Double x := by
  intro row hrow x hx
  simp only [tX, List.mem_cons, List.not_mem_nil, or_false] at hrow
  rcases hrow with rfl | rfl <;> rw [List.mem_singleton.1 hx]
  · exact ⟨2 ^ 23 + 1, -23, by norm_num, by norm_num, by norm_num⟩
  · exact ⟨2 ^ 24 + 3, -24, by norm_num, by norm_num, by norm_num⟩

def tPrep : Prepared := (prepare 1 [] (stump tieT) [] tX sy true 0 (fun _ => 0)).toOption.getD ⟨[], [], [], [], [], []⟩

theorem tPrep_ok : prepare 1 [] (stump tieT) [] tX sy true 0 (fun _ => 0) = .ok tPrep := by
  obtain ⟨P, _, _, _, _, _, h, _⟩ := prepare_ok tInput true 0 (fun _ => 0)
  unfold tPrep
  rw [h]
  rfl

/-- Both rows answer every question of the experiment alike. -/
theorem tAlike (i : ℕ) : takesLeft [1 + 1 / 2 ^ 23] (splitAt (tPrep.args 1 false).splits i) =
    takesLeft [1 + 3 / 2 ^ 24] (splitAt (tPrep.args 1 false).splits i) := by
  by_cases hi : i < (tPrep.args 1 false).splits.length
  · have hall : ∀ i < (tPrep.args 1 false).splits.length, takesLeft [1 + 1 / 2 ^ 23] (splitAt (tPrep.args 1 false).splits i) =
        takesLeft [1 + 3 / 2 ^ 24] (splitAt (tPrep.args 1 false).splits i) := by decide +kernel
    exact hall i hi
  · unfold splitAt
    rw [List.getD_eq_default _ _ (by omega)]
    decide +kernel

/-- **C116, ties.** Data in double precision for which scikit-learn reports that the CART tree gets both of two training rows right. Whatever exact
solvers do, the classifier of the experiment, which has the question of this tree as a candidate, gets at most one of them right. -/
theorem C116_tie_refuted : ∃ (final : Cart) (R : Rounding 24 (-149)) (X : List (List ℚ)) (y : List ℤ) (label : ℕ → ℤ) (P : Prepared),
    PrepInput 1 [] final [] X y ∧ y = (encoded y).map Int.ofNat ∧ TwoClasses y ∧ Nearest R ∧ FittedTo final R binary64 X ∧
    (∀ row ∈ X, ∀ x ∈ row, Double x) ∧ prepare 1 [] final [] X y true 0 (fun _ => 0) = .ok P ∧
    X.length = 2 ∧ correct y (final.predictSingle R label X) = 2 ∧
    (∃ (o : FitOracle Unit), FitContract 1 (P.args 1 false) X o 0 ∧ IpOptimal 1 (P.args 1 false) X o) ∧
    ∀ (o : FitOracle Unit), FitContract 1 (P.args 1 false) X o 0 → ∀ (maxIt : ℤ) (tlimit : ℚ) (fuel : ℕ) (e0 : Fit.Est) (s : Fit.St (World Unit) Duals Path)
      (preds : List ℤ), fitNew o (P.args 1 false) maxIt tlimit X fuel y e0 () = some (.ok (), s) →
      predictFitted (P.args 1 false) s X = .ok preds → correct y preds ≤ 1 := by
  have hok : FitOk 1 (tPrep.args 1 false) tX (encoded sy) :=
    C78_fitOk tInput (by norm_num) sEnc (fun _ => le_refl _) tPrep_ok (.inr (by decide)) false
  refine ⟨stump tieT, toSingle, tX, sy, label, tPrep, tInput, sEnc, sTwo, toSingle_nearest, tFitted, tDouble, tPrep_ok, rfl, by decide +kernel,
    ⟨exact (fun _ => (0, ())) (fun _ => (⟨fun _ _ => 0, id⟩, ())) (fun _ _ => []),
      exact_contract hok _ (fun _ _ => List.Perm.refl _) (fun _ _ _ h => by simp at h), exact_ipOptimal _ _ _⟩, ?_⟩
  intro o hc maxIt tlimit fuel e0 s preds hr hp
  obtain ⟨σ, Q, -, -, -, hpred⟩ := C72_fitted_tree hok hc sTwo hr
  have he : predictRow (tPrep.args 1 false).leaves s.world.master.splits [1 + 1 / 2 ^ 23] s.world.master.selected =
      predictRow (tPrep.args 1 false).leaves s.world.master.splits [1 + 3 / 2 ^ 24] s.world.master.selected := by
    rw [hpred, hpred]
    simp only [tAlike]
  unfold predictFitted predict Sk.inverseTransform at hp
  unfold tX at hp
  rw [List.map_cons, List.map_cons, List.map_nil, he] at hp
  generalize predictRow (tPrep.args 1 false).leaves s.world.master.splits [1 + 3 / 2 ^ 24] s.world.master.selected = c at hp
  rcases hv : Sk.inverseOne s.est.classes c with e | v
  · rw [List.mapM_cons, hv] at hp
    cases hp
  · rw [List.mapM_cons, List.mapM_cons, hv] at hp
    cases hp
    by_cases h0 : v = 0
    · subst h0
      decide
    · by_cases h1 : v = 1
      · subst h1
        decide
      · have : correct sy [v, v] = 0 := by
          unfold correct
          rw [List.length_eq_zero_iff, List.filter_eq_nil_iff]
          intro r hr
          have hr : r < 2 := List.mem_range.1 hr
          interval_cases r <;> simp [sy, h0, h1]
        exact (le_of_eq this).trans (by norm_num)

end Verif.Exp.SingleDemo
