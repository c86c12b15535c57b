import Verif.Exp.CartCompare
import Verif.FlNearest

/-!
# Property C116: scikit-learn compares in single precision, the experiment does not

`DecisionTreeClassifier` converts the features to `float32` in `fit` and in `predict` (hence in `score`, `dtree_experiment.py:179-180`); thresholds
are midpoints of two converted values, computed in double precision. The experiment reads the thresholds (`dtree_experiment.py:162`, `197`, `250`)
and compares them with the features as they are (`dtree_experiment.py:391-392`, `648-655` and `_dtree_classifier.py:442-452`). C91 is about the
CART tree applied to the features as they are; here it is applied to the converted ones.
-/

namespace Verif.Exp

open Verif.DTree Verif.DTree.Spec Verif.Fl

variable {d : ℕ} {carts : List Cart} {final : Cart} {extra : List Cart} {X : List (List ℚ)} {y : List ℤ} {aggressive : Bool} {limit : ℚ}
  {elapsed : ℕ → ℚ}

/-- What `predict` of the CART tree returns: the features are converted first. -/
def Cart.predictSingle (c : Cart) (R : Rounding 24 (-149)) (label : ℕ → ℤ) (X : List (List ℚ)) : List ℤ :=
  c.predict label (X.map fun row => row.map R.rnd)

namespace Spec

/-- `i` is an inner node on the way of the converted row. -/
def Meets (c : Cart) (R : Rounding 24 (-149)) (row : List ℚ) (i : ℕ) : Prop :=
  i < c.size ∧ c.isLeaf i = false ∧ ∃ k, (c.step (row.map R.rnd))^[k] 0 = i

/-- The tree was fitted to the rows of `X` by scikit-learn: the threshold of an inner node is the midpoint of two converted values `a < b`, between
which there is no converted value of the rows at the node. The midpoint is rounded to a double (`a / 2.0 + b / 2.0`, halving is exact). -/
def FittedTo (c : Cart) (R : Rounding 24 (-149)) (R' : Rounding 53 (-1074)) (X : List (List ℚ)) : Prop :=
  ∀ i < c.size, c.isLeaf i = false → ∃ a b, Single a ∧ Single b ∧ a < b ∧ (c.key i).2 = R'.rnd ((a + b) / 2) ∧
    ∀ row ∈ X, Meets c R row i → R.rnd (feat row (c.key i).1) ≤ a ∨ b ≤ R.rnd (feat row (c.key i).1)

/-- On its way the row has a value that equals the threshold. -/
def Tie (c : Cart) (R : Rounding 24 (-149)) (row : List ℚ) : Prop := ∃ i, Meets c R row i ∧ feat row (c.key i).1 = (c.key i).2

end Spec

open Spec

theorem feat_map (R : Rounding 24 (-149)) (row : List ℚ) (f : ℕ) : feat (row.map R.rnd) f = R.rnd (feat row f) := by
  unfold feat
  rw [List.getD_eq_getElem?_getD, List.getD_eq_getElem?_getD, List.getElem?_map]
  cases row[f]? with
  | none => exact R.zero.symm
  | some x => rfl

theorem double_feat {row : List ℚ} (h : ∀ x ∈ row, Double x) (f : ℕ) : Double (feat row f) := by
  unfold feat
  rw [List.getD_eq_getElem?_getD]
  cases hx : row[f]? with
  | none => exact rep_zero
  | some x => exact h x (List.mem_of_getElem? hx)

/-- **C116, one comparison.** A threshold fitted by scikit-learn and a value of the training data: converted to single precision the value goes to
the same side as without conversion, unless it equals the threshold; then it goes to the left without conversion. -/
theorem C116_comparison {R : Rounding 24 (-149)} (hR : Nearest R) (R' : Rounding 53 (-1074)) {a b x : ℚ} (ha : Single a) (hb : Single b)
    (hab : a < b) (hx : Double x) (hgap : R.rnd x ≤ a ∨ b ≤ R.rnd x) :
    (x ≠ R'.rnd ((a + b) / 2) → (R.rnd x ≤ R'.rnd ((a + b) / 2) ↔ x ≤ R'.rnd ((a + b) / 2))) ∧
    (R.rnd x ≤ R'.rnd ((a + b) / 2) → x ≤ R'.rnd ((a + b) / 2)) := by
  obtain ⟨z, hz, hz1, hz2⟩ := double_between ha hb hab
  have h1 : a ≤ R'.rnd ((a + b) / 2) := by
    have := R'.mono a ((a + b) / 2) (by linarith)
    rwa [R'.fix a ha.double] at this
  have h2 : R'.rnd ((a + b) / 2) < b := by
    have := R'.mono ((a + b) / 2) z hz1
    rw [R'.fix z hz] at this
    linarith
  rcases hgap with h | h
  · have h3 : x ≤ R'.rnd ((a + b) / 2) := by
      have := R'.mono x _ (hR.le_mid hb h hab)
      rwa [R'.fix x hx] at this
    exact ⟨fun _ => ⟨fun _ => h3, fun _ => h.trans h1⟩, fun _ => h3⟩
  · have h3 : R'.rnd ((a + b) / 2) ≤ x := by
      have := R'.mono _ x (hR.mid_le ha h hab)
      rwa [R'.fix x hx] at this
    have h4 : ¬R.rnd x ≤ R'.rnd ((a + b) / 2) := by linarith
    exact ⟨fun hne => ⟨fun hh => absurd hh h4, fun hh => absurd (le_antisymm hh h3) hne⟩, fun hh => absurd hh h4⟩

variable {R : Rounding 24 (-149)} {R' : Rounding 53 (-1074)}

/-- **C116, rows.** A training row without a value that equals a threshold on its way ends in the same leaf of the CART tree with and without
conversion to single precision. -/
theorem C116_same_leaf (hc : CartOk d final) (hR : Nearest R) (hfit : FittedTo final R R' X) (hX : ∀ row ∈ X, ∀ x ∈ row, Double x) {row : List ℚ}
    (hrow : row ∈ X) (ht : ¬Tie final R row) : final.apply (row.map R.rnd) = final.apply row := by
  have key : ∀ k, (final.step (row.map R.rnd))^[k] 0 = (final.step row)^[k] 0 := by
    intro k
    induction k with
    | zero => rfl
    | succ k ih =>
      obtain ⟨-, -, hlt, -⟩ := Cart.iterate_at hc (row.map R.rnd) k
      rw [Function.iterate_succ_apply', Function.iterate_succ_apply', ← ih]
      obtain ⟨i, hi⟩ : ∃ i, (final.step (row.map R.rnd))^[k] 0 = i := ⟨_, rfl⟩
      rw [hi] at hlt ⊢
      cases hl : final.isLeaf i with
      | true => rw [Cart.step_leaf hl, Cart.step_leaf hl]
      | false =>
        have hm : Meets final R row i := ⟨hlt, hl, k, hi⟩
        obtain ⟨a, b, ha, hb, hab, hth, hgap⟩ := hfit i hlt hl
        have h1 := (C116_comparison hR R' ha hb hab (double_feat (hX row hrow) (final.key i).1) (hgap row hrow hm)).1
          (fun he => ht ⟨i, hm, by rw [hth]; exact he⟩)
        rw [← hth] at h1
        unfold Cart.step
        rw [hl]
        simp only [Bool.false_eq_true, if_false]
        rw [feat_map]
        have h2 : R.rnd (feat row (final.feature.getD i 0)) ≤ final.threshold.getD i 0 ↔ feat row (final.feature.getD i 0) ≤ final.threshold.getD i 0 := h1
        simp only [h2]
  exact key _

open Classical in
/-- The number of training rows with a tie. -/
noncomputable def ties (c : Cart) (R : Rounding 24 (-149)) (X : List (List ℚ)) : ℕ := (X.filter fun row => decide (Tie c R row)).length

theorem length_filter_range {α : Type} (l : List α) (a0 : α) (P : α → Bool) :
    ((List.range l.length).filter fun r => P (l.getD r a0)).length = (l.filter P).length := by
  induction l with
  | nil => rfl
  | cons x l ih =>
    rw [List.length_cons, List.range_succ_eq_map, List.filter_cons, List.filter_cons, List.filter_map, List.getD_cons_zero]
    have e : ((fun r => P ((x :: l).getD r a0)) ∘ Nat.succ) = fun r => P (l.getD r a0) := by
      funext r
      simp
    split_ifs
    · rw [List.length_cons, List.length_map, e, ih, List.length_cons]
    · rw [List.length_map, e, ih]

/-- **C116, accuracy.** The accuracy that scikit-learn reports for the CART tree and its accuracy without conversion differ by at most the number of
training rows with a tie. -/
theorem C116_accuracy (hc : CartOk d final) (hR : Nearest R) (hfit : FittedTo final R R' X) (hX : ∀ row ∈ X, ∀ x ∈ row, Double x)
    (hy : y.length = X.length) (label : ℕ → ℤ) :
    correct y (final.predictSingle R label X) ≤ correct y (final.predict label X) + ties final R X ∧
    correct y (final.predict label X) ≤ correct y (final.predictSingle R label X) + ties final R X := by
  classical
  have hsame : ∀ r < y.length, ¬Tie final R (X.getD r []) →
      (final.predictSingle R label X).getD r 0 = (final.predict label X).getD r 0 := by
    intro r hr ht
    have hr' : r < X.length := by omega
    have hmem : X[r] ∈ X := List.getElem_mem hr'
    have e : X.getD r [] = X[r] := by rw [List.getD_eq_getElem?_getD, List.getElem?_eq_getElem hr']; rfl
    rw [e] at ht
    unfold Cart.predictSingle Cart.predict
    rw [List.map_map, List.getD_eq_getElem?_getD, List.getD_eq_getElem?_getD, List.getElem?_map, List.getElem?_map, List.getElem?_eq_getElem hr']
    simp only [Option.map_some, Option.getD_some, Function.comp]
    rw [C116_same_leaf hc hR hfit hX hmem ht]
  have hties : ties final R X = ((List.range y.length).filter fun r => decide (Tie final R (X.getD r []))).length := by
    rw [hy]
    exact (length_filter_range X [] _).symm
  have key : ∀ p q : List ℤ, (∀ r < y.length, ¬Tie final R (X.getD r []) → p.getD r 0 = q.getD r 0) →
      correct y p ≤ correct y q + ties final R X := by
    intro p q hpq
    rw [hties]
    unfold correct
    rw [← List.countP_eq_length_filter, ← List.countP_eq_length_filter, ← List.countP_eq_length_filter]
    have h1 : ∀ l : List ℕ, (∀ r ∈ l, r < y.length) → l.countP (fun r => decide (p.getD r 0 = y.getD r 0)) ≤
        l.countP (fun r => decide (q.getD r 0 = y.getD r 0)) + l.countP (fun r => decide (Tie final R (X.getD r []))) := by
      intro l
      induction l with
      | nil => intro _; simp
      | cons r l ih =>
        intro hl
        have ih := ih (fun r hr => hl r (List.mem_cons_of_mem _ hr))
        have hr := hl r List.mem_cons_self
        simp only [List.countP_cons, decide_eq_true_eq]
        by_cases ht : Tie final R (X.getD r [])
        · simp only [ht, if_true]
          split_ifs <;> omega
        · rw [hpq r hr ht]
          split_ifs <;> omega
    exact h1 _ (fun r hr => List.mem_range.1 hr)
  exact ⟨key _ _ hsame, key _ _ (fun r hr ht => (hsame r hr ht).symm)⟩

variable {Ω : Type} {o : FitOracle Ω} {tol : ℚ} {maxIt : ℤ} {tlimit : ℚ} {fuel : ℕ} {e0 : Fit.Est} {ω : Ω} {u : Unit}
  {s : Fit.St (World Ω) Duals Path} {raw : List ℤ} {P : Prepared} {old : Bool}

/-- **C116.** C91 for the accuracy that is really reported for the CART tree: with data in double precision the experiment's classifier gets at least
as many training rows right as the CART tree does in single precision, except for training rows that have a value equal to a threshold on
their way. -/
theorem C116_not_worse (h : PrepInput d carts final extra X y) (hy : y = (encoded raw).map Int.ofNat)
    (hclock : ∀ k, elapsed k ≤ elapsed (k + 1))
    (hr : prepare d carts final extra X y aggressive limit elapsed = .ok P) (hcand : ∀ p ∈ P.paths, UsesCand P.nodes p)
    (hc : FitContract d (P.args d old) X o tol) (hty : TwoClasses y) (hip : IpOptimal d (P.args d old) X o)
    (hfit : fitNew o (P.args d old) maxIt tlimit X fuel y e0 ω = some (.ok u, s)) (hR : Nearest R) (hft : FittedTo final R R' X)
    (hX : ∀ row ∈ X, ∀ x ∈ row, Double x) (label : ℕ → ℤ) :
    ∃ preds, predictFitted (P.args d old) s X = .ok preds ∧ preds.length = X.length ∧
      correct y (final.predictSingle R label X) ≤ correct y preds + ties final R X := by
  obtain ⟨preds, h1, h2, h3⟩ := C91_not_worse_than_cart h hy hclock hr hcand hc hty hip hfit label
  have := (C116_accuracy h.final_ok hR hft hX h.rows label).1
  exact ⟨preds, h1, h2, by omega⟩

end Verif.Exp
