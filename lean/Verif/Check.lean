import Mathlib.Data.Rat.Lemmas
import Mathlib.Data.Rat.Cast.Defs
import Mathlib.Data.List.Forall2
import Verif.Sk

/-!
# Validation of the input by scikit-learn

`check_X_y` and `unique_labels` (`_col_gen_classifier.py:346-349`) and `check_array` (`_bdr_classifier.py:691`, `_dtree_classifier.py:2532`), for dense
input: lists of lists of numbers. An entry that is not a finite number (NaN, infinity) is `none`. Not covered: objects that are no such lists.
The checks are those of scikit-learn's documentation; all of them raise `ValueError`.
-/

namespace Verif.Sk

/-- What the caller passes as `X`. -/
abbrev RawX := List (List (Option ℚ))

/-- `_assert_all_finite` for one entry. -/
def finite : Option ℚ → Except Err ℚ
  | some v => .ok v
  | none => .error .valueError

/-- `check_array(X)`: rows of equal length, at least one row and one column, finite entries. Returns the matrix and its number of columns. -/
def checkArray : RawX → Except Err (List (List ℚ) × ℕ)
  | [] => .error .valueError
  | r :: rs =>
    if rs.all (fun q => decide (q.length = r.length)) then
      if r.length = 0 then .error .valueError
      else
        match (r :: rs).mapM (fun q => q.mapM finite) with
        | .error e => .error e
        | .ok X => .ok (X, r.length)
    else .error .valueError

/-- One label: `unique_labels` refuses numbers that are not integers ("Unknown label type: continuous"). -/
def label (v : ℚ) : Except Err ℤ := if v.den = 1 then .ok v.num else .error .valueError

/-- `check_X_y(X, y)` and `unique_labels(y)`: `X` as above, finite labels, as many as rows, integers. -/
def checkXY (raw : RawX × List (Option ℚ)) : Except Err ((List (List ℚ) × ℕ) × List ℤ) :=
  match checkArray raw.1 with
  | .error e => .error e
  | .ok X =>
    match raw.2.mapM finite with
    | .error e => .error e
    | .ok ys =>
      if ys.length = X.1.length then
        match ys.mapM label with
        | .error e => .error e
        | .ok y => .ok (X, y)
      else .error .valueError

/-! ## Specification -/

namespace Spec

/-- `raw` is the matrix `X` with `n` columns. -/
def Matrix (raw : RawX) (X : List (List ℚ)) (n : ℕ) : Prop :=
  raw = X.map (List.map some) ∧ X ≠ [] ∧ 0 < n ∧ ∀ row ∈ X, row.length = n

/-- The input is the matrix `X` with `n` columns and one integer label for every row. -/
def Training (raw : RawX × List (Option ℚ)) (X : List (List ℚ)) (n : ℕ) (y : List ℤ) : Prop :=
  Matrix raw.1 X n ∧ raw.2 = y.map (fun (v : ℤ) => some (v : ℚ)) ∧ y.length = X.length

end Spec

open Spec

/-! ## The model meets the specification -/

section
variable {α β : Type} {f : α → Except Err β}

theorem mapM_ok_iff : ∀ {l : List α} {ys : List β}, l.mapM f = .ok ys ↔ List.Forall₂ (fun a b => f a = .ok b) l ys
  | [], ys => by
    rw [List.mapM_nil, List.forall₂_nil_left_iff]
    constructor
    · intro h; cases h; rfl
    · rintro rfl; rfl
  | a :: l, ys => by
    rw [List.mapM_cons]
    have ih := @mapM_ok_iff l
    constructor
    · intro h
      cases h1 : f a with
      | error e => rw [h1] at h; cases h
      | ok b =>
        cases h2 : l.mapM f with
        | error e => rw [h1, h2] at h; cases h
        | ok bs =>
          rw [h1, h2] at h
          cases h
          exact .cons h1 (ih.1 h2)
    · intro h
      cases h with
      | cons h1 h2 => rw [h1, ih.2 h2]; rfl

theorem mapM_error_of : ∀ {l : List α} {e : Err}, l.mapM f = .error e → ∃ a ∈ l, f a = .error e
  | [], e, h => by cases h
  | a :: l, e, h => by
    rw [List.mapM_cons] at h
    cases h1 : f a with
    | error e' => rw [h1] at h; cases h; exact ⟨a, List.mem_cons_self .., h1⟩
    | ok b =>
      cases h2 : l.mapM f with
      | error e' =>
        rw [h1, h2] at h
        cases h
        obtain ⟨a', ha, h'⟩ := mapM_error_of h2
        exact ⟨a', List.mem_cons_of_mem _ ha, h'⟩
      | ok bs => rw [h1, h2] at h; cases h

theorem mapM_inverse {g : β → α} (h : ∀ a b, f a = .ok b ↔ a = g b) {l : List α} {ys : List β} : l.mapM f = .ok ys ↔ l = ys.map g := by
  rw [mapM_ok_iff]
  constructor
  · intro h1
    induction h1 with
    | nil => rfl
    | cons h2 _ ih => rw [List.map_cons, ← ih, (h _ _).1 h2]
  · rintro rfl
    induction ys with
    | nil => exact .nil
    | cons b ys ih => exact .cons ((h _ _).2 rfl) ih

end

theorem finite_ok (a : Option ℚ) (b : ℚ) : finite a = .ok b ↔ a = some b := by
  cases a with
  | none => simp [finite]
  | some v => simp [finite]

theorem finite_error {a : Option ℚ} {e : Err} (h : finite a = .error e) : e = .valueError := by
  cases a with
  | none => cases h; rfl
  | some v => cases h

theorem label_ok (a : ℚ) (b : ℤ) : label a = .ok b ↔ a = (b : ℚ) := by
  unfold label
  constructor
  · intro h
    split at h
    · rename_i h1
      cases h
      exact ((Rat.den_eq_one_iff a).1 h1).symm
    · cases h
  · rintro rfl
    simp

theorem label_error {a : ℚ} {e : Err} (h : label a = .error e) : e = .valueError := by
  unfold label at h
  split at h
  · cases h
  · cases h; rfl

theorem checkArray_ok {raw : RawX} {X : List (List ℚ)} {n : ℕ} : checkArray raw = .ok (X, n) ↔ Matrix raw X n := by
  have hrow : ∀ {l : RawX} {ys : List (List ℚ)}, l.mapM (fun q => q.mapM finite) = .ok ys ↔ l = ys.map (List.map some) :=
    mapM_inverse fun a b => mapM_inverse finite_ok
  unfold Matrix
  cases raw with
  | nil =>
    constructor
    · intro h; cases h
    · rintro ⟨h1, h2, -⟩
      exact absurd (List.map_eq_nil_iff.1 h1.symm) h2
  | cons r rs =>
    rw [checkArray]
    constructor
    · intro h
      split at h
      · rename_i h1
        split at h
        · cases h
        · rename_i h2
          split at h
          · cases h
          · rename_i Y h3
            cases h
            have h3 := hrow.1 h3
            refine ⟨h3, ?_, Nat.pos_of_ne_zero h2, ?_⟩
            · rintro rfl; cases h3
            · intro row hrow'
              have h4 : row.map some ∈ r :: rs := by rw [h3]; exact List.mem_map_of_mem hrow'
              rcases List.mem_cons.1 h4 with h4 | h4
              · rw [← h4, List.length_map]
              · have := List.all_eq_true.1 h1 _ h4
                rw [decide_eq_true_eq, List.length_map] at this
                exact this
      · cases h
    · rintro ⟨h1, -, h3, h4⟩
      have hlen : ∀ q ∈ r :: rs, q.length = n := by
        rw [h1]
        intro q hq
        obtain ⟨row, hr, rfl⟩ := List.mem_map.1 hq
        rw [List.length_map, h4 row hr]
      have h5 := hlen r (List.mem_cons_self ..)
      have h6 : rs.all (fun q => decide (q.length = r.length)) = true := List.all_eq_true.2 fun q hq => by
        rw [decide_eq_true_eq, h5, hlen q (List.mem_cons_of_mem _ hq)]
      rw [if_pos h6, if_neg (by omega), hrow.2 h1]
      simp only
      rw [h5]

theorem checkArray_error {raw : RawX} {e : Err} (h : checkArray raw = .error e) : e = .valueError := by
  cases raw with
  | nil => cases h; rfl
  | cons r rs =>
    rw [checkArray] at h
    split at h
    · split at h
      · cases h; rfl
      · split at h
        · rename_i e' h3
          cases h
          obtain ⟨q, -, h4⟩ := mapM_error_of h3
          obtain ⟨a, -, h5⟩ := mapM_error_of h4
          exact finite_error h5
        · cases h
    · cases h; rfl

theorem checkXY_ok {raw : RawX × List (Option ℚ)} {X : List (List ℚ)} {n : ℕ} {y : List ℤ} : checkXY raw = .ok ((X, n), y) ↔ Training raw X n y := by
  unfold Training checkXY
  constructor
  · intro h
    split at h
    · cases h
    · rename_i Y h1
      split at h
      · cases h
      · rename_i ys h2
        split at h
        · rename_i h3
          split at h
          · cases h
          · rename_i y' h4
            cases h
            have h2 := (mapM_inverse finite_ok).1 h2
            have h4 := (mapM_inverse label_ok).1 h4
            refine ⟨checkArray_ok.1 h1, ?_, ?_⟩
            · rw [h2, h4, List.map_map]; rfl
            · rw [← h3, h4, List.length_map]
        · cases h
  · rintro ⟨h1, h2, h3⟩
    have h4 : raw.2.mapM finite = .ok (y.map (fun (v : ℤ) => (v : ℚ))) := (mapM_inverse finite_ok).2 (by rw [h2, List.map_map]; rfl)
    rw [checkArray_ok.2 h1, h4]
    simp only
    rw [if_pos (by rw [List.length_map, h3]), (mapM_inverse label_ok).2 rfl]

theorem checkXY_error {raw : RawX × List (Option ℚ)} {e : Err} (h : checkXY raw = .error e) : e = .valueError := by
  unfold checkXY at h
  split at h
  · rename_i e' h1
    cases h
    exact checkArray_error h1
  · split at h
    · rename_i e' h1
      cases h
      obtain ⟨a, -, h2⟩ := mapM_error_of h1
      exact finite_error h2
    · split at h
      · split at h
        · rename_i e' h1
          cases h
          obtain ⟨a, -, h2⟩ := mapM_error_of h1
          exact label_error h2
        · cases h
      · cases h; rfl

/-- What `check_array` accepts is a matrix, and it raises nothing but `ValueError`. -/
theorem checkArray_cases (raw : RawX) : (∃ X n, Matrix raw X n ∧ checkArray raw = .ok (X, n)) ∨
    ((¬ ∃ X n, Matrix raw X n) ∧ checkArray raw = .error .valueError) := by
  cases h : checkArray raw with
  | ok r => exact Or.inl ⟨r.1, r.2, checkArray_ok.1 h, rfl⟩
  | error e =>
    refine Or.inr ⟨?_, by rw [checkArray_error h]⟩
    rintro ⟨X, n, h1⟩
    rw [checkArray_ok.2 h1] at h
    cases h

theorem checkXY_cases (raw : RawX × List (Option ℚ)) : (∃ X n y, Training raw X n y ∧ checkXY raw = .ok ((X, n), y)) ∨
    ((¬ ∃ X n y, Training raw X n y) ∧ checkXY raw = .error .valueError) := by
  cases h : checkXY raw with
  | ok r => exact Or.inl ⟨r.1.1, r.1.2, r.2, checkXY_ok.1 h, rfl⟩
  | error e =>
    refine Or.inr ⟨?_, by rw [checkXY_error h]⟩
    rintro ⟨X, n, y, h1⟩
    rw [checkXY_ok.2 h1] at h
    cases h

end Verif.Sk
