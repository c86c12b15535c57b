import Mathlib.Data.List.Sort
import Mathlib.Data.List.Dedup
import Mathlib.Order.Basic
import Verif.Py

/-!
# The parts of scikit-learn whose behaviour matters

`unique_labels` and `LabelEncoder` (used in `_col_gen_classifier.py:349-358`, `_bdr_classifier.py:703`,
`_dtree_classifier.py:2545`). Labels are integers (any linearly ordered type would do).
-/

namespace Verif.Sk

/-- `sklearn.utils.multiclass.unique_labels(y)` and `LabelEncoder.fit(y).classes_`: the sorted distinct labels. -/
def uniqueLabels (y : List ℤ) : List ℤ := y.dedup.insertionSort (· ≤ ·)

/-- `LabelEncoder.fit_transform(y)` given the fitted classes: position of each label in the sorted distinct labels. -/
def transform (classes : List ℤ) (y : List ℤ) : List ℕ := y.map (fun v => classes.idxOf v)

/-- One entry of `LabelEncoder.inverse_transform`: codes outside `0..len(classes)-1` raise `ValueError`
("y contains previously unseen labels"). -/
def inverseOne (classes : List ℤ) (c : ℤ) : Except Err ℤ :=
  if 0 ≤ c then
    match classes[c.toNat]? with
    | some v => .ok v
    | none => .error .valueError
  else .error .valueError

/-- `LabelEncoder.inverse_transform(codes)`. -/
def inverseTransform (classes : List ℤ) (codes : List ℤ) : Except Err (List ℤ) := codes.mapM (inverseOne classes)

theorem mem_uniqueLabels (y : List ℤ) (v : ℤ) : v ∈ uniqueLabels y ↔ v ∈ y := by
  simp [uniqueLabels]

theorem nodup_uniqueLabels (y : List ℤ) : (uniqueLabels y).Nodup := by
  unfold uniqueLabels
  exact (List.perm_insertionSort _ _).nodup_iff.2 (List.nodup_dedup y)

theorem inverse_transform_one (y : List ℤ) (v : ℤ) (hv : v ∈ y) :
    inverseOne (uniqueLabels y) (((uniqueLabels y).idxOf v : ℕ) : ℤ) = .ok v := by
  have hm : v ∈ uniqueLabels y := (mem_uniqueLabels y v).2 hv
  have hl := List.idxOf_lt_length_of_mem hm
  simp [inverseOne, List.getElem?_eq_getElem hl]

theorem sorted_uniqueLabels (y : List ℤ) : (uniqueLabels y).Pairwise (· < ·) := by
  have h1 : (uniqueLabels y).Pairwise (fun a b => a ≤ b) := List.pairwise_insertionSort _ _
  have h2 : (uniqueLabels y).Pairwise (fun a b => a ≠ b) := nodup_uniqueLabels y
  exact (h1.and h2).imp (fun h => lt_of_le_of_ne h.1 h.2)

theorem idxOf_lt_iff (y : List ℤ) {a b : ℤ} (ha : a ∈ y) (hb : b ∈ y) :
    (uniqueLabels y).idxOf a < (uniqueLabels y).idxOf b ↔ a < b := by
  have hs := sorted_uniqueLabels y
  have hla := List.idxOf_lt_length_of_mem ((mem_uniqueLabels y a).2 ha)
  have hlb := List.idxOf_lt_length_of_mem ((mem_uniqueLabels y b).2 hb)
  have hga : (uniqueLabels y)[(uniqueLabels y).idxOf a] = a := List.getElem_idxOf hla
  have hgb : (uniqueLabels y)[(uniqueLabels y).idxOf b] = b := List.getElem_idxOf hlb
  rw [List.pairwise_iff_getElem] at hs
  constructor
  · intro h
    have := hs _ _ hla hlb h
    rwa [hga, hgb] at this
  · intro h
    rcases lt_trichotomy ((uniqueLabels y).idxOf a) ((uniqueLabels y).idxOf b) with h1 | h1 | h1
    · exact h1
    · exfalso
      have : a = b := by rw [← hga, ← hgb]; congr 1
      omega
    · have := hs _ _ hlb hla h1
      rw [hga, hgb] at this
      omega

end Verif.Sk
