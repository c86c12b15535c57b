import Verif.Fit.ScoreProps
import Verif.Fl

/-!
# Property C151: `score` as a float

`accuracy_score` counts the right answers exactly (a sum of zeros and ones below `2 ^ 53`) and divides once; the quotient is rounded to a float. What the rounded score still says
about the answers.
-/

namespace Verif.Sk

open Fl

/-- `ClassifierMixin.score(X, y)` (inherited at `_col_gen_classifier.py:251`) with a rounded quotient. No rows (`nan` and a warning, or refused by `predict`) are not considered. -/
def scoreF (R : Rounding 53 (-1074)) (predict : List (List ℚ) → Except Err (List ℤ)) (X : List (List ℚ)) (y : List ℤ) : Except Err ℚ :=
  match predict X with
  | .error e => .error e
  | .ok ys => if y.length = ys.length then .ok (R.rnd (((y.zip ys).countP (fun q => decide (q.1 = q.2)) : ℕ) / (y.length : ℚ))) else .error .valueError

end Verif.Sk

namespace Verif.Point

open Spec Fl

variable {R : Rounding 53 (-1074)} {f g : List (List ℚ) → Except Err (List ℤ)} {X Z : List (List ℚ)} {y z : List ℤ} {a b : ℚ}

theorem scoreF_ok (h : Pointwise f) (hl : y.length = X.length) (ha : Sk.scoreF R f X y = .ok a) :
    ∃ ys, f X = .ok ys ∧ Sk.score f X y = .ok ((rightRows f (X.zip y) : ℚ) / X.length) ∧ a = R.rnd ((rightRows f (X.zip y) : ℚ) / X.length) := by
  unfold Sk.scoreF at ha
  cases hf : f X with
  | error e => rw [hf] at ha; cases ha
  | ok ys =>
    rw [hf] at ha
    simp only at ha
    have h1 := (C137_score h hl).1 ys hf
    refine ⟨ys, rfl, h1, ?_⟩
    unfold Sk.score at h1
    rw [hf] at h1
    simp only at h1
    split at ha
    · rename_i hy
      rw [if_pos hy] at h1
      injection h1 with h1
      rw [h1] at ha
      injection ha with ha
      exact ha.symm
    · cases ha

theorem rightRows_le_length (hl : y.length = X.length) : rightRows f (X.zip y) ≤ X.length := by
  have hlen : (X.zip y).length = X.length := by rw [List.length_zip, hl, min_self]
  rw [← hlen]
  exact List.countP_le_length

/-- Multiples of `2 ^ -53` between 0 and 1 are floats. -/
theorem rep_grid {k : ℤ} (h0 : 0 ≤ k) (h1 : k ≤ 2 ^ 53) : Rep 53 (-1074) ((k : ℚ) / 2 ^ 53) := by
  refine ⟨k, -53, by rwa [abs_of_nonneg h0], by norm_num, ?_⟩
  rw [zpow_neg, div_eq_mul_inv]
  rfl

/-- Two numbers between 0 and 1 with a distance of at least `2 ^ -52` stay different. -/
theorem rnd_lt {u v : ℚ} (h0 : 0 ≤ u) (h1 : v ≤ 1) (h : u + 1 / 2 ^ 52 ≤ v) : R.rnd u < R.rnd v := by
  have hk0 : 0 ≤ ⌈u * 2 ^ 53⌉ := Int.ceil_nonneg (by positivity)
  have hk1 := Int.le_ceil (u * 2 ^ 53)
  have hk2 := Int.ceil_lt_add_one (u * 2 ^ 53)
  have hk3 : ((⌈u * 2 ^ 53⌉ : ℤ) : ℚ) + 1 ≤ v * 2 ^ 53 := by
    have : (1 : ℚ) / 2 ^ 52 * 2 ^ 53 = 2 := by norm_num
    nlinarith
  have hk4 : ⌈u * 2 ^ 53⌉ + 1 ≤ 2 ^ 53 := by
    have : ((⌈u * 2 ^ 53⌉ : ℤ) : ℚ) + 1 ≤ 2 ^ 53 := by linarith
    exact_mod_cast this
  have e1 : R.rnd u ≤ (⌈u * 2 ^ 53⌉ : ℚ) / 2 ^ 53 := by
    rw [← R.fix _ (rep_grid hk0 (by omega))]
    refine R.mono _ _ ?_
    rw [le_div_iff₀ (by positivity)]
    exact hk1
  have e2 : ((⌈u * 2 ^ 53⌉ + 1 : ℤ) : ℚ) / 2 ^ 53 ≤ R.rnd v := by
    rw [← R.fix _ (rep_grid (by omega) hk4)]
    refine R.mono _ _ ?_
    rw [div_le_iff₀ (by positivity)]
    push_cast
    exact hk3
  refine lt_of_le_of_lt e1 (lt_of_lt_of_le ?_ e2)
  rw [div_lt_div_iff_of_pos_right (by positivity)]
  push_cast
  linarith

/-- The error of rounding a number between 0 and 1. -/
theorem rnd_near {u : ℚ} (h0 : 0 ≤ u) (h1 : u ≤ 1) : |R.rnd u - u| ≤ 1 / 2 ^ 53 := by
  have hu : u * 2 ^ 53 ≤ 2 ^ 53 := by nlinarith
  have hf0 : 0 ≤ ⌊u * 2 ^ 53⌋ := Int.floor_nonneg.2 (by positivity)
  have hf1 := Int.floor_le (u * 2 ^ 53)
  have hf2 := Int.lt_floor_add_one (u * 2 ^ 53)
  have hf3 : ⌊u * 2 ^ 53⌋ ≤ 2 ^ 53 := by
    have : ((⌊u * 2 ^ 53⌋ : ℤ) : ℚ) ≤ 2 ^ 53 := by linarith
    exact_mod_cast this
  have hc1 := Int.le_ceil (u * 2 ^ 53)
  have hc2 := Int.ceil_lt_add_one (u * 2 ^ 53)
  have hc0 : 0 ≤ ⌈u * 2 ^ 53⌉ := Int.ceil_nonneg (by positivity)
  have hc3 : ⌈u * 2 ^ 53⌉ ≤ 2 ^ 53 := Int.ceil_le.2 (by push_cast; exact hu)
  have e1 : (⌊u * 2 ^ 53⌋ : ℚ) / 2 ^ 53 ≤ R.rnd u := by
    rw [← R.fix _ (rep_grid hf0 hf3)]
    refine R.mono _ _ ?_
    rw [div_le_iff₀ (by positivity)]
    exact hf1
  have e2 : R.rnd u ≤ (⌈u * 2 ^ 53⌉ : ℚ) / 2 ^ 53 := by
    rw [← R.fix _ (rep_grid hc0 hc3)]
    refine R.mono _ _ ?_
    rw [le_div_iff₀ (by positivity)]
    exact hc1
  rw [div_le_iff₀ (by positivity)] at e1
  rw [le_div_iff₀ (by positivity)] at e2
  rw [abs_le]
  constructor
  · rw [← sub_nonneg]
    have : 0 ≤ (R.rnd u - u - -(1 / 2 ^ 53)) * 2 ^ 53 := by
      have : (1 : ℚ) / 2 ^ 53 * 2 ^ 53 = 1 := by norm_num
      nlinarith
    exact nonneg_of_mul_nonneg_left this (by positivity)
  · rw [← sub_nonneg]
    have : 0 ≤ (1 / 2 ^ 53 - (R.rnd u - u)) * 2 ^ 53 := by
      have : (1 : ℚ) / 2 ^ 53 * 2 ^ 53 = 1 := by norm_num
      nlinarith
    exact nonneg_of_mul_nonneg_left this (by positivity)

/-- **C151** (not worse stays not worse). For any number of rows, a method with at least as many right answers has at least the same rounded score. The score lies between 0 and 1,
and methods that are always right get 1. -/
theorem C151_monotone (hf : Pointwise f) (hg : Pointwise g) (hl : y.length = X.length) (hl' : z.length = Z.length) (hn : X.length = Z.length)
    (ha : Sk.scoreF R f X y = .ok a) (hb : Sk.scoreF R g Z z = .ok b) :
    (rightRows f (X.zip y) ≤ rightRows g (Z.zip z) → a ≤ b) ∧ 0 ≤ a ∧ a ≤ 1 := by
  obtain ⟨ys, hys, -, rfl⟩ := scoreF_ok hf hl ha
  obtain ⟨zs, hzs, -, rfl⟩ := scoreF_ok hg hl' hb
  refine ⟨fun h => ?_, R.nonneg (by positivity), ?_⟩
  · rw [hn]
    exact R.mono _ _ (div_le_div_of_nonneg_right (by exact_mod_cast h) (by positivity))
  · have h1 : R.rnd 1 = 1 := by
      have := R.fix _ (rep_grid (k := 2 ^ 53) (by norm_num) le_rfl)
      norm_num at this
      exact this
    rw [← h1]
    refine R.mono _ _ (div_le_one_of_le₀ ?_ (by positivity))
    exact_mod_cast rightRows_le_length hl

/-- **C151** (the order of scores). Up to `2 ^ 52` rows the rounded scores of two methods on the same number of rows are in the order of the numbers of right answers. -/
theorem C151_order (hf : Pointwise f) (hg : Pointwise g) (hl : y.length = X.length) (hl' : z.length = Z.length) (hn : X.length = Z.length)
    (hX : X.length ≤ 2 ^ 52) (ha : Sk.scoreF R f X y = .ok a) (hb : Sk.scoreF R g Z z = .ok b) :
    a ≤ b ↔ rightRows f (X.zip y) ≤ rightRows g (Z.zip z) := by
  refine ⟨fun h => ?_, (C151_monotone hf hg hl hl' hn ha hb).1⟩
  by_contra hlt
  obtain ⟨ys, hys, -, rfl⟩ := scoreF_ok hf hl ha
  obtain ⟨zs, hzs, -, rfl⟩ := scoreF_ok hg hl' hb
  have hr := rightRows_le_length (f := f) hl
  have hpos : (0 : ℚ) < X.length := by exact_mod_cast (by omega : 0 < X.length)
  have hX' : (X.length : ℚ) ≤ 2 ^ 52 := by exact_mod_cast hX
  rw [← hn] at h
  refine absurd h (not_le.2 (rnd_lt (by positivity) (div_le_one_of_le₀ (by exact_mod_cast hr) hpos.le) ?_))
  have h1 : ((rightRows g (Z.zip z) : ℚ) + 1) / X.length ≤ (rightRows f (X.zip y) : ℚ) / X.length :=
    div_le_div_of_nonneg_right (by exact_mod_cast (by omega : rightRows g (Z.zip z) + 1 ≤ rightRows f (X.zip y))) hpos.le
  have h2 : (1 : ℚ) / 2 ^ 52 ≤ 1 / X.length := one_div_le_one_div_of_le hpos hX'
  rw [add_div] at h1
  linarith

/-- **C151** (1.0 means no error). Up to `2 ^ 53` rows the rounded score is 1 exactly if `predict` returns the labels. -/
theorem C151_one (hf : Pointwise f) (hl : y.length = X.length) (h0 : X ≠ []) (hX : X.length ≤ 2 ^ 53) (ha : Sk.scoreF R f X y = .ok a) : a = 1 ↔ f X = .ok y := by
  obtain ⟨ys, hys, hs, rfl⟩ := scoreF_ok hf hl ha
  have hc := (C137_range hf hl h0 hs).2.2
  have hr := rightRows_le_length (f := f) hl
  have hpos : (0 : ℚ) < X.length := by exact_mod_cast List.length_pos_iff.2 h0
  rw [← hc]
  have h1 : R.rnd 1 = 1 := by
    have := R.fix _ (rep_grid (k := 2 ^ 53) (by norm_num) le_rfl)
    norm_num at this
    exact this
  refine ⟨fun h => ?_, fun h => by rw [h, h1]⟩
  by_contra hne
  have hlt : rightRows f (X.zip y) + 1 ≤ X.length := by
    rcases Nat.lt_or_ge (rightRows f (X.zip y)) X.length with h2 | h2
    · exact h2
    · exact absurd (by rw [le_antisymm hr h2]; exact div_self (ne_of_gt hpos)) hne
  have h2 : (rightRows f (X.zip y) : ℚ) / X.length ≤ ((2 ^ 53 - 1 : ℤ) : ℚ) / 2 ^ 53 := by
    have hX' : (X.length : ℚ) ≤ 2 ^ 53 := by exact_mod_cast hX
    have hlt' : (rightRows f (X.zip y) : ℚ) + 1 ≤ X.length := by exact_mod_cast hlt
    rw [div_le_div_iff₀ hpos (by positivity)]
    push_cast
    nlinarith
  have h3 := R.mono _ _ h2
  rw [R.fix _ (rep_grid (by norm_num) (by norm_num)), h] at h3
  norm_num at h3

/-- **C151** (the number of right answers). Up to `2 ^ 51` rows the number of right answers is the integer next to the number of rows times the rounded score. -/
theorem C151_count (hf : Pointwise f) (hl : y.length = X.length) (h0 : X ≠ []) (hX : X.length ≤ 2 ^ 51) (ha : Sk.scoreF R f X y = .ok a) :
    |(X.length : ℚ) * a - rightRows f (X.zip y)| ≤ 1 / 4 := by
  obtain ⟨ys, hys, -, rfl⟩ := scoreF_ok hf hl ha
  have hr := rightRows_le_length (f := f) hl
  have hpos : (0 : ℚ) < X.length := by exact_mod_cast List.length_pos_iff.2 h0
  have hX' : (X.length : ℚ) ≤ 2 ^ 51 := by exact_mod_cast hX
  have h1 := rnd_near (R := R) (u := (rightRows f (X.zip y) : ℚ) / X.length) (by positivity) (div_le_one_of_le₀ (by exact_mod_cast hr) hpos.le)
  set q : ℚ := (rightRows f (X.zip y) : ℚ) / X.length with hq
  have h2 : (rightRows f (X.zip y) : ℚ) = X.length * q := by rw [hq, mul_div_cancel₀ _ (ne_of_gt hpos)]
  rw [h2, ← mul_sub, abs_mul, abs_of_pos hpos]
  calc (X.length : ℚ) * |R.rnd q - q| ≤ 2 ^ 51 * (1 / 2 ^ 53) := mul_le_mul hX' h1 (abs_nonneg _) (by positivity)
    _ = 1 / 4 := by norm_num

/-! ## Examples -/

namespace FloatScoreDemo

/-- A method that answers 0 to every row. -/
def zeros (X : List (List ℚ)) : Except Err (List ℤ) := .ok (X.map fun _ => 0)

theorem zeros_pointwise : Pointwise zeros := by
  intro X ys
  induction X generalizing ys with
  | nil => cases ys with
    | nil => exact ⟨fun _ => .nil, fun _ => rfl⟩
    | cons _ _ => exact ⟨fun h => (by cases h), fun h => (by cases h)⟩
  | cons x X ih =>
    cases ys with
    | nil => exact ⟨fun h => (by cases h), fun h => (by cases h)⟩
    | cons v ys =>
      rw [List.forall₂_cons, ← ih]
      unfold zeros
      simp

/-- Three rows with one error: Python's score is not 2/3, but a float next to it, from which 2 can be recovered. -/
example : ∃ a, Sk.scoreF binary64 zeros [[0], [1], [2]] [0, 0, 1] = .ok a ∧ a ≠ 2 / 3 ∧ |((3 : ℕ) : ℚ) * a - (2 : ℕ)| ≤ 1 / 4 := by
  refine ⟨binary64.rnd (2 / 3), by decide +kernel, by decide +kernel, ?_⟩
  exact C151_count (R := binary64) (f := zeros) (X := [[0], [1], [2]]) (y := [0, 0, 1]) zeros_pointwise rfl (by simp) (by norm_num) (by decide +kernel)

theorem one_wrong {N : ℕ} (hN0 : 0 < N) (hr : binary64.rnd (((N - 1 : ℕ) : ℚ) / (N : ℚ)) = 1) :
    ∃ (X : List (List ℚ)) (y : List ℤ), X.length = N ∧ y.length = X.length ∧ Sk.scoreF binary64 zeros X y = .ok 1 ∧ zeros X ≠ .ok y := by
  refine ⟨List.replicate N [0], 1 :: List.replicate (N - 1) 0, List.length_replicate, by simp; omega, ?_, ?_⟩
  · have hc : ((1 :: List.replicate (N - 1) (0 : ℤ)).zip ((List.replicate N [(0 : ℚ)]).map fun _ => (0 : ℤ))).countP (fun q => decide (q.1 = q.2)) = N - 1 := by
      obtain ⟨m, rfl⟩ : ∃ m, N = m + 1 := ⟨N - 1, by omega⟩
      rw [List.map_replicate, List.replicate_succ, List.zip_cons_cons, List.countP_cons_of_neg (by decide), Nat.add_sub_cancel, List.zip_replicate', List.countP_replicate,
        if_pos (by decide)]
    have hlen : (1 :: List.replicate (N - 1) (0 : ℤ)).length = N := by simp; omega
    unfold Sk.scoreF zeros
    simp only
    rw [if_pos (by rw [hlen]; simp), hc, hlen, hr]
  · intro h
    obtain ⟨m, rfl⟩ : ∃ m, N = m + 1 := ⟨N - 1, by omega⟩
    unfold zeros at h
    rw [List.map_replicate, List.replicate_succ] at h
    injection h with h
    injection h with h
    exact absurd h (by decide)

/-- With `2 ^ 54` rows Python's score is 1 although one answer is wrong: the bound in `C151_one` is needed. -/
theorem C151_big : ∃ (X : List (List ℚ)) (y : List ℤ), X.length = 2 ^ 54 ∧ y.length = X.length ∧ Sk.scoreF binary64 zeros X y = .ok 1 ∧ zeros X ≠ .ok y :=
  one_wrong (by norm_num) (by decide +kernel)

end FloatScoreDemo

end Verif.Point
