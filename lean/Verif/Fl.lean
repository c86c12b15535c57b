import Mathlib.Data.Int.Log
import Mathlib.Algebra.Order.Floor.Ring
import Mathlib.Data.Rat.Floor
import Mathlib.Algebra.Order.Field.Rat
import Mathlib.Tactic.Ring
import Mathlib.Tactic.Linarith
import Mathlib.Tactic.NormNum
import Mathlib.Tactic.Positivity
import Mathlib.Tactic.FieldSimp

/-!
# Rounded arithmetic

Binary floating point numbers with `p` bits and smallest exponent `emin` (binary64: `p = 53`, `emin = -1074`), as rational numbers. A `Rounding` is
any monotone function onto them that keeps them; `nearestEven` is the rounding of IEEE 754 (to nearest, ties to even). Overflow, infinities,
NaN and the sign of zero are not modelled.
-/

namespace Verif.Fl

/-- `x` is a floating point number: `m * 2 ^ e` with at most `p` bits (`|m| = 2 ^ p` is `2 ^ (p - 1)` with the next exponent). -/
def Rep (p : ℕ) (emin : ℤ) (x : ℚ) : Prop := ∃ m e : ℤ, |m| ≤ 2 ^ p ∧ emin ≤ e ∧ x = m * 2 ^ e

/-- A rounding: monotone, onto the floating point numbers, and it keeps them. -/
structure Rounding (p : ℕ) (emin : ℤ) where
  rnd : ℚ → ℚ
  rep : ∀ x, Rep p emin (rnd x)
  fix : ∀ x, Rep p emin x → rnd x = x
  mono : ∀ x y, x ≤ y → rnd x ≤ rnd y

/-- The error of a rounding is at most the relative error `u` plus `η` (underflow). -/
def Accurate (rnd : ℚ → ℚ) (u η : ℚ) : Prop := ∀ x, |rnd x - x| ≤ u * |x| + η

variable {p : ℕ} {emin : ℤ}

theorem two_zpow_pos (k : ℤ) : (0 : ℚ) < 2 ^ k := zpow_pos (by norm_num) k

theorem rep_zero : Rep p emin 0 := ⟨0, emin, by simp, le_refl _, by simp⟩

theorem Rep.neg {x : ℚ} (h : Rep p emin x) : Rep p emin (-x) := by
  obtain ⟨m, e, h1, h2, rfl⟩ := h
  exact ⟨-m, e, by rwa [abs_neg], h2, by push_cast; ring⟩

theorem rep_zpow {k : ℤ} (hk : emin ≤ k) : Rep p emin (2 ^ k) :=
  ⟨1, k, by rw [abs_one]; exact one_le_pow₀ (by norm_num), hk, by simp⟩

theorem rep_int (hemin : emin ≤ 0) {z : ℤ} (hz : |z| ≤ 2 ^ p) : Rep p emin (z : ℚ) := ⟨z, 0, hz, hemin, by simp⟩

/-- All floating point numbers are multiples of the smallest positive one. -/
theorem Rep.multiple {x : ℚ} (h : Rep p emin x) : ∃ z : ℤ, x = z * 2 ^ emin := by
  obtain ⟨m, e, -, he, rfl⟩ := h
  obtain ⟨n, hn⟩ := Int.eq_ofNat_of_zero_le (by omega : 0 ≤ e - emin)
  refine ⟨m * 2 ^ n, ?_⟩
  have : e = emin + n := by omega
  rw [this, zpow_add₀ (by norm_num)]
  push_cast
  rw [zpow_natCast]
  ring

theorem diff_ge {a b : ℚ} (ha : Rep p emin a) (hb : Rep p emin b) (h : b < a) : (2 : ℚ) ^ emin ≤ a - b := by
  obtain ⟨z, rfl⟩ := ha.multiple
  obtain ⟨w, rfl⟩ := hb.multiple
  have hp : (0 : ℚ) < 2 ^ emin := two_zpow_pos _
  have hw : (w : ℚ) < z := lt_of_mul_lt_mul_right h hp.le
  have hw' : w < z := by exact_mod_cast hw
  have : (1 : ℚ) ≤ z - w := by
    have : (1 : ℤ) ≤ z - w := by omega
    exact_mod_cast this
  nlinarith

namespace Rounding

variable (R : Rounding p emin)

theorem zero : R.rnd 0 = 0 := R.fix 0 rep_zero

theorem nonneg {x : ℚ} (h : 0 ≤ x) : 0 ≤ R.rnd x := by
  rw [← R.zero]; exact R.mono _ _ h

theorem nonpos {x : ℚ} (h : x ≤ 0) : R.rnd x ≤ 0 := by
  rw [← R.zero]; exact R.mono _ _ h

/-- The mirrored rounding. -/
def mirror : Rounding p emin where
  rnd x := -R.rnd (-x)
  rep x := (R.rep _).neg
  fix x h := by rw [R.fix _ h.neg, neg_neg]
  mono x y h := neg_le_neg (R.mono _ _ (neg_le_neg h))

/-- The update of a running mean does not overshoot: dividing the rounded difference by at least two and rounding again stays below the exact
difference. -/
theorem step_le {a b n : ℚ} (ha : Rep p emin a) (hb : Rep p emin b) (h : b ≤ a) (hn : 2 ≤ n) : R.rnd (R.rnd (a - b) / n) ≤ a - b := by
  rcases h.eq_or_lt with rfl | h
  · rw [sub_self, R.zero, zero_div, R.zero]
  have hd := diff_ge ha hb h
  have hpos : 0 < a - b := sub_pos.2 h
  set k := Int.log 2 (a - b) with hk
  have h1 : (2 : ℚ) ^ k ≤ a - b := Int.zpow_log_le_self (b := 2) (by norm_num) hpos
  have h2 : a - b < (2 : ℚ) ^ (k + 1) := Int.lt_zpow_succ_log_self (b := 2) (by norm_num) _
  have hkm : emin ≤ k := (Int.zpow_le_iff_le_log (b := 2) (by norm_num) hpos).1 hd
  have h3 : R.rnd (a - b) ≤ 2 ^ (k + 1) := by
    rw [← R.fix (2 ^ (k + 1)) (rep_zpow (by omega))]
    exact R.mono _ _ h2.le
  have h4 : R.rnd (a - b) / n ≤ 2 ^ k := by
    rw [div_le_iff₀ (by linarith)]
    have h5 : (2 : ℚ) ^ (k + 1) = 2 ^ k * 2 := by rw [zpow_add₀ (by norm_num), zpow_one]
    have : (0 : ℚ) < 2 ^ k := two_zpow_pos _
    nlinarith
  calc R.rnd (R.rnd (a - b) / n) ≤ R.rnd (2 ^ k) := R.mono _ _ h4
    _ = 2 ^ k := R.fix _ (rep_zpow hkm)
    _ ≤ a - b := h1

end Rounding

/-! ## The rounding of IEEE 754 -/

/-- To the nearest integer, ties to even. -/
def roundInt (q : ℚ) : ℤ :=
  if q - ⌊q⌋ < 1 / 2 then ⌊q⌋ else if 1 / 2 < q - ⌊q⌋ then ⌊q⌋ + 1 else if ⌊q⌋ % 2 = 0 then ⌊q⌋ else ⌊q⌋ + 1

theorem roundInt_cases (q : ℚ) : roundInt q = ⌊q⌋ ∨ roundInt q = ⌊q⌋ + 1 := by
  unfold roundInt
  split_ifs <;> simp

theorem roundInt_int (z : ℤ) : roundInt (z : ℚ) = z := by
  unfold roundInt
  rw [if_pos (by simp)]
  exact Int.floor_intCast z

theorem roundInt_mono {a b : ℚ} (h : a ≤ b) : roundInt a ≤ roundInt b := by
  have hf := Int.floor_mono h
  rcases hf.eq_or_lt with e | e
  · unfold roundInt
    rw [← e]
    split_ifs <;> first | omega | (exfalso; linarith)
  · have ha := roundInt_cases a
    have hb := roundInt_cases b
    omega

theorem roundInt_near (q : ℚ) : |(roundInt q : ℚ) - q| ≤ 1 / 2 := by
  have h1 := Int.floor_le q
  have h2 := Int.lt_floor_add_one q
  unfold roundInt
  rw [abs_le]
  split_ifs <;> push_cast <;> constructor <;> linarith

/-- The exponent used for a positive number. -/
def expo (p : ℕ) (emin : ℤ) (x : ℚ) : ℤ := max (Int.log 2 x - (p - 1)) emin

/-- Rounding of a non-negative number. -/
def roundPos (p : ℕ) (emin : ℤ) (x : ℚ) : ℚ := roundInt (x / 2 ^ expo p emin x) * 2 ^ expo p emin x

/-- Rounding to nearest, ties to even. -/
def roundEven (p : ℕ) (emin : ℤ) (x : ℚ) : ℚ := if x < 0 then -roundPos p emin (-x) else roundPos p emin x

theorem roundPos_zero : roundPos p emin 0 = 0 := by
  have : roundInt 0 = 0 := by simpa using roundInt_int 0
  simp [roundPos, this]

/-- Comparison with a multiple of the unit. -/
theorem roundPos_le {x : ℚ} {z : ℤ} (h : x ≤ z * 2 ^ expo p emin x) : roundPos p emin x ≤ z * 2 ^ expo p emin x := by
  have hp : (0 : ℚ) < 2 ^ expo p emin x := two_zpow_pos _
  unfold roundPos
  refine mul_le_mul_of_nonneg_right ?_ hp.le
  have : x / 2 ^ expo p emin x ≤ z := by rwa [div_le_iff₀ hp]
  have := roundInt_mono this
  rw [roundInt_int] at this
  exact_mod_cast this

theorem le_roundPos {x : ℚ} {z : ℤ} (h : z * 2 ^ expo p emin x ≤ x) : z * 2 ^ expo p emin x ≤ roundPos p emin x := by
  have hp : (0 : ℚ) < 2 ^ expo p emin x := two_zpow_pos _
  unfold roundPos
  refine mul_le_mul_of_nonneg_right ?_ hp.le
  have : (z : ℚ) ≤ x / 2 ^ expo p emin x := by rwa [le_div_iff₀ hp]
  have := roundInt_mono this
  rw [roundInt_int] at this
  exact_mod_cast this

theorem zpow_multiple {a b : ℤ} (h : a ≤ b) : ∃ z : ℤ, (2 : ℚ) ^ b = z * 2 ^ a := by
  obtain ⟨n, hn⟩ := Int.eq_ofNat_of_zero_le (by omega : 0 ≤ b - a)
  refine ⟨2 ^ n, ?_⟩
  have : b = n + a := by omega
  rw [this, zpow_add₀ (by norm_num), zpow_natCast]
  push_cast
  rfl

theorem roundPos_nonneg {x : ℚ} (h : 0 ≤ x) : 0 ≤ roundPos p emin x := by
  have := le_roundPos (p := p) (emin := emin) (x := x) (z := 0) (by simpa using h)
  simpa using this

theorem roundPos_rep {x : ℚ} (h : 0 ≤ x) : Rep p emin (roundPos p emin x) := by
  rcases h.eq_or_lt with rfl | h
  · rw [roundPos_zero]; exact rep_zero
  have h2 : x < (2 : ℚ) ^ (Int.log 2 x + 1) := Int.lt_zpow_succ_log_self (b := 2) (by norm_num) _
  refine ⟨roundInt (x / 2 ^ expo p emin x), expo p emin x, ?_, le_max_right _ _, rfl⟩
  have hp : (0 : ℚ) < 2 ^ expo p emin x := two_zpow_pos _
  have h0 : 0 ≤ roundInt (x / 2 ^ expo p emin x) := by
    have := roundInt_mono (a := ((0 : ℤ) : ℚ)) (b := x / 2 ^ expo p emin x) (by push_cast; exact div_nonneg h.le hp.le)
    rwa [roundInt_int] at this
  rw [abs_of_nonneg h0]
  have h3 : x / 2 ^ expo p emin x ≤ ((2 ^ p : ℤ) : ℚ) := by
    rw [div_le_iff₀ hp]
    push_cast
    rw [← zpow_natCast, ← zpow_add₀ (by norm_num)]
    refine h2.le.trans (zpow_le_zpow_right₀ (by norm_num) ?_)
    have : Int.log 2 x - (p - 1) ≤ expo p emin x := le_max_left _ _
    omega
  have := roundInt_mono h3
  rwa [roundInt_int] at this

theorem roundPos_fix (hp : 1 ≤ p) {x : ℚ} (h : 0 ≤ x) (hr : Rep p emin x) : roundPos p emin x = x := by
  rcases h.eq_or_lt with rfl | h
  · exact roundPos_zero
  have key : ∃ z : ℤ, x = z * 2 ^ expo p emin x := by
    rcases le_total (Int.log 2 x - (p - 1)) emin with hc | hc
    · obtain ⟨z, hz⟩ := hr.multiple
      exact ⟨z, by unfold expo; rw [max_eq_right hc]; exact hz⟩
    · have he : expo p emin x = Int.log 2 x - (p - 1) := max_eq_left hc
      obtain ⟨m, e, hm, he', hx⟩ := hr
      have h1 : (2 : ℚ) ^ Int.log 2 x ≤ x := Int.zpow_log_le_self (b := 2) (by norm_num) h
      by_cases hle : expo p emin x ≤ e
      · obtain ⟨z, hz⟩ := zpow_multiple hle
        refine ⟨m * z, ?_⟩
        push_cast
        rw [mul_assoc, ← hz]
        exact hx
      · -- the mantissa is the largest one
        have hpe : (0 : ℚ) < 2 ^ e := two_zpow_pos _
        have hmq : ((|m| : ℤ) : ℚ) ≤ 2 ^ p := by exact_mod_cast hm
        have hmle : (m : ℚ) ≤ 2 ^ p := le_trans (by exact_mod_cast le_abs_self m) hmq
        have hub : x ≤ 2 ^ ((p : ℤ) + e) := by
          rw [zpow_add₀ (by norm_num), zpow_natCast, hx]
          exact mul_le_mul_of_nonneg_right hmle hpe.le
        have hk : (p : ℤ) + e ≤ Int.log 2 x := by omega
        have hlb : (2 : ℚ) ^ ((p : ℤ) + e) ≤ x := le_trans (zpow_le_zpow_right₀ (by norm_num) hk) h1
        have hxe : x = 2 ^ ((p : ℤ) + e) := le_antisymm hub hlb
        have hlog : Int.log 2 x = (p : ℤ) + e := by
          rw [hxe]
          exact Int.log_zpow (b := 2) (by norm_num) _
        obtain ⟨z, hz⟩ := zpow_multiple (a := expo p emin x) (b := (p : ℤ) + e) (by omega)
        exact ⟨z, hxe.trans hz⟩
  obtain ⟨z, hz⟩ := key
  exact le_antisymm ((roundPos_le hz.le).trans hz.ge) (hz.le.trans (le_roundPos hz.ge))

theorem roundPos_mono (hp : 1 ≤ p) {x y : ℚ} (h0 : 0 ≤ x) (h : x ≤ y) : roundPos p emin x ≤ roundPos p emin y := by
  rcases h0.eq_or_lt with rfl | h0
  · rw [roundPos_zero]; exact roundPos_nonneg h
  have hl : Int.log 2 x ≤ Int.log 2 y := Int.log_mono_right h0 h
  have he : expo p emin x ≤ expo p emin y := max_le_max (by omega) le_rfl
  rcases he.eq_or_lt with he | he
  · unfold roundPos
    rw [← he]
    have hpos : (0 : ℚ) < 2 ^ expo p emin x := two_zpow_pos _
    refine mul_le_mul_of_nonneg_right ?_ hpos.le
    exact_mod_cast roundInt_mono (div_le_div_of_nonneg_right h hpos.le)
  · have hy : expo p emin y = Int.log 2 y - (p - 1) := by
      unfold expo at he ⊢
      omega
    have hlt : Int.log 2 x < Int.log 2 y := by
      unfold expo at he
      omega
    have h2 : x < (2 : ℚ) ^ (Int.log 2 x + 1) := Int.lt_zpow_succ_log_self (b := 2) (by norm_num) _
    have h3 : x ≤ (2 : ℚ) ^ Int.log 2 y := h2.le.trans (zpow_le_zpow_right₀ (by norm_num) (by omega))
    have h4 : (2 : ℚ) ^ Int.log 2 y ≤ y := Int.zpow_log_le_self (b := 2) (by norm_num) (lt_of_lt_of_le h0 h)
    obtain ⟨z, hz⟩ := zpow_multiple (a := expo p emin x) (b := Int.log 2 y) (by omega)
    obtain ⟨w, hw⟩ := zpow_multiple (a := expo p emin y) (b := Int.log 2 y) (by omega)
    calc roundPos p emin x ≤ z * 2 ^ expo p emin x := roundPos_le (by rw [← hz]; exact h3)
      _ = w * 2 ^ expo p emin y := by rw [← hz, hw]
      _ ≤ roundPos p emin y := le_roundPos (by rw [← hw]; exact h4)

theorem roundPos_near {x : ℚ} (h : 0 ≤ x) : |roundPos p emin x - x| ≤ x * 2 ^ (-(p : ℤ)) + 2 ^ (emin - 1) := by
  rcases h.eq_or_lt with rfl | h
  · rw [roundPos_zero]
    simp only [sub_zero, abs_zero, zero_mul, zero_add]
    exact (two_zpow_pos _).le
  have hpos : (0 : ℚ) < 2 ^ expo p emin x := two_zpow_pos _
  have e1 : roundPos p emin x - x = (roundInt (x / 2 ^ expo p emin x) - x / 2 ^ expo p emin x) * 2 ^ expo p emin x := by
    unfold roundPos
    field_simp
  rw [e1, abs_mul, abs_of_pos hpos]
  have h1 := roundInt_near (x / 2 ^ expo p emin x)
  have h2 : |(roundInt (x / 2 ^ expo p emin x) : ℚ) - x / 2 ^ expo p emin x| * 2 ^ expo p emin x ≤ 2 ^ (expo p emin x - 1) := by
    rw [zpow_sub₀ (by norm_num), zpow_one]
    have := mul_le_mul_of_nonneg_right h1 hpos.le
    linarith
  refine h2.trans ?_
  have h3 : (2 : ℚ) ^ Int.log 2 x ≤ x := Int.zpow_log_le_self (b := 2) (by norm_num) h
  rcases le_total (Int.log 2 x - (p - 1)) emin with hc | hc
  · have he : expo p emin x = emin := max_eq_right hc
    rw [he]
    have : 0 ≤ x * 2 ^ (-(p : ℤ)) := mul_nonneg h.le (two_zpow_pos _).le
    linarith
  · have he : expo p emin x - 1 = Int.log 2 x + -(p : ℤ) := by
      have : expo p emin x = Int.log 2 x - (p - 1) := max_eq_left hc
      omega
    rw [he, zpow_add₀ (by norm_num)]
    have h4 : (0 : ℚ) < 2 ^ (-(p : ℤ)) := two_zpow_pos _
    have h5 : (0 : ℚ) < 2 ^ (emin - 1) := two_zpow_pos _
    nlinarith

/-- Rounding to nearest with ties to even is a rounding. -/
def nearestEven (p : ℕ) (emin : ℤ) (hp : 1 ≤ p) : Rounding p emin where
  rnd := roundEven p emin
  rep x := by
    unfold roundEven
    split_ifs with h
    · exact (roundPos_rep (by linarith)).neg
    · exact roundPos_rep (not_lt.1 h)
  fix x hx := by
    unfold roundEven
    split_ifs with h
    · rw [roundPos_fix hp (by linarith) hx.neg, neg_neg]
    · exact roundPos_fix hp (not_lt.1 h) hx
  mono x y h := by
    unfold roundEven
    split_ifs with h1 h2 h2
    · exact neg_le_neg (roundPos_mono hp (by linarith) (by linarith))
    · have := roundPos_nonneg (p := p) (emin := emin) (x := -x) (by linarith)
      have := roundPos_nonneg (p := p) (emin := emin) (x := y) (not_lt.1 h2)
      linarith
    · exact absurd (lt_of_le_of_lt h h2) h1
    · exact roundPos_mono hp (not_lt.1 h1) h

/-- Its error is at most half a unit in the last place. -/
theorem nearestEven_accurate (p : ℕ) (emin : ℤ) (hp : 1 ≤ p) :
    Accurate (nearestEven p emin hp).rnd (2 ^ (-(p : ℤ))) (2 ^ (emin - 1)) := by
  intro x
  change |roundEven p emin x - x| ≤ _
  unfold roundEven
  split_ifs with h
  · have := roundPos_near (p := p) (emin := emin) (x := -x) (by linarith)
    rw [abs_of_neg h]
    have e : -roundPos p emin (-x) - x = -(roundPos p emin (-x) - -x) := by ring
    rw [e, abs_neg]
    linarith
  · rw [abs_of_nonneg (not_lt.1 h)]
    have := roundPos_near (p := p) (emin := emin) (x := x) (not_lt.1 h)
    linarith

/-- The rounding of Python's floats (IEEE 754 binary64). -/
def binary64 : Rounding 53 (-1074) := nearestEven 53 (-1074) (by norm_num)

end Verif.Fl
