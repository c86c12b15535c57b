import Verif.Fl

/-!
# Rounding to nearest

No floating point number is closer to a number than the one it is rounded to. Consequences for midpoints, and the fact that a double lies strictly
between the midpoint of two different single precision numbers and the larger one.
-/

namespace Verif.Fl

variable {p : ℕ} {emin : ℤ}

/-- No floating point number is closer. -/
def Nearest (R : Rounding p emin) : Prop := ∀ x c, Rep p emin c → |R.rnd x - x| ≤ |c - x|

theorem roundInt_nearest (q : ℚ) (z : ℤ) : |(roundInt q : ℚ) - q| ≤ |(z : ℚ) - q| := by
  have h1 := Int.floor_le q
  have h2 := Int.lt_floor_add_one q
  rcases le_or_gt z ⌊q⌋ with h | h
  · have hz : (z : ℚ) ≤ ⌊q⌋ := by exact_mod_cast h
    rw [abs_of_nonpos (by linarith : (z : ℚ) - q ≤ 0), abs_le]
    unfold roundInt
    split_ifs <;> push_cast <;> constructor <;> linarith
  · have hz : (⌊q⌋ : ℚ) + 1 ≤ z := by exact_mod_cast h
    rw [abs_of_nonneg (by linarith : 0 ≤ (z : ℚ) - q), abs_le]
    unfold roundInt
    split_ifs <;> push_cast <;> constructor <;> linarith

theorem roundPos_multiple (x : ℚ) (z : ℤ) : |roundPos p emin x - x| ≤ |z * 2 ^ expo p emin x - x| := by
  have hpos : (0 : ℚ) < 2 ^ expo p emin x := two_zpow_pos _
  have e1 : roundPos p emin x - x = (roundInt (x / 2 ^ expo p emin x) - x / 2 ^ expo p emin x) * 2 ^ expo p emin x := by
    unfold roundPos
    field_simp
  have e2 : (z : ℚ) * 2 ^ expo p emin x - x = (z - x / 2 ^ expo p emin x) * 2 ^ expo p emin x := by field_simp
  rw [e1, e2, abs_mul, abs_mul]
  exact mul_le_mul_of_nonneg_right (roundInt_nearest _ _) (abs_nonneg _)

theorem roundPos_nearest (hp : 1 ≤ p) {x c : ℚ} (h : 0 ≤ x) (hc : Rep p emin c) : |roundPos p emin x - x| ≤ |c - x| := by
  rcases h.eq_or_lt with rfl | h
  · rw [roundPos_zero]; simp
  obtain ⟨m, e, hm, he, rfl⟩ := hc
  by_cases hle : expo p emin x ≤ e
  · obtain ⟨z, hz⟩ := zpow_multiple hle
    have := roundPos_multiple (p := p) (emin := emin) x (m * z)
    push_cast at this
    rwa [mul_assoc, ← hz] at this
  · have hk : expo p emin x = Int.log 2 x - (p - 1) := by
      unfold expo at hle ⊢
      omega
    have h3 : (2 : ℚ) ^ Int.log 2 x ≤ x := Int.zpow_log_le_self (b := 2) (by norm_num) h
    have hpe : (0 : ℚ) < 2 ^ e := two_zpow_pos _
    have hmle : (m : ℚ) ≤ 2 ^ p := by exact_mod_cast (le_abs_self m).trans hm
    have h4 : (m : ℚ) * 2 ^ e ≤ 2 ^ Int.log 2 x := by
      have h5 : (m : ℚ) * 2 ^ e ≤ 2 ^ ((p : ℤ) + e) := by
        rw [zpow_add₀ (by norm_num), zpow_natCast]
        exact mul_le_mul_of_nonneg_right hmle hpe.le
      exact h5.trans (zpow_le_zpow_right₀ (by norm_num) (by omega))
    obtain ⟨z, hz⟩ := zpow_multiple (a := expo p emin x) (b := Int.log 2 x) (by omega)
    have h5 := roundPos_multiple (p := p) (emin := emin) x z
    rw [← hz] at h5
    refine h5.trans ?_
    rw [abs_of_nonpos (by linarith), abs_of_nonpos (by linarith)]
    linarith

/-- The rounding of IEEE 754 is to nearest. -/
theorem nearestEven_nearest (hp : 1 ≤ p) : Nearest (nearestEven p emin hp) := by
  intro x c hc
  change |roundEven p emin x - x| ≤ _
  unfold roundEven
  split_ifs with h
  · have := roundPos_nearest (x := -x) hp (by linarith) hc.neg
    rw [show -roundPos p emin (-x) - x = -(roundPos p emin (-x) - -x) by ring, abs_neg,
      show c - x = -(-c - -x) by ring, abs_neg]
    exact this
  · exact roundPos_nearest hp (not_lt.1 h) hc

variable {R : Rounding p emin}

theorem Nearest.le_mid (hR : Nearest R) {x a c : ℚ} (hc : Rep p emin c) (h : R.rnd x ≤ a) (hac : a < c) : x ≤ (a + c) / 2 := by
  by_contra hx
  push Not at hx
  rcases le_or_gt x c with h1 | h1
  · have := hR x c hc
    rw [abs_of_nonneg (by linarith : 0 ≤ c - x), abs_of_nonpos (by linarith)] at this
    linarith
  · have := R.mono c x h1.le
    rw [R.fix c hc] at this
    linarith

theorem Nearest.mid_le (hR : Nearest R) {x b c : ℚ} (hc : Rep p emin c) (h : b ≤ R.rnd x) (hcb : c < b) : (c + b) / 2 ≤ x := by
  by_contra hx
  push Not at hx
  rcases le_or_gt c x with h1 | h1
  · have := hR x c hc
    rw [abs_of_nonpos (by linarith : c - x ≤ 0), abs_of_nonneg (by linarith)] at this
    linarith
  · have := R.mono x c h1.le
    rw [R.fix c hc] at this
    linarith

/-! ## Single and double precision -/

/-- Single precision (without overflow). -/
abbrev Single (x : ℚ) : Prop := Rep 24 (-149) x

/-- Double precision (without overflow). -/
abbrev Double (x : ℚ) : Prop := Rep 53 (-1074) x

theorem Single.double {x : ℚ} (h : Single x) : Double x := by
  obtain ⟨m, e, h1, h2, rfl⟩ := h
  exact ⟨m, e, h1.trans (by norm_num), by omega, rfl⟩

/-- There is room for a double between the midpoint of two single precision numbers and the larger of them. -/
theorem double_between {a b : ℚ} (ha : Single a) (hb : Single b) (hab : a < b) : ∃ z, Double z ∧ (a + b) / 2 ≤ z ∧ z < b := by
  have key : ∀ n f : ℤ, |n| ≤ 2 ^ 24 → -149 ≤ f → b = n * 2 ^ f → (2 : ℚ) ^ (f - 27) ≤ b - a → ∃ z, Double z ∧ (a + b) / 2 ≤ z ∧ z < b := by
    intro n f hn hf hbf hd
    have hp : (0 : ℚ) < 2 ^ (f - 28) := two_zpow_pos _
    have e1 : (2 : ℚ) ^ (f - 27) = 2 * 2 ^ (f - 28) := by
      rw [show f - 27 = 1 + (f - 28) by ring, zpow_add₀ (by norm_num), zpow_one]
    refine ⟨b - 2 ^ (f - 28), ⟨n * 2 ^ 28 - 1, f - 28, ?_, by omega, ?_⟩, by linarith, by linarith⟩
    · have h1 := abs_le.1 hn
      rw [abs_le]
      constructor <;> norm_num at h1 ⊢ <;> omega
    · have e2 : (2 : ℚ) ^ f = 2 ^ 28 * 2 ^ (f - 28) := by
        rw [← zpow_natCast, ← zpow_add₀ (by norm_num)]
        congr 1
        push_cast
        ring
      rw [hbf, e2]
      push_cast
      ring
  obtain ⟨n, f, hn, hf, hbf⟩ := hb
  obtain ⟨m, e, hm, he, hae⟩ := ha
  by_cases hn0 : n = 0
  · refine key 0 (-149) (by norm_num) le_rfl (by rw [hbf, hn0]; simp) ?_
    have := diff_ge (p := 24) (emin := -149) ⟨n, f, hn, hf, hbf⟩ ⟨m, e, hm, he, hae⟩ hab
    exact le_trans (zpow_le_zpow_right₀ (by norm_num) (by norm_num)) this
  · refine key n f hn hf hbf ?_
    by_cases hc : f - 27 ≤ e
    · obtain ⟨z, hz⟩ := zpow_multiple hc
      obtain ⟨w, hw⟩ := zpow_multiple (a := f - 27) (b := f) (by omega)
      have hp : (0 : ℚ) < 2 ^ (f - 27) := two_zpow_pos _
      have e1 : b - a = ((n * w - m * z : ℤ) : ℚ) * 2 ^ (f - 27) := by
        rw [hbf, hae, hz, hw]
        push_cast
        ring
      rw [e1]
      have h0 : 0 < ((n * w - m * z : ℤ) : ℚ) := by
        by_contra hneg
        push Not at hneg
        have := mul_nonpos_of_nonpos_of_nonneg hneg hp.le
        rw [← e1] at this
        linarith
      have h1 : (1 : ℚ) ≤ ((n * w - m * z : ℤ) : ℚ) := by
        have h0' : 0 < n * w - m * z := by exact_mod_cast h0
        exact_mod_cast (show (1 : ℤ) ≤ n * w - m * z by omega)
      nlinarith
    · have hpe : (0 : ℚ) < 2 ^ e := two_zpow_pos _
      have hpf : (0 : ℚ) < 2 ^ f := two_zpow_pos _
      have hma : |a| ≤ 2 ^ (f - 4) := by
        rw [hae, abs_mul, abs_of_pos hpe]
        have h1 : |(m : ℚ)| ≤ 2 ^ 24 := by exact_mod_cast hm
        calc |(m : ℚ)| * 2 ^ e ≤ 2 ^ 24 * 2 ^ e := mul_le_mul_of_nonneg_right h1 hpe.le
          _ = 2 ^ (24 + e) := by rw [zpow_add₀ (by norm_num)]; norm_num
          _ ≤ 2 ^ (f - 4) := zpow_le_zpow_right₀ (by norm_num) (by omega)
      have e3 : (2 : ℚ) ^ (f - 4) = 2 ^ f / 16 := by
        rw [zpow_sub₀ (by norm_num)]
        norm_num
      have e4 : (2 : ℚ) ^ (f - 27) ≤ 2 ^ f / 16 := by
        rw [← e3]
        exact zpow_le_zpow_right₀ (by norm_num) (by omega)
      have ha' := abs_le.1 hma
      rcases lt_or_gt_of_ne hn0 with hneg | hpos
      · have : (n : ℚ) ≤ -1 := by exact_mod_cast (show n ≤ -1 by omega)
        have : b ≤ -2 ^ f := by rw [hbf]; nlinarith
        rw [e3] at ha'
        linarith
      · have : (1 : ℚ) ≤ n := by exact_mod_cast (show 1 ≤ n by omega)
        have : 2 ^ f ≤ b := by rw [hbf]; nlinarith
        rw [e3] at ha'
        linarith

end Verif.Fl
