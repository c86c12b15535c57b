import Verif.Tuner.RoundProps

/-!
# Examples for C109

With the rounding of binary64 numbers, and the underflow that makes the gap score leave `[0, 1]`.
-/

namespace Verif.Tuner.Round

open Spec Fl

/-- **C109.** Without the condition of `C109_gap` the bound `1` fails: objective `2 ^ -600` and bound `-2 ^ -600` have opposite signs, but the product
underflows to zero, `ObjectiveValue() * BestObjectiveBound() >= 0` holds and the gap is `2`. -/
theorem C109_gap_underflow (w : ℚ) : ∃ ans : CpAnswer ℚ, ans.status = .feasible ∧ Fl.Rep 53 (-1074) ans.objective ∧ Fl.Rep 53 (-1074) ans.bound ∧
    ans.objective * ans.bound < 0 ∧ scoresOf binary64.rnd ans 1 = .ok (1, 2) := by
  have ho : Fl.Rep 53 (-1074) ((2 : ℚ) ^ (-600 : ℤ)) := rep_zpow (by norm_num)
  refine ⟨⟨.feasible, w, 2 ^ (-600 : ℤ), -2 ^ (-600 : ℤ)⟩, rfl, ho, ho.neg, ?_, ?_⟩
  · have := two_zpow_pos (-600)
    show (2 : ℚ) ^ (-600 : ℤ) * -2 ^ (-600 : ℤ) < 0
    nlinarith
  · have hpos := two_zpow_pos (-600)
    have e0 : (2 : ℚ) ^ (-600 : ℤ) * -2 ^ (-600 : ℤ) = -2 ^ (-1200 : ℤ) := by
      rw [mul_neg, ← zpow_add₀ (by norm_num)]; norm_num
    have h0 : binary64.rnd (-2 ^ (-1200 : ℤ)) = 0 := by
      obtain ⟨z, hz⟩ := (binary64.rep (-2 ^ (-1200 : ℤ))).multiple
      have ha := nearestEven_accurate 53 (-1074) (by norm_num) (-2 ^ (-1200 : ℤ))
      change |binary64.rnd (-2 ^ (-1200 : ℤ)) - _| ≤ _ at ha
      rw [hz] at ha ⊢
      by_contra hne
      have hz0 : z ≠ 0 := by rintro rfl; simp at hne
      have h1 : (1 : ℚ) ≤ |(z : ℚ)| := by
        have := Int.one_le_abs hz0
        exact_mod_cast this
      have hp := two_zpow_pos (-1074)
      have h2 : (2 : ℚ) ^ (-1074 : ℤ) ≤ |(z : ℚ) * 2 ^ (-1074 : ℤ)| := by
        rw [abs_mul, abs_of_pos hp]; nlinarith
      have hs := two_zpow_pos (-1200)
      have h3 : |(z : ℚ) * 2 ^ (-1074 : ℤ)| ≤ |(z : ℚ) * 2 ^ (-1074 : ℤ) - -2 ^ (-1200 : ℤ)| + 2 ^ (-1200 : ℤ) := by
        have := abs_add_le ((z : ℚ) * 2 ^ (-1074 : ℤ) - -2 ^ (-1200 : ℤ)) (-2 ^ (-1200 : ℤ))
        rw [sub_add_cancel, abs_neg, abs_of_pos hs] at this
        exact this
      rw [abs_neg, abs_of_pos hs] at ha
      have e1 : (2 : ℚ) ^ (-1074 - 1 : ℤ) = 2 ^ (-1074 : ℤ) / 2 := by
        rw [zpow_sub₀ (by norm_num)]; norm_num
      have e2 : (2 : ℚ) ^ (-1200 : ℤ) = 2 ^ (-1074 : ℤ) * 2 ^ (-126 : ℤ) := by
        rw [← zpow_add₀ (by norm_num)]; norm_num
      have e3 : (2 : ℚ) ^ (-126 : ℤ) ≤ 1 / 8 := by
        have : (2 : ℚ) ^ (-126 : ℤ) ≤ 2 ^ (-3 : ℤ) := zpow_le_zpow_right₀ (by norm_num) (by norm_num)
        norm_num at this ⊢
      have e4 : (2 : ℚ) ^ (-((53 : ℕ) : ℤ)) ≤ 1 := by
        have : (2 : ℚ) ^ (-((53 : ℕ) : ℤ)) ≤ 2 ^ (0 : ℤ) := zpow_le_zpow_right₀ (by norm_num) (by norm_num)
        simpa using this
      have e5 : (2 : ℚ) ^ (-1200 : ℤ) ≤ 2 ^ (-1074 : ℤ) / 8 := by rw [e2]; nlinarith
      have e6 : (2 : ℚ) ^ (-((53 : ℕ) : ℤ)) * 2 ^ (-1200 : ℤ) ≤ 2 ^ (-1200 : ℤ) := by nlinarith
      rw [e1] at ha
      linarith
    have e1 : (2 : ℚ) ^ (-600 : ℤ) - -2 ^ (-600 : ℤ) = 2 ^ (-599 : ℤ) := by
      have : (2 : ℚ) ^ (-599 : ℤ) = 2 ^ (-600 : ℤ) * 2 := by
        rw [← zpow_add_one₀ (by norm_num)]; norm_num
      rw [this]; ring
    have h1 : binary64.rnd (2 ^ (-599 : ℤ)) = 2 ^ (-599 : ℤ) := binary64.fix _ (rep_zpow (by norm_num))
    have e2 : (2 : ℚ) ^ (-599 : ℤ) / 2 ^ (-600 : ℤ) = 2 := by
      rw [← zpow_sub₀ (by norm_num)]; norm_num
    have h2 : binary64.rnd 2 = 2 := binary64.fix _ (by simpa using rep_zpow (p := 53) (emin := -1074) (k := 1) (by norm_num))
    unfold scoresOf
    rw [if_neg (by norm_num)]
    simp only [e0, h0, ge_iff_le, le_refl, if_true, abs_neg, max_self, abs_of_pos hpos, e1, h1, abs_of_pos (two_zpow_pos (-599)), e2, h2]
    rw [if_neg hpos.ne']

namespace Demo

/-- Every integer up to `2 ^ 53` is a binary64 number. -/
theorem rep_small (z : ℤ) (h : |z| ≤ 2 ^ 53) : Fl.Rep 53 (-1074) (z : ℚ) := rep_int (by norm_num) h

/-- Scores `1, 0` after a `clear`. -/
def pushes : List (StatOp ℚ) := [.push 7, .clear, .push 1, .push 0, .push 0]

theorem pushes_float : FloatPushes 53 (-1074) pushes := by
  intro x hx
  simp only [pushes, List.mem_cons, StatOp.push.injEq, reduceCtorEq, List.not_mem_nil, or_false, false_or] at hx
  rcases hx with rfl | rfl | rfl | rfl
  · exact rep_small 7 (by norm_num)
  · exact rep_small 1 (by norm_num)
  · exact rep_small 0 (by norm_num)
  · exact rep_small 0 (by norm_num)

example : sinceClear pushes = [1, 0, 0] := by decide +kernel

/-- The mean of `1, 0, 0` is not a floating point number, so it is rounded; the error is at most `10 * 2 ^ -53`. -/
example : |(statRun binary64.rnd pushes).mean - 1 / 3| ≤ 10 * 2 ^ (-53 : ℤ) := by
  have hu : (0 : ℚ) ≤ 2 ^ (-((53 : ℕ) : ℤ)) := (two_zpow_pos _).le
  have hu1 : (2 : ℚ) ^ (-((53 : ℕ) : ℤ)) ≤ 1 := by
    have : (2 : ℚ) ^ (-((53 : ℕ) : ℤ)) ≤ 2 ^ (0 : ℤ) := zpow_le_zpow_right₀ (by norm_num) (by norm_num)
    simpa using this
  have h := C109_mean_error binary64 (by norm_num) hu hu1 (two_zpow_pos (-1074 - 1)).le (nearestEven_accurate 53 (-1074) (by norm_num)) pushes pushes_float
    (M := 1) (by decide +kernel) (by
      have e : sinceClear pushes = [1, 0, 0] := by decide +kernel
      rw [e]; intro x hx; simp at hx; rcases hx with rfl | rfl <;> norm_num)
  have e : sinceClear pushes = [1, 0, 0] := by decide +kernel
  rw [e] at h
  have e2 : Spec.mean ([1, 0, 0] : List ℚ) = 1 / 3 := by
    unfold Spec.mean
    rw [if_neg (by simp)]
    norm_num
  rw [e2] at h
  refine h.trans ?_
  have e3 : (2 : ℚ) ^ (-1074 - 1 : ℤ) ≤ 2 ^ (-53 : ℤ) / 8 := by
    have h1 : (2 : ℚ) ^ (-1074 - 1 : ℤ) ≤ 2 ^ (-53 - 3 : ℤ) := zpow_le_zpow_right₀ (by norm_num) (by norm_num)
    have h2 : (2 : ℚ) ^ (-53 - 3 : ℤ) = 2 ^ (-53 : ℤ) / 8 := by rw [zpow_sub₀ (by norm_num)]; norm_num
    exact h1.trans h2.le
  have e4 := two_zpow_pos (-53)
  have e5 : (2 : ℚ) ^ (-((53 : ℕ) : ℤ)) = 2 ^ (-53 : ℤ) := rfl
  have e6 : (([1, 0, 0] : List ℚ).length : ℚ) = 3 := by norm_num
  rw [e5, e6]
  generalize (2 : ℚ) ^ (-53 : ℤ) = a at *
  generalize (2 : ℚ) ^ (-1074 - 1 : ℤ) = b at *
  linarith

example : 0 ≤ variance binary64.rnd (statRun binary64.rnd pushes) ∧ 0 ≤ (statRun binary64.rnd pushes).mean ∧ (statRun binary64.rnd pushes).mean ≤ 1 := by
  obtain ⟨h1, h2, -, h3⟩ := C109_running_stat binary64 (by norm_num) id pushes pushes_float
  have e : sinceClear pushes = [1, 0, 0] := by decide +kernel
  rw [e] at h3
  exact ⟨h2, h3 (by simp) 0 1 (by intro x hx; simp at hx; rcases hx with rfl | rfl <;> norm_num)⟩

/-- Two values, one score each. -/
def ops : List (Op ℚ ℕ) := [.setExploreCount 0, .addValue 5, .addValue 6, .adjustScore 1 (some 0), .adjustScore 3 (some 1)]

theorem ops_float : FloatScores 53 (-1074) ops := by
  intro x idx hx
  simp only [ops, List.mem_cons, Op.adjustScore.injEq, reduceCtorEq, List.not_mem_nil, or_false, false_or] at hx
  rcases hx with ⟨rfl, -⟩ | ⟨rfl, -⟩
  · exact rep_small 1 (by norm_num)
  · exact rep_small 3 (by norm_num)

example : ∃ v q', getBestValue binary64.rnd id (run binary64.rnd id 2 ops) 1 = .ok (v, q') ∧ v ∈ [5, 6] := by
  obtain ⟨v, q', h, hv, -⟩ := C109_get_best_value binary64 (by norm_num) (by norm_num) id (fun _ h => h) 2 ops ops_float (by decide) 1
  exact ⟨v, q', h, by simpa [registered, ops] using hv⟩

/-- A feasible answer in integers. -/
example {t g : ℚ} (h : scoresOf binary64.rnd ⟨.feasible, 3, 7, -2⟩ 10 = .ok (t, g)) : 0 ≤ g ∧ g ≤ 1 :=
  C109_gap binary64 (by norm_num) (by exact rep_small 7 (by norm_num)) (by exact rep_small (-2) (by norm_num)) (.inr ⟨7, -2, by norm_num, by norm_num⟩) h

/-- A feasible answer in integers never scores better than `-1`. -/
example {t g : ℚ} (h : scoresOf binary64.rnd ⟨.feasible, 3, 7, -2⟩ 10 = .ok (t, g)) : totalScore binary64.rnd (t, g) ≤ -1 :=
  (C109_total binary64 (by norm_num) (by exact rep_small 7 (by norm_num)) (by exact rep_small (-2) (by norm_num)) (.inr ⟨7, -2, by norm_num, by norm_num⟩)
    (by norm_num) (by norm_num) (by norm_num) h).2.2.2.2 (by decide)

end Demo

end Verif.Tuner.Round
