import Mathlib.Algebra.Order.Ring.Rat
import Mathlib.Algebra.Order.BigOperators.Group.List
import Mathlib.Algebra.Order.Ring.Abs
import Mathlib.Tactic.Linarith
import Mathlib.Tactic.Ring

/-!
# Rounding noise in the answers of the solvers

The solvers compute with floating point numbers: an integer variable whose value is 0 may be reported as `1e-12` or `-1e-12`. This file says
what it means that a reported answer is close to the exact one. It does not mention the code.
-/

namespace Verif.Noise

/-- Every reported value is within `ε` of the exact one. -/
def Near (ε : ℚ) (a v : ℕ → ℚ) : Prop := ∀ i, |a i - v i| ≤ ε

/-- The exact values are 0 or 1. -/
def ZeroOne (v : ℕ → ℚ) : Prop := ∀ i, v i = 0 ∨ v i = 1

/-- The noise is never positive at a variable that is exactly 0. -/
def NotAbove (a v : ℕ → ℚ) : Prop := ∀ i, v i = 0 → a i ≤ 0

theorem near_half {ε : ℚ} {a v : ℕ → ℚ} (h : Near ε a v) (hv : ZeroOne v) (hε : ε < 1 / 2) (i : ℕ) :
    a i > 1 / 2 ↔ v i > 1 / 2 := by
  have := abs_le.1 (h i)
  rcases hv i with e | e <;> rw [e] at this ⊢ <;> constructor <;> intro _ <;> linarith [this.1, this.2]

theorem near_zero {ε : ℚ} {a v : ℕ → ℚ} (h : Near ε a v) (hv : ZeroOne v) (hε : ε < 1) (i : ℕ) (hi : v i > 0) : a i > 0 := by
  have := abs_le.1 (h i)
  rcases hv i with e | e <;> rw [e] at this hi <;> linarith [this.1, this.2]

theorem near_zero_iff {ε : ℚ} {a v : ℕ → ℚ} (h : Near ε a v) (hv : ZeroOne v) (hε : ε < 1) (hn : NotAbove a v) (i : ℕ) :
    a i > 0 ↔ v i > 0 := by
  refine ⟨fun ha => ?_, near_zero h hv hε i⟩
  rcases hv i with e | e
  · exact absurd (hn i e) (not_le.2 ha)
  · rw [e]; norm_num

theorem sum_near {α : Type} (l : List α) (w : α → ℚ) (f g : α → ℚ) {ε : ℚ} (h : ∀ x ∈ l, |f x - g x| ≤ ε) :
    |(l.map (fun x => w x * f x)).sum - (l.map (fun x => w x * g x)).sum| ≤ ε * (l.map (fun x => |w x|)).sum := by
  induction l with
  | nil => simp
  | cons x l ih =>
    simp only [List.map_cons, List.sum_cons]
    have h1 := ih (fun x hx => h x (List.mem_cons_of_mem _ hx))
    have h2 : |w x * f x - w x * g x| ≤ ε * |w x| := by
      rw [← mul_sub, abs_mul, mul_comm]
      exact mul_le_mul_of_nonneg_right (h x List.mem_cons_self) (abs_nonneg _)
    have h3 := abs_add_le (w x * f x - w x * g x) ((l.map (fun x => w x * f x)).sum - (l.map (fun x => w x * g x)).sum)
    have e : w x * f x + (l.map (fun x => w x * f x)).sum - (w x * g x + (l.map (fun x => w x * g x)).sum) =
      (w x * f x - w x * g x) + ((l.map (fun x => w x * f x)).sum - (l.map (fun x => w x * g x)).sum) := by ring
    rw [e, mul_add]
    linarith

end Verif.Noise
