import Verif.MP
import Mathlib.Algebra.BigOperators.Field
import Mathlib.Data.Int.LeastGreatest
import Mathlib.Tactic.Positivity
import Mathlib.Tactic.FieldSimp
import Mathlib.Data.Rat.Lemmas
import Mathlib.Data.Rat.Floor

/-!
# Integer programs with a bounded objective attain their optimum

Like `Verif/LP/Duality.lean` not part of the model of the code, but a check that the contracts demanded of the solvers can be met.
-/

namespace Verif.LP

open MP

theorem int_scale (n : ℕ) (f : ℕ → ℚ) : ∃ D : ℕ, 0 < D ∧ ∀ a : ℕ → ℚ, (∀ i < n, ∃ z : ℤ, a i = z) → ∃ z : ℤ, activity n f a * D = z := by
  induction n with
  | zero => exact ⟨1, by omega, fun a _ => ⟨0, by simp [activity]⟩⟩
  | succ n ih =>
    obtain ⟨D, hD, h⟩ := ih
    refine ⟨D * (f n).den, Nat.mul_pos hD (f n).den_pos, ?_⟩
    intro a ha
    obtain ⟨z, hz⟩ := h a (fun i hi => ha i (by omega))
    obtain ⟨w, hw⟩ := ha n (by omega)
    refine ⟨z * (f n).den + (f n).num * w * D, ?_⟩
    have e : activity (n + 1) f a = activity n f a + f n * a n := by unfold activity; rw [Finset.sum_range_succ]
    have hq : f n * (f n).den = (f n).num := Rat.mul_den_eq_num _
    rw [e, hw]
    push_cast
    rw [add_mul]
    have : f n * (w : ℚ) * ((D : ℚ) * ((f n).den : ℚ)) = (f n * (f n).den) * w * D := by ring
    rw [this, hq, ← hz]
    ring

/-- A program over integer variables with solutions and a bounded objective has an optimal solution. -/
theorem exists_integer_optimum {m : Model} (hi : ∀ v ∈ m.vars, v.int = true) (hf : ∃ a, m.Feasible a) (hb : ∃ B, ∀ a, m.Feasible a → m.value a ≤ B) :
    ∃ a, m.Feasible a ∧ ∀ a', m.Feasible a' → m.value a' ≤ m.value a := by
  obtain ⟨D, hD, hz⟩ := int_scale m.vars.length m.obj
  obtain ⟨a0, ha0⟩ := hf
  obtain ⟨B, hB⟩ := hb
  have hD' : (0 : ℚ) < D := by exact_mod_cast hD
  have hint : ∀ a, m.Feasible a → ∃ z : ℤ, activity m.vars.length m.obj a * D = z := by
    intro a ha
    refine hz a ?_
    intro i hi'
    exact ha.integral i _ (List.getElem?_eq_getElem hi') (hi _ (List.getElem_mem hi'))
  obtain ⟨z0, hz0⟩ := hint a0 ha0
  obtain ⟨z, ⟨a, ha, haz⟩, hmax⟩ := Int.exists_greatest_of_bdd (P := fun z => ∃ a, m.Feasible a ∧ activity m.vars.length m.obj a * D = z)
    ⟨⌊(B - m.offset) * D⌋, by
      rintro z ⟨a, ha, haz⟩
      rw [Int.le_floor, ← haz]
      refine mul_le_mul_of_nonneg_right ?_ hD'.le
      have := hB a ha
      unfold Model.value at this
      linarith⟩ ⟨z0, a0, ha0, hz0⟩
  refine ⟨a, ha, ?_⟩
  intro a' ha'
  obtain ⟨z', hz'⟩ := hint a' ha'
  have h1 := hmax z' ⟨a', ha', hz'⟩
  have h2 : activity m.vars.length m.obj a' * D ≤ activity m.vars.length m.obj a * D := by rw [hz', haz]; exact_mod_cast h1
  have h3 := le_of_mul_le_mul_right h2 hD'
  unfold Model.value
  linarith

/-- The objective of a program over 0/1 variables is bounded. -/
theorem bool_bounded {m : Model} (hv : ∀ v ∈ m.vars, v = boolVar) : ∃ B, ∀ a, m.Feasible a → m.value a ≤ B := by
  refine ⟨(∑ i ∈ Finset.range m.vars.length, |m.obj i|) + m.offset, ?_⟩
  intro a ha
  unfold Model.value activity
  have : ∑ i ∈ Finset.range m.vars.length, m.obj i * a i ≤ ∑ i ∈ Finset.range m.vars.length, |m.obj i| := by
    refine Finset.sum_le_sum ?_
    intro i hi
    have hlt := Finset.mem_range.1 hi
    have hb := ha.bounds i _ (List.getElem?_eq_getElem hlt)
    rw [hv _ (List.getElem_mem hlt)] at hb
    obtain ⟨h1, h2⟩ := (inBounds_both 0 1 (a i)).1 hb
    rcases le_total 0 (m.obj i) with h | h
    · rw [abs_of_nonneg h]
      nlinarith
    · rw [abs_of_nonpos h]
      nlinarith
  linarith

end Verif.LP
