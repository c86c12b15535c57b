import Verif.LP.Duality
import Verif.LP.Integer

/-!
# Strong duality and integer optima for minimisation
-/

namespace Verif.LP

open MP

/-- The same program with the objective negated. -/
def flip (m : Model) : Model := ⟨m.vars, m.cons, fun i => - m.obj i, - m.offset, true⟩

theorem flip_feasibleLP (m : Model) (a : ℕ → ℚ) : (flip m).FeasibleLP a ↔ m.FeasibleLP a :=
  ⟨fun h => ⟨h.bounds, h.cons⟩, fun h => ⟨h.bounds, h.cons⟩⟩

theorem flip_feasible (m : Model) (a : ℕ → ℚ) : (flip m).Feasible a ↔ m.Feasible a :=
  ⟨fun h => ⟨(flip_feasibleLP m a).1 h.toFeasibleLP, h.integral⟩, fun h => ⟨(flip_feasibleLP m a).2 h.toFeasibleLP, h.integral⟩⟩

theorem flip_value (m : Model) (a : ℕ → ℚ) : (flip m).value a = - m.value a := by
  unfold Model.value flip
  simp only
  rw [activity_neg]
  ring

/-- Strong duality for a minimisation program over nonnegative variables whose constraints are one-sided or equations. -/
theorem strong_duality_min {m : Model} (hv : ∀ v ∈ m.vars, v.lb = some 0 ∧ v.ub = none)
    (hc : ∀ k ∈ m.cons, ∀ l u, k.lb = some l → k.ub = some u → l = u) (hf : ∃ a, m.FeasibleLP a) (hb : ∃ B, ∀ a, m.FeasibleLP a → B ≤ m.value a) :
    ∃ (a y : ℕ → ℚ), m.FeasibleLP a ∧ (∀ a', m.FeasibleLP a' → m.value a ≤ m.value a') ∧ DualFeasible m 0 y ∧ m.value a = m.dualValue y := by
  obtain ⟨a0, h0⟩ := hf
  obtain ⟨B, hB⟩ := hb
  obtain ⟨a, y, h1, h2, h3, h4, h5⟩ := strong_duality (m := flip m) ⟨rfl, hv, hc⟩ ⟨a0, (flip_feasibleLP m a0).2 h0⟩
    ⟨-B, fun a ha => by rw [flip_value]; have := hB a ((flip_feasibleLP m a).1 ha); linarith⟩
  refine ⟨a, fun c => - y c, (flip_feasibleLP m a).1 h1, ?_, ⟨?_, ?_, ?_⟩, ?_⟩
  · intro a' ha'
    have := h2 a' ((flip_feasibleLP m a').2 ha')
    rw [flip_value, flip_value] at this
    linarith
  · intro c k hk hl
    have := (h3 c k hk).1 hl
    linarith
  · intro c k hk hu
    have := (h3 c k hk).2 hu
    linarith
  · intro v hv
    have := h4 v hv
    unfold Model.reducedCost flip at this
    unfold Model.reducedCost
    simp only [neg_mul, Finset.sum_neg_distrib] at this ⊢
    linarith
  · rw [flip_value] at h5
    unfold Model.dualValue flip at h5
    unfold Model.dualValue
    simp only [neg_mul, Finset.sum_neg_distrib] at h5 ⊢
    linarith

/-- A feasible integer program that is bounded below has an optimum. -/
theorem exists_integer_min {m : Model} (hi : ∀ v ∈ m.vars, v.int = true) (hf : ∃ a, m.Feasible a) (hb : ∃ B, ∀ a, m.Feasible a → B ≤ m.value a) :
    ∃ a, m.Feasible a ∧ ∀ a', m.Feasible a' → m.value a ≤ m.value a' := by
  obtain ⟨a0, h0⟩ := hf
  obtain ⟨B, hB⟩ := hb
  obtain ⟨a, h1, h2⟩ := exists_integer_optimum (m := flip m) hi ⟨a0, (flip_feasible m a0).2 h0⟩
    ⟨-B, fun a ha => by rw [flip_value]; have := hB a ((flip_feasible m a).1 ha); linarith⟩
  refine ⟨a, (flip_feasible m a).1 h1, ?_⟩
  intro a' ha'
  have := h2 a' ((flip_feasible m a').2 ha')
  rw [flip_value, flip_value] at this
  linarith

/-- Programs over 0/1 variables are bounded below. -/
theorem bool_bounded_below {m : Model} (hv : ∀ v ∈ m.vars, v = boolVar) : ∃ B, ∀ a, m.Feasible a → B ≤ m.value a := by
  obtain ⟨B, hB⟩ := bool_bounded (m := flip m) hv
  refine ⟨-B, fun a ha => ?_⟩
  have := hB a ((flip_feasible m a).2 ha)
  rw [flip_value] at this
  linarith

end Verif.LP
