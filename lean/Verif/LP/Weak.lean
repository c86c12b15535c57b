import Verif.MP
import Mathlib.Algebra.BigOperators.Ring.Finset
import Mathlib.Algebra.Order.BigOperators.Group.Finset
import Mathlib.Tactic.Linarith
import Mathlib.Tactic.Ring

/-!
# Weak duality for minimisation problems over variables `≥ 0`
-/

namespace Verif.LP

open MP

/-- The dual objective value of dual feasible duals is a lower bound. -/
theorem weak_duality_min {m : Model} (hv : ∀ v ∈ m.vars, v.lb = some 0)
    (hc : ∀ k ∈ m.cons, ∀ l u, k.lb = some l → k.ub = some u → l = u) {d a : ℕ → ℚ} (hd : DualFeasible m 0 d) (ha : m.FeasibleLP a) :
    m.dualValue d ≤ m.value a := by
  have h1 : 0 ≤ ∑ v ∈ Finset.range m.vars.length, m.reducedCost d v * a v := by
    refine Finset.sum_nonneg fun v hv' => ?_
    have hlt := Finset.mem_range.1 hv'
    have hb := (ha.bounds v _ (List.getElem?_eq_getElem hlt)).1 0 (hv _ (List.getElem_mem hlt))
    have hr := hd.cost v hlt
    exact mul_nonneg (by linarith) hb
  have h2 : ∑ v ∈ Finset.range m.vars.length, m.reducedCost d v * a v = ∑ v ∈ Finset.range m.vars.length, m.obj v * a v -
      ∑ c ∈ Finset.range m.cons.length, d c * ∑ v ∈ Finset.range m.vars.length, ((m.cons[c]?).map (fun k => k.coeff v)).getD 0 * a v := by
    simp only [Finset.mul_sum]
    rw [Finset.sum_comm, ← Finset.sum_sub_distrib]
    refine Finset.sum_congr rfl fun v _ => ?_
    unfold Model.reducedCost
    rw [sub_mul, Finset.sum_mul]
    congr 1
    exact Finset.sum_congr rfl fun c _ => by ring
  have h3 : ∑ c ∈ Finset.range m.cons.length, d c * ((m.cons[c]?).map Cons.rhs).getD 0 ≤
      ∑ c ∈ Finset.range m.cons.length, d c * ∑ v ∈ Finset.range m.vars.length, ((m.cons[c]?).map (fun k => k.coeff v)).getD 0 * a v := by
    refine Finset.sum_le_sum fun c hc' => ?_
    have hlt := Finset.mem_range.1 hc'
    have hk := List.getElem?_eq_getElem hlt
    rw [hk]
    simp only [Option.map_some, Option.getD_some]
    obtain ⟨b1, b2⟩ := ha.cons c _ hk
    have hle := hd.le c _ hk
    have hge := hd.ge c _ hk
    have heq := hc _ (List.getElem_mem hlt)
    unfold activity at b1 b2
    generalize ∑ v ∈ Finset.range m.vars.length, m.cons[c].coeff v * a v = x at b1 b2 ⊢
    unfold Cons.rhs
    rcases hl : m.cons[c].lb with _ | l <;> rcases hu : m.cons[c].ub with _ | u <;>
      simp only [Option.getD_none, Option.getD_some]
    · have : d c = 0 := le_antisymm (hle hl) (hge hu)
      rw [this]; simp
    · exact mul_le_mul_of_nonpos_left (b2 u hu) (hle hl)
    · exact mul_le_mul_of_nonneg_left (b1 l hl) (hge hu)
    · have e := heq l u hl hu
      have : x = l := le_antisymm (by rw [e]; exact b2 u hu) (b1 l hl)
      rw [this]
  unfold Model.dualValue Model.value activity
  linarith

end Verif.LP
