import Verif.DTree.FitDemo
import Verif.Noise

/-!
# C101 for the decision tree classifier: rounding noise in the answers of the solvers
-/

set_option linter.unusedSectionVars false

namespace Verif.DTree

open MP Noise

/-- The path read from the answer is not changed by noise below one half. -/
theorem pathOf_noise (c : SubConf) (st : SubSt) {ε : ℚ} {a v : ℕ → ℚ} (h : Near ε a v) (hv : ZeroOne v) (hε : ε < 1 / 2)
    (order : List ℕ) (cost : ℚ) : c.pathOf st a order cost = c.pathOf st v order cost := by
  have e : ∀ i, decide (a i > 1 / 2) = decide (v i > 1 / 2) := fun i => decide_eq_decide.2 (near_half h hv hε i)
  unfold SubConf.pathOf
  simp only [e]

/-- Sum of the absolute weights that enter the cost of a path. -/
def SubConf.weightSum (c : SubConf) : ℚ :=
  match c.kind with
  | .old t => ((c.kept.filter (fun i => c.y.getD i 0 = t)).length : ℚ)
  | _ => (c.kept.map (fun i => |c.weight i|)).sum

/-- The cost of the path moves by at most the noise times the sum of the weights. -/
theorem costOf_noise (c : SubConf) (st : SubSt) {ε : ℚ} {a v : ℕ → ℚ} (h : Near ε a v) :
    |c.costOf st a - c.costOf st v| ≤ ε * c.weightSum := by
  unfold SubConf.costOf SubConf.weightSum
  cases hk : c.kind with
  | old t =>
    have := sum_near (c.kept.filter (fun i => c.y.getD i 0 = t)) (fun _ => 1) (fun i => a (st.idx (.y i))) (fun i => v (st.idx (.y i)))
      (fun x _ => h _)
    simpa using this
  | mip => exact sum_near c.kept c.weight (fun i => a (st.idx (.z i))) (fun i => v (st.idx (.z i))) (fun x _ => h _)
  | sat => exact sum_near c.kept c.weight (fun i => a (st.idx (.z i))) (fun i => v (st.idx (.z i))) (fun x _ => h _)

/-- C101, tree pricing: the columns generated from a noisy answer are those of the exact answer, with the same leaf, splits and class,
and with a cost off by at most the noise times the sum of the weights. -/
theorem C101_tree_pricing (c : SubConf) (st : SubSt) {ε : ℚ} (a v : Answer) (h : Near ε a.values v.values) (hv : ZeroOne v.values)
    (hε : ε < 1 / 2) (hs : a.status = v.status) (ho : a.objective ≤ tol ↔ v.objective ≤ tol) :
    (c.generateMip st a = [] ∧ c.generateMip st v = []) ∨
    ∃ p q, c.generateMip st a = [p] ∧ c.generateMip st v = [q] ∧ p.leafId = q.leafId ∧ p.nodeIds = q.nodeIds ∧ p.splits = q.splits ∧
      p.target = q.target ∧ p.id = q.id ∧ p.initial = q.initial ∧ |p.cost - q.cost| ≤ ε * c.weightSum := by
  unfold SubConf.generateMip
  rw [hs]
  by_cases h1 : v.status = .optimal ∨ v.status = .feasible
  · rw [if_pos h1, if_pos h1]
    by_cases h2 : v.objective ≤ tol
    · rw [if_pos h2, if_pos (ho.2 h2)]
      exact Or.inl ⟨rfl, rfl⟩
    · rw [if_neg h2, if_neg (fun h3 => h2 (ho.1 h3))]
      rw [pathOf_noise c st h hv hε]
      exact Or.inr ⟨_, _, rfl, rfl, rfl, rfl, rfl, rfl, rfl, rfl, costOf_noise c st h⟩
  · rw [if_neg h1, if_neg h1]
    exact Or.inl ⟨rfl, rfl⟩

/-- C101, selection of the paths, the part that holds: noise below one that is never positive at a zero does not change the selection. -/
theorem C101_tree_selection_partial (o o' : Oracle) (s : MS) {ε : ℚ} (h : Near ε (o'.ip s.m).values (o.ip s.m).values)
    (hv : ZeroOne (o.ip s.m).values) (hε : ε < 1) (hn : NotAbove (o'.ip s.m).values (o.ip s.m).values)
    (hs : (o'.ip s.m).status = (o.ip s.m).status) : solveIp o' s = solveIp o s := by
  have e : ∀ i, decide ((o'.ip s.m).values i > 0) = decide ((o.ip s.m).values i > 0) :=
    fun i => decide_eq_decide.2 (near_zero_iff h hv hε hn i)
  unfold solveIp
  simp only [e, hs]

/-- C101, selection of the paths, what remains in general: every path selected by the exact answer is still selected, in the same order;
noise can only add paths. -/
theorem C101_tree_selection_superset (o o' : Oracle) (s : MS) {ε : ℚ} (h : Near ε (o'.ip s.m).values (o.ip s.m).values)
    (hv : ZeroOne (o.ip s.m).values) (hε : ε < 1) (hs : (o'.ip s.m).status = (o.ip s.m).status)
    (hok : (solveIp o s).1 = .ok true) :
    (solveIp o' s).1 = .ok true ∧ (solveIp o s).2.selected.Sublist (solveIp o' s).2.selected := by
  unfold solveIp at hok ⊢
  by_cases hg : s.generated = true
  · simp only [hg, if_true] at hok ⊢
    rw [hs]
    by_cases h1 : (o.ip s.m).status = .optimal ∨ (o.ip s.m).status = .feasible
    · simp only [h1, if_true] at hok ⊢
      refine ⟨trivial, ?_⟩
      have e : s.paths.filter (fun p => decide ((o.ip s.m).values p.id > 0)) =
          (s.paths.filter (fun p => decide ((o'.ip s.m).values p.id > 0))).filter (fun p => decide ((o.ip s.m).values p.id > 0)) := by
        rw [List.filter_filter]
        apply List.filter_congr
        intro p _
        by_cases hp : (o.ip s.m).values p.id > 0
        · simp [hp, near_zero h hv hε p.id hp]
        · simp [hp]
      rw [e]
      exact List.filter_sublist
    · simp [h1] at hok
  · simp [hg] at hok

end Verif.DTree
