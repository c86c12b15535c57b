import Verif.BDR.MultiProps
import Verif.DTree.FitDemo

/-!
# Exact solvers whose answers can be computed

The solvers of this file answer with a given solution whenever its optimality can be verified by computation (for linear programs and the integer master problem with
duals, for the pricing problem by enumeration with pruning), and like the exact solvers of `Verif/BDR/FitIdeal.lean` otherwise. So they are exact on every program.
-/

namespace Verif.BDR.Demo

open MP Spec
open Verif.DTree.Demo (act act_eq checkLP checkInt checkLP_sound check_sound checkDfs checkDfs_max sum_zipIdx)

/-- Duals `d` are feasible for the minimisation problem and their value is `v`. -/
def checkMin (m : Model) (d : ℕ → ℚ) (v : ℚ) : Bool :=
  !m.maximize && m.vars.all (fun x => decide (x.lb = some 0)) &&
  m.cons.all (fun k => k.lb.isNone || k.ub.isNone || decide (k.lb = k.ub)) &&
  m.cons.zipIdx.all (fun k => (k.1.lb.isSome || decide (d k.2 ≤ 0)) && (k.1.ub.isSome || decide (0 ≤ d k.2))) &&
  (List.range m.vars.length).all (fun x => decide (0 ≤ m.obj x - (m.cons.zipIdx.map (fun k => d k.2 * k.1.coeff x)).sum)) &&
  decide ((m.cons.zipIdx.map (fun k => d k.2 * k.1.rhs)).sum + m.offset = v)

theorem checkMin_sound {m : Model} {d : ℕ → ℚ} {v : ℚ} (h : checkMin m d v = true) :
    m.maximize = false ∧ DualFeasible m 0 d ∧ m.dualValue d = v ∧ ∀ a, m.FeasibleLP a → v ≤ m.value a := by
  unfold checkMin at h
  simp only [Bool.and_eq_true, List.all_eq_true, decide_eq_true_eq, Bool.or_eq_true, Bool.not_eq_true', Option.isNone_iff_eq_none] at h
  obtain ⟨⟨⟨⟨⟨h1, h2⟩, h3⟩, h4⟩, h5⟩, h6⟩ := h
  have hd : DualFeasible m 0 d := by
    refine ⟨?_, ?_, ?_⟩
    · intro c k hk hlb
      have := (h4 (k, c) (by rw [List.mem_zipIdx_iff_getElem?]; simpa using hk)).1
      simpa [hlb] using this
    · intro c k hk hub
      have := (h4 (k, c) (by rw [List.mem_zipIdx_iff_getElem?]; simpa using hk)).2
      simpa [hub] using this
    · intro x hx
      have := h5 x (List.mem_range.2 hx)
      rw [sum_zipIdx m.cons d (fun k => k.coeff x)] at this
      rw [neg_zero]
      exact this
  have hv : m.dualValue d = v := by
    rw [sum_zipIdx m.cons d (fun k => k.rhs)] at h6
    exact h6
  refine ⟨h1, hd, hv, ?_⟩
  intro a ha
  rw [← hv]
  refine LP.weak_duality_min h2 ?_ hd ha
  intro k hk l u hl hu
  rcases h3 k hk with (h | h) | h
  · rw [hl] at h; cases h
  · rw [hu] at h; cases h
  · rw [hl, hu] at h; exact Option.some.inj h

/-- The maximisation problem with the negated objective. -/
def flip (m : Model) : Model := ⟨m.vars, m.cons, fun i => -m.obj i, -m.offset, true⟩

theorem flip_value (m : Model) (a : ℕ → ℚ) : (flip m).value a = -m.value a := by
  unfold Model.value flip activity
  simp only [neg_mul, Finset.sum_neg_distrib]
  ring

def ansOf (m : Model) (sol dual : ℕ → ℚ) : Answer := ⟨.optimal, sol, dual, act m.vars.length m.obj sol + m.offset⟩

theorem ansOf_value (m : Model) (sol dual : ℕ → ℚ) : (ansOf m sol dual).objective = m.value sol := by
  change act _ _ _ + _ = _
  rw [act_eq]
  rfl

/-- The listed answer whose optimality is verified by its duals. -/
def findLp (m : Model) (cands : List ((ℕ → ℚ) × (ℕ → ℚ))) : Option Answer :=
  (cands.map (fun c => ansOf m c.1 c.2)).find? (fun r => checkLP m r.values && checkMin m r.duals r.objective)

def findIp (m : Model) (cands : List ((ℕ → ℚ) × (ℕ → ℚ))) : Option Answer :=
  (cands.map (fun c => ansOf m c.1 c.2)).find? (fun r => checkLP m r.values && checkInt m r.values && checkMin m r.duals r.objective)

/-- The listed solution of a 0/1 program whose optimality is verified by enumeration. -/
def findMip (m : Model) (cands : List (ℕ → ℚ)) : Option Answer :=
  (cands.map (fun c => ansOf m c (fun _ => 0))).find? (fun r => checkLP m r.values && checkInt m r.values && !m.maximize &&
    m.vars.all (fun v => decide (v = boolVar)) && checkDfs (flip m) (-r.objective))

/-- The solvers; the clock stands still. -/
noncomputable def guided (lp ip : List ((ℕ → ℚ) × (ℕ → ℚ))) (mip : List (ℕ → ℚ)) : Oracle Unit where
  clock _ := (0, ())
  lp m _ := ((findLp m lp).getD (exactLp m), ())
  mip m _ := ((findMip m mip).getD (exactIp m), ())
  ip m _ := ((findIp m ip).getD (exactIp m), ())

theorem findLp_sound {m : Model} {cands : List ((ℕ → ℚ) × (ℕ → ℚ))} {r : Answer} (h : findLp m cands = some r) :
    r.status = .optimal ∧ IsOptimalLP m r ∧ DualFeasible m 0 r.duals ∧ r.objective = m.dualValue r.duals := by
  unfold findLp at h
  have h1 := List.find?_some h
  obtain ⟨c, -, rfl⟩ := List.mem_map.1 (List.mem_of_find?_eq_some h)
  rw [Bool.and_eq_true] at h1
  obtain ⟨h1, h2⟩ := h1
  obtain ⟨h3, h4, h5, h6⟩ := checkMin_sound h2
  refine ⟨rfl, ⟨checkLP_sound _ _ h1, ansOf_value _ _ _, ?_⟩, h4, h5.symm⟩
  intro a ha
  rw [Model.better, h3]
  exact h6 a ha

theorem findIp_sound {m : Model} {cands : List ((ℕ → ℚ) × (ℕ → ℚ))} {r : Answer} (h : findIp m cands = some r) :
    r.status = .optimal ∧ IsOptimal m r := by
  unfold findIp at h
  have h1 := List.find?_some h
  obtain ⟨c, -, rfl⟩ := List.mem_map.1 (List.mem_of_find?_eq_some h)
  simp only [Bool.and_eq_true] at h1
  obtain ⟨⟨h1, h1'⟩, h2⟩ := h1
  obtain ⟨h3, h4, h5, h6⟩ := checkMin_sound h2
  refine ⟨rfl, ⟨check_sound _ _ h1 h1', ansOf_value _ _ _⟩, ?_⟩
  intro a ha
  rw [Model.better, h3]
  exact h6 a ha.toFeasibleLP

theorem findMip_sound {m : Model} {cands : List (ℕ → ℚ)} {r : Answer} (h : findMip m cands = some r) : r.status = .optimal ∧ IsOptimal m r := by
  unfold findMip at h
  have h1 := List.find?_some h
  obtain ⟨c, -, rfl⟩ := List.mem_map.1 (List.mem_of_find?_eq_some h)
  simp only [Bool.and_eq_true, List.all_eq_true, decide_eq_true_eq, Bool.not_eq_true'] at h1
  obtain ⟨⟨⟨⟨h1, h1'⟩, h2⟩, h3⟩, h4⟩ := h1
  refine ⟨rfl, ⟨check_sound _ _ h1 h1', ansOf_value _ _ _⟩, ?_⟩
  intro a ha
  rw [Model.better, h2]
  have := DTree.Demo.checkMax_sound (flip m) h3 _ (checkDfs_max h4) a ⟨⟨ha.bounds, ha.cons⟩, ha.integral⟩
  rw [flip_value] at this
  simp only [Bool.false_eq_true, if_false]
  linarith

theorem guided_exact (lp ip : List ((ℕ → ℚ) × (ℕ → ℚ))) (mip : List (ℕ → ℚ)) : ExactSolvers (guided lp ip mip) where
  lp m ω h1 h2 h3 h4 h5 := by
    change ((findLp m lp).getD (exactLp m)).status = _ ∧ IsOptimalLP m ((findLp m lp).getD (exactLp m)) ∧ _
    cases h : findLp m lp with
    | none =>
      have e : ((guided lp ip mip).lp m ω).1 = exactLp m := by change (findLp m lp).getD _ = _; rw [h]; rfl
      rw [e]
      exact exactLp_spec h1 h2 h3 h4 h5
    | some r =>
      have e : ((guided lp ip mip).lp m ω).1 = r := by change (findLp m lp).getD _ = _; rw [h]; rfl
      rw [e]
      exact findLp_sound h
  mip m ω h1 h2 h3 h4 := by
    cases h : findMip m mip with
    | none =>
      have e : ((guided lp ip mip).mip m ω).1 = exactIp m := by change (findMip m mip).getD _ = _; rw [h]; rfl
      rw [e]
      exact exactIp_spec h1 h2 h3 h4
    | some r =>
      have e : ((guided lp ip mip).mip m ω).1 = r := by change (findMip m mip).getD _ = _; rw [h]; rfl
      rw [e]
      exact findMip_sound h
  ip m ω h1 h2 h3 h4 := by
    cases h : findIp m ip with
    | none =>
      have e : ((guided lp ip mip).ip m ω).1 = exactIp m := by change (findIp m ip).getD _ = _; rw [h]; rfl
      rw [e]
      exact exactIp_spec h1 h2 h3 h4
    | some r =>
      have e : ((guided lp ip mip).ip m ω).1 = r := by change (findIp m ip).getD _ = _; rw [h]; rfl
      rw [e]
      exact findIp_sound h

end Verif.BDR.Demo
