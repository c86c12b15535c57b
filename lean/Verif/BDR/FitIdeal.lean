import Verif.BDR.FitProps
import Verif.LP.Min

/-!
# Solvers that meet the contracts of `BooleanDecisionRuleClassifier.fit`

For every instance with binary labels, `C ≥ 0` and `p ≥ 0` there are solvers that meet `Contract`: exact solvers with any clock. So the hypotheses
of C30, C31, C66, C67, C84 about the solvers can be met for every input.
-/

set_option linter.unusedSectionVars false

namespace Verif.BDR

open MP Spec

variable {Ω : Type} {C p : ℚ} {X : Data} {y : List ℕ}

open Classical in
/-- An exact LP solver for minimisation. -/
noncomputable def exactLp (m : Model) : Answer :=
  if h : ∃ ans : Answer, ans.status = .optimal ∧ IsOptimalLP m ans ∧ DualFeasible m 0 ans.duals ∧ ans.objective = m.dualValue ans.duals then h.choose
  else ⟨.other, fun _ => 0, fun _ => 0, 0⟩

open Classical in
/-- An exact integer solver. -/
noncomputable def exactIp (m : Model) : Answer :=
  if h : ∃ ans : Answer, ans.status = .optimal ∧ IsOptimal m ans then h.choose else ⟨.other, fun _ => 0, fun _ => 0, 0⟩

/-- Exact solvers with the given clock. -/
noncomputable def exact (clock : Ω → ℚ × Ω) : Oracle Ω where
  clock := clock
  lp m ω := (exactLp m, ω)
  mip m ω := (exactIp m, ω)
  ip m ω := (exactIp m, ω)

theorem exactLp_spec {m : Model} (hm : m.maximize = false) (hv : ∀ v ∈ m.vars, v.lb = some 0 ∧ v.ub = none)
    (hc : ∀ k ∈ m.cons, ∀ l u, k.lb = some l → k.ub = some u → l = u) (hf : ∃ a, m.FeasibleLP a) (hb : ∃ B, ∀ a, m.FeasibleLP a → B ≤ m.value a) :
    (exactLp m).status = .optimal ∧ IsOptimalLP m (exactLp m) ∧ DualFeasible m 0 (exactLp m).duals ∧
      (exactLp m).objective = m.dualValue (exactLp m).duals := by
  have h : ∃ ans : Answer, ans.status = .optimal ∧ IsOptimalLP m ans ∧ DualFeasible m 0 ans.duals ∧ ans.objective = m.dualValue ans.duals := by
    obtain ⟨a, d, h1, h2, h3, h4⟩ := LP.strong_duality_min hv hc hf hb
    refine ⟨⟨.optimal, a, d, m.value a⟩, rfl, ⟨h1, rfl, ?_⟩, h3, h4⟩
    intro a' ha'
    simp only [Model.better, hm]
    exact h2 a' ha'
  unfold exactLp
  rw [dif_pos h]
  exact h.choose_spec

theorem exactIp_spec {m : Model} (hm : m.maximize = false) (hi : ∀ v ∈ m.vars, v.int = true) (hf : ∃ a, m.Feasible a)
    (hb : ∃ B, ∀ a, m.Feasible a → B ≤ m.value a) : (exactIp m).status = .optimal ∧ IsOptimal m (exactIp m) := by
  have h : ∃ ans : Answer, ans.status = .optimal ∧ IsOptimal m ans := by
    obtain ⟨a, h1, h2⟩ := LP.exists_integer_min hi hf hb
    refine ⟨⟨.optimal, a, fun _ => 0, m.value a⟩, rfl, ⟨h1, rfl⟩, ?_⟩
    intro a' ha'
    simp only [Model.better, hm]
    exact h2 a' ha'
  unfold exactIp
  rw [dif_pos h]
  exact h.choose_spec

theorem objective_nonneg {xi w : ℕ → ℚ} {K : List Clause} (hp : 0 ≤ p) (hf : Feasible X.rows y C K xi w) : 0 ≤ objective X.rows y p K xi w := by
  unfold objective
  refine add_nonneg (mul_nonneg hp (Finset.sum_nonneg fun i hi => hf.xi_nonneg i (Finset.mem_range.1 hi))) ?_
  exact Finset.sum_nonneg fun j hj => mul_nonneg (by positivity) (hf.w_nonneg j (Finset.mem_range.1 hj))

/-- The master of a run is feasible and bounded, as a linear and as an integer program. -/
theorem master_solvable (hb : Binary X.rows y) (hC : 0 ≤ C) (hp : 0 ≤ p) (ops : List Op) :
    (∃ a, (after C p X y ops).solver.Feasible a) ∧ ∀ a, (after C p X y ops).solver.FeasibleLP a → 0 ≤ (after C p X y ops).solver.value a := by
  have hm := fun a => C22_master C p X y ops hb a
  constructor
  · set n := (pos X.rows y).length with hn
    refine ⟨fun v => if v < n then 1 else 0, ?_⟩
    obtain ⟨m1, -, -, m4⟩ := hm (fun v => if v < n then 1 else 0)
    refine m4.2 ⟨m1.2 ⟨?_, ?_, ?_, ?_⟩, ?_⟩
    · intro i _
      split <;> norm_num
    · intro j _
      split <;> norm_num
    · intro i r hi
      have hlt := (List.getElem?_eq_some_iff.1 hi).1
      rw [if_pos hlt]
      simp [covered]
    · simpa [complexity] using hC
    · intro v _
      split
      · exact ⟨1, by norm_num⟩
      · exact ⟨0, by norm_num⟩
  · intro a ha
    obtain ⟨m1, m2, -, -⟩ := hm a
    rw [m2]
    exact objective_nonneg hp (m1.1 ha)

/-- Exact answers for the masters of a run. -/
theorem exact_master (hb : Binary X.rows y) (hC : 0 ≤ C) (hp : 0 ≤ p) (ops : List Op) :
    ((exactLp (after C p X y ops).solver).status = .optimal ∧ IsOptimalLP (after C p X y ops).solver (exactLp (after C p X y ops).solver) ∧
      DualFeasible (after C p X y ops).solver 0 (exactLp (after C p X y ops).solver).duals ∧
      (exactLp (after C p X y ops).solver).objective = (after C p X y ops).solver.dualValue (exactLp (after C p X y ops).solver).duals) ∧
    (exactIp (after C p X y ops).solver).status = .optimal ∧ IsOptimal (after C p X y ops).solver (exactIp (after C p X y ops).solver) := by
  obtain ⟨h, hX, hy, -, -⟩ := after_inv C p X y ops hb.len
  obtain ⟨⟨a, ha⟩, hbd⟩ := master_solvable hb hC hp ops
  have hv : ∀ v ∈ (after C p X y ops).solver.vars, v = nonnegInt := by
    intro v hv
    rw [h.vars] at hv
    exact (List.mem_replicate.1 hv).2
  refine ⟨exactLp_spec h.max (fun v hv' => by rw [hv v hv']; exact ⟨rfl, rfl⟩) ?_ ⟨a, ha.toFeasibleLP⟩ ⟨0, hbd⟩,
    exactIp_spec h.max (fun v hv' => by rw [hv v hv']; rfl) ⟨a, ha⟩ ⟨0, fun a ha => hbd a ha.toFeasibleLP⟩⟩
  intro k hk l u hl hu
  exfalso
  obtain ⟨c, hc⟩ := List.mem_iff_getElem?.1 hk
  match c with
  | 0 =>
    rw [h.cons0] at hc
    cases hc
    simp at hl
  | c + 1 =>
    have hlt := (List.getElem?_eq_some_iff.1 hc).1
    rw [h.consLen] at hlt
    have hr := List.getElem?_eq_getElem (l := posM (after C p X y ops).X.rows (after C p X y ops).y) (i := c) (by omega)
    rw [h.consS c _ hr] at hc
    cases hc
    simp at hu

/-- Exact answers for the pricing problems of a run. -/
theorem exact_pricing (hb : Binary X.rows y) {D : ℚ} (hD : 0 ≤ D) (hist : List ((ℚ × List ℚ) × (Model → Answer))) (d : ℚ × List ℚ) (h1 : 0 ≤ d.1)
    (h2 : ∀ x ∈ d.2, 0 ≤ x) :
    (exactIp (pricingModel D X y hist d)).status = .optimal ∧ IsOptimal (pricingModel D X y hist d) (exactIp (pricingModel D X y hist d)) := by
  have hf := C27_feasible D X y hist d hb.len hD h1 h2
  rw [pricingModel_eq _ _ _ _ _ h1 h2] at hf ⊢
  have hv : ∀ v ∈ (subModel D X y d.1 d.2).vars, v = boolVar := by
    intro v hv
    exact (List.mem_replicate.1 hv).2
  exact exactIp_spec rfl (fun v h => by rw [hv v h]; rfl) hf (LP.bool_bounded_below hv)

/-- Exact solvers meet the contract. -/
theorem exact_contract (clock : Ω → ℚ × Ω) {kinds : List (List Kind)} (hb : Binary X.rows y) (hC : 0 ≤ C) (hp : 0 ≤ p)
    (hk : ∀ l i D, kindAt kinds l i = some (.exact D) → 0 ≤ D) : Contract (exact clock) C p kinds X y where
  lp ops ω := by
    have h := (exact_master hb hC hp ops).1.2.2.1
    exact ⟨h.le, h.ge, fun v hv => le_trans (by norm_num) (h.cost v hv)⟩
  mip l i D hki hist d ω h1 h2 := by
    obtain ⟨h3, h4⟩ := exact_pricing (X := X) hb (hk l i D hki) hist d h1 h2
    exact ⟨by change (exactIp _).status ≠ _; rw [h3]; simp, h4.1⟩
  ip ops ω := by
    change (exactIp _).status ≠ _
    rw [(exact_master hb hC hp ops).2.1]
    simp

end Verif.BDR
