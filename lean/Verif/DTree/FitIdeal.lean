import Verif.DTree.FitProps
import Verif.LP.Duality
import Verif.LP.Integer

/-!
# Solvers that meet the contracts of `DTreeClassifier.fit`

For every instance there are solvers that meet `FitContract` (with tolerance 0), `IpOptimal` and `PriceOptimal`: exact solvers, with any
clock, any random draws and any cut generation run. So the hypotheses of C71 - C74 about the solvers can be met for every input.
-/

set_option linter.unusedSectionVars false

namespace Verif.DTree

open MP Spec

variable {Ω : Type} {d : ℕ} {A : Args} {X : List (List ℚ)} {y : List ℤ}

open Classical in
/-- An exact LP solver. -/
noncomputable def exactLp (m : Model) : Answer :=
  if h : ∃ ans : Answer, ans.status = .optimal ∧ IsOptimalLP m ans ∧ OptimalDuals m 0 ans then h.choose else noAnswer

open Classical in
/-- An exact integer solver. -/
noncomputable def exactIp (m : Model) : Answer := if h : ∃ ans : Answer, ans.status = .optimal ∧ IsOptimal m ans then h.choose else noAnswer

open Classical in
/-- A CP-SAT run that passes an optimal solution to its callback. -/
noncomputable def exactSols (m : Model) : List (ℕ → ℚ) :=
  if h : ∃ a, m.Feasible a ∧ ∀ a', m.Feasible a' → m.better (m.value a) (m.value a') then [h.choose] else []

/-- Exact solvers with the given clock, random draws and cut generation runs. -/
noncomputable def exact (clock : Ω → ℚ × Ω) (draws : Ω → Draws × Ω) (cut : Cp → ℕ → List (ℕ → Bool)) : FitOracle Ω where
  clock := clock
  draws := draws
  sols := fun m ω => (exactSols m, ω)
  mip := fun m ω => (exactIp m, ω)
  master := ⟨fun m _ => exactLp m, cut, exactIp⟩

theorem better_max {m : Model} (hm : m.maximize = true) {x y : ℚ} : m.better x y ↔ y ≤ x := by
  unfold Model.better
  rw [hm, if_pos rfl]

theorem exactLp_spec {m : Model} (hm : LP.Standard m) (hf : ∃ a, m.FeasibleLP a) (hb : ∃ B, ∀ a, m.FeasibleLP a → m.value a ≤ B) :
    (exactLp m).status = .optimal ∧ IsOptimalLP m (exactLp m) ∧ OptimalDuals m 0 (exactLp m) := by
  have h : ∃ ans : Answer, ans.status = .optimal ∧ IsOptimalLP m ans ∧ OptimalDuals m 0 ans := by
    obtain ⟨a, y, h1, h2, h3, h4, h5⟩ := LP.strong_duality hm hf hb
    refine ⟨⟨.optimal, a, y, m.value a⟩, rfl, ⟨h1, rfl, ?_⟩, fun c k hk => (h3 c k hk).1, fun c k hk => (h3 c k hk).2, h4, h5⟩
    intro a' ha'
    unfold Model.better
    rw [hm.max, if_pos rfl]
    exact h2 a' ha'
  unfold exactLp
  rw [dif_pos h]
  exact h.choose_spec

theorem exactIp_sound (m : Model) (h : (exactIp m).status = .optimal ∨ (exactIp m).status = .feasible) : IsOptimal m (exactIp m) := by
  unfold exactIp at *
  by_cases he : ∃ ans : Answer, ans.status = .optimal ∧ IsOptimal m ans
  · rw [dif_pos he]
    exact he.choose_spec.2
  · rw [dif_neg he] at h
    rcases h with h | h <;> cases h

theorem exactIp_spec {m : Model} (hm : m.maximize = true) (hi : ∀ v ∈ m.vars, v.int = true) (hf : ∃ a, m.Feasible a)
    (hb : ∃ B, ∀ a, m.Feasible a → m.value a ≤ B) : (exactIp m).status = .optimal ∧ IsOptimal m (exactIp m) := by
  have h : ∃ ans : Answer, ans.status = .optimal ∧ IsOptimal m ans := by
    obtain ⟨a, h1, h2⟩ := LP.exists_integer_optimum hi hf hb
    refine ⟨⟨.optimal, a, fun _ => 0, m.value a⟩, rfl, ⟨h1, rfl⟩, ?_⟩
    intro a' ha'
    unfold Model.better
    rw [hm, if_pos rfl]
    exact h2 a' ha'
  unfold exactIp
  rw [dif_pos h]
  exact h.choose_spec

theorem master_standard (hf : FitOk d A X (encoded y)) {o : FitOracle Ω} (hc : CutSound o.master) {s : MS} (hs : MasterState d A X o s) :
    LP.Standard s.m ∧ ∀ v ∈ s.m.vars, v.int = true := by
  obtain ⟨cuts, own, cd, hi⟩ := reached_inv hf.setup (marked_good hf) hc hs
  have hv : ∀ v ∈ s.m.vars, v = nonnegInt := by
    intro v hv
    rw [hi.rep.vars] at hv
    obtain ⟨o, -, rfl⟩ := List.mem_map.1 hv
    rfl
  refine ⟨⟨hi.maxi, fun v h => by rw [hv v h]; exact ⟨rfl, rfl⟩, ?_⟩, fun v h => by rw [hv v h]; rfl⟩
  intro k hk l u hl hu
  rw [hi.rep.cons] at hk
  obtain ⟨c, -, rfl⟩ := List.mem_map.1 hk
  cases c <;> simp_all [sig, CD.lb, CD.ub]

/-- Exact solvers meet the contract. -/
theorem exact_contract (hf : FitOk d A X (encoded y)) (clock : Ω → ℚ × Ω) {draws : Ω → Draws × Ω} (hd : ∀ ω, Draws.Ok (draws ω).1)
    {cut : Cp → ℕ → List (ℕ → Bool)} (hcut : ∀ cp k, ∀ a ∈ cut cp k, cp.Holds a) : FitContract d A X (exact clock draws cut) 0 where
  tol_nonneg := le_refl _
  tol_le := by norm_num
  cut := hcut
  lp := fun s hs h1 h2 _ => by
    obtain ⟨h3, -, h4⟩ := exactLp_spec (master_standard (o := exact clock draws cut) hf hcut hs).1 h1 h2
    exact ⟨h3, h4⟩
  ip := fun s hs h1 h2 => by
    obtain ⟨h3, h4⟩ := master_standard (o := exact clock draws cut) hf hcut hs
    exact Or.inl (exactIp_spec h3.max h4 h1 h2).1
  ipSound := fun m h => (exactIp_sound m h).1
  draws := hd
  sols := fun m ω a ha => by
    change a ∈ exactSols m at ha
    unfold exactSols at ha
    split_ifs at ha with h
    · rw [List.mem_singleton.1 ha]
      exact h.choose_spec.1
    · simp at ha
  mip := fun m ω h => (exactIp_sound m h).1

theorem exact_ipOptimal (clock : Ω → ℚ × Ω) (draws : Ω → Draws × Ω) (cut : Cp → ℕ → List (ℕ → Bool)) : IpOptimal d A X (exact clock draws cut) :=
  fun s _ h => exactIp_sound s.m h

theorem exact_priceOptimal (clock : Ω → ℚ × Ω) (draws : Ω → Draws × Ω) (cut : Cp → ℕ → List (ℕ → Bool)) : PriceOptimal (exact clock draws cut) where
  sols := fun m ω h1 h2 h3 => by
    obtain ⟨a, h4, h5⟩ := LP.exists_integer_optimum (fun v hv => by rw [h2 v hv]; rfl) h3 (LP.bool_bounded h2)
    have h : ∃ a, m.Feasible a ∧ ∀ a', m.Feasible a' → m.better (m.value a) (m.value a') := by
      refine ⟨a, h4, ?_⟩
      intro a' ha'
      unfold Model.better
      rw [h1, if_pos rfl]
      exact h5 a' ha'
    refine ⟨h.choose, ?_, ?_⟩
    · change h.choose ∈ exactSols m
      unfold exactSols
      rw [dif_pos h]
      simp
    · intro a' ha'
      exact (better_max h1).1 (h.choose_spec.2 a' ha')
  mip := fun m ω h1 h2 h3 => exactIp_spec h1 (fun v hv => by rw [h2 v hv]; rfl) h3 (LP.bool_bounded h2)

end Verif.DTree
