import Verif.BDR.SepProps
import Verif.Fit.PointProps

/-!
# Property C144: `C` bounds the features that the answers depend on
-/

set_option linter.unusedSectionVars false

namespace Verif.BDR

open MP Spec
open Fit.Spec

variable {Ω : Type} {o : Oracle Ω} {C p : ℚ} {kinds : List (List Kind)} {X : Data} {y : List ℤ} {maxIt : ℤ} {limit : ℚ} {fuel : ℕ} {e0 : Fit.Est} {ω0 : Ω}

namespace Spec

/-- The two rows are zero at the same features of `F`. -/
def AlikeOn (F : List ℕ) (r r' : List ℚ) : Prop := ∀ j ∈ F, r.getD j 0 = 0 ↔ r'.getD j 0 = 0

/-- The method gives the same answers for batches whose rows are alike on `F`. -/
def DependsOn (f : List (List ℚ) → Except Err (List ℤ)) (F : List ℕ) : Prop := ∀ R R', List.Forall₂ (AlikeOn F) R R' → f R = f R'

end Spec

theorem satisfies_alike {r r' : List ℚ} : ∀ {c : Clause}, AlikeOn c r r' → satisfiesClause r c = satisfiesClause r' c
  | [], _ => rfl
  | j :: c, h => by
    have h1 : get r j = 0 ↔ get r' j = 0 := h j List.mem_cons_self
    have ih := satisfies_alike (c := c) (fun i hi => h i (List.mem_cons_of_mem _ hi))
    unfold satisfiesClause
    rw [ih]
    by_cases hz : get r j = 0
    · rw [if_pos hz, if_pos (h1.1 hz)]
    · rw [if_neg hz, if_neg (fun h => hz (h1.2 h))]

theorem predictRow_alike {r r' : List ℚ} : ∀ {K : List Clause}, AlikeOn K.flatten r r' → predictRow K r = predictRow K r'
  | [], _ => rfl
  | c :: K, h => by
    unfold predictRow
    rw [satisfies_alike (c := c) (fun j hj => h j (by rw [List.flatten_cons]; exact List.mem_append_left _ hj)),
      predictRow_alike (K := K) (fun j hj => h j (by rw [List.flatten_cons]; exact List.mem_append_right _ hj))]

/-- The answers of a rule depend on the features of its clauses. -/
theorem depends_flatten (cls : List ℤ) (K : List Clause) : DependsOn (predict cls K) K.flatten := by
  intro R R' h
  unfold predict
  have : R.map (fun r => (predictRow K r : ℤ)) = R'.map (fun r => (predictRow K r : ℤ)) := by
    induction h with
    | nil => rfl
    | cons h1 _ ih => rw [List.map_cons, List.map_cons, ih, predictRow_alike h1]
  simp only [this]

theorem complexity_eq : ∀ K : List Clause, (K.map (fun k => 1 + (k.length : ℚ))).sum = K.length + K.flatten.length
  | [] => by simp
  | c :: K => by
    rw [List.map_cons, List.sum_cons, complexity_eq K, List.flatten_cons, List.length_append, List.length_cons]
    push_cast
    ring

/-- **C144.** A trained rule has at most `C` clauses, and its answers depend on at most `C` minus the number of clauses features. -/
theorem C144_features (hl : y.length = X.rows.length) (h2 : (Sk.uniqueLabels y).length ≤ 2) (hp : 0 ≤ p) {u : Unit} {s}
    (hr : fitNew o C p kinds maxIt limit X fuel y e0 ω0 = some (.ok u, s)) (hip : ∀ ω, IsOptimal s.world.master.solver (o.ip s.world.master.solver ω).1) :
    ∃ F : List ℕ, (F.length : ℚ) ≤ C - s.world.master.explanation.length ∧ DependsOn (predict s.est.classes s.world.master.explanation) F := by
  obtain ⟨-, h, -⟩ := best_from (Or.inl (fresh_init ω0)) hl h2 hp hr hip
  rw [complexity_eq] at h
  exact ⟨_, by linarith, depends_flatten _ _⟩

/-- **C144.** With `C` below 2 all rows get the same answer, and with `C` below 1 this is the smallest label. -/
theorem C144_constant (hl : y.length = X.rows.length) (h2 : (Sk.uniqueLabels y).length = 2) (hp : 0 ≤ p) {u : Unit} {s}
    (hr : fitNew o C p kinds maxIt limit X fuel y e0 ω0 = some (.ok u, s)) (hip : ∀ ω, IsOptimal s.world.master.solver (o.ip s.world.master.solver ω).1)
    (hC : C < 2) : ∃ c ∈ y, (∀ R, predict s.est.classes s.world.master.explanation R = .ok (R.map (fun _ => c))) ∧ (C < 1 → ∀ b ∈ y, c ≤ b) := by
  obtain ⟨c0, c1, hcls, hlt, hc0, hc1, hy⟩ := two_labels h2
  have hcl : s.est.classes = Sk.uniqueLabels y := Fit.fit_classes hr
  obtain ⟨-, h, -⟩ := best_from (Or.inl (fresh_init ω0)) hl (le_of_eq h2) hp hr hip
  rw [complexity_eq] at h
  rw [hcl, hcls]
  generalize s.world.master.explanation = K at h
  match K, h with
  | [], _ =>
    refine ⟨c0, hc0, fun R => ?_, fun _ b hb => ?_⟩
    · rw [C20_predict]
      exact congrArg Except.ok (List.map_congr_left fun r _ => if_neg (fun ⟨k, hk, _⟩ => by cases hk))
    · rcases hy b hb with rfl | rfl
      · exact le_rfl
      · exact hlt.le
  | [[]], h =>
    refine ⟨c1, hc1, fun R => ?_, fun hC1 => ?_⟩
    · rw [C20_predict]
      exact congrArg Except.ok (List.map_congr_left fun r _ => if_pos ⟨[], by simp, by simp [Sat]⟩)
    · simp at h
      linarith
  | [j :: c], h =>
    exfalso
    have : (0 : ℚ) ≤ (c.length : ℚ) := Nat.cast_nonneg _
    simp at h
    linarith
  | a :: b :: K, h =>
    exfalso
    have h1 : (0 : ℚ) ≤ (K.length : ℚ) := Nat.cast_nonneg _
    have h2 : (0 : ℚ) ≤ ((a :: b :: K).flatten.length : ℚ) := Nat.cast_nonneg _
    rw [List.length_cons, List.length_cons] at h
    push_cast at h
    linarith

/-- **C145.** If a row gets the larger label, fewer than `C` features at which it is not zero decide this: every row that is not zero at them gets this label. -/
theorem C145_rule (hl : y.length = X.rows.length) (h2 : (Sk.uniqueLabels y).length = 2) (hp : 0 ≤ p) {u : Unit} {s}
    (hr : fitNew o C p kinds maxIt limit X fuel y e0 ω0 = some (.ok u, s)) (hip : ∀ ω, IsOptimal s.world.master.solver (o.ip s.world.master.solver ω).1)
    {row : List ℚ} {c : ℤ} (hc : predict s.est.classes s.world.master.explanation [row] = .ok [c]) (hlarge : ∃ b ∈ y, b < c) :
    ∃ F : List ℕ, (F.length : ℚ) ≤ C - 1 ∧ (∀ j ∈ F, row.getD j 0 ≠ 0) ∧
      ∀ row' : List ℚ, (∀ j ∈ F, row'.getD j 0 ≠ 0) → predict s.est.classes s.world.master.explanation [row'] = .ok [c] := by
  obtain ⟨c0, c1, hcls, hlt, hc0, hc1, hy⟩ := two_labels h2
  have hcl : s.est.classes = Sk.uniqueLabels y := Fit.fit_classes hr
  obtain ⟨-, h, -⟩ := best_from (Or.inl (fresh_init ω0)) hl (le_of_eq h2) hp hr hip
  rw [complexity_eq] at h
  rw [hcl, hcls] at hc ⊢
  generalize s.world.master.explanation = K at h hc
  rw [C20_predict] at hc
  obtain ⟨b, hb, hbc⟩ := hlarge
  by_cases hK : ∃ k ∈ K, Sat row k
  · have hcc : c = c1 := by
      have h3 := Except.ok.inj hc
      rw [List.map_cons, List.map_nil] at h3
      have h4 := (List.cons.inj h3).1
      rw [← h4]
      exact if_pos hK
    subst hcc
    obtain ⟨k, hk, hs⟩ := hK
    refine ⟨k, ?_, fun j hj => hs j hj, fun row' h' => ?_⟩
    · have h5 : k.length ≤ K.flatten.length := (List.sublist_flatten_of_mem hk).length_le
      have h6 : 1 ≤ K.length := List.length_pos_of_mem hk
      have h5' : (k.length : ℚ) ≤ (K.flatten.length : ℚ) := by exact_mod_cast h5
      have h6' : (1 : ℚ) ≤ (K.length : ℚ) := by exact_mod_cast h6
      linarith
    · rw [C20_predict]
      have : (∃ k ∈ K, Sat row' k) := ⟨k, hk, fun j hj => h' j hj⟩
      exact congrArg Except.ok (List.map_congr_left (l := [row']) (g := fun _ => c) fun r hr => by
        rw [List.mem_singleton.1 hr]
        exact if_pos this)
  · exfalso
    have h3 := Except.ok.inj hc
    rw [List.map_cons, List.map_nil] at h3
    have h4 := (List.cons.inj h3).1
    have h5 : c = c0 := by
      rw [← h4]
      exact if_neg hK
    rcases hy b hb with rfl | rfl <;> omega

end Verif.BDR
