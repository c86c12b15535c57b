import Verif.BDR.FitExamples
import Verif.Fit.Classes

/-!
# Property C130 (rules): exchanging the classes matters for a decision rule

A rule is monotone in the non-zero features, so it can describe the larger label but in general not the smaller one.
-/

set_option linter.unusedSectionVars false

namespace Verif.BDR

open MP Spec
open Fit.Spec

namespace Spec

/-- The row `r'` has all features of the row `r`. -/
def Above (r r' : List ℚ) : Prop := ∀ j, r.getD j 0 ≠ 0 → r'.getD j 0 ≠ 0

/-- The rule is right for all labelled rows: `c1` where it holds and `c0` elsewhere. -/
def Perfect (c0 c1 : ℤ) (K : List Clause) (D : List (List ℚ × ℤ)) : Prop := predict [c0, c1] K (D.map (·.1)) = .ok (D.map (·.2))

end Spec

/-- **C130.** A rule that is right for all rows of two classes exists exactly if no row of the smaller label has all features of a row of the larger one. -/
theorem C130_rule_exists {c0 c1 : ℤ} (hc : c0 < c1) (D : List (List ℚ × ℤ)) (hD : ∀ q ∈ D, q.2 = c0 ∨ q.2 = c1) :
    (∃ K, Perfect c0 c1 K D) ↔ ∀ q ∈ D, ∀ q' ∈ D, q.2 = c1 → q'.2 = c0 → ¬ Above q.1 q'.1 := by
  have hP : ∀ K, Perfect c0 c1 K D ↔ ∀ q ∈ D, (Rule K q.1 ↔ q.2 = c1) := by
    intro K
    unfold Perfect
    rw [C20_predict, Except.ok.injEq, List.map_map]
    constructor
    · intro h q hq
      have := List.map_inj_left.1 h q hq
      simp only [Function.comp] at this
      by_cases hr : Rule K q.1
      · rw [if_pos hr] at this
        exact ⟨fun _ => this.symm, fun _ => hr⟩
      · rw [if_neg hr] at this
        exact ⟨fun h => absurd h hr, fun h => by omega⟩
    · intro h
      refine List.map_congr_left fun q hq => ?_
      simp only [Function.comp]
      by_cases hr : Rule K q.1
      · rw [if_pos hr, (h q hq).1 hr]
      · rw [if_neg hr]
        rcases hD q hq with h' | h'
        · exact h'.symm
        · exact absurd ((h q hq).2 h') hr
  constructor
  · rintro ⟨K, hK⟩ q hq q' hq' h1 h0 ha
    rw [hP] at hK
    obtain ⟨k, hk, hs⟩ := (hK q hq).2 h1
    have := (hK q' hq').1 ⟨k, hk, fun j hj => ha j (hs j hj)⟩
    omega
  · intro h
    refine ⟨(D.filter (fun q => q.2 = c1)).map (fun q => (List.range q.1.length).filter (fun j => q.1.getD j 0 ≠ 0)), (hP _).2 ?_⟩
    have hsat : ∀ r r' : List ℚ, Sat r' ((List.range r.length).filter (fun j => r.getD j 0 ≠ 0)) ↔ Above r r' := by
      intro r r'
      unfold Sat Above
      constructor
      · intro hs j hj
        refine hs j (List.mem_filter.2 ⟨List.mem_range.2 ?_, by simpa using hj⟩)
        by_contra hn
        exact hj (by rw [List.getD_eq_getElem?_getD, List.getElem?_eq_none (by omega)]; rfl)
      · intro ha j hj
        exact ha j (by simpa using (List.mem_filter.1 hj).2)
    intro q hq
    constructor
    · rintro ⟨k, hk, hs⟩
      obtain ⟨p, hp, rfl⟩ := List.mem_map.1 hk
      obtain ⟨hp, hp1⟩ := List.mem_filter.1 hp
      rcases hD q hq with h' | h'
      · exact absurd ((hsat p.1 q.1).1 hs) (h p hp q hq (by simpa using hp1) h')
      · exact h'
    · intro h1
      exact ⟨_, List.mem_map.2 ⟨q, List.mem_filter.2 ⟨hq, by simpa using h1⟩, rfl⟩, (hsat q.1 q.1).2 fun j hj => hj⟩

/-- **C130.** So both labellings of the rows can be described by rules exactly if no row has all features of a row of the other class. -/
theorem C130_rule_both {c0 c1 : ℤ} (hc : c0 < c1) (D : List (List ℚ × ℤ)) (hD : ∀ q ∈ D, q.2 = c0 ∨ q.2 = c1) :
    ((∃ K, Perfect c0 c1 K D) ∧ ∃ K, Perfect c0 c1 K (D.map (fun q => (q.1, if q.2 = c0 then c1 else c0)))) ↔
      ∀ q ∈ D, ∀ q' ∈ D, q.2 ≠ q'.2 → ¬ Above q.1 q'.1 := by
  rw [C130_rule_exists hc D hD, C130_rule_exists hc _ (by
    intro q hq
    obtain ⟨p, -, rfl⟩ := List.mem_map.1 hq
    by_cases h : p.2 = c0 <;> simp [h])]
  have hne : c1 ≠ c0 := by omega
  constructor
  · rintro ⟨h1, h2⟩ q hq q' hq' hn
    rcases hD q hq with e | e <;> rcases hD q' hq' with e' | e'
    · exact absurd (e.trans e'.symm) hn
    · exact h2 (q.1, if q.2 = c0 then c1 else c0) (List.mem_map.2 ⟨q, hq, rfl⟩) (q'.1, if q'.2 = c0 then c1 else c0) (List.mem_map.2 ⟨q', hq', rfl⟩)
        (by simp [e]) (by simp [e', hne])
    · exact h1 q hq q' hq' e e'
    · exact absurd (e.trans e'.symm) hn
  · intro h
    refine ⟨fun q hq q' hq' e e' => h q hq q' hq' (by rw [e, e']; exact hne), ?_⟩
    intro q hq q' hq' e e'
    obtain ⟨p, hp, rfl⟩ := List.mem_map.1 hq
    obtain ⟨p', hp', rfl⟩ := List.mem_map.1 hq'
    refine h p hp p' hp' ?_
    intro he
    simp only [he] at e
    simp only at e'
    rw [e] at e'
    exact hne e'

namespace Demo

theorem swap_facts : (fitNew oracle 10 1 (heuristicKinds 10) (-1) 0 X 4 labels est0 0).map (fun r => (r.1.toBool, r.2.est.mpOptimal,
    (predict r.2.est.classes r.2.world.master.explanation X.rows).toOption)) = some (true, true, some labels) := by decide +kernel

/-- **C130**, what fails for rules: the demo data are learnt without error by a certified run, and with the classes exchanged no run of any kind
(solvers, parameters, pricing levels, limits) is right for all rows. -/
theorem C130_rule_swap_refuted : (∃ s, fitNew oracle 10 1 (heuristicKinds 10) (-1) 0 X 4 labels est0 0 = some (.ok (), s) ∧ s.est.mpOptimal = true ∧
      predict s.est.classes s.world.master.explanation X.rows = .ok labels) ∧
    ∀ (Ω : Type) (o : Oracle Ω) (C p : ℚ) (kinds : List (List Kind)) (maxIt : ℤ) (limit : ℚ) (fuel : ℕ) (e0 : Fit.Est) (w : World Ω)
      (res : Except Err Unit) (s : Fit.St (World Ω) (ℚ × List ℚ) Clause),
      Fit.fit (env o X kinds) (config kinds maxIt limit) fuel [4, 4, 9] e0 w = some (res, s) →
      predict s.est.classes s.world.master.explanation X.rows ≠ .ok [4, 4, 9] := by
  constructor
  · have h := swap_facts
    rcases hf : fitNew oracle 10 1 (heuristicKinds 10) (-1) 0 X 4 labels est0 0 with _ | ⟨res, s⟩
    · rw [hf] at h; cases h
    · rw [hf] at h
      simp only [Option.map_some, Option.some.injEq, Prod.mk.injEq] at h
      obtain ⟨h1, h2, h3⟩ := h
      refine ⟨s, ?_, h2, ?_⟩
      · cases res with
        | ok u => rfl
        | error e => cases h1
      · cases hp : predict s.est.classes s.world.master.explanation X.rows with
        | ok v => rw [hp] at h3; cases h3; rfl
        | error e => rw [hp] at h3; cases h3
  · intro Ω o C p kinds maxIt limit fuel e0 w res s hr hp
    have hcl : s.est.classes = [4, 9] := by rw [Fit.fit_classes hr]; decide +kernel
    rw [hcl] at hp
    have : ∃ K, Perfect 4 9 K [([1, 0], 4), ([0, 1], 4), ([0, 0], 9)] := ⟨_, hp⟩
    rw [C130_rule_exists (by norm_num) _ (by decide)] at this
    refine this ([0, 0], 9) (by simp) ([1, 0], 4) (by simp) rfl rfl ?_
    intro j hj
    exact absurd (by rcases j with _ | _ | j <;> rfl) hj

/-- Rows where both labellings can be described: neither has all features of the other. -/
example : (∃ K, Perfect 4 9 K [([1, 0], 4), ([0, 1], 9)]) ∧ ∃ K, Perfect 4 9 K [([1, 0], 9), ([0, 1], 4)] :=
  ⟨⟨[[1]], by unfold Perfect; decide +kernel⟩, ⟨[[0]], by unfold Perfect; decide +kernel⟩⟩

end Demo

end Verif.BDR
