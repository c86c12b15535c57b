import Verif.BDR.SparseRuleDemo
import Mathlib.Algebra.Order.Archimedean.Basic

/-!
# Property C153: a rule classifier is never trained with a negative bound or a negative penalty
-/

namespace Verif.BDR

open MP Spec
open Fit.Spec

variable {Ω : Type} {o : Oracle Ω} {C p : ℚ} {kinds : List (List Kind)} {X : Data} {y : List ℤ} {maxIt : ℤ} {limit : ℚ} {fuel : ℕ} {e0 : Fit.Est} {ω0 : Ω}

namespace Spec

/-- The answers of the integer solver that it calls optimal or feasible are solutions. -/
def SoundIp (o : Oracle Ω) : Prop := ∀ m ω, (o.ip m ω).1.status ≠ .other → IsSolution m (o.ip m ω).1

/-- The integer solver runs until it has an optimal solution or knows that there is none. -/
def ExactIp (o : Oracle Ω) : Prop := ∀ m ω, (o.ip m ω).1.status ≠ .other → IsOptimal m (o.ip m ω).1

end Spec

theorem ip_status {py : List ℕ} (hb : Binary X.rows py) {ops : List Op} {solve : Model → Answer} {s' : Master}
    (hr : (after C p X py ops).solveIp solve = (.ok true, s')) : (solve (after C p X py ops).solver).status ≠ .other := by
  obtain ⟨h, -⟩ := after_inv C p X py ops hb.len
  intro hc
  rw [h.explanation_other solve hc] at hr
  cases hr

/-- There is a row of the larger label. -/
theorem pos_pos (hl : y.length = X.rows.length) (h2 : (Sk.uniqueLabels y).length = 2) : 0 < (pos X.rows (encoded y)).length := by
  obtain ⟨c0, c1, hcls, hlt, hc0, hc1, hy⟩ := two_labels h2
  obtain ⟨i, hi, hi'⟩ := List.mem_iff_getElem.1 hc1
  have e1 : (encoded y)[i]? = some 1 := by
    have : encoded y = y.map (fun v => (Sk.uniqueLabels y).idxOf v) := rfl
    rw [this, hcls, List.getElem?_map, List.getElem?_eq_getElem hi, hi']
    simp [List.idxOf_cons_ne _ hlt.ne]
  have hx : X.rows[i]? = some (X.rows[i]'(by omega)) := List.getElem?_eq_getElem _
  apply List.length_pos_of_mem (a := X.rows[i]'(by omega))
  refine List.mem_map.2 ⟨(X.rows[i]'(by omega), 1), List.mem_filter.2 ⟨?_, by simp⟩, rfl⟩
  exact List.mem_of_getElem? (i := i) (by rw [List.getElem?_zip_eq_some]; exact ⟨hx, e1⟩)

theorem not_returned (h : ∀ u s, fitNew o C p kinds maxIt limit X fuel y e0 ω0 ≠ some (.ok u, s)) {r s}
    (hr : fitNew o C p kinds maxIt limit X fuel y e0 ω0 = some (r, s)) : (∃ er, r = .error er) ∧ s.est.isFitted = e0.isFitted := by
  match r, hr with
  | .ok u, hr => exact absurd hr (h u s)
  | .error er, hr => exact ⟨⟨er, rfl⟩, (Fit.C10_raises hr).1⟩

/-- **C153.** With `C < 0` a call of `fit` that ends raises an exception and does not mark the classifier as fitted. -/
theorem C153_bound (hl : y.length = X.rows.length) (h2 : (Sk.uniqueLabels y).length ≤ 2) (hC : C < 0) (ho : SoundIp o) {r s}
    (hr : fitNew o C p kinds maxIt limit X fuel y e0 ω0 = some (r, s)) : (∃ er, r = .error er) ∧ s.est.isFitted = e0.isFitted := by
  refine not_returned (fun u s hr => ?_) hr
  have hb := encoded_binary hl h2
  obtain ⟨ops, ω, e, -⟩ := fit_ip hl hr
  have := C24_complexity C p X (encoded y) ops _ _ hb (ho _ ω (ip_status hb e)) e
  rw [complexity_eq] at this
  have h1 : (0 : ℚ) ≤ (s.world.master.explanation.length : ℚ) := Nat.cast_nonneg _
  have h3 : (0 : ℚ) ≤ (s.world.master.explanation.flatten.length : ℚ) := Nat.cast_nonneg _
  linarith

/-- **C153.** The same with `p < 0`, two labels and an integer solver that stops only with an optimal solution: the program is unbounded. -/
theorem C153_penalty (hl : y.length = X.rows.length) (h2 : (Sk.uniqueLabels y).length = 2) (hp : p < 0) (ho : ExactIp o) {r s}
    (hr : fitNew o C p kinds maxIt limit X fuel y e0 ω0 = some (r, s)) : (∃ er, r = .error er) ∧ s.est.isFitted = e0.isFitted := by
  rcases lt_or_ge C 0 with hC | hC
  · exact C153_bound hl h2.le hC (fun m ω h => (ho m ω h).1) hr
  refine not_returned (fun u s hr => ?_) hr
  have hb := encoded_binary hl h2.le
  obtain ⟨ops, ω, e, -⟩ := fit_ip hl hr
  have hopt := ho _ ω (ip_status hb e)
  have hn := pos_pos hl h2
  have key : ∀ N : ℕ, (o.ip (after C p X (encoded y) ops).solver ω).1.objective ≤ p * ((N : ℚ) + 1) := by
    intro N
    refine (ip_le hb ops hopt (fun _ => (N : ℚ) + 1) (fun _ => 0) (fun _ => ⟨N + 1, by push_cast; rfl⟩) (fun _ => ⟨0, by simp⟩)
      ⟨fun _ _ => by positivity, fun _ _ => le_rfl, fun _ _ _ => by simp [covered], by simpa [complexity] using hC⟩).trans ?_
    have h1 : (1 : ℚ) ≤ ((pos X.rows (encoded y)).length : ℚ) := by exact_mod_cast hn
    have h0 : (0 : ℚ) ≤ (N : ℚ) := Nat.cast_nonneg _
    simp only [objective, Finset.sum_const, Finset.card_range, nsmul_eq_mul, mul_zero, add_zero]
    nlinarith [mul_nonneg (sub_nonneg.2 h1) (by linarith : (0 : ℚ) ≤ (N : ℚ) + 1)]
  generalize (o.ip (after C p X (encoded y) ops).solver ω).1.objective = v at key
  obtain ⟨N, hN⟩ := exists_nat_gt (v / p)
  have h3 := key N
  have h4 : p * ((N : ℚ) + 1) < p * (v / p) := mul_lt_mul_of_neg_left (by linarith) hp
  rw [mul_div_cancel₀ _ hp.ne] at h4
  linarith

/-- **C153.** Such a call always ends: with the exception. -/
theorem C153_raises (hl : y.length = X.rows.length) (h2 : (Sk.uniqueLabels y).length = 2) (hn : C < 0 ∨ p < 0) (ho : ExactIp o) :
    ∃ er s, fitNew o C p kinds maxIt limit X (2 ^ X.nFeat) y e0 ω0 = some (.error er, s) ∧ s.est.isFitted = e0.isFitted := by
  obtain ⟨⟨r, s⟩, h, -⟩ := C32_terminates o C p kinds maxIt limit X y e0 ω0 hl
  have : (∃ er, r = .error er) ∧ s.est.isFitted = e0.isFitted :=
    hn.elim (fun hC => C153_bound hl h2.le hC (fun m ω h => (ho m ω h).1) h) (fun hp => C153_penalty hl h2 hp ho h)
  obtain ⟨⟨er, rfl⟩, h1⟩ := this
  exact ⟨er, s, h, h1⟩

namespace NegativeDemo

open Demo

/-- The exact solvers meet both hypotheses. -/
theorem exact_ok : ExactIp (exact (fun _ : Unit => (0, ()))) := by
  intro m ω h
  change (exactIp m).status ≠ .other at h
  change IsOptimal m (exactIp m)
  unfold exactIp at h ⊢
  split_ifs at h ⊢ with hx
  · exact hx.choose_spec.2
  · exact absurd rfl h

/-- With exact solvers the data of the demonstration give a trained classifier for `C = 0` and `p = 1`, none for `C = -1` and none for `p = -1`. -/
example : (∃ s, fitNew (exact (fun _ : Unit => (0, ()))) 0 1 (heuristicKinds 0) (-1) 0 Demo.X (2 ^ Demo.X.nFeat) labels est0 () = some (.ok (), s)) ∧
    (∀ fuel s, fitNew (exact (fun _ : Unit => (0, ()))) (-1) 1 (heuristicKinds (-1)) (-1) 0 Demo.X fuel labels est0 () ≠ some (.ok (), s)) ∧
    ∀ fuel s, fitNew (exact (fun _ : Unit => (0, ()))) 5 (-1) (heuristicKinds 5) (-1) 0 Demo.X fuel labels est0 () ≠ some (.ok (), s) := by
  refine ⟨?_, fun fuel s h => ?_, fun fuel s h => ?_⟩
  · obtain ⟨s, h, -⟩ := SparseRuleDemo.run_hyps 0 le_rfl
    exact ⟨s, h⟩
  · obtain ⟨⟨er, h1⟩, -⟩ := C153_bound (by decide) (by decide) (by norm_num) (fun m ω h => (exact_ok m ω h).1) h
    cases h1
  · obtain ⟨⟨er, h1⟩, -⟩ := C153_penalty (by decide) (by decide) (by norm_num) exact_ok h
    cases h1

/-- The call with `C = -1` ends, and the new classifier stays unfitted. -/
example : ∃ er s, fitNew (exact (fun _ : Unit => (0, ()))) (-1) 1 (heuristicKinds (-1)) (-1) 0 Demo.X (2 ^ Demo.X.nFeat) labels est0 () = some (.error er, s) ∧
    s.est.isFitted = false :=
  C153_raises (by decide) (by decide) (Or.inl (by norm_num)) exact_ok

end NegativeDemo

end Verif.BDR
