import Verif.MP
import Mathlib.Algebra.BigOperators.Field
import Mathlib.Tactic.FieldSimp
import Mathlib.Tactic.Positivity

/-!
# Linear programming duality over the rationals

Fourier-Motzkin elimination, and from it: a feasible and bounded linear program has an optimal solution and optimal duals. This is not part of the
model of the code; it shows that the contracts demanded of LP solvers can be met.
-/

namespace Verif.LP

open MP

/-- Inequalities `Σ f i * x i ≤ b`, derivable from a list of such inequalities by nonnegative combinations. -/
inductive Der (L : List ((ℕ → ℚ) × ℚ)) : (ℕ → ℚ) → ℚ → Prop
  | zero : Der L (fun _ => 0) 0
  | base {r : (ℕ → ℚ) × ℚ} (h : r ∈ L) : Der L r.1 r.2
  | add {f g : ℕ → ℚ} {b c : ℚ} (h1 : Der L f b) (h2 : Der L g c) : Der L (fun i => f i + g i) (b + c)
  | smul {f : ℕ → ℚ} {b : ℚ} (c : ℚ) (hc : 0 ≤ c) (h : Der L f b) : Der L (fun i => c * f i) (c * b)

/-- `x` satisfies the inequalities in the first `n` variables. -/
def Sat (n : ℕ) (L : List ((ℕ → ℚ) × ℚ)) (x : ℕ → ℚ) : Prop := ∀ r ∈ L, activity n r.1 x ≤ r.2

theorem Der.sat {n : ℕ} {L : List ((ℕ → ℚ) × ℚ)} {x : ℕ → ℚ} (hx : Sat n L x) {f : ℕ → ℚ} {b : ℚ} (h : Der L f b) : activity n f x ≤ b := by
  induction h with
  | zero => simp [activity]
  | base h => exact hx _ h
  | add _ _ h1 h2 =>
    unfold activity at *
    simp only [add_mul, Finset.sum_add_distrib]
    linarith
  | smul c hc _ h =>
    unfold activity at *
    have : ∀ f : ℕ → ℚ, ∑ i ∈ Finset.range n, c * f i * x i = c * ∑ i ∈ Finset.range n, f i * x i := by
      intro f
      rw [Finset.mul_sum]
      exact Finset.sum_congr rfl (fun i _ => by ring)
    rw [this]
    exact mul_le_mul_of_nonneg_left h hc

theorem Der.trans {L L' : List ((ℕ → ℚ) × ℚ)} (h : ∀ r ∈ L', Der L r.1 r.2) {f : ℕ → ℚ} {b : ℚ} (hd : Der L' f b) : Der L f b := by
  induction hd with
  | zero => exact .zero
  | base h' => exact h _ h'
  | add _ _ h1 h2 => exact .add h1 h2
  | smul c hc _ h => exact .smul c hc h

theorem exists_max (l : List ℚ) (hl : l ≠ []) : ∃ m ∈ l, ∀ x ∈ l, x ≤ m := by
  induction l with
  | nil => exact absurd rfl hl
  | cons a l ih =>
    by_cases h : l = []
    · subst h
      exact ⟨a, by simp, by simp⟩
    · obtain ⟨m, hm, hm'⟩ := ih h
      rcases le_total a m with h1 | h1
      · refine ⟨m, by simp [hm], ?_⟩
        intro x hx
        rcases List.mem_cons.1 hx with rfl | hx
        · exact h1
        · exact hm' x hx
      · refine ⟨a, by simp, ?_⟩
        intro x hx
        rcases List.mem_cons.1 hx with rfl | hx
        · exact le_refl _
        · exact (hm' x hx).trans h1

theorem exists_min (l : List ℚ) (hl : l ≠ []) : ∃ m ∈ l, ∀ x ∈ l, m ≤ x := by
  obtain ⟨m, hm, h⟩ := exists_max (l.map (fun x => -x)) (by simpa using hl)
  obtain ⟨a, ha, rfl⟩ := List.mem_map.1 hm
  refine ⟨a, ha, ?_⟩
  intro x hx
  have := h (-x) (List.mem_map.2 ⟨x, hx, rfl⟩)
  linarith

theorem exists_between (lo up : List ℚ) (h : ∀ a ∈ lo, ∀ b ∈ up, a ≤ b) : ∃ t, (∀ a ∈ lo, a ≤ t) ∧ ∀ b ∈ up, t ≤ b := by
  by_cases hl : lo = []
  · by_cases hu : up = []
    · subst hl hu
      exact ⟨0, by simp, by simp⟩
    · obtain ⟨m, hm, hm'⟩ := exists_min up hu
      exact ⟨m, by simp [hl], hm'⟩
  · obtain ⟨m, hm, hm'⟩ := exists_max lo hl
    exact ⟨m, hm', h m hm⟩

theorem activity_succ (n : ℕ) (f x : ℕ → ℚ) : activity (n + 1) f x = activity n f x + f n * x n := by
  unfold activity
  rw [Finset.sum_range_succ]

theorem activity_upd (n : ℕ) (f x : ℕ → ℚ) (t : ℚ) : activity (n + 1) f (Function.update x n t) = activity n f x + f n * t := by
  rw [activity_succ, Function.update_self]
  congr 1
  refine activity_congr ?_
  intro i hi
  rw [Function.update_of_ne (by omega)]

/-- Elimination of one variable. -/
theorem eliminate (n : ℕ) (L : List ((ℕ → ℚ) × ℚ)) :
    ∃ L' : List ((ℕ → ℚ) × ℚ), (∀ r ∈ L', Der L r.1 r.2 ∧ r.1 n = 0 ∧ ∀ i, (∀ q ∈ L, q.1 i = 0) → r.1 i = 0) ∧
      ∀ x, Sat n L' x → ∃ t, Sat (n + 1) L (Function.update x n t) := by
  let P := L.filter (fun r => decide (0 < r.1 n))
  let N := L.filter (fun r => decide (r.1 n < 0))
  let Z := L.filter (fun r => decide (r.1 n = 0))
  let comb : ((ℕ → ℚ) × ℚ) → ((ℕ → ℚ) × ℚ) → ((ℕ → ℚ) × ℚ) := fun p q =>
    (fun i => (p.1 n)⁻¹ * p.1 i + (-(q.1 n))⁻¹ * q.1 i, (p.1 n)⁻¹ * p.2 + (-(q.1 n))⁻¹ * q.2)
  refine ⟨Z ++ P.flatMap (fun p => N.map (fun q => comb p q)), ?_, ?_⟩
  · intro r hr
    rcases List.mem_append.1 hr with hr | hr
    · obtain ⟨h1, h2⟩ := List.mem_filter.1 hr
      exact ⟨.base h1, by simpa using h2, fun i hi => hi r h1⟩
    · obtain ⟨p, hp, hr⟩ := List.mem_flatMap.1 hr
      obtain ⟨q, hq, rfl⟩ := List.mem_map.1 hr
      obtain ⟨p1, p2⟩ := List.mem_filter.1 hp
      obtain ⟨q1, q2⟩ := List.mem_filter.1 hq
      have p2 : 0 < p.1 n := by simpa using p2
      have q2 : q.1 n < 0 := by simpa using q2
      refine ⟨.add (.smul _ (by positivity) (.base p1)) (.smul _ (inv_nonneg.2 (by linarith)) (.base q1)), ?_, ?_⟩
      · change (p.1 n)⁻¹ * p.1 n + (-(q.1 n))⁻¹ * q.1 n = 0
        have : q.1 n ≠ 0 := ne_of_lt q2
        field_simp
        ring
      · intro i hi
        change (p.1 n)⁻¹ * p.1 i + (-(q.1 n))⁻¹ * q.1 i = 0
        rw [hi p p1, hi q q1]
        ring
  · intro x hx
    obtain ⟨t, h1, h2⟩ := exists_between (N.map (fun q => (activity n q.1 x - q.2) / (-(q.1 n)))) (P.map (fun p => (p.2 - activity n p.1 x) / p.1 n)) (by
      intro a ha b hb
      obtain ⟨q, hq, rfl⟩ := List.mem_map.1 ha
      obtain ⟨p, hp, rfl⟩ := List.mem_map.1 hb
      have p2 : 0 < p.1 n := by simpa using (List.mem_filter.1 hp).2
      have q2 : q.1 n < 0 := by simpa using (List.mem_filter.1 hq).2
      have := hx (comb p q) (List.mem_append_right _ (List.mem_flatMap.2 ⟨p, hp, List.mem_map.2 ⟨q, hq, rfl⟩⟩))
      have e : activity n (comb p q).1 x = (p.1 n)⁻¹ * activity n p.1 x + (-(q.1 n))⁻¹ * activity n q.1 x := by
        unfold activity
        rw [Finset.mul_sum, Finset.mul_sum, ← Finset.sum_add_distrib]
        exact Finset.sum_congr rfl (fun i _ => by change ((p.1 n)⁻¹ * p.1 i + (-(q.1 n))⁻¹ * q.1 i) * x i = _; ring)
      rw [e] at this
      change _ ≤ (p.1 n)⁻¹ * p.2 + (-(q.1 n))⁻¹ * q.2 at this
      rw [div_eq_inv_mul, div_eq_inv_mul, mul_sub, mul_sub]
      linarith)
    refine ⟨t, ?_⟩
    intro r hr
    rw [activity_upd]
    rcases lt_trichotomy (r.1 n) 0 with h | h | h
    · have := h1 _ (List.mem_map.2 ⟨r, List.mem_filter.2 ⟨hr, by simpa using h⟩, rfl⟩)
      rw [div_le_iff₀ (by linarith)] at this
      linarith
    · have := hx r (List.mem_append_left _ (List.mem_filter.2 ⟨hr, by simpa using h⟩))
      rw [h]
      linarith
    · have := h2 _ (List.mem_map.2 ⟨r, List.mem_filter.2 ⟨hr, by simpa using h⟩, rfl⟩)
      rw [le_div_iff₀ h] at this
      linarith

/-- Elimination of all variables but the first `k`. -/
theorem project (k n : ℕ) : ∀ L : List ((ℕ → ℚ) × ℚ), ∃ L' : List ((ℕ → ℚ) × ℚ),
    (∀ r ∈ L', Der L r.1 r.2 ∧ ∀ i, k ≤ i → i < k + n → r.1 i = 0) ∧
      ∀ x, Sat k L' x → ∃ x', (∀ i < k, x' i = x i) ∧ Sat (k + n) L x' := by
  induction n with
  | zero => exact fun L => ⟨L, fun r hr => ⟨.base hr, fun i h1 h2 => by omega⟩, fun x hx => ⟨x, fun _ _ => rfl, hx⟩⟩
  | succ n ih =>
    intro L
    obtain ⟨L1, h1, h2⟩ := eliminate (k + n) L
    obtain ⟨L2, h3, h4⟩ := ih L1
    refine ⟨L2, ?_, ?_⟩
    · intro r hr
      obtain ⟨h5, h6⟩ := h3 r hr
      refine ⟨h5.trans (fun q hq => (h1 q hq).1), ?_⟩
      intro i hi hi'
      by_cases e : i = k + n
      · subst e
        clear h6 hi hi'
        have : ∀ {f : ℕ → ℚ} {b : ℚ}, Der L1 f b → f (k + n) = 0 := by
          intro f b hd
          induction hd with
          | zero => rfl
          | base h => exact (h1 _ h).2.1
          | add _ _ a b => simp only [a, b, add_zero]
          | smul c _ _ a => simp only [a, mul_zero]
        exact this h5
      · exact h6 i hi (by omega)
    · intro x hx
      obtain ⟨x1, h5, h6⟩ := h4 x hx
      obtain ⟨t, ht⟩ := h2 x1 h6
      refine ⟨Function.update x1 (k + n) t, ?_, ht⟩
      intro i hi
      rw [Function.update_of_ne (by omega), h5 i hi]

/-- A maximisation program over nonnegative variables, all of whose constraints are one-sided or equations. -/
structure Standard (m : Model) : Prop where
  max : m.maximize = true
  vars : ∀ v ∈ m.vars, v.lb = some 0 ∧ v.ub = none
  cons : ∀ k ∈ m.cons, ∀ l u, k.lb = some l → k.ub = some u → l = u

/-- The coefficients of the constraint `c`. -/
def coeffAt (m : Model) (c i : ℕ) : ℚ := ((m.cons[c]?).map (fun k => k.coeff i)).getD 0

def rhsAt (m : Model) (c : ℕ) : ℚ := ((m.cons[c]?).map Cons.rhs).getD 0

/-- Shifting the variables by one; the value of the objective becomes variable 0. -/
def shift (f : ℕ → ℚ) (z : ℚ) : ℕ → ℚ
  | 0 => z
  | i + 1 => f i

/-- The inequalities of the program, with variable 0 at most the objective. -/
def rows (m : Model) : List ((ℕ → ℚ) × ℚ) :=
  [(shift (fun i => - m.obj i) 1, 0)] ++
  (List.range m.vars.length).map (fun i => (shift (fun j => if j = i then -1 else 0) 0, 0)) ++
  m.cons.flatMap (fun k => (k.ub.toList.map (fun u => (shift k.coeff 0, u))) ++ (k.lb.toList.map (fun l => (shift (fun i => - k.coeff i) 0, -l))))

theorem activity_shift (n : ℕ) (f : ℕ → ℚ) (z : ℚ) (x : ℕ → ℚ) : activity (n + 1) (shift f z) x = z * x 0 + activity n f (fun i => x (i + 1)) := by
  unfold activity
  rw [Finset.sum_range_succ']
  simp only [shift]
  ring

theorem activity_neg (n : ℕ) (f x : ℕ → ℚ) : activity n (fun i => - f i) x = - activity n f x := by
  unfold activity
  rw [← Finset.sum_neg_distrib]
  exact Finset.sum_congr rfl (fun i _ => by ring)

theorem sat_rows {m : Model} (hm : Standard m) (x : ℕ → ℚ) :
    Sat (m.vars.length + 1) (rows m) x ↔ x 0 ≤ activity m.vars.length m.obj (fun i => x (i + 1)) ∧ m.FeasibleLP (fun i => x (i + 1)) := by
  unfold Sat rows
  simp only [List.mem_append, List.mem_singleton, List.mem_map, List.mem_range, List.mem_flatMap, Option.mem_toList]
  constructor
  · intro h
    refine ⟨?_, ?_, ?_⟩
    · have := h (shift (fun i => - m.obj i) 1, 0) (Or.inl (Or.inl rfl))
      rw [activity_shift, activity_neg] at this
      simp only at this
      linarith
    · intro i v hv
      obtain ⟨h1, h2⟩ := hm.vars v (List.mem_of_getElem? hv)
      rw [h1, h2, inBounds_nonneg]
      have hlt := (List.getElem?_eq_some_iff.1 hv).1
      have := h (shift (fun j => if j = i then -1 else 0) 0, 0) (Or.inl (Or.inr ⟨i, hlt, rfl⟩))
      rw [activity_shift] at this
      simp only [activity, ite_mul, zero_mul, neg_mul, one_mul, Finset.sum_ite_eq', Finset.mem_range, hlt, if_true] at this
      linarith
    · intro c k hk
      have hmem := List.mem_of_getElem? hk
      refine ⟨?_, ?_⟩
      · intro l hl
        have := h (shift (fun i => - k.coeff i) 0, -l) (Or.inr ⟨k, hmem, Or.inr ⟨l, hl, rfl⟩⟩)
        rw [activity_shift, activity_neg] at this
        simp only at this
        linarith
      · intro u hu
        have := h (shift k.coeff 0, u) (Or.inr ⟨k, hmem, Or.inl ⟨u, hu, rfl⟩⟩)
        rw [activity_shift] at this
        simp only at this
        linarith
  · rintro ⟨h0, hb, hc⟩ r ((rfl | ⟨i, hi, rfl⟩) | ⟨k, hk, (⟨u, hu, rfl⟩ | ⟨l, hl, rfl⟩)⟩)
    · rw [activity_shift, activity_neg]
      linarith
    · rw [activity_shift]
      have hv := List.getElem?_eq_getElem hi
      have := hb i _ hv
      obtain ⟨h1, h2⟩ := hm.vars _ (List.getElem_mem hi)
      rw [h1, h2, inBounds_nonneg] at this
      simp only [activity, ite_mul, zero_mul, neg_mul, one_mul, Finset.sum_ite_eq', Finset.mem_range, hi, if_true]
      linarith
    · obtain ⟨c, hc'⟩ := List.getElem?_of_mem hk
      have := (hc c k hc').2 u hu
      rw [activity_shift]
      simp only
      linarith
    · obtain ⟨c, hc'⟩ := List.getElem?_of_mem hk
      have := (hc c k hc').1 l hl
      rw [activity_shift, activity_neg]
      simp only
      linarith

/-- What a derivation says about multipliers of the constraints. -/
def Mult (m : Model) (f : ℕ → ℚ) (b : ℚ) : Prop :=
  ∃ y : ℕ → ℚ, (∀ (c : ℕ) (k : Cons), m.cons[c]? = some k → (k.lb = none → 0 ≤ y c) ∧ (k.ub = none → y c ≤ 0)) ∧
    (∀ i < m.vars.length, f (i + 1) ≤ - f 0 * m.obj i + ∑ c ∈ Finset.range m.cons.length, y c * coeffAt m c i) ∧
    b = ∑ c ∈ Finset.range m.cons.length, y c * rhsAt m c

theorem sum_single (n : ℕ) (c : ℕ) (hc : c < n) (v : ℚ) (g : ℕ → ℚ) : ∑ i ∈ Finset.range n, (if i = c then v else 0) * g i = v * g c := by
  simp [ite_mul, Finset.sum_ite_eq', hc]

theorem mult_of_der {m : Model} (hm : Standard m) {f : ℕ → ℚ} {b : ℚ} (h : Der (rows m) f b) : Mult m f b := by
  induction h with
  | zero => exact ⟨fun _ => 0, by simp, by simp, by simp⟩
  | base h =>
    unfold rows at h
    simp only [List.mem_append, List.mem_singleton, List.mem_map, List.mem_range, List.mem_flatMap, Option.mem_toList] at h
    rcases h with (rfl | ⟨i, hi, rfl⟩) | ⟨k, hk, (⟨u, hu, rfl⟩ | ⟨l, hl, rfl⟩)⟩
    · exact ⟨fun _ => 0, by simp, by simp [shift], by simp⟩
    · refine ⟨fun _ => 0, by simp, ?_, by simp⟩
      intro j _
      simp only [shift, neg_zero, zero_mul, Finset.sum_const_zero, add_zero]
      split_ifs <;> norm_num
    · obtain ⟨c, hc⟩ := List.getElem?_of_mem hk
      have hlt := (List.getElem?_eq_some_iff.1 hc).1
      refine ⟨fun j => if j = c then 1 else 0, ?_, ?_, ?_⟩
      · intro c' k' hk'
        refine ⟨fun _ => by simp only; split_ifs <;> norm_num, ?_⟩
        intro hn
        by_cases e : c' = c
        · subst e
          rw [hk'] at hc
          cases hc
          rw [hn] at hu
          cases hu
        · simp [e]
      · intro i hi
        rw [sum_single _ _ hlt]
        simp [shift, coeffAt, hc]
      · rw [sum_single _ _ hlt]
        simp only [rhsAt, hc, Option.map_some, Option.getD_some, Cons.rhs, one_mul]
        cases hl : k.lb with
        | none => simp [hu]
        | some l => simp [hm.cons k hk l u hl hu]
    · obtain ⟨c, hc⟩ := List.getElem?_of_mem hk
      have hlt := (List.getElem?_eq_some_iff.1 hc).1
      refine ⟨fun j => if j = c then -1 else 0, ?_, ?_, ?_⟩
      · intro c' k' hk'
        refine ⟨?_, fun _ => by simp only; split_ifs <;> norm_num⟩
        intro hn
        by_cases e : c' = c
        · subst e
          rw [hk'] at hc
          cases hc
          rw [hn] at hl
          cases hl
        · simp [e]
      · intro i hi
        rw [sum_single _ _ hlt]
        simp [shift, coeffAt, hc]
      · rw [sum_single _ _ hlt]
        simp [rhsAt, hc, Cons.rhs, hl]
  | add _ _ h1 h2 =>
    obtain ⟨y, a1, a2, a3⟩ := h1
    obtain ⟨z, b1, b2, b3⟩ := h2
    refine ⟨fun c => y c + z c, ?_, ?_, ?_⟩
    · intro c k hk
      exact ⟨fun hn => add_nonneg ((a1 c k hk).1 hn) ((b1 c k hk).1 hn), fun hn => add_nonpos ((a1 c k hk).2 hn) ((b1 c k hk).2 hn)⟩
    · intro i hi
      have h1 := a2 i hi
      have h2 := b2 i hi
      simp only [add_mul, Finset.sum_add_distrib]
      linarith
    · simp only [add_mul, Finset.sum_add_distrib]
      rw [a3, b3]
  | smul c hc _ h =>
    obtain ⟨y, a1, a2, a3⟩ := h
    refine ⟨fun j => c * y j, ?_, ?_, ?_⟩
    · intro j k hk
      exact ⟨fun hn => mul_nonneg hc ((a1 j k hk).1 hn), fun hn => mul_nonpos_of_nonneg_of_nonpos hc ((a1 j k hk).2 hn)⟩
    · intro i hi
      have h1 := mul_le_mul_of_nonneg_left (a2 i hi) hc
      simp only [mul_assoc, ← Finset.mul_sum]
      linarith
    · simp only [mul_assoc, ← Finset.mul_sum]
      rw [a3]

/-- A feasible and bounded program has an optimal solution and multipliers that prove it. -/
theorem strong_duality {m : Model} (hm : Standard m) (hf : ∃ a, m.FeasibleLP a) (hb : ∃ B, ∀ a, m.FeasibleLP a → m.value a ≤ B) :
    ∃ (a y : ℕ → ℚ), m.FeasibleLP a ∧ (∀ a', m.FeasibleLP a' → m.value a' ≤ m.value a) ∧
      (∀ (c : ℕ) (k : Cons), m.cons[c]? = some k → (k.lb = none → 0 ≤ y c) ∧ (k.ub = none → y c ≤ 0)) ∧
      (∀ v < m.vars.length, m.reducedCost y v ≤ 0) ∧ m.dualValue y = m.value a := by
  obtain ⟨a0, ha0⟩ := hf
  obtain ⟨B, hB⟩ := hb
  obtain ⟨L, h1, h2⟩ := project 1 m.vars.length (rows m)
  have hone : ∀ (r : (ℕ → ℚ) × ℚ) (x : ℕ → ℚ), activity 1 r.1 x = r.1 0 * x 0 := by
    intro r x
    simp [activity]
  have hfeas : ∀ a, m.FeasibleLP a → ∀ r ∈ L, r.1 0 * activity m.vars.length m.obj a ≤ r.2 := by
    intro a ha r hr
    have hs : Sat (m.vars.length + 1) (rows m) (shift a (activity m.vars.length m.obj a)) := (sat_rows hm _).2 ⟨le_refl _, ha⟩
    have := (h1 r hr).1.sat hs
    rw [add_comm, activity_add] at this
    have hz : ∑ j ∈ Finset.range m.vars.length, r.1 (1 + j) * shift a (activity m.vars.length m.obj a) (1 + j) = 0 := by
      refine Finset.sum_eq_zero ?_
      intro j hj
      rw [(h1 r hr).2 (1 + j) (by omega) (by have := Finset.mem_range.1 hj; omega), zero_mul]
    rw [hz, add_zero, hone] at this
    exact this
  have hback : ∀ t : ℚ, (∀ r ∈ L, r.1 0 * t ≤ r.2) → ∃ a, m.FeasibleLP a ∧ t ≤ activity m.vars.length m.obj a := by
    intro t ht
    obtain ⟨x, hx0, hx⟩ := h2 (fun _ => t) (fun r hr => by rw [hone]; exact ht r hr)
    rw [add_comm] at hx
    obtain ⟨h3, h4⟩ := (sat_rows hm x).1 hx
    rw [hx0 0 (by omega)] at h3
    exact ⟨_, h4, h3⟩
  set up := L.filter (fun r => decide (0 < r.1 0)) with hup
  have hne : up ≠ [] := by
    intro he
    obtain ⟨a, ha, hle⟩ := hback (max (activity m.vars.length m.obj a0) (B - m.offset + 1)) (by
      intro r hr
      have hneg : r.1 0 ≤ 0 := by
        by_contra hpos
        have : r ∈ up := List.mem_filter.2 ⟨hr, by simpa using hpos⟩
        rw [he] at this
        simp at this
      exact (mul_le_mul_of_nonpos_left (le_max_left _ _) hneg).trans (hfeas a0 ha0 r hr))
    have h3 := hB a ha
    have h4 := (le_max_right (activity m.vars.length m.obj a0) (B - m.offset + 1)).trans hle
    unfold Model.value at h3
    linarith
  obtain ⟨t, ht, hmin⟩ := exists_min (up.map (fun r => r.2 / r.1 0)) (by simpa using hne)
  obtain ⟨r, hr, rfl⟩ := List.mem_map.1 ht
  obtain ⟨hrL, hrp⟩ := List.mem_filter.1 hr
  have hrp : 0 < r.1 0 := by simpa using hrp
  have hbelow : ∀ a, m.FeasibleLP a → activity m.vars.length m.obj a ≤ r.2 / r.1 0 := by
    intro a ha
    rw [le_div_iff₀ hrp, mul_comm]
    exact hfeas a ha r hrL
  obtain ⟨a, ha, hle⟩ := hback (r.2 / r.1 0) (by
    intro q hq
    by_cases hp : 0 < q.1 0
    · have := hmin _ (List.mem_map.2 ⟨q, List.mem_filter.2 ⟨hq, by simpa using hp⟩, rfl⟩)
      rw [le_div_iff₀ hp] at this
      linarith
    · push Not at hp
      exact (mul_le_mul_of_nonpos_left (hbelow a0 ha0) hp).trans (hfeas a0 ha0 q hq))
  have heq : activity m.vars.length m.obj a = r.2 / r.1 0 := le_antisymm (hbelow a ha) hle
  obtain ⟨y, y1, y2, y3⟩ := mult_of_der hm (h1 r hrL).1
  refine ⟨a, fun c => y c / r.1 0, ha, ?_, ?_, ?_, ?_⟩
  · intro a' ha'
    unfold Model.value
    have := hbelow a' ha'
    rw [heq]
    linarith
  · intro c k hk
    exact ⟨fun hn => div_nonneg ((y1 c k hk).1 hn) hrp.le, fun hn => div_nonpos_of_nonpos_of_nonneg ((y1 c k hk).2 hn) hrp.le⟩
  · intro v hv
    have h3 := y2 v hv
    rw [(h1 r hrL).2 (v + 1) (by omega) (by omega)] at h3
    have h4 : m.obj v * r.1 0 ≤ ∑ c ∈ Finset.range m.cons.length, y c * coeffAt m c v := by linarith
    rw [← le_div_iff₀ hrp, Finset.sum_div] at h4
    unfold Model.reducedCost
    have : ∑ c ∈ Finset.range m.cons.length, y c * coeffAt m c v / r.1 0 =
        ∑ c ∈ Finset.range m.cons.length, y c / r.1 0 * ((m.cons[c]?).map (fun k => k.coeff v)).getD 0 :=
      Finset.sum_congr rfl (fun c _ => by unfold coeffAt; ring)
    rw [this] at h4
    linarith
  · unfold Model.dualValue Model.value
    rw [heq, y3, Finset.sum_div]
    congr 1
    exact Finset.sum_congr rfl (fun c _ => by unfold rhsAt; ring)

end Verif.LP
