import Verif.BDR.SessionProps

/-!
# Property C131: a trained rule has no clause that could be dropped with profit
-/

set_option linter.unusedSectionVars false

namespace Verif.BDR

open MP Spec
open Fit.Spec

variable {Ω : Type} {o : Oracle Ω} {C p : ℚ} {kinds : List (List Kind)} {X : Data} {y : List ℤ} {maxIt : ℤ} {limit : ℚ} {fuel : ℕ}
  {e0 : Fit.Est} {w : World Ω} {u : Unit} {s : Fit.St (World Ω) (ℚ × List ℚ) Clause}

theorem rule_sublist {K' K : List Clause} (h : K'.Sublist K) {r : List ℚ} (hr : Rule K' r) : Rule K r := by
  obtain ⟨k, hk, hs⟩ := hr
  exact ⟨k, h.subset hk, hs⟩

theorem size_sublist {K' K : List Clause} (h : K'.Sublist K) :
    (K'.map (fun k => 1 + (k.length : ℚ))).sum ≤ (K.map (fun k => 1 + (k.length : ℚ))).sum := by
  induction h with
  | slnil => simp
  | cons k _ ih =>
    simp only [List.map_cons, List.sum_cons]
    have : (0 : ℚ) ≤ k.length := by positivity
    linarith
  | cons_cons k _ ih =>
    simp only [List.map_cons, List.sum_cons]
    linarith

/-- The rows that only the longer rule covers are at most as many as the coverings by the clauses it has more. -/
theorem covered_sublist (N : List (List ℚ)) {K' K : List Clause} (h : K'.Sublist K) :
    (N.countP (fun r => decide (Rule K r)) : ℚ) + (K'.map (fun k => (numSat N k : ℚ))).sum ≤
      (N.countP (fun r => decide (Rule K' r)) : ℚ) + (K.map (fun k => (numSat N k : ℚ))).sum := by
  induction N with
  | nil => simp [numSat]
  | cons r N ih =>
    have e : ∀ K : List Clause,
        (K.map (fun k => (numSat (r :: N) k : ℚ))).sum = (K.map (fun k => (numSat N k : ℚ))).sum + (K.countP (fun k => decide (Sat r k)) : ℚ) := by
      intro K
      induction K with
      | nil => simp
      | cons k K ihK =>
        simp only [List.map_cons, List.sum_cons, List.countP_cons]
        rw [ihK]
        have : (numSat (r :: N) k : ℚ) = numSat N k + (if Sat r k then 1 else 0) := by
          unfold numSat
          rw [List.countP_cons]
          by_cases h : Sat r k <;> simp [h]
        rw [this]
        by_cases h : Sat r k
        · simp [h]; ring
        · simp [h]; ring
    rw [e, e, List.countP_cons, List.countP_cons]
    have hle : K'.countP (fun k => decide (Sat r k)) ≤ K.countP (fun k => decide (Sat r k)) := h.countP_le
    have hle' : (K'.countP (fun k => decide (Sat r k)) : ℚ) ≤ (K.countP (fun k => decide (Sat r k)) : ℚ) := by exact_mod_cast hle
    by_cases h' : Rule K' r
    · have h1 := rule_sublist h h'
      simp only [h', h1, decide_true, if_true]
      push_cast
      linarith
    · by_cases h1 : Rule K r
      · have h0 : K'.countP (fun k => decide (Sat r k)) = 0 := by
          rw [List.countP_eq_zero]
          intro k hk hs
          exact h' ⟨k, hk, by simpa using hs⟩
        have hpos : 1 ≤ K.countP (fun k => decide (Sat r k)) := by
          obtain ⟨k, hk, hs⟩ := h1
          exact List.countP_pos_iff.2 ⟨k, hk, by simpa using hs⟩
        have hpos' : (1 : ℚ) ≤ (K.countP (fun k => decide (Sat r k)) : ℚ) := by exact_mod_cast hpos
        simp only [h', h1, decide_true, decide_false, if_true, Bool.false_eq_true, if_false, h0]
        push_cast
        linarith
      · simp only [h', h1, decide_false, Bool.false_eq_true, if_false]
        push_cast
        linarith

/-- **C131.** If the final integer program of a `fit` (the first of an object or a later one) was solved to optimality, dropping any clauses of the trained
rule does not lower its training loss. -/
theorem C131_drop (hs : Session o C p kinds X y w) (hl : y.length = X.rows.length) (h2 : (Sk.uniqueLabels y).length ≤ 2) (hp : 0 ≤ p)
    (hr : Fit.fit (env o X kinds) (config kinds maxIt limit) fuel y e0 w = some (.ok u, s))
    (hip : ∀ ω, IsOptimal s.world.master.solver (o.ip s.world.master.solver ω).1) {K' : List Clause}
    (hK : K'.Sublist s.world.master.explanation) :
    loss X.rows (encoded y) p s.world.master.explanation ≤ loss X.rows (encoded y) p K' := by
  obtain ⟨h1, hc, hb⟩ := best_from (session_inv hl hs) hl h2 hp hr hip
  have hh := hb K' (fun k hk => h1 k (hK.subset hk)) (le_trans (size_sublist hK) hc)
  have hcov := covered_sublist (neg X.rows (encoded y)) hK
  unfold hamming at hh
  unfold loss
  linarith

/-- **C131.** Every clause of the trained rule pays for the negative rows it covers: they are at most `p` times as many as the positive rows that no other
clause of the rule covers. -/
theorem C131_clause (hs : Session o C p kinds X y w) (hl : y.length = X.rows.length) (h2 : (Sk.uniqueLabels y).length ≤ 2) (hp : 0 ≤ p)
    (hr : Fit.fit (env o X kinds) (config kinds maxIt limit) fuel y e0 w = some (.ok u, s))
    (hip : ∀ ω, IsOptimal s.world.master.solver (o.ip s.world.master.solver ω).1) {A B : List Clause} {k : Clause}
    (hK : s.world.master.explanation = A ++ k :: B) :
    ((neg X.rows (encoded y)).countP (fun r => decide (Sat r k)) : ℚ) ≤
      p * ((pos X.rows (encoded y)).countP (fun r => decide (Sat r k ∧ ¬ Rule (A ++ B) r)) : ℚ) := by
  obtain ⟨h1, hc, hb⟩ := best_from (session_inv hl hs) hl h2 hp hr hip
  have hsub : (A ++ B).Sublist s.world.master.explanation := by
    rw [hK]
    exact List.Sublist.append_left (List.sublist_cons_self k B) A
  have hh := hb (A ++ B) (fun k hk => h1 k (hsub.subset hk)) (le_trans (size_sublist hsub) hc)
  unfold hamming at hh
  rw [hK] at hh
  simp only [List.map_append, List.map_cons, List.sum_append, List.sum_cons] at hh
  have hcount : ((pos X.rows (encoded y)).countP (fun r => decide ¬ Rule (A ++ B) r) : ℚ) =
      ((pos X.rows (encoded y)).countP (fun r => decide ¬ Rule (A ++ k :: B) r) : ℚ) +
      ((pos X.rows (encoded y)).countP (fun r => decide (Sat r k ∧ ¬ Rule (A ++ B) r)) : ℚ) := by
    generalize pos X.rows (encoded y) = P
    have hR : ∀ r, Rule (A ++ k :: B) r ↔ Sat r k ∨ Rule (A ++ B) r := by
      intro r
      unfold Rule
      simp only [List.mem_append, List.mem_cons]
      constructor
      · rintro ⟨c, h | rfl | h, hs⟩
        · exact Or.inr ⟨c, Or.inl h, hs⟩
        · exact Or.inl hs
        · exact Or.inr ⟨c, Or.inr h, hs⟩
      · rintro (hs | ⟨c, h | h, hs⟩)
        · exact ⟨k, Or.inr (Or.inl rfl), hs⟩
        · exact ⟨c, Or.inl h, hs⟩
        · exact ⟨c, Or.inr (Or.inr h), hs⟩
    simp only [hR]
    induction P with
    | nil => simp
    | cons r P ih =>
      simp only [List.countP_cons]
      push_cast
      rw [ih]
      by_cases h : Sat r k <;> by_cases h' : Rule (A ++ B) r <;> simp [h, h'] <;> ring
  rw [hcount] at hh
  have e : (numSat (neg X.rows (encoded y)) k : ℚ) = ((neg X.rows (encoded y)).countP (fun r => decide (Sat r k)) : ℚ) := rfl
  rw [← e]
  linarith

/-- **C131.** So a clause of the trained rule that covers a negative row is the only clause of the rule that covers some positive row. -/
theorem C131_needed (hs : Session o C p kinds X y w) (hl : y.length = X.rows.length) (h2 : (Sk.uniqueLabels y).length ≤ 2) (hp : 0 ≤ p)
    (hr : Fit.fit (env o X kinds) (config kinds maxIt limit) fuel y e0 w = some (.ok u, s))
    (hip : ∀ ω, IsOptimal s.world.master.solver (o.ip s.world.master.solver ω).1) {A B : List Clause} {k : Clause}
    (hK : s.world.master.explanation = A ++ k :: B) (hn : ∃ r ∈ neg X.rows (encoded y), Sat r k) :
    ∃ r ∈ pos X.rows (encoded y), Sat r k ∧ ∀ k' ∈ A ++ B, ¬ Sat r k' := by
  have h := C131_clause hs hl h2 hp hr hip hK
  obtain ⟨r, hrn, hrs⟩ := hn
  have h1 : 1 ≤ (neg X.rows (encoded y)).countP (fun r => decide (Sat r k)) := List.countP_pos_iff.2 ⟨r, hrn, by simpa using hrs⟩
  have h1' : (1 : ℚ) ≤ ((neg X.rows (encoded y)).countP (fun r => decide (Sat r k)) : ℚ) := by exact_mod_cast h1
  by_contra hc
  have h0 : (pos X.rows (encoded y)).countP (fun r => decide (Sat r k ∧ ¬ Rule (A ++ B) r)) = 0 := by
    rw [List.countP_eq_zero]
    intro r hr hd
    simp only [decide_eq_true_eq] at hd
    exact hc ⟨r, hr, hd.1, fun k' hk' hs' => hd.2 ⟨k', hk', hs'⟩⟩
  rw [h0] at h
  push_cast at h
  linarith

/-- **C131.** With the default penalty 1 and two classes: no rule made of some of the clauses of the trained rule makes fewer errors on the training data than
`predict`. -/
theorem C131_errors (hs : Session o C 1 kinds X y w) (hl : y.length = X.rows.length) (h2 : (Sk.uniqueLabels y).length = 2)
    (hr : Fit.fit (env o X kinds) (config kinds maxIt limit) fuel y e0 w = some (.ok u, s))
    (hip : ∀ ω, IsOptimal s.world.master.solver (o.ip s.world.master.solver ω).1) {K' : List Clause}
    (hK : K'.Sublist s.world.master.explanation) :
    ∃ pred pred', predict (Sk.uniqueLabels y) s.world.master.explanation X.rows = .ok pred ∧ predict (Sk.uniqueLabels y) K' X.rows = .ok pred' ∧
      errors pred y ≤ errors pred' y := by
  obtain ⟨c0, c1, hcls⟩ : ∃ c0 c1, Sk.uniqueLabels y = [c0, c1] := by
    match h : Sk.uniqueLabels y with
    | [] => rw [h] at h2; simp at h2
    | [_] => rw [h] at h2; simp at h2
    | [a, b] => exact ⟨a, b, rfl⟩
    | _ :: _ :: _ :: _ => rw [h] at h2; simp at h2
  have hne : c0 ≠ c1 := by
    have := Sk.nodup_uniqueLabels y
    rw [hcls] at this
    simpa using this
  have hy : ∀ v ∈ y, v = c0 ∨ v = c1 := by
    intro v hv
    have := (Sk.mem_uniqueLabels y v).2 hv
    rw [hcls] at this
    simpa using this
  have hd := C131_drop hs hl (le_of_eq h2) zero_le_one hr hip hK
  rw [hcls, C20_predict, C20_predict]
  refine ⟨_, _, rfl, rfl, ?_⟩
  simp only [encoded, hcls] at hd
  rw [← errors_rule hne _ X.rows y hy hl, ← errors_rule hne _ X.rows y hy hl] at hd
  exact_mod_cast hd

end Verif.BDR
