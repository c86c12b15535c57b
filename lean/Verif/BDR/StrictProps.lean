import Verif.BDR.StrictLemmas

/-!
# Property C107: which accesses of the Boolean decision rule classifier can fail

`Verif/BDR/Strict.lean` has the plug-ins with checked accesses. On a matrix with one label per row its runs are those of the model without
checks, whatever the solvers answer. `predict` does not compare the number of features with that of the training data, and a second `fit` on
other data keeps the models of the first; for both the theorems say exactly when an access fails.
-/

set_option linter.unusedSectionVars false
set_option linter.unusedSimpArgs false

namespace Verif.BDR

open MP Spec
open Fit.Spec
open Verif.Fit (Ev Guided)
open Verif.DTree (Reads Safe atIndex atKey firstFault guarded guardedE guarded_safe guardedE_safe firstFault_safe atIndex_ok)

variable {Ω : Type} {o : Oracle Ω} {C p : ℚ} {kinds : List (List Kind)} {X : Data} {y : List ℤ} {maxIt : ℤ} {limit : ℚ}
  {fuel : ℕ} {e0 : Fit.Est} {w w0 : World Ω} {res : Except Err Unit} {s : Fit.St (World Ω) (ℚ × List ℚ) Clause}

namespace Spec

/-- The states of a classifier that is constructed and then fitted any number of times on the data `X`, `y`, with checked accesses. -/
inductive SessionS (o : Oracle Ω) (C p : ℚ) (kinds : List (List Kind)) (X : Data) (y : List ℤ) : World Ω → Prop
  | new (ω : Ω) : SessionS o C p kinds X y (World.init C p kinds ω)
  | idle {w : World Ω} (h : SessionS o C p kinds X y w) (ω : Ω) : SessionS o C p kinds X y { w with ω := ω }
  | fit {w : World Ω} (h : SessionS o C p kinds X y w) (maxIt : ℤ) (limit : ℚ) (fuel : ℕ) (e0 : Fit.Est)
      {r : Except Err Unit × Fit.St (World Ω) (ℚ × List ℚ) Clause}
      (hr : Fit.fit (envS o X kinds) (config kinds maxIt limit) fuel y e0 w = some r) : SessionS o C p kinds X y r.2.world

/-- Evaluating the rule `K` on the row from left to right, one comes to a feature that the row does not have: no clause before is satisfied, and no
feature before it in its clause is zero. -/
def Stumbles (row : List ℚ) (K : List Clause) : Prop :=
  ∃ pre c post a j b, K = pre ++ c :: post ∧ c = a ++ j :: b ∧ (∀ k ∈ pre, ¬ Sat row k) ∧ Sat row a ∧ row.length ≤ j

end Spec

/-! ## `fit` -/

/-- From a state that satisfies the invariant of `fit`, the runs with checked accesses are the runs without. -/
theorem strict_from (hR : Rect X) (hl : y.length = X.rows.length) (hw : InvA o C p kinds X (encoded y) w []) :
    (∀ r, Fit.fit (env o X kinds) (config kinds maxIt limit) fuel y e0 w = some r →
      Fit.fit (envS o X kinds) (config kinds maxIt limit) fuel y e0 w = some r) ∧
    ∀ r, Fit.fit (envS o X kinds) (config kinds maxIt limit) fuel y e0 w = some r →
      ∃ k, Fit.fit (env o X kinds) (config kinds maxIt limit) (fuel + k) y e0 w = some r := by
  have hl' : (encoded y).length = X.rows.length := by rw [encoded_length, hl]
  have h1 : ∀ fuel r, Fit.fit (env o X kinds) (config kinds maxIt limit) fuel y e0 w = some r →
      Fit.fit (envS o X kinds) (config kinds maxIt limit) fuel y e0 w = some r :=
    fun fuel r hr => Fit.fit_congr (invT_guided o C p kinds X (encoded y) _ rfl hl') (envS_agree hR rfl hl') hw.invT hr
  refine ⟨h1 fuel, ?_⟩
  intro r hr
  obtain ⟨q, hq, -⟩ := terminates_from o C p kinds maxIt limit X y e0 w hw hl
  have h2 := Fit.C01_fuel_irrelevant (h1 _ _ hq) fuel
  have h3 := Fit.C01_fuel_irrelevant hr (2 ^ X.nFeat)
  have h4 := Fit.C01_fuel_irrelevant hq fuel
  rw [Nat.add_comm] at h2 h4
  refine ⟨2 ^ X.nFeat, ?_⟩
  rw [h2] at h3
  rw [h4, h3]

/-- The states of the strict model are states of the model. -/
theorem Spec.SessionS.session (hR : Rect X) (hl : y.length = X.rows.length) (h : SessionS o C p kinds X y w) : Session o C p kinds X y w := by
  induction h with
  | new ω => exact .new ω
  | idle h ω ih => exact .idle ih ω
  | fit h maxIt limit fuel e0 hr ih =>
    obtain ⟨k, hk⟩ := (strict_from hR hl (session_inv hl ih)).2 _ hr
    exact .fit ih maxIt limit (fuel + k) e0 hk

/-- **C107.** On a matrix with one label per row no access to a list or dictionary fails during `fit`, in the first call or in any later one on the
same data, whatever the solvers answer, for any number of classes: every run of the plug-ins with checked accesses is a run of the plug-ins
without checks, and it raises nothing but `AssertionError`, or `ValueError` if there is one class only. -/
theorem C107_no_access_fails (hR : Rect X) (hl : y.length = X.rows.length) (hs : SessionS o C p kinds X y w)
    (hr : Fit.fit (envS o X kinds) (config kinds maxIt limit) fuel y e0 w = some (res, s)) :
    (∃ k, Fit.fit (env o X kinds) (config kinds maxIt limit) (fuel + k) y e0 w = some (res, s)) ∧
    ∀ e, res = .error e → e = .assertionError ∨ (e = .valueError ∧ ∀ a ∈ y, ∀ b ∈ y, a = b) := by
  have hl' : (encoded y).length = X.rows.length := by rw [encoded_length, hl]
  have hw := session_inv hl (hs.session hR hl)
  obtain ⟨k, hk⟩ := (strict_from hR hl hw).2 _ hr
  refine ⟨⟨k, hk⟩, ?_⟩
  rintro e rfl
  have hT := (invT_guided o C p kinds X (encoded y) (config kinds maxIt limit) rfl hl').fit hw.invT hk
  rcases Fit.C64_exceptions hk with ⟨h1, h2, -⟩ | ⟨pre, ev, h1, h2⟩ | ⟨h1, -⟩
  · exact Or.inr ⟨h2, h1⟩
  · refine Or.inl (hT.err ev ?_ e h2)
    rw [h1]; simp
  · exact Or.inl h1

/-- **C107.** Conversely every run without checks is a run with checked accesses, and such runs end. -/
theorem C107_same_runs (hR : Rect X) (hl : y.length = X.rows.length) (hs : SessionS o C p kinds X y w) :
    (∀ r, Fit.fit (env o X kinds) (config kinds maxIt limit) fuel y e0 w = some r →
      Fit.fit (envS o X kinds) (config kinds maxIt limit) fuel y e0 w = some r) ∧
    ∃ r, Fit.fit (envS o X kinds) (config kinds maxIt limit) (2 ^ X.nFeat) y e0 w = some r := by
  have hw := session_inv hl (hs.session hR hl)
  obtain ⟨q, hq, -⟩ := terminates_from o C p kinds maxIt limit X y e0 w hw hl
  exact ⟨(strict_from hR hl hw).1, q, (strict_from hR hl hw).1 _ hq⟩

/-- **C107.** With two classes and solvers that keep their contracts `fit` with checked accesses returns normally. -/
theorem C107_returns (hR : Rect X) (hl : y.length = X.rows.length) (h2 : (Sk.uniqueLabels y).length = 2) (hc : Contract o C p kinds X (encoded y))
    (hs : SessionS o C p kinds X y w) :
    ∃ s, Fit.fit (envS o X kinds) (config kinds maxIt limit) (2 ^ X.nFeat) y e0 w = some (.ok (), s) ∧ s.est.isFitted = true := by
  have hw := hs.session hR hl
  obtain ⟨s, h, hf⟩ := C94_refit_returns maxIt limit e0 hw hl h2 hc
  exact ⟨s, (strict_from hR hl (session_inv hl hw)).1 _ h, hf⟩

/-! ## `predict` -/

/-- All failures of the list are `IndexError`. -/
def Plain (l : Reads) : Prop := ∀ r ∈ l, r.2 = .indexError

theorem firstFault_plain : ∀ {l : Reads}, Plain l → ¬ Safe l → firstFault l = some .indexError
  | [], _, h => absurd Safe.nil h
  | (true, e) :: rs, hp, h => by
    refine (firstFault_plain (l := rs) (fun r hr => hp r (by simp [hr])) fun hs => h ?_)
    exact .cons rfl hs
  | (false, e) :: rs, hp, _ => by
    have := hp (false, e) (by simp)
    simp only at this
    subst this
    rfl

theorem Plain.append {l l' : Reads} (h : Plain l) (h' : Plain l') : Plain (l ++ l') := fun r hr => by
  rcases List.mem_append.1 hr with hr | hr
  · exact h r hr
  · exact h' r hr

theorem Plain.map {α : Type} {l : List α} {f : α → Bool × Err} (h : ∀ x ∈ l, (f x).2 = .indexError) : Plain (l.map f) := fun r hr => by
  obtain ⟨x, hx, rfl⟩ := List.mem_map.1 hr
  exact h x hx

theorem safe_append {l l' : Reads} : Safe (l ++ l') ↔ Safe l ∧ Safe l' :=
  ⟨fun h => ⟨fun r hr => h r (by simp [hr]), fun r hr => h r (by simp [hr])⟩, fun h => h.1.append h.2⟩

theorem clauseReads_plain {row : List ℚ} : ∀ (c : Clause), Plain (clauseReads row c)
  | [] => fun r hr => by cases hr
  | j :: js => fun r hr => by
    rw [clauseReads] at hr
    rcases List.mem_cons.1 hr with rfl | hr
    · rfl
    · split at hr
      · cases hr
      · exact clauseReads_plain js r hr

theorem rowReads_plain {row : List ℚ} : ∀ (K : List Clause), Plain (rowReads row K)
  | [] => fun r hr => by cases hr
  | c :: cs => by
    unfold rowReads
    refine (clauseReads_plain c).append ?_
    split
    · intro r hr; cases hr
    · exact rowReads_plain cs

theorem clauseReads_fail {row : List ℚ} : ∀ (c : Clause), ¬ Safe (clauseReads row c) ↔ ∃ a j b, c = a ++ j :: b ∧ Sat row a ∧ row.length ≤ j
  | [] => by
    constructor
    · intro h; exact absurd Safe.nil h
    · rintro ⟨a, j, b, h, -⟩; simp at h
  | i :: c => by
    rw [clauseReads]
    have ih := clauseReads_fail (row := row) c
    by_cases hi : i < row.length
    · by_cases h0 : get row i = 0
      · rw [if_pos h0]
        constructor
        · intro h; exact absurd (Safe.cons (atIndex_ok hi) .nil) h
        · rintro ⟨a, j, b, he, hs, hj⟩
          cases a with
          | nil => simp at he; omega
          | cons a as =>
            simp only [List.cons_append, List.cons.injEq] at he
            exact absurd h0 (he.1 ▸ hs a (by simp))
      · rw [if_neg h0]
        have : ¬ Safe (atIndex i row.length :: clauseReads row c) ↔ ¬ Safe (clauseReads row c) :=
          not_congr ⟨fun h r hr => h r (by simp [hr]), fun h => .cons (atIndex_ok hi) h⟩
        rw [this, ih]
        constructor
        · rintro ⟨a, j, b, rfl, hs, hj⟩
          refine ⟨i :: a, j, b, rfl, ?_, hj⟩
          intro k hk
          rcases List.mem_cons.1 hk with rfl | hk
          · exact h0
          · exact hs k hk
        · rintro ⟨a, j, b, he, hs, hj⟩
          cases a with
          | nil => simp at he; omega
          | cons a as =>
            simp only [List.cons_append, List.cons.injEq] at he
            exact ⟨as, j, b, he.2, fun k hk => hs k (by simp [hk]), hj⟩
    · constructor
      · intro _; exact ⟨[], i, c, rfl, (fun k hk => by cases hk), by omega⟩
      · intro _ h
        have := h (atIndex i row.length) (by simp)
        simp only [atIndex, decide_eq_true_eq] at this
        exact hi this

theorem rowReads_fail {row : List ℚ} : ∀ (K : List Clause), ¬ Safe (rowReads row K) ↔ Stumbles row K
  | [] => by
    constructor
    · intro h; exact absurd Safe.nil h
    · rintro ⟨pre, c, post, a, j, b, h, -⟩; simp at h
  | c :: K => by
    have ih := rowReads_fail (row := row) K
    rw [rowReads, safe_append]
    constructor
    · intro h
      by_cases h1 : Safe (clauseReads row c)
      · have h2 : ¬ Safe (if satisfiesClause row c ≠ 0 then [] else rowReads row K) := fun h2 => h ⟨h1, h2⟩
        by_cases h3 : satisfiesClause row c ≠ 0
        · rw [if_pos h3] at h2; exact absurd Safe.nil h2
        · rw [if_neg h3] at h2
          obtain ⟨pre, c', post, a, j, b, rfl, hc, hp, hs, hj⟩ := ih.1 h2
          refine ⟨c :: pre, c', post, a, j, b, rfl, hc, ?_, hs, hj⟩
          intro k hk
          rcases List.mem_cons.1 hk with rfl | hk
          · intro hsat
            rw [satisfiesClause_eq, if_pos hsat] at h3
            exact h3 one_ne_zero
          · exact hp k hk
      · obtain ⟨a, j, b, hc, hs, hj⟩ := (clauseReads_fail c).1 h1
        exact ⟨[], c, K, a, j, b, rfl, hc, by simp, hs, hj⟩
    · rintro ⟨pre, c', post, a, j, b, he, hc, hp, hs, hj⟩ ⟨h1, h2⟩
      cases pre with
      | nil =>
        simp only [List.nil_append, List.cons.injEq] at he
        exact (clauseReads_fail c).2 ⟨a, j, b, by rw [he.1, hc], hs, hj⟩ h1
      | cons k pre =>
        simp only [List.cons_append, List.cons.injEq] at he
        have hk : ¬ satisfiesClause row c ≠ 0 := by
          rw [satisfiesClause_eq, if_neg (he.1 ▸ hp k (by simp))]
          simp
        rw [if_neg hk] at h2
        exact ih.2 ⟨pre, c', post, a, j, b, he.2, hc, fun k hk => hp k (by simp [hk]), hs, hj⟩ h2

/-- **C107.** `predict` raises `IndexError` exactly if the evaluation of the rule on some row comes to a feature that the row does not have; the number
of features is not checked otherwise. -/
theorem C107_predict (classes : List ℤ) (K : List Clause) (R : List (List ℚ)) :
    ((∃ row ∈ R, Stumbles row K) → predictS classes K R = .error .indexError) ∧
    ((∀ row ∈ R, ¬ Stumbles row K) → predictS classes K R = predict classes K R) := by
  unfold predictS
  constructor
  · rintro ⟨row, hrow, hs⟩
    have : firstFault (R.flatMap (fun row => rowReads row K)) = some .indexError := by
      refine firstFault_plain ?_ ?_
      · intro r hr
        obtain ⟨row, -, hr⟩ := List.mem_flatMap.1 hr
        exact rowReads_plain K r hr
      · intro h
        exact (rowReads_fail K).2 hs fun r hr => h r (List.mem_flatMap.2 ⟨row, hrow, hr⟩)
    unfold guardedE
    rw [this]
  · intro h
    refine guardedE_safe (.flatMap fun row hrow => ?_) _
    by_contra hc
    exact h row hrow ((rowReads_fail K).1 hc)

/-- The clauses of the rule are proper. -/
theorem explanation_proper (hl : y.length = X.rows.length) (hw : InvA o C p kinds X (encoded y) w [])
    (hr : Fit.fit (env o X kinds) (config kinds maxIt limit) fuel y e0 w = some (.ok (), s)) :
    ∀ k ∈ s.world.master.explanation, Proper X.nFeat k := by
  have hl' : (encoded y).length = X.rows.length := by rw [encoded_length, hl]
  obtain ⟨ops, ω, hm, -⟩ := ip_from hw hl hr
  obtain ⟨hI, -⟩ := after_inv C p X (encoded y) ops hl'
  have hst : (o.ip (after C p X (encoded y) ops).solver ω).1.status ≠ .other := by
    intro hc
    rw [hI.explanation_other (fun m => (o.ip m ω).1) hc] at hm
    cases hm
  obtain ⟨s', e, hI', -, -, -, -, -, he⟩ := hI.explanation (fun m => (o.ip m ω).1) hst
  rw [e] at hm
  obtain rfl : s' = s.world.master := by cases hm; rfl
  rcases (invA_guided o C p kinds X (encoded y) (config kinds maxIt limit) rfl hl').fit hw hr with hf | ⟨ops', hc⟩
  · intro k hk
    have hx : s.world.master.explanation = [] := by
      have := hf.master
      simp only at this
      rw [this]; rfl
    rw [hx] at hk; cases hk
  · have hm' : s.world.master = after C p X (encoded y) ops' := hc.master
    obtain ⟨hI2, -⟩ := after_inv C p X (encoded y) ops' hl'
    have hK : clausesOf ops = clausesOf ops' := by
      rw [← hI'.clauses, hm', hI2.clauses]
    intro k hk
    rw [he] at hk
    obtain ⟨j, hj, rfl⟩ := List.mem_map.1 hk
    have hj' := List.mem_range.1 (List.mem_filter.1 hj).1
    refine hc.proper _ ?_
    rw [← hK, List.getD_eq_getElem?_getD, List.getElem?_eq_getElem hj']
    exact List.getElem_mem _

/-- **C107.** After `fit`, `predict` raises no `IndexError` on rows with at least as many features as the training data. -/
theorem C107_predict_fitted (hR : Rect X) (hl : y.length = X.rows.length) (hs : SessionS o C p kinds X y w)
    (hr : Fit.fit (envS o X kinds) (config kinds maxIt limit) fuel y e0 w = some (.ok (), s)) (classes : List ℤ) (R : List (List ℚ))
    (hRows : ∀ row ∈ R, X.nFeat ≤ row.length) :
    predictS classes s.world.master.explanation R = predict classes s.world.master.explanation R := by
  obtain ⟨⟨k, hk⟩, -⟩ := C107_no_access_fails hR hl hs hr
  refine (C107_predict _ _ _).2 ?_
  rintro row hrow ⟨pre, c, post, a, j, b, he, hc, -, -, hj⟩
  have := (explanation_proper hl (session_inv hl (hs.session hR hl)) hk c (by rw [he]; simp)).2 j (by rw [hc]; simp)
  have := hRows row hrow
  omega

/-! ## Other data -/

theorem dualReads_plain {cs : List ℚ} : ∀ (X : List (List ℚ)) (y : List ℕ) (n : ℕ), Plain (dualReads cs X y n)
  | [], _, _ => by unfold dualReads; intro r hr; cases hr
  | _ :: _, [], _ => by
    unfold dualReads
    intro r hr
    rw [List.mem_singleton.1 hr]
    rfl
  | _ :: X, t :: y, n => by
    unfold dualReads
    split
    · intro r hr
      rcases List.mem_cons.1 hr with rfl | hr
      · rfl
      · exact dualReads_plain X y _ r hr
    · exact dualReads_plain X y _

theorem dualReads_iff {cs : List ℚ} : ∀ {X : List (List ℚ)} {y : List ℕ} {n : ℕ}, y.length = X.length → n ≤ cs.length →
    (Safe (dualReads cs X y n) ↔ n + y.countP (fun t => t = 1) ≤ cs.length)
  | [], [], n, _, hn => by simp [dualReads, Safe.nil, hn]
  | [], _ :: _, _, h, _ => by simp at h
  | _ :: _, [], _, h, _ => by simp at h
  | r :: X, t :: y, n, h, hn => by
    have h' : y.length = X.length := by simpa using h
    unfold dualReads
    rw [List.countP_cons]
    split
    · rename_i ht
      rw [if_pos (by simpa using ht)]
      by_cases hlt : n < cs.length
      · have : Safe (atIndex n cs.length :: dualReads cs X y (n + 1)) ↔ Safe (dualReads cs X y (n + 1)) :=
          ⟨fun h r hr => h r (by simp [hr]), fun h => .cons (atIndex_ok hlt) h⟩
        rw [this, dualReads_iff h' (by omega)]
        omega
      · constructor
        · intro hs
          have := hs (atIndex n cs.length) (by simp)
          simp only [atIndex, decide_eq_true_eq] at this
          omega
        · intro hle; omega
    · rename_i ht
      rw [if_neg (by simpa using ht), dualReads_iff h' hn]
      simp

theorem range_safe {n m : ℕ} : Safe ((List.range n).map (fun i => atIndex i m)) ↔ n ≤ m := by
  constructor
  · intro h
    by_contra hc
    have := h (atIndex m m) (List.mem_map.2 ⟨m, List.mem_range.2 (by omega), rfl⟩)
    simp [atIndex] at this
  · intro h
    exact .map fun i hi => atIndex_ok (by have := List.mem_range.1 hi; omega)

/-- **C107.** The pricing problem keeps the size of the data of its first call. Asked with other data and (as the master requires) non-negative duals,
it raises `IndexError` exactly if there are now more features, more rows, or more rows of class 1 than duals. -/
theorem C107_other_data (D : ℚ) (X₁ : Data) (y₁ : List ℕ) (hist : List ((ℚ × List ℚ) × (Model → Answer))) (hg : (subAfter D X₁ y₁ hist).generated = true)
    (X₂ : Data) (y₂ : List ℕ) (hl : y₂.length = X₂.rows.length) (d : ℚ × List ℚ) (h1 : 0 ≤ d.1) (h2 : ∀ x ∈ d.2, 0 ≤ x) (solve : Model → Answer) :
    ((subAfter D X₁ y₁ hist).generateColumnsS X₂ y₂ d solve).1 = .error .indexError ↔
      X₁.nFeat < X₂.nFeat ∨ y₁.length < X₂.rows.length ∨ d.2.length < y₂.countP (fun t => t = 1) := by
  rcases subAfter_ok D X₁ y₁ hist with hn | ⟨cc, cs, hi⟩
  · rw [hn] at hg; simp [Sub.new] at hg
  generalize subAfter D X₁ y₁ hist = t at hg hi
  have hd : ¬ (d.1 < 0 ∨ d.2.any (fun d => d < 0) = true) := by
    rintro (h | h)
    · exact absurd h (not_lt.2 h1)
    · obtain ⟨x, hx, hlt⟩ := List.any_eq_true.1 h
      exact absurd (of_decide_eq_true hlt) (not_lt.2 (h2 x hx))
  have hsafe : Safe (t.updateReads X₂ y₂ d.2) ↔ X₂.nFeat ≤ X₁.nFeat ∧ y₂.countP (fun t => t = 1) ≤ d.2.length ∧ X₂.rows.length ≤ y₁.length := by
    unfold Sub.updateReads
    rw [safe_append, safe_append, range_safe, range_safe, hi.z, hi.delta, List.length_range, List.length_range', dualReads_iff hl (Nat.zero_le _),
      Nat.zero_add, and_assoc]
  unfold Sub.generateColumnsS
  rw [if_neg hd, if_pos hg]
  by_cases hs : Safe (t.updateReads X₂ y₂ d.2)
  · rw [guarded_safe hs]
    have hs' := hsafe.1 hs
    constructor
    · intro he
      exfalso
      have hup : ∃ s', t.prepare X₂ y₂ d = .ok s' ∧ s'.zVars = t.zVars ∧ s'.solver.vars = t.solver.vars := by
        unfold Sub.prepare
        rw [if_neg (fun h => hd (Or.inl h)), if_neg (fun h => hd (Or.inr h)), if_pos hg]
        unfold Sub.updateObjective
        rw [if_neg (by rw [hg]; simp)]
        refine ⟨_, rfl, rfl, ?_⟩
        simp only [Model.setMax, Model.setOffset, setObjs_spec]
      obtain ⟨s', e, hz, hv⟩ := hup
      rw [e] at he
      simp only at he
      rw [guarded_safe] at he
      · unfold Sub.readClause at he
        split_ifs at he <;> cases he
      · split
        · exact .nil
        · unfold Sub.varReads
          rw [hz, hv, hi.z, hi.model]
          refine .map fun v hv => atIndex_ok ?_
          have := List.mem_range.1 hv
          simp [subModel]
          omega
    · intro h; omega
  · have hp : Plain (t.updateReads X₂ y₂ d.2) := by
      unfold Sub.updateReads
      exact ((Plain.map fun _ _ => rfl).append (dualReads_plain _ _ _)).append (Plain.map fun _ _ => rfl)
    unfold guarded
    rw [firstFault_plain hp hs]
    simp only [true_iff]
    rw [hsafe] at hs
    omega

end Verif.BDR
