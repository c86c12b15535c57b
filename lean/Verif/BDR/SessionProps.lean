import Verif.BDR.RuleProps
import Verif.BDR.RefitProps

/-!
# Properties C93, C94 of the Boolean decision rule classifier: the trained rule is a best rule over the clauses of the master, and `fit` can be
called again on the same data

`generate_mp` returns at once when the master problem exists (`_bdr_classifier.py:177-178`), so that a second `fit` continues with the clauses and
pricing problems of the first.
-/

set_option linter.unusedSectionVars false
set_option linter.unusedSimpArgs false

namespace Verif.BDR

open MP Spec
open Fit.Spec
open Verif.Fit (Ev Guided Clean)

variable {Ω : Type} {o : Oracle Ω} {C p : ℚ} {kinds : List (List Kind)} {X : Data} {y : List ℤ} {maxIt maxIt' : ℤ} {limit limit' : ℚ}
  {fuel fuel' : ℕ} {e0 e0' : Fit.Est} {ω0 : Ω} {w w0 : World Ω} {u u' : Unit} {s s' : Fit.St (World Ω) (ℚ × List ℚ) Clause}

namespace Spec

/-- The states of a classifier that is constructed and then fitted any number of times on the data `X`, `y`, successfully or not. The limits, the
attributes of the estimator and the hidden state of the solvers may be changed between the calls. -/
inductive Session (o : Oracle Ω) (C p : ℚ) (kinds : List (List Kind)) (X : Data) (y : List ℤ) : World Ω → Prop
  | new (ω : Ω) : Session o C p kinds X y (World.init C p kinds ω)
  | idle {w : World Ω} (h : Session o C p kinds X y w) (ω : Ω) : Session o C p kinds X y { w with ω := ω }
  | fit {w : World Ω} (h : Session o C p kinds X y w) (maxIt : ℤ) (limit : ℚ) (fuel : ℕ) (e0 : Fit.Est)
      {r : Except Err Unit × Fit.St (World Ω) (ℚ × List ℚ) Clause}
      (hr : Fit.fit (env o X kinds) (config kinds maxIt limit) fuel y e0 w = some r) : Session o C p kinds X y r.2.world

/-- Some number of further `fit` calls, with any data and result. -/
inductive Later (o : Oracle Ω) (kinds : List (List Kind)) : World Ω → World Ω → Prop
  | here (w : World Ω) : Later o kinds w w
  | idle {w w' : World Ω} (h : Later o kinds w w') (ω : Ω) : Later o kinds w { w' with ω := ω }
  | fit {w w' : World Ω} (h : Later o kinds w w') (X : Data) (y : List ℤ) (maxIt : ℤ) (limit : ℚ) (fuel : ℕ) (e0 : Fit.Est)
      {r : Except Err Unit × Fit.St (World Ω) (ℚ × List ℚ) Clause}
      (hr : Fit.fit (env o X kinds) (config kinds maxIt limit) fuel y e0 w' = some r) : Later o kinds w r.2.world

end Spec

/-- The clauses of the master problem, `clause_dict_.values()`. -/
def Master.clauses (m : Master) : List Clause := m.clauseDict.map (·.2)

/-! ## C93: the trained rule -/

/-- The Hamming loss of the rule that is read from an integer solution is at most its objective value. -/
theorem hamming_le (C p : ℚ) (X : Data) (y : List ℕ) (ops : List Op) (solve : Model → Answer) (s' : Master) (hb : Binary X.rows y)
    (hp : 0 ≤ p) (hsol : IsSolution (after C p X y ops).solver (solve (after C p X y ops).solver))
    (hr : (after C p X y ops).solveIp solve = (.ok true, s')) :
    hamming X.rows y p s'.explanation ≤ (solve (after C p X y ops).solver).objective := by
  obtain ⟨h, h1, h2, h3, h4⟩ := after_inv C p X y ops hb.len
  have hb' : Binary (after C p X y ops).X.rows (after C p X y ops).y := by rw [h1, h2]; exact hb
  rw [hsol.2]
  set s := after C p X y ops
  rw [h.value hb']
  have hst : (solve s.solver).status ≠ .other := by
    intro hc
    rw [h.explanation_other solve hc] at hr
    cases hr
  obtain ⟨s'', e, -, -, -, -, -, -, he⟩ := h.explanation solve hst
  rw [e] at hr
  obtain rfl : s'' = s' := by cases hr; rfl
  obtain ⟨hf, hw⟩ := ip_facts h hb' hsol.1
  rw [posM_eq hb'] at he
  rw [h1, h2] at *
  rw [h4]
  set K := clausesOf ops
  set n := (pos X.rows y).length with hn
  set a := (solve s.solver).values
  have hcov0 : ∀ r, ¬ Rule s''.explanation r → covered K (fun j => a (n + j)) r = 0 := by
    intro r hr
    unfold covered
    apply Finset.sum_eq_zero
    intro j hj
    split
    · rename_i hs
      rcases hw j (Finset.mem_range.1 hj) with h0 | h0
      · exact h0
      · refine absurd ⟨K.getD j [], ?_, hs⟩ hr
        rw [he]
        refine List.mem_map.2 ⟨j, List.mem_filter.2 ⟨List.mem_range.2 (Finset.mem_range.1 hj), ?_⟩, rfl⟩
        simp only [decide_eq_true_eq]
        linarith
    · rfl
  unfold hamming objective
  apply add_le_add
  · apply mul_le_mul_of_nonneg_left _ hp
    rw [← sum_range_countP]
    refine Finset.sum_le_sum fun i hi => ?_
    have hi' := Finset.mem_range.1 hi
    split
    · rename_i hpi
      have hr : (pos X.rows y)[i]? = some ((pos X.rows y).getD i []) := by
        rw [List.getD_eq_getElem?_getD, List.getElem?_eq_getElem hi']; rfl
      have := hf.sat i _ hr
      rw [hcov0 _ hpi] at this
      simpa using this
    · exact hf.xi_nonneg i hi'
  · rw [he, List.map_map]
    have := sum_filter_le (fun j => (numSat (neg X.rows y) (K.getD j []) : ℚ)) (fun j => a (n + j)) (List.range K.length)
      (fun j _ => by positivity) (fun j hj => hw j (List.mem_range.1 hj))
    refine le_trans this (le_of_eq ?_)
    rw [sum_map_range]

/-- How often a clause occurs in a rule. -/
def mult {α : Type} [DecidableEq α] (K : List α) (k : α) : ℕ := K.count k

theorem mult_pos {α : Type} [DecidableEq α] {K : List α} {k : α} (h : k ∈ K) : 0 < mult K k := List.count_pos_iff.2 h

theorem sum_mult {α : Type} [DecidableEq α] {K L : List α} (hL : L.Nodup) (hK : ∀ k ∈ K, k ∈ L) (f : α → ℚ) :
    (L.map (fun k => f k * (mult K k : ℚ))).sum = (K.map f).sum := by
  rw [← List.sum_toFinset _ hL, Finset.sum_list_map_count]
  symm
  have hsub : K.toFinset ⊆ L.toFinset := by
    intro k hk
    exact List.mem_toFinset.2 (hK k (List.mem_toFinset.1 hk))
  refine (Finset.sum_subset hsub ?_).trans ?_
  · intro k _ hk
    rw [List.count_eq_zero_of_not_mem (fun h => hk (List.mem_toFinset.2 h)), zero_nsmul]
  · apply Finset.sum_congr rfl
    intro k _
    rw [nsmul_eq_mul, mul_comm]
    rfl

/-- Sums over a rule as sums over the clauses it is made of. -/
theorem sum_count {K L : List Clause} (hL : L.Nodup) (hK : ∀ k ∈ K, k ∈ L) (f : Clause → ℚ) :
    ∑ j ∈ Finset.range L.length, f (L.getD j []) * (mult K (L.getD j []) : ℚ) = (K.map f).sum := by
  rw [sum_range_getD L (fun k => f k * (mult K k : ℚ)), sum_mult hL hK]

/-- A rule over the clauses of the master is an integral point of the documented program with these clauses. -/
theorem rule_weights {rows : List (List ℚ)} {py : List ℕ} {K L : List Clause} (hL : L.Nodup) (hK : ∀ k ∈ K, k ∈ L)
    (hs : (K.map (fun k => 1 + (k.length : ℚ))).sum ≤ C) :
    Feasible rows py C L (fun i => if Rule K ((pos rows py).getD i []) then 0 else 1) (fun j => (mult K (L.getD j []) : ℚ)) ∧
    objective rows py p L (fun i => if Rule K ((pos rows py).getD i []) then 0 else 1) (fun j => (mult K (L.getD j []) : ℚ)) =
      hamming rows py p K := by
  refine ⟨⟨?_, ?_, ?_, ?_⟩, ?_⟩
  · intro i _
    split <;> norm_num
  · intro j _
    positivity
  · intro i r hi
    have e : (pos rows py).getD i [] = r := by rw [List.getD_eq_getElem?_getD, hi]; rfl
    simp only [e]
    have hnn : ∀ j ∈ Finset.range L.length, (0 : ℚ) ≤ if Sat r (L.getD j []) then (mult K (L.getD j []) : ℚ) else 0 := by
      intro j _
      split
      · positivity
      · norm_num
    by_cases hr : Rule K r
    · rw [if_pos hr]
      obtain ⟨k, hk, hs⟩ := hr
      obtain ⟨j, hj⟩ := List.mem_iff_getElem?.1 (hK k hk)
      have hlt := (List.getElem?_eq_some_iff.1 hj).1
      have e2 : L.getD j [] = k := by rw [List.getD_eq_getElem?_getD, hj]; rfl
      have := Finset.single_le_sum hnn (Finset.mem_range.2 hlt)
      rw [e2, if_pos hs] at this
      have hc : (1 : ℚ) ≤ mult K k := by exact_mod_cast mult_pos hk
      unfold covered
      linarith
    · rw [if_neg hr]
      have := Finset.sum_nonneg hnn
      unfold covered
      linarith
  · unfold complexity
    rw [sum_count hL hK (fun k => 1 + (k.length : ℚ))]
    exact hs
  · unfold objective hamming
    rw [sum_count hL hK (fun k => (numSat (neg rows py) k : ℚ)), ← sum_range_countP]
    congr 2
    apply Finset.sum_congr rfl
    intro i _
    by_cases h : Rule K ((pos rows py).getD i []) <;> simp [h]

/-- C93 for a further `fit`. -/
theorem best_from (hw : InvA o C p kinds X (encoded y) w0 []) (hl : y.length = X.rows.length) (h2 : (Sk.uniqueLabels y).length ≤ 2) (hp : 0 ≤ p)
    (hr : Fit.fit (env o X kinds) (config kinds maxIt limit) fuel y e0 w0 = some (.ok u, s))
    (hip : ∀ ω, IsOptimal s.world.master.solver (o.ip s.world.master.solver ω).1) :
    (∀ k ∈ s.world.master.explanation, k ∈ s.world.master.clauses) ∧
    (s.world.master.explanation.map (fun k => 1 + (k.length : ℚ))).sum ≤ C ∧
    ∀ K : List Clause, (∀ k ∈ K, k ∈ s.world.master.clauses) → (K.map (fun k => 1 + (k.length : ℚ))).sum ≤ C →
      hamming X.rows (encoded y) p s.world.master.explanation ≤ hamming X.rows (encoded y) p K := by
  obtain ⟨ops, ω, e, hsol⟩ := ip_from hw hl hr
  have hb := encoded_binary hl h2
  have hopt := hip ω
  rw [← hsol] at hopt
  obtain ⟨hi, -⟩ := after_inv C p X (encoded y) ops hb.len
  have hst : (o.ip (after C p X (encoded y) ops).solver ω).1.status ≠ .other := by
    intro hc
    rw [hi.explanation_other _ hc] at e
    cases e
  obtain ⟨s'', e', hi', -, -, -, -, -, he⟩ := hi.explanation (fun m => (o.ip m ω).1) hst
  rw [e'] at e
  obtain rfl : s'' = s.world.master := by cases e; rfl
  have hcl : s.world.master.clauses = clausesOf ops := hi'.clauses
  refine ⟨?_, C24_complexity C p X (encoded y) ops _ _ hb hopt.1 e', ?_⟩
  · intro k hk
    rw [he] at hk
    obtain ⟨j, hj, rfl⟩ := List.mem_map.1 hk
    have hlt := List.mem_range.1 (List.mem_filter.1 hj).1
    rw [hcl, List.getD_eq_getElem?_getD, List.getElem?_eq_getElem hlt]
    exact List.getElem_mem hlt
  · intro K hK hs
    rw [hcl] at hK
    obtain ⟨r1, r2⟩ := rule_weights (p := p) (rows := X.rows) (py := encoded y) hi.nodup hK hs
    rw [← r2]
    refine le_trans (hamming_le C p X (encoded y) ops _ _ hb hp hopt.1 e') (ip_le hb ops hopt _ _ ?_ ?_ r1)
    · intro i
      split
      · exact ⟨0, by norm_num⟩
      · exact ⟨1, by norm_num⟩
    · intro j
      exact ⟨(mult K ((clausesOf ops).getD j []) : ℤ), by norm_num⟩

/-- C93: if the final integer program was solved to optimality, the trained rule is made of clauses of the master problem, keeps the complexity bound, and no
rule over clauses of the master problem within that bound has a smaller Hamming loss. -/
theorem C93_best_rule (hl : y.length = X.rows.length) (h2 : (Sk.uniqueLabels y).length ≤ 2) (hp : 0 ≤ p)
    (hr : fitNew o C p kinds maxIt limit X fuel y e0 ω0 = some (.ok u, s))
    (hip : ∀ ω, IsOptimal s.world.master.solver (o.ip s.world.master.solver ω).1) :
    (∀ k ∈ s.world.master.explanation, k ∈ s.world.master.clauses) ∧
    (s.world.master.explanation.map (fun k => 1 + (k.length : ℚ))).sum ≤ C ∧
    ∀ K : List Clause, (∀ k ∈ K, k ∈ s.world.master.clauses) → (K.map (fun k => 1 + (k.length : ℚ))).sum ≤ C →
      hamming X.rows (encoded y) p s.world.master.explanation ≤ hamming X.rows (encoded y) p K :=
  best_from (Or.inl (fresh_init _)) hl h2 hp hr hip

/-- The training loss is at most the Hamming loss. -/
theorem loss_le_hamming (rows : List (List ℚ)) (py : List ℕ) (p : ℚ) (K : List Clause) : loss rows py p K ≤ hamming rows py p K := by
  unfold loss hamming
  refine add_le_add (le_refl _) ?_
  generalize neg rows py = N
  induction N with
  | nil => simp [numSat]
  | cons r N ih =>
    have e : (K.map (fun k => (numSat (r :: N) k : ℚ))).sum = (K.map (fun k => (numSat N k : ℚ))).sum + (K.countP (fun k => decide (Sat r k)) : ℚ) := by
      clear ih
      induction K with
      | nil => simp
      | cons k K ihK =>
        simp only [List.map_cons, List.sum_cons, List.countP_cons]
        rw [ihK]
        have : (numSat (r :: N) k : ℚ) = numSat N k + (if Sat r k then 1 else 0) := by
          unfold numSat
          rw [List.countP_cons]
          by_cases h : Sat r k <;> simp [h]
        rw [this]
        by_cases h : Sat r k
        · simp [h]; ring
        · simp [h]; ring
    rw [e, List.countP_cons]
    by_cases hr : Rule K r
    · have hpos : 1 ≤ K.countP (fun k => decide (Sat r k)) := by
        obtain ⟨k, hk, hs⟩ := hr
        exact List.countP_pos_iff.2 ⟨k, hk, by simpa using hs⟩
      have hpos' : (1 : ℚ) ≤ (K.countP (fun k => decide (Sat r k)) : ℚ) := by exact_mod_cast hpos
      simp only [hr, decide_true, if_true]
      push_cast
      linarith
    · have : (0 : ℚ) ≤ (K.countP (fun k => decide (Sat r k)) : ℚ) := by positivity
      simp only [hr, decide_false, Bool.false_eq_true, if_false, Nat.add_zero]
      linarith

/-- C93: in terms of training errors, the trained rule is at least as good as every rule over clauses of the master problem (within the bound) whose clauses do
not overlap on negative rows. -/
theorem C93_disjoint (hl : y.length = X.rows.length) (h2 : (Sk.uniqueLabels y).length ≤ 2) (hp : 0 ≤ p)
    (hr : fitNew o C p kinds maxIt limit X fuel y e0 ω0 = some (.ok u, s))
    (hip : ∀ ω, IsOptimal s.world.master.solver (o.ip s.world.master.solver ω).1) (K : List Clause)
    (hK : ∀ k ∈ K, k ∈ s.world.master.clauses) (hs : (K.map (fun k => 1 + (k.length : ℚ))).sum ≤ C)
    (hd : ∀ r ∈ neg X.rows (encoded y), K.countP (fun k => decide (Sat r k)) ≤ 1) :
    loss X.rows (encoded y) p s.world.master.explanation ≤ loss X.rows (encoded y) p K := by
  rw [← hamming_eq_loss hd]
  exact le_trans (loss_le_hamming _ _ _ _) ((C93_best_rule hl h2 hp hr hip).2.2 K hK hs)

/-- C93: no single clause of the master problem does better than the trained rule. -/
theorem C93_single (hl : y.length = X.rows.length) (h2 : (Sk.uniqueLabels y).length ≤ 2) (hp : 0 ≤ p)
    (hr : fitNew o C p kinds maxIt limit X fuel y e0 ω0 = some (.ok u, s))
    (hip : ∀ ω, IsOptimal s.world.master.solver (o.ip s.world.master.solver ω).1) (k : Clause) (hk : k ∈ s.world.master.clauses)
    (hs : 1 + (k.length : ℚ) ≤ C) :
    loss X.rows (encoded y) p s.world.master.explanation ≤ loss X.rows (encoded y) p [k] := by
  refine C93_disjoint hl h2 hp hr hip [k] (by simpa using hk) (by simpa using hs) (fun r _ => ?_)
  by_cases h : Sat r k <;> simp [h]

/-! ## C94: `fit` again -/

theorem session_inv (hl : y.length = X.rows.length) (h : Session o C p kinds X y w) : InvA o C p kinds X (encoded y) w [] := by
  have hl' : (encoded y).length = X.rows.length := by rw [encoded_length, hl]
  induction h with
  | new ω => exact Or.inl (fresh_init ω)
  | idle h ω ih =>
    rcases ih with ih | ⟨ops, ih⟩
    · exact Or.inl ⟨ih.master, ih.subs, ih.gen, ih.acc, ih.gens⟩
    · exact Or.inr ⟨ops, ih.clock _⟩
  | fit h maxIt limit fuel e0 hr ih =>
    exact ((invA_guided o C p kinds X (encoded y) (config kinds maxIt limit) rfl hl').fit ih hr).again

/-- C94: every further `fit` on the same data ends, whatever the solvers and the clock answer and whatever the earlier calls did. -/
theorem C94_refit_ends (maxIt : ℤ) (limit : ℚ) (e0 : Fit.Est) (hs : Session o C p kinds X y w) (hl : y.length = X.rows.length) :
    ∃ r, Fit.fit (env o X kinds) (config kinds maxIt limit) (2 ^ X.nFeat) y e0 w = some r ∧ numRmp r.2.trace ≤ 2 ^ X.nFeat ∧
      (accPos r.2.trace).length ≤ 2 ^ X.nFeat - 1 :=
  terminates_from o C p kinds maxIt limit X y e0 w (session_inv hl hs) hl

/-- C94: with two classes and solvers that keep their contracts every further `fit` returns normally. -/
theorem C94_refit_returns (maxIt : ℤ) (limit : ℚ) (e0 : Fit.Est) (hs : Session o C p kinds X y w) (hl : y.length = X.rows.length)
    (h2 : (Sk.uniqueLabels y).length = 2) (hc : Contract o C p kinds X (encoded y)) :
    ∃ s, Fit.fit (env o X kinds) (config kinds maxIt limit) (2 ^ X.nFeat) y e0 w = some (.ok (), s) ∧ s.est.isFitted = true :=
  returns_from o C p kinds maxIt limit X y e0 w (session_inv hl hs) hl h2 hc

/-- C94: a further `fit` never offers a clause that the master problem got in an earlier one. -/
theorem C94_refit_new_clauses (hs : Session o C p kinds X y w) (hl : y.length = X.rows.length)
    (h2 : (Sk.uniqueLabels y).length ≤ 2) (hc : Contract o C p kinds X (encoded y)) {r}
    (hr : Fit.fit (env o X kinds) (config kinds maxIt limit) fuel y e0 w = some r) : ∀ l i c q, Ev.add l i c q ∈ r.2.trace → q = .ok true :=
  adds_from (session_inv hl hs) hl h2 hc hr

/-- C94: after a further `fit` the rule keeps the complexity bound and is not worse than the best constant prediction. -/
theorem C94_refit_accuracy (hs : Session o C 1 kinds X y w) (hl : y.length = X.rows.length) (h2 : (Sk.uniqueLabels y).length = 2) (hC : 1 ≤ C)
    (hr : Fit.fit (env o X kinds) (config kinds maxIt limit) fuel y e0 w = some (.ok u, s))
    (hip : ∀ ω, IsOptimal s.world.master.solver (o.ip s.world.master.solver ω).1) :
    (s.world.master.explanation.map (fun k => 1 + (k.length : ℚ))).sum ≤ C ∧
    ∃ pred, predict (Sk.uniqueLabels y) s.world.master.explanation X.rows = .ok pred ∧
      ∀ c, errors pred y ≤ errors (X.rows.map (fun _ => c)) y :=
  ⟨(best_from (session_inv hl hs) hl (le_of_eq h2) zero_le_one hr hip).2.1, accuracy_from (session_inv hl hs) hl h2 hC hr hip⟩

/-- The clause dictionary only grows. -/
theorem dict_preserved (o : Oracle Ω) (X : Data) (kinds : List (List Kind)) (D : List (ℕ × Clause)) :
    Fit.Preserved (env o X kinds) (fun w _ => D <+: w.master.clauseDict) where
  clock w tr h := h
  timer w tr t h := h
  check w tr s t h := h
  flag w tr h := h
  clear w tr h := h
  generateMp w tr y h := by
    simp only [env, Master.generateMp]
    split
    · exact h
    · exact h.trans (List.prefix_append _ _)
  solveRmp w tr h := h
  improved w tr h := h
  update w tr l i d h := h
  generate w tr l i d h := by
    change D <+: (generateAt o X kinds l i d w).2.master.clauseDict
    rw [generateAt_explanation]
    exact h
  add w tr l i c h := by
    change D <+: (w.master.addColumn c).2.clauseDict
    unfold Master.addColumn
    split
    · exact h
    · split
      · exact h
      · split
        · exact h
        · simp only
          split
          · exact h.trans (List.prefix_append _ _)
          · exact h.trans (List.prefix_append _ _)
  solveIp w tr h := by
    change D <+: (w.master.solveIp _).2.clauseDict
    unfold Master.solveIp
    split
    · exact h
    · simp only
      split
      · exact h
      · split
        · exact h
        · exact h

theorem later_dict (h : Later o kinds w0 w) : w0.master.clauseDict <+: w.master.clauseDict := by
  induction h with
  | here => exact List.prefix_refl _
  | idle h ω ih => exact ih
  | fit h X y maxIt limit fuel e0 hr ih => exact (dict_preserved o X kinds _).fit _ fuel y e0 _ ih _ hr

/-- C94: no `fit`, on whatever data, drops a clause of the master problem. -/
theorem C94_clauses_kept (h : Later o kinds w0 w) : w0.master.clauses <+: w.master.clauses := (later_dict h).map _

/-- C94: after any number of further `fit` calls the rule of the last one has a Hamming loss that is not larger than that of an earlier rule, if both final integer
programs were solved to optimality. -/
theorem C94_refit_not_worse (hs : Session o C p kinds X y w) (hl : y.length = X.rows.length) (h2 : (Sk.uniqueLabels y).length ≤ 2) (hp : 0 ≤ p)
    (hr : Fit.fit (env o X kinds) (config kinds maxIt limit) fuel y e0 w = some (.ok u, s))
    (hip : ∀ ω, IsOptimal s.world.master.solver (o.ip s.world.master.solver ω).1)
    (hs' : Session o C p kinds X y w0) (hlat : Later o kinds s.world w0)
    (hr' : Fit.fit (env o X kinds) (config kinds maxIt' limit') fuel' y e0' w0 = some (.ok u', s'))
    (hip' : ∀ ω, IsOptimal s'.world.master.solver (o.ip s'.world.master.solver ω).1) :
    hamming X.rows (encoded y) p s'.world.master.explanation ≤ hamming X.rows (encoded y) p s.world.master.explanation := by
  obtain ⟨a1, a2, -⟩ := best_from (session_inv hl hs) hl h2 hp hr hip
  obtain ⟨-, -, b3⟩ := best_from (session_inv hl hs') hl h2 hp hr' hip'
  refine b3 _ (fun k hk => ?_) a2
  have hl' : Later o kinds s.world s'.world := hlat.fit X y maxIt' limit' fuel' e0' hr'
  exact (C94_clauses_kept hl').subset (a1 k hk)

/-- C94: when a further `fit` ends with `mp_optimal_`, the value of its last LP is a lower bound for the Hamming loss of every rule of complexity at most `C`, as for
a new classifier. -/
theorem C94_refit_bound (hs : Session o C p kinds X y w) (hl : y.length = X.rows.length) (h2 : (Sk.uniqueLabels y).length ≤ 2)
    (he : Exact o C p kinds X (encoded y)) (hex : ∃ l i, kindAt kinds l i = some (.exact C))
    (hr : Fit.fit (env o X kinds) (config kinds maxIt limit) fuel y e0 w = some (.ok u, s)) (ho : s.est.mpOptimal = true) :
    ∃ ω d, lastDuals s.trace = some (.ok d) ∧ s.world.master.solveRmp (o.lp s.world.master.solver ω).1 = .ok d ∧
      ∀ K, Admissible X.nFeat C K →
        (o.lp s.world.master.solver ω).1.objective ≤ hamming X.rows (encoded y) p K + 1 / 1000000 * C := by
  have hw := session_inv hl hs
  obtain ⟨ops, -, -, hm⟩ := ip_from hw hl hr
  have hlp := he.lp ops
  rw [hm] at hlp
  obtain ⟨ω, d, hd, hs, hb⟩ := bound_from hw hl h2 he.contract hex he.mip hr ho (fun ω => (hlp ω).2.1) (fun ω => (hlp ω).2.2)
  refine ⟨ω, d, hd, hs, ?_⟩
  intro K hK
  obtain ⟨h3, h4⟩ := rule_point (p := p) (rows := X.rows) (py := encoded y) hK
  rw [← h4]
  exact hb K _ _ (admissible_clause hK) h3

/-- With exact solvers the integer program of the final master is solved to optimality. -/
theorem exact_ip {clock : Ω → ℚ × Ω} (hC : 0 ≤ C) (hp : 0 ≤ p) (hs : Session (exact clock) C p kinds X y w) (hl : y.length = X.rows.length)
    (h2 : (Sk.uniqueLabels y).length ≤ 2) (hr : Fit.fit (env (exact clock) X kinds) (config kinds maxIt limit) fuel y e0 w = some (.ok u, s)) (ω : Ω) :
    IsOptimal s.world.master.solver ((exact clock).ip s.world.master.solver ω).1 := by
  obtain ⟨ops, -, -, hm⟩ := ip_from (session_inv hl hs) hl hr
  rw [← hm]
  exact (exact_master (encoded_binary hl h2) hC hp ops).2.2

/-- C94 with exact solvers (all contracts hold by construction): a classifier fitted again on the same data returns normally and its rule has a Hamming loss that is not
larger than before. -/
theorem C94_exact {clock : Ω → ℚ × Ω} (maxIt' : ℤ) (limit' : ℚ) (e0' : Fit.Est) (hC : 0 ≤ C) (hp : 0 ≤ p)
    (hk : ∀ l i D, kindAt kinds l i = some (.exact D) → 0 ≤ D) (hs : Session (exact clock) C p kinds X y w) (hl : y.length = X.rows.length)
    (h2 : (Sk.uniqueLabels y).length = 2) (hr : Fit.fit (env (exact clock) X kinds) (config kinds maxIt limit) fuel y e0 w = some (.ok u, s)) :
    ∃ s', Fit.fit (env (exact clock) X kinds) (config kinds maxIt' limit') (2 ^ X.nFeat) y e0' s.world = some (.ok (), s') ∧
      hamming X.rows (encoded y) p s'.world.master.explanation ≤ hamming X.rows (encoded y) p s.world.master.explanation := by
  have hs1 : Session (exact clock) C p kinds X y s.world := hs.fit maxIt limit fuel e0 hr
  obtain ⟨s', hr', -⟩ := C94_refit_returns maxIt' limit' e0' hs1 hl h2 (exact_contract clock (encoded_binary hl (le_of_eq h2)) hC hp hk)
  exact ⟨s', hr', C94_refit_not_worse hs hl (le_of_eq h2) hp hr (exact_ip hC hp hs hl (le_of_eq h2) hr) hs1 (.here _) hr'
    (exact_ip hC hp hs1 hl (le_of_eq h2) hr')⟩

end Verif.BDR
