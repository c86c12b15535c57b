import Verif.BDR.FitIdeal

/-!
# C84: what `mp_optimal_` says about all rules
-/

set_option linter.unusedSectionVars false

namespace Verif.BDR

open MP Spec
open Fit.Spec
open Verif.Fit (Ev Guided Clean)

variable {Ω : Type} {o : Oracle Ω} {C p : ℚ} {kinds : List (List Kind)} {X : Data} {y : List ℤ} {maxIt : ℤ} {limit : ℚ} {fuel : ℕ}
  {e0 : Fit.Est} {ω0 : Ω}

/-- A rule over `n` features whose complexity is at most `C`. -/
structure Admissible (n : ℕ) (C : ℚ) (K : List Clause) : Prop where
  feats : ∀ k ∈ K, ∀ j ∈ k, j < n
  size : (K.map (fun k => 1 + (k.length : ℚ))).sum ≤ C

/-- The loss that the program of the code minimises: a negative row counts once for every clause it satisfies. -/
def hamming (X : List (List ℚ)) (y : List ℕ) (p : ℚ) (K : List Clause) : ℚ :=
  p * ((pos X y).countP (fun r => decide ¬ Rule K r) : ℚ) + (K.map (fun k => (numSat (neg X y) k : ℚ))).sum

theorem sum_range_getD (K : List Clause) (f : Clause → ℚ) : ∑ j ∈ Finset.range K.length, f (K.getD j []) = (K.map f).sum := by
  induction K with
  | nil => simp
  | cons k K ih =>
    rw [List.length_cons, Finset.sum_range_succ', List.map_cons, List.sum_cons, ← ih]
    simp only [List.getD_cons_succ, List.getD_cons_zero]
    ring

theorem sum_range_countP (L : List (List ℚ)) (P : List ℚ → Prop) [DecidablePred P] :
    ∑ i ∈ Finset.range L.length, (if P (L.getD i []) then (1 : ℚ) else 0) = (L.countP (fun r => decide (P r)) : ℚ) := by
  induction L with
  | nil => simp
  | cons r L ih =>
    rw [List.length_cons, Finset.sum_range_succ', List.countP_cons]
    simp only [List.getD_cons_succ, List.getD_cons_zero]
    rw [ih]
    by_cases h : P r <;> simp [h]

/-- A rule is a feasible point of the documented program, whose objective is the Hamming loss. -/
theorem rule_point {rows : List (List ℚ)} {py : List ℕ} {n : ℕ} {K : List Clause} (hK : Admissible n C K) :
    Feasible rows py C K (fun i => if Rule K ((pos rows py).getD i []) then 0 else 1) (fun _ => 1) ∧
    objective rows py p K (fun i => if Rule K ((pos rows py).getD i []) then 0 else 1) (fun _ => 1) = hamming rows py p K := by
  refine ⟨⟨?_, ?_, ?_, ?_⟩, ?_⟩
  · intro i _
    split <;> norm_num
  · intro j _
    norm_num
  · intro i r hi
    have e : (pos rows py).getD i [] = r := by rw [List.getD_eq_getElem?_getD, hi]; rfl
    simp only [e]
    have hnn : ∀ j ∈ Finset.range K.length, (0 : ℚ) ≤ if Sat r (K.getD j []) then 1 else 0 := by
      intro j _
      split <;> norm_num
    by_cases hr : Rule K r
    · rw [if_pos hr]
      obtain ⟨k, hk, hs⟩ := hr
      obtain ⟨j, hj⟩ := List.mem_iff_getElem?.1 hk
      have hlt := (List.getElem?_eq_some_iff.1 hj).1
      have e2 : K.getD j [] = k := by rw [List.getD_eq_getElem?_getD, hj]; rfl
      have := Finset.single_le_sum hnn (Finset.mem_range.2 hlt)
      rw [e2, if_pos hs] at this
      unfold covered
      linarith
    · rw [if_neg hr]
      have := Finset.sum_nonneg hnn
      unfold covered
      linarith
  · unfold complexity
    simp only [mul_one]
    rw [sum_range_getD K (fun k => 1 + (k.length : ℚ))]
    exact hK.size
  · unfold objective hamming
    simp only [mul_one]
    rw [sum_range_getD K (fun k => (numSat (neg rows py) k : ℚ)), ← sum_range_countP]
    congr 2
    apply Finset.sum_congr rfl
    intro i _
    by_cases h : Rule K ((pos rows py).getD i []) <;> simp [h]

theorem admissible_clause {n : ℕ} {K : List Clause} (hK : Admissible n C K) (k : Clause) (hk : k ∈ K) :
    (∀ j ∈ k, j < n) ∧ (k.dedup.length : ℚ) ≤ C := by
  refine ⟨hK.feats k hk, ?_⟩
  have h1 : (k.dedup.length : ℚ) ≤ k.length := by exact_mod_cast (List.dedup_sublist k).length_le
  have h2 : 1 + (k.length : ℚ) ≤ (K.map (fun k => 1 + (k.length : ℚ))).sum := by
    refine List.single_le_sum ?_ _ (List.mem_map.2 ⟨k, hk, rfl⟩)
    intro x hx
    obtain ⟨k', -, rfl⟩ := List.mem_map.1 hx
    positivity
  have := hK.size
  linarith

/-- Exact solvers on the programs of a run: the LP duals are feasible and attain the reported LP value, pricing is solved to
optimality. -/
structure Exact (o : Oracle Ω) (C p : ℚ) (kinds : List (List Kind)) (X : Data) (py : List ℕ) : Prop where
  contract : Contract o C p kinds X py
  lp : ∀ ops ω, IsOptimalLP (after C p X py ops).solver (o.lp (after C p X py ops).solver ω).1 ∧
    DualFeasible (after C p X py ops).solver 0 (o.lp (after C p X py ops).solver ω).1.duals ∧
    (o.lp (after C p X py ops).solver ω).1.objective = (after C p X py ops).solver.dualValue (o.lp (after C p X py ops).solver ω).1.duals
  mip : ∀ hist d ω, 0 ≤ d.1 → (∀ x ∈ d.2, 0 ≤ x) → IsOptimal (pricingModel C X py hist d) (o.mip (pricingModel C X py hist d) ω).1

theorem exact_exact (clock : Ω → ℚ × Ω) {py : List ℕ} (hb : Binary X.rows py) (hC : 0 ≤ C) (hp : 0 ≤ p)
    (hk : ∀ l i D, kindAt kinds l i = some (.exact D) → 0 ≤ D) : Exact (exact clock) C p kinds X py where
  contract := exact_contract clock hb hC hp hk
  lp ops ω := (exact_master hb hC hp ops).1.2
  mip hist d ω h1 h2 := (exact_pricing hb hC hist d h1 h2).2

/-- The full claim of C84: after a run with exact solvers that ended with `mp_optimal_`, no rule of complexity at most `C` has a smaller training loss than the
value of the last LP (up to `1e-6 * C`). -/
def ErrorBound : Prop := ∀ (Ω : Type) (o : Oracle Ω) (C p : ℚ) (kinds : List (List Kind)) (X : Data) (y : List ℤ) (maxIt : ℤ) (limit : ℚ) (fuel : ℕ)
  (e0 : Fit.Est) (ω0 : Ω) (s : Fit.St (World Ω) (ℚ × List ℚ) Clause), y.length = X.rows.length → (Sk.uniqueLabels y).length = 2 →
  Exact o C p kinds X (encoded y) → (∃ l i, kindAt kinds l i = some (.exact C)) →
  fitNew o C p kinds maxIt limit X fuel y e0 ω0 = some (.ok (), s) → s.est.mpOptimal = true →
  ∃ ω d, lastDuals s.trace = some (.ok d) ∧ s.world.master.solveRmp (o.lp s.world.master.solver ω).1 = .ok d ∧
    ∀ K, Admissible X.nFeat C K →
      (o.lp s.world.master.solver ω).1.objective ≤ loss X.rows (encoded y) p K + 1 / 1000000 * C

/-- The final master is one of the masters that `Exact` speaks about. -/
theorem final_master (hl : y.length = X.rows.length) {u : Unit} {s} (hr : fitNew o C p kinds maxIt limit X fuel y e0 ω0 = some (.ok u, s)) :
    ∃ ops, s.world.master.solver = (after C p X (encoded y) ops).solver := by
  obtain ⟨ops, -, -, h⟩ := fit_ip hl hr
  exact ⟨ops, h.symm⟩

/-- C84, the part that holds: the value of the last LP is (up to `1e-6 * C`) at most the Hamming loss of every rule of complexity at most `C`. What is
missing for the full claim: a negative row that satisfies several clauses counts several times. -/
theorem C84_hamming_partial (hl : y.length = X.rows.length) (h2 : (Sk.uniqueLabels y).length ≤ 2) (he : Exact o C p kinds X (encoded y))
    (hex : ∃ l i, kindAt kinds l i = some (.exact C)) {u : Unit} {s} (hr : fitNew o C p kinds maxIt limit X fuel y e0 ω0 = some (.ok u, s))
    (ho : s.est.mpOptimal = true) :
    ∃ ω d, lastDuals s.trace = some (.ok d) ∧ s.world.master.solveRmp (o.lp s.world.master.solver ω).1 = .ok d ∧
      ∀ K, Admissible X.nFeat C K →
        (o.lp s.world.master.solver ω).1.objective ≤ hamming X.rows (encoded y) p K + 1 / 1000000 * C := by
  obtain ⟨ops, hm⟩ := final_master hl hr
  have hlp := he.lp ops
  rw [← hm] at hlp
  obtain ⟨ω, d, hd, hs, hb⟩ := C31_fit hl h2 he.contract hex he.mip hr ho (fun ω => (hlp ω).2.1) (fun ω => (hlp ω).2.2)
  refine ⟨ω, d, hd, hs, ?_⟩
  intro K hK
  obtain ⟨h3, h4⟩ := rule_point (p := p) (rows := X.rows) (py := encoded y) hK
  rw [← h4]
  exact hb K _ _ (admissible_clause hK) h3

/-- The Hamming loss is the training loss when no negative row satisfies two clauses, e.g. for a single clause. -/
theorem hamming_eq_loss {rows : List (List ℚ)} {py : List ℕ} {K : List Clause}
    (hd : ∀ r ∈ neg rows py, K.countP (fun k => decide (Sat r k)) ≤ 1) : hamming rows py p K = loss rows py p K := by
  unfold hamming loss
  congr 1
  revert hd
  generalize neg rows py = N
  intro hd
  induction N with
  | nil => simp [numSat]
  | cons r N ih =>
    have ih' := ih (fun r hr => hd r (by simp [hr]))
    have e : (K.map (fun k => (numSat (r :: N) k : ℚ))).sum = (K.map (fun k => (numSat N k : ℚ))).sum + (K.countP (fun k => decide (Sat r k)) : ℚ) := by
      clear hd ih ih'
      induction K with
      | nil => simp
      | cons k K ihK =>
        simp only [List.map_cons, List.sum_cons, List.countP_cons]
        rw [ihK]
        have : (numSat (r :: N) k : ℚ) = numSat N k + (if Sat r k then 1 else 0) := by
          unfold numSat
          rw [List.countP_cons]
          by_cases h : Sat r k <;> simp [h]
        rw [this]
        by_cases h : Sat r k
        · simp [h]; ring
        · simp [h]; ring
    rw [e, ih', List.countP_cons]
    have h1 := hd r (by simp)
    by_cases hr : Rule K r
    · have hpos : 0 < K.countP (fun k => decide (Sat r k)) := by
        obtain ⟨k, hk, hs⟩ := hr
        exact List.countP_pos_iff.2 ⟨k, hk, by simpa using hs⟩
      have h0 : K.countP (fun k => decide (Sat r k)) = 1 := by omega
      rw [h0]
      simp [hr]
    · have h0 : K.countP (fun k => decide (Sat r k)) = 0 := by
        rw [List.countP_eq_zero]
        intro k hk hs
        exact hr ⟨k, hk, by simpa using hs⟩
      rw [h0]
      simp [hr]

/-- C84 for rules whose clauses do not overlap on negative rows: their training loss is at least the value of the last LP. In particular no single clause
does better. -/
theorem C84_disjoint_partial (hl : y.length = X.rows.length) (h2 : (Sk.uniqueLabels y).length ≤ 2) (he : Exact o C p kinds X (encoded y))
    (hex : ∃ l i, kindAt kinds l i = some (.exact C)) {u : Unit} {s} (hr : fitNew o C p kinds maxIt limit X fuel y e0 ω0 = some (.ok u, s))
    (ho : s.est.mpOptimal = true) :
    ∃ ω d, lastDuals s.trace = some (.ok d) ∧ s.world.master.solveRmp (o.lp s.world.master.solver ω).1 = .ok d ∧
      ∀ K, Admissible X.nFeat C K → (∀ r ∈ neg X.rows (encoded y), K.countP (fun k => decide (Sat r k)) ≤ 1) →
        (o.lp s.world.master.solver ω).1.objective ≤ loss X.rows (encoded y) p K + 1 / 1000000 * C := by
  obtain ⟨ω, d, h3, h4, h5⟩ := C84_hamming_partial hl h2 he hex hr ho
  refine ⟨ω, d, h3, h4, ?_⟩
  intro K hK hd
  rw [← hamming_eq_loss hd]
  exact h5 K hK

/-- If some rule of complexity at most `C` makes no error, the value of the last LP is (almost) zero. -/
theorem C84_perfect_partial (hl : y.length = X.rows.length) (h2 : (Sk.uniqueLabels y).length ≤ 2) (he : Exact o C p kinds X (encoded y))
    (hex : ∃ l i, kindAt kinds l i = some (.exact C)) {u : Unit} {s} (hr : fitNew o C p kinds maxIt limit X fuel y e0 ω0 = some (.ok u, s))
    (ho : s.est.mpOptimal = true) (K : List Clause) (hK : Admissible X.nFeat C K) (hpos : ∀ r ∈ pos X.rows (encoded y), Rule K r)
    (hneg : ∀ r ∈ neg X.rows (encoded y), ¬ Rule K r) :
    ∃ ω d, lastDuals s.trace = some (.ok d) ∧ s.world.master.solveRmp (o.lp s.world.master.solver ω).1 = .ok d ∧
      (o.lp s.world.master.solver ω).1.objective ≤ 1 / 1000000 * C := by
  obtain ⟨ω, d, h3, h4, h5⟩ := C84_disjoint_partial hl h2 he hex hr ho
  refine ⟨ω, d, h3, h4, le_trans (h5 K hK ?_) (le_of_eq ?_)⟩
  · intro r hr
    have : K.countP (fun k => decide (Sat r k)) = 0 := by
      rw [List.countP_eq_zero]
      intro k hk hs
      exact hneg r hr ⟨k, hk, by simpa using hs⟩
    omega
  · have e1 : (pos X.rows (encoded y)).countP (fun r => decide ¬ Rule K r) = 0 := by
      rw [List.countP_eq_zero]
      intro r hr
      simpa using hpos r hr
    have e2 : (neg X.rows (encoded y)).countP (fun r => decide (Rule K r)) = 0 := by
      rw [List.countP_eq_zero]
      intro r hr
      simpa using hneg r hr
    unfold loss
    rw [e1, e2]
    simp

/-- Without limits a run on two classes with exact solvers always ends with `mp_optimal_`. -/
theorem C66_exact_optimal (clock : Ω → ℚ × Ω) (hl : y.length = X.rows.length) (h2 : (Sk.uniqueLabels y).length = 2) (hC : 0 ≤ C) (hp : 0 ≤ p)
    (hk : ∀ l i D, kindAt kinds l i = some (.exact D) → 0 ≤ D) (hm : maxIt ≤ 0) (ht : limit ≤ 0) :
    ∃ s, fitNew (exact clock) C p kinds maxIt limit X (2 ^ X.nFeat) y e0 ω0 = some (.ok (), s) ∧ s.est.mpOptimal = true := by
  obtain ⟨s, hr, -⟩ := C66_fit_returns (exact clock) C p kinds maxIt limit X y e0 ω0 hl h2
    (exact_contract clock (encoded_binary hl (le_of_eq h2)) hC hp hk)
  refine ⟨s, hr, ?_⟩
  rcases Fit.C02_stop_reason hr with h | ⟨-, h⟩ | ⟨-, -, h, -⟩
  · exact h.1
  · rw [(Fit.C08_time_limit hr).2 ht] at h
    cases h
  · exact absurd h (not_lt.2 hm)

end Verif.BDR

/-! ## The full claim is false -/

namespace Verif.BDR.Xor

open MP Spec Fit.Spec

/-- Exclusive or of two features. -/
def X : Data := ⟨[[1, 0], [0, 1], [1, 1], [0, 0]], 2⟩

def labels : List ℤ := [1, 1, 0, 0]

theorem encoded_labels : encoded labels = [1, 1, 0, 0] := by decide +kernel

theorem pos_eq : pos X.rows [1, 1, 0, 0] = [[1, 0], [0, 1]] := by decide +kernel

theorem neg_eq : neg X.rows [1, 1, 0, 0] = [[1, 1], [0, 0]] := by decide +kernel

theorem binary : Binary X.rows [1, 1, 0, 0] := by rw [← encoded_labels]; exact encoded_binary rfl (by decide +kernel)

theorem sat_mono (k : Clause) : ((if Sat [1, 0] k then (1 : ℚ) else 0) + if Sat [0, 1] k then (1 : ℚ) else 0) ≤ (numSat [[1, 1], [0, 0]] k : ℚ) := by
  have h1 : Sat [1, 0] k → ∀ j ∈ k, j = 0 := by
    intro h j hj
    have := h j hj
    match j with
    | 0 => rfl
    | 1 => simp at this
    | j + 2 => simp at this
  have h2 : Sat [0, 1] k → ∀ j ∈ k, j = 1 := by
    intro h j hj
    have := h j hj
    match j with
    | 0 => simp at this
    | 1 => rfl
    | j + 2 => simp at this
  have h3 : (∀ j ∈ k, j = 0 ∨ j = 1) → Sat [1, 1] k := by
    intro h j hj
    rcases h j hj with rfl | rfl <;> simp
  unfold numSat
  by_cases c1 : Sat [1, 0] k
  · have c3 := h3 (fun j hj => Or.inl (h1 c1 j hj))
    by_cases c2 : Sat [0, 1] k
    · have c4 : Sat [0, 0] k := by
        intro j hj
        have := h1 c1 j hj
        have := h2 c2 j hj
        omega
      simp [c1, c2, c3, c4]
      norm_num
    · simp only [c1, c2, c3, List.countP_cons, List.countP_nil]
      by_cases c4 : Sat [0, 0] k <;> simp [c4]
  · by_cases c2 : Sat [0, 1] k
    · have c3 := h3 (fun j hj => Or.inr (h2 c2 j hj))
      simp only [c1, c2, c3, List.countP_cons, List.countP_nil]
      by_cases c4 : Sat [0, 0] k <;> simp [c4]
    · simp [c1, c2]

/-- The LP value is at least 2 for any set of clauses. -/
theorem lp_ge (ops : List Op) (a : ℕ → ℚ) (h : (after 10 1 X [1, 1, 0, 0] ops).solver.FeasibleLP a) :
    2 ≤ (after 10 1 X [1, 1, 0, 0] ops).solver.value a := by
  obtain ⟨m1, m2, -, -⟩ := C22_master 10 1 X [1, 1, 0, 0] ops binary a
  rw [m2]
  have hf := m1.1 h
  have s0 := hf.sat 0 [1, 0] (by rw [pos_eq]; rfl)
  have s1 := hf.sat 1 [0, 1] (by rw [pos_eq]; rfl)
  have hw := hf.w_nonneg
  rw [pos_eq] at s0 s1 hw
  unfold objective
  rw [pos_eq, neg_eq]
  generalize clausesOf ops = K at *
  unfold covered at s0 s1
  have key : (∑ j ∈ Finset.range K.length, if Sat [1, 0] (K.getD j []) then a ([[(1 : ℚ), 0], [0, 1]].length + j) else 0) +
      (∑ j ∈ Finset.range K.length, if Sat [0, 1] (K.getD j []) then a ([[(1 : ℚ), 0], [0, 1]].length + j) else 0) ≤
      ∑ j ∈ Finset.range K.length, (numSat [[1, 1], [0, 0]] (K.getD j []) : ℚ) * a ([[(1 : ℚ), 0], [0, 1]].length + j) := by
    rw [← Finset.sum_add_distrib]
    refine Finset.sum_le_sum fun j hj => ?_
    refine le_trans (le_of_eq ?_) (mul_le_mul_of_nonneg_right (sat_mono (K.getD j [])) (hw j (Finset.mem_range.1 hj)))
    split_ifs <;> ring
  have e : ∑ i ∈ Finset.range [[(1 : ℚ), 0], [0, 1]].length, a i = a 0 + a 1 := by simp [Finset.sum_range_succ]
  rw [e]
  linarith

theorem kinds_nonneg : ∀ l i D, kindAt (plainKinds 10) l i = some (.exact D) → 0 ≤ D := by
  intro l i D hk
  unfold kindAt plainKinds at hk
  match l, i with
  | 0, 0 =>
    simp at hk
    rw [← hk]
    norm_num
  | 0, i + 1 => simp at hk
  | l + 1, i => simp at hk

theorem hyps : Exact (exact (fun t : ℚ => (t, t + 1))) 10 1 (plainKinds 10) X (encoded labels) := by
  rw [encoded_labels]
  exact exact_exact _ binary (by norm_num) (by norm_num) kinds_nonneg

def est0 : Fit.Est := ⟨false, [], 0, 0, 0, false, false, [], [], 0, 0, 0, 0, 0⟩

/-- A run with exact solvers that ends with `mp_optimal_`: all hypotheses of C84 are met. -/
theorem run : ∃ s, fitNew (exact (fun t : ℚ => (t, t + 1))) 10 1 (plainKinds 10) (-1) 0 X 4 labels est0 0 = some (.ok (), s) ∧
    s.est.mpOptimal = true := by
  refine C66_exact_optimal (X := X) _ rfl (by decide +kernel) (by norm_num) (by norm_num) kinds_nonneg (by norm_num) (le_refl _)

/-- The full claim is false: for exclusive or, the run ends with `mp_optimal_` and LP value at least 2, but the rule `x0 ∨ x1` of complexity 4 makes
one error. -/
theorem C84_false : ¬ ErrorBound := by
  intro h
  obtain ⟨s, hr, ho⟩ := run
  obtain ⟨ω, d, -, -, hb⟩ := h _ _ _ _ _ _ _ _ _ _ _ _ _ rfl (by decide +kernel) hyps ⟨0, 0, rfl⟩ hr ho
  have h1 := hb [[0], [1]] ⟨by decide, by norm_num⟩
  obtain ⟨ops, hm⟩ := final_master (X := X) rfl hr
  rw [encoded_labels] at hm h1
  have hopt := (exact_master (X := X) binary (C := 10) (p := 1) (by norm_num) (by norm_num) ops).1.2.1
  rw [← hm] at hopt
  have hge := lp_ge ops
  rw [← hm] at hge
  have h2 := hge _ hopt.1
  rw [← hopt.2.1] at h2
  have h3 : loss X.rows [1, 1, 0, 0] 1 [[0], [1]] = 1 := by decide +kernel
  rw [h3] at h1
  change (exactLp s.world.master.solver).objective ≤ _ at h1
  norm_num at h1
  linarith

end Verif.BDR.Xor
