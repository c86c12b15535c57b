import Verif.BDR.MasterLemmas

/-!
# Properties of the Boolean decision rule classifier (C20 - C31, C33 - C35)
-/

set_option linter.unusedSectionVars false
set_option linter.unusedSimpArgs false

namespace Verif.BDR

open MP Spec

/-! ## C20, C21: predict -/

theorem predictRow_eq (e : List Clause) (r : List ℚ) : predictRow e r = if Rule e r then 1 else 0 := by
  induction e with
  | nil => simp [predictRow, Rule]
  | cons c e ih =>
    unfold predictRow
    rw [satisfiesClause_eq, ih]
    by_cases h : Sat r c
    · have : Rule (c :: e) r := ⟨c, by simp, h⟩
      simp [h, this]
    · have : Rule (c :: e) r ↔ Rule e r := by simp [Rule, h]
      simp [h, this]

theorem mapM_ok {α β : Type} (f : α → Except Err β) (g : α → β) (l : List α) (h : ∀ a ∈ l, f a = .ok (g a)) :
    l.mapM f = .ok (l.map g) := by
  induction l with
  | nil => rfl
  | cons a l ih =>
    rw [List.mapM_cons, h a (by simp), ih (fun b hb => h b (by simp [hb]))]
    rfl

/-- C20: with classes `c0 < c1`, `predict` returns `c1` exactly on the rows satisfying some clause of the explanation. -/
theorem C20_predict (c0 c1 : ℤ) (e : List Clause) (X : List (List ℚ)) :
    predict [c0, c1] e X = .ok (X.map (fun r => if Rule e r then c1 else c0)) := by
  unfold predict Sk.inverseTransform
  rw [List.mapM_map]
  apply mapM_ok
  intro r _
  simp only [Function.comp, predictRow_eq]
  by_cases h : Rule e r <;> simp [h, Sk.inverseOne]

/-- C20: only the set of clauses, each seen as a set of features, matters. -/
theorem C20_order (classes : List ℤ) (e e' : List Clause) (X : List (List ℚ))
    (h1 : ∀ k ∈ e, ∃ k' ∈ e', ∀ j, j ∈ k ↔ j ∈ k') (h2 : ∀ k' ∈ e', ∃ k ∈ e, ∀ j, j ∈ k ↔ j ∈ k') :
    predict classes e X = predict classes e' X := by
  have : ∀ r, Rule e r ↔ Rule e' r := by
    intro r
    constructor
    · rintro ⟨k, hk, hs⟩
      obtain ⟨k', hk', hj⟩ := h1 k hk
      exact ⟨k', hk', fun j hjk => hs j ((hj j).2 hjk)⟩
    · rintro ⟨k', hk', hs⟩
      obtain ⟨k, hk, hj⟩ := h2 k' hk'
      exact ⟨k, hk, fun j hjk => hs j ((hj j).1 hjk)⟩
  unfold predict
  simp [predictRow_eq, this]

/-- C20: the empty explanation predicts the first class everywhere. -/
theorem C20_empty (c0 c1 : ℤ) (X : List (List ℚ)) : predict [c0, c1] [] X = .ok (X.map (fun _ => c0)) := by
  rw [C20_predict]
  simp [Rule]

/-- Two clauses, three rows. -/
example : predict [3, 8] [[0, 2], [1]] [[1, 0, 1], [1, 0, 0], [0, 5, 0]] = .ok [8, 3, 8] := by decide +kernel

/-- C21: making zero features non-zero never turns the second class into the first. -/
theorem C21_monotone (c0 c1 : ℤ) (e : List Clause) (r r' : List ℚ) (h : ∀ j, r.getD j 0 ≠ 0 → r'.getD j 0 ≠ 0)
    (hp : predict [c0, c1] e [r] = .ok [c1]) : predict [c0, c1] e [r'] = .ok [c1] := by
  rw [C20_predict] at hp ⊢
  simp only [List.map_cons, List.map_nil, Except.ok.injEq, List.cons.injEq, and_true] at hp ⊢
  by_cases hr : Rule e r
  · obtain ⟨k, hk, hs⟩ := hr
    rw [if_pos ⟨k, hk, fun j hj => h j (hs j hj)⟩]
  · rw [if_neg hr] at hp
    subst hp
    simp

example : (∀ j, ([1, 0] : List ℚ).getD j 0 ≠ 0 → ([1, 2] : List ℚ).getD j 0 ≠ 0) ∧ predict [0, 1] [[0]] [[1, 0]] = .ok [1] := by
  refine ⟨?_, by decide +kernel⟩
  intro j
  match j with
  | 0 => simp
  | 1 => simp
  | j + 2 => simp

/-! ## C22, C23: the restricted master -/

/-- Calls on the master. -/
inductive Op where
  | generateMp (X : Data) (y : List ℕ)
  | addColumn (k : Clause)
  | solveRmp (ans : Answer)
  | solveIp (solve : Model → Answer)

/-- The column offered by a call. -/
def Op.col : Op → Option Clause
  | .addColumn k => some k
  | _ => none

/-- The master after a call (also when the call raises). -/
def step (s : Master) : Op → Master
  | .generateMp X y => s.generateMp X y
  | .addColumn k => (s.addColumn k).2
  | .solveRmp _ => s
  | .solveIp solve => (s.solveIp solve).2

/-- The master after a sequence of calls. -/
def run (s : Master) (ops : List Op) : Master := ops.foldl step s

/-- The clauses of a history: the empty clause, then the distinct columns in order of first appearance. -/
def clausesOf (ops : List Op) : List Clause :=
  ops.foldl (fun K op => match op with
    | .addColumn k => if k ∈ K then K else K ++ [k]
    | _ => K) [[]]

/-- The master after `generate_mp` on fresh data and a history. -/
def after (C p : ℚ) (X : Data) (y : List ℕ) (ops : List Op) : Master := run ((Master.new C p).generateMp X y) ops

theorem step_inv {s : Master} {K : List Clause} (h : Inv s K) (h0 : [] ∈ K) (op : Op) :
    ∃ K', Inv (step s op) K' ∧ (step s op).X = s.X ∧ (step s op).y = s.y ∧ (step s op).C = s.C ∧ (step s op).p = s.p ∧
      K' = (match op with
        | .addColumn k => if k ∈ K then K else K ++ [k]
        | _ => K) := by
  cases op with
  | generateMp X y =>
    have : step s (.generateMp X y) = s := by simp [step, Master.generateMp, h.gen]
    rw [this]
    exact ⟨K, h, rfl, rfl, rfl, rfl, rfl⟩
  | addColumn k =>
    obtain ⟨a1, a2, a3⟩ := addColumn_inv h k
    by_cases hk : k = []
    · subst hk
      have : step s (.addColumn []) = s := by simp only [step]; rw [a1 rfl]
      rw [this]
      exact ⟨K, h, rfl, rfl, rfl, rfl, by simp [h0]⟩
    · by_cases hm : k ∈ K
      · have : step s (.addColumn k) = s := by simp only [step]; rw [a2 hk hm]
        rw [this]
        exact ⟨K, h, rfl, rfl, rfl, rfl, by simp [hm]⟩
      · obtain ⟨s', e, hi, b1, b2, b3, b4, b5⟩ := a3 hk hm
        have : step s (.addColumn k) = s' := by simp only [step]; rw [e]
        rw [this]
        exact ⟨_, hi, b1, b2, b3, b4, by simp [hm]⟩
  | solveRmp ans => exact ⟨K, h, rfl, rfl, rfl, rfl, rfl⟩
  | solveIp solve =>
    by_cases hst : (solve s.solver).status = .other
    · have : step s (.solveIp solve) = { s with explanation := [] } := by simp only [step]; rw [h.explanation_other solve hst]
      rw [this]
      exact ⟨K, ⟨h.gen, h.len, h.vars, h.consLen, h.cons0, h.consS, h.obj, h.offset, h.max, h.cvars, h.xi, h.sat, h.comp, h.dict, h.nodup⟩,
        rfl, rfl, rfl, rfl, rfl⟩
    · obtain ⟨s', e, hi, b0, b1, b2, b3, b4, b5⟩ := h.explanation solve hst
      have : step s (.solveIp solve) = s' := by simp only [step]; rw [e]
      rw [this]
      exact ⟨K, hi, b1, b2, b3, b4, rfl⟩

theorem run_inv (ops : List Op) : ∀ {s : Master} {K : List Clause}, Inv s K → [] ∈ K →
    ∃ K', Inv (run s ops) K' ∧ (run s ops).X = s.X ∧ (run s ops).y = s.y ∧ (run s ops).C = s.C ∧ (run s ops).p = s.p ∧
      K' = ops.foldl (fun K op => match op with
        | .addColumn k => if k ∈ K then K else K ++ [k]
        | _ => K) K := by
  induction ops with
  | nil => intro s K h _; exact ⟨K, h, rfl, rfl, rfl, rfl, rfl⟩
  | cons op ops ih =>
    intro s K h h0
    obtain ⟨K1, h1, b1, b2, b3, b4, e⟩ := step_inv h h0 op
    have h01 : [] ∈ K1 := by
      rw [e]
      cases op with
      | addColumn k => simp only; split <;> simp [h0]
      | generateMp X y => exact h0
      | solveRmp a => exact h0
      | solveIp a => exact h0
    obtain ⟨K', h', c1, c2, c3, c4, e'⟩ := ih h1 h01
    refine ⟨K', h', c1.trans b1, c2.trans b2, c3.trans b3, c4.trans b4, ?_⟩
    rw [e', e]
    rfl

theorem after_inv (C p : ℚ) (X : Data) (y : List ℕ) (ops : List Op) (h : y.length = X.rows.length) :
    Inv (after C p X y ops) (clausesOf ops) ∧ (after C p X y ops).X = X ∧ (after C p X y ops).y = y ∧
      (after C p X y ops).C = C ∧ (after C p X y ops).p = p := by
  obtain ⟨h1, b1, b2, b3, b4, _⟩ := generateMp_inv C p X y h
  obtain ⟨K', h', c1, c2, c3, c4, e⟩ := run_inv ops h1 (by simp)
  unfold after clausesOf
  rw [← e]
  exact ⟨h', c1.trans b1, c2.trans b2, c3.trans b3, c4.trans b4⟩

/-- C22: after `generate_mp` and any history, the solver's model is the documented program over the clauses of the history. Variable `i`
is `xi_i` for the `i`-th positive row, variable `number of positives + j` is the weight of clause `j`. -/
theorem C22_master (C p : ℚ) (X : Data) (y : List ℕ) (ops : List Op) (hb : Binary X.rows y) (a : ℕ → ℚ) :
    ((after C p X y ops).solver.FeasibleLP a ↔
      Feasible X.rows y C (clausesOf ops) (fun i => a i) (fun j => a ((pos X.rows y).length + j))) ∧
    (after C p X y ops).solver.value a =
      objective X.rows y p (clausesOf ops) (fun i => a i) (fun j => a ((pos X.rows y).length + j)) ∧
    (after C p X y ops).solver.maximize = false ∧
    ((after C p X y ops).solver.Feasible a ↔ (after C p X y ops).solver.FeasibleLP a ∧
      ∀ v < (pos X.rows y).length + (clausesOf ops).length, ∃ z : ℤ, a v = z) := by
  obtain ⟨h, h1, h2, h3, h4⟩ := after_inv C p X y ops hb.len
  have hb' : Binary (after C p X y ops).X.rows (after C p X y ops).y := by rw [h1, h2]; exact hb
  have f1 := h.feasibleLP hb' a
  have f2 := h.value hb' a
  have f3 := h.integral a
  rw [h1, h2, h3] at f1
  rw [h1, h2, h4] at f2
  rw [h1, h2, posM_eq hb] at f3
  refine ⟨f1, f2, h.max, ?_⟩
  rw [← f3]
  exact ⟨fun h => ⟨h.toFeasibleLP, h.integral⟩, fun h => ⟨h.1, h.2⟩⟩

/-- Two positive and one negative row, two added clauses (one repeated, the empty one refused). -/
example : Binary [[1, 0], [0, 1], [1, 1]] [1, 1, 0] ∧
    clausesOf [.addColumn [0], .addColumn [], .addColumn [1], .addColumn [0]] = [[], [0], [1]] ∧
    (after 10 1 ⟨[[1, 0], [0, 1], [1, 1]], 2⟩ [1, 1, 0]
      [.addColumn [0], .addColumn [], .addColumn [1], .addColumn [0]]).solver.cons.map (fun k => (List.range 5).map k.coeff) =
      [[0, 0, 1, 2, 2], [1, 0, 1, 1, 0], [0, 1, 1, 0, 1]] := by
  refine ⟨⟨rfl, by decide⟩, by decide, by decide +kernel⟩

/-- C23: clauses are pairwise different after every history (any labels), and each has its own variable. -/
theorem C23_distinct (C p : ℚ) (X : Data) (y : List ℕ) (ops : List Op) (h : y.length = X.rows.length) :
    ((after C p X y ops).clauseDict.map (·.2)).Nodup ∧ ((after C p X y ops).clauseDict.map (·.1)).Nodup := by
  obtain ⟨hi, -⟩ := after_inv C p X y ops h
  refine ⟨by rw [hi.clauses]; exact hi.nodup, ?_⟩
  rw [hi.dict, List.map_fst_zip (by simp)]
  exact List.nodup_range'

/-- C23: what `add_column` answers in a reachable state. -/
theorem C23_add (C p : ℚ) (X : Data) (y : List ℕ) (ops : List Op) (k : Clause) (h : y.length = X.rows.length) :
    (after C p X y ops).addColumn k =
      if k = [] then (.ok false, after C p X y ops)
      else if k ∈ ops.filterMap Op.col then (.error .assertionError, after C p X y ops)
      else (.ok true, after C p X y (ops ++ [.addColumn k])) := by
  obtain ⟨hi, -⟩ := after_inv C p X y ops h
  obtain ⟨a1, a2, a3⟩ := addColumn_inv hi k
  have hmem : ∀ (ops : List Op) (K : List Clause), (k ∈ ops.foldl (fun K op => match op with
        | .addColumn k => if k ∈ K then K else K ++ [k]
        | _ => K) K) ↔ k ∈ K ∨ k ∈ ops.filterMap Op.col := by
    intro ops
    induction ops with
    | nil => intro K; simp
    | cons op ops ih =>
      intro K
      rw [List.foldl_cons, ih]
      cases op with
      | addColumn k' =>
        have hc : (Op.addColumn k' :: ops).filterMap Op.col = k' :: ops.filterMap Op.col := rfl
        rw [hc]
        by_cases hk : k' ∈ K
        · simp only [hk, if_true, List.mem_cons]
          constructor
          · rintro (h | h)
            · exact Or.inl h
            · exact Or.inr (Or.inr h)
          · rintro (h | h | h)
            · exact Or.inl h
            · subst h; exact Or.inl hk
            · exact Or.inr h
        · simp only [hk, if_false, List.mem_append, List.mem_singleton, List.mem_cons]
          tauto
      | generateMp X y => rfl
      | solveRmp a => rfl
      | solveIp a => rfl
  by_cases hk : k = []
  · rw [if_pos hk, a1 hk]
  · rw [if_neg hk]
    have hm := hmem ops [[]]
    have hm' : k ∈ clausesOf ops ↔ k ∈ ops.filterMap Op.col := by
      unfold clausesOf
      rw [hm]
      simp [hk]
    by_cases hin : k ∈ clausesOf ops
    · rw [if_pos (hm'.1 hin), a2 hk hin]
    · rw [if_neg (fun hc => hin (hm'.2 hc))]
      obtain ⟨s', e, -⟩ := a3 hk hin
      rw [e]
      unfold after run
      rw [List.foldl_append]
      simp only [List.foldl_cons, List.foldl_nil, step]
      change _ = (_, ((after C p X y ops).addColumn k).2)
      rw [e]

/-! ## C24, C25: the explanation -/

/-- Number of training errors of the rule with weights. -/
def loss (X : List (List ℚ)) (y : List ℕ) (p : ℚ) (e : List Clause) : ℚ :=
  p * ((pos X y).countP (fun r => decide ¬ Rule e r) : ℚ) + ((neg X y).countP (fun r => decide (Rule e r)) : ℚ)

/-- Facts about a feasible integer solution. -/
theorem ip_facts {s : Master} {K : List Clause} (h : Inv s K) (hb : Binary s.X.rows s.y) {a : ℕ → ℚ} (hf : s.solver.Feasible a) :
    Feasible s.X.rows s.y s.C K (fun i => a i) (fun j => a ((pos s.X.rows s.y).length + j)) ∧
    (∀ j < K.length, a ((pos s.X.rows s.y).length + j) = 0 ∨ 1 ≤ a ((pos s.X.rows s.y).length + j)) := by
  have h1 := (h.feasibleLP hb a).1 hf.toFeasibleLP
  refine ⟨h1, ?_⟩
  intro j hj
  obtain ⟨z, hz⟩ := (h.integral a).1 hf.integral ((pos s.X.rows s.y).length + j) (by rw [posM_eq hb]; omega)
  have h0 := h1.w_nonneg j hj
  rw [hz] at h0 ⊢
  have : (0 : ℤ) ≤ z := by exact_mod_cast h0
  rcases (show z = 0 ∨ 1 ≤ z by omega) with e | e
  · left; rw [e]; norm_num
  · right; exact_mod_cast e

theorem sum_filter_le (f w : ℕ → ℚ) (l : List ℕ) (hf : ∀ j ∈ l, 0 ≤ f j) (hw : ∀ j ∈ l, w j = 0 ∨ 1 ≤ w j) :
    ((l.filter (fun j => w j > 0)).map f).sum ≤ (l.map (fun j => f j * w j)).sum := by
  induction l with
  | nil => simp
  | cons j l ih =>
    have := ih (fun i hi => hf i (by simp [hi])) (fun i hi => hw i (by simp [hi]))
    rw [List.map_cons, List.sum_cons, List.filter_cons]
    have hf0 := hf j (by simp)
    rcases hw j (by simp) with h0 | h0
    · simp only [h0, gt_iff_lt, lt_self_iff_false, decide_false, Bool.false_eq_true, if_false, mul_zero, zero_add]
      exact this
    · have hp : w j > 0 := by linarith
      simp only [hp, decide_true, if_true, List.map_cons, List.sum_cons]
      have : f j ≤ f j * w j := by nlinarith
      linarith

/-- C24: the explanation read from a feasible integer solution has complexity at most `C`. -/
theorem C24_complexity (C p : ℚ) (X : Data) (y : List ℕ) (ops : List Op) (solve : Model → Answer) (s' : Master) (hb : Binary X.rows y)
    (hsol : IsSolution (after C p X y ops).solver (solve (after C p X y ops).solver))
    (hr : (after C p X y ops).solveIp solve = (.ok true, s')) :
    (s'.explanation.map (fun k => 1 + (k.length : ℚ))).sum ≤ C := by
  obtain ⟨h, h1, h2, h3, h4⟩ := after_inv C p X y ops hb.len
  have hb' : Binary (after C p X y ops).X.rows (after C p X y ops).y := by rw [h1, h2]; exact hb
  set s := after C p X y ops
  have hst : (solve s.solver).status ≠ .other := by
    intro hc
    rw [h.explanation_other solve hc] at hr
    cases hr
  obtain ⟨s'', e, -, -, -, -, -, -, he⟩ := h.explanation solve hst
  rw [e] at hr
  cases hr
  obtain ⟨hf, hw⟩ := ip_facts h hb' hsol.1
  rw [posM_eq hb'] at he
  rw [he, List.map_map]
  have := sum_filter_le (fun j => 1 + (((clausesOf ops).getD j []).length : ℚ))
    (fun j => (solve s.solver).values ((pos s.X.rows s.y).length + j)) (List.range (clausesOf ops).length)
    (fun j _ => by positivity) (fun j hj => hw j (List.mem_range.1 hj))
  refine le_trans this ?_
  rw [sum_map_range]
  have := hf.comp
  rw [h3] at this
  exact this

theorem countP_le_sum {α : Type} (P : α → Bool) (f : α → ℚ) (l : List α) (h : ∀ a ∈ l, 0 ≤ f a) (h1 : ∀ a ∈ l, P a = true → 1 ≤ f a) :
    (l.countP P : ℚ) ≤ (l.map f).sum := by
  induction l with
  | nil => simp
  | cons a l ih =>
    have := ih (fun b hb => h b (by simp [hb])) (fun b hb => h1 b (by simp [hb]))
    rw [List.map_cons, List.sum_cons, List.countP_cons]
    have h0 := h a (by simp)
    by_cases hp : P a = true
    · have := h1 a (by simp) hp
      simp only [hp, if_true]
      push_cast
      linarith
    · simp only [hp, if_false, Nat.add_zero]
      push_cast
      simp only [Bool.not_eq_true] at hp
      linarith

theorem sum_eq_range {α : Type} (l : List α) (d : α) (f : α → ℚ) :
    (l.map f).sum = ∑ i ∈ Finset.range l.length, f (l.getD i d) := by
  rw [← sum_map_range]
  congr 1
  apply List.ext_getElem
  · simp
  · intro i h1 h2
    simp at h1
    simp [List.getD_eq_getElem?_getD, h1]

theorem covered_nonneg {K : List Clause} {w : ℕ → ℚ} (h : ∀ j < K.length, 0 ≤ w j) (r : List ℚ) : 0 ≤ covered K w r := by
  unfold covered
  apply Finset.sum_nonneg
  intro j hj
  split
  · exact h j (Finset.mem_range.1 hj)
  · exact le_refl _

/-- Weighted negatives, exchanged. -/
theorem sum_numSat (rows : List (List ℚ)) (K : List Clause) (w : ℕ → ℚ) :
    ∑ j ∈ Finset.range K.length, (numSat rows (K.getD j []) : ℚ) * w j = (rows.map (covered K w)).sum := by
  induction rows with
  | nil => simp [numSat]
  | cons r rows ih =>
    rw [List.map_cons, List.sum_cons, ← ih]
    unfold covered
    rw [← Finset.sum_add_distrib]
    apply Finset.sum_congr rfl
    intro j _
    unfold numSat
    rw [List.countP_cons]
    by_cases hs : Sat r (K.getD j [])
    · rw [if_pos hs]
      simp only [hs, decide_true, if_true]
      push_cast
      ring
    · rw [if_neg hs]
      simp only [hs, decide_false, Bool.false_eq_true, if_false, Nat.add_zero, zero_add]

/-- C25: the weighted number of training errors of the explanation is at most the objective value of the integer solution. -/
theorem C25_loss (C p : ℚ) (X : Data) (y : List ℕ) (ops : List Op) (solve : Model → Answer) (s' : Master) (hb : Binary X.rows y)
    (hp : 0 ≤ p) (hsol : IsSolution (after C p X y ops).solver (solve (after C p X y ops).solver))
    (hr : (after C p X y ops).solveIp solve = (.ok true, s')) :
    loss X.rows y p s'.explanation ≤ (solve (after C p X y ops).solver).objective := by
  obtain ⟨h, h1, h2, h3, h4⟩ := after_inv C p X y ops hb.len
  have hb' : Binary (after C p X y ops).X.rows (after C p X y ops).y := by rw [h1, h2]; exact hb
  rw [hsol.2]
  set s := after C p X y ops
  rw [h.value hb']
  have hst : (solve s.solver).status ≠ .other := by
    intro hc
    rw [h.explanation_other solve hc] at hr
    cases hr
  obtain ⟨s'', e, -, -, -, -, -, -, he⟩ := h.explanation solve hst
  rw [e] at hr
  obtain rfl : s'' = s' := by cases hr; rfl
  obtain ⟨hf, hw⟩ := ip_facts h hb' hsol.1
  rw [posM_eq hb'] at he
  rw [h1, h2] at *
  rw [h4]
  set K := clausesOf ops
  set n := (pos X.rows y).length with hn
  set a := (solve s.solver).values
  have hrule : ∀ r, Rule s''.explanation r ↔ ∃ j < K.length, a (n + j) > 0 ∧ Sat r (K.getD j []) := by
    intro r
    rw [he]
    unfold Rule
    simp only [List.mem_map, List.mem_filter, List.mem_range, decide_eq_true_eq]
    constructor
    · rintro ⟨k, ⟨j, ⟨hj, hp⟩, rfl⟩, hs⟩; exact ⟨j, hj, hp, hs⟩
    · rintro ⟨j, hj, hp, hs⟩; exact ⟨_, ⟨j, ⟨hj, hp⟩, rfl⟩, hs⟩
  have hcov1 : ∀ r, Rule s''.explanation r → 1 ≤ covered K (fun j => a (n + j)) r := by
    intro r hr
    obtain ⟨j, hj, hp, hs⟩ := (hrule r).1 hr
    have hj1 : 1 ≤ a (n + j) := by
      rcases hw j hj with h0 | h0
      · rw [h0] at hp; exact absurd hp (lt_irrefl _)
      · exact h0
    have hle := Finset.single_le_sum (f := fun j => if Sat r (K.getD j []) then a (n + j) else 0) (s := Finset.range K.length) (by
      intro i hi
      split
      · exact hf.w_nonneg i (Finset.mem_range.1 hi)
      · exact le_refl _) (Finset.mem_range.2 hj)
    rw [if_pos hs] at hle
    exact le_trans hj1 hle
  have hcov0 : ∀ r, ¬ Rule s''.explanation r → covered K (fun j => a (n + j)) r = 0 := by
    intro r hr
    unfold covered
    apply Finset.sum_eq_zero
    intro j hj
    split
    · rename_i hs
      rcases hw j (Finset.mem_range.1 hj) with h0 | h0
      · exact h0
      · exact absurd ((hrule r).2 ⟨j, Finset.mem_range.1 hj, by linarith, hs⟩) hr
    · rfl
  unfold loss objective
  apply add_le_add
  · apply mul_le_mul_of_nonneg_left _ hp
    have : ∑ i ∈ Finset.range n, a i = ((List.range n).map a).sum := (sum_map_range n a).symm
    rw [← hn, this]
    have hcount : ((pos X.rows y).countP (fun r => decide ¬ Rule s''.explanation r)) =
        (List.range n).countP (fun i => decide ¬ Rule s''.explanation ((pos X.rows y).getD i [])) := by
      have : pos X.rows y = (List.range n).map (fun i => (pos X.rows y).getD i []) := by
        apply List.ext_getElem
        · simp [hn]
        · intro i h1 h2
          simp [List.getD_eq_getElem?_getD, h1]
      conv_lhs => rw [this, List.countP_map]
      rfl
    rw [hcount]
    apply countP_le_sum
    · intro i hi
      exact hf.xi_nonneg i (List.mem_range.1 hi)
    · intro i hi hpi
      have hi' := List.mem_range.1 hi
      simp only [decide_eq_true_eq] at hpi
      have hr : (pos X.rows y)[i]? = some ((pos X.rows y).getD i []) := by
        rw [List.getD_eq_getElem?_getD, List.getElem?_eq_getElem hi']; rfl
      have := hf.sat i _ hr
      rw [hcov0 _ hpi] at this
      simpa using this
  · rw [sum_numSat]
    apply countP_le_sum
    · intro r _
      exact covered_nonneg (fun j hj => hf.w_nonneg j hj) r
    · intro r _ hpr
      exact hcov1 r (by simpa using hpr)

/-- An answer satisfying the hypotheses of C24 and C25: clause `[0]` with weight 1, second positive row missed. -/
def demoAnswer : Answer := ⟨.optimal, fun v => if v = 1 ∨ v = 3 then 1 else 0, fun _ => 0, 2⟩

def demoMaster : Master := after 10 1 ⟨[[1, 0], [0, 1], [1, 1]], 2⟩ [1, 1, 0] [.addColumn [0]]

example : IsSolution demoMaster.solver demoAnswer := by
  have hb : Binary [[1, 0], [0, 1], [1, 1]] [1, 1, 0] := ⟨rfl, by decide⟩
  have hK : clausesOf [.addColumn [0]] = [[], [0]] := by decide
  have hpos : pos [[1, 0], [0, 1], [1, 1]] [1, 1, 0] = [[1, 0], [0, 1]] := by decide
  obtain ⟨h1, h2, -, h4⟩ := C22_master 10 1 ⟨[[1, 0], [0, 1], [1, 1]], 2⟩ [1, 1, 0] [.addColumn [0]] hb demoAnswer.values
  refine ⟨h4.2 ⟨h1.2 ?_, ?_⟩, ?_⟩
  · rw [hK]
    refine ⟨?_, ?_, ?_, by decide +kernel⟩
    · intro i _; simp only [demoAnswer]; split <;> norm_num
    · intro i _; simp only [demoAnswer]; split <;> norm_num
    · intro i r hi
      have hlt : i < 2 := by
        have := (List.getElem?_eq_some_iff.1 hi).1
        simp only [hpos] at this
        exact this
      simp only [hpos] at hi
      match i, hlt with
      | 0, _ => simp at hi; subst hi; decide +kernel
      | 1, _ => simp at hi; subst hi; decide +kernel
  · intro v _
    simp only [demoAnswer]
    split
    · exact ⟨1, by norm_num⟩
    · exact ⟨0, by norm_num⟩
  · change _ = (after 10 1 ⟨[[1, 0], [0, 1], [1, 1]], 2⟩ [1, 1, 0] [.addColumn [0]]).solver.value demoAnswer.values
    rw [h2, hK]
    decide +kernel

example : (demoMaster.solveIp (fun _ => demoAnswer)).1 = .ok true ∧
    (demoMaster.solveIp (fun _ => demoAnswer)).2.explanation = [[0]] := by decide +kernel

end Verif.BDR
