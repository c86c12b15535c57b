import Verif.BDR.PriceProps
import Verif.DTree.FloatPrice

/-!
# The pricing heuristic of the rule classifier with rounded arithmetic (C120)

`Verif.BDR.Model` computes the reduced costs of `BDRHeuristic` with exact numbers. Python uses floats: the product and the running sum are rounded
(`Fl.Rounding`; `Fl.binary64` is the one of Python).
-/

set_option linter.unusedSectionVars false
set_option linter.unusedSimpArgs false

namespace Verif.BDR

open MP Spec Fl
open DTree (flSum flSum_error flSum_id)
open DTree.Spec (evalSlack)

/-! ## The model -/

/-- The loop over the samples, `_bdr_classifier.py:762-775`, every result rounded. -/
def heuristicCostR (rnd : ℚ → ℚ) (cs : List ℚ) (clause : Clause) : List (List ℚ × ℕ) → ℚ × ℕ → ℚ
  | [], st => st.1
  | (entry, target) :: rest, (cost, seen) =>
    let seen' := if target = 1 then seen + 1 else seen
    if satisfiesClause entry clause = 0 then heuristicCostR rnd cs clause rest (cost, seen')
    else if target = 1 then heuristicCostR rnd cs clause rest (rnd (cost - cs.getD (seen' - 1) 0), seen')
    else heuristicCostR rnd cs clause rest (rnd (cost + 1), seen')

/-- `BDRHeuristic.generate_columns`, `_bdr_classifier.py:725-778`. The literal `1e-6` is the rounded number; `1 + len(clause)` is an integer that
is exact as a float. -/
def heuristicColumnsR (rnd : ℚ → ℚ) (K : ℕ) (X : Data) (y : List ℕ) (duals : ℚ × List ℚ) : Except Err (List Clause) :=
  if duals.1 < 0 then .error .assertionError
  else if duals.2.any (fun d => d < 0) then .error .assertionError
  else
    .ok ((List.range K).flatMap (fun k =>
      (combinations (k + 1) (List.range X.nFeat)).filter (fun clause =>
        heuristicCostR rnd duals.2 clause (X.rows.zip y) (rnd (duals.1 * (1 + clause.length)), 0) < -rnd (1 / 1000000))))

/-! ## What is claimed -/

/-- The sum of the absolute values of all numbers that enter the reduced cost of a clause. -/
def Spec.ruleMagnitude (X : List (List ℚ)) (y : List ℕ) (lam : ℚ) (mu : List ℚ) (k : Clause) : ℚ :=
  (numSat (neg X y) k : ℚ) + (∑ i ∈ Finset.range (pos X y).length, if Sat ((pos X y).getD i []) k then |mu.getD i 0| else 0) +
    |lam| * (1 + (k.length : ℚ))

/-! ## Proofs -/

/-- The numbers that are added. -/
def heurTerms (cs : List ℚ) (clause : Clause) : List (List ℚ × ℕ) → ℕ → List ℚ
  | [], _ => []
  | (entry, target) :: rest, seen =>
    let seen' := if target = 1 then seen + 1 else seen
    if satisfiesClause entry clause = 0 then heurTerms cs clause rest seen'
    else if target = 1 then -cs.getD (seen' - 1) 0 :: heurTerms cs clause rest seen'
    else 1 :: heurTerms cs clause rest seen'

theorem heuristicCostR_eq (rnd : ℚ → ℚ) (cs : List ℚ) (k : Clause) (l : List (List ℚ × ℕ)) (c : ℚ) (n : ℕ) :
    heuristicCostR rnd cs k l (c, n) = flSum rnd c (heurTerms cs k l n) := by
  induction l generalizing c n with
  | nil => rfl
  | cons x l ih =>
    obtain ⟨r, t⟩ := x
    unfold heuristicCostR heurTerms
    simp only
    by_cases h0 : satisfiesClause r k = 0
    · rw [if_pos h0, if_pos h0, ih]
    · rw [if_neg h0, if_neg h0]
      by_cases ht : t = 1
      · simp only [if_pos ht]
        rw [ih, sub_eq_add_neg]; rfl
      · simp only [if_neg ht]
        rw [ih]; rfl

theorem heuristicCostR_id (cs : List ℚ) (k : Clause) (l : List (List ℚ × ℕ)) (st : ℚ × ℕ) :
    heuristicCostR id cs k l st = heuristicCost cs k l st := by
  induction l generalizing st with
  | nil => rfl
  | cons x l ih =>
    obtain ⟨r, t⟩ := x
    obtain ⟨c, n⟩ := st
    unfold heuristicCostR heuristicCost
    simp only [ih, id_eq]

theorem heurTerms_length (cs : List ℚ) (k : Clause) (l : List (List ℚ × ℕ)) (n : ℕ) : (heurTerms cs k l n).length ≤ l.length := by
  induction l generalizing n with
  | nil => exact le_rfl
  | cons x l ih =>
    obtain ⟨r, t⟩ := x
    unfold heurTerms
    simp only
    by_cases h0 : satisfiesClause r k = 0
    · rw [if_pos h0]; exact (ih _).trans (by simp)
    · rw [if_neg h0]
      by_cases ht : t = 1
      · simp only [if_pos ht]; simpa using ih _
      · simp only [if_neg ht]; simpa using ih _

theorem heurTerms_abs (cs : List ℚ) (k : Clause) (l : List (List ℚ × ℕ)) (n : ℕ) :
    (heurTerms cs k l n).map (fun x => |x|) = heurTerms (cs.map (fun x => -|x|)) k l n := by
  induction l generalizing n with
  | nil => rfl
  | cons x l ih =>
    obtain ⟨r, t⟩ := x
    unfold heurTerms
    simp only
    by_cases h0 : satisfiesClause r k = 0
    · rw [if_pos h0, if_pos h0, ih]
    · rw [if_neg h0, if_neg h0]
      by_cases ht : t = 1
      · simp only [if_pos ht]
        rw [List.map_cons, ih]
        congr 1
        rw [abs_neg, List.getD_eq_getElem?_getD, List.getD_eq_getElem?_getD, List.getElem?_map]
        cases cs[n + 1 - 1]? <;> simp
      · simp only [if_neg ht]
        rw [List.map_cons, ih, abs_one]

theorem heurTerms_sum {X : Data} {y : List ℕ} (hb : Binary X.rows y) (lam : ℚ) (cs : List ℚ) (k : Clause) :
    lam * (1 + k.length) + (heurTerms cs k (X.rows.zip y) 0).sum = reducedCost X.rows y lam cs k := by
  rw [← priceCost_eq hb, ← heuristicCost_price hb.len, ← heuristicCostR_id, heuristicCostR_eq, flSum_id]

theorem heurTerms_magnitude {X : Data} {y : List ℕ} (hb : Binary X.rows y) (lam : ℚ) (cs : List ℚ) (k : Clause) :
    |lam * (1 + k.length)| + ((heurTerms cs k (X.rows.zip y) 0).map (fun x => |x|)).sum = ruleMagnitude X.rows y lam cs k := by
  have h1 : |lam * (1 + (k.length : ℚ))| = |lam| * (1 + k.length) := by
    rw [abs_mul, abs_of_nonneg (by positivity : (0 : ℚ) ≤ 1 + k.length)]
  rw [h1, heurTerms_abs, heurTerms_sum hb]
  unfold reducedCost ruleMagnitude
  rw [sub_eq_add_neg, ← Finset.sum_neg_distrib]
  congr 2
  refine Finset.sum_congr rfl ?_
  intro i _
  by_cases hs : Sat ((pos X.rows y).getD i []) k
  · rw [if_pos hs, if_pos hs, List.getD_eq_getElem?_getD, List.getD_eq_getElem?_getD, List.getElem?_map]
    cases cs[i]? <;> simp
  · rw [if_neg hs, if_neg hs, neg_zero]

theorem ruleMagnitude_nonneg (X : List (List ℚ)) (y : List ℕ) (lam : ℚ) (mu : List ℚ) (k : Clause) : 0 ≤ ruleMagnitude X y lam mu k := by
  unfold ruleMagnitude
  have h1 : 0 ≤ ∑ i ∈ Finset.range (pos X y).length, if Sat ((pos X y).getD i []) k then |mu.getD i 0| else 0 := by
    refine Finset.sum_nonneg ?_
    intro i _
    split_ifs
    · exact abs_nonneg _
    · exact le_rfl
  have h2 := abs_nonneg lam
  positivity

/-- The rounded reduced cost compared with the rounded `1e-6`. -/
theorem heuristicCostR_error {rnd : ℚ → ℚ} {u η : ℚ} (ha : Accurate rnd u η) (hu : 0 ≤ u) (hη : 0 ≤ η) {X : Data} {y : List ℕ}
    (hb : Binary X.rows y) (lam : ℚ) (cs : List ℚ) (k : Clause) (hn : 2 * ((X.rows.length : ℚ) + 1) * u ≤ 1) :
    |(heuristicCostR rnd cs k (X.rows.zip y) (rnd (lam * (1 + k.length)), 0) + rnd (1 / 1000000)) -
      (reducedCost X.rows y lam cs k + 1 / 1000000)| ≤ evalSlack u η X.rows.length (ruleMagnitude X.rows y lam cs k) := by
  have hlen : (heurTerms cs k (X.rows.zip y) 0).length ≤ X.rows.length := by
    refine (heurTerms_length _ _ _ _).trans ?_
    rw [List.length_zip]
    exact min_le_left _ _
  have hlen' : ((heurTerms cs k (X.rows.zip y) 0).length : ℚ) ≤ X.rows.length := by exact_mod_cast hlen
  have e : heuristicCostR rnd cs k (X.rows.zip y) (rnd (lam * (1 + k.length)), 0) =
      flSum rnd 0 (lam * (1 + k.length) :: heurTerms cs k (X.rows.zip y) 0) := by
    rw [heuristicCostR_eq]
    unfold flSum
    rw [List.foldl_cons, zero_add]
  have h1 := flSum_error ha hu hη (A := ruleMagnitude X.rows y lam cs k) 0 (lam * (1 + k.length) :: heurTerms cs k (X.rows.zip y) 0)
    (by
      rw [abs_zero, zero_add, List.map_cons, List.sum_cons, heurTerms_magnitude hb])
    (by
      rw [List.length_cons]
      push_cast
      refine le_trans ?_ hn
      exact mul_le_mul_of_nonneg_right (by linarith) hu)
  rw [← e, List.sum_cons, zero_add, heurTerms_sum hb, List.length_cons] at h1
  push_cast at h1
  have h2 := ha (1 / 1000000)
  rw [abs_of_pos (show (0 : ℚ) < 1 / 1000000 by norm_num)] at h2
  have hm := ruleMagnitude_nonneg X.rows y lam cs k
  obtain ⟨A, hA⟩ : ∃ A, A = ruleMagnitude X.rows y lam cs k := ⟨_, rfl⟩
  rw [← hA] at h1 hm ⊢
  have hb0 : 0 ≤ u * A + η := by positivity
  have h3 : 2 * (((heurTerms cs k (X.rows.zip y) 0).length : ℚ) + 1) * (u * A + η) ≤ 2 * (X.rows.length + 1) * (u * A + η) :=
    mul_le_mul_of_nonneg_right (by linarith) hb0
  have e2 : ∀ a b c d : ℚ, (a + b) - (c + d) = (a - c) + (b - d) := by intros; ring
  rw [e2]
  refine (abs_add_le _ _).trans ?_
  unfold evalSlack
  have e3 : u / 1000000 = u * (1 / 1000000) := by ring
  rw [e3]
  linarith

/-- **C120**, without rounding the model is the exact one of `Verif.BDR.Model`. -/
theorem C120_rule_exact (K : ℕ) (X : Data) (y : List ℕ) (d : ℚ × List ℚ) : heuristicColumnsR id K X y d = heuristicColumns K X y d := by
  have e : (-(1 / 1000000) : ℚ) = threshold := by unfold threshold; norm_num
  unfold heuristicColumnsR heuristicColumns
  simp only [heuristicCostR_id, id_eq, e]

/-- **C120**: the heuristic of the rule classifier raises exactly when a dual is negative, whatever the rounding. Otherwise it returns, shorter
ones first, lexicographically and each once, clauses with 1 to `K` features: only such with a reduced cost below `-1e-6` plus the rounding error, and
all with a reduced cost below `-1e-6` minus the rounding error. -/
theorem C120_rule {rnd : ℚ → ℚ} {u η : ℚ} (ha : Accurate rnd u η) (hu : 0 ≤ u) (hη : 0 ≤ η) (K : ℕ) {X : Data} {y : List ℕ} (hb : Binary X.rows y)
    (hn : 2 * ((X.rows.length : ℚ) + 1) * u ≤ 1) (d : ℚ × List ℚ) :
    ((∃ cols, heuristicColumnsR rnd K X y d = .ok cols) ↔ 0 ≤ d.1 ∧ ∀ x ∈ d.2, 0 ≤ x) ∧
    ∀ cols, heuristicColumnsR rnd K X y d = .ok cols →
      (∀ k ∈ cols, Proper X.nFeat k ∧ 1 ≤ k.length ∧ k.length ≤ K ∧
        reducedCost X.rows y d.1 d.2 k < -1 / 1000000 + evalSlack u η X.rows.length (ruleMagnitude X.rows y d.1 d.2 k)) ∧
      (∀ k, Proper X.nFeat k → 1 ≤ k.length → k.length ≤ K →
        reducedCost X.rows y d.1 d.2 k < -1 / 1000000 - evalSlack u η X.rows.length (ruleMagnitude X.rows y d.1 d.2 k) → k ∈ cols) ∧
      cols.Nodup ∧ cols.Pairwise (fun a b => a.length < b.length ∨ (a.length = b.length ∧ List.Lex (· < ·) a b)) := by
  constructor
  · rw [← C29_raises K X y d]
    unfold heuristicColumnsR heuristicColumns
    by_cases h1 : d.1 < 0
    · rw [if_pos h1, if_pos h1]
    · rw [if_neg h1, if_neg h1]
      by_cases h2 : (d.2.any (fun d => decide (d < 0))) = true
      · rw [if_pos h2, if_pos h2]
      · rw [if_neg h2, if_neg h2]; simp
  · intro cols hr
    unfold heuristicColumnsR at hr
    split at hr
    · cases hr
    · split at hr
      · cases hr
      · cases hr
        refine ⟨?_, ?_, ?_, heuristic_sorted _ _ _⟩
        · intro k hk
          rw [mem_heuristic] at hk
          obtain ⟨h1, h2, h3, h4⟩ := hk
          rw [decide_eq_true_eq] at h4
          have := heuristicCostR_error ha hu hη hb d.1 d.2 k hn
          rw [abs_le] at this
          exact ⟨h1, h2, h3, by linarith [this.1]⟩
        · intro k h1 h2 h3 h4
          rw [mem_heuristic]
          refine ⟨h1, h2, h3, ?_⟩
          rw [decide_eq_true_eq]
          have := heuristicCostR_error ha hu hη hb d.1 d.2 k hn
          rw [abs_le] at this
          linarith [this.2]
        · refine (heuristic_sorted K X _).imp ?_
          intro a b hab he
          subst he
          rcases hab with h | ⟨-, h⟩
          · omega
          · exact absurd h (List.lex_irrefl (by simp) a)

/-- **C120**: when no clause has a reduced cost within the rounding error of `-1e-6`, the heuristic returns the same list as with exact numbers. -/
theorem C120_rule_same {rnd : ℚ → ℚ} {u η : ℚ} (ha : Accurate rnd u η) (hu : 0 ≤ u) (hη : 0 ≤ η) (K : ℕ) {X : Data} {y : List ℕ}
    (hb : Binary X.rows y) (hn : 2 * ((X.rows.length : ℚ) + 1) * u ≤ 1) (d : ℚ × List ℚ)
    (hgap : ∀ k, Proper X.nFeat k → 1 ≤ k.length → k.length ≤ K →
      evalSlack u η X.rows.length (ruleMagnitude X.rows y d.1 d.2 k) < |reducedCost X.rows y d.1 d.2 k + 1 / 1000000|) :
    heuristicColumnsR rnd K X y d = heuristicColumns K X y d := by
  unfold heuristicColumnsR heuristicColumns
  congr 2
  have : ∀ k ∈ List.range K, ∀ c ∈ combinations (k + 1) (List.range X.nFeat),
      decide (heuristicCostR rnd d.2 c (X.rows.zip y) (rnd (d.1 * (1 + c.length)), 0) < -rnd (1 / 1000000)) =
        decide (heuristicCost d.2 c (X.rows.zip y) (d.1 * (1 + c.length), 0) < threshold) := by
    intro k hk c hc
    rw [List.mem_range] at hk
    rw [mem_combinations] at hc
    have hg := hgap c ((proper_iff_sublist _ _).2 hc.1) (by omega) (by omega)
    have := heuristicCostR_error ha hu hη hb d.1 d.2 c hn
    rw [heuristicCost_price hb.len, priceCost_eq hb, decide_eq_decide]
    unfold threshold
    rw [abs_le] at this
    rcases lt_abs.1 hg with h | h
    · constructor
      · intro h'; linarith [this.1]
      · intro h'; linarith [this.1, this.2]
    · constructor
      · intro h'; linarith [this.1, this.2]
      · intro h'; linarith [this.1, this.2]
  congr 1
  refine List.flatMap_congr ?_
  intro k hk
  exact List.filter_congr (this k hk)

/-- **C120** with Python's floats: as long as the number of rows is below `2 ^ 28` and its product with the magnitude of the clauses is at most
`2 ^ 28`, the returned clauses have a reduced cost below `-9e-7`, and all clauses with 1 to `K` features and a reduced cost below `-1.1e-6` are
returned. -/
theorem C120_rule64 (K : ℕ) {X : Data} {y : List ℕ} (hb : Binary X.rows y) (hn : X.rows.length + 1 ≤ 2 ^ 28) (d : ℚ × List ℚ)
    (hA : ∀ k, Proper X.nFeat k → 1 ≤ k.length → k.length ≤ K → ((X.rows.length : ℚ) + 1) * ruleMagnitude X.rows y d.1 d.2 k ≤ 2 ^ 28)
    {cols : List Clause} (hr : heuristicColumnsR binary64.rnd K X y d = .ok cols) :
    (∀ k ∈ cols, Proper X.nFeat k ∧ 1 ≤ k.length ∧ k.length ≤ K ∧ reducedCost X.rows y d.1 d.2 k < -9 / 10000000) ∧
    (∀ k, Proper X.nFeat k → 1 ≤ k.length → k.length ≤ K → reducedCost X.rows y d.1 d.2 k < -11 / 10000000 → k ∈ cols) := by
  have hn' : ((X.rows.length : ℚ) + 1) ≤ 2 ^ 28 := by exact_mod_cast hn
  obtain ⟨-, h⟩ := C120_rule DTree.binary64_accurate (by positivity) (by positivity) K hb (by norm_num at hn' ⊢; linarith) d
  obtain ⟨h1, h2, -⟩ := h cols hr
  constructor
  · intro k hk
    obtain ⟨k1, k2, k3, k4⟩ := h1 k hk
    have := (DTree.slack64 (ruleMagnitude_nonneg X.rows y d.1 d.2 k) hn (hA k k1 k2 k3)).1
    exact ⟨k1, k2, k3, by linarith⟩
  · intro k k1 k2 k3 k4
    have := (DTree.slack64 (ruleMagnitude_nonneg X.rows y d.1 d.2 k) hn (hA k k1 k2 k3)).1
    exact h2 k k1 k2 k3 (by linarith)

/-- **C120** with Python's floats: under the same conditions, and with duals that are dual feasible for the restricted master up to `9e-7`, no
returned clause is already in the master, so that adding it does not raise. -/
theorem C120_rule_new (C p : ℚ) (X : Data) (y : List ℕ) (ops : List Op) (K : ℕ) (ans : Answer) (d : ℚ × List ℚ) (cols : List Clause)
    (hb : Binary X.rows y) (hn : X.rows.length + 1 ≤ 2 ^ 28)
    (hA : ∀ k, Proper X.nFeat k → 1 ≤ k.length → k.length ≤ K → ((X.rows.length : ℚ) + 1) * ruleMagnitude X.rows y d.1 d.2 k ≤ 2 ^ 28)
    (hdual : DualFeasible (after C p X y ops).solver (9 / 10000000) ans.duals)
    (hd : (after C p X y ops).solveRmp ans = .ok d) (hr : heuristicColumnsR binary64.rnd K X y d = .ok cols) :
    ∀ k ∈ cols, k ∉ clausesOf ops ∧ ((after C p X y ops).addColumn k).1 = .ok true := by
  intro k hk
  obtain ⟨h, h1, h2, h3, h4⟩ := after_inv C p X y ops hb.len
  have hb' : Binary (after C p X y ops).X.rows (after C p X y ops).y := by rw [h1, h2]; exact hb
  obtain ⟨hc, -⟩ := known_cost h hb' hdual hd
  rw [h1, h2] at hc
  obtain ⟨-, hl, -, hlt⟩ := (C120_rule64 K hb hn d hA hr).1 k hk
  have hnot : k ∉ clausesOf ops := by
    intro hm
    have := hc k hm
    linarith
  refine ⟨hnot, ?_⟩
  obtain ⟨s', e, -⟩ := (addColumn_inv h k).2.2 (by intro hk0; rw [hk0] at hl; simp at hl) hnot
  rw [e]

theorem empty_mem_clausesOf (ops : List Op) : ([] : Clause) ∈ clausesOf ops := by
  have key : ∀ (ops : List Op) (K : List Clause), [] ∈ K → ([] : Clause) ∈ ops.foldl (fun K op => match op with
      | .addColumn k => if k ∈ K then K else K ++ [k]
      | _ => K) K := by
    intro ops
    induction ops with
    | nil => intro K hK; exact hK
    | cons op ops ih =>
      intro K hK
      apply ih
      cases op with
      | addColumn k => simp only; split <;> simp [hK]
      | generateMp X y => exact hK
      | solveRmp a => exact hK
      | solveIp a => exact hK
  exact key ops _ (by simp)

/-- **C120**: dual feasible duals (up to `9e-7`) whose dual objective is not negative are small: the magnitude of every clause with at most `K`
features is at most `(n + 1) * (K + 4)` for `n` rows, whatever the penalty `p`. The empty clause in the master is what bounds the duals. -/
theorem C120_rule_magnitude {C : ℚ} (hC : 2 ≤ C) (p : ℚ) (X : Data) (y : List ℕ) (ops : List Op) (ans : Answer) (d : ℚ × List ℚ)
    (hb : Binary X.rows y) (hdual : DualFeasible (after C p X y ops).solver (9 / 10000000) ans.duals)
    (hval : 0 ≤ (after C p X y ops).solver.dualValue ans.duals) (hd : (after C p X y ops).solveRmp ans = .ok d) (k : Clause) :
    ruleMagnitude X.rows y d.1 d.2 k ≤ ((X.rows.length : ℚ) + 1) * (k.length + 4) := by
  obtain ⟨h, h1, h2, h3, h4⟩ := after_inv C p X y ops hb.len
  have hb' : Binary (after C p X y ops).X.rows (after C p X y ops).y := by rw [h1, h2]; exact hb
  obtain ⟨hc, hl, hmu, hd0, hmu2⟩ := known_cost h hb' hdual hd
  rw [h1, h2] at hc hmu2
  have hempty := hc [] (empty_mem_clausesOf ops)
  rw [h.dualValue, posM_eq hb', h1, h2, h3] at hval
  set n := (pos X.rows y).length with hn
  have hm : ∀ i < n, 0 ≤ d.2.getD i 0 := by
    intro i _
    rw [List.getD_eq_getElem?_getD]
    cases hx : d.2[i]? with
    | none => simp
    | some x => simpa using hmu x (List.mem_of_getElem? hx)
  have e1 : ∑ i ∈ Finset.range n, ans.duals (i + 1) + ans.duals 0 * C = ∑ i ∈ Finset.range n, d.2.getD i 0 - d.1 * C := by
    rw [hd0, Finset.sum_congr rfl (fun i hi => ((hmu2 i (Finset.mem_range.1 hi)).1).symm)]
    ring
  rw [e1] at hval
  have hneg : ∀ k' : Clause, (numSat (neg X.rows y) k' : ℚ) ≤ X.rows.length := by
    intro k'
    have : numSat (neg X.rows y) k' ≤ X.rows.length := by
      unfold numSat
      refine List.countP_le_length.trans ?_
      unfold neg
      rw [List.length_map]
      refine (List.length_filter_le _ _).trans ?_
      rw [List.length_zip]
      exact min_le_left _ _
    exact_mod_cast this
  have hS : reducedCost X.rows y d.1 d.2 [] = numSat (neg X.rows y) [] - ∑ i ∈ Finset.range n, d.2.getD i 0 + d.1 := by
    unfold reducedCost
    rw [← hn]
    have : ∀ i ∈ Finset.range n, (if Sat ((pos X.rows y).getD i []) [] then d.2.getD i 0 else 0) = d.2.getD i 0 := by
      intro i _
      rw [if_pos]
      intro j hj
      simp at hj
    rw [Finset.sum_congr rfl this]
    simp
  rw [hS] at hempty
  have hsub : (∑ i ∈ Finset.range n, if Sat ((pos X.rows y).getD i []) k then |d.2.getD i 0| else 0) ≤ ∑ i ∈ Finset.range n, d.2.getD i 0 := by
    refine Finset.sum_le_sum ?_
    intro i hi
    have := hm i (Finset.mem_range.1 hi)
    split_ifs
    · rw [abs_of_nonneg this]
    · exact this
  have hn0 := hneg []
  have hnk := hneg k
  have hlam : d.1 ≤ X.rows.length + 1 := by
    have : d.1 * 2 ≤ d.1 * C := mul_le_mul_of_nonneg_left hC hl
    linarith
  unfold ruleMagnitude
  rw [← hn, abs_of_nonneg hl]
  have hk0 : (0 : ℚ) ≤ k.length := by positivity
  have : d.1 * (1 + (k.length : ℚ)) ≤ (X.rows.length + 1) * (1 + k.length) := mul_le_mul_of_nonneg_right hlam (by linarith)
  nlinarith

/-- **C120** with Python's floats, for the master problem: with at least complexity 2, a data set with `(n + 1) ^ 2 * (K + 4) ≤ 2 ^ 28` (for `K = 1`, 7300
rows), duals that are feasible up to `9e-7` and have a dual objective that is not negative, no clause returned by the heuristic is
already in the master, each has a reduced cost below `-9e-7`, and no clause with 1 to `K` features and a reduced cost below `-1.1e-6` is missed. -/
theorem C120_rule_fit {C : ℚ} (hC : 2 ≤ C) (p : ℚ) (X : Data) (y : List ℕ) (ops : List Op) (K : ℕ) (ans : Answer) (d : ℚ × List ℚ) (cols : List Clause)
    (hb : Binary X.rows y) (hn : (X.rows.length + 1) ^ 2 * (K + 4) ≤ 2 ^ 28)
    (hdual : DualFeasible (after C p X y ops).solver (9 / 10000000) ans.duals)
    (hval : 0 ≤ (after C p X y ops).solver.dualValue ans.duals)
    (hd : (after C p X y ops).solveRmp ans = .ok d) (hr : heuristicColumnsR binary64.rnd K X y d = .ok cols) :
    (∀ k ∈ cols, k ∉ clausesOf ops ∧ ((after C p X y ops).addColumn k).1 = .ok true ∧ reducedCost X.rows y d.1 d.2 k < -9 / 10000000) ∧
    (∀ k, Proper X.nFeat k → 1 ≤ k.length → k.length ≤ K → reducedCost X.rows y d.1 d.2 k < -11 / 10000000 → k ∈ cols) := by
  have hn' : ((X.rows.length : ℚ) + 1) ^ 2 * (K + 4) ≤ 2 ^ 28 := by exact_mod_cast hn
  have hn1 : X.rows.length + 1 ≤ 2 ^ 28 := by
    refine le_trans ?_ hn
    nlinarith
  have hA : ∀ k, Proper X.nFeat k → 1 ≤ k.length → k.length ≤ K → ((X.rows.length : ℚ) + 1) * ruleMagnitude X.rows y d.1 d.2 k ≤ 2 ^ 28 := by
    intro k _ _ hk
    have hk' : (k.length : ℚ) ≤ K := by exact_mod_cast hk
    have h1 := C120_rule_magnitude hC p X y ops ans d hb hdual hval hd k
    have h0 : (0 : ℚ) ≤ (X.rows.length : ℚ) + 1 := by positivity
    refine le_trans (mul_le_mul_of_nonneg_left h1 h0) (le_trans ?_ hn')
    rw [pow_two, mul_assoc]
    exact mul_le_mul_of_nonneg_left (mul_le_mul_of_nonneg_left (by linarith) h0) h0
  obtain ⟨h1, h2⟩ := C120_rule64 K hb hn1 d hA hr
  exact ⟨fun k hk => ⟨(C120_rule_new C p X y ops K ans d cols hb hn1 hA hdual hd hr k hk).1,
    (C120_rule_new C p X y ops K ans d cols hb hn1 hA hdual hd hr k hk).2, (h1 k hk).2.2.2⟩, h2⟩

/-! ## Examples -/

namespace FloatDemo

/-- A negative row and three positive rows, one feature, all rows satisfy it. -/
def X : Data := ⟨[[1], [1], [1], [1]], 1⟩

def y : List ℕ := [0, 1, 1, 1]

/-- Duals of this size lose the `1` of the negative row. -/
def big : ℚ × List ℚ := (2 ^ 53, [2 ^ 53, 2 ^ 53, 1])

/-- The reduced cost is 0, but the rounded sum is -1. -/
theorem C120_rule_differs : heuristicColumnsR binary64.rnd 1 X y big = .ok [[0]] ∧ heuristicColumns 1 X y big = .ok [] ∧
    reducedCost X.rows y big.1 big.2 [0] = 0 := by
  refine ⟨by decide +kernel, by decide +kernel, by decide +kernel⟩

/-- The hypotheses of `C120_rule_fit` hold for the first duals of a small data set, and a clause is returned. -/
example : (∀ k ∈ [[0], [1]], k ∉ clausesOf ([] : List Op) ∧ ((after 10 1 ⟨[[1, 0], [0, 1], [0, 0]], 2⟩ [1, 1, 0] []).addColumn k).1 = .ok true ∧
      reducedCost [[1, 0], [0, 1], [0, 0]] [1, 1, 0] 0 [1 / 2, 1 / 2] k < -9 / 10000000) ∧
    (∀ k, Proper 2 k → 1 ≤ k.length → k.length ≤ 1 → reducedCost [[1, 0], [0, 1], [0, 0]] [1, 1, 0] 0 [1 / 2, 1 / 2] k < -11 / 10000000 →
      k ∈ ([[0], [1]] : List Clause)) := by
  have hl : (after 10 1 ⟨[[1, 0], [0, 1], [0, 0]], 2⟩ [1, 1, 0] []).solver.vars.length = 3 := by decide +kernel
  refine C120_rule_fit (C := 10) (by norm_num) 1 ⟨[[1, 0], [0, 1], [0, 0]], 2⟩ [1, 1, 0] [] 1 demoLp (0, [1 / 2, 1 / 2]) [[0], [1]]
    ⟨rfl, by decide⟩ (by decide +kernel) ⟨?_, ?_, ?_⟩ (by decide +kernel) (by decide +kernel) (by decide +kernel)
  · intro c k hk hlb
    match c with
    | 0 => simp [demoLp, demoDuals]
    | c + 1 =>
      exfalso
      obtain ⟨h, -⟩ := after_inv 10 1 ⟨[[1, 0], [0, 1], [0, 0]], 2⟩ [1, 1, 0] [] rfl
      have hc := (List.getElem?_eq_some_iff.1 hk).1
      rw [h.consLen] at hc
      have hr := List.getElem?_eq_getElem (l := posM (after 10 1 ⟨[[1, 0], [0, 1], [0, 0]], 2⟩ [1, 1, 0] []).X.rows
        (after 10 1 ⟨[[1, 0], [0, 1], [0, 0]], 2⟩ [1, 1, 0] []).y) (i := c) (by omega)
      rw [h.consS c _ hr] at hk
      cases hk
      simp at hlb
  · intro c k _ _
    simp only [demoLp, demoDuals]
    split <;> norm_num
  · rw [hl]
    decide +kernel

/-- No reduced cost of that data set is near the limit: the same list as with exact numbers. -/
example : heuristicColumnsR binary64.rnd 2 ⟨[[1, 0, 1], [0, 1, 1], [1, 1, 0]], 3⟩ [1, 1, 0] (1 / 8, [3, 1]) =
      heuristicColumns 2 ⟨[[1, 0, 1], [0, 1, 1], [1, 1, 0]], 3⟩ [1, 1, 0] (1 / 8, [3, 1]) ∧
    heuristicColumnsR binary64.rnd 2 ⟨[[1, 0, 1], [0, 1, 1], [1, 1, 0]], 3⟩ [1, 1, 0] (1 / 8, [3, 1]) = .ok [[0], [2], [0, 2], [1, 2]] := by
  refine ⟨C120_rule_same DTree.binary64_accurate (by positivity) (by positivity) 2 ⟨rfl, by decide⟩ (by norm_num) _ ?_, by decide +kernel⟩
  have key : ∀ k ∈ (List.range 3).sublists, evalSlack (1 / 2 ^ 53) (1 / 2 ^ 1075) 3 (ruleMagnitude [[1, 0, 1], [0, 1, 1], [1, 1, 0]] [1, 1, 0] (1 / 8) [3, 1] k) <
      |reducedCost [[1, 0, 1], [0, 1, 1], [1, 1, 0]] [1, 1, 0] (1 / 8) [3, 1] k + 1 / 1000000| := by decide +kernel
  intro k h1 _ _
  exact key k (List.mem_sublists.2 ((proper_iff_sublist _ _).1 h1))

end FloatDemo

end Verif.BDR
