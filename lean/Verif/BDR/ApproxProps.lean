import Verif.BDR.SepProps
import Verif.BDR.LeanProps
import Mathlib.Algebra.Order.Floor.Defs
import Mathlib.Data.Rat.Floor

/-!
# Property C140: how far a certified rule can be from the best one

The rule comes from an integer program over the collected clauses, the certificate from the linear program over all clauses.
-/

set_option linter.unusedSectionVars false

namespace Verif.BDR

open MP Spec
open Fit.Spec

variable {Ω : Type} {o : Oracle Ω} {C p : ℚ} {kinds : List (List Kind)} {X : Data} {y : List ℤ} {maxIt : ℤ} {limit : ℚ} {fuel : ℕ} {e0 : Fit.Est} {ω0 : Ω}

/-- The training rows with the smaller label that satisfy a clause. -/
def Spec.alarms (X : Data) (y : List ℤ) (k : Clause) : ℕ := (X.rows.zip y).countP (fun q => decide ((∃ b ∈ y, q.2 < b) ∧ Sat q.1 k))

/-- For every positive row, the penalty or a clause that covers it costs at most as much as the whole point of the linear program. -/
theorem cheap_clause {rows : List (List ℚ)} {py : List ℕ} {K : List Clause} {xi w : ℕ → ℚ} (hf : Feasible rows py C K xi w) (hp : 0 ≤ p)
    (hlt : objective rows py p K xi w < p) {r : List ℚ} (hr : r ∈ pos rows py) :
    ∃ k ∈ K, Sat r k ∧ (numSat (neg rows py) k : ℚ) ≤ objective rows py p K xi w := by
  by_contra hno
  push Not at hno
  obtain ⟨i, hi⟩ := List.mem_iff_getElem?.1 hr
  have hil : i < (pos rows py).length := (List.getElem?_eq_some_iff.1 hi).1
  have hs := hf.sat i r hi
  have hxi : xi i ≤ ∑ i ∈ Finset.range (pos rows py).length, xi i :=
    Finset.single_le_sum (f := xi) (fun i hi => hf.xi_nonneg i (Finset.mem_range.1 hi)) (Finset.mem_range.2 hil)
  have hxi0 := hf.xi_nonneg i hil
  set V := objective rows py p K xi w with hV
  have hmem : ∀ j < K.length, K.getD j [] ∈ K := by
    intro j hj
    rw [List.getD_eq_getElem _ _ hj]
    exact List.getElem_mem hj
  have hV0 : 0 ≤ V := by
    rw [hV]
    unfold objective
    have h1 : 0 ≤ ∑ i ∈ Finset.range (pos rows py).length, xi i := le_trans hxi0 hxi
    have h2 : 0 ≤ ∑ j ∈ Finset.range K.length, (numSat (neg rows py) (K.getD j []) : ℚ) * w j := by
      refine Finset.sum_nonneg fun j hj => ?_
      have := hf.w_nonneg j (Finset.mem_range.1 hj)
      positivity
    have := mul_nonneg hp h1
    linarith
  -- every covering clause costs at least `V`, and more if it has weight
  have hle : V * covered K w r ≤ ∑ j ∈ Finset.range K.length, (numSat (neg rows py) (K.getD j []) : ℚ) * w j := by
    unfold covered
    rw [Finset.mul_sum]
    refine Finset.sum_le_sum fun j hj => ?_
    have hjl := Finset.mem_range.1 hj
    have hw := hf.w_nonneg j hjl
    by_cases hsat : Sat r (K.getD j [])
    · rw [if_pos hsat]
      exact mul_le_mul_of_nonneg_right (hno _ (hmem j hjl) hsat).le hw
    · rw [if_neg hsat, mul_zero]
      positivity
  have htot : V = p * ∑ i ∈ Finset.range (pos rows py).length, xi i + ∑ j ∈ Finset.range K.length, (numSat (neg rows py) (K.getD j []) : ℚ) * w j := rfl
  set T := ∑ i ∈ Finset.range (pos rows py).length, xi i
  set N := ∑ j ∈ Finset.range K.length, (numSat (neg rows py) (K.getD j []) : ℚ) * w j
  have hpT : p * xi i ≤ p * T := mul_le_mul_of_nonneg_left hxi hp
  rcases eq_or_lt_of_le hxi0 with h0 | h0
  · -- the row is covered by clauses only, one of which has weight
    have hc1 : 1 ≤ covered K w r := by linarith
    have hstrict : V * covered K w r < N := by
      have hpos : ∃ j ∈ Finset.range K.length, (if Sat r (K.getD j []) then w j else 0) ≠ 0 := by
        by_contra hall
        push Not at hall
        have : covered K w r = 0 := Finset.sum_eq_zero hall
        linarith
      obtain ⟨j, hj, hne⟩ := hpos
      have hjl := Finset.mem_range.1 hj
      have hsat : Sat r (K.getD j []) := by
        by_contra hn
        exact hne (if_neg hn)
      rw [if_pos hsat] at hne
      have hwj : 0 < w j := lt_of_le_of_ne (hf.w_nonneg j hjl) (Ne.symm hne)
      unfold covered
      rw [Finset.mul_sum]
      refine Finset.sum_lt_sum (fun j hj => ?_) ⟨j, hj, ?_⟩
      · have hjl := Finset.mem_range.1 hj
        have hw := hf.w_nonneg j hjl
        by_cases hsat : Sat r (K.getD j [])
        · rw [if_pos hsat]
          exact mul_le_mul_of_nonneg_right (hno _ (hmem j hjl) hsat).le hw
        · rw [if_neg hsat, mul_zero]
          positivity
      · rw [if_pos hsat]
        exact mul_lt_mul_of_pos_right (hno _ (hmem j hjl) hsat) hwj
    have : 0 ≤ p * T := by rw [← h0, mul_zero] at hpT; exact hpT
    nlinarith
  · have h3 : V * xi i < p * xi i := mul_lt_mul_of_pos_right hlt h0
    have h4 : V * 1 ≤ V * (xi i + covered K w r) := mul_le_mul_of_nonneg_left (by linarith) hV0
    rw [mul_add] at h4
    linarith

/-- **C140.** With exact solvers and `C` at least the number of rows of the larger label times one more than the number of features, the loss of a certified rule is at most
that number of rows times the loss of any rule of complexity at most `C` (up to the tolerance of pricing). The loss counts a row of the smaller label once for every clause that covers it. -/
theorem C140_factor (hl : y.length = X.rows.length) (h2 : (Sk.uniqueLabels y).length = 2) (he : Exact o C p kinds X (encoded y))
    (hex : ∃ l i, kindAt kinds l i = some (.exact C)) {u : Unit} {s} (hr : fitNew o C p kinds maxIt limit X fuel y e0 ω0 = some (.ok u, s))
    (ho : s.est.mpOptimal = true) (hip : ∀ ω, IsOptimal s.world.master.solver (o.ip s.world.master.solver ω).1) (hp : 0 ≤ p)
    (hC : (larger y : ℚ) * ((X.nFeat : ℚ) + 1) ≤ C) {K : List Clause} (hK : Admissible X.nFeat C K) :
    hamming X.rows (encoded y) p s.world.master.explanation ≤ larger y * min p (hamming X.rows (encoded y) p K + 1 / 1000000 * C) ∧
      (hamming X.rows (encoded y) p K + 1 / 1000000 * C < p →
        hamming X.rows (encoded y) p s.world.master.explanation ≤ larger y * (⌊hamming X.rows (encoded y) p K + 1 / 1000000 * C⌋ : ℚ)) := by
  obtain ⟨c0, c1, hcls, hlt, hc0, hc1, hy⟩ := two_labels h2
  have hle := le_of_eq h2
  have hb := encoded_binary hl hle
  have hC0 : 0 ≤ C := le_trans (by positivity) hC
  have hlen := pos_length hcls hlt hc0 hy hl
  obtain ⟨ω, d, -, -, hbound⟩ := C84_hamming_partial hl hle he hex hr ho
  have hval := hbound K hK
  obtain ⟨k1, k2, k3⟩ := best_from (Or.inl (fresh_init ω0)) hl hle hp hr hip
  set B := hamming X.rows (encoded y) p K + 1 / 1000000 * C with hB
  -- the empty rule
  have hempty : hamming X.rows (encoded y) p s.world.master.explanation ≤ larger y * p := by
    refine le_trans (k3 [] (by simp) (by simpa using hC0)) ?_
    unfold hamming
    have h3 : ((pos X.rows (encoded y)).countP (fun r => decide ¬ Rule [] r) : ℚ) ≤ (larger y : ℚ) := by
      rw [← hlen]
      exact_mod_cast List.countP_le_length
    simp only [List.map_nil, List.sum_nil, add_zero]
    rw [mul_comm]
    exact mul_le_mul_of_nonneg_right h3 hp
  -- one clause for every positive row
  have hmain : B < p → hamming X.rows (encoded y) p s.world.master.explanation ≤ larger y * (⌊B⌋ : ℚ) := by
    intro hBp
    rcases fit_invB (Or.inl (fresh_init ω0)) hl hle he.contract hr with h | ⟨ops, hCr, -⟩
    · exfalso
      have hgt : ¬ (Sk.uniqueLabels y).length ≤ 1 := by omega
      have hpre := Fit.fit_trace_prefix hgt hr
      exact h.gen (encoded y) (.ok ()) (hpre.subset (by simp [env]))
    · obtain ⟨hi, -⟩ := after_inv C p X (encoded y) ops hb.len
      have hlp := (he.lp ops ω).1
      have hm := C22_master C p X (encoded y) ops hb (o.lp (after C p X (encoded y) ops).solver ω).1.values
      have hfeas := hm.1.1 hlp.1
      have hobj := hlp.2.1.trans hm.2.1
      have hsol : s.world.master.solver = (after C p X (encoded y) ops).solver := by rw [hCr.master]
      rw [hsol, hobj] at hval
      have hgood : ∀ r ∈ pos X.rows (encoded y), ∃ k ∈ clausesOf ops, Sat r k ∧ (numSat (neg X.rows (encoded y)) k : ℚ) ≤ (⌊B⌋ : ℚ) := by
        intro r hr
        obtain ⟨k, h5, h6, h7⟩ := cheap_clause hfeas hp (lt_of_le_of_lt hval hBp) hr
        refine ⟨k, h5, h6, ?_⟩
        have h8 : ((numSat (neg X.rows (encoded y)) k : ℤ) : ℚ) ≤ B := by
          push_cast
          exact le_trans h7 hval
        have h9 := Int.le_floor.2 h8
        exact_mod_cast h9
      choose! g hg1 hg2 hg3 using hgood
      have hh := k3 ((pos X.rows (encoded y)).map g) (by
        intro k hk
        obtain ⟨r, hr, rfl⟩ := List.mem_map.1 hk
        change g r ∈ s.world.master.clauseDict.map (·.2)
        rw [hCr.master, hi.clauses]
        exact hg1 r hr) (by
        refine le_trans (size_le (n := X.nFeat) ?_) ?_
        · intro k hk
          obtain ⟨r, hr, rfl⟩ := List.mem_map.1 hk
          exact proper_length (hCr.proper _ (hg1 r hr))
        · rw [List.length_map, hlen]
          exact hC)
      refine le_trans hh ?_
      unfold hamming
      have h5 : (pos X.rows (encoded y)).countP (fun r => decide ¬ Rule ((pos X.rows (encoded y)).map g) r) = 0 := by
        rw [List.countP_eq_zero]
        intro r hr
        have : Rule ((pos X.rows (encoded y)).map g) r := ⟨g r, List.mem_map.2 ⟨r, hr, rfl⟩, hg2 r hr⟩
        simpa using this
      rw [h5, Nat.cast_zero, mul_zero, zero_add, ← hlen, List.map_map]
      have h6 := List.sum_le_card_nsmul ((pos X.rows (encoded y)).map ((fun k => (numSat (neg X.rows (encoded y)) k : ℚ)) ∘ g)) (⌊B⌋ : ℚ) (by
        intro x hx
        obtain ⟨r, hr, rfl⟩ := List.mem_map.1 hx
        exact hg3 r hr)
      rw [List.length_map, nsmul_eq_mul] at h6
      exact h6
  refine ⟨?_, hmain⟩
  rcases le_or_gt p B with h | h
  · rw [min_eq_left h]
    exact hempty
  · rw [min_eq_right h.le]
    exact le_trans (hmain h) (mul_le_mul_of_nonneg_left (Int.floor_le B) (Nat.cast_nonneg _))

/-- The rows of the smaller label that satisfy a clause, counted in the training data. -/
theorem neg_sat {c0 c1 : ℤ} (hcls : Sk.uniqueLabels y = [c0, c1]) (hlt : c0 < c1) (hc1 : c1 ∈ y) (hy : ∀ v ∈ y, v = c0 ∨ v = c1) (k : Clause) :
    numSat (neg X.rows (encoded y)) k = alarms X y k := by
  unfold alarms numSat neg encoded Sk.transform
  rw [hcls, List.zip_map_right, List.countP_map, List.countP_filter, List.countP_map]
  refine List.countP_congr fun q hq => ?_
  simp only [Function.comp_apply, Prod.map_snd, Prod.map_fst, decide_eq_true_eq, Bool.and_eq_true, id]
  rw [and_comm]
  refine and_congr_left fun _ => ?_
  rcases hy q.2 (List.of_mem_zip (a := q.1) (b := q.2) hq).2 with h | h
  · rw [h]
    exact ⟨fun _ => ⟨c1, hc1, hlt⟩, fun _ => by simp⟩
  · rw [h]
    constructor
    · intro h0
      simp [ne_of_lt hlt] at h0
    · rintro ⟨b, hb, hlt'⟩
      rcases hy b hb with rfl | rfl <;> omega

/-- Wrong answers on the training rows are at most the loss, if a missed row counts at least once. -/
theorem errors_le {c0 c1 : ℤ} (hcls : Sk.uniqueLabels y = [c0, c1]) (hlt : c0 < c1) (hy : ∀ v ∈ y, v = c0 ∨ v = c1) (hl : y.length = X.rows.length) (hp : 1 ≤ p)
    (e : List Clause) : ∃ pred, predict (Sk.uniqueLabels y) e X.rows = .ok pred ∧ (errors pred y : ℚ) ≤ hamming X.rows (encoded y) p e := by
  refine ⟨_, by rw [hcls, C20_predict], ?_⟩
  rw [errors_rule (ne_of_lt hlt) e X.rows y hy hl, ← hcls]
  refine le_trans ?_ (loss_le_hamming _ _ _ _)
  unfold loss
  have : (0 : ℚ) ≤ ((pos X.rows (encoded y)).countP (fun r => decide ¬ Rule e r) : ℚ) := by positivity
  have := mul_le_mul_of_nonneg_right hp this
  exact add_le_add this (le_refl _)

/-- **C140.** In terms of wrong answers of `predict` on the training data: if some rule of complexity at most `C` covers every row of the larger label at the price of `f` false alarms,
and `p` is at least `f + 1`, then a certified rule makes at most `f` wrong answers for every row of the larger label. -/
theorem C140_errors (hl : y.length = X.rows.length) (h2 : (Sk.uniqueLabels y).length = 2) (he : Exact o C p kinds X (encoded y))
    (hex : ∃ l i, kindAt kinds l i = some (.exact C)) {u : Unit} {s} (hr : fitNew o C p kinds maxIt limit X fuel y e0 ω0 = some (.ok u, s))
    (ho : s.est.mpOptimal = true) (hip : ∀ ω, IsOptimal s.world.master.solver (o.ip s.world.master.solver ω).1) (hp : 1 ≤ p)
    (hC : (larger y : ℚ) * ((X.nFeat : ℚ) + 1) ≤ C) (h1 : C < 1000000) {K : List Clause} (hK : Admissible X.nFeat C K)
    (hcov : ∀ q ∈ X.rows.zip y, (∃ b ∈ y, b < q.2) → Rule K q.1) {f : ℕ}
    (hf : (K.map (alarms X y)).sum = f) (hfp : (f : ℚ) + 1 ≤ p) :
    ∃ pred, predict s.est.classes s.world.master.explanation X.rows = .ok pred ∧ errors pred y ≤ larger y * f := by
  obtain ⟨c0, c1, hcls, hlt, hc0, hc1, hy⟩ := two_labels h2
  have hcl : s.est.classes = Sk.uniqueLabels y := Fit.fit_classes hr
  have hC0 : 0 ≤ C := le_trans (by positivity) hC
  have hham : hamming X.rows (encoded y) p K = f := by
    unfold hamming
    have h5 : (pos X.rows (encoded y)).countP (fun r => decide ¬ Rule K r) = 0 := by
      rw [List.countP_eq_zero]
      intro r hr
      have : Rule K r := hcov _ ((mem_pos_iff hcls hlt hy).1 hr) ⟨c0, hc0, hlt⟩
      simpa using this
    rw [h5, Nat.cast_zero, mul_zero, zero_add, ← hf]
    push_cast
    rw [List.map_map]
    congr 1
    refine List.map_congr_left fun k _ => ?_
    simp only [Function.comp_apply, Nat.cast_inj]
    exact neg_sat hcls hlt hc1 hy k
  have hfl : ⌊(f : ℚ) + 1 / 1000000 * C⌋ = (f : ℤ) := by
    rw [Int.floor_eq_iff]
    push_cast
    constructor <;> linarith
  obtain ⟨-, h3⟩ := C140_factor hl h2 he hex hr ho hip (by linarith) hC hK
  rw [hham, hfl] at h3
  have h4 := h3 (by linarith)
  obtain ⟨pred, h5, h6⟩ := errors_le hcls hlt hy hl hp s.world.master.explanation
  refine ⟨pred, by rw [hcl]; exact h5, ?_⟩
  have h7 := le_trans h6 h4
  exact_mod_cast h7

/-- **C140** for exact solvers and no limits. -/
theorem C140_exact (clock : Ω → ℚ × Ω) (maxIt : ℤ) (limit : ℚ) (e0 : Fit.Est) (ω0 : Ω)
    (hl : y.length = X.rows.length) (h2 : (Sk.uniqueLabels y).length = 2) (hk : ∀ l i D, kindAt kinds l i = some (.exact D) → 0 ≤ D)
    (hex : ∃ l i, kindAt kinds l i = some (.exact C)) (hm : maxIt ≤ 0) (ht : limit ≤ 0) (hp : 1 ≤ p)
    (hC : (larger y : ℚ) * ((X.nFeat : ℚ) + 1) ≤ C) (h1 : C < 1000000) {K : List Clause} (hK : Admissible X.nFeat C K)
    (hcov : ∀ q ∈ X.rows.zip y, (∃ b ∈ y, b < q.2) → Rule K q.1) {f : ℕ}
    (hf : (K.map (alarms X y)).sum = f) (hfp : (f : ℚ) + 1 ≤ p) :
    ∃ s pred, fitNew (exact clock) C p kinds maxIt limit X (2 ^ X.nFeat) y e0 ω0 = some (.ok (), s) ∧
      predict s.est.classes s.world.master.explanation X.rows = .ok pred ∧ errors pred y ≤ larger y * f := by
  have hC0 : 0 ≤ C := le_trans (by positivity) hC
  have hp0 : 0 ≤ p := by linarith
  have hb := encoded_binary hl (le_of_eq h2)
  obtain ⟨s, hr, ho⟩ := C66_exact_optimal (e0 := e0) (ω0 := ω0) clock hl h2 hC0 hp0 hk hm ht
  obtain ⟨pred, h3, h4⟩ := C140_errors hl h2 (exact_exact clock hb hC0 hp0 hk) hex hr ho (fun ω => by
    obtain ⟨ops, hmm⟩ := final_master hl hr
    rw [hmm]
    exact (exact_master hb hC0 hp0 ops).2.2) hp hC h1 hK hcov hf hfp
  exact ⟨s, pred, hr, h3, h4⟩

end Verif.BDR
