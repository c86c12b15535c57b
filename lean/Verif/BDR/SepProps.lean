import Verif.BDR.CertProps
import Verif.BDR.SessionProps
import Verif.Fit.Classes

/-!
# Property C139: separable data are learnt without an error

A rule can be right on all training rows only if no row of the larger label has all its non-zero features non-zero in a row of the smaller label as well. If
this is so and `C` is large enough, a certified run finds such a rule.
-/

set_option linter.unusedSectionVars false

namespace Verif.BDR

open MP Spec
open Fit.Spec

variable {Ω : Type} {o : Oracle Ω} {C p : ℚ} {kinds : List (List Kind)} {X : Data} {y : List ℤ} {maxIt : ℤ} {limit : ℚ} {fuel : ℕ} {e0 : Fit.Est} {ω0 : Ω}

/-- Every row with the larger label has a non-zero feature that is zero in the given row with the smaller label. -/
def Spec.Separable (X : Data) (y : List ℤ) : Prop :=
  ∀ q ∈ X.rows.zip y, ∀ q' ∈ X.rows.zip y, q'.2 < q.2 → ∃ j < X.nFeat, q.1.getD j 0 ≠ 0 ∧ q'.1.getD j 0 = 0

/-- The number of rows that do not have the smallest label. -/
def Spec.larger (y : List ℤ) : ℕ := y.countP (fun v => decide (∃ b ∈ y, b < v))

/-- Two classes. -/
theorem two_labels (h2 : (Sk.uniqueLabels y).length = 2) : ∃ c0 c1, Sk.uniqueLabels y = [c0, c1] ∧ c0 < c1 ∧ c0 ∈ y ∧ c1 ∈ y ∧ ∀ v ∈ y, v = c0 ∨ v = c1 := by
  obtain ⟨c0, c1, h⟩ := List.length_eq_two.1 h2
  have hs := Sk.sorted_uniqueLabels y
  rw [h] at hs
  have hm : ∀ v, v ∈ y ↔ v = c0 ∨ v = c1 := fun v => by rw [← Sk.mem_uniqueLabels, h]; simp
  exact ⟨c0, c1, h, by simpa using hs, (hm c0).2 (Or.inl rfl), (hm c1).2 (Or.inr rfl), fun v hv => (hm v).1 hv⟩

section
variable {c0 c1 : ℤ}

theorem mem_pos_iff (hcls : Sk.uniqueLabels y = [c0, c1]) (hlt : c0 < c1) (hy : ∀ v ∈ y, v = c0 ∨ v = c1) {rows : List (List ℚ)} {r : List ℚ} :
    r ∈ pos rows (encoded y) ↔ (r, c1) ∈ rows.zip y := by
  unfold pos encoded Sk.transform
  rw [hcls, List.zip_map_right, List.mem_map]
  simp only [List.mem_filter, List.mem_map, decide_eq_true_eq]
  constructor
  · rintro ⟨_, ⟨⟨⟨a, v⟩, hq, rfl⟩, h1⟩, rfl⟩
    rcases hy v (List.of_mem_zip hq).2 with rfl | rfl
    · simp at h1
    · exact hq
  · intro h
    exact ⟨_, ⟨⟨_, h, rfl⟩, by simp [ne_of_lt hlt]⟩, rfl⟩

theorem mem_neg_iff (hcls : Sk.uniqueLabels y = [c0, c1]) (hlt : c0 < c1) (hy : ∀ v ∈ y, v = c0 ∨ v = c1) {rows : List (List ℚ)} {r : List ℚ} :
    r ∈ neg rows (encoded y) ↔ (r, c0) ∈ rows.zip y := by
  unfold neg encoded Sk.transform
  rw [hcls, List.zip_map_right, List.mem_map]
  simp only [List.mem_filter, List.mem_map, decide_eq_true_eq]
  constructor
  · rintro ⟨_, ⟨⟨⟨a, v⟩, hq, rfl⟩, h1⟩, rfl⟩
    rcases hy v (List.of_mem_zip hq).2 with rfl | rfl
    · exact hq
    · simp [ne_of_lt hlt] at h1
  · intro h
    exact ⟨_, ⟨⟨_, h, rfl⟩, by simp⟩, rfl⟩

theorem pos_length (hcls : Sk.uniqueLabels y = [c0, c1]) (hlt : c0 < c1) (h0 : c0 ∈ y) (hy : ∀ v ∈ y, v = c0 ∨ v = c1) {rows : List (List ℚ)}
    (hl : y.length = rows.length) : (pos rows (encoded y)).length = larger y := by
  unfold pos encoded Sk.transform larger
  rw [hcls, List.zip_map_right, List.length_map, ← List.countP_eq_length_filter, List.countP_map]
  have h3 : y.countP (fun v => decide (∃ b ∈ y, b < v)) = (rows.zip y).countP (fun q => decide (∃ b ∈ y, b < q.2)) := by
    have := List.countP_map (p := fun v => decide (∃ b ∈ y, b < v)) (f := Prod.snd) (l := rows.zip y)
    rw [List.map_snd_zip (le_of_eq hl)] at this
    exact this
  rw [h3]
  refine List.countP_congr fun q hq => ?_
  simp only [Function.comp_apply, Prod.map_snd, decide_eq_true_eq]
  rcases hy q.2 (List.of_mem_zip hq).2 with h | h
  · rw [h]
    simp only [List.idxOf_cons_self, zero_ne_one, false_iff, not_exists, not_and, not_lt]
    intro b hb
    rcases hy b hb with rfl | rfl
    · exact le_rfl
    · exact hlt.le
  · rw [h]
    exact ⟨fun _ => ⟨c0, h0, hlt⟩, fun _ => by simp [ne_of_lt hlt]⟩

/-- No missed positive row and no covered negative row: every answer is right. -/
theorem predict_right (hcls : Sk.uniqueLabels y = [c0, c1]) (hlt : c0 < c1) (hy : ∀ v ∈ y, v = c0 ∨ v = c1) {rows : List (List ℚ)} (hl : y.length = rows.length)
    {K : List Clause} (hp : ∀ r ∈ pos rows (encoded y), Rule K r) (hn : ∀ r ∈ neg rows (encoded y), ¬ Rule K r) :
    predict (Sk.uniqueLabels y) K rows = .ok y := by
  have h1 : ∀ q ∈ rows.zip y, (if Rule K q.1 then c1 else c0) = q.2 := by
    rintro ⟨r, v⟩ hq
    rcases hy v (List.of_mem_zip hq).2 with rfl | rfl
    · exact if_neg (hn r ((mem_neg_iff hcls hlt hy).2 hq))
    · exact if_pos (hp r ((mem_pos_iff hcls hlt hy).2 hq))
  rw [hcls, C20_predict]
  congr 1
  have h2 : rows.map (fun r => if Rule K r then c1 else c0) = (rows.zip y).map (fun q => if Rule K q.1 then c1 else c0) := by
    conv_lhs => rw [← List.map_fst_zip (l₁ := rows) (l₂ := y) (le_of_eq hl.symm), List.map_map]
    rfl
  rw [h2, List.map_congr_left h1]
  exact List.map_snd_zip (le_of_eq hl)

end

/-! ## The rule that separates -/

/-- The non-zero features of a row. -/
def ones (n : ℕ) (r : List ℚ) : Clause := (List.range n).filter (fun j => decide (r.getD j 0 ≠ 0))

theorem sat_ones (n : ℕ) (r : List ℚ) : Sat r (ones n r) := by
  intro j hj
  have := (List.mem_filter.1 hj).2
  simpa using this

theorem ones_length (n : ℕ) (r : List ℚ) : (ones n r).length ≤ n := by
  have := List.length_filter_le (fun j => decide (r.getD j 0 ≠ 0)) (List.range n)
  rwa [List.length_range] at this

theorem proper_length {n : ℕ} {k : Clause} (h : Proper n k) : k.length ≤ n := by
  have h1 : k.Nodup := h.1.imp fun hab => ne_of_lt hab
  have h2 := (h1.subperm (l₂ := List.range n) fun j hj => List.mem_range.2 (h.2 j hj)).length_le
  rwa [List.length_range] at h2

theorem size_le {L : List Clause} {n : ℕ} (h : ∀ k ∈ L, k.length ≤ n) : (L.map (fun k => 1 + (k.length : ℚ))).sum ≤ L.length * ((n : ℚ) + 1) := by
  induction L with
  | nil => simp
  | cons k L ih =>
    have h1 : (k.length : ℚ) ≤ n := by exact_mod_cast h k List.mem_cons_self
    have h2 := ih fun k hk => h k (List.mem_cons_of_mem _ hk)
    rw [List.map_cons, List.sum_cons, List.length_cons]
    push_cast
    linarith

theorem hamming_zero {rows : List (List ℚ)} {py : List ℕ} {K : List Clause} (hp : ∀ r ∈ pos rows py, Rule K r) (hn : ∀ k ∈ K, numSat (neg rows py) k = 0) :
    hamming rows py p K = 0 := by
  unfold hamming
  have h1 : (pos rows py).countP (fun r => decide ¬ Rule K r) = 0 := by
    rw [List.countP_eq_zero]
    intro r hr
    simpa using hp r hr
  rw [h1, List.sum_eq_zero]
  · simp
  · intro x hx
    obtain ⟨k, hk, rfl⟩ := List.mem_map.1 hx
    rw [hn k hk]
    rfl

theorem zero_hamming {rows : List (List ℚ)} {py : List ℕ} {K : List Clause} (hp : 0 < p) (h : hamming rows py p K ≤ 0) :
    (∀ r ∈ pos rows py, Rule K r) ∧ ∀ r ∈ neg rows py, ¬ Rule K r := by
  unfold hamming at h
  have h1 : ∀ x ∈ K.map (fun k => (numSat (neg rows py) k : ℚ)), 0 ≤ x := by
    intro x hx
    obtain ⟨k, -, rfl⟩ := List.mem_map.1 hx
    exact Nat.cast_nonneg _
  have h2 := List.sum_nonneg h1
  have h3 : (0 : ℚ) ≤ p * ((pos rows py).countP (fun r => decide ¬ Rule K r) : ℚ) := by positivity
  constructor
  · have h4 : p * ((pos rows py).countP (fun r => decide ¬ Rule K r) : ℚ) = 0 := by linarith
    rcases mul_eq_zero.1 h4 with h5 | h5
    · exact absurd h5 (ne_of_gt hp)
    · have h6 : (pos rows py).countP (fun r => decide ¬ Rule K r) = 0 := by exact_mod_cast h5
      intro r hr
      have := List.countP_eq_zero.1 h6 r hr
      simpa using this
  · rintro r hr ⟨k, hk, hs⟩
    have h5 : (numSat (neg rows py) k : ℚ) ≤ 0 := le_trans (List.single_le_sum h1 _ (List.mem_map.2 ⟨k, hk, rfl⟩)) (by linarith)
    have h6 : numSat (neg rows py) k = 0 := by exact_mod_cast le_antisymm h5 (Nat.cast_nonneg _)
    have := List.countP_eq_zero.1 h6 r hr
    simp [hs] at this

/-- A point of the linear program with a small objective uses, for every positive row, a clause that covers it and no negative row. -/
theorem good_clause {rows : List (List ℚ)} {py : List ℕ} {K : List Clause} {xi w : ℕ → ℚ} (hf : Feasible rows py C K xi w) {ε : ℚ}
    (ho : objective rows py p K xi w ≤ ε) (h1 : ε < 1) (hp : ε < p) (h0 : 0 < p) {r : List ℚ} (hr : r ∈ pos rows py) :
    ∃ k ∈ K, Sat r k ∧ numSat (neg rows py) k = 0 := by
  by_contra hno
  obtain ⟨i, hi⟩ := List.mem_iff_getElem?.1 hr
  have hil : i < (pos rows py).length := (List.getElem?_eq_some_iff.1 hi).1
  have hs := hf.sat i r hi
  have hxi : xi i ≤ ∑ i ∈ Finset.range (pos rows py).length, xi i :=
    Finset.single_le_sum (f := xi) (fun i hi => hf.xi_nonneg i (Finset.mem_range.1 hi)) (Finset.mem_range.2 hil)
  have hxi0 := hf.xi_nonneg i hil
  have hcov : covered K w r ≤ ∑ j ∈ Finset.range K.length, (numSat (neg rows py) (K.getD j []) : ℚ) * w j := by
    unfold covered
    refine Finset.sum_le_sum fun j hj => ?_
    have hjl := Finset.mem_range.1 hj
    have hw := hf.w_nonneg j hjl
    by_cases hsat : Sat r (K.getD j [])
    · rw [if_pos hsat]
      have hk : K.getD j [] ∈ K := by
        rw [List.getD_eq_getElem _ _ hjl]
        exact List.getElem_mem hjl
      have h2 : 1 ≤ numSat (neg rows py) (K.getD j []) := by
        by_contra h3
        exact hno ⟨_, hk, hsat, by omega⟩
      have h3 : (1 : ℚ) ≤ numSat (neg rows py) (K.getD j []) := by exact_mod_cast h2
      nlinarith
    · rw [if_neg hsat]
      positivity
  unfold objective at ho
  set T := ∑ i ∈ Finset.range (pos rows py).length, xi i
  set N := ∑ j ∈ Finset.range K.length, (numSat (neg rows py) (K.getD j []) : ℚ) * w j
  have hN : 0 ≤ N := by
    refine Finset.sum_nonneg fun j hj => ?_
    have := hf.w_nonneg j (Finset.mem_range.1 hj)
    positivity
  have hT : 0 ≤ T := le_trans hxi0 hxi
  -- 1 ≤ T + N and p T + N ≤ ε
  have h4 : 1 ≤ T + N := by linarith
  rcases le_total 1 p with h5 | h5
  · nlinarith
  · nlinarith

/-- **C139.** On separable data with two classes, with exact solvers, a penalty `p` that is not tiny and `C` at least the number of rows of the larger label times
one more than the number of features, a certified run predicts the labels of all training rows. -/
theorem C139_separable (hl : y.length = X.rows.length) (h2 : (Sk.uniqueLabels y).length = 2) (he : Exact o C p kinds X (encoded y))
    (hex : ∃ l i, kindAt kinds l i = some (.exact C)) {u : Unit} {s} (hr : fitNew o C p kinds maxIt limit X fuel y e0 ω0 = some (.ok u, s))
    (ho : s.est.mpOptimal = true) (hip : ∀ ω, IsOptimal s.world.master.solver (o.ip s.world.master.solver ω).1) (hsep : Separable X y)
    (hC : (larger y : ℚ) * ((X.nFeat : ℚ) + 1) ≤ C) (h1 : C < 1000000) (hp : C < 1000000 * p) :
    predict s.est.classes s.world.master.explanation X.rows = .ok y := by
  obtain ⟨c0, c1, hcls, hlt, hc0, hc1, hy⟩ := two_labels h2
  have hle := le_of_eq h2
  have hb := encoded_binary hl hle
  have hC0 : 0 ≤ C := le_trans (by positivity) hC
  have hp0 : 0 < p := by linarith
  have hlen := pos_length hcls hlt hc0 hy hl
  -- the rule that separates
  have hadm : Admissible X.nFeat C ((pos X.rows (encoded y)).map (ones X.nFeat)) := by
    constructor
    · intro k hk j hj
      obtain ⟨r, -, rfl⟩ := List.mem_map.1 hk
      exact List.mem_range.1 (List.mem_filter.1 hj).1
    · refine le_trans (size_le (n := X.nFeat) ?_) ?_
      · intro k hk
        obtain ⟨r, -, rfl⟩ := List.mem_map.1 hk
        exact ones_length _ _
      · rw [List.length_map, hlen]
        exact hC
  have hz : hamming X.rows (encoded y) p ((pos X.rows (encoded y)).map (ones X.nFeat)) = 0 := by
    refine hamming_zero ?_ ?_
    · intro r hr
      exact ⟨_, List.mem_map.2 ⟨r, hr, rfl⟩, sat_ones _ _⟩
    · intro k hk
      obtain ⟨r, hr, rfl⟩ := List.mem_map.1 hk
      unfold numSat
      rw [List.countP_eq_zero]
      intro q hq hs
      simp only [decide_eq_true_eq] at hs
      obtain ⟨j, hj, hj1, hj2⟩ := hsep _ ((mem_pos_iff hcls hlt hy).1 hr) _ ((mem_neg_iff hcls hlt hy).1 hq) hlt
      exact hs j (List.mem_filter.2 ⟨List.mem_range.2 hj, by simpa using hj1⟩) hj2
  obtain ⟨ω, d, -, -, hbound⟩ := C84_hamming_partial hl hle he hex hr ho
  have hval := hbound _ hadm
  rw [hz] at hval
  obtain ⟨k1, k2, k3⟩ := best_from (Or.inl (fresh_init ω0)) hl hle hp0.le hr hip
  -- the point of the final linear program
  rcases fit_invB (Or.inl (fresh_init ω0)) hl hle he.contract hr with h | ⟨ops, hCr, -⟩
  · exfalso
    have hgt : ¬ (Sk.uniqueLabels y).length ≤ 1 := by omega
    have hpre := Fit.fit_trace_prefix hgt hr
    exact h.gen (encoded y) (.ok ()) (hpre.subset (by simp [env]))
  · obtain ⟨hi, -⟩ := after_inv C p X (encoded y) ops hb.len
    have hlp := (he.lp ops ω).1
    have hm := C22_master C p X (encoded y) ops hb (o.lp (after C p X (encoded y) ops).solver ω).1.values
    have hfeas := hm.1.1 hlp.1
    have hobj := hlp.2.1.trans hm.2.1
    have hsol : s.world.master.solver = (after C p X (encoded y) ops).solver := by rw [hCr.master]
    rw [hsol, hobj] at hval
    have hgood : ∀ r ∈ pos X.rows (encoded y), ∃ k ∈ clausesOf ops, Sat r k ∧ numSat (neg X.rows (encoded y)) k = 0 :=
      fun r hr => good_clause hfeas hval (by linarith) (by linarith) hp0 hr
    choose! g hg1 hg2 hg3 using hgood
    have hh := k3 ((pos X.rows (encoded y)).map g) (by
      intro k hk
      obtain ⟨r, hr, rfl⟩ := List.mem_map.1 hk
      change g r ∈ s.world.master.clauseDict.map (·.2)
      rw [hCr.master, hi.clauses]
      exact hg1 r hr) (by
      refine le_trans (size_le (n := X.nFeat) ?_) ?_
      · intro k hk
        obtain ⟨r, hr, rfl⟩ := List.mem_map.1 hk
        exact proper_length (hCr.proper _ (hg1 r hr))
      · rw [List.length_map, hlen]
        exact hC)
    rw [hamming_zero (fun r hr => ⟨g r, List.mem_map.2 ⟨r, hr, rfl⟩, hg2 r hr⟩) (by
      intro k hk
      obtain ⟨r, hr, rfl⟩ := List.mem_map.1 hk
      exact hg3 r hr)] at hh
    obtain ⟨h3, h4⟩ := zero_hamming hp0 hh
    have hcl : s.est.classes = Sk.uniqueLabels y := Fit.fit_classes hr
    rw [hcl]
    exact predict_right hcls hlt hy hl h3 h4

/-- **C139.** Data on which some rule of any complexity predicts all labels are separable. -/
theorem C139_necessary (hR : ∀ row ∈ X.rows, row.length = X.nFeat) (hl : y.length = X.rows.length) (h2 : (Sk.uniqueLabels y).length = 2) {K : List Clause}
    (hK : predict (Sk.uniqueLabels y) K X.rows = .ok y) : Separable X y := by
  obtain ⟨c0, c1, hcls, hlt, -, -, hy⟩ := two_labels h2
  rw [hcls, C20_predict, Except.ok.injEq] at hK
  have h1 : ∀ q ∈ X.rows.zip y, (if Rule K q.1 then c1 else c0) = q.2 := by
    intro q hq
    obtain ⟨i, hi, rfl⟩ := List.mem_iff_getElem.1 hq
    rw [List.length_zip] at hi
    rw [List.getElem_zip]
    have h3 : y[i]'(by omega) = (X.rows.map (fun r => if Rule K r then c1 else c0))[i]'(by rw [List.length_map]; omega) := by simp only [hK]
    rw [h3, List.getElem_map]
  intro q hq q' hq' hv
  have hq1 : q.2 = c1 ∧ q'.2 = c0 := by
    have a := hy _ (List.of_mem_zip (a := q.1) (b := q.2) hq).2
    have b := hy _ (List.of_mem_zip (a := q'.1) (b := q'.2) hq').2
    omega
  have hr : Rule K q.1 := by
    by_contra hn
    have := h1 q hq
    rw [if_neg hn, hq1.1] at this
    omega
  have hr' : ¬ Rule K q'.1 := by
    intro hn
    have := h1 q' hq'
    rw [if_pos hn, hq1.2] at this
    omega
  obtain ⟨k, hk, hs⟩ := hr
  have hns : ¬ Sat q'.1 k := fun h => hr' ⟨k, hk, h⟩
  unfold Sat at hns
  push Not at hns
  obtain ⟨j, hj, hz⟩ := hns
  refine ⟨j, ?_, hs j hj, hz⟩
  by_contra hge
  refine hs j hj (List.getD_eq_default _ _ ?_)
  rw [hR _ (List.of_mem_zip (a := q.1) (b := q.2) hq).1]
  omega

/-- **C139** for exact solvers and no limits: `fit` returns, and `predict` is right on all training rows if and only if the data are separable. -/
theorem C139_exact (clock : Ω → ℚ × Ω) (maxIt : ℤ) (limit : ℚ) (e0 : Fit.Est) (ω0 : Ω) (hR : ∀ row ∈ X.rows, row.length = X.nFeat)
    (hl : y.length = X.rows.length) (h2 : (Sk.uniqueLabels y).length = 2) (hk : ∀ l i D, kindAt kinds l i = some (.exact D) → 0 ≤ D)
    (hex : ∃ l i, kindAt kinds l i = some (.exact C)) (hm : maxIt ≤ 0) (ht : limit ≤ 0)
    (hC : (larger y : ℚ) * ((X.nFeat : ℚ) + 1) ≤ C) (h1 : C < 1000000) (hp : C < 1000000 * p) :
    ∃ s, fitNew (exact clock) C p kinds maxIt limit X (2 ^ X.nFeat) y e0 ω0 = some (.ok (), s) ∧
      (predict s.est.classes s.world.master.explanation X.rows = .ok y ↔ Separable X y) := by
  have hC0 : 0 ≤ C := le_trans (by positivity) hC
  have hp0 : 0 ≤ p := by linarith
  have hb := encoded_binary hl (le_of_eq h2)
  obtain ⟨s, hr, ho⟩ := C66_exact_optimal (e0 := e0) (ω0 := ω0) clock hl h2 hC0 hp0 hk hm ht
  refine ⟨s, hr, fun h => ?_, fun h => ?_⟩
  · have hcl : s.est.classes = Sk.uniqueLabels y := Fit.fit_classes hr
    rw [hcl] at h
    exact C139_necessary hR hl h2 h
  · refine C139_separable hl h2 (exact_exact clock hb hC0 hp0 hk) hex hr ho (fun ω => ?_) h hC h1 hp
    obtain ⟨ops, hmm⟩ := final_master hl hr
    rw [hmm]
    exact (exact_master hb hC0 hp0 ops).2.2

end Verif.BDR
