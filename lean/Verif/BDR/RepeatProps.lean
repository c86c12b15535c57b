import Verif.BDR.CertProps

/-!
# Property C133: what repeated, added or removed rows and other penalties do to the certified value of a rule run
-/

set_option linter.unusedSectionVars false

namespace Verif.BDR

open MP Spec
open Fit.Spec

/-- Every labelled row of the second data set, seen through the features of the first one, occurs there at most `k` times as often as in the first one. The
second data set may have further features, and any non-zero numbers in place of others. -/
structure Spec.Within (k : ℚ) (X1 : Data) (y1 : List ℕ) (X2 : Data) (y2 : List ℕ) (φ : ℕ → ℕ) : Prop where
  feats : ∀ j < X1.nFeat, φ j < X2.nFeat
  rows : ∀ v, ((views X1.nFeat φ X2.rows y2).countP (fun u => decide (u = v)) : ℚ) ≤ k * ((views X1.nFeat id X1.rows y1).countP (fun u => decide (u = v)) : ℚ)

variable {Ω Ω' : Type} {o : Oracle Ω} {o' : Oracle Ω'} {C p C' p' q : ℚ} {kinds kinds' : List (List Kind)} {X X' : Data} {y y' : List ℤ}
  {maxIt maxIt' : ℤ} {limit limit' : ℚ} {fuel fuel' : ℕ} {e0 e0' : Fit.Est} {ω0 : Ω} {ω0' : Ω'} {k : ℚ}

/-! ## Views -/

/-- The value of the weights as a sum over the rows. -/
def rowValue (p : ℚ) (K : List Clause) (w : ℕ → ℚ) (v : List Bool × ℕ) : ℚ :=
  (if v.2 = 1 then p * max 0 (1 - coveredView K w v.1) else 0) + if v.2 = 0 then coveredView K w v.1 else 0

theorem bestView_sum (V : List (List Bool × ℕ)) (p : ℚ) (K : List Clause) (w : ℕ → ℚ) : bestView V p K w = (V.map (rowValue p K w)).sum := by
  induction V with
  | nil => simp [bestView]
  | cons v V ih =>
    rw [List.map_cons, List.sum_cons, ← ih]
    unfold bestView rowValue
    by_cases h1 : v.2 = 1
    · have h0 : ¬ v.2 = 0 := by omega
      simp only [List.filter_cons, h1, decide_true, if_true, List.map_cons, List.sum_cons, one_ne_zero, decide_false, Bool.false_eq_true, if_false]
      ring
    · by_cases h0 : v.2 = 0
      · simp only [List.filter_cons, h0, zero_ne_one, decide_false, Bool.false_eq_true, if_false, decide_true, if_true, List.countP_cons]
        have e : ∑ j ∈ Finset.range K.length, (((V.filter (fun q => decide (q.2 = 0))).countP (fun q => satView q.1 (K.getD j [])) +
            (if satView v.1 (K.getD j []) = true then 1 else 0) : ℕ) : ℚ) * w j =
            ∑ j ∈ Finset.range K.length, (((V.filter (fun q => decide (q.2 = 0))).countP (fun q => satView q.1 (K.getD j [])) : ℕ) : ℚ) * w j +
              coveredView K w v.1 := by
          unfold coveredView
          rw [← Finset.sum_add_distrib]
          refine Finset.sum_congr rfl fun j _ => ?_
          by_cases h : satView v.1 (K.getD j []) = true
          · simp only [h, if_true]; push_cast; ring
          · simp only [h, Bool.false_eq_true, if_false]; push_cast; ring
        rw [e]
        ring
      · simp only [List.filter_cons, h1, h0, decide_false, Bool.false_eq_true, if_false]
        ring

theorem coveredView_nonneg {K : List Clause} {w : ℕ → ℚ} (hw : ∀ j < K.length, 0 ≤ w j) (v : List Bool) : 0 ≤ coveredView K w v := by
  unfold coveredView
  refine Finset.sum_nonneg fun j hj => ?_
  split
  · exact hw j (Finset.mem_range.1 hj)
  · exact le_refl _

theorem rowValue_nonneg {K : List Clause} {w : ℕ → ℚ} (hp : 0 ≤ p) (hw : ∀ j < K.length, 0 ≤ w j) (v : List Bool × ℕ) : 0 ≤ rowValue p K w v := by
  unfold rowValue
  have h1 := coveredView_nonneg hw v.1
  have h2 : 0 ≤ p * max 0 (1 - coveredView K w v.1) := mul_nonneg hp (le_max_left _ _)
  split_ifs <;> linarith

theorem rowValue_scale {K : List Clause} {w : ℕ → ℚ} (hq : 1 ≤ q) (hp : p' ≤ q * p) (hw : ∀ j < K.length, 0 ≤ w j) (v : List Bool × ℕ) :
    rowValue p' K w v ≤ q * rowValue p K w v := by
  unfold rowValue
  have h1 := coveredView_nonneg hw v.1
  have h2 : p' * max 0 (1 - coveredView K w v.1) ≤ q * p * max 0 (1 - coveredView K w v.1) := mul_le_mul_of_nonneg_right hp (le_max_left _ _)
  have h3 : coveredView K w v.1 ≤ q * coveredView K w v.1 := le_mul_of_one_le_left h1 hq
  split_ifs <;> nlinarith

theorem within_sum {α : Type} [DecidableEq α] {V V' : List α} (h : ∀ v, (V'.countP (fun u => decide (u = v)) : ℚ) ≤ k * (V.countP (fun u => decide (u = v)) : ℚ))
    {f : α → ℚ} (hf : ∀ v, 0 ≤ f v) : (V'.map f).sum ≤ k * (V.map f).sum := by
  have h' : ∀ v, (V'.count v : ℚ) ≤ k * (V.count v : ℚ) := h
  rw [Finset.sum_list_map_count, Finset.sum_list_map_count, Finset.mul_sum]
  simp only [nsmul_eq_mul]
  have hsub : V'.toFinset ⊆ V.toFinset := by
    intro v hv
    rw [List.mem_toFinset] at hv ⊢
    by_contra hn
    have h0 := h' v
    rw [List.count_eq_zero_of_not_mem hn] at h0
    have h1 : 1 ≤ V'.count v := List.count_pos_iff.2 hv
    have h1' : (1 : ℚ) ≤ (V'.count v : ℚ) := by exact_mod_cast h1
    push_cast at h0
    linarith
  have h1 : ∑ v ∈ V'.toFinset, (V'.count v : ℚ) * f v ≤ ∑ v ∈ V'.toFinset, k * ((V.count v : ℚ) * f v) := by
    refine Finset.sum_le_sum fun v _ => ?_
    rw [← mul_assoc]
    exact mul_le_mul_of_nonneg_right (h' v) (hf v)
  have h2 : ∑ v ∈ V'.toFinset, k * ((V.count v : ℚ) * f v) ≤ ∑ v ∈ V.toFinset, k * ((V.count v : ℚ) * f v) := by
    refine Finset.sum_le_sum_of_subset_of_nonneg hsub fun v _ _ => ?_
    rw [← mul_assoc]
    exact mul_nonneg (le_trans (Nat.cast_nonneg _) (h' v)) (hf v)
  exact le_trans h1 h2

theorem countP_replicate_flatten {α : Type} (n : ℕ) (V : List α) (P : α → Bool) : (List.replicate n V).flatten.countP P = n * V.countP P := by
  induction n with
  | zero => simp
  | succ n ih => rw [List.replicate_succ, List.flatten_cons, List.countP_append, ih]; ring

/-- A point of the program of one data set is a point of the program of the other. -/
theorem transfer_within {py py' : List ℕ} {φ : ℕ → ℕ} (hk : 0 ≤ k) (hD : Within k X py X' py' φ) {K : List Clause} (hK : ∀ c ∈ K, ∀ j ∈ c, j < X.nFeat)
    {xi w : ℕ → ℚ} (hf : Feasible X.rows py C K xi w) (hC : C ≤ C') (hp0 : 0 ≤ p) (hp : 0 ≤ p') (hq : 1 ≤ q) (hpp : p' ≤ q * p) :
    ∃ xi', Feasible X'.rows py' C' (K.map (fun c => c.map φ)) xi' w ∧
      objective X'.rows py' p' (K.map (fun c => c.map φ)) xi' w ≤ k * q * objective X.rows py p K xi w := by
  obtain ⟨h1, h2⟩ := best_point (C := C') (p := p') (rows := X'.rows) (py := py') (K := K.map (fun c => c.map φ)) (w := w)
    (by rw [List.length_map]; exact hf.w_nonneg) (by rw [complexity_map]; exact le_trans hf.comp hC)
  refine ⟨_, h1, ?_⟩
  rw [h2, best_view (n := X.nFeat) hK, bestView_sum]
  refine le_trans (within_sum hD.rows (rowValue_nonneg hp hf.w_nonneg)) ?_
  rw [mul_assoc]
  refine mul_le_mul_of_nonneg_left ?_ hk
  have h3 : ((views X.nFeat id X.rows py).map (rowValue p' K w)).sum ≤ q * ((views X.nFeat id X.rows py).map (rowValue p K w)).sum := by
    induction views X.nFeat id X.rows py with
    | nil => simp
    | cons v V ih =>
      simp only [List.map_cons, List.sum_cons]
      have := rowValue_scale hq hpp hf.w_nonneg v
      linarith
  refine le_trans h3 (mul_le_mul_of_nonneg_left ?_ (by linarith))
  rw [← bestView_sum, ← best_view hK]
  simp only [List.map_id_fun, id_eq, List.map_id_fun']
  simpa using best_le hf hp0 (le_refl p)

/-- **C133.** Let a call of `fit` end with `mp_optimal_`, with optimal LP and pricing answers. Let another call have returned, certified or not, with any solvers,
pricing levels, limits and clocks, on data in which every labelled row of the first call occurs at least a `k`-th part as often (`k` any positive number), perhaps without some of the
features, with a complexity bound that is not larger and a penalty that is at least a `q`-th part. Then the LP value of the final master of the first call is at
most `k * q` times that of the second, up to `1e-6 * C'`. -/
theorem C133_compare {φ : ℕ → ℕ}
    -- the certified run
    (hl' : y'.length = X'.rows.length) (h2' : (Sk.uniqueLabels y').length ≤ 2) (hc' : Contract o' C' p' kinds' X' (encoded y'))
    (hex' : ∃ l i, kindAt kinds' l i = some (.exact C'))
    (hopt' : ∀ hist d ω, 0 ≤ d.1 → (∀ x ∈ d.2, 0 ≤ x) →
      IsOptimal (pricingModel C' X' (encoded y') hist d) (o'.mip (pricingModel C' X' (encoded y') hist d) ω).1) {u' : Unit} {s'}
    (hr' : fitNew o' C' p' kinds' maxIt' limit' X' fuel' y' e0' ω0' = some (.ok u', s')) (ho' : s'.est.mpOptimal = true)
    (hlp' : ∀ ω, IsOptimalLP s'.world.master.solver (o'.lp s'.world.master.solver ω).1)
    (hdual' : ∀ ω, DualFeasible s'.world.master.solver 0 (o'.lp s'.world.master.solver ω).1.duals)
    (hstrong' : ∀ ω, (o'.lp s'.world.master.solver ω).1.objective =
      s'.world.master.solver.dualValue (o'.lp s'.world.master.solver ω).1.duals)
    -- the other run
    (hl : y.length = X.rows.length) (h2 : (Sk.uniqueLabels y).length ≤ 2) (hc : Contract o C p kinds X (encoded y))
    (hC0 : 0 ≤ C) (hsize : ∀ l i k, kindAt kinds l i = some k → k.size ≤ C) {u : Unit} {s}
    (hr : fitNew o C p kinds maxIt limit X fuel y e0 ω0 = some (.ok u, s))
    (hlp : ∀ ω, IsOptimalLP s.world.master.solver (o.lp s.world.master.solver ω).1)
    -- the data and the parameters
    (hk : 0 ≤ k) (hD : Within k X (encoded y) X' (encoded y') φ) (hC : C ≤ C') (hp0 : 0 ≤ p) (hp : 0 ≤ p') (hq : 1 ≤ q) (hpp : p' ≤ q * p) (ω : Ω) (ω' : Ω') :
    (o'.lp s'.world.master.solver ω').1.objective ≤ k * q * (o.lp s.world.master.solver ω).1.objective + 1 / 1000000 * C' := by
  obtain ⟨ω1, d, -, -, hbound⟩ := C31_fit hl' h2' hc' hex' hopt' hr' ho' hdual' hstrong'
  have hb := encoded_binary hl h2
  have hb' := encoded_binary hl' h2'
  -- the two answers of the certified run agree
  have hmin' : s'.world.master.solver.maximize = false := by
    rcases fit_invB (Or.inl (fresh_init ω0')) hl' h2' hc' hr' with h | ⟨ops, hCr, -⟩
    · rw [h.master]; rfl
    · obtain ⟨hi, -⟩ := after_inv C' p' X' (encoded y') ops hb'.len
      rw [hCr.master]; exact hi.max
  have hsame : (o'.lp s'.world.master.solver ω').1.objective ≤ (o'.lp s'.world.master.solver ω1).1.objective := by
    have h1 := (hlp' ω').2.2 _ (hlp' ω1).1
    rw [← (hlp' ω1).2.1] at h1
    unfold Model.better at h1
    rw [hmin'] at h1
    exact h1
  have hsizes := C102_sizes hl h2 hc hC0 hsize hr
  -- the point of the other run
  rcases fit_invB (Or.inl (fresh_init ω0)) hl h2 hc hr with h | ⟨ops, hCr, -⟩
  · exfalso
    have hgt : ¬ (Sk.uniqueLabels y).length ≤ 1 := by
      intro h1
      obtain ⟨s2, e, -⟩ := (Fit.C09_single_class (env o X kinds) (config kinds maxIt limit) fuel y e0 (World.init C p kinds ω0)).1
        (Fit.uniqueLabels_length_le_iff.1 h1)
      unfold fitNew at hr
      rw [e] at hr
      cases hr
    have hpre := Fit.fit_trace_prefix hgt hr
    exact h.gen (encoded y) (.ok ()) (hpre.subset (by simp [env]))
  · obtain ⟨hi, -⟩ := after_inv C p X (encoded y) ops hb.len
    have hcl : ∀ c ∈ clausesOf ops, Proper X.nFeat c ∧ (c.length : ℚ) ≤ C := by
      intro c hk
      refine hsizes c ?_
      change c ∈ s.world.master.clauseDict.map (·.2)
      rw [hCr.master, hi.clauses]
      exact hk
    obtain ⟨hf1, hv1⟩ := hlp ω
    have hm := C22_master C p X (encoded y) ops hb (o.lp s.world.master.solver ω).1.values
    rw [← hCr.master] at hm
    have hfeas := hm.1.1 hf1
    obtain ⟨xi', hf', hle⟩ := transfer_within hk hD (fun c hk => (hcl c hk).1.2) hfeas hC hp0 hp hq hpp
    have hb3 := hbound _ xi' _ (by
      intro c hk
      obtain ⟨k0, hk0, rfl⟩ := List.mem_map.1 hk
      refine ⟨?_, ?_⟩
      · intro j hj
        obtain ⟨j0, hj0, rfl⟩ := List.mem_map.1 hj
        exact hD.feats j0 ((hcl k0 hk0).1.2 j0 hj0)
      · have h3 : ((k0.map φ).dedup.length : ℚ) ≤ (k0.length : ℚ) := by
          have := (List.dedup_sublist (k0.map φ)).length_le
          rw [List.length_map] at this
          exact_mod_cast this
        exact le_trans h3 (le_trans (hcl k0 hk0).2 hC)) hf'
    have hv : (o.lp s.world.master.solver ω).1.objective = _ := hv1.1.trans hm.2.1
    rw [hv]
    linarith

/-! ## Exact solvers -/

/-- **C133** for exact solvers: without limits both runs return with `mp_optimal_`. -/
theorem C133_exact {φ : ℕ → ℕ} (clock : Ω → ℚ × Ω) (clock' : Ω' → ℚ × Ω') (maxIt maxIt' : ℤ) (limit limit' : ℚ) (e0 e0' : Fit.Est) (ω0 : Ω) (ω0' : Ω')
    (hl : y.length = X.rows.length) (h2 : (Sk.uniqueLabels y).length = 2) (hl' : y'.length = X'.rows.length) (h2' : (Sk.uniqueLabels y').length = 2)
    (hC0 : 0 ≤ C) (hp0 : 0 ≤ p)
    (hkn : ∀ l i D, kindAt kinds l i = some (.exact D) → 0 ≤ D) (hkn' : ∀ l i D, kindAt kinds' l i = some (.exact D) → 0 ≤ D)
    (hsize : ∀ l i k, kindAt kinds l i = some k → k.size ≤ C) (hex' : ∃ l i, kindAt kinds' l i = some (.exact C'))
    (hm : maxIt ≤ 0) (ht : limit ≤ 0) (hm' : maxIt' ≤ 0) (ht' : limit' ≤ 0)
    (hk : 0 ≤ k) (hD : Within k X (encoded y) X' (encoded y') φ) (hC : C ≤ C') (hp : 0 ≤ p') (hq : 1 ≤ q) (hpp : p' ≤ q * p) :
    ∃ s s', fitNew (exact clock) C p kinds maxIt limit X (2 ^ X.nFeat) y e0 ω0 = some (.ok (), s) ∧ s.est.mpOptimal = true ∧
      fitNew (exact clock') C' p' kinds' maxIt' limit' X' (2 ^ X'.nFeat) y' e0' ω0' = some (.ok (), s') ∧ s'.est.mpOptimal = true ∧
      (exactLp s'.world.master.solver).objective ≤ k * q * (exactLp s.world.master.solver).objective + 1 / 1000000 * C' := by
  have hC0' : 0 ≤ C' := le_trans hC0 hC
  obtain ⟨s, hr, ho⟩ := C66_exact_optimal (e0 := e0) (ω0 := ω0) clock hl h2 hC0 hp0 hkn hm ht
  obtain ⟨s', hr', ho'⟩ := C66_exact_optimal (e0 := e0') (ω0 := ω0') clock' hl' h2' hC0' hp hkn' hm' ht'
  have hb := encoded_binary hl (le_of_eq h2)
  have hb' := encoded_binary hl' (le_of_eq h2')
  have hE := exact_exact clock (kinds := kinds) hb hC0 hp0 hkn
  have hE' := exact_exact clock' (kinds := kinds') hb' hC0' hp hkn'
  have hf := exact_final clock hl (le_of_eq h2) hC0 hp0 hr
  have hf' := exact_final clock' hl' (le_of_eq h2') hC0' hp hr'
  exact ⟨s, s', hr, ho, hr', ho', C133_compare hl' (le_of_eq h2') hE'.contract hex' hE'.mip hr' ho' (fun ω => (hf' ω).1) (fun ω => (hf' ω).2.1)
    (fun ω => (hf' ω).2.2) hl (le_of_eq h2) hE.contract hC0 hsize hr (fun ω => (hf ω).1) hk hD hC hp0 hp hq hpp ω0 ω0'⟩

/-- **C133.** Repeating every row `k` times multiplies the certified LP value by `k`, up to `k * 1e-6 * C`; the order of the rows does not matter. -/
theorem C133_repeat (clock : Ω → ℚ × Ω) (clock' : Ω' → ℚ × Ω') (maxIt maxIt' : ℤ) (limit limit' : ℚ) (e0 e0' : Fit.Est) (ω0 : Ω) (ω0' : Ω')
    (hl : y.length = X.rows.length) (h2 : (Sk.uniqueLabels y).length = 2) (hl' : y'.length = X'.rows.length) (h2' : (Sk.uniqueLabels y').length = 2)
    (hC : 0 ≤ C) (hp : 0 ≤ p)
    (hkn : ∀ l i D, kindAt kinds l i = some (.exact D) → 0 ≤ D) (hkn' : ∀ l i D, kindAt kinds' l i = some (.exact D) → 0 ≤ D)
    (hsize : ∀ l i k, kindAt kinds l i = some k → k.size ≤ C) (hex : ∃ l i, kindAt kinds l i = some (.exact C))
    (hsize' : ∀ l i k, kindAt kinds' l i = some k → k.size ≤ C) (hex' : ∃ l i, kindAt kinds' l i = some (.exact C))
    (hm : maxIt ≤ 0) (ht : limit ≤ 0) (hm' : maxIt' ≤ 0) (ht' : limit' ≤ 0) (n : ℕ) (hn : 1 ≤ n) (hfeat : X'.nFeat = X.nFeat)
    (hD : (views X.nFeat id X'.rows (encoded y')).Perm (List.replicate n (views X.nFeat id X.rows (encoded y))).flatten) :
    ∃ s s', fitNew (exact clock) C p kinds maxIt limit X (2 ^ X.nFeat) y e0 ω0 = some (.ok (), s) ∧ s.est.mpOptimal = true ∧
      fitNew (exact clock') C p kinds' maxIt' limit' X' (2 ^ X'.nFeat) y' e0' ω0' = some (.ok (), s') ∧ s'.est.mpOptimal = true ∧
      |(exactLp s'.world.master.solver).objective - n * (exactLp s.world.master.solver).objective| ≤ n * (1 / 1000000 * C) := by
  have hn0 : (1 : ℚ) ≤ n := by exact_mod_cast hn
  have hcount : ∀ v, ((views X.nFeat id X'.rows (encoded y')).countP (fun u => decide (u = v)) : ℚ) =
      n * ((views X.nFeat id X.rows (encoded y)).countP (fun u => decide (u = v)) : ℚ) := by
    intro v
    rw [hD.countP_eq, countP_replicate_flatten]
    push_cast
    rfl
  have h1 : Within n X (encoded y) X' (encoded y') id := ⟨fun j hj => by rw [hfeat]; exact hj, fun v => le_of_eq (hcount v)⟩
  have h3 : Within (1 / n) X' (encoded y') X (encoded y) id := by
    refine ⟨fun j hj => by rw [← hfeat]; exact hj, fun v => ?_⟩
    rw [hfeat, hcount v]
    have : (n : ℚ) ≠ 0 := by linarith
    field_simp
    exact le_refl _
  obtain ⟨s, s', a1, a2, a3, a4, a5⟩ := C133_exact clock clock' maxIt maxIt' limit limit' e0 e0' ω0 ω0' hl h2 hl' h2' hC hp hkn hkn' hsize hex' hm ht hm' ht'
    (by positivity) h1 (le_refl C) hp (le_refl 1) (by rw [one_mul])
  obtain ⟨t', t, b1, -, b3, -, b5⟩ := C133_exact clock' clock maxIt' maxIt limit' limit e0' e0 ω0' ω0 hl' h2' hl h2 hC hp hkn' hkn hsize' hex hm' ht' hm ht
    (by positivity) h3 (le_refl C) hp (le_refl 1) (by rw [one_mul])
  rw [a3] at b1
  rw [a1] at b3
  obtain rfl : s' = t' := by simpa using b1
  obtain rfl : s = t := by simpa using b3
  refine ⟨s, s', a1, a2, a3, a4, ?_⟩
  have hn1 : (0 : ℚ) < n := by linarith
  have h5 : n * (exactLp s.world.master.solver).objective ≤ (exactLp s'.world.master.solver).objective + n * (1 / 1000000 * C) := by
    have := mul_le_mul_of_nonneg_left b5 (le_of_lt hn1)
    refine le_trans this (le_of_eq ?_)
    field_simp
  have h6 : 1 / 1000000 * C ≤ n * (1 / 1000000 * C) := le_mul_of_one_le_left (by linarith) hn0
  rw [abs_le]
  constructor <;> linarith

end Verif.BDR
