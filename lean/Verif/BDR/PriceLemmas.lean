import Verif.BDR.SubLemmas

/-!
# Meaning of the pricing model
-/

set_option linter.unusedSectionVars false
set_option linter.unusedSimpArgs false

namespace Verif.BDR

open MP Spec

variable {D : ℚ} {X : Data} {y : List ℕ} {cc : ℚ} {cs : List ℚ}

theorem zeroFeats_nodup (n : ℕ) (row : List ℚ) : (zeroFeats n row).Nodup := List.nodup_range.filter _

theorem mem_zeroFeats {n : ℕ} {row : List ℚ} {j : ℕ} : j ∈ zeroFeats n row ↔ j < n ∧ row.getD j 0 = 0 := by
  simp [zeroFeats, get]

/-- The rows of the pricing model for one sample. -/
theorem sampleRows_feas {n N d : ℕ} {row : List ℚ} {t : ℕ} {a : ℕ → ℚ} (hd : n ≤ d) (hN : d < N) :
    (∀ k ∈ sampleRows n row t d, inBounds k.lb k.ub (activity N k.coeff a)) ↔
      if t = 1 then ∀ j < n, row.getD j 0 = 0 → 0 ≤ a d + a j ∧ a d + a j ≤ 1
      else 1 ≤ a d + ((zeroFeats n row).map a).sum := by
  unfold sampleRows
  split
  · rw [List.forall_mem_map]
    constructor
    · intro h j hj h0
      have := h j (mem_zeroFeats.2 ⟨hj, h0⟩)
      rw [inBounds_both, activity_coeffOf] at this
      · simpa using this
      · simp; omega
      · simp; omega
    · intro h j hj
      obtain ⟨hj, h0⟩ := mem_zeroFeats.1 hj
      rw [inBounds_both, activity_coeffOf]
      · simpa using h j hj h0
      · simp; omega
      · simp; omega
  · simp only [List.mem_singleton, forall_eq]
    rw [inBounds_ge, activity_coeffOf]
    · simp only [List.map_cons, List.map_map, List.sum_cons, one_mul]
      have : ((fun t : ℕ × ℚ => t.2 * a t.1) ∘ fun j => (j, (1 : ℚ))) = a := by funext j; simp
      rw [this]
    · simp only [List.map_cons, List.map_map]
      rw [List.nodup_cons]
      constructor
      · intro hm
        simp only [List.mem_map, Function.comp] at hm
        obtain ⟨j, hj, e⟩ := hm
        have := zeroFeats_lt hj
        omega
      · have : ((fun t : ℕ × ℚ => t.1) ∘ fun j => (j, (1 : ℚ))) = id := rfl
        rw [this, List.map_id]
        exact zeroFeats_nodup _ _
    · intro u hu
      simp only [List.mem_cons, List.mem_map] at hu
      rcases hu with rfl | ⟨j, hj, rfl⟩
      · exact hN
      · have := zeroFeats_lt hj
        show j < N
        omega

theorem mem_samples {q : (List ℚ × ℕ) × ℕ} (hl : y.length = X.rows.length) :
    q ∈ (X.rows.zip y).zip (List.range' X.nFeat y.length) ↔
      ∃ i : ℕ, X.rows[i]? = some q.1.1 ∧ y[i]? = some q.1.2 ∧ q.2 = X.nFeat + i := by
  rw [List.mem_iff_getElem?]
  constructor
  · rintro ⟨i, hi⟩
    obtain ⟨⟨r, t⟩, d⟩ := q
    rw [List.getElem?_zip_eq_some, List.getElem?_zip_eq_some] at hi
    obtain ⟨⟨h1, h2⟩, h3⟩ := hi
    refine ⟨i, h1, h2, ?_⟩
    obtain ⟨hlt, h3⟩ := List.getElem?_eq_some_iff.1 h3
    simp at h3
    exact h3.symm
  · rintro ⟨i, h1, h2, h3⟩
    refine ⟨i, ?_⟩
    obtain ⟨⟨r, t⟩, d⟩ := q
    rw [List.getElem?_zip_eq_some, List.getElem?_zip_eq_some]
    refine ⟨⟨h1, h2⟩, ?_⟩
    have := (List.getElem?_eq_some_iff.1 h2).1
    rw [List.getElem?_range' this]
    simp at h3
    simp [h3]

/-- The meaning of the pricing model: `a j` is `z_j` for `j < nFeat`, `a (nFeat + i)` is `delta_i`. -/
theorem subModel_feasible (hl : y.length = X.rows.length) (a : ℕ → ℚ) :
    (subModel D X y cc cs).FeasibleLP a ↔
      (∀ v < X.nFeat + y.length, 0 ≤ a v ∧ a v ≤ 1) ∧
      (∀ i r t, X.rows[i]? = some r → y[i]? = some t →
        if t = 1 then ∀ j < X.nFeat, r.getD j 0 = 0 → 0 ≤ a (X.nFeat + i) + a j ∧ a (X.nFeat + i) + a j ≤ 1
        else 1 ≤ a (X.nFeat + i) + ((zeroFeats X.nFeat r).map a).sum) ∧
      0 ≤ ((List.range X.nFeat).map a).sum ∧ ((List.range X.nFeat).map a).sum ≤ D := by
  have hN : (subModel D X y cc cs).vars.length = X.nFeat + y.length := by simp [subModel]
  have hb : (∀ (i : ℕ) (v : Var), (subModel D X y cc cs).vars[i]? = some v → inBounds v.lb v.ub (a i)) ↔
      ∀ v < X.nFeat + y.length, 0 ≤ a v ∧ a v ≤ 1 := by
    constructor
    · intro h v hv
      have := h v boolVar (by simp [subModel, List.getElem?_replicate, hv])
      rwa [show boolVar.lb = some 0 from rfl, show boolVar.ub = some 1 from rfl, inBounds_both] at this
    · intro h i v hv
      simp only [subModel, List.getElem?_replicate] at hv
      split at hv
      · rename_i hi
        cases hv
        rw [show boolVar.lb = some 0 from rfl, show boolVar.ub = some 1 from rfl, inBounds_both]
        exact h i hi
      · cases hv
  have hc : (∀ (c : ℕ) (k : Cons), (subModel D X y cc cs).cons[c]? = some k →
      inBounds k.lb k.ub (activity (subModel D X y cc cs).vars.length k.coeff a)) ↔
      ∀ k ∈ subRows D X y, inBounds k.lb k.ub (activity (X.nFeat + y.length) k.coeff a) := by
    rw [hN]
    constructor
    · intro h k hk
      obtain ⟨c, hc⟩ := List.mem_iff_getElem?.1 hk
      exact h c k hc
    · intro h c k hk
      exact h k (List.mem_of_getElem? hk)
  have hsize : inBounds (some 0) (some D) (activity (X.nFeat + y.length) (coeffOf ((List.range X.nFeat).map (fun j => (j, (1 : ℚ))))) a) ↔
      0 ≤ ((List.range X.nFeat).map a).sum ∧ ((List.range X.nFeat).map a).sum ≤ D := by
    rw [inBounds_both, activity_coeffOf]
    · simp only [List.map_map]
      have : ((fun t : ℕ × ℚ => t.2 * a t.1) ∘ fun j => (j, (1 : ℚ))) = a := by funext j; simp
      rw [this]
    · rw [List.map_map]
      have : ((fun t : ℕ × ℚ => t.1) ∘ fun j => (j, (1 : ℚ))) = id := rfl
      rw [this, List.map_id]
      exact List.nodup_range
    · intro t ht
      simp only [List.mem_map, List.mem_range] at ht
      obtain ⟨j, hj, rfl⟩ := ht
      show j < _
      omega
  constructor
  · rintro ⟨h1, h2⟩
    rw [hc] at h2
    refine ⟨hb.1 h1, ?_, hsize.1 (h2 _ (List.mem_append_right _ (List.mem_singleton.2 rfl)))⟩
    intro i r t hr ht
    have hi := (List.getElem?_eq_some_iff.1 ht).1
    refine (sampleRows_feas (n := X.nFeat) (N := X.nFeat + y.length) (by omega) (by omega)).1 ?_
    intro k hk
    apply h2
    unfold subRows
    rw [List.mem_append, List.mem_flatMap]
    exact Or.inl ⟨((r, t), X.nFeat + i), (mem_samples hl).2 ⟨i, hr, ht, rfl⟩, hk⟩
  · rintro ⟨h1, h2, h3⟩
    refine ⟨hb.2 h1, hc.2 ?_⟩
    intro k hk
    unfold subRows at hk
    rw [List.mem_append, List.mem_flatMap] at hk
    rcases hk with ⟨q, hq, hk⟩ | hk
    · obtain ⟨i, hr, ht, e⟩ := (mem_samples hl).1 hq
      have hi := (List.getElem?_eq_some_iff.1 ht).1
      rw [e] at hk
      exact (sampleRows_feas (n := X.nFeat) (N := X.nFeat + y.length) (by omega) (by omega)).2 (h2 i _ _ hr ht) k hk
    · simp only [List.mem_singleton] at hk
      subst hk
      exact hsize.2 h3

theorem sum_map_range (n : ℕ) (a : ℕ → ℚ) : ((List.range n).map a).sum = ∑ i ∈ Finset.range n, a i := by
  induction n with
  | zero => rfl
  | succ n ih => rw [List.range_succ, Finset.sum_range_succ, List.map_append, List.sum_append, ih]; simp

theorem subModel_value (a : ℕ → ℚ) :
    (subModel D X y cc cs).value a = cc * (1 + ((List.range X.nFeat).map a).sum) +
      ∑ i ∈ Finset.range y.length, ((deltaCoeffs cs y 0)[i]?).getD 0 * a (X.nFeat + i) := by
  unfold Model.value
  rw [show (subModel D X y cc cs).vars.length = X.nFeat + y.length by simp [subModel], activity_add]
  have h1 : activity X.nFeat (subModel D X y cc cs).obj a = cc * ((List.range X.nFeat).map a).sum := by
    unfold activity
    rw [sum_map_range, Finset.mul_sum]
    apply Finset.sum_congr rfl
    intro i hi
    simp [subModel, Finset.mem_range.1 hi]
  have h2 : ∑ j ∈ Finset.range y.length, (subModel D X y cc cs).obj (X.nFeat + j) * a (X.nFeat + j) =
      ∑ i ∈ Finset.range y.length, ((deltaCoeffs cs y 0)[i]?).getD 0 * a (X.nFeat + i) := by
    apply Finset.sum_congr rfl
    intro i _
    simp [subModel]
  rw [h1, h2]
  show _ + _ + cc = _
  ring

/-! ## Reduced costs -/

/-- Splitting the weighted sum over the samples into negatives and positives. -/
theorem delta_sum (g : List ℚ → ℚ) : ∀ (rows : List (List ℚ)) (y : List ℕ) (n : ℕ), y.length = rows.length →
    ∑ i ∈ Finset.range y.length, ((deltaCoeffs cs y n)[i]?).getD 0 * g (rows.getD i []) =
      ((negM rows y).map g).sum - ∑ i ∈ Finset.range (pos rows y).length, cs.getD (n + i) 0 * g ((pos rows y).getD i []) := by
  intro rows
  induction rows with
  | nil => intro y n h; simp at h; subst h; simp [negM, pos]
  | cons r rows ih =>
    intro y n h
    cases y with
    | nil => simp at h
    | cons t y =>
      simp only [List.length_cons, Nat.add_right_cancel_iff] at h
      rw [List.length_cons, Finset.sum_range_succ']
      by_cases ht : t = 1
      · subst ht
        have e : deltaCoeffs cs (1 :: y) n = (1 * -(cs.getD n 0)) :: deltaCoeffs cs y (n + 1) := rfl
        rw [e]
        have hp : pos (r :: rows) (1 :: y) = r :: pos rows y := by simp [pos]
        have hn : negM (r :: rows) (1 :: y) = negM rows y := by simp [negM]
        rw [hp, hn, List.length_cons, Finset.sum_range_succ']
        have := ih y (n + 1) h
        simp only [List.getElem?_cons_succ, List.getD_cons_succ, List.getElem?_cons_zero, List.getD_cons_zero, Option.getD_some,
          Nat.add_zero]
        rw [this]
        have hsum : ∑ i ∈ Finset.range (pos rows y).length, cs.getD (n + (i + 1)) 0 * g ((pos rows y).getD i []) =
            ∑ i ∈ Finset.range (pos rows y).length, cs.getD (n + 1 + i) 0 * g ((pos rows y).getD i []) := by
          apply Finset.sum_congr rfl
          intro i _
          rw [show n + (i + 1) = n + 1 + i by omega]
        rw [hsum]
        ring
      · have e : deltaCoeffs cs (t :: y) n = 1 :: deltaCoeffs cs y n := by simp [deltaCoeffs, ht]
        rw [e]
        have hp : pos (r :: rows) (t :: y) = pos rows y := by simp [pos, ht]
        have hn : negM (r :: rows) (t :: y) = r :: negM rows y := by simp [negM, ht]
        rw [hp, hn]
        have := ih y n h
        simp only [List.getElem?_cons_succ, List.getD_cons_succ, List.getElem?_cons_zero, List.getD_cons_zero, Option.getD_some,
          List.map_cons, List.sum_cons]
        rw [this]
        ring

/-- Indicator of satisfaction. -/
def ind (k : Clause) (r : List ℚ) : ℚ := if Sat r k then 1 else 0

theorem sum_ind (k : Clause) (rows : List (List ℚ)) : (rows.map (ind k)).sum = (numSat rows k : ℚ) := by
  induction rows with
  | nil => simp [numSat]
  | cons r rows ih =>
    rw [List.map_cons, List.sum_cons, ih]
    unfold numSat ind
    rw [List.countP_cons]
    by_cases h : Sat r k <;> simp [h]; ring

/-- Reduced cost as pricing sees it (any number of classes). -/
def priceCost (rows : List (List ℚ)) (y : List ℕ) (lam : ℚ) (mu : List ℚ) (k : Clause) : ℚ :=
  (numSat (negM rows y) k : ℚ) - (∑ i ∈ Finset.range (pos rows y).length, if Sat ((pos rows y).getD i []) k then mu.getD i 0 else 0) +
    lam * (1 + (k.length : ℚ))

theorem priceCost_eq {rows : List (List ℚ)} {y : List ℕ} (h : Binary rows y) (lam : ℚ) (mu : List ℚ) (k : Clause) :
    priceCost rows y lam mu k = reducedCost rows y lam mu k := by
  unfold priceCost reducedCost
  rw [negM_eq h]

theorem delta_ind (hl : y.length = X.rows.length) (k : Clause) :
    cc * (1 + (k.length : ℚ)) + ∑ i ∈ Finset.range y.length, ((deltaCoeffs cs y 0)[i]?).getD 0 * ind k (X.rows.getD i []) =
      priceCost X.rows y cc cs k := by
  rw [delta_sum (ind k) X.rows y 0 hl, sum_ind]
  unfold priceCost
  have : ∑ i ∈ Finset.range (pos X.rows y).length, cs.getD (0 + i) 0 * ind k ((pos X.rows y).getD i []) =
      ∑ i ∈ Finset.range (pos X.rows y).length, if Sat ((pos X.rows y).getD i []) k then cs.getD i 0 else 0 := by
    apply Finset.sum_congr rfl
    intro i _
    rw [Nat.zero_add]
    unfold ind
    split <;> simp
  rw [this]
  ring

theorem deltaCoeffs_get (cs : List ℚ) (hcs : ∀ x ∈ cs, 0 ≤ x) : ∀ (y : List ℕ) (n i t : ℕ), y[i]? = some t →
    if t = 1 then ((deltaCoeffs cs y n)[i]?).getD 0 ≤ 0 else ((deltaCoeffs cs y n)[i]?).getD 0 = 1 := by
  intro y
  induction y with
  | nil => intro n i t h; simp at h
  | cons s y ih =>
    intro n i t h
    have hg : ∀ m, 0 ≤ cs.getD m 0 := by
      intro m
      rw [List.getD_eq_getElem?_getD]
      cases hm : cs[m]? with
      | none => simp
      | some x => simpa using hcs x (List.mem_of_getElem? hm)
    cases i with
    | zero =>
      simp at h
      subst h
      unfold deltaCoeffs
      split
      · have := hg n
        simp only [List.getElem?_cons_zero, Option.getD_some]
        linarith
      · simp
    | succ i =>
      simp only [List.getElem?_cons_succ] at h
      by_cases hs : s = 1
      · have e : (deltaCoeffs cs (s :: y) n)[i + 1]? = (deltaCoeffs cs y (n + 1))[i]? := by simp [deltaCoeffs, hs]
        rw [e]
        exact ih (n + 1) i t h
      · have e : (deltaCoeffs cs (s :: y) n)[i + 1]? = (deltaCoeffs cs y n)[i]? := by simp [deltaCoeffs, hs]
        rw [e]
        exact ih n i t h

/-- The clause read from an assignment. -/
def readSet (n : ℕ) (a : ℕ → ℚ) : Clause := (List.range n).filter (fun j => a j > 0)

theorem readSet_proper (n : ℕ) (a : ℕ → ℚ) : Proper n (readSet n a) := by
  refine ⟨?_, ?_⟩
  · exact List.Pairwise.filter _ List.pairwise_lt_range
  · intro j hj
    exact List.mem_range.1 (List.mem_filter.1 hj).1

theorem sum_binary (a : ℕ → ℚ) (l : List ℕ) (h : ∀ j ∈ l, a j = 0 ∨ a j = 1) :
    (l.map a).sum = ((l.filter (fun j => a j > 0)).length : ℚ) := by
  induction l with
  | nil => simp
  | cons j l ih =>
    rw [List.map_cons, List.sum_cons, ih (fun i hi => h i (by simp [hi]))]
    rcases h j (by simp) with h0 | h0 <;> simp [List.filter_cons, h0]; ring

theorem binary_of_feasible {a : ℕ → ℚ} (h : (subModel D X y cc cs).Feasible a) (v : ℕ) (hv : v < X.nFeat + y.length) :
    a v = 0 ∨ a v = 1 := by
  have hg : (subModel D X y cc cs).vars[v]? = some boolVar := by simp [subModel, List.getElem?_replicate, hv]
  have hb := h.bounds v boolVar hg
  obtain ⟨z, hz⟩ := h.integral v boolVar hg rfl
  rw [show boolVar.lb = some 0 from rfl, show boolVar.ub = some 1 from rfl, inBounds_both, hz] at hb
  have h0 : (0 : ℤ) ≤ z := by exact_mod_cast hb.1
  have h1 : z ≤ 1 := by exact_mod_cast hb.2
  rw [hz]
  rcases (show z = 0 ∨ z = 1 by omega) with e | e <;> simp [e]

/-- A feasible solution of the pricing model costs at least the reduced cost of the clause read from it, and that clause respects the
size limit. -/
theorem price_sound (hl : y.length = X.rows.length) (hcs : ∀ x ∈ cs, 0 ≤ x) {a : ℕ → ℚ}
    (h : (subModel D X y cc cs).Feasible a) :
    priceCost X.rows y cc cs (readSet X.nFeat a) ≤ (subModel D X y cc cs).value a ∧ ((readSet X.nFeat a).length : ℚ) ≤ D := by
  have hbin := binary_of_feasible h
  obtain ⟨h1, h2, h3, h4⟩ := (subModel_feasible hl a).1 h.toFeasibleLP
  have hlen : ((List.range X.nFeat).map a).sum = ((readSet X.nFeat a).length : ℚ) :=
    sum_binary a _ (fun j hj => hbin j (by have := List.mem_range.1 hj; omega))
  refine ⟨?_, by rw [← hlen]; exact h4⟩
  rw [subModel_value, hlen, ← delta_ind hl]
  apply add_le_add_right
  apply Finset.sum_le_sum
  intro i hi
  have hi' := Finset.mem_range.1 hi
  have hy : y[i]? = some y[i] := List.getElem?_eq_getElem hi'
  have hir : i < X.rows.length := by omega
  have hr : X.rows[i]? = some X.rows[i] := List.getElem?_eq_getElem hir
  have hgd : X.rows.getD i [] = X.rows[i] := by rw [List.getD_eq_getElem?_getD, hr]; rfl
  have hrow := h2 i _ _ hr hy
  have hco := deltaCoeffs_get cs hcs y 0 i _ hy
  have hδ := h1 (X.nFeat + i) (by omega)
  rw [hgd]
  by_cases ht : y[i] = 1
  · rw [if_pos ht] at hrow hco
    have : a (X.nFeat + i) ≤ ind (readSet X.nFeat a) X.rows[i] := by
      unfold ind
      split
      · exact hδ.2
      · rename_i hs
        unfold Sat at hs
        push Not at hs
        obtain ⟨j, hj, h0⟩ := hs
        have hjn := (readSet_proper X.nFeat a).2 j hj
        have hpos : a j > 0 := by simpa using (List.mem_filter.1 hj).2
        have hz : a j = 1 := by
          rcases hbin j (by omega) with e | e
          · rw [e] at hpos; exact absurd hpos (lt_irrefl _)
          · exact e
        have := (hrow j hjn h0).2
        linarith
    exact mul_le_mul_of_nonpos_left this hco
  · rw [if_neg ht] at hrow hco
    rw [hco, one_mul, one_mul]
    unfold ind
    split
    · rename_i hs
      have hz : ((zeroFeats X.nFeat X.rows[i]).map a).sum = 0 := by
        apply List.sum_eq_zero
        intro x hx
        obtain ⟨j, hj, rfl⟩ := List.mem_map.1 hx
        obtain ⟨hjn, h0⟩ := mem_zeroFeats.1 hj
        rcases hbin j (by omega) with e | e
        · exact e
        · exfalso
          exact hs j (List.mem_filter.2 ⟨List.mem_range.2 hjn, by simp [e]⟩) h0
      rw [hz] at hrow
      linarith
    · exact hδ.1

/-- The assignment of a clause. -/
def clauseAssign (X : Data) (k : Clause) : ℕ → ℚ := fun v =>
  if v < X.nFeat then (if v ∈ k then 1 else 0) else ind k (X.rows.getD (v - X.nFeat) [])

theorem proper_eq_filter {n : ℕ} {k : Clause} (h : Proper n k) : k = (List.range n).filter (fun j => j ∈ k) := by
  have hs1 : ((List.range n).filter (fun j => decide (j ∈ k))).Pairwise (· < ·) := List.Pairwise.filter _ List.pairwise_lt_range
  have hperm : k.Perm ((List.range n).filter (fun j => decide (j ∈ k))) := by
    rw [List.perm_ext_iff_of_nodup (h.1.imp (fun hab => Nat.ne_of_lt hab)) (hs1.imp (fun hab => Nat.ne_of_lt hab))]
    intro j
    simp only [List.mem_filter, List.mem_range, decide_eq_true_eq]
    exact ⟨fun hj => ⟨h.2 j hj, hj⟩, fun hj => hj.2⟩
  exact hperm.eq_of_pairwise (fun a b _ _ h1 h2 => absurd h1 (Nat.lt_asymm h2)) h.1 hs1

theorem clauseAssign_z {k : Clause} {j : ℕ} (hj : j < X.nFeat) : clauseAssign X k j = if j ∈ k then 1 else 0 := by
  simp [clauseAssign, hj]

theorem clauseAssign_d {k : Clause} {i : ℕ} : clauseAssign X k (X.nFeat + i) = ind k (X.rows.getD i []) := by
  simp [clauseAssign]

theorem clauseAssign_len {k : Clause} (hk : Proper X.nFeat k) :
    ((List.range X.nFeat).map (clauseAssign X k)).sum = (k.length : ℚ) := by
  rw [sum_binary]
  · congr 1
    conv_rhs => rw [proper_eq_filter hk]
    congr 1
    apply List.filter_congr
    intro j hj
    rw [clauseAssign_z (List.mem_range.1 hj)]
    by_cases h : j ∈ k <;> simp [h]
  · intro j hj
    rw [clauseAssign_z (List.mem_range.1 hj)]
    by_cases h : j ∈ k <;> simp [h]

theorem ind_range (k : Clause) (r : List ℚ) : 0 ≤ ind k r ∧ ind k r ≤ 1 := by
  unfold ind; split <;> norm_num

/-- Every clause within the size limit is a feasible solution whose value is its reduced cost. -/
theorem price_complete (hl : y.length = X.rows.length) {k : Clause} (hk : Proper X.nFeat k) (hD : (k.length : ℚ) ≤ D) :
    (subModel D X y cc cs).Feasible (clauseAssign X k) ∧
      (subModel D X y cc cs).value (clauseAssign X k) = priceCost X.rows y cc cs k := by
  have hlen := clauseAssign_len hk
  refine ⟨⟨(subModel_feasible hl _).2 ⟨?_, ?_, ?_, ?_⟩, ?_⟩, ?_⟩
  · intro v hv
    unfold clauseAssign
    split
    · split <;> norm_num
    · exact ind_range _ _
  · intro i r t hr ht
    have hgd : X.rows.getD i [] = r := by rw [List.getD_eq_getElem?_getD, hr]; rfl
    rw [clauseAssign_d, hgd]
    split
    · intro j hj h0
      rw [clauseAssign_z hj]
      have := ind_range k r
      by_cases hjk : j ∈ k
      · have : ind k r = 0 := by
          unfold ind
          rw [if_neg]
          intro hs
          exact hs j hjk h0
        rw [this]; simp [hjk]
      · simp only [hjk, if_false]; constructor <;> linarith [this.1, this.2]
    · have hnn : ∀ x ∈ (zeroFeats X.nFeat r).map (clauseAssign X k), 0 ≤ x := by
        intro x hx
        obtain ⟨j, hj, rfl⟩ := List.mem_map.1 hx
        rw [clauseAssign_z (zeroFeats_lt hj)]
        split <;> norm_num
      by_cases hs : Sat r k
      · have := List.sum_nonneg hnn
        unfold ind
        rw [if_pos hs]
        linarith
      · have hs' := hs
        unfold Sat at hs'
        push Not at hs'
        obtain ⟨j, hj, h0⟩ := hs'
        have hjn := hk.2 j hj
        have hmem : (1 : ℚ) ∈ (zeroFeats X.nFeat r).map (clauseAssign X k) :=
          List.mem_map.2 ⟨j, mem_zeroFeats.2 ⟨hjn, h0⟩, by rw [clauseAssign_z hjn]; simp [hj]⟩
        have := List.single_le_sum hnn 1 hmem
        have := (ind_range k r).1
        linarith
  · rw [hlen]; positivity
  · rw [hlen]; exact hD
  · intro v w hv _
    unfold clauseAssign
    split
    · split
      · exact ⟨1, by norm_num⟩
      · exact ⟨0, by norm_num⟩
    · unfold ind
      split
      · exact ⟨1, by norm_num⟩
      · exact ⟨0, by norm_num⟩
  · rw [subModel_value, hlen, ← delta_ind hl]
    congr 1
    apply Finset.sum_congr rfl
    intro i _
    rw [clauseAssign_d]

end Verif.BDR
