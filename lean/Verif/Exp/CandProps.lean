import Verif.Exp.ExperimentProps

/-!
# C78: do the initial paths use candidate splits?
-/

set_option linter.unusedSectionVars false
set_option linter.unusedSimpArgs false

namespace Verif.Exp

open Verif.DTree Verif.DTree.Spec

variable {d : ℕ} {carts extra : List Cart} {final : Cart} {X : List (List ℚ)} {y : List ℤ} {aggressive : Bool} {limit : ℚ} {elapsed : ℕ → ℚ}

/-- The tree has an inner node at the position with heap number `n`. -/
def Cart.Occurs (c : Cart) (n : ℕ) : Prop := ∃ i w, i < c.size ∧ c.isLeaf i = false ∧ c.At i w ∧ n = heapId w

theorem seenWeight_append (a b : List Merge) (n s : ℕ) : seenWeight (a ++ b) n s = seenWeight a n s + seenWeight b n s := by
  simp [seenWeight]

theorem seenWeight_le (a : List Merge) (n s : ℕ) : seenWeight a n s ≤ (a.map Prod.snd).sum := by
  unfold seenWeight
  induction a with
  | nil => simp
  | cons m a ih =>
    simp only [List.map_cons, List.sum_cons]
    have : (if m.sees n s = true then m.2 else 0) ≤ m.2 := by split_ifs <;> omega
    omega

theorem entry_of_mem {x : Node} (hl : x.candidateSplitsCount.length = x.candidateSplits.length) {s : ℕ} (hs : s ∈ x.candidateSplits) :
    ∃ c, (c, s) ∈ Node.entries x := by
  obtain ⟨i, hi, e⟩ := List.mem_iff_getElem.1 hs
  refine ⟨x.candidateSplitsCount[i], List.mem_iff_getElem.2 ⟨i, ?_, ?_⟩⟩
  · simp only [Node.entries, List.length_zip]; omega
  · unfold Node.entries
    rw [List.getElem_zip, e]

theorem entry_count {x : Node} {f : ℕ → ℕ} (hc : x.candidateSplitsCount = x.candidateSplits.map f) {e : ℕ × ℕ} (he : e ∈ Node.entries x) :
    e.1 = f e.2 ∧ e.2 ∈ x.candidateSplits := by
  unfold Node.entries at he
  refine ⟨?_, (List.of_mem_zip he).2⟩
  rw [hc] at he
  obtain ⟨i, hi, e'⟩ := List.mem_iff_getElem.1 he
  rw [← e', List.getElem_zip]
  simp

theorem reduced_keeps {q : ℕ} {x x' : Node} (h : Reduced q x x') (hq : 0 < q) (hl : x.candidateSplitsCount.length = x.candidateSplits.length)
    {f : ℕ → ℕ} (hc : x.candidateSplitsCount = x.candidateSplits.map f) {s : ℕ} (hs : s ∈ x.candidateSplits)
    (hmax : ∀ t ∈ x.candidateSplits, t ≠ s → f t < f s) : s ∈ x'.candidateSplits := by
  by_contra hn
  obtain ⟨c, he⟩ := entry_of_mem hl hs
  have hne : x'.candidateSplits ≠ [] := by
    intro h0
    have := h.size
    rw [h0] at this
    have := List.length_pos_of_mem hs
    simp at *
    omega
  obtain ⟨t, ht⟩ := List.exists_mem_of_ne_nil _ hne
  obtain ⟨c', he'⟩ := entry_of_mem h.parallel ht
  have hnot : (c, s) ∉ Node.entries x' := fun hh => hn (List.of_mem_zip hh).2
  have hb := h.best _ he hnot _ he'
  have h1 := (entry_count hc he).1
  have h2 := entry_count hc (h.old _ he')
  simp only at h1 h2 hb
  have hts : t ≠ s := by rintro rfl; exact hn ht
  have := hmax t h2.2 hts
  omega

theorem reduced_all {q : ℕ} {x x' : Node} (h : Reduced q x x') (hq : x.candidateSplits.length ≤ q) {s : ℕ} (hs : s ∈ x.candidateSplits) :
    s ∈ x'.candidateSplits := by
  have hlen : x'.candidateSplits.length = x.candidateSplits.length := by rw [h.size]; omega
  have hsub : x'.candidateSplits ⊆ x.candidateSplits := by
    intro t ht
    obtain ⟨c, hc⟩ := entry_of_mem h.parallel ht
    exact (List.of_mem_zip (h.old _ hc)).2
  have hp : x'.candidateSplits.Perm x.candidateSplits := (List.subperm_of_subset h.nodup hsub).perm_of_length_le (by omega)
  exact hp.mem_iff.2 hs

/-- A node of the final tree, a node of no tree, or a node with few trees keeps its last split as a candidate. -/
theorem PrepRun.keeps {P : Prepared} {st : Splits × List Node} {ms : List Merge} {paths : List Path} {nodes : List Node} {splits : List Split}
    (r : PrepRun d carts final X y aggressive limit elapsed P st ms paths nodes splits) (hd : 0 < quota 100 (2 ^ d - 1)) {n : ℕ} (hn : n < 2 ^ d - 1)
    (h : (final.Occurs n ∧ carts.length < 1000) ∨ (∀ c ∈ carts ++ [final], ¬ c.Occurs n) ∨ carts.length < quota 100 (2 ^ d - 1)) :
    lastOf (fillEmpty st.2) n ∈ cand P.nodes n := by
  have hd2 : quota 100 (2 ^ d - 1) ≤ quota 150 (2 ^ d - 1) := Nat.div_le_div_right (by norm_num)
  obtain ⟨x, x1, x2, x3, x4, x5, x6, x7, x8⟩ := r.inv.node hn
  have hn' : n < (fillEmpty st.2).length := by rw [r.filled.length]; exact hn
  obtain ⟨z, hz⟩ : ∃ z, (fillEmpty st.2)[n]? = some z := ⟨_, List.getElem?_eq_getElem hn'⟩
  have hzm : z ∈ fillEmpty st.2 := List.mem_of_getElem? hz
  obtain ⟨x', h1, h2⟩ := r.fin.node n z hz
  obtain ⟨q, hq⟩ : ∃ q, q = if z.id = 0 then quota 150 (2 ^ d - 1) else quota 100 (2 ^ d - 1) := ⟨_, rfl⟩
  rw [← hq] at h2
  have hqn : quota 100 (2 ^ d - 1) ≤ q := by rw [hq]; split_ifs <;> omega
  have hlast : lastOf (fillEmpty st.2) n = z.lastSplit.toNat := by
    unfold lastOf nodeAt
    rw [List.getD_eq_getElem?_getD, hz]; rfl
  have hcand : cand P.nodes n = x'.candidateSplits := by
    rw [r.nodes_eq, cand_preprocess]
    unfold cand
    rw [h1]; rfl
  rw [hlast, hcand]
  obtain ⟨s, hs, hsl⟩ := r.filled.last z hzm
  rw [hsl, Int.toNat_natCast]
  have hzx := hz
  rw [fillEmpty_get, x1] at hzx
  simp only [Option.map_some, Option.some.injEq] at hzx
  by_cases hx0 : x.candidateSplits = []
  · rw [if_pos hx0] at hzx
    refine reduced_all h2 ?_ hs
    rw [← hzx]
    simp only [List.length_singleton]
    omega
  · rw [if_neg hx0] at hzx
    subst hzx
    have hdict : ∀ m ∈ ms, ∀ t, m.sees n t = true ↔ ∃ node, dictGet m.1 n = some node ∧ node.candidateSplits = [t] ∧ node.lastSplit = (t : ℤ) ∧ t < st.1.length :=
      fun m hm t => (r.inv.dicts m hm).sees (count := m.2)
    rcases h with ⟨hf, hlt⟩ | hno | hfew
    · obtain ⟨ms0, dict, e1, e2, e3⟩ := r.last
      have hkey : n ∈ dict.map Prod.fst := (e3 n).2 hf
      obtain ⟨node, hnode⟩ := Option.isSome_iff_exists.1 ((dictGet_isSome dict n).2 hkey)
      have hmem : (dict, 1000) ∈ ms := by rw [e1]; simp
      obtain ⟨k, k1, k2, k3⟩ := (r.inv.dicts _ hmem).one _ (dictGet_mem hnode)
      simp only at k2 k3
      have hsk : s = k := by
        have : x.lastSplit = (k : ℤ) := by
          rw [x6, e1]
          unfold lastGiven
          rw [List.reverse_append]
          simp [hnode, k3]
        rw [hsl] at this
        exact_mod_cast this
      have hsee : Merge.sees (dict, 1000) n s = true := (hdict _ hmem s).2 ⟨node, hnode, by rw [hsk]; exact k2, by rw [hsk]; exact k3, by rw [hsk]; exact k1⟩
      have hsee' : ∀ t, t ≠ s → Merge.sees (dict, 1000) n t = false := by
        intro t ht
        by_contra hh
        obtain ⟨node', g1, g2, _⟩ := (hdict _ hmem t).1 (by simpa using hh)
        simp only at g1
        rw [hnode] at g1
        obtain rfl := Option.some.inj g1
        rw [k2] at g2
        simp only [List.cons.injEq, and_true] at g2
        exact ht (by rw [hsk, g2])
      refine reduced_keeps h2 (by omega) (by rw [x5]; simp) x5 hs ?_
      intro t _ hts
      rw [e1, seenWeight_append, seenWeight_append]
      have a1 : seenWeight [(dict, 1000)] n s = 1000 := by simp [seenWeight, hsee]
      have a2 : seenWeight [(dict, 1000)] n t = 0 := by simp [seenWeight, hsee' t hts]
      have a3 := seenWeight_le ms0 n t
      rw [e2] at a3
      simp only [List.map_const', List.sum_replicate, nsmul_eq_mul, mul_one, Nat.cast_id] at a3
      omega
    · exfalso
      obtain ⟨t, ht⟩ := List.exists_mem_of_ne_nil _ hx0
      obtain ⟨m, hm, hse⟩ := (x4 t).1 ht
      obtain ⟨node, g1, _⟩ := (hdict m hm t).1 hse
      obtain ⟨i, hi, em⟩ := List.mem_iff_getElem.1 hm
      have hlen := r.inv.trees.length_eq
      have hck := List.Forall₂.get r.inv.trees (i := i) (by omega) hi
      simp only [List.get_eq_getElem] at hck
      rw [em] at hck
      exact hno _ (List.getElem_mem _) ((hck n).1 ((dictGet_isSome m.1 n).1 (by rw [g1]; rfl)))
    · refine reduced_all h2 ?_ hs
      have hsub : x.candidateSplits ⊆ ms.filterMap fun m => (dictGet m.1 n).map fun node => node.lastSplit.toNat := by
        intro t ht
        obtain ⟨m, hm, hse⟩ := (x4 t).1 ht
        obtain ⟨node, g1, _, g3, _⟩ := (hdict m hm t).1 hse
        exact List.mem_filterMap.2 ⟨m, hm, by rw [g1]; simp [g3]⟩
      have h1 := (List.subperm_of_subset x3 hsub).length_le
      have h2 := List.length_filterMap_le (fun m : Merge => (dictGet m.1 n).map fun node => node.lastSplit.toNat) ms
      have h3 : ms.length = carts.length + 1 := by
        have := r.inv.trees.length_eq
        rw [← this]; simp
      omega

/-- **C78 with a final tree that covers the others, or few trees.** For depth at most 6, if every node that occurs in a tree occurs in the
final tree and there are less than 1000 random trees, or if there are fewer random trees than candidates allowed per node, then the first `2^d`
paths use candidate splits. Missing: other inputs and the paths of the further trees, where the statement is false (`C78_refuted`). -/
theorem C78_candidates_partial (h : PrepInput d carts final extra X y) (hd : d ≤ 6) {P : Prepared}
    (hr : prepare d carts final extra X y aggressive limit elapsed = .ok P)
    (hcov : (carts.length < 1000 ∧ ∀ c ∈ carts, ∀ n, c.Occurs n → final.Occurs n) ∨ carts.length < 100 / (2 ^ d - 1)) :
    ∀ l < 2 ^ d, ∀ p, P.paths[l]? = some p → UsesCand P.nodes p := by
  obtain ⟨P', st, ms, paths, nodes, splits, e, r⟩ := prepare_ok h aggressive limit elapsed
  rw [hr] at e
  obtain rfl := Except.ok.inj e
  intro l hl p hp q hq
  obtain ⟨p', a1, a2, a3, a4, a5, _⟩ := r.fin.path l hl
  obtain ⟨t, ht⟩ := r.pre
  rw [← ht, List.getElem?_append_left (List.getElem?_eq_some_iff.1 a1).1, a1] at hp
  obtain rfl := Option.some.inj hp
  rw [a5 q hq]
  have hlt : q.1 < 2 ^ d - 1 := by
    obtain ⟨k, hk, e⟩ := a4.1.mem_pairs hq
    rw [e]
    exact anc_lt a4.1.leaf_lt hk
  have hd0 : 0 < quota 100 (2 ^ d - 1) := by
    have := h.depth
    interval_cases d <;> decide
  refine r.keeps hd0 hlt ?_
  rcases hcov with ⟨h1, h2⟩ | h1
  · by_cases ho : final.Occurs q.1
    · exact .inl ⟨ho, h1⟩
    · refine .inr (.inl ?_)
      intro c hc ho'
      rcases List.mem_append.1 hc with hc | hc
      · exact ho (h2 c hc _ ho')
      · rw [List.mem_singleton.1 hc] at ho'; exact ho ho'
  · exact .inr (.inr h1)

/-- Without further trees there is one path per leaf. -/
theorem paths_length_nil (h : PrepInput d carts final [] X y) {P : Prepared} (hr : prepare d carts final [] X y aggressive limit elapsed = .ok P) :
    P.paths.length = 2 ^ d := by
  obtain ⟨st1, ms1, e1, i1⟩ := mergeCarts_ok carts (PipeInv.nil d) h.carts_ok
  obtain ⟨st, ms, e2, i2, dict, e2', k2, n2⟩ := mergeCart_ok i1 h.final_ok 1000
  rw [List.nil_append, List.nil_append] at i2
  have hpos : 0 < st.1.length := by
    obtain ⟨c, hc, hk⟩ := h.split
    obtain ⟨k, hk⟩ := List.exists_mem_of_ne_nil _ hk
    have := (i2.keys k).2 ⟨c, hc, hk⟩
    have := List.length_pos_of_mem this
    simpa using this
  obtain ⟨paths, nodes, splits, e3, f⟩ := finish_ok i2.splits (i2.filledOk hpos) h.rows h.ne
  unfold prepare at hr
  have h0 : ¬ 2 ^ d - 1 = 0 := by
    have := Nat.pow_lt_pow_right (a := 2) (by norm_num) h.depth
    omega
  simp only [if_neg h0, e1, e2, e3, List.foldlM_nil] at hr
  cases e5 : preprocess nodes (addRowsToSplits splits X) X.length y d aggressive limit elapsed with
  | error e => 
    have : (pure paths : Except Err (List Path)) = .ok paths := rfl
    rw [this] at hr; simp only [e5] at hr; exact absurd hr (by simp)
  | ok rows =>
    have : (pure paths : Except Err (List Path)) = .ok paths := rfl
    rw [this] at hr
    simp only [e5, Except.ok.injEq] at hr
    rw [← hr]
    exact f.paths_length

/-- Without further trees these are all paths. -/
theorem C78_all_partial (h : PrepInput d carts final [] X y) (hd : d ≤ 6) {P : Prepared}
    (hr : prepare d carts final [] X y aggressive limit elapsed = .ok P)
    (hcov : (carts.length < 1000 ∧ ∀ c ∈ carts, ∀ n, c.Occurs n → final.Occurs n) ∨ carts.length < 100 / (2 ^ d - 1)) :
    ∀ p ∈ P.paths, UsesCand P.nodes p := by
  intro p hm
  obtain ⟨l, hl, e⟩ := List.mem_iff_getElem.1 hm
  refine C78_candidates_partial h hd hr hcov l ?_ p (by rw [List.getElem?_eq_getElem hl, e])
  have := paths_length_nil h hr
  omega

/-- The arguments then meet all requirements of `fit`. -/
theorem C78_fitOk (h : PrepInput d carts final [] X y) (hd : d ≤ 6) {raw : List ℤ} (hy : y = (encoded raw).map Int.ofNat)
    (hclock : ∀ k, elapsed k ≤ elapsed (k + 1)) {P : Prepared} (hr : prepare d carts final [] X y aggressive limit elapsed = .ok P)
    (hcov : (carts.length < 1000 ∧ ∀ c ∈ carts, ∀ n, c.Occurs n → final.Occurs n) ∨ carts.length < 100 / (2 ^ d - 1)) (old : Bool) :
    FitOk d (P.args d old) X (encoded y) := prepared_fitOk h hy hclock hr (C78_all_partial h hd hr hcov) old

/-- **C79 from the trees on.** With the fitted trees as the only input, exact integer solutions and no further trees, the experiment returns a
classifier that is at least as good on the training data as the initial tree. -/
theorem C79_experiment {Ω : Type} (h : PrepInput d carts final [] X y) (hd : d ≤ 6) {raw : List ℤ} (hy : y = (encoded raw).map Int.ofNat)
    (hclock : ∀ k, elapsed k ≤ elapsed (k + 1)) (hty : TwoClasses y)
    (hcov : (carts.length < 1000 ∧ ∀ c ∈ carts, ∀ n, c.Occurs n → final.Occurs n) ∨ carts.length < 100 / (2 ^ d - 1)) :
    ∃ P, prepare d carts final [] X y aggressive limit elapsed = .ok P ∧ ∀ (old : Bool) (o : FitOracle Ω) (tol : ℚ),
      FitContract d (P.args d old) X o tol → IpOptimal d (P.args d old) X o → ∀ (maxIt : ℤ) (tlimit : ℚ) (e0 : Fit.Est) (ω : Ω),
        ∃ fuel s preds, fitNew o (P.args d old) maxIt tlimit X fuel y e0 ω = some (.ok (), s) ∧
          predictFitted (P.args d old) s X = .ok preds ∧ preds.length = X.length ∧ correct y (initialPreds P d X) ≤ correct y preds := by
  obtain ⟨P, st, ms, paths, nodes, splits, hr, -⟩ := prepare_ok h aggressive limit elapsed
  refine ⟨P, hr, ?_⟩
  intro old o tol hc hip maxIt tlimit e0 ω
  have hf := C78_fitOk h hd hy hclock hr hcov old
  obtain ⟨⟨res, s⟩, hfit⟩ := C71_terminates hf hc maxIt tlimit e0 ω
  obtain rfl := C71_fit_succeeds hf hc hty hfit
  obtain ⟨preds, h1, h2, h3⟩ := C79_not_worse h hy hclock hr (C78_all_partial h hd hr hcov) hc hty hip hfit
  exact ⟨_, s, preds, hfit, h1, h2, h3⟩

/-! ## C77: trees without splits -/

/-- **C77.** If no tree has a split (all labels equal, say), the preparation raises an `IndexError`: the nodes are given split 0, which does not
exist. -/
theorem C77_no_split (hd : 0 < d) (hc : ∀ c ∈ carts, CartOk d c) (hf : CartOk d final) (hk : ∀ c ∈ carts ++ [final], c.keys = [])
    (hl : y.length = X.length) (hne : y ≠ []) : prepare d carts final extra X y aggressive limit elapsed = .error .indexError := by
  obtain ⟨st1, ms1, e1, i1⟩ := mergeCarts_ok carts (PipeInv.nil d) hc
  obtain ⟨st, ms, e2, i2, dict, e2', k2, n2⟩ := mergeCart_ok i1 hf 1000
  rw [List.nil_append, List.nil_append] at i2
  have hst : st.1 = [] := by
    rcases h : st.1 with _ | ⟨e, t⟩
    · rfl
    · exfalso
      obtain ⟨c, h1, h2⟩ := (i2.keys e.1).1 (by rw [h]; simp)
      rw [hk c h1] at h2
      simp at h2
  have hpow := Nat.pow_lt_pow_right (a := 2) (by norm_num) hd
  have h0 : ¬ 2 ^ d - 1 = 0 := by omega
  obtain ⟨x0, X', rfl⟩ : ∃ x0 X', X = x0 :: X' := by
    cases X with
    | nil => simp at hl; exact absurd hl hne
    | cons a b => exact ⟨a, b, rfl⟩
  obtain ⟨y0, y', rfl⟩ : ∃ y0 y', y = y0 :: y' := by
    cases y with
    | nil => exact absurd rfl hne
    | cons a b => exact ⟨a, b, rfl⟩
  have hin : ∀ n < 2 ^ d - 1, n < (fillEmpty st.2).length := by
    intro n hn
    obtain ⟨x, x1, _⟩ := i2.node hn
    rw [fillEmpty, List.length_map]
    exact (List.getElem?_eq_some_iff.1 x1).1
  have hns : fathers (2 ^ d - 1 + 0) (2 ^ d - 1 + 0) = (List.range d).reverse.map (anc d 0) := leaf_nodes (by positivity)
  have hleaf : leafPath (fillEmpty st.2) d [] (x0 :: X') (y0 :: y') 0 = .error .indexError := by
    unfold leafPath
    rw [hns]
    have hall : (((List.range d).reverse.map (anc d 0)).all fun n => decide (n < (fillEmpty st.2).length)) = true := by
      rw [List.all_eq_true]
      intro n hn
      rw [decide_eq_true_eq]
      obtain ⟨k, hk, rfl⟩ := List.mem_map.1 hn
      exact hin _ (anc_lt (by positivity) (by simpa using hk))
    simp only [hall, if_true]
    obtain ⟨e, rfl⟩ : ∃ e, d = e + 1 := ⟨d - 1, by omega⟩
    have hr : List.range (x0 :: X').length = 0 :: (List.range X'.length).map Nat.succ := by
      rw [List.length_cons, List.range_succ_eq_map]
    unfold scorePath
    simp only [hr]
    rw [List.range_succ, List.reverse_append]
    rfl
  have hmap : (List.range (2 ^ d)).mapM (leafPath (fillEmpty st.2) d [] (x0 :: X') (y0 :: y')) = .error .indexError := by
    obtain ⟨k, hk⟩ : ∃ k, 2 ^ d = k + 1 := ⟨2 ^ d - 1, by omega⟩
    rw [hk, List.range_succ_eq_map, List.mapM_cons, hleaf]
    rfl
  have hfin : finish d st (x0 :: X') (y0 :: y') = .error .indexError := by
    unfold finish
    rw [hst]
    have hg : getSplitsList [] = .ok [] := rfl
    have hk : known [] = [] := rfl
    simp only [hg, hk, getAllLeavesPaths, hmap]
  unfold prepare
  simp only [if_neg h0, e1, e2, hfin]

end Verif.Exp
