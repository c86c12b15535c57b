import Verif.Exp.CandProps

/-!
# C91: the experiment compared with the tree it starts from
-/

set_option linter.unusedSectionVars false
set_option linter.unusedSimpArgs false

namespace Verif.Exp

open Verif.DTree Verif.DTree.Spec

variable {d : ℕ} {carts : List Cart} {final : Cart} {extra : List Cart} {X : List (List ℚ)} {y : List ℤ} {aggressive : Bool} {limit : ℚ}
  {elapsed : ℕ → ℚ}

/-! ## Prediction of a CART tree -/

/-- One step down: at an inner node a row goes to the left child iff its value is at most the threshold. -/
def Cart.step (c : Cart) (row : List ℚ) (i : ℕ) : ℕ :=
  if c.isLeaf i then i
  else (if feat row (c.feature.getD i 0) ≤ c.threshold.getD i 0 then c.left.getD i (-1) else c.right.getD i (-1)).toNat

/-- The leaf reached by a row. Numbers grow along a way, so there are less steps than nodes. -/
def Cart.apply (c : Cart) (row : List ℚ) : ℕ := (c.step row)^[c.size] 0

/-- The labels predicted by the tree when leaf `i` has the label `label i`. -/
def Cart.predict (c : Cart) (label : ℕ → ℤ) (X : List (List ℚ)) : List ℤ := X.map fun row => label (c.apply row)

/-! ## Walking down both trees -/

/-- The direction taken at node `i`. -/
def Cart.goes (c : Cart) (row : List ℚ) (i : ℕ) : Bool := decide (feat row (c.key i).1 ≤ (c.key i).2)

theorem Cart.step_child {c : Cart} {row : List ℚ} {i : ℕ} (h : CartOk d c) (hi : i < c.size) (hl : c.isLeaf i = false) :
    c.IsChild i (c.goes row i) (c.step row i) ∧ i < c.step row i ∧ c.step row i < c.size := by
  obtain ⟨j, h1, h2, h3⟩ := h.child i hi hl (c.goes row i)
  have e : c.step row i = j := by
    have h4 := h1.2.2
    unfold Cart.step
    rw [hl]
    unfold Cart.goes Cart.key at h4
    simp only [decide_eq_true_eq] at h4
    simp only [Bool.false_eq_true, if_false]
    rw [h4]; simp
  rw [e]
  exact ⟨h1, h2, h3⟩

theorem Cart.step_leaf {c : Cart} {row : List ℚ} {i : ℕ} (hl : c.isLeaf i = true) : c.step row i = i := by
  unfold Cart.step
  rw [if_pos hl]

/-- After `k` steps the row is at a leaf or `k` levels down, in a node with a number of at least `k`. -/
theorem Cart.iterate_at {c : Cart} (h : CartOk d c) (row : List ℚ) (k : ℕ) : ∃ w, c.At ((c.step row)^[k] 0) w ∧ (c.step row)^[k] 0 < c.size ∧
    (c.isLeaf ((c.step row)^[k] 0) = false → w.length = k ∧ k ≤ (c.step row)^[k] 0) := by
  induction k with
  | zero => exact ⟨[], rfl, h.nonempty, fun _ => ⟨rfl, Nat.zero_le _⟩⟩
  | succ k ih =>
    obtain ⟨w, h1, h2, h3⟩ := ih
    rw [Function.iterate_succ_apply']
    cases hl : c.isLeaf ((c.step row)^[k] 0) with
    | true =>
      rw [Cart.step_leaf hl]
      exact ⟨w, h1, h2, fun hh => by rw [hl] at hh; exact absurd hh (by simp)⟩
    | false =>
      obtain ⟨k1, k2, k3⟩ := Cart.step_child (row := row) h h2 hl
      obtain ⟨g1, g2⟩ := h3 hl
      exact ⟨_ :: w, ⟨_, h1, k1⟩, k3, fun _ => ⟨by rw [List.length_cons, g1], by omega⟩⟩

theorem Cart.iterate_stay {c : Cart} {row : List ℚ} {k : ℕ} (hl : c.isLeaf ((c.step row)^[k] 0) = true) (j : ℕ) :
    (c.step row)^[k + j] 0 = (c.step row)^[k] 0 := by
  induction j with
  | zero => rfl
  | succ j ih => rw [← Nat.add_assoc, Function.iterate_succ_apply', ih, Cart.step_leaf hl]

/-- The leaf is reached within `d` steps. -/
theorem Cart.apply_eq {c : Cart} (h : CartOk d c) (row : List ℚ) : c.apply row = (c.step row)^[d] 0 ∧ c.isLeaf (c.apply row) = true := by
  have hd : c.isLeaf ((c.step row)^[d] 0) = true := by
    obtain ⟨w, h1, h2, h3⟩ := Cart.iterate_at h row d
    by_contra hh
    have hh : c.isLeaf ((c.step row)^[d] 0) = false := by simpa using hh
    have := h.depth _ _ h1 hh
    have := (h3 hh).1
    omega
  have hs : c.isLeaf ((c.step row)^[c.size] 0) = true := by
    obtain ⟨w, h1, h2, h3⟩ := Cart.iterate_at h row c.size
    by_contra hh
    have hh : c.isLeaf ((c.step row)^[c.size] 0) = false := by simpa using hh
    have := (h3 hh).2
    omega
  refine ⟨?_, hs⟩
  unfold Cart.apply
  rw [← Cart.iterate_stay hs d, ← Cart.iterate_stay hd c.size, Nat.add_comm]

/-- Two rows that walk to the same leaf of a full tree with the splits of the CART tree reach the same leaf of the CART tree. -/
theorem Cart.apply_congr {c : Cart} (h : CartOk d c) {row row' : List ℚ} {left left' : ℕ → Bool}
    (hl : ∀ i w, i < c.size → c.isLeaf i = false → c.At i w → left (heapId w) = c.goes row i)
    (hl' : ∀ i w, i < c.size → c.isLeaf i = false → c.At i w → left' (heapId w) = c.goes row' i)
    (he : walkLeaf left d = walkLeaf left' d) : c.apply row = c.apply row' := by
  have hlt := walkLeaf_lt left d
  have hw : ∀ k < d, left (anc d (walkLeaf left d) k) = goesLeft d (walkLeaf left d) k := (walkLeaf_iff left hlt).1 rfl
  have hw' : ∀ k < d, left' (anc d (walkLeaf left d) k) = goesLeft d (walkLeaf left d) k := (walkLeaf_iff left' hlt).1 he.symm
  rw [(Cart.apply_eq h row).1, (Cart.apply_eq h row').1]
  have key : ∀ k ≤ d, (c.step row)^[k] 0 = (c.step row')^[k] 0 ∧ ∃ w, c.At ((c.step row)^[k] 0) w ∧ (c.step row)^[k] 0 < c.size ∧
      (c.isLeaf ((c.step row)^[k] 0) = false → heapId w = anc d (walkLeaf left d) k) := by
    intro k
    induction k with
    | zero => exact fun _ => ⟨rfl, [], rfl, h.nonempty, fun _ => by rw [anc_zero hlt]; rfl⟩
    | succ k ih =>
      intro hk
      obtain ⟨e, w, h1, h2, h3⟩ := ih (by omega)
      rw [Function.iterate_succ_apply', Function.iterate_succ_apply', ← e]
      obtain ⟨i, hi⟩ : ∃ i, i = (c.step row)^[k] 0 := ⟨_, rfl⟩
      rw [← hi] at h1 h2 h3 ⊢
      cases hlf : c.isLeaf i with
      | true =>
        rw [Cart.step_leaf hlf, Cart.step_leaf hlf]
        exact ⟨rfl, w, h1, h2, fun hh => by rw [hlf] at hh; exact absurd hh (by simp)⟩
      | false =>
        have hid := h3 hlf
        obtain ⟨k1, k2, k3⟩ := Cart.step_child (row := row) h h2 hlf
        obtain ⟨k1', -, -⟩ := Cart.step_child (row := row') h h2 hlf
        have g1 : c.goes row i = goesLeft d (walkLeaf left d) k := by rw [← hl i w h2 hlf h1, hid, hw k (by omega)]
        have g2 : c.goes row' i = goesLeft d (walkLeaf left d) k := by rw [← hl' i w h2 hlf h1, hid, hw' k (by omega)]
        refine ⟨?_, c.goes row i :: w, ⟨i, h1, k1⟩, k3, fun _ => ?_⟩
        · rw [g2, ← g1] at k1'
          have := k1.2.2.symm.trans k1'.2.2
          exact_mod_cast this
        · rw [anc_succ (by omega : k < d), ← hid, ← g1]
          rfl
  exact (key d le_rfl).1

/-! ## The splits of the initial tree -/

/-- Every inner node of the final CART tree has its split in the initial tree. -/
theorem PrepRun.final_split {P : Prepared} {st : Splits × List Node} {ms : List Merge} {paths : List Path} {nodes : List Node} {splits : List Split}
    (r : PrepRun d carts final X y aggressive limit elapsed P st ms paths nodes splits) (hf : CartOk d final) {i : ℕ} {w : List Bool}
    (hi : i < final.size) (hl : final.isLeaf i = false) (hw : final.At i w) :
    (splitAt P.splits (lastOf (fillEmpty st.2) (heapId w))).feature = (final.key i).1 ∧
      (splitAt P.splits (lastOf (fillEmpty st.2) (heapId w))).threshold = (final.key i).2 := by
  have hn : heapId w < 2 ^ d - 1 := heapId_lt (hf.depth i w hw hl)
  obtain ⟨ms0, dict, e1, e2⟩ := r.lastNodes
  obtain ⟨dict', e3, e4, e5⟩ := getAllNodes_spec hf st.1
  rw [e2] at e3
  obtain rfl := Except.ok.inj e3
  have hkey : final.key i ∈ st.1.map Prod.fst := by
    refine (r.inv.keys _).2 ⟨final, by simp, ?_⟩
    unfold Cart.keys
    exact List.mem_map_of_mem (List.mem_filter.2 ⟨List.mem_range.2 hi, by simp [hl]⟩)
  obtain ⟨sp, hsp⟩ := Option.isSome_iff_exists.1 ((dictGet_isSome st.1 (final.key i)).2 hkey)
  obtain ⟨k, hk, ek⟩ := List.mem_iff_getElem.1 (dictGet_mem hsp)
  have hspk := r.inv.splits.entry k _ _ (by rw [List.getElem?_eq_getElem hk, ek])
  have hget : dictGet dict (heapId w) = some (cartNode st.1 (heapId w) (final.key i)) :=
    mem_dictGet e4 ((e5 _ _).2 ⟨i, hi, hl, w, hw, rfl, rfl⟩)
  have hnode : (cartNode st.1 (heapId w) (final.key i)).lastSplit = (k : ℤ) := by
    unfold cartNode
    rw [hsp]
    simp [hspk]
  obtain ⟨x, x1, x2, x3, x4, x5, x6, x7, x8⟩ := r.inv.node hn
  have hxl : x.lastSplit = (k : ℤ) := by
    rw [x6, e1]
    unfold lastGiven
    rw [List.reverse_append]
    simp [hget, hnode]
  have hne : x.candidateSplits ≠ [] := by
    have hm : (dict, 1000) ∈ ms := by rw [e1]; simp
    obtain ⟨k', a1, a2, a3⟩ := (r.inv.dicts _ hm).one _ (dictGet_mem hget)
    have := (x4 k').2 ⟨_, hm, (r.inv.dicts _ hm).sees.2 ⟨_, hget, a2, a3, a1⟩⟩
    exact List.ne_nil_of_mem this
  have hlast : lastOf (fillEmpty st.2) (heapId w) = k := by
    unfold lastOf nodeAt
    rw [List.getD_eq_getElem?_getD, fillEmpty_get, x1]
    simp only [Option.map_some, Option.getD_some]
    rw [if_neg hne, hxl, Int.toNat_natCast]
  rw [hlast]
  have hks : k < splits.length := by rw [r.fin.splits_ok.length]; exact hk
  obtain ⟨key, b, b1, b2⟩ := r.fin.splits_ok.get k _ (List.getElem?_eq_getElem hks)
  rw [List.getElem?_eq_getElem hk, ek] at b1
  obtain rfl := Option.some.inj b1
  obtain ⟨l, rr, hadd⟩ := addRows_get splits X k
  have : splitAt P.splits k = { splits[k] with
      leftRows := l
      rightRows := rr } := by
    unfold splitAt
    rw [r.splits_eq, List.getD_eq_getElem?_getD, hadd, List.getElem?_eq_getElem hks]
    rfl
  rw [this, b2]
  exact ⟨rfl, rfl⟩

/-! ## The theorems -/

variable {Ω : Type} {o : FitOracle Ω} {tol : ℚ} {maxIt : ℤ} {tlimit : ℚ} {fuel : ℕ} {e0 : Fit.Est} {ω : Ω} {u : Unit}
  {s : Fit.St (World Ω) Duals Path} {raw : List ℤ} {P : Prepared} {old : Bool}

/-- **C91, initial tree.** The tree of the first `2^d` prepared paths gets at least as many training rows right as the CART tree fitted to all
data, whatever labels the leaves of the latter have. -/
theorem C91_initial (h : PrepInput d carts final extra X y) (hr : prepare d carts final extra X y aggressive limit elapsed = .ok P)
    (label : ℕ → ℤ) : correct y (final.predict label X) ≤ correct y (initialPreds P d X) := by
  classical
  obtain ⟨hpaths, -⟩ := C76_paths h hr
  obtain ⟨P', st, ms, paths, nodes, splits, e, r⟩ := prepare_ok h aggressive limit elapsed
  rw [hr] at e
  obtain rfl := Except.ok.inj e
  obtain ⟨σ, hσ⟩ : ∃ σ, σ = lastOf (fillEmpty st.2) := ⟨_, rfl⟩
  obtain ⟨Q, hQ⟩ : ∃ Q : ℕ → Path, ∀ l, Q l = P.paths.getD l ⟨0, [], [], 0, 0, 0, false⟩ := ⟨_, fun _ => rfl⟩
  have hQ' : ∀ l < 2 ^ d, P.paths[l]? = some (Q l) ∧ (Q l).leafId = l ∧ ∀ q ∈ (Q l).pairs, q.2 = σ q.1 := by
    intro l hl
    obtain ⟨p, a1, a2, a3, a4, a5, _⟩ := r.fin.path l hl
    obtain ⟨t, ht⟩ := r.pre
    have h1 : P.paths[l]? = some p := by
      rw [← ht, List.getElem?_append_left (List.getElem?_eq_some_iff.1 a1).1]
      exact a1
    have : Q l = p := by rw [hQ, List.getD_eq_getElem?_getD, h1]; rfl
    rw [this]
    exact ⟨h1, a3, hσ ▸ a5⟩
  rw [← initial_sum h.rows r.leaves hpaths hQ']
  obtain ⟨left, hleft⟩ : ∃ left : List ℚ → ℕ → Bool, ∀ row, left row = fun n => takesLeft row (splitAt P.splits (σ n)) := ⟨_, fun _ => rfl⟩
  have hgoes : ∀ row i w, i < final.size → final.isLeaf i = false → final.At i w → left row (heapId w) = final.goes row i := by
    intro row i w hi hl hw
    obtain ⟨h1, h2⟩ := r.final_split h.final_ok hi hl hw
    rw [hleft, hσ]
    unfold takesLeft Cart.goes
    simp only [h1, h2]
  -- the leaf of the CART tree is determined by the leaf of the initial tree
  obtain ⟨g, hg⟩ : ∃ g : ℕ → ℕ, ∀ row, final.apply row = g (walkLeaf (left row) d) := by
    refine ⟨fun l => if hh : ∃ row, walkLeaf (left row) d = l then final.apply hh.choose else 0, fun row => ?_⟩
    have hh : ∃ row', walkLeaf (left row') d = walkLeaf (left row) d := ⟨row, rfl⟩
    simp only [dif_pos hh]
    exact (Cart.apply_congr h.final_ok (hgoes _) (hgoes _) hh.choose_spec).symm
  have hsum := targetHits_sum (d := d) (X := X) (y := y) (splits := P.splits) (σ := σ) (Q := fun l => { Q l with target := label (g l) })
    (fun l hl => ⟨(hQ' l hl).2.1, ⟨(hpaths _ (List.mem_of_getElem? (hQ' l hl).1)).1.1.leaf_lt, (hpaths _ (List.mem_of_getElem? (hQ' l hl).1)).1.1.nodes,
      (hpaths _ (List.mem_of_getElem? (hQ' l hl).1)).1.1.splits⟩, (hQ' l hl).2.2⟩) h.rows (final.predict label X) (by
      intro i hi
      unfold Cart.predict
      rw [List.getD_eq_getElem?_getD, List.getElem?_map, List.getElem?_eq_getElem hi, List.getD_eq_getElem?_getD, List.getElem?_eq_getElem hi]
      simp only [Option.map_some, Option.getD_some]
      rw [hg, hleft])
  rw [← hsum]
  refine Finset.sum_le_sum fun l hl => ?_
  exact (hpaths _ (List.mem_of_getElem? (hQ' l (Finset.mem_range.1 hl)).1)).2.best (label (g l))

/-- **C91.** The experiment with labels encoded by `LabelEncoder` and initial paths over candidate splits, for solvers that keep their contracts
and an integer solver that finds optimal solutions: `predict` on the training data raises no exception, and at least as many of the labels
it returns are right as with the CART tree fitted to all data, whatever labels the leaves of that tree have. -/
theorem C91_not_worse_than_cart (h : PrepInput d carts final extra X y) (hy : y = (encoded raw).map Int.ofNat)
    (hclock : ∀ k, elapsed k ≤ elapsed (k + 1))
    (hr : prepare d carts final extra X y aggressive limit elapsed = .ok P) (hcand : ∀ p ∈ P.paths, UsesCand P.nodes p)
    (hc : FitContract d (P.args d old) X o tol) (hty : TwoClasses y) (hip : IpOptimal d (P.args d old) X o)
    (hfit : fitNew o (P.args d old) maxIt tlimit X fuel y e0 ω = some (.ok u, s)) (label : ℕ → ℤ) :
    ∃ preds, predictFitted (P.args d old) s X = .ok preds ∧ preds.length = X.length ∧ correct y (final.predict label X) ≤ correct y preds := by
  obtain ⟨preds, h1, h2, h3⟩ := C79_not_worse h hy hclock hr hcand hc hty hip hfit
  exact ⟨preds, h1, h2, (C91_initial h hr label).trans h3⟩

/-- **C91 from the trees on.** With the fitted trees as the only input, exact integer solutions and no further trees, the experiment returns a
classifier that is at least as good on the training data as the CART tree fitted to all data. -/
theorem C91_experiment (h : PrepInput d carts final [] X y) (hd : d ≤ 6) (hy : y = (encoded raw).map Int.ofNat)
    (hclock : ∀ k, elapsed k ≤ elapsed (k + 1)) (hty : TwoClasses y)
    (hcov : (carts.length < 1000 ∧ ∀ c ∈ carts, ∀ n, c.Occurs n → final.Occurs n) ∨ carts.length < 100 / (2 ^ d - 1)) :
    ∃ P, prepare d carts final [] X y aggressive limit elapsed = .ok P ∧ ∀ (old : Bool) (o : FitOracle Ω) (tol : ℚ),
      FitContract d (P.args d old) X o tol → IpOptimal d (P.args d old) X o → ∀ (maxIt : ℤ) (tlimit : ℚ) (e0 : Fit.Est) (ω : Ω),
        ∃ fuel s preds, fitNew o (P.args d old) maxIt tlimit X fuel y e0 ω = some (.ok (), s) ∧
          predictFitted (P.args d old) s X = .ok preds ∧ preds.length = X.length ∧
          ∀ label, correct y (final.predict label X) ≤ correct y preds := by
  obtain ⟨P, hr, hall⟩ := C79_experiment (Ω := Ω) h hd hy hclock hty hcov (aggressive := aggressive) (limit := limit)
  refine ⟨P, hr, fun old o tol hc hip maxIt tlimit e0 ω => ?_⟩
  obtain ⟨fuel, s, preds, h1, h2, h3, h4⟩ := hall old o tol hc hip maxIt tlimit e0 ω
  exact ⟨fuel, s, preds, h1, h2, h3, fun label => (C91_initial h hr label).trans h4⟩

end Verif.Exp
