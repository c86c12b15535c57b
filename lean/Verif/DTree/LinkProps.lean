import Verif.DTree.Link

/-!
# Master and pricing problems fit together (C68, C69, C70)

The duals handed out by `solve_rmp` price exactly the columns that `add_column` creates, the cuts known to the pricing problems are those of the
master problem, and when exact pricing finds nothing more, no tree over the candidate splits has a better training accuracy than the objective
of the restricted master problem, up to the tolerances.
-/

set_option linter.unusedSectionVars false
set_option linter.unusedSimpArgs false

namespace Verif.DTree

open MP Spec

namespace Spec

/-- `cuts` are the split patterns of the cut constraints of the master problem, in their order. -/
def Delivered (s : MS) (cuts : List (List Bool)) : Prop := CutsFilled s.splits cuts ∧ cuts.length = s.cutCons.length

/-- Contract of an LP solver reporting `OPTIMAL` for a maximisation problem over variables `≥ 0`: a constraint without lower bound has a dual
`≥ 0`, one without upper bound a dual `≤ 0`, no reduced cost is above `tol`, and the dual objective is the reported objective. -/
structure OptimalDuals (m : Model) (tol : ℚ) (ans : Answer) : Prop where
  le : ∀ (c : ℕ) (k : Cons), m.cons[c]? = some k → k.lb = none → 0 ≤ ans.duals c
  ge : ∀ (c : ℕ) (k : Cons), m.cons[c]? = some k → k.ub = none → ans.duals c ≤ 0
  cost : ∀ v < m.vars.length, m.reducedCost ans.duals v ≤ tol
  value : m.dualValue ans.duals = ans.objective

/-- The pricing problem of leaf `l` as set up beside the master problem `c`. -/
def priceConf (kind : Kind) (d : ℕ) (c : Conf) (splits : List Split) (targets y : List ℕ) (dataRows : Option (List Row)) (l : ℕ) : SubConf :=
  ⟨kind, createLeaf l d, c.nodes, splits, targets, d, c.X, y, dataRows⟩

open Classical in
/-- The weighted number of training rows that the tree with split `σ n` at node `n` and class `τ l` at leaf `l` classifies correctly. Rows
removed from the pricing problems are represented by the weights of other rows. -/
noncomputable def treeHits (d : ℕ) (c : SubConf) (σ τ : ℕ → ℕ) : ℚ :=
  keptSum c (fun r => c.y.getD r 0 = τ (walkLeaf (fun n => takesLeft (c.X.getD r []) (splitAt c.splits (σ n))) d)) (rowWeight c)

end Spec

/-! ## Columns -/

theorem colRed_cuts {d : ℕ} {X : List (List ℚ)} {splits splits' : List Split} (hid : ∀ i (s : Split), splits'[i]? = some s → s.id = i)
    {cuts cuts' : List (List Bool)} (hl : cuts.length = cuts'.length) (h : CutsFilled splits' cuts) (h' : CutsFilled splits' cuts') (D : Duals) {p : Path}
    (hp : ∀ t ∈ p.splits, t < splits'.length) : colRed d X splits cuts D p = colRed d X splits cuts' D p := by
  classical
  unfold colRed
  have : cutSum cuts.length (fun k => Follows d (cutPat cuts k) p) (fun k => D.cut.getD k 0) =
      cutSum cuts'.length (fun k => Follows d (cutPat cuts' k) p) (fun k => D.cut.getD k 0) := by
    unfold cutSum
    rw [← hl]
    congr 1
    refine List.map_congr_left ?_
    intro k hk
    have hk1 := List.mem_range.1 hk
    have : Follows d (cutPat cuts k) p ↔ Follows d (cutPat cuts' k) p := by
      apply follows_congr
      intro t ht
      have e1 := cutLeft_eq h hid hk1 (hp t ht)
      have e2 := cutLeft_eq h' hid (by rw [← hl]; exact hk1) (hp t ht)
      exact e1.symm.trans e2
    simp only [this]
  rw [this]

theorem addColumn_keeps {d : ℕ} {c : Conf} {splits : List Split} {dataRows : Option (List Row)} (hs : Setup d c splits dataRows)
    {cuts : List (List Bool)} {own : List Own} {cd : List CD} {s : MS} (hi : Inv d c splits cuts own cd s) {p : Path} (hp : GoodPath d splits p)
    (new : List (List Bool)) :
    (addColumn c p s).2.last = s.last ∧ readDuals c (addColumn c p s).2 new = readDuals c s new := by
  have hok := (inv_addColumn hs.depth hs.tree hs.filled hi hp).1
  unfold addColumn at hok ⊢
  simp only at hok ⊢
  split at hok
  · cases hok
  · rename_i rows hr
    split at hok
    · cases hok
    · rename_i cs hc
      refine ⟨?_, ?_⟩
      · simp only [hr, hc]
      · simp only [hr, hc]
        rfl

/-- The result of an optimal `solve_rmp`. -/
theorem solveRmp_optimal {d : ℕ} {c : Conf} {splits : List Split} {cuts : List (List Bool)} {own : List Own} {cd : List CD} {o : Oracle} {s s' : MS}
    {D : Duals} (h : Inv d c splits cuts own cd s) (hsol : solveRmp c o s = (.ok D, s')) (hst : s'.last.status = .optimal) :
    D = readDuals c s' D.newCuts ∧ s'.rmpObj = s'.last.objective := by
  unfold solveRmp at hsol
  rw [if_pos h.gen] at hsol
  simp only at hsol
  split_ifs at hsol with h1 h2 h2
  · simp only [Prod.mk.injEq, Except.ok.injEq] at hsol
    obtain ⟨rfl, rfl⟩ := hsol
    exact ⟨rfl, rfl⟩
  · simp only [Prod.mk.injEq, Except.ok.injEq] at hsol
    obtain ⟨rfl, rfl⟩ := hsol
    exact absurd hst h2
  · simp only [Prod.mk.injEq, Except.ok.injEq] at hsol
    obtain ⟨rfl, rfl⟩ := hsol
    exact ⟨rfl, rfl⟩
  · simp only [Prod.mk.injEq, Except.ok.injEq] at hsol
    obtain ⟨rfl, rfl⟩ := hsol
    exact absurd hst h2

/-- **C68.** Let an optimal `solve_rmp` return the duals `D`. The reduced cost of the variable of every path of the model, and of the variable
that `add_column` would create for any further path of the tree, is the cost of the path minus the returned duals of its leaf, of the rows that
follow it, of the cuts that follow it and of its node-split pairs. -/
theorem C68_duals_price_columns {d : ℕ} {c : Conf} {o : Oracle} {paths : List Path} {splits : List Split} {dataRows : Option (List Row)}
    (hs : Setup d c splits dataRows) (hp : ∀ p ∈ paths, GoodPath d splits p) (ho : CutSound o) {s s' : MS}
    (h : Reached d c o paths splits dataRows s) {D : Duals} (hsol : solveRmp c o s = (.ok D, s')) (hst : s'.last.status = .optimal)
    {cuts : List (List Bool)} (hc : Delivered s' cuts) :
    (∀ p ∈ s'.paths, s'.m.reducedCost s'.last.duals p.id = colRed d c.X splits cuts D p) ∧
    ∀ p, GoodPath d splits p → (addColumn c p s').1 = .ok true ∧
      (addColumn c p s').2.m.reducedCost s'.last.duals s'.m.vars.length = colRed d c.X splits cuts D p := by
  have h' : Reached d c o paths splits dataRows s' := by
    have := Reached.rmp h
    rw [hsol] at this
    exact this
  obtain ⟨cuts0, own0, cd0, hi0⟩ := reached_inv hs hp ho h
  obtain ⟨cuts1, own, cd, hi⟩ := reached_inv hs hp ho h'
  obtain ⟨hD, _⟩ := solveRmp_optimal hi0 hsol hst
  have hid := hs.tree.split_id
  have hlen : cuts1.length = cuts.length := by rw [hc.2, hi.cutlen]
  have hcut : ∀ p, GoodPath d splits p → colRed d c.X splits cuts1 D p = colRed d c.X splits cuts D p := by
    intro p hp
    refine colRed_cuts (hi.splits_id hid) hlen hi.cutsFilled hc.1 D ?_
    intro t ht
    rw [hi.same.length]
    exact hp.2 t ht
  refine ⟨?_, ?_⟩
  · intro p hp
    rw [hi.red hs.tree ((hi.pidx p.id p).2 ⟨hp, rfl⟩) D.newCuts, ← hD]
    exact hcut p (hi.good p hp)
  · intro p hp
    obtain ⟨k1, k2, _⟩ := inv_addColumn hs.depth hs.tree hs.filled hi hp
    obtain ⟨e1, e2⟩ := addColumn_keeps hs hi hp D.newCuts
    refine ⟨k1, ?_⟩
    have := k2.red hs.tree (v := s'.m.vars.length) (p := { p with id := s'.m.vars.length }) (by
      rw [hi.rep.length_vars]; simp) D.newCuts
    rw [e1, e2, ← hD] at this
    rw [this, ← hcut p hp]
    rfl

/-! ## Cuts -/

theorem delivered_addCuts {d : ℕ} {c : Conf} {splits : List Split} (hid : ∀ i (s : Split), splits[i]? = some s → s.id = i)
    {cuts0 : List (List Bool)} {own : List Own} {cd : List CD} {s : MS} (h : Inv d c splits cuts0 own cd s) {o : Oracle} (ho : CutSound o)
    {cuts : List (List Bool)} (hc : Delivered s cuts) : Delivered (addCuts o s).2 (cuts ++ (addCuts o s).1) := by
  obtain ⟨k1, k2, -, -⟩ := inv_addCuts hid h ho
  refine ⟨?_, ?_⟩
  · unfold addCuts
    simp only
    split_ifs with h0
    · rw [List.append_nil]; exact hc.1
    · simp only
      rw [← hc.2]
      exact (C39_add_cuts hc.1 _).1
  · rw [k1.cutlen, List.length_append, k2, List.length_append, hc.2, h.cutlen]

theorem delivered_cutRound {d : ℕ} {c : Conf} {splits : List Split} (hid : ∀ i (s : Split), splits[i]? = some s → s.id = i)
    {cuts0 : List (List Bool)} {own : List Own} {cd : List CD} {s : MS} (h : Inv d c splits cuts0 own cd s) {o : Oracle} (ho : CutSound o)
    {cuts : List (List Bool)} (hc : Delivered s cuts) : Delivered (cutRound c o s).2.2 (cuts ++ (cutRound c o s).2.1) := by
  have h1 : Inv d c splits cuts0 own cd (storeLp s) := h.of_eq rfl
  obtain ⟨b, hb⟩ : ∃ b, b = if c.betaAsCuts then addBetaCuts c (storeLp s) else (0, storeLp s) := ⟨_, rfl⟩
  have h2 : (∃ cd2, Inv d c splits cuts0 own cd2 b.2) ∧ Delivered b.2 cuts := by
    rw [hb]
    split_ifs
    · obtain ⟨new, k, _⟩ := inv_addBetaCuts h1
      exact ⟨⟨_, k⟩, hc⟩
    · exact ⟨⟨cd, h1⟩, hc⟩
  obtain ⟨⟨cd2, h2⟩, hc2⟩ := h2
  obtain ⟨g, hg⟩ : ∃ g, g = if c.generateCuts && b.1 == 0 then addCuts o b.2 else ([], b.2) := ⟨_, rfl⟩
  have h3 : Delivered g.2 (cuts ++ g.1) := by
    rw [hg]
    split_ifs
    · exact delivered_addCuts hid h2 ho hc2
    · rw [List.append_nil]; exact hc2
  have e : cutRound c o s = (b.1, g.1, { g.2 with totalCuts := g.2.totalCuts + (g.1.length + b.1) }) := by
    rw [hg, hb]; rfl
  rw [e]
  exact h3

theorem delivered_cutRounds {d : ℕ} {c : Conf} {splits : List Split} (hid : ∀ i (s : Split), splits[i]? = some s → s.id = i) {o : Oracle}
    (ho : CutSound o) (n : ℕ) (acc : List (List Bool)) {cuts0 : List (List Bool)} {own : List Own} {cd : List CD} {s : MS}
    (h : Inv d c splits cuts0 own cd s) {cuts : List (List Bool)} (hc : Delivered s (cuts ++ acc)) :
    Delivered (cutRounds c o n acc s).2 (cuts ++ (cutRounds c o n acc s).1) := by
  induction n generalizing acc cuts0 cd s with
  | zero => exact hc
  | succ n ih =>
    obtain ⟨cuts1, cd1, h1, -⟩ := inv_cutRound hid ho h
    have hd := delivered_cutRound hid h ho hc
    unfold cutRounds
    simp only
    split_ifs with e1 e2
    · refine ih (acc ++ (cutRound c o s).2.1) (s := lpSolve o (cutRound c o s).2.2) (h1.of_eq rfl) ?_
      rw [← List.append_assoc]
      exact hd
    · have : (cutRound c o s).2.1 = [] := by
        rw [← List.length_eq_zero_iff]; omega
      rw [this, List.append_nil] at hd
      exact hd
    · exact hc

/-- **C68**, the cuts: if `cuts` lists the patterns of all cuts of the master problem, then after `solve_rmp` the same list extended by the newly
added cuts that it returns does. So pricing problems that receive every returned list know all cuts, with the numbers of the master problem. -/
theorem C68_cuts_delivered {d : ℕ} {c : Conf} {o : Oracle} {paths : List Path} {splits : List Split} {dataRows : Option (List Row)}
    (hs : Setup d c splits dataRows) (hp : ∀ p ∈ paths, GoodPath d splits p) (ho : CutSound o) :
    (∀ s, generateMp c (MS.init paths splits dataRows) = (.ok (), s) → Delivered s []) ∧
    ∀ s, Reached d c o paths splits dataRows s → ∀ cuts, Delivered s cuts →
      (∀ D s', solveRmp c o s = (.ok D, s') → Delivered s' (cuts ++ D.newCuts) ∧
        (s'.last.status = .optimal → D.cut.length = (cuts ++ D.newCuts).length)) ∧
      ∀ p, GoodPath d splits p → Delivered (addColumn c p s).2 cuts := by
  have hid := hs.tree.split_id
  refine ⟨?_, ?_⟩
  · intro s h
    obtain ⟨own, cd, hi⟩ := inv_generate hs hp h
    exact ⟨hi.cutsFilled, hi.cutlen.symm⟩
  · intro s h cuts hc
    obtain ⟨cuts0, own, cd, hi⟩ := reached_inv hs hp ho h
    refine ⟨?_, ?_⟩
    · intro D s' hsol
      obtain ⟨s1, hs1⟩ : ∃ s1, s1 = lpSolve o { s with
          prevRmpObj := s.rmpObj
          iter := s.iter + 1 } := ⟨_, rfl⟩
      have h1 : Inv d c splits cuts0 own cd s1 := by rw [hs1]; exact hi.of_eq rfl
      have hc1 : Delivered s1 cuts := by rw [hs1]; exact hc
      obtain ⟨r, hr⟩ : ∃ r, r = if s1.iter % 10 = 0 then cutRounds c o c.numCutsRound [] s1 else ([], s1) := ⟨_, rfl⟩
      have h2 : Delivered r.2 (cuts ++ r.1) := by
        rw [hr]
        split_ifs
        · exact delivered_cutRounds hid ho _ [] h1 (by rw [List.append_nil]; exact hc1)
        · rw [List.append_nil]; exact hc1
      have e : solveRmp c o s = if r.2.last.status = .optimal then (.ok (readDuals c r.2 r.1), storeLp r.2)
          else (.ok ⟨[], [], fun _ _ _ => none, [], r.1⟩, r.2) := by
        unfold solveRmp
        rw [if_pos hi.gen, hr, hs1]
      rw [e] at hsol
      split_ifs at hsol with ho
      · simp only [Prod.mk.injEq, Except.ok.injEq] at hsol
        obtain ⟨rfl, rfl⟩ := hsol
        refine ⟨h2, fun _ => ?_⟩
        have e1 : (readDuals c r.2 r.1).cut.length = r.2.cutCons.length := by simp [readDuals]
        exact e1.trans h2.2.symm
      · simp only [Prod.mk.injEq, Except.ok.injEq] at hsol
        obtain ⟨rfl, rfl⟩ := hsol
        exact ⟨h2, fun h => absurd h ho⟩
    · intro p hp
      obtain ⟨-, -, -, -, e1, -, e2⟩ := inv_addColumn hs.depth hs.tree hs.filled hi hp
      unfold Delivered
      rw [e1, e2]
      exact hc

/-! ## The bound -/

/-- Reduced costs depend on the descriptions only. -/
theorem Inv.rc_eq {d : ℕ} {c : Conf} {splits : List Split} {cuts : List (List Bool)} {own own' : List Own} {cd : List CD} {s s' : MS}
    (h : Inv d c splits cuts own cd s) (h' : Inv d c splits cuts own' cd s') (dl : ℕ → ℚ) {v : ℕ} {x : Own} (hv : own[v]? = some x)
    (hv' : own'[v]? = some x) : s.m.reducedCost dl v = s'.m.reducedCost dl v := by
  unfold Model.reducedCost
  rw [h.obj, h'.obj, h.rep.length_cons, h'.rep.length_cons]
  congr 1
  · simp [atVar, hv, hv']
  · refine Finset.sum_congr rfl ?_
    intro i _
    rw [h.rep.cons, h'.rep.cons, List.getElem?_map, List.getElem?_map]
    rcases cd[i]? with _ | y
    · rfl
    · simp [atVar, hv, hv']

theorem Inv.dual_eq {d : ℕ} {c : Conf} {splits : List Split} {cuts : List (List Bool)} {own own' : List Own} {cd : List CD} {s s' : MS}
    (h : Inv d c splits cuts own cd s) (h' : Inv d c splits cuts own' cd s') (dl : ℕ → ℚ) : s.m.dualValue dl = s'.m.dualValue dl := by
  unfold Model.dualValue
  rw [h.off, h'.off, h.rep.length_cons, h'.rep.length_cons]
  congr 1
  refine Finset.sum_congr rfl ?_
  intro i _
  rw [h.rep.cons, h'.rep.cons, List.getElem?_map, List.getElem?_map]
  rcases cd[i]? with _ | y
  · rfl
  · rfl

/-- What adding columns does. -/
theorem addColumns_spec {d : ℕ} {c : Conf} {splits : List Split} {dataRows : Option (List Row)} (hs : Setup d c splits dataRows)
    (new : List (List Bool)) (cols : List Path) (hc : ∀ p ∈ cols, GoodPath d splits p) {cuts : List (List Bool)} {own : List Own} {cd : List CD}
    {s : MS} (hi : Inv d c splits cuts own cd s) :
    ∃ ext, Inv d c splits cuts (own ++ ext) cd (addColumns c cols s) ∧ (addColumns c cols s).last = s.last ∧
      readDuals c (addColumns c cols s) new = readDuals c s new ∧ (addColumns c cols s).nsVars = s.nsVars ∧
      ∃ ps, (addColumns c cols s).paths = s.paths ++ ps ∧ (∀ q ∈ ps, ∃ p ∈ cols, ∃ i, q = { p with id := i }) ∧
        ∀ p ∈ cols, ∃ i, { p with id := i } ∈ ps := by
  induction cols generalizing s own with
  | nil => exact ⟨[], by rw [List.append_nil]; exact hi, rfl, rfl, rfl, [], by simp [addColumns], by simp, by simp⟩
  | cons p ps ih =>
    have hp := hc p (by simp)
    obtain ⟨_, k2, k3, k4, _⟩ := inv_addColumn hs.depth hs.tree hs.filled hi hp
    obtain ⟨e1, e2⟩ := addColumn_keeps hs hi hp new
    obtain ⟨ext, h1, h2, h3, h4, qs, h5, h6, h7⟩ := ih (fun q hq => hc q (by simp [hq])) k2
    refine ⟨.path { p with id := s.m.vars.length } :: ext, ?_, h2.trans e1, h3.trans e2, h4.trans k4, { p with id := s.m.vars.length } :: qs, ?_,
      ?_, ?_⟩
    · rw [List.append_assoc] at h1
      exact h1
    · change (addColumns c ps (addColumn c p s).2).paths = _
      rw [h5, k3, List.append_assoc]
      rfl
    · intro q hq
      rcases List.mem_cons.1 hq with rfl | hq
      · exact ⟨p, by simp, _, rfl⟩
      · obtain ⟨p', hp', i, e⟩ := h6 q hq
        exact ⟨p', by simp [hp'], i, e⟩
    · intro q hq
      rcases List.mem_cons.1 hq with rfl | hq
      · exact ⟨s.m.vars.length, by simp⟩
      · obtain ⟨i, e⟩ := h7 q hq
        exact ⟨i, List.mem_cons_of_mem _ e⟩

theorem reached_addColumns {d : ℕ} {c : Conf} {o : Oracle} {paths : List Path} {splits : List Split} {dataRows : Option (List Row)}
    (cols : List Path) (hc : ∀ p ∈ cols, GoodPath d splits p) {s : MS} (h : Reached d c o paths splits dataRows s) :
    Reached d c o paths splits dataRows (addColumns c cols s) := by
  induction cols generalizing s with
  | nil => exact h
  | cons p ps ih => exact ih (fun q hq => hc q (by simp [hq])) (Reached.column h p (hc p (by simp)))

/-- **C69.** Let an optimal `solve_rmp` return the duals `D`. If further columns have reduced costs at most `eps` for these duals, then adding
all of them raises the optimum of the linear relaxation to at most the objective `rmp_objective_` plus `2^d * eps` (and the solver's own tolerance
`tol`). -/
theorem C69_lp_bound {d : ℕ} {c : Conf} {o : Oracle} {paths : List Path} {splits : List Split} {dataRows : Option (List Row)}
    (hs : Setup d c splits dataRows) (hp : ∀ p ∈ paths, GoodPath d splits p) (ho : CutSound o) {s s' : MS}
    (h : Reached d c o paths splits dataRows s) {D : Duals} (hsol : solveRmp c o s = (.ok D, s')) (hst : s'.last.status = .optimal)
    {cuts : List (List Bool)} (hc : Delivered s' cuts) {tol eps : ℚ} (ht : 0 ≤ tol) (hte : tol ≤ eps) (hopt : OptimalDuals s'.m tol s'.last)
    {cols : List Path} (hg : ∀ p ∈ cols, GoodPath d splits p) (hred : ∀ p ∈ cols, colRed d c.X splits cuts D p ≤ eps)
    {a : ℕ → ℚ} (ha : (addColumns c cols s').m.FeasibleLP a) :
    (addColumns c cols s').m.value a ≤ s'.rmpObj + 2 ^ d * eps + (2 ^ d - 1) * tol := by
  have h' : Reached d c o paths splits dataRows s' := by
    have := Reached.rmp h
    rw [hsol] at this
    exact this
  have hid := hs.tree.split_id
  obtain ⟨cuts0, own0, cd0, hi0⟩ := reached_inv hs hp ho h
  obtain ⟨cuts1, own, cd, hi⟩ := reached_inv hs hp ho h'
  obtain ⟨hD, hobj⟩ := solveRmp_optimal hi0 hsol hst
  obtain ⟨ext, k1, k2, k3, k4, ps, k5, k6, -⟩ := addColumns_spec hs D.newCuts cols hg hi
  have hlen : cuts1.length = cuts.length := by rw [hc.2, hi.cutlen]
  have hcut : ∀ p, GoodPath d splits p → colRed d c.X splits cuts1 D p = colRed d c.X splits cuts D p := by
    intro p hp
    refine colRed_cuts (hi.splits_id hid) hlen hi.cutsFilled hc.1 D ?_
    intro t ht
    rw [hi.same.length]
    exact hp.2 t ht
  have hold : ∀ (v : ℕ) x, own[v]? = some x → (own ++ ext)[v]? = some x := by
    intro v x hv
    rw [List.getElem?_append_left (List.getElem?_eq_some_iff.1 hv).1]
    exact hv
  have hvlt : ∀ (v : ℕ) x, own[v]? = some x → v < s'.m.vars.length := by
    intro v x hv
    rw [hi.rep.length_vars]
    exact (List.getElem?_eq_some_iff.1 hv).1
  have hb := k1.bound hid (dl := s'.last.duals) (eps := eps) (tol := tol) ht ?_ ?_ ?_ ha
  · rw [← hi.dual_eq k1, hopt.value, ← hobj] at hb
    exact hb
  · intro i k hk hlb
    rw [k1.rep.cons, List.getElem?_map] at hk
    rcases hx : cd[i]? with _ | x
    · rw [hx] at hk; cases hk
    · rw [hx] at hk
      simp only [Option.map_some, Option.some.injEq] at hk
      refine hopt.le i ⟨x.lb, x.ub, _⟩ (by rw [hi.rep.cons, List.getElem?_map, hx]; rfl) ?_
      rw [← hk] at hlb
      exact hlb
  · intro p hp
    rw [k5, List.mem_append] at hp
    rcases hp with hp | hp
    · have hv := (hi.pidx p.id p).2 ⟨hp, rfl⟩
      rw [← hi.rc_eq k1 _ hv (hold _ _ hv)]
      exact le_trans (hopt.cost _ (hvlt _ _ hv)) hte
    · have hmem : p ∈ (addColumns c cols s').paths := by rw [k5]; exact List.mem_append_right _ hp
      have hr := k1.red hs.tree ((k1.pidx p.id p).2 ⟨hmem, rfl⟩) D.newCuts
      rw [k2, k3, ← hD, hcut p (k1.good p hmem)] at hr
      rw [hr]
      obtain ⟨q, hq, i, rfl⟩ := k6 p hp
      exact hred q hq
  · intro n t v hv
    rw [k4] at hv
    have hv := (hi.nsv n t v).1 hv
    rw [← hi.rc_eq k1 _ hv (hold _ _ hv)]
    exact hopt.cost _ (hvlt _ _ hv)

/-! ## Removed rows -/

/-- Rows with a constraint are not removed, and the flags stay those given. -/
def FlagInv (c : Conf) (f : ℕ → Bool) (s : MS) : Prop :=
  c.X.length ≤ s.addedRow.length ∧ (∀ r, (rowAt (s.dataRows.getD []) r).removedFromMaster = f r) ∧
    ∀ r < c.X.length, s.addedRow.getD r false = true → f r = false

theorem flag_beta {c : Conf} {f : ℕ → Bool} {s : MS} (h : FlagInv c f s) : FlagInv c f (addBetaCuts c s).2 := by
  obtain ⟨h1, h2, h3⟩ := h
  have key : ∀ (l : List ℕ) (b : BS), (∀ r ∈ l, r < c.X.length) → c.X.length ≤ b.addedRow.length →
      (∀ r < c.X.length, b.addedRow.getD r false = true → f r = false) →
      c.X.length ≤ (betaLoop (s.dataRows.getD []) s.pathSol l b).addedRow.length ∧
      ∀ r < c.X.length, (betaLoop (s.dataRows.getD []) s.pathSol l b).addedRow.getD r false = true → f r = false := by
    intro l
    induction l with
    | nil => intro b _ h1 h2; exact ⟨h1, h2⟩
    | cons r l ih =>
      intro b hl h1 h3
      have hl' : ∀ r ∈ l, r < c.X.length := fun r hr => hl r (by simp [hr])
      unfold betaLoop
      by_cases e1 : (rowAt (s.dataRows.getD []) r).removedFromMaster = true
      · rw [if_pos e1]; exact ih b hl' h1 h3
      · rw [if_neg e1]
        by_cases e2 : b.num ≥ 10
        · rw [if_pos e2]; exact ⟨h1, h3⟩
        · rw [if_neg e2]
          by_cases e3 : b.addedRow.getD r false = true
          · rw [if_pos e3]; exact ih b hl' h1 h3
          · rw [if_neg e3]
            by_cases e4 : violatedRow s.pathSol (rowAt (s.dataRows.getD []) r).reachablePaths = true
            · rw [if_pos e4]
              refine ih _ hl' (by simpa using h1) ?_
              intro x hx hax
              by_cases hxr : x = r
              · subst hxr
                rw [h2] at e1
                simpa using e1
              · refine h3 x hx ?_
                simp only [List.getD_eq_getElem?_getD] at hax ⊢
                rw [List.getElem?_set_ne (fun e => hxr e.symm)] at hax
                exact hax
            · rw [if_neg e4]; exact ih b hl' h1 h3
  obtain ⟨k1, k2⟩ := key (List.range c.X.length) ⟨s.m, s.rowCons, s.addedRow, 0⟩ (fun r hr => List.mem_range.1 hr) h1 h3
  exact ⟨k1, h2, k2⟩

theorem flag_cuts {c : Conf} {f : ℕ → Bool} {o : Oracle} {s : MS} (h : FlagInv c f s) : FlagInv c f (addCuts o s).2 := by
  obtain ⟨h1, h2, h3⟩ := h
  unfold addCuts
  simp only
  split_ifs
  · exact ⟨h1, h2, h3⟩
  · refine ⟨by simp only [List.length_append]; omega, h2, ?_⟩
    intro r hr ha
    refine h3 r hr ?_
    simp only [List.getD_eq_getElem?_getD] at ha ⊢
    rw [List.getElem?_append_left (by omega)] at ha
    exact ha

theorem flag_cutRound {c : Conf} {f : ℕ → Bool} {o : Oracle} {s : MS} (h : FlagInv c f s) : FlagInv c f (cutRound c o s).2.2 := by
  have h1 : FlagInv c f (storeLp s) := h
  obtain ⟨b, hb⟩ : ∃ b, b = if c.betaAsCuts then addBetaCuts c (storeLp s) else (0, storeLp s) := ⟨_, rfl⟩
  have h2 : FlagInv c f b.2 := by
    rw [hb]
    split_ifs
    · exact flag_beta h1
    · exact h1
  obtain ⟨g, hg⟩ : ∃ g, g = if c.generateCuts && b.1 == 0 then addCuts o b.2 else ([], b.2) := ⟨_, rfl⟩
  have h3 : FlagInv c f g.2 := by
    rw [hg]
    split_ifs
    · exact flag_cuts h2
    · exact h2
  have e : cutRound c o s = (b.1, g.1, { g.2 with totalCuts := g.2.totalCuts + (g.1.length + b.1) }) := by
    rw [hg, hb]; rfl
  rw [e]
  exact h3

theorem flag_cutRounds {c : Conf} {f : ℕ → Bool} {o : Oracle} (n : ℕ) (acc : List (List Bool)) {s : MS} (h : FlagInv c f s) :
    FlagInv c f (cutRounds c o n acc s).2 := by
  induction n generalizing acc s with
  | zero => exact h
  | succ n ih =>
    have hd : FlagInv c f (cutRound c o s).2.2 := flag_cutRound h
    unfold cutRounds
    simp only
    split_ifs with e1 e2
    · exact ih _ (s := lpSolve o (cutRound c o s).2.2) hd
    · exact hd
    · exact h

theorem rowAt_map {f : ℕ → Row → Row} {rows : List Row} {g : Row → Bool} (h : ∀ i r, g (f i r) = g r) (r : ℕ) :
    g (rowAt (rows.mapIdx f) r) = g (rowAt rows r) := by
  unfold rowAt
  rw [List.getD_eq_getElem?_getD, List.getD_eq_getElem?_getD, List.getElem?_mapIdx]
  rcases rows[r]? with _ | x
  · rfl
  · exact h r x

/-- In every reached state, a row with a constraint is not marked as removed from the master problem in the given rows. -/
theorem reached_flags {d : ℕ} {c : Conf} {o : Oracle} {paths : List Path} {splits : List Split} {rows : List Row}
    (hs : Setup d c splits (some rows)) (hp : ∀ p ∈ paths, GoodPath d splits p) (ho : CutSound o) {s : MS}
    (h : Reached d c o paths splits (some rows) s) : FlagInv c (fun r => (rowAt rows r).removedFromMaster) s := by
  induction h with
  | @generate s h =>
    obtain ⟨own, cd, hi⟩ := inv_generate hs hp h
    have hr := rows_generate h
    have hd : ∀ r, (rowAt (s.dataRows.getD []) r).removedFromMaster = (rowAt rows r).removedFromMaster := by
      unfold generateMp at h
      rw [if_neg (by simp [MS.init])] at h
      rcases hcm : createCutModel c.leaves (MS.init paths splits (some rows)).splits (MS.init paths splits (some rows)).paths with e | ⟨cp, sv, pv⟩
      · rw [hcm] at h; cases h
      · rw [hcm] at h
        simp only [Prod.mk.injEq, true_and] at h
        rw [← h]
        simp only [Option.getD_some, MS.init]
        intro r
        unfold computeSatisfiedPaths
        refine rowAt_map (g := Row.removedFromMaster) ?_ r
        intro i row
        generalize (List.foldl addPathVar _ paths).2 = ps
        induction ps generalizing row with
        | nil => rfl
        | cons p ps ih =>
          rw [List.foldl_cons, ih]
          split_ifs <;> rfl
    refine ⟨by rw [hi.added]; simp, hd, ?_⟩
    intro r _ ha
    exact (hd r).symm.trans ((hr r).1 ha).2.2
  | again h ih =>
    unfold generateMp
    obtain ⟨_, _, _, hi⟩ := reached_inv hs hp ho h
    rw [if_pos hi.gen]
    exact ih
  | @column s h p hgp ih =>
    obtain ⟨cuts, own, cd, hi⟩ := reached_inv hs hp ho h
    obtain ⟨e0, -, -, -, -, e1, -⟩ := inv_addColumn hs.depth hs.tree hs.filled hi hgp
    obtain ⟨rows', hrows, -⟩ := hi.data
    obtain ⟨k1, k2, k3⟩ := ih
    refine ⟨by rw [e1]; exact k1, ?_, by rw [e1]; exact k3⟩
    intro r
    rw [← k2 r, hrows]
    unfold addColumn at e0 ⊢
    simp only at e0 ⊢
    split at e0
    · cases e0
    · rename_i rs hr
      split at e0
      · cases e0
      · rename_i cs hc
        simp only [hr, hc, hrows, Option.map_some, Option.getD_some]
        clear hr hc e0
        clear hrows
        induction rs generalizing rows' with
        | nil => rfl
        | cons x rs ih =>
          rw [List.foldl_cons, ih]
          unfold rowAt
          rw [List.getD_eq_getElem?_getD, List.getD_eq_getElem?_getD, List.getElem?_modify]
          rcases rows'[r]? with _ | y
          · split_ifs <;> rfl
          · split_ifs <;> rfl
  | beta h ih => exact flag_beta ih
  | cuts h ih => exact flag_cuts ih
  | @rmp s h ih =>
    obtain ⟨_, _, _, hi⟩ := reached_inv hs hp ho h
    unfold solveRmp
    rw [if_pos hi.gen]
    simp only
    have h1 : FlagInv c (fun r => (rowAt rows r).removedFromMaster) (lpSolve o { s with
      prevRmpObj := s.rmpObj
      iter := s.iter + 1 }) := ih
    split_ifs
    · exact flag_cutRounds _ _ h1
    · exact flag_cutRounds _ _ h1
    · exact h1
    · exact h1
  | ip h ih =>
    unfold solveIp
    obtain ⟨_, _, _, hi⟩ := reached_inv hs hp ho h
    rw [if_pos hi.gen]
    simp only
    split_ifs
    · exact ih
    · exact ih

/-! ## Trees -/

/-- The column of leaf `l` in the tree with splits `σ` and classes `τ`. -/
noncomputable def treeCol (d : ℕ) (c : SubConf) (σ τ : ℕ → ℕ) (l : ℕ) : Path :=
  ⟨l, (treePath σ d l).nodeIds, (treePath σ d l).splits, hitsOf d c (treePath σ d l) (τ l), 0, τ l, false⟩

theorem follows_treePath (σ : ℕ → ℕ) {d l : ℕ} (hl : l < 2 ^ d) (left : ℕ → Bool) :
    Follows d left (treePath σ d l) ↔ walkLeaf (fun n => left (σ n)) d = l := by
  rw [walkLeaf_iff _ hl]
  unfold Follows
  constructor
  · intro h k hk
    exact h k hk _ ((treePath_pairs σ d l _).2 ⟨k, hk, rfl⟩)
  · intro h k hk t ht
    obtain ⟨k', hk', e⟩ := (treePath_pairs σ d l _).1 ht
    simp only [Prod.mk.injEq] at e
    have : k = k' := anc_inj hl hk.le hk'.le e.1
    subst this
    rw [e.2]
    exact h k hk

/-- The hits of a tree are the hits of its columns. -/
theorem treeHits_eq (d : ℕ) (c : SubConf) (σ τ : ℕ → ℕ) :
    ((List.range (2 ^ d)).map (fun l => hitsOf d c (treePath σ d l) (τ l))).sum = treeHits d c σ τ := by
  classical
  unfold treeHits hitsOf keptSum
  generalize c.X.length = n
  have key : ∀ i, ((List.range (2 ^ d)).map (fun l => if Kept c i ∧ Follows d (rowPat c i) (treePath σ d l) ∧ ((c.y.getD i 0 : ℕ) : ℤ) = (τ l : ℤ)
      then rowWeight c i else 0)).sum =
      if Kept c i ∧ c.y.getD i 0 = τ (walkLeaf (fun n => takesLeft (c.X.getD i []) (splitAt c.splits (σ n))) d) then rowWeight c i else 0 := by
    intro i
    have hw := walkLeaf_lt (fun n => takesLeft (c.X.getD i []) (splitAt c.splits (σ n))) d
    rw [← sum_pick (List.range (2 ^ d)) List.nodup_range _ (List.mem_range.2 hw)
      (fun l => if Kept c i ∧ c.y.getD i 0 = τ l then rowWeight c i else 0)]
    congr 1
    refine List.map_congr_left ?_
    intro l hl
    have hf := follows_treePath σ (List.mem_range.1 hl) (rowPat c i)
    have e : (fun n => rowPat c i (σ n)) = fun n => takesLeft (c.X.getD i []) (splitAt c.splits (σ n)) := rfl
    rw [e] at hf
    by_cases h1 : walkLeaf (fun n => takesLeft (c.X.getD i []) (splitAt c.splits (σ n))) d = l
    · rw [if_pos h1]
      simp only [hf.2 h1, true_and, Nat.cast_inj]
    · rw [if_neg h1, if_neg (fun h => h1 (hf.1 h.2.1))]
  induction n with
  | zero => simp
  | succ n ih =>
    simp only [List.range_succ, List.map_append, List.sum_append, List.map_singleton, List.sum_singleton, List.sum_map_add]
    rw [ih]
    congr 1
    refine Eq.trans (Eq.trans ?_ (key n)) (by congr)
    refine congrArg List.sum (List.map_congr_left ?_)
    intro l _
    congr

/-- Rows that pricing leaves out have no dual, so the reduced cost of a pricing problem is that of the master problem. -/
theorem redCost_eq_colRed {d : ℕ} {c : Conf} {splits : List Split} {dataRows : Option (List Row)} {kind : Kind} {targets y : List ℕ} {l : ℕ}
    {D : Duals} (h0 : ∀ r < c.X.length, ¬ Kept (priceConf kind d c splits targets y dataRows l) r → D.row.getD r 0 = 0)
    (cuts : List (List Bool)) (p : Path) :
    redCost d (priceConf kind d c splits targets y dataRows l) cuts D p = colRed d c.X splits cuts D p := by
  classical
  unfold redCost colRed
  have : keptSum (priceConf kind d c splits targets y dataRows l) (fun i => Follows d (rowPat (priceConf kind d c splits targets y dataRows l) i) p)
      (fun i => D.row.getD i 0) =
      ((List.range c.X.length).map (fun r => if Follows d (rowLeft splits (c.X.getD r [])) p then D.row.getD r 0 else 0)).sum := by
    unfold keptSum
    congr 1
    refine List.map_congr_left ?_
    intro r hr
    by_cases hk : Kept (priceConf kind d c splits targets y dataRows l) r
    · simp only [hk, true_and]
      rfl
    · rw [if_neg (fun h => hk h.1), h0 r (List.mem_range.1 hr) hk]
      simp
  rw [this]

/-- The objective bounds every tree whose columns have small reduced costs. -/
theorem tree_bound {d : ℕ} {c : Conf} {o : Oracle} {paths : List Path} {splits : List Split} {dataRows : Option (List Row)}
    (hs : Setup d c splits dataRows) (hp : ∀ p ∈ paths, GoodPath d splits p) (ho : CutSound o) {s s' : MS}
    (h : Reached d c o paths splits dataRows s) {D : Duals} (hsol : solveRmp c o s = (.ok D, s')) (hst : s'.last.status = .optimal)
    {cuts : List (List Bool)} (hc : Delivered s' cuts) {tol eps : ℚ} (ht : 0 ≤ tol) (hte : tol ≤ eps) (hopt : OptimalDuals s'.m tol s'.last)
    {pc : SubConf} {σ τ : ℕ → ℕ} (hσ : ∀ n < 2 ^ d - 1, σ n < splits.length)
    (hred : ∀ l < 2 ^ d, colRed d c.X splits cuts D (treeCol d pc σ τ l) ≤ eps) :
    treeHits d pc σ τ ≤ s'.rmpObj + 2 ^ d * eps + (2 ^ d - 1) * tol := by
  have h' : Reached d c o paths splits dataRows s' := by
    have := Reached.rmp h
    rw [hsol] at this
    exact this
  obtain ⟨cuts1, own, cd, hi⟩ := reached_inv hs hp ho h'
  let cols := (List.range (2 ^ d)).map (treeCol d pc σ τ)
  have hwf : ∀ l < 2 ^ d, WFPath d (treeCol d pc σ τ l) := fun l hl =>
    ⟨hl, (treePath_wf σ hl).nodes, (treePath_wf σ hl).splits⟩
  have hg : ∀ p ∈ cols, GoodPath d splits p := by
    intro p hp
    obtain ⟨l, hl, rfl⟩ := List.mem_map.1 hp
    have hl := List.mem_range.1 hl
    refine ⟨hwf l hl, ?_⟩
    intro t ht
    obtain ⟨k, hk, rfl⟩ := List.mem_map.1 (show t ∈ (List.range d).map (fun k => σ (anc d l k)) from ht)
    exact hσ _ (anc_lt hl (List.mem_range.1 hk))
  have hr2 := reached_addColumns (o := o) cols hg h'
  obtain ⟨ext, k1, k2, k3, k4, ps, k5, k6, k7⟩ := addColumns_spec hs D.newCuts cols hg hi
  have hex : ∀ l, ∃ P : Path, l < 2 ^ d → P ∈ (addColumns c cols s').paths ∧ ∃ i, P = { treeCol d pc σ τ l with id := i } := by
    intro l
    by_cases hl : l < 2 ^ d
    · obtain ⟨i, hi⟩ := k7 _ (List.mem_map.2 ⟨l, List.mem_range.2 hl, rfl⟩)
      exact ⟨_, fun _ => ⟨by rw [k5]; exact List.mem_append_right _ hi, i, rfl⟩⟩
    · exact ⟨⟨0, [], [], 0, 0, 0, false⟩, fun h => absurd h hl⟩
  choose P hP using hex
  obtain ⟨a, haf, ha⟩ := C42_trees_stay_feasible hs hp ho hr2 σ P (by
    intro l hl
    obtain ⟨h1, i, h2⟩ := hP l hl
    refine ⟨h1, by rw [h2]; rfl, ?_⟩
    intro q hq
    rw [h2] at hq
    obtain ⟨k, hk, rfl⟩ := (treePath_pairs σ d l q).1 hq
    rfl)
  have hb := C69_lp_bound hs hp ho h hsol hst hc ht hte hopt hg (by
    intro p hp
    obtain ⟨l, hl, rfl⟩ := List.mem_map.1 hp
    exact hred l (List.mem_range.1 hl)) haf.toFeasibleLP
  refine le_trans (le_of_eq ?_) hb
  rw [k1.value, ← treeHits_eq]
  have hlid : ∀ p ∈ (addColumns c cols s').paths, p.leafId < 2 ^ d := fun p hp => (k1.good p hp).1.leaf_lt
  have hexch : ∀ L : List Path, (∀ p ∈ L, p.leafId < 2 ^ d) → (L.map (fun p => p.cost * a p.id)).sum =
      ((List.range (2 ^ d)).map (fun l => (L.map (fun p => if p.leafId = l then p.cost * a p.id else 0)).sum)).sum := by
    intro L
    induction L with
    | nil => simp
    | cons p l ih =>
      intro hL
      simp only [List.map_cons, List.sum_cons, List.sum_map_add]
      rw [ih (fun q hq => hL q (by simp [hq]))]
      congr 1
      have e := sum_pick (List.range (2 ^ d)) List.nodup_range p.leafId (List.mem_range.2 (hL p (by simp))) (fun _ => p.cost * a p.id)
      refine e.symm.trans ?_
      refine congrArg List.sum (List.map_congr_left ?_)
      intro l _
      congr
  rw [hexch _ hlid]
  congr 1
  refine List.map_congr_left ?_
  intro l hl
  obtain ⟨h1, i, h2⟩ := hP l (List.mem_range.1 hl)
  have hleaf : (P l).leafId = l := by rw [h2]; rfl
  rw [sum_ind_eq _ k1.ids_nodup (P l) h1]
  · rw [if_pos hleaf, ((ha _ h1).1 (by rw [hleaf])), mul_one, h2]
    rfl
  · intro q hq hne
    by_cases he : q.leafId = l
    · rw [if_pos he, (ha q hq).2 (by rw [he]; exact hne), mul_zero]
    · rw [if_neg he]

/-- Rows left out of pricing have dual 0. -/
theorem removed_dual {d : ℕ} {c : Conf} {o : Oracle} {paths : List Path} {splits : List Split} {dataRows : Option (List Row)}
    (hs : Setup d c splits dataRows) (hp : ∀ p ∈ paths, GoodPath d splits p) (ho : CutSound o) {s s' : MS}
    (h : Reached d c o paths splits dataRows s) {D : Duals} (hsol : solveRmp c o s = (.ok D, s')) (hst : s'.last.status = .optimal)
    (hrem : ∀ rows, dataRows = some rows → ∀ r, (rowAt rows r).removedFromSp = true → (rowAt rows r).removedFromMaster = true)
    {kind : Kind} {targets y : List ℕ} {l : ℕ} : ∀ r < c.X.length, ¬ Kept (priceConf kind d c splits targets y dataRows l) r → D.row.getD r 0 = 0 := by
  intro r hr hk
  obtain ⟨cuts0, own0, cd0, hi0⟩ := reached_inv hs hp ho h
  obtain ⟨hD, _⟩ := solveRmp_optimal hi0 hsol hst
  unfold Kept at hk
  push Not at hk
  obtain ⟨rows, hrows, hrm⟩ := hk hr
  have hrows : dataRows = some rows := hrows
  subst hrows
  have h' : Reached d c o paths splits (some rows) s' := by
    have := Reached.rmp h
    rw [hsol] at this
    exact this
  obtain ⟨-, -, hf⟩ := reached_flags hs hp ho h'
  have hm := hrem rows rfl r (by simpa using hrm)
  have : s'.addedRow.getD r false ≠ true := by
    intro ha
    have := hf r hr ha
    simp only at this
    rw [hm] at this
    cases this
  rw [hD]
  simp only [readDuals, List.getD_eq_getElem?_getD, List.getElem?_map, List.getElem?_range hr, Option.map_some, Option.getD_some]
  rw [← List.getD_eq_getElem?_getD, if_neg this]

/-- **C70.** Let an optimal `solve_rmp` return the duals `D`, and let the exact pricing problem of every leaf, having received all earlier cuts,
be updated with `D` and find an optimal answer from which it generates no path. Then no tree over the candidate splits of the nodes, with any
classes at its leaves, has more weighted training hits than `rmp_objective_` plus `2^d * 1e-6` (and the solver's own tolerance `tol`). -/
theorem C70_no_tree_beats_bound {d : ℕ} {c : Conf} {o : Oracle} {paths : List Path} {splits : List Split} {dataRows : Option (List Row)}
    (hs : Setup d c splits dataRows) (hp : ∀ p ∈ paths, GoodPath d splits p) (ho : CutSound o) {s s' : MS}
    (h : Reached d c o paths splits dataRows s) {D : Duals} (hsol : solveRmp c o s = (.ok D, s')) (hst : s'.last.status = .optimal)
    {cuts : List (List Bool)} (hc : Delivered s cuts) {tol : ℚ} (ht : 0 ≤ tol) (hte : tol ≤ 1 / 1000000) (hopt : OptimalDuals s'.m tol s'.last)
    (hrem : ∀ rows, dataRows = some rows → ∀ r, (rowAt rows r).removedFromSp = true → (rowAt rows r).removedFromMaster = true)
    {targets y : List ℕ} (hok : ∀ l < 2 ^ d, SubOk d (priceConf .mip d c splits targets y dataRows l)) {st st' : ℕ → SubSt} {ans : ℕ → Answer}
    (hr : ∀ l < 2 ^ d, SubReached (priceConf .mip d c splits targets y dataRows l) cuts (st l))
    (hu : ∀ l < 2 ^ d, (priceConf .mip d c splits targets y dataRows l).update D (st l) = (.ok (), st' l))
    (hans : ∀ l < 2 ^ d, (ans l).status = .optimal ∧ IsOptimal (st' l).m (ans l))
    (hnone : ∀ l < 2 ^ d, (priceConf .mip d c splits targets y dataRows l).generateMip (st' l) (ans l) = [])
    {σ τ : ℕ → ℕ} (hσ : ∀ n < 2 ^ d - 1, σ n ∈ cand c.nodes n) (hτ : ∀ l < 2 ^ d, τ l ∈ targets) :
    treeHits d (priceConf .mip d c splits targets y dataRows 0) σ τ ≤ s'.rmpObj + 2 ^ d * (1 / 1000000) + (2 ^ d - 1) * tol := by
  obtain ⟨hdel, hcl⟩ := ((C68_cuts_delivered hs hp ho).2 s h cuts hc).1 D s' hsol
  have hcand : ∀ n < 2 ^ d - 1, σ n < splits.length := by
    intro n hn
    have := hσ n hn
    unfold cand at this
    rw [← hs.tree.nodes_length] at hn
    rw [List.getElem?_eq_getElem hn] at this
    exact hs.tree.cand_lt _ (List.getElem_mem hn) _ this
  refine tree_bound hs hp ho h hsol hst hdel ht hte hopt hcand ?_
  intro l hl
  rw [← redCost_eq_colRed (removed_dual hs hp ho h hsol hst hrem (kind := .mip) (targets := targets) (y := y) (l := l))]
  refine C48_mip_exact (hok l hl) rfl (hr l hl) (by rw [hcl hst, List.length_append]) (hu l hl) (hans l hl).1 (hans l hl).2 (hnone l hl) ?_ (hτ l hl) ?_
  · refine ⟨⟨hl, (treePath_wf σ hl).nodes, (treePath_wf σ hl).splits⟩, rfl, ?_⟩
    intro q hq
    obtain ⟨k, hk, rfl⟩ := (treePath_pairs σ d l q).1 hq
    exact hσ _ (anc_lt hl hk)
  · exact le_of_eq rfl

/-- **C70** for `DTreeSubProblemSat`, whose objective is rounded: the bound grows by the rounding error of at most `N` terms for every leaf. -/
theorem C70_sat {d : ℕ} {c : Conf} {o : Oracle} {paths : List Path} {splits : List Split} {dataRows : Option (List Row)}
    (hs : Setup d c splits dataRows) (hp : ∀ p ∈ paths, GoodPath d splits p) (ho : CutSound o) {s s' : MS}
    (h : Reached d c o paths splits dataRows s) {D : Duals} (hsol : solveRmp c o s = (.ok D, s')) (hst : s'.last.status = .optimal)
    {cuts : List (List Bool)} (hc : Delivered s cuts) {tol : ℚ} (ht : 0 ≤ tol) (hte : tol ≤ 1 / 1000000) (hopt : OptimalDuals s'.m tol s'.last)
    (hrem : ∀ rows, dataRows = some rows → ∀ r, (rowAt rows r).removedFromSp = true → (rowAt rows r).removedFromMaster = true)
    {targets y : List ℕ} (hok : ∀ l < 2 ^ d, SubOk d (priceConf .sat d c splits targets y dataRows l)) {st st' : ℕ → SubSt}
    (hr : ∀ l < 2 ^ d, SubReached (priceConf .sat d c splits targets y dataRows l) (cuts ++ D.newCuts) (st l))
    {sols : ℕ → Model → List (ℕ → ℚ)} {best : ℕ → ℕ → ℚ}
    (hgen : ∀ l < 2 ^ d, (priceConf .sat d c splits targets y dataRows l).generateSat D (sols l) (st l) = (.ok [], st' l))
    (hb : ∀ l < 2 ^ d, best l ∈ sols l (st' l).m ∧ (st' l).m.Feasible (best l) ∧ ∀ a, (st' l).m.Feasible a → (st' l).m.value a ≤ (st' l).m.value (best l))
    {N : ℕ} (hN : ∀ l < 2 ^ d, numTerms d (priceConf .sat d c splits targets y dataRows l) (cuts ++ D.newCuts) ≤ N)
    {σ τ : ℕ → ℕ} (hσ : ∀ n < 2 ^ d - 1, σ n ∈ cand c.nodes n) (hτ : ∀ l < 2 ^ d, τ l ∈ targets) :
    treeHits d (priceConf .sat d c splits targets y dataRows 0) σ τ ≤
      s'.rmpObj + 2 ^ d * (1 / 1000000 + N / 100000) + (2 ^ d - 1) * tol := by
  obtain ⟨hdel, hcl⟩ := ((C68_cuts_delivered hs hp ho).2 s h cuts hc).1 D s' hsol
  have hcand : ∀ n < 2 ^ d - 1, σ n < splits.length := by
    intro n hn
    have := hσ n hn
    unfold cand at this
    rw [← hs.tree.nodes_length] at hn
    rw [List.getElem?_eq_getElem hn] at this
    exact hs.tree.cand_lt _ (List.getElem_mem hn) _ this
  have hN0 : (0 : ℚ) ≤ N / 100000 := by positivity
  refine tree_bound hs hp ho h hsol hst hdel ht (by linarith) hopt hcand ?_
  intro l hl
  rw [← redCost_eq_colRed (removed_dual hs hp ho h hsol hst hrem (kind := .sat) (targets := targets) (y := y) (l := l))]
  obtain ⟨hb1, hb2, hb3⟩ := hb l hl
  refine le_trans (C48_rounding (hok l hl) rfl (hr l hl) (by rw [hcl hst]) (hgen l hl) hb1 hb2 hb3 ?_ (hτ l hl) ?_) ?_
  · refine ⟨⟨hl, (treePath_wf σ hl).nodes, (treePath_wf σ hl).splits⟩, rfl, ?_⟩
    intro q hq
    obtain ⟨k, hk, rfl⟩ := (treePath_pairs σ d l q).1 hq
    exact hσ _ (anc_lt hl hk)
  · exact le_of_eq rfl
  · have : (numTerms d (priceConf .sat d c splits targets y dataRows l) (cuts ++ D.newCuts) : ℚ) ≤ N := by exact_mod_cast hN l hl
    have : (numTerms d (priceConf .sat d c splits targets y dataRows l) (cuts ++ D.newCuts) : ℚ) / 100000 ≤ N / 100000 := by
      apply div_le_div_of_nonneg_right this; norm_num
    linarith

/-- The weighted hits of a path are at most its rows, counted without weights, if all weights are 1. -/
theorem hitsOf_eq_countOf {d : ℕ} {c : SubConf} (hw : ∀ i, Kept c i → rowWeight c i = 1) (p : Path) (t : ℤ) : hitsOf d c p t = countOf d c p t := by
  classical
  unfold hitsOf countOf keptSum
  refine congrArg List.sum (List.map_congr_left ?_)
  intro i _
  by_cases h : Kept c i ∧ Follows d (rowPat c i) p ∧ ((c.y.getD i 0 : ℕ) : ℤ) = t
  · rw [if_pos h, if_pos h, hw i h.1]
  · rw [if_neg h, if_neg h]

/-- **C70** for `DTreeSubProblemOld`, with one pricing problem for every leaf and class, when no kept row has a weight other than 1. -/
theorem C70_old {d : ℕ} {c : Conf} {o : Oracle} {paths : List Path} {splits : List Split} {dataRows : Option (List Row)}
    (hs : Setup d c splits dataRows) (hp : ∀ p ∈ paths, GoodPath d splits p) (ho : CutSound o) {s s' : MS}
    (h : Reached d c o paths splits dataRows s) {D : Duals} (hsol : solveRmp c o s = (.ok D, s')) (hst : s'.last.status = .optimal)
    {cuts : List (List Bool)} (hc : Delivered s cuts) {tol : ℚ} (ht : 0 ≤ tol) (hte : tol ≤ 1 / 1000000) (hopt : OptimalDuals s'.m tol s'.last)
    (hrem : ∀ rows, dataRows = some rows → ∀ r, (rowAt rows r).removedFromSp = true → (rowAt rows r).removedFromMaster = true)
    {targets y : List ℕ} (hok : ∀ l < 2 ^ d, ∀ t ∈ targets, SubOk d (priceConf (.old t) d c splits targets y dataRows l))
    {st st' : ℕ → ℕ → SubSt} {ans : ℕ → ℕ → Answer}
    (hw : ∀ i, Kept (priceConf .mip d c splits targets y dataRows 0) i → rowWeight (priceConf .mip d c splits targets y dataRows 0) i = 1)
    (hr : ∀ l < 2 ^ d, ∀ t ∈ targets, SubReached (priceConf (.old t) d c splits targets y dataRows l) cuts (st l t))
    (hu : ∀ l < 2 ^ d, ∀ t ∈ targets, (priceConf (.old t) d c splits targets y dataRows l).update D (st l t) = (.ok (), st' l t))
    (hans : ∀ l < 2 ^ d, ∀ t ∈ targets, (ans l t).status = .optimal ∧ IsOptimal (st' l t).m (ans l t))
    (hnone : ∀ l < 2 ^ d, ∀ t ∈ targets, (priceConf (.old t) d c splits targets y dataRows l).generateMip (st' l t) (ans l t) = [])
    {σ τ : ℕ → ℕ} (hσ : ∀ n < 2 ^ d - 1, σ n ∈ cand c.nodes n) (hτ : ∀ l < 2 ^ d, τ l ∈ targets) :
    treeHits d (priceConf .mip d c splits targets y dataRows 0) σ τ ≤ s'.rmpObj + 2 ^ d * (1 / 1000000) + (2 ^ d - 1) * tol := by
  obtain ⟨hdel, hcl⟩ := ((C68_cuts_delivered hs hp ho).2 s h cuts hc).1 D s' hsol
  have hcand : ∀ n < 2 ^ d - 1, σ n < splits.length := by
    intro n hn
    have := hσ n hn
    unfold cand at this
    rw [← hs.tree.nodes_length] at hn
    rw [List.getElem?_eq_getElem hn] at this
    exact hs.tree.cand_lt _ (List.getElem_mem hn) _ this
  refine tree_bound hs hp ho h hsol hst hdel ht hte hopt hcand ?_
  intro l hl
  have htl := hτ l hl
  rw [← redCost_eq_colRed (removed_dual hs hp ho h hsol hst hrem (kind := .old (τ l)) (targets := targets) (y := y) (l := l))]
  refine C48_old_exact (hok l hl _ htl) rfl (hr l hl _ htl) (by rw [hcl hst, List.length_append]) (hu l hl _ htl) (hans l hl _ htl).1
    (hans l hl _ htl).2 (hnone l hl _ htl) ?_ htl ?_
  · refine ⟨⟨hl, (treePath_wf σ hl).nodes, (treePath_wf σ hl).splits⟩, rfl, ?_⟩
    intro q hq
    obtain ⟨k, hk, rfl⟩ := (treePath_pairs σ d l q).1 hq
    exact hσ _ (anc_lt hl hk)
  · exact le_of_eq (hitsOf_eq_countOf hw _ _)

end Verif.DTree
