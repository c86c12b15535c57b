import Verif.DTree.StrictLemmas

/-!
# Lemmas: the plug-ins with and without checked accesses agree during `fit`
-/

set_option linter.unusedSectionVars false
set_option linter.unusedSimpArgs false

namespace Verif.DTree

open MP Spec
open Fit.Spec
open Verif.Fit (Ev Guided Agree)

variable {Ω : Type} {d : ℕ} {A : Args} {X : List (List ℚ)} {py : List ℕ} {o : FitOracle Ω} {tol : ℚ}

theorem dataLen (hf : FitOk d A X py) : (A.dataRows.map List.length).getD X.length = X.length := by
  cases hd : A.dataRows with
  | none => rfl
  | some rows => exact (hf.setup.rows rows hd).1

/-! ## The heuristic -/

theorem heurReads_safe (hf : FitOk d A X py) (hi : InRange A X py) {sp : List Split} (hs : Same sp A.splits) : Safe (heurReads (A.heurConf X py) sp) := by
  have hT := hf.setup.tree
  unfold heurReads
  refine .append (.append (.map fun leaf hl => atIndex_ok ?_) (nodeReads_safe hT)) (.flatMap fun leaf hl => .flatMap fun n hn => .flatMap fun t ht => ?_)
  · have h1 := (leaf_cases hT hl).1
    have h2 : (A.heurConf X py).leaves = fullLeaves d := hT.leaves
    rw [h2, full_length]
    exact h1
  · obtain ⟨k, hk, rfl, -, -, hc, hlt⟩ := (leaf_cases hT hl).2 n hn
    have ht' : t < sp.length := by
      have h2 : (nodeAt (A.heurConf X py).nodes (anc d leaf.id k)).candidateSplits = cand (A.masterConf X).nodes (anc d leaf.id k) := hc
      rw [h2] at ht
      rw [hs.length]
      exact hlt t ht
    refine .cons (atIndex_ok ht') (.flatMap fun r hr => ?_)
    have hr' : r < X.length := by
      obtain ⟨h1, h2⟩ := (hs.filled hf.setup.filled) _ (splitAt_mem ht') r
      rcases List.mem_append.1 hr with hr | hr
      · exact (h1.1 hr).1
      · exact (h2.1 hr).1
    refine .cons (atIndex_ok hr') (.cons (atIndex_ok ?_) (.cons (atIndex_ok ?_) .nil))
    · have : (A.heurConf X py).y.length = X.length := hi.labels
      omega
    · have : ((A.heurConf X py).dataRows.map List.length).getD (A.heurConf X py).X.length = X.length := dataLen hf
      omega

theorem heurUpdateReads_safe {D : Duals} {sp : List Split} (hid : ∀ i (s : Split), sp[i]? = some s → s.id = i)
    (hD : ∀ row ∈ D.newCuts, row.length = sp.length) : Safe (heurUpdateReads D sp) := by
  refine .flatMap fun row hr => .map fun s hs => atIndex_ok ?_
  obtain ⟨i, hi⟩ := List.getElem?_of_mem hs
  rw [hid i s hi, hD row hr]
  exact (List.getElem?_eq_some_iff.1 hi).1

/-! ## The exact pricing problems -/

section
variable {c : SubConf} {D : Duals} {cuts : List (List Bool)} {st : SubSt}

/-- What the duals and the data provide for a pricing problem. -/
structure ArgOk (d : ℕ) (c : SubConf) (D : Duals) : Prop where
  ok : SubOk d c
  data : (c.dataRows.map List.length).getD c.X.length = c.X.length
  row : D.row.length = c.X.length
  y : c.y.length = c.X.length
  cand : ∀ n ∈ c.leafNodes, n < c.nodes.length ∧ ∀ s ∈ c.cands n, (D.ns c.leaf.id n s).isSome = true ∧ s < c.splits.length
  feat : ∀ row ∈ c.X, ∀ sp ∈ c.splits, sp.feature < row.length

theorem argReads_safe (h : ArgOk d c D) : Safe (c.argReads D) := by
  unfold SubConf.argReads
  refine .append (.append (.flatMap fun i hi => ?_) (.map fun n hn => atIndex_ok (h.cand n hn).1)) (.flatMap fun n hn => .flatMap fun s hs => ?_)
  · have hi := List.mem_range.1 hi
    refine .cons (atIndex_ok ?_) (.cons (atIndex_ok ?_) (.cons (atIndex_ok ?_) (.cons (atIndex_ok (h.ok.y_lt i hi)) .nil)))
    · rw [h.data]; exact hi
    · rw [h.row]; exact hi
    · rw [h.y]; exact hi
  · obtain ⟨h1, h2⟩ := (h.cand n hn).2 s hs
    exact .cons h1 (.cons (atIndex_ok h2) (.map fun row hr => atIndex_ok (h.feat row hr _ (splitAt_mem h2))))

variable {nv : ℕ} {own : List SV} {lins : List Lin}

theorem SubInv.isSome (hi : SubInv c nv cuts own lins st) {v : SV} (hv : v ∈ c.allVars nv) : (st.var v).isSome = true := by
  obtain ⟨i, h⟩ := List.getElem?_of_mem (hi.vars.mem_iff.2 hv)
  rw [(hi.rep.idx v i).2 h]; rfl

theorem uReads_safe (hi : SubInv c nv cuts own lins st) : Safe (c.leafNodes.flatMap (fun n => (c.cands n).map (fun s => atKey (st.var (.u n s))))) :=
  .flatMap fun n hn => .map fun s hs => hi.isSome ((mem_allVars _ _ _).2 (Or.inr (Or.inr (Or.inl ((mem_splitVars _ _).2 ⟨n, hn, s, hs, rfl⟩)))))

theorem varReads_safe (hi : SubInv c nv cuts own lins st) {k : ℕ} (hk : k ≤ nv) : Safe (c.varReads k st) := by
  unfold SubConf.varReads
  refine .append (.append (.flatMap fun i hm => ?_) (.map fun j hj => ?_)) (uReads_safe hi)
  · have hkept := (mem_kept c i).1 hm
    have hy : (st.var (.y i)).isSome = true := hi.isSome ((mem_allVars _ _ _).2 (Or.inl ((mem_rowVars _ _).2 (Or.inl ⟨i, hkept, rfl⟩))))
    by_cases ho : c.isOld = true
    · rw [if_pos ho]; exact .cons hy .nil
    · rw [if_neg ho]
      refine .cons ?_ (.cons hy .nil)
      exact hi.isSome ((mem_allVars _ _ _).2 (Or.inl ((mem_rowVars _ _).2 (Or.inr ⟨by simpa using ho, i, hkept, rfl⟩))))
  · exact hi.isSome ((mem_allVars _ _ _).2 (Or.inr (Or.inl ⟨j, lt_of_lt_of_le (List.mem_range.1 hj) hk, rfl⟩)))

theorem targetReads_safe (h : SubOk d c) (hi : SubInv c nv cuts own lins st) : Safe (c.targetReads st) := by
  unfold SubConf.targetReads
  by_cases ho : c.isOld = true
  · rw [if_pos ho]; exact .nil
  · rw [if_neg ho]
    refine .map fun t ht => hi.isSome ((mem_allVars _ _ _).2 (Or.inr (Or.inr (Or.inr ⟨by simpa using ho, t, ?_, rfl⟩))))
    exact List.mem_range.1 (h.targets.mem_iff.1 ht)

theorem refreshS_eq (h : ArgOk d c D) (hs : SubState c cuts st) : c.refreshS D st = c.refresh D st := by
  refine guardedE_safe (.append (argReads_safe h) ?_) _
  rcases hs with ⟨rfl, -⟩ | ⟨own, lins, hi⟩
  · exact .nil
  · rw [if_pos hi.gen]
    exact varReads_safe hi hi.ncuts.le

theorem updateS_eq (h : ArgOk d c D) (hs : SubState c cuts st) (hD : D.cut.length = cuts.length + D.newCuts.length)
    (hrow : ∀ row ∈ D.newCuts, row.length = c.splits.length) : c.updateS D st = c.update D st := by
  unfold SubConf.updateS SubConf.update
  by_cases hc : c.kind = .sat ∧ D.newCuts.length = 0
  · rw [if_pos hc, if_pos hc]
  · rw [if_neg hc, if_neg hc, refreshS_eq h hs]
    rcases hrf : c.refresh D st with e | st1
    · rfl
    · simp only
      obtain ⟨-, own, lins, hi, -⟩ := refresh_inv h.ok hs (by omega) hrf
      by_cases hn : D.newCuts.length > 0
      · rw [if_pos hn, if_pos hn, guarded_safe]
        unfold SubConf.cutReads
        refine .append (.append (.map fun i hm => ?_) (.flatMap fun row hr => .flatMap fun n hm => .map fun s hs => atIndex_ok ?_)) (uReads_safe hi)
        · have := List.mem_range.1 hm
          exact hi.isSome ((mem_allVars _ _ _).2 (Or.inr (Or.inl ⟨_, by rw [hi.start]; omega, rfl⟩)))
        · rw [hrow row hr]
          exact ((h.cand n hm).2 s hs).2
      · rw [if_neg hn, if_neg hn]

theorem generateSatS_eq (h : ArgOk d c D) (hs : SubState c cuts st) (hD : D.cut.length = cuts.length) (sols : Model → List (ℕ → ℚ)) :
    c.generateSatS D sols st = c.generateSat D sols st := by
  unfold SubConf.generateSatS SubConf.generateSat
  rw [refreshS_eq h hs]
  rcases hrf : c.refresh D st with e | st1
  · rfl
  · simp only
    obtain ⟨-, own, lins, hi, -⟩ := refresh_inv h.ok hs (by omega) hrf
    rw [guarded_safe]
    refine .append (.append (varReads_safe hi hi.ncuts.le) (targetReads_safe h.ok hi)) (.cons ?_ .nil)
    simp [hi.ncuts]

theorem generateMipReads_safe (h : ArgOk d c D) (hi : SubInv c nv cuts own lins st) : Safe (c.generateMipReads st) := by
  unfold SubConf.generateMipReads
  refine .append (.append (varReads_safe hi (Nat.zero_le _)) (.flatMap fun i hm => ?_)) (.map fun n hn => atIndex_ok (h.cand n hn).1)
  have hm := List.mem_range.1 hm
  refine .cons (atIndex_ok ?_) (.cons (atIndex_ok ?_) .nil)
  · rw [h.data]; exact hm
  · rw [h.y]; exact hm

end

theorem Snap.argOk {s s' : MS} {D : Duals} {old : List (List Bool)} (h : Snap d A X o tol s s' D old) (hf : FitOk d A X py)
    (hc : FitContract d A X o tol) (hi : InRange A X py) {c : SubConf} (hm : c ∈ A.subConfs X py) : ArgOk d c D := by
  obtain ⟨hok, l, hl, hcl, -⟩ := subConfs_mem hf hm
  obtain ⟨-, h2, h3⟩ := h.duals hf hc
  have hid : c.leaf.id = l := by rw [hcl]; rfl
  have eX : c.X = X := by rw [hcl]; rfl
  have ey : c.y = py := by rw [hcl]; rfl
  have en : c.nodes = A.nodes := by rw [hcl]; rfl
  have es : c.splits = A.splits := by rw [hcl]; rfl
  have ed : c.dataRows = A.dataRows := by rw [hcl]; rfl
  refine ⟨hok, by rw [ed, eX]; exact dataLen hf, by rw [eX]; exact h2, by rw [ey, eX]; exact hi.labels, ?_, by rw [eX, es]; exact hi.feat⟩
  intro n hn
  obtain ⟨k, hk, rfl⟩ := (hok.mem_leafNodes n).1 hn
  rw [hid] at hn ⊢
  have hT := hf.setup.tree
  have hleaf : createLeaf l d ∈ (A.masterConf X).leaves := by rw [hT.leaves]; exact mem_fullLeaves.2 ⟨l, hl, rfl⟩
  obtain ⟨k', hk', -, hlt, -, hcand, hsp⟩ := (leaf_cases hT hleaf).2 (anc d l k) ((mem_leafNodes hl _).2 ⟨k, hk, rfl⟩)
  refine ⟨by rw [en]; exact hlt, ?_⟩
  intro t ht
  have ht' : t ∈ cand A.nodes (anc d l k) := by
    unfold SubConf.cands at ht
    rw [en] at ht
    have hcand : (nodeAt A.nodes (anc d l k)).candidateSplits = cand A.nodes (anc d l k) := hcand
    rw [← hcand]
    exact ht
  exact ⟨h3 l hl k hk t ht', by rw [es]; exact hsp t ht'⟩

theorem Snap.rows {s s' : MS} {D : Duals} {old : List (List Bool)} (h : Snap d A X o tol s s' D old) (hf : FitOk d A X py)
    (hc : FitContract d A X o tol) : ∀ row ∈ D.newCuts, row.length = A.splits.length := by
  obtain ⟨cuts0, own0, cd0, hi0⟩ := reached_inv hf.setup (marked_good hf) hc.cut h.reached
  exact solveRmp_rows hf.setup hc.cut hi0 h.sol

/-! ## The plug-ins -/

variable {tr : DTrace} {old new : List (List Bool)} {w : World Ω} {maxIt : ℤ} {limit : ℚ}

theorem updateAtS_eq (hf : FitOk d A X py) (hc : FitContract d A X o tol) (hi : InRange A X py) {l i : ℕ} {D : Duals} (hy : w.y = py)
    (h : Mid d A X py o tol w.master w.numCuts w.subs tr old new)
    (ha : Allowed (config A maxIt limit) tr (.update l i D (updateAt A X l i D w).1)) : updateAtS A X l i D w = updateAt A X l i D w := by
  obtain ⟨hm, hn⟩ := upd_pos ha
  obtain ⟨D', s, s', cols, hD, hsnap, hnew, -, -, -⟩ := h.snap _ ha.1
  cases hD
  have hrows := hsnap.rows hf hc
  obtain ⟨cuts0, own0, cd0, hi0⟩ := reached_inv hf.setup (marked_good hf) hc.cut h.reached
  rcases pos_cases hm X py with ⟨rfl, rfl⟩ | ⟨rfl, c, hci⟩
  · unfold updateAtS updateAt
    rw [if_pos rfl, if_pos rfl, guarded_safe]
    exact heurUpdateReads_safe (hi0.same.id hf.setup.tree.split_id) (by rw [hi0.same.length]; exact hrows)
  · have hsub : SubReached c old (w.subs i) := by
      have := h.subs i c hci
      unfold recv at this
      rwa [if_neg hn] at this
    have hok := hsnap.argOk hf hc hi (List.mem_of_getElem? hci)
    have es : c.splits = A.splits := by
      obtain ⟨-, l, -, hcl, -⟩ := subConfs_mem hf (List.mem_of_getElem? hci)
      rw [hcl]; rfl
    unfold updateAtS updateAt
    rw [if_neg one_ne_zero, if_neg one_ne_zero, hy, hci]
    simp only
    rw [updateS_eq hok (hsub.state hok.ok) (by rw [hsnap.cutlen hf hc, List.length_append]) (by rw [es]; exact hrows)]

theorem generateAtS_eq (hf : FitOk d A X py) (hc : FitContract d A X o tol) (hi : InRange A X py) {l i : ℕ} {D : Duals} (hy : w.y = py)
    (h : Mid d A X py o tol w.master w.numCuts w.subs tr old new)
    (ha : Allowed (config A maxIt limit) tr (.generate l i D (generateAt o A X l i D w).1)) : generateAtS o A X l i D w = generateAt o A X l i D w := by
  have hm : (l, i) ∈ allPositions (config A maxIt limit).shape := ha.2.2.1.subset (by simp)
  obtain ⟨D', s, s', cols, hD, hsnap, hnew, -, -, -⟩ := h.snap _ ha.1
  cases hD
  obtain ⟨cuts0, own0, cd0, hi0⟩ := reached_inv hf.setup (marked_good hf) hc.cut h.reached
  rcases pos_cases hm X py with ⟨rfl, rfl⟩ | ⟨rfl, c, hci⟩
  · unfold generateAtS generateAt
    rw [if_pos rfl, if_pos rfl, hy]
    simp only
    rw [guarded_safe (heurReads_safe hf hi hi0.same)]
  · have hpos : recv tr old new (1, i) = old ++ new := by
      unfold recv
      rw [ha.2.1, if_pos hm]
    have hsub := h.subs i c hci
    rw [hpos] at hsub
    have hok := hsnap.argOk hf hc hi (List.mem_of_getElem? hci)
    unfold generateAtS generateAt
    rw [if_neg one_ne_zero, if_neg one_ne_zero, hy, hci]
    simp only
    unfold priceAtS priceAt
    by_cases hk : c.isOld = true
    · rw [if_pos hk, if_pos hk]
      obtain ⟨st, hst, hu⟩ := h.upd i c hci hk (by rw [ha.2.1]; exact hm) D ha.1
      have hns : c.kind ≠ .sat := by
        intro he
        unfold SubConf.isOld at hk
        rw [he] at hk
        simp at hk
      obtain ⟨-, own, lins, hinv, -⟩ := (update_inv hok.ok (hst.state hok.ok) (by rw [hsnap.cutlen hf hc, List.length_append]) hu).2 hns
      rw [guarded_safe (generateMipReads_safe hok hinv)]
    · rw [if_neg hk, if_neg hk]
      simp only
      rw [← hnew] at hsub
      rw [generateSatS_eq hok (hsub.state hok.ok) (hsnap.cutlen hf hc)]

/-- The plug-ins agree in every state that `fit` can get to. -/
theorem envS_agree (hf : FitOk d A X py) (hc : FitContract d A X o tol) (hi : InRange A X py) (maxIt : ℤ) (limit : ℚ) :
    Agree (env o A X) (envS o A X) (config A maxIt limit) py (FitInv d A X py o tol) where
  clock := rfl
  flag := rfl
  clear := rfl
  generateMp w t h := by
    have key : generateMpS (A.masterConf X) w.master = generateMp (A.masterConf X) w.master := by
      rcases h with ⟨a, b, c, -⟩ | ⟨⟨cuts, h⟩, -⟩ | ⟨-, old, new, h⟩
      · rw [a]
        exact generateMpS_init hf.setup (marked_good hf) hi.rows hi.feat
      · obtain ⟨cuts0, own0, cd0, hi0⟩ := reached_inv hf.setup (marked_good hf) hc.cut h.reached
        unfold generateMpS generateMp
        rw [if_pos hi0.gen, if_pos hi0.gen]
      · obtain ⟨cuts0, own0, cd0, hi0⟩ := reached_inv hf.setup (marked_good hf) hc.cut h.reached
        unfold generateMpS generateMp
        rw [if_pos hi0.gen, if_pos hi0.gen]
    change ((generateMpS (A.masterConf X) w.master).1, ({ w with
      master := (generateMpS (A.masterConf X) w.master).2
      y := py } : World Ω)) = _
    rw [key]
    rfl
  solveRmp w tr hp ha h := by
    obtain ⟨hy, old, new, h⟩ := fitInv_mid h (by obtain ⟨y, hy⟩ := ha.1; exact ⟨y, _, hy⟩)
    obtain ⟨cuts0, own0, cd0, hi0⟩ := reached_inv hf.setup (marked_good hf) hc.cut h.reached
    change ((solveRmpS (A.masterConf X) o.master w.master).1, ({ w with master := (solveRmpS (A.masterConf X) o.master w.master).2 } : World Ω)) = _
    rw [solveRmpS_eq hf.setup hc.cut hi0]
    rfl
  improved w tr hp ha h := rfl
  update w tr l i D hp ha h := by
    obtain ⟨hy, old, new, h⟩ := fitInv_mid h (gen_of_lastDuals hp ha.1)
    exact updateAtS_eq hf hc hi hy h ha
  generate w tr l i D hp ha h := by
    obtain ⟨hy, old, new, h⟩ := fitInv_mid h (gen_of_lastDuals hp ha.1)
    exact generateAtS_eq hf hc hi hy h ha
  add w tr l i p hp ha h := by
    obtain ⟨⟨cols, hlast, hpre⟩, -⟩ := ha
    obtain ⟨D, hg⟩ := Fit.mem_of_genRes hlast
    have hm : ∃ y r, Ev.generateMp y r ∈ tr := by
      obtain ⟨pre, post, he⟩ := List.append_of_mem (Fit.since_subset _ _ _ hg)
      obtain ⟨y, hy⟩ := Fit.generateMp_of_rmp hp (by rw [he]; exact List.mem_append_left _ (Fit.rmp_of_lastDuals (hp pre _ post he).1))
      exact ⟨y, _, hy⟩
    obtain ⟨hy, old, new, h⟩ := fitInv_mid h hm
    obtain ⟨hlD, cols', hcc, hok, -⟩ := h.gens _ _ _ _ hg
    cases hcc
    obtain ⟨hcol, -⟩ := hok p (hpre.subset (by simp))
    obtain ⟨cuts0, own0, cd0, hi0⟩ := reached_inv hf.setup (marked_good hf) hc.cut h.reached
    change ((addColumnS (A.masterConf X) p w.master).1, ({ w with master := (addColumnS (A.masterConf X) p w.master).2 } : World Ω)) = _
    rw [addColumnS_eq hf.setup hi0 hcol.good]
    rfl
  solveIp w tr hp ha h := by
    have key : solveIpS o.master w.master = solveIp o.master w.master := by
      rcases h with ⟨a, b, c, -⟩ | ⟨⟨cuts, h⟩, -⟩ | ⟨-, old, new, h⟩
      · rw [a]; rfl
      · obtain ⟨cuts0, own0, cd0, hi0⟩ := reached_inv hf.setup (marked_good hf) hc.cut h.reached
        exact solveIpS_eq hi0 _
      · obtain ⟨cuts0, own0, cd0, hi0⟩ := reached_inv hf.setup (marked_good hf) hc.cut h.reached
        exact solveIpS_eq hi0 _
    change ((solveIpS o.master w.master).1, ({ w with master := (solveIpS o.master w.master).2 } : World Ω)) = _
    rw [key]
    rfl

end Verif.DTree
