import Verif.DTree.Strict
import Verif.DTree.FitInv
import Verif.Fit.Prog

/-!
# Lemmas: no access of the decision tree plug-ins fails
-/

set_option linter.unusedSectionVars false
set_option linter.unusedSimpArgs false

namespace Verif.DTree

open MP Spec

/-- What validated inputs (`check_X_y` in `fit`) satisfy: there are rows, every split asks for a feature of the data, one label per row. -/
structure Spec.InRange (A : Args) (X : List (List ℚ)) (py : List ℕ) : Prop where
  rows : X ≠ []
  feat : ∀ row ∈ X, ∀ sp ∈ A.splits, sp.feature < row.length
  labels : py.length = X.length

/-- All accesses succeed. -/
def Safe (l : Reads) : Prop := ∀ r ∈ l, r.1 = true

theorem firstFault_safe : ∀ {l : Reads}, Safe l → firstFault l = none
  | [], _ => rfl
  | (true, _) :: rs, h => firstFault_safe (l := rs) (fun r hr => h r (List.mem_cons_of_mem _ hr))
  | (false, e) :: rs, h => by have := h (false, e) (List.mem_cons_self ..); simp at this

theorem guarded_safe {α σ : Type} {l : Reads} (h : Safe l) (s : σ) (r : Except Err α × σ) : guarded l s r = r := by
  unfold guarded; rw [firstFault_safe h]

theorem guardedE_safe {α : Type} {l : Reads} (h : Safe l) (r : Except Err α) : guardedE l r = r := by
  unfold guardedE; rw [firstFault_safe h]

theorem Safe.nil : Safe [] := fun _ h => by cases h

theorem Safe.append {l l' : Reads} (h : Safe l) (h' : Safe l') : Safe (l ++ l') := fun r hr => by
  rcases List.mem_append.1 hr with hr | hr
  · exact h r hr
  · exact h' r hr

theorem Safe.cons {a : Bool × Err} {l : Reads} (h : a.1 = true) (h' : Safe l) : Safe (a :: l) := fun r hr => by
  rcases List.mem_cons.1 hr with rfl | hr
  · exact h
  · exact h' r hr

theorem Safe.map {α : Type} {l : List α} {f : α → Bool × Err} (h : ∀ x ∈ l, (f x).1 = true) : Safe (l.map f) := fun r hr => by
  obtain ⟨x, hx, rfl⟩ := List.mem_map.1 hr
  exact h x hx

theorem Safe.flatMap {α : Type} {l : List α} {f : α → Reads} (h : ∀ x ∈ l, Safe (f x)) : Safe (l.flatMap f) := fun r hr => by
  obtain ⟨x, hx, hr⟩ := List.mem_flatMap.1 hr
  exact h x hx r hr

theorem atIndex_ok {i n : ℕ} (h : i < n) : (atIndex i n).1 = true := decide_eq_true h

section
variable {d : ℕ} {leaves : List Leaf} {nodes : List Node} {splits : List Split}

theorem full_length (d : ℕ) : (fullLeaves d).length = 2 ^ d := by simp [fullLeaves]

theorem splitAt_mem {splits : List Split} {s : ℕ} (h : s < splits.length) : splitAt splits s ∈ splits := by
  unfold splitAt
  rw [List.getD_eq_getElem?_getD, List.getElem?_eq_getElem h]
  exact List.getElem_mem _

theorem pair_lt {p : Path} (h : GoodPath d splits p) {q : ℕ × ℕ} (hq : q ∈ p.pairs) : q.2 < splits.length :=
  h.2 _ (List.of_mem_zip (a := q.1) (b := q.2) hq).2

theorem pathReads_safe (hl : leaves = fullLeaves d) {p : Path} (h : GoodPath d splits p) {n : ℕ} (hn : n = splits.length) :
    Safe (pathReads leaves n p) := by
  refine .cons (atIndex_ok ?_) (.cons ?_ (.map fun q hq => atIndex_ok (by rw [hn]; exact pair_lt h hq)))
  · rw [hl, full_length]; exact h.1.leaf_lt
  · have := h.1.nodes.length_eq
    have := h.1.splits
    simp at *
    omega

theorem featReads_safe {p : Path} (h : GoodPath d splits p) {row : List ℚ} (hf : ∀ sp ∈ splits, sp.feature < row.length) :
    Safe (featReads splits row p) := .map fun _ hq => atIndex_ok (hf _ (splitAt_mem (pair_lt h hq)))

theorem leaf_cases (hT : Tree d leaves nodes splits) {leaf : Leaf} (h : leaf ∈ leaves) :
    leaf.id < 2 ^ d ∧ ∀ n ∈ leaf.leftNodes ++ leaf.rightNodes, ∃ k < d, n = anc d leaf.id k ∧ n < nodes.length ∧ (nodeAt nodes n).id = n ∧
      (nodeAt nodes n).candidateSplits = cand nodes n ∧ ∀ s ∈ cand nodes n, s < splits.length := by
  rw [hT.leaves] at h
  obtain ⟨l, hl, rfl⟩ := mem_fullLeaves.1 h
  have hid : (createLeaf l d).id = l := rfl
  rw [hid]
  refine ⟨hl, ?_⟩
  intro n hn
  obtain ⟨k, hk, rfl⟩ := (mem_leafNodes hl n).1 hn
  have hlt : anc d l k < nodes.length := by rw [hT.nodes_length]; exact anc_lt hl hk
  have hget := List.getElem?_eq_getElem hlt
  have hat : nodeAt nodes (anc d l k) = nodes[anc d l k] := by unfold nodeAt; rw [List.getD_eq_getElem?_getD, hget]; rfl
  have hc : cand nodes (anc d l k) = nodes[anc d l k].candidateSplits := by unfold cand; rw [hget]; rfl
  refine ⟨k, hk, rfl, hlt, ?_, ?_, ?_⟩
  · rw [hat]; exact hT.node_id _ _ hget
  · rw [hat, hc]
  · rw [hc]; exact hT.cand_lt _ (List.getElem_mem _)

theorem nodeReads_safe (hT : Tree d leaves nodes splits) : Safe (nodeReads leaves nodes) :=
  .flatMap fun leaf hl => .map fun n hn => by
    obtain ⟨k, _, _, hlt, _⟩ := (leaf_cases hT hl).2 n hn
    exact atIndex_ok hlt

theorem nsReads_safe {α : Type} (hT : Tree d leaves nodes splits) {ns : ℕ → ℕ → ℕ → Option α}
    (h : ∀ l < 2 ^ d, ∀ k < d, ∀ t ∈ cand nodes (anc d l k), (ns l (anc d l k) t).isSome = true) : Safe (nsReads leaves nodes ns) :=
  .flatMap fun leaf hl => .flatMap fun n hn => .map fun s hs => by
    obtain ⟨h1, h2⟩ := leaf_cases hT hl
    obtain ⟨k, hk, rfl, _, hid, hc, _⟩ := h2 n hn
    rw [hid]
    rw [hc] at hs
    exact h _ h1 k hk s hs

end

/-! ## The master problem -/

section
variable {d : ℕ} {c : Conf} {splits : List Split} {dataRows : Option (List Row)} {cuts : List (List Bool)} {own : List Own} {cd : List CD} {s : MS}

theorem generateMpS_init {paths : List Path} (hs : Setup d c splits dataRows) (hp : ∀ p ∈ paths, GoodPath d splits p) (hX : c.X ≠ [])
    (hf : ∀ row ∈ c.X, ∀ sp ∈ splits, sp.feature < row.length) :
    generateMpS c (MS.init paths splits dataRows) = generateMp c (MS.init paths splits dataRows) := by
  unfold generateMpS
  rw [if_neg (by simp [MS.init])]
  refine guarded_safe ?_ _ _
  unfold generateReads
  refine .append (.append (.append (.append (.append ?_ ?_) ?_) ?_) ?_) (nodeReads_safe hs.tree)
  · exact .flatMap fun p h => pathReads_safe hs.tree.leaves (hp p h) rfl
  · refine .map fun leaf hl => atIndex_ok ?_
    have := (leaf_cases hs.tree hl).1
    rw [hs.tree.leaves, full_length]
    exact this
  · unfold dataReads
    cases hd : dataRows with
    | none =>
      refine .append (.cons ?_ (.flatMap fun row hr => .map fun sp hsp => atIndex_ok (hf row hr sp hsp))) (.cons ?_ .nil)
      · rw [hs.tree.leaves, full_length]
        simp
      · simpa using hX
    | some rows =>
      refine .cons ?_ .nil
      have := (hs.rows rows hd).1
      simp [this]
  · exact .flatMap fun row hr => .flatMap fun p h => featReads_safe (hp p h) (hf row hr)
  · unfold rowLoopReads
    cases hd : dataRows with
    | none => exact .nil
    | some rows =>
      have := (hs.rows rows hd).1
      simp only [MS.init]
      split
      · exact .nil
      · exact .cons (by simp [this]) .nil

theorem Inv.leafSome (h : Inv d c splits cuts own cd s) {l : ℕ} (hl : l < 2 ^ d) : (s.leafCons l).isSome = true := by
  obtain ⟨i, hi⟩ := List.getElem?_of_mem ((h.leafmem l).2 hl)
  rw [(h.leafc l i).2 hi]; rfl

theorem Inv.rowSome (h : Inv d c splits cuts own cd s) {r : ℕ} (hr : r < c.X.length) (ha : s.addedRow.getD r false = true) :
    (s.rowCons r).isSome = true := by
  obtain ⟨i, hi⟩ := List.getElem?_of_mem ((h.rowmem r).2 ⟨hr, ha⟩)
  rw [(h.rowc r i).2 hi]; rfl

theorem Inv.nsSome (h : Inv d c splits cuts own cd s) {l k t : ℕ} (hl : l < 2 ^ d) (hk : k < d) (ht : t ∈ cand c.nodes (anc d l k)) :
    (s.nsCons l (anc d l k) t).isSome = true := by
  obtain ⟨i, hi⟩ := List.getElem?_of_mem ((h.nscmem l (anc d l k) t).2 ⟨hl, k, hk, rfl, ht⟩)
  rw [(h.nsc _ _ _ i).2 hi]; rfl

theorem Inv.id_lt (h : Inv d c splits cuts own cd s) {p : Path} (hp : p ∈ s.paths) : p.id < s.m.vars.length := by
  rw [h.rep.length_vars]
  exact (List.getElem?_eq_some_iff.1 ((h.pidx p.id p).2 ⟨hp, rfl⟩)).1

theorem Inv.dataLen (h : Inv d c splits cuts own cd s) : (s.dataRows.getD []).length = c.X.length := by
  obtain ⟨rows, hr, hd⟩ := h.data
  rw [hr]; exact hd.1

theorem rowReads_safe (h : Inv d c splits cuts own cd s) {r : ℕ} (hr : r < c.X.length) :
    Safe (if s.addedRow.getD r false then [notNone (s.rowCons r)] else []) := by
  split
  · rename_i ha
    exact .cons (h.rowSome hr ha) .nil
  · exact .nil

theorem addColumnS_eq (hs : Setup d c splits dataRows) (h : Inv d c splits cuts own cd s) {p : Path} (hp : GoodPath d splits p) :
    addColumnS c p s = addColumn c p s := by
  have hlen := h.same.length
  have hat : leafAt c.leaves p.leafId = createLeaf p.leafId d := by rw [hs.tree.leaves]; exact leafAt_full hp.1.leaf_lt
  refine guarded_safe ?_ _ _
  unfold addColumnReads
  refine .append (.append (.append (.append (.append (.append ?_ ?_) ?_) (nodeReads_safe hs.tree)) ?_) ?_) ?_
  · refine .map fun leaf hl => ?_
    exact h.leafSome (leaf_cases hs.tree (List.mem_filter.1 hl).1).1
  · exact pathReads_safe hs.tree.leaves hp hlen
  · cases hr : getSatisfiedRows p (leafAt c.leaves p.leafId) s.splits with
    | error e => exact .nil
    | ok rows =>
      refine .flatMap fun r hm => ?_
      have hlt : r < c.X.length := by
        have hne : p.pairs ≠ [] := by
          obtain ⟨t, ht⟩ := hp.1.exists_split hs.depth
          exact List.ne_nil_of_mem ht
        obtain ⟨S, hS, hS'⟩ := (C39_satisfied_rows (h.same.filled hs.filled) (leafAt c.leaves p.leafId) p (by rw [hlen]; exact hp.2)).2 hne
        rw [hr] at hS
        cases hS
        exact ((hS' r).1 hm).1
      refine .append (.cons (atIndex_ok ?_) (.cons (atIndex_ok ?_) .nil)) (rowReads_safe h hlt)
      · rw [h.dataLen]; exact hlt
      · rw [h.added]; omega
  · exact nsReads_safe hs.tree fun l hl k hk t ht => h.nsSome hl hk ht
  · cases hr : getSatisfiedCuts p (leafAt c.leaves p.leafId) s.splits with
    | error e => exact .nil
    | ok ks =>
      refine .map fun k hk => atIndex_ok ?_
      rw [hat] at hr
      obtain ⟨S, hS, hS'⟩ := C39_satisfied_cuts h.cutsFilled (h.same.id hs.tree.split_id) hp.1 hs.depth (by rw [hlen]; exact hp.2)
      rw [hr] at hS
      cases hS
      rw [h.cutlen]
      exact ((hS' k).1 hk).1
  · exact pathReads_safe hs.tree.leaves hp (by rw [h.cut.sv, List.length_range])

theorem storeReads_safe (h : Inv d c splits cuts own cd s) : Safe (storeReads s) := by
  refine .map fun v hv => atIndex_ok ?_
  rw [h.pvars] at hv
  obtain ⟨p, hp, rfl⟩ := List.mem_map.1 hv
  exact h.id_lt hp

theorem betaLoopS_eq {rows : List Row} {keys : List ℕ} (hk : ∀ (r : ℕ) (row : Row), rows[r]? = some row → ∀ i ∈ row.reachablePaths, i ∈ keys)
    (sol : ℕ → ℚ) : ∀ (l : List ℕ) (b : BS), (∀ r ∈ l, r < rows.length) → (∀ r ∈ l, r < b.addedRow.length) →
    betaLoopS rows keys sol l b = .ok (betaLoop rows sol l b)
  | [], _, _, _ => rfl
  | r :: rest, b, h1, h2 => by
    have hr := h1 r (List.mem_cons_self ..)
    have ha := h2 r (List.mem_cons_self ..)
    have h1' := fun x hx => h1 x (List.mem_cons_of_mem _ hx)
    have h2' := fun x hx => h2 x (List.mem_cons_of_mem _ hx)
    have hall : (rowAt rows r).reachablePaths.all (· ∈ keys) = true := by
      rw [List.all_eq_true]
      intro i hi
      have hget := List.getElem?_eq_getElem hr
      refine decide_eq_true (hk r _ hget i ?_)
      unfold rowAt at hi
      rw [List.getD_eq_getElem?_getD, hget] at hi
      exact hi
    unfold betaLoopS betaLoop
    rw [if_pos hr]
    split_ifs with e1 e2 e3 e4
    · exact betaLoopS_eq hk sol rest b h1' h2'
    · rfl
    · exact betaLoopS_eq hk sol rest b h1' h2'
    · exact betaLoopS_eq hk sol rest _ h1' (by simpa using h2')
    · exact betaLoopS_eq hk sol rest b h1' h2'

theorem betaS_eq (h : Inv d c splits cuts own cd s) : betaS c s = .ok (if c.betaAsCuts then addBetaCuts c s else (0, s)) := by
  unfold betaS
  split
  · obtain ⟨rows, hr, hd⟩ := h.data
    have hlen := h.dataLen
    unfold addBetaCutsS addBetaCuts
    rw [betaLoopS_eq]
    · intro r row hrow i hi
      rw [hr] at hrow
      obtain ⟨p, hp, rfl, -⟩ := ((hd.2 r row hrow).2 i).1 hi
      rw [h.pvars]
      exact List.mem_map.2 ⟨p, hp, rfl⟩
    · intro r hm
      rw [hlen]
      exact List.mem_range.1 hm
    · intro r hm
      have := List.mem_range.1 hm
      simp only
      rw [h.added]
      omega
  · rfl

theorem addCutsS_eq (hs : Setup d c splits dataRows) (h : Inv d c splits cuts own cd s) (o : Oracle) : addCutsS o s = .ok (addCuts o s) := by
  refine guardedE_safe ?_ _
  unfold addCutsReads
  refine .append (.append ?_ (.cons ?_ (.cons ?_ .nil))) ?_
  · refine .map fun p hp => ?_
    rw [h.pvars]
    exact decide_eq_true (List.mem_map.2 ⟨p, hp, rfl⟩)
  · rw [h.cut.pv]; simp
  · rw [h.cut.pv]; simp
  · refine .map fun sp hsp => atIndex_ok ?_
    obtain ⟨i, hi⟩ := List.getElem?_of_mem hsp
    rw [h.same.id hs.tree.split_id i sp hi, h.cut.sv, List.length_range, ← h.same.length]
    exact (List.getElem?_eq_some_iff.1 hi).1

theorem cutRoundS_eq (hs : Setup d c splits dataRows) (h : Inv d c splits cuts own cd s) (o : Oracle) : cutRoundS c o s = .ok (cutRound c o s) := by
  have h1 : Inv d c splits cuts own cd (storeLp s) := h.of_eq rfl
  unfold cutRoundS
  rw [guardedE_safe (storeReads_safe h), betaS_eq h1]
  have h2 : ∃ cd2, Inv d c splits cuts own cd2 (if c.betaAsCuts then addBetaCuts c (storeLp s) else (0, storeLp s)).2 := by
    by_cases hb : c.betaAsCuts = true
    · rw [if_pos hb]
      obtain ⟨new, k, _⟩ := inv_addBetaCuts h1
      exact ⟨_, k⟩
    · rw [if_neg hb]
      exact ⟨cd, h1⟩
  unfold cutRound
  simp only
  generalize (if c.betaAsCuts then addBetaCuts c (storeLp s) else (0, storeLp s)) = b at h2 ⊢
  obtain ⟨cd2, h2⟩ := h2
  rw [addCutsS_eq hs h2]
  by_cases hg : (c.generateCuts && b.1 == 0) = true
  · simp only [hg, if_true]
  · simp only [hg, Bool.false_eq_true, if_false]

theorem cutRoundsS_eq (hs : Setup d c splits dataRows) {o : Oracle} (ho : CutSound o) :
    ∀ (n : ℕ) (acc cuts : List (List Bool)) (cd : List CD) (s : MS), Inv d c splits cuts own cd s →
      cutRoundsS c o n acc s = .ok (cutRounds c o n acc s)
  | 0, _, _, _, _, _ => rfl
  | n + 1, acc, cuts, cd, s, h => by
    unfold cutRoundsS cutRounds
    rw [cutRoundS_eq hs h]
    simp only
    obtain ⟨cuts1, cd1, h1, -⟩ := inv_cutRound hs.tree.split_id ho h
    split_ifs
    · exact cutRoundsS_eq hs ho n _ cuts1 cd1 _ (h1.of_eq rfl)
    · rfl
    · rfl

theorem dualReads_safe (hs : Setup d c splits dataRows) (h : Inv d c splits cuts own cd s) : Safe (dualReads c s) := by
  unfold dualReads
  refine .append (.append (.append (.append (storeReads_safe h) ?_) ?_) (nodeReads_safe hs.tree)) ?_
  · refine .map fun l hl => h.leafSome ?_
    rw [hs.tree.leaves, full_length] at hl
    exact List.mem_range.1 hl
  · refine .flatMap fun r hr => .cons (atIndex_ok ?_) (rowReads_safe h (List.mem_range.1 hr))
    have := List.mem_range.1 hr
    rw [h.added]
    omega
  · exact nsReads_safe hs.tree fun l hl k hk t ht => h.nsSome hl hk ht

theorem solveRmpS_eq (hs : Setup d c splits dataRows) {o : Oracle} (ho : CutSound o) (h : Inv d c splits cuts own cd s) :
    solveRmpS c o s = solveRmp c o s := by
  unfold solveRmpS solveRmp
  rw [if_pos h.gen, if_pos h.gen]
  simp only
  obtain ⟨s1, hs1⟩ : ∃ s1, s1 = lpSolve o { s with
      prevRmpObj := s.rmpObj
      iter := s.iter + 1 } := ⟨_, rfl⟩
  rw [← hs1]
  have h1 : Inv d c splits cuts own cd s1 := by rw [hs1]; exact h.of_eq rfl
  rw [cutRoundsS_eq hs ho _ _ cuts cd s1 h1]
  by_cases hi : s1.iter % 10 = 0
  · simp only [hi, if_true]
    obtain ⟨cuts2, cd2, h2, -⟩ := inv_cutRounds hs.tree.split_id ho c.numCutsRound [] h1
    rw [guarded_safe (dualReads_safe hs h2)]
  · simp only [hi, if_false]
    rw [guarded_safe (dualReads_safe hs h1)]

theorem solveIpS_eq (h : Inv d c splits cuts own cd s) (o : Oracle) : solveIpS o s = solveIp o s := by
  refine guarded_safe ?_ _ _
  rw [if_pos h.gen]
  exact .map fun p hp => atIndex_ok (h.id_lt hp)

/-- Every cut row has an entry for every split. -/
theorem cutRound_rows (h : Inv d c splits cuts own cd s) {o : Oracle} (ho : CutSound o) :
    ∀ row ∈ (cutRound c o s).2.1, row.length = splits.length := by
  have h1 : Inv d c splits cuts own cd (storeLp s) := h.of_eq rfl
  have h2 : ∃ cd2, Inv d c splits cuts own cd2 (if c.betaAsCuts then addBetaCuts c (storeLp s) else (0, storeLp s)).2 := by
    by_cases hb : c.betaAsCuts = true
    · rw [if_pos hb]
      obtain ⟨new, k, _⟩ := inv_addBetaCuts h1
      exact ⟨_, k⟩
    · rw [if_neg hb]
      exact ⟨cd, h1⟩
  unfold cutRound
  simp only
  generalize (if c.betaAsCuts then addBetaCuts c (storeLp s) else (0, storeLp s)) = b at h2 ⊢
  obtain ⟨cd2, h2⟩ := h2
  intro row hrow
  by_cases hg : (c.generateCuts && b.1 == 0) = true
  · simp only [hg, if_true] at hrow
    have hrec : row ∈ (recorded o b.2).map (·.2) := by
      unfold addCuts at hrow
      simp only at hrow
      split at hrow
      · simp at hrow
      · exact hrow
    obtain ⟨x, hx, rfl⟩ := List.mem_map.1 hrec
    exact (recorded_spec h2 ho x hx).1
  · simp only [hg, Bool.false_eq_true, if_false] at hrow
    simp at hrow

theorem cutRounds_rows (hs : Setup d c splits dataRows) {o : Oracle} (ho : CutSound o) :
    ∀ (n : ℕ) (acc cuts : List (List Bool)) (cd : List CD) (s : MS), Inv d c splits cuts own cd s →
      (∀ row ∈ acc, row.length = splits.length) → ∀ row ∈ (cutRounds c o n acc s).1, row.length = splits.length
  | 0, _, _, _, _, _, hacc => hacc
  | n + 1, acc, cuts, cd, s, h, hacc => by
    unfold cutRounds
    simp only
    obtain ⟨cuts1, cd1, h1, -⟩ := inv_cutRound hs.tree.split_id ho h
    split_ifs
    · refine cutRounds_rows hs ho n _ cuts1 cd1 _ (h1.of_eq rfl) ?_
      intro row hrow
      rcases List.mem_append.1 hrow with hrow | hrow
      · exact hacc row hrow
      · exact cutRound_rows h ho row hrow
    · exact hacc
    · exact hacc

theorem solveRmp_rows (hs : Setup d c splits dataRows) {o : Oracle} (ho : CutSound o) (h : Inv d c splits cuts own cd s) {D : Duals} {s' : MS}
    (hsol : solveRmp c o s = (.ok D, s')) : ∀ row ∈ D.newCuts, row.length = splits.length := by
  unfold solveRmp at hsol
  rw [if_pos h.gen] at hsol
  simp only at hsol
  obtain ⟨s1, hs1⟩ : ∃ s1, s1 = lpSolve o { s with
      prevRmpObj := s.rmpObj
      iter := s.iter + 1 } := ⟨_, rfl⟩
  rw [← hs1] at hsol
  have h1 : Inv d c splits cuts own cd s1 := by rw [hs1]; exact h.of_eq rfl
  have hr : ∀ row ∈ (if s1.iter % 10 = 0 then cutRounds c o c.numCutsRound [] s1 else ([], s1)).1, row.length = splits.length := by
    split
    · exact cutRounds_rows hs ho _ _ cuts cd s1 h1 (by simp)
    · simp
  generalize (if s1.iter % 10 = 0 then cutRounds c o c.numCutsRound [] s1 else ([], s1)) = r at hsol hr
  split_ifs at hsol
  · simp only [Prod.mk.injEq, Except.ok.injEq] at hsol
    rw [← hsol.1]
    exact hr
  · simp only [Prod.mk.injEq, Except.ok.injEq] at hsol
    rw [← hsol.1]
    exact hr

end

end Verif.DTree
