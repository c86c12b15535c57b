import Verif.DTree.HeurProps
import Verif.DTree.CutProps

/-!
# Lemmas: the reduced costs of the columns of the master problem
-/

set_option linter.unusedSectionVars false
set_option linter.unusedSimpArgs false

namespace Verif.DTree

open MP Spec

theorem sum_range_list {α : Type*} (l : List α) (f : ℕ → ℚ) (g : α → ℚ) (h : ∀ (i : ℕ) x, l[i]? = some x → f i = g x) :
    ∑ i ∈ Finset.range l.length, f i = (l.map g).sum := by
  induction l using List.reverseRecOn with
  | nil => simp
  | append_singleton l a ih =>
    rw [List.length_append, List.length_singleton, Finset.sum_range_succ, List.map_append, List.sum_append, List.map_singleton, List.sum_singleton,
      h l.length a (by simp), ih]
    intro i x hx
    exact h i x (by rw [List.getElem?_append_left (List.getElem?_eq_some_iff.1 hx).1]; exact hx)

open Classical in
theorem sum_pick {α : Type*} (l : List α) (hl : l.Nodup) (a : α) (ha : a ∈ l) (f : α → ℚ) :
    (l.map (fun x => if a = x then f x else 0)).sum = f a := by
  induction l with
  | nil => cases ha
  | cons x l ih =>
    rw [List.nodup_cons] at hl
    rw [List.map_cons, List.sum_cons]
    by_cases h : a = x
    · subst h
      rw [if_pos rfl]
      have : (l.map (fun x => if a = x then f x else 0)).sum = 0 := by
        apply List.sum_eq_zero
        intro y hy
        obtain ⟨z, hz, rfl⟩ := List.mem_map.1 hy
        exact if_neg (fun he => hl.1 (by rw [he]; exact hz))
      rw [this, add_zero]
    · rw [if_neg h, zero_add]
      exact ih hl.2 ((List.mem_cons.1 ha).resolve_left h)

theorem sum_filter_dec {α : Type*} (l : List α) (P : α → Prop) [DecidablePred P] (f : α → ℚ) :
    ((l.filter (fun x => decide (P x))).map f).sum = (l.map (fun x => if P x then f x else 0)).sum := by
  induction l with
  | nil => rfl
  | cons x l ih =>
    by_cases h : P x
    · rw [List.filter_cons_of_pos (by simpa using h), List.map_cons, List.sum_cons, ih, List.map_cons, List.sum_cons, if_pos h]
    · rw [List.filter_cons_of_neg (by simpa using h), ih, List.map_cons, List.sum_cons, if_neg h, zero_add]

/-- The dual of the constraint with a description. -/
def cdDual (s : MS) : CD → ℚ
  | .leaf l => dualOf s (s.leafCons l)
  | .row r => dualOf s (s.rowCons r)
  | .ns l n t => dualOf s (s.nsCons l n t)
  | .cut k => dualOf s s.cutCons[k]?

theorem Inv.cdDual {d : ℕ} {c : Conf} {splits : List Split} {cuts : List (List Bool)} {own : List Own} {cd : List CD} {s : MS}
    (h : Inv d c splits cuts own cd s) {i : ℕ} {x : CD} (hx : cd[i]? = some x) : DTree.cdDual s x = s.last.duals i := by
  cases x with
  | leaf l => simp [DTree.cdDual, dualOf, (h.leafc l i).2 hx]
  | row r => simp [DTree.cdDual, dualOf, (h.rowc r i).2 hx]
  | ns l n t => simp [DTree.cdDual, dualOf, (h.nsc l n t i).2 hx]
  | cut k => simp [DTree.cdDual, dualOf, (h.cutc k i).2 hx]

theorem Spec.WFPath.pairs_nodup {d : ℕ} {p : Path} (h : WFPath d p) : p.pairs.Nodup := by
  have h1 : (p.pairs.map Prod.fst).Nodup := by
    unfold Path.pairs
    rw [List.map_fst_zip (by rw [h.splits, h.nodes.length_eq]; simp)]
    rw [h.nodes.nodup_iff]
    refine List.Nodup.map_on ?_ List.nodup_range
    intro x hx y hy he
    exact anc_inj h.leaf_lt (List.mem_range.1 hx).le (List.mem_range.1 hy).le he
  exact List.Nodup.of_map _ h1

/-- The reduced cost of the variable of a path. -/
theorem Inv.red {d : ℕ} {c : Conf} {splits : List Split} (ht : Tree d c.leaves c.nodes splits) {cuts : List (List Bool)} {own : List Own}
    {cd : List CD} {s : MS} (h : Inv d c splits cuts own cd s) {v : ℕ} {p : Path} (hv : own[v]? = some (.path p)) (new : List (List Bool)) :
    s.m.reducedCost s.last.duals v = colRed d c.X splits cuts (readDuals c s new) p := by
  classical
  have hp : p ∈ s.paths := ((h.pidx v p).1 hv).1
  have hw : WFPath d p := (h.good p hp).1
  have hobj : s.m.obj v = p.cost := by rw [h.obj]; simp [atVar, hv, Own.cost]
  unfold Model.reducedCost
  rw [hobj, h.rep.length_cons, sum_range_list cd _ (fun x => DTree.cdDual s x * ind (x.has d (fun r => rowLeft splits (c.X.getD r [])) (pat cuts) p))]
  · rw [((h.cd_perm ht).map _).sum_eq]
    simp only [List.map_append, List.sum_append, List.map_map]
    have e1 : (((List.range (2 ^ d)).map ((fun x => DTree.cdDual s x * ind (x.has d (fun r => rowLeft splits (c.X.getD r [])) (pat cuts) p)) ∘ CD.leaf)).sum)
        = (readDuals c s new).leaf.getD p.leafId 0 := by
      have hr : (readDuals c s new).leaf.getD p.leafId 0 = DTree.cdDual s (.leaf p.leafId) := by
        simp [readDuals, List.getD_eq_getElem?_getD, ht.leaves, fullLeaves, List.getElem?_range hw.leaf_lt, DTree.cdDual]
      rw [hr, ← sum_pick (List.range (2 ^ d)) List.nodup_range p.leafId (List.mem_range.2 hw.leaf_lt) (fun l => DTree.cdDual s (.leaf l))]
      congr 1
      refine List.map_congr_left ?_
      intro l _
      simp only [Function.comp, CD.has]
      by_cases hl : p.leafId = l
      · rw [ind_pos hl, if_pos hl, mul_one]
      · rw [ind_neg hl, if_neg hl, mul_zero]
    have e2 : (((nsAll d c.nodes).map (fun x => DTree.cdDual s x * ind (x.has d (fun r => rowLeft splits (c.X.getD r [])) (pat cuts) p))).sum)
        = (p.pairs.map (fun q => ((readDuals c s new).ns p.leafId q.1 q.2).getD 0)).sum := by
      have hL : ((nsAll d c.nodes).map (fun x => DTree.cdDual s x * ind (x.has d (fun r => rowLeft splits (c.X.getD r [])) (pat cuts) p))).sum
          = (((nsAll d c.nodes).filter (fun x => decide (x.has d (fun r => rowLeft splits (c.X.getD r [])) (pat cuts) p))).map (DTree.cdDual s)).sum := by
        rw [sum_filter_dec]
        congr 1
        refine List.map_congr_left ?_
        intro x _
        by_cases hx : x.has d (fun r => rowLeft splits (c.X.getD r [])) (pat cuts) p
        · rw [ind_pos hx, if_pos hx, mul_one]
        · rw [ind_neg hx, if_neg hx, mul_zero]
      have hR : (p.pairs.map (fun q => ((readDuals c s new).ns p.leafId q.1 q.2).getD 0)).sum
          = ((p.pairs.filter (fun q => decide (q.2 ∈ cand c.nodes q.1))).map (fun q => DTree.cdDual s (.ns p.leafId q.1 q.2))).sum := by
        rw [sum_filter_dec]
        congr 1
        refine List.map_congr_left ?_
        intro q hq
        show ((s.nsCons p.leafId q.1 q.2).map s.last.duals).getD 0 = _
        split_ifs with hc
        · rfl
        · rcases hn : s.nsCons p.leafId q.1 q.2 with _ | i
          · rfl
          · have := List.mem_of_getElem? ((h.nsc _ _ _ _).1 hn)
            obtain ⟨_, k, _, _, hcc⟩ := (h.nscmem _ _ _).1 this
            exact absurd hcc hc
      rw [hL, hR]
      have hperm : ((nsAll d c.nodes).filter (fun x => decide (x.has d (fun r => rowLeft splits (c.X.getD r [])) (pat cuts) p))).Perm
          ((p.pairs.filter (fun q => decide (q.2 ∈ cand c.nodes q.1))).map (fun q => CD.ns p.leafId q.1 q.2)) := by
        refine (List.perm_ext_iff_of_nodup ((nodup_nsAll ht).filter _) ?_).2 ?_
        · refine List.Nodup.map ?_ (hw.pairs_nodup.filter _)
          intro a b hab
          injection hab with _ h2 h3
          exact Prod.ext h2 h3
        · intro x
          simp only [List.mem_filter, List.mem_map, decide_eq_true_eq]
          constructor
          · rintro ⟨hx, hh⟩
            cases x with
            | leaf l => simp [nsAll] at hx
            | row l => simp [nsAll] at hx
            | cut l => simp [nsAll] at hx
            | ns l n t =>
              obtain ⟨h1, h2⟩ := hh
              obtain ⟨_, k, _, _, hc⟩ := mem_nsAll.1 hx
              exact ⟨(n, t), ⟨h2, hc⟩, by rw [h1]⟩
          · rintro ⟨q, ⟨hq, hc⟩, rfl⟩
            refine ⟨mem_nsAll.2 ⟨hw.leaf_lt, ?_⟩, rfl, hq⟩
            have hn : q.1 ∈ p.nodeIds := (List.of_mem_zip (show (q.1, q.2) ∈ _ from hq)).1
            have := (hw.nodes.mem_iff).1 hn
            obtain ⟨k, hk, he⟩ := List.mem_map.1 this
            exact ⟨k, List.mem_range.1 hk, he.symm, hc⟩
      rw [(hperm.map _).sum_eq, List.map_map]
      rfl
    have e3 : (((addedRows c s).map ((fun x => DTree.cdDual s x * ind (x.has d (fun r => rowLeft splits (c.X.getD r [])) (pat cuts) p)) ∘ CD.row)).sum)
        = ((List.range c.X.length).map (fun r => if Follows d (rowLeft splits (c.X.getD r [])) p then (readDuals c s new).row.getD r 0 else 0)).sum := by
      have : addedRows c s = (List.range c.X.length).filter (fun r => decide (s.addedRow.getD r false = true)) := by
        unfold addedRows
        congr 1
        funext r
        simp
      rw [this, sum_filter_dec]
      congr 1
      refine List.map_congr_left ?_
      intro r hr
      have hd : (readDuals c s new).row.getD r 0 = if s.addedRow.getD r false then dualOf s (s.rowCons r) else 0 := by
        simp [readDuals, List.getD_eq_getElem?_getD, List.getElem?_range (List.mem_range.1 hr)]
      rw [hd]
      simp only [Function.comp, CD.has, DTree.cdDual]
      by_cases hf : Follows d (rowLeft splits (c.X.getD r [])) p
      · rw [ind_pos hf, if_pos hf, mul_one]
      · rw [ind_neg hf, if_neg hf, mul_zero]
        split_ifs <;> rfl
    have e4 : (((List.range cuts.length).map ((fun x => DTree.cdDual s x * ind (x.has d (fun r => rowLeft splits (c.X.getD r [])) (pat cuts) p)) ∘ CD.cut)).sum)
        = cutSum cuts.length (fun k => Follows d (cutPat cuts k) p) (fun k => (readDuals c s new).cut.getD k 0) := by
      unfold cutSum
      congr 1
      refine List.map_congr_left ?_
      intro k hk
      have hd : (readDuals c s new).cut.getD k 0 = dualOf s s.cutCons[k]? := by
        simp [readDuals, List.getD_eq_getElem?_getD, dualOf]
      simp only [Function.comp, CD.has, DTree.cdDual]
      rw [hd]
      by_cases hf : Follows d (pat cuts k) p
      · rw [ind_pos hf, mul_one]
        exact (if_pos hf).symm
      · rw [ind_neg hf, mul_zero]
        exact (if_neg hf).symm
    rw [e1, e2, e3, e4]
    unfold colRed
    have : ∀ a b c d e : ℚ, a - (b + c + d + e) = a - b - d - e - c := by intros; ring
    exact (this _ _ _ _ _).trans (by congr!)
  · intro i x hx
    rw [h.cdDual hx, h.rep.cons, List.getElem?_map, hx]
    simp [atVar, hv, sig, CD.coef]

/-! ## Weak duality -/

/-- The value of a point is at most the dual value plus the reduced costs, when the duals have the right signs. -/
theorem weak_duality (m : Model) (dl a : ℕ → ℚ)
    (h : ∀ (c : ℕ) (k : Cons), m.cons[c]? = some k → dl c * activity m.vars.length k.coeff a ≤ dl c * k.rhs) :
    m.value a ≤ m.dualValue dl + ∑ v ∈ Finset.range m.vars.length, m.reducedCost dl v * a v := by
  have e : ∑ v ∈ Finset.range m.vars.length, m.reducedCost dl v * a v = activity m.vars.length m.obj a -
      ∑ c ∈ Finset.range m.cons.length, dl c * activity m.vars.length (fun v => ((m.cons[c]?).map (fun k => k.coeff v)).getD 0) a := by
    unfold Model.reducedCost activity
    simp only [sub_mul, Finset.sum_sub_distrib, Finset.sum_mul, Finset.mul_sum]
    congr 1
    rw [Finset.sum_comm]
    refine Finset.sum_congr rfl fun c _ => Finset.sum_congr rfl fun v _ => ?_
    ring
  have h2 : ∑ c ∈ Finset.range m.cons.length, dl c * activity m.vars.length (fun v => ((m.cons[c]?).map (fun k => k.coeff v)).getD 0) a ≤
      ∑ c ∈ Finset.range m.cons.length, dl c * ((m.cons[c]?).map Cons.rhs).getD 0 := by
    refine Finset.sum_le_sum ?_
    intro c hc
    have hk := List.getElem?_eq_getElem (Finset.mem_range.1 hc)
    have := h c _ hk
    rw [hk]
    simpa using this
  rw [e]
  unfold Model.value Model.dualValue
  linarith

theorem sum_pathSum_le {paths : List Path} {a : ℕ → ℚ} (h0 : ∀ p ∈ paths, 0 ≤ a p.id) (T : Finset ℕ) (P : ℕ → Path → Prop) (Q : Path → Prop)
    (h : ∀ p ∈ paths, ∑ t ∈ T, ind (P t p) ≤ ind (Q p)) : ∑ t ∈ T, pathSum paths a (P t) ≤ pathSum paths a Q := by
  simp only [pathSum_eq]
  induction paths with
  | nil => simp
  | cons p ps ih =>
    simp only [List.map_cons, List.sum_cons]
    rw [Finset.sum_add_distrib, ← Finset.sum_mul]
    exact add_le_add (mul_le_mul_of_nonneg_right (h p (List.mem_cons_self ..)) (h0 p (List.mem_cons_self ..)))
      (ih (fun q hq => h0 q (List.mem_cons_of_mem _ hq)) (fun q hq => h q (List.mem_cons_of_mem _ hq)))

/-- The path variables of a solution add up to the number of leaves. -/
theorem sum_paths {d : ℕ} {c : Conf} {s : MS} {a : ℕ → ℚ} (hw : ∀ p ∈ s.paths, WFPath d p) (h : MasterFeasible d c s a) :
    (s.paths.map (fun p => a p.id)).sum = 2 ^ d := by
  have h1 : ∑ l ∈ Finset.range (2 ^ d), pathSum s.paths a (fun p => p.leafId = l) = pathSum s.paths a (fun _ => True) := by
    refine sum_pathSum _ _ _ _ _ ?_
    intro p hp
    rw [ind_pos trivial, Finset.sum_eq_single p.leafId]
    · exact ind_pos rfl
    · intro l _ hne; exact ind_neg (fun he => hne he.symm)
    · intro hn; exact absurd (Finset.mem_range.2 (hw p hp).leaf_lt) hn
  rw [Finset.sum_congr rfl (fun l hl => h.leaf l (Finset.mem_range.1 hl))] at h1
  simp only [Finset.sum_const, Finset.card_range, nsmul_eq_mul, mul_one, Nat.cast_pow, Nat.cast_ofNat] at h1
  rw [pathSum_eq] at h1
  rw [h1]
  congr 1
  refine List.map_congr_left ?_
  intro p _
  rw [ind_pos trivial, one_mul]

/-- The consistency variables of a solution add up to at most the number of nodes. -/
theorem Inv.sum_ns {d : ℕ} {c : Conf} {splits : List Split} {cuts : List (List Bool)} {own : List Own} {cd : List CD} {s : MS}
    (hi : Inv d c splits cuts own cd s) {a : ℕ → ℚ} (h : MasterFeasible d c s a) :
    ((own.filterMap Own.ns?).map (fun q => a ((s.nsVars q.1 q.2).getD 0))).sum ≤ 2 ^ d - 1 := by
  have hw : ∀ p ∈ s.paths, WFPath d p := fun p hp => (hi.good p hp).1
  rw [← List.sum_toFinset _ hi.ns_nodup, Finset.sum_finset_product _ (Finset.range (2 ^ d - 1)) (fun n => (cand c.nodes n).toFinset)]
  · have hle : ∀ n ∈ Finset.range (2 ^ d - 1), ∑ t ∈ (cand c.nodes n).toFinset, a ((s.nsVars n t).getD 0) ≤ 1 := by
      intro n hn
      obtain ⟨l, hl, k, hk, rfl⟩ := exists_anc_node (Finset.mem_range.1 hn)
      rw [← h.leaf l hl]
      have e : ∑ t ∈ (cand c.nodes (anc d l k)).toFinset, a ((s.nsVars (anc d l k) t).getD 0) =
          ∑ t ∈ (cand c.nodes (anc d l k)).toFinset, pathSum s.paths a (fun p => p.leafId = l ∧ (anc d l k, t) ∈ p.pairs) := by
        refine Finset.sum_congr rfl ?_
        intro t ht
        obtain ⟨v, hv, he⟩ := h.consistent l hl k hk t (List.mem_toFinset.1 ht)
        rw [he, hv]
        rfl
      rw [e]
      refine sum_pathSum_le h.path_nonneg _ _ _ ?_
      intro p hp
      by_cases hpl : p.leafId = l
      · rw [ind_pos hpl]
        obtain ⟨t0, ht0⟩ := (hw p hp).exists_split hk
        rw [hpl] at ht0
        have : ∀ t ∈ (cand c.nodes (anc d l k)).toFinset, ind (p.leafId = l ∧ (anc d l k, t) ∈ p.pairs) = if t0 = t then (1 : ℚ) else 0 := by
          intro t _
          by_cases he : t0 = t
          · subst he; rw [if_pos rfl]; exact ind_pos ⟨hpl, ht0⟩
          · rw [if_neg he]
            exact ind_neg (fun hh => he ((hw p hp).split_unique ht0 hh.2))
        rw [Finset.sum_congr rfl this, Finset.sum_ite_eq]
        split_ifs <;> norm_num
      · rw [ind_neg hpl]
        refine (Finset.sum_eq_zero ?_).le
        intro t _
        exact ind_neg (fun hh => hpl hh.1)
    have := Finset.sum_le_sum hle
    simp only [Finset.sum_const, Finset.card_range, nsmul_eq_mul, mul_one] at this
    rw [Nat.cast_sub Nat.one_le_two_pow] at this
    simpa using this
  · rintro ⟨n, t⟩
    rw [List.mem_toFinset, mem_ns?, hi.nsmem, Finset.mem_range, List.mem_toFinset]

/-- The bound for a point of the linear relaxation from duals of the right signs. -/
theorem Inv.bound {d : ℕ} {c : Conf} {splits : List Split} (hid : ∀ i (s : Split), splits[i]? = some s → s.id = i) {cuts : List (List Bool)}
    {own : List Own} {cd : List CD} {s : MS}
    (hi : Inv d c splits cuts own cd s) {dl : ℕ → ℚ} {eps tol : ℚ} (htol : 0 ≤ tol)
    (hle : ∀ (i : ℕ) (k : Cons), s.m.cons[i]? = some k → k.lb = none → 0 ≤ dl i)
    (hpath : ∀ p ∈ s.paths, s.m.reducedCost dl p.id ≤ eps) (hns : ∀ n t v, s.nsVars n t = some v → s.m.reducedCost dl v ≤ tol)
    {a : ℕ → ℚ} (ha : s.m.FeasibleLP a) : s.m.value a ≤ s.m.dualValue dl + 2 ^ d * eps + (2 ^ d - 1) * tol := by
  have hf := (hi.feasible hid a).1 ha
  have hw : ∀ p ∈ s.paths, WFPath d p := fun p hp => (hi.good p hp).1
  have h1 := weak_duality s.m dl a (by
    intro i k hk
    have hin := ha.cons i k hk
    have hk' := hk
    rw [hi.rep.cons, List.getElem?_map] at hk'
    rcases hx : cd[i]? with _ | x
    · rw [hx] at hk'; cases hk'
    · rw [hx] at hk'
      simp only [Option.map_some, Option.some.injEq] at hk'
      have hlb : k.lb = x.lb := by rw [← hk']; rfl
      have hub : k.ub = x.ub := by rw [← hk']; rfl
      unfold Cons.rhs
      have hl := hle i k hk
      rw [hlb, hub] at hin ⊢
      rw [hlb] at hl
      cases x with
      | leaf l => rw [inBounds_eq.1 hin]; simp [CD.lb]
      | row l =>
        have := inBounds_le.1 hin
        simp only [CD.lb, CD.ub, Option.getD_none, Option.getD_some]
        exact mul_le_mul_of_nonneg_left this (hl rfl)
      | ns l n t => rw [inBounds_eq.1 hin]; simp [CD.lb]
      | cut l => rw [inBounds_eq.1 hin]; simp [CD.lb])
  have h2 : ∑ v ∈ Finset.range s.m.vars.length, s.m.reducedCost dl v * a v ≤
      (s.paths.map (fun p => eps * a p.id)).sum + ((own.filterMap Own.ns?).map (fun q => tol * a ((s.nsVars q.1 q.2).getD 0))).sum := by
    obtain ⟨B, hB⟩ : ∃ B : Own → ℚ, B = fun o => match o with | .path _ => eps | .ns _ _ => tol := ⟨_, rfl⟩
    have e := own_sum own (fun o => B o * a (idxOf s o))
    rw [hi.paths] at e
    have e' : (s.paths.map (fun p => eps * a p.id)).sum + ((own.filterMap Own.ns?).map (fun q => tol * a ((s.nsVars q.1 q.2).getD 0))).sum =
        (own.map (fun o => B o * a (idxOf s o))).sum := by
      rw [e, hB]
      rfl
    rw [e', ← sum_range_list own (fun i => atVar own B i * a i)]
    · rw [hi.rep.length_vars]
      refine Finset.sum_le_sum ?_
      intro i hi'
      have ho := List.getElem?_eq_getElem (Finset.mem_range.1 hi')
      have hai : 0 ≤ a i := by
        have := ha.bounds i (nonnegInt) (by rw [hi.rep.vars, List.getElem?_map, ho]; rfl)
        exact (inBounds_ge.1 this)
      refine mul_le_mul_of_nonneg_right ?_ hai
      generalize own[i]'(Finset.mem_range.1 hi') = o at ho
      unfold atVar
      rw [ho, hB]
      cases o with
      | path p =>
        have := (hi.pidx i p).1 ho
        rw [← this.2]
        exact hpath p this.1
      | ns n t => exact hns n t i ((hi.nsv n t i).2 ho)
    · intro i o ho
      simp only [atVar, ho, Option.elim_some]
      rw [hi.idx i o ho]
  rw [List.sum_map_mul_left, List.sum_map_mul_left, sum_paths hw hf] at h2
  have h3 := mul_le_mul_of_nonneg_left (hi.sum_ns hf) htol
  linarith

end Verif.DTree
