import Verif.DTree.SubPoints

/-!
# Properties of the integer pricing problems of the decision tree classifier (C46, C47, C48)
-/

set_option linter.unusedSectionVars false
set_option linter.unusedSimpArgs false

namespace Verif.DTree

open MP Spec

theorem Spec.SubReached.inv {d : ℕ} {c : SubConf} (h : SubOk d c) {cuts : List (List Bool)} {st : SubSt} (hr : SubReached c cuts st)
    (hg : st.generated = true) : ∃ own lins, SubInv c cuts.length cuts own lins st := by
  rcases hr.state h with ⟨rfl, _⟩ | hi
  · simp [SubSt.new] at hg
  · exact hi

theorem ind_one {P : Prop} [Decidable P] {x : ℚ} (h : x = if P then 1 else 0) : (x = 0 ∨ x = 1) ∧ (x = 1 ↔ P) := by
  rw [h]
  split_ifs with hp <;> simp [hp]

/-- A class variable that is 1 is the target of the path, and without one the target is `-1`. -/
theorem target_cases {d : ℕ} {c : SubConf} (h : SubOk d c) {cuts : List (List Bool)} {st : SubSt} {a : ℕ → ℚ} {σ : ℕ → ℕ}
    (hm : Means c cuts st a σ) (ho : c.isOld = false) (hw : ∀ t < c.targets.length, a (st.idx (.w t)) = 0 ∨ a (st.idx (.w t)) = 1)
    (order : List ℕ) (cost : ℚ) :
    (∃ t < c.targets.length, a (st.idx (.w t)) = 1 ∧ (c.pathOf st a order cost).target = t) ∨
      ((∀ t < c.targets.length, a (st.idx (.w t)) = 0) ∧ (c.pathOf st a order cost).target = -1) := by
  by_cases he : ∃ t < c.targets.length, a (st.idx (.w t)) = 1
  · obtain ⟨t, ht, h1⟩ := he
    exact Or.inl ⟨t, ht, h1, pathOf_target h hm ho hw order cost ht h1⟩
  · push Not at he
    have h0 : ∀ t < c.targets.length, a (st.idx (.w t)) = 0 := fun t ht => (hw t ht).resolve_right (he t ht)
    exact Or.inr ⟨h0, pathOf_target_none ho (fun t ht => h0 t (List.mem_range.1 (h.targets.mem_iff.1 ht))) order cost⟩

/-- C46: in every feasible point of the pricing model (of any of the three classes, after any sequence of calls) exactly one candidate split
per node is chosen, these splits form the path that is returned, the row and cut variables are 1 exactly for the rows and cuts that follow the
path, and `z` is 1 only for rows that follow it and have its target. -/
theorem C46_points {d : ℕ} {c : SubConf} (h : SubOk d c) {cuts : List (List Bool)} {st : SubSt} (hr : SubReached c cuts st)
    (hg : st.generated = true) {a : ℕ → ℚ} (hf : st.m.Feasible a) {order : List ℕ} (ho : order.Perm c.leafNodes) {p : Path}
    (hp : p = c.pathOf st a order (c.costOf st a)) :
    WFPath d p ∧ p.leafId = c.leaf.id ∧ UsesCand c.nodes p ∧
    (∀ k < d, ∃ s ∈ cand c.nodes (anc d c.leaf.id k), (anc d c.leaf.id k, s) ∈ p.pairs ∧ a (st.idx (.u (anc d c.leaf.id k) s)) = 1 ∧
      ∀ s' ∈ cand c.nodes (anc d c.leaf.id k), s' ≠ s → a (st.idx (.u (anc d c.leaf.id k) s')) = 0) ∧
    (∀ i, Kept c i → (a (st.idx (.y i)) = 0 ∨ a (st.idx (.y i)) = 1) ∧ (a (st.idx (.y i)) = 1 ↔ Follows d (rowPat c i) p)) ∧
    (∀ k < cuts.length, (a (st.idx (.yc k)) = 0 ∨ a (st.idx (.yc k)) = 1) ∧ (a (st.idx (.yc k)) = 1 ↔ Follows d (cutPat cuts k) p)) ∧
    (c.isOld = false → ∀ i, Kept c i → (a (st.idx (.z i)) = 0 ∨ a (st.idx (.z i)) = 1) ∧
      (a (st.idx (.z i)) = 1 → Follows d (rowPat c i) p ∧ ((c.y.getD i 0 : ℕ) : ℤ) = p.target)) := by
  obtain ⟨own, lins, hi⟩ := hr.inv h hg
  obtain ⟨hb, σ, hm⟩ := (hi.feasible_iff h rfl a).1 hf
  have hfo : ∀ left, Follows d left p ↔ Towards c left σ := fun left => by
    rw [hp]; exact pathOf_follows h hm.split ho _ left
  have hwf := pathOf_wf h hm.split ho (c.costOf st a)
  rw [← hp] at hwf
  refine ⟨hwf.1, by rw [hp]; rfl, hwf.2, ?_, ?_, ?_, ?_⟩
  · intro k hk
    have hn : anc d c.leaf.id k ∈ c.leafNodes := (h.mem_leafNodes _).2 ⟨k, hk, rfl⟩
    obtain ⟨h1, h2⟩ := hm.split _ hn
    refine ⟨σ (anc d c.leaf.id k), by rw [← c.cands_eq]; exact h1, ?_, by rw [h2 _ h1, if_pos rfl], ?_⟩
    · rw [hp, pathOf_pairs hm.split order (fun n hn => ho.mem_iff.1 hn)]
      exact List.mem_map.2 ⟨_, ho.mem_iff.2 hn, rfl⟩
    · intro s' hs' hne
      rw [← c.cands_eq] at hs'
      rw [h2 s' hs', if_neg hne]
  · intro i hi'
    have := ind_one (hm.row i hi')
    exact ⟨this.1, this.2.trans (hfo _).symm⟩
  · intro k hk
    have := ind_one (hm.cut k hk)
    exact ⟨this.1, this.2.trans (hfo _).symm⟩
  · intro hold i hi'
    refine ⟨hb _ ((mem_allVars c _ _).2 (Or.inl ((mem_rowVars c _).2 (Or.inr ⟨hold, i, hi', rfl⟩)))), ?_⟩
    intro hz
    obtain ⟨h1, h2⟩ := hm.z_le hold i hi'
    have hw : ∀ t < c.targets.length, a (st.idx (.w t)) = 0 ∨ a (st.idx (.w t)) = 1 := fun t ht =>
      hb _ ((mem_allVars c _ _).2 (Or.inr (Or.inr (Or.inr ⟨hold, t, ht, rfl⟩))))
    have hy := ind_one (hm.row i hi')
    have hyi := h.y_lt i hi'.1
    refine ⟨(hfo _).2 (hy.2.1 ?_), ?_⟩
    · rcases hy.1 with e | e
      · rw [hz, e] at h1; norm_num at h1
      · exact e
    · have hw1 : a (st.idx (.w (c.y.getD i 0))) = 1 := by
        rcases hw _ hyi with e | e
        · rw [hz, e] at h2; norm_num at h2
        · exact e
      rw [hp, pathOf_target h hm hold hw order _ hyi hw1]

theorem sum_le_sum' {α : Type*} (l : List α) (f g : α → ℚ) (h : ∀ x ∈ l, f x ≤ g x) : (l.map f).sum ≤ (l.map g).sum := by
  induction l with
  | nil => simp
  | cons x l ih =>
    rw [List.map_cons, List.sum_cons, List.map_cons, List.sum_cons]
    have h1 := h x (by simp)
    have h2 := ih (fun y hy => h y (by simp [hy]))
    linarith

theorem rowWeight_nonneg (c : SubConf) (i : ℕ) : 0 ≤ rowWeight c i := by
  unfold rowWeight
  cases c.dataRows <;> simp

/-- C46, cost: the cost of the path is at most the weighted number of (kept) rows that follow it and have its target; if `z` is 1 for all
these rows, it is equal. -/
theorem C46_cost {d : ℕ} {c : SubConf} (h : SubOk d c) {cuts : List (List Bool)} {st : SubSt} (hr : SubReached c cuts st)
    (hg : st.generated = true) {a : ℕ → ℚ} (hf : st.m.Feasible a) {order : List ℕ} (ho : order.Perm c.leafNodes) {p : Path}
    (hp : p = c.pathOf st a order (c.costOf st a)) (hold : c.isOld = false) :
    p.cost ≤ hitsOf d c p p.target ∧
    ((∀ i, Kept c i → Follows d (rowPat c i) p → ((c.y.getD i 0 : ℕ) : ℤ) = p.target → a (st.idx (.z i)) = 1) →
      p.cost = hitsOf d c p p.target) := by
  classical
  obtain ⟨-, -, -, -, -, -, h7⟩ := C46_points h hr hg hf ho hp
  have h7 := h7 hold
  have hc : p.cost = (c.kept.map (fun i => rowWeight c i * a (st.idx (.z i)))).sum := by
    rw [hp]
    show c.costOf st a = _
    unfold SubConf.costOf
    unfold SubConf.isOld at hold
    cases hk : c.kind with
    | mip => simp only [weight_eq]
    | sat => simp only [weight_eq]
    | old t => rw [hk] at hold; simp at hold
  have key : ∀ i ∈ c.kept, rowWeight c i * a (st.idx (.z i)) ≤
      if Follows d (rowPat c i) p ∧ ((c.y.getD i 0 : ℕ) : ℤ) = p.target then rowWeight c i else 0 := by
    intro i hi
    obtain ⟨h1, h2⟩ := h7 i ((mem_kept c i).1 hi)
    rcases h1 with e | e
    · rw [e, mul_zero]
      split_ifs
      · exact rowWeight_nonneg c i
      · exact le_rfl
    · rw [if_pos (h2 e), e, mul_one]
  unfold hitsOf
  rw [keptSum_eq, hc]
  refine ⟨sum_le_sum' _ _ _ (fun i hi => (key i hi).trans (by split_ifs <;> exact le_rfl)), ?_⟩
  intro hmax
  congr 1
  refine List.map_congr_left ?_
  intro i hi
  have hi' := (mem_kept c i).1 hi
  obtain ⟨h1, h2⟩ := h7 i hi'
  split_ifs with hc'
  · rw [hmax i hi' hc'.1 hc'.2, mul_one]
  · rcases h1 with e | e
    · rw [e, mul_zero]
    · exact absurd (h2 e) hc'

theorem filter_range_perm {d : ℕ} {c : SubConf} (h : SubOk d c) :
    ((List.range c.nodes.length).filter (fun n => n ∈ c.leafNodes)).Perm c.leafNodes := by
  refine (List.perm_ext_iff_of_nodup (List.Nodup.filter _ List.nodup_range) h.leafNodes_nodup).2 ?_
  intro n
  rw [List.mem_filter, List.mem_range]
  constructor
  · intro hn; simpa using hn.2
  · intro hn
    refine ⟨?_, by simpa using hn⟩
    obtain ⟨k, hk, rfl⟩ := (h.mem_leafNodes n).1 hn
    rw [h.nodes]
    exact anc_lt h.leaf_lt hk

/-- What is claimed about a path returned by a pricing problem for duals `D` and cut rows `cuts`. -/
structure Spec.Improving (d : ℕ) (c : SubConf) (cuts : List (List Bool)) (D : Duals) (p : Path) : Prop where
  wf : WFPath d p
  leaf : p.leafId = c.leaf.id
  cand : UsesCand c.nodes p
  new : p.initial = false
  improving : redCost d c cuts D p > 1 / 1000000

theorem SubInv.improving {d : ℕ} {c : SubConf} (h : SubOk d c) {cuts : List (List Bool)} {own : List SV} {lins : List Lin} {st : SubSt}
    (hi : SubInv c cuts.length cuts own lins st) {D : Duals} {a : ℕ → ℚ} (hf : st.m.Feasible a)
    {order : List ℕ} (hord : order.Perm c.leafNodes)
    (hgt : ((c.objTerms D cuts.length).map (fun t => t.2 * a (st.idx t.1))).sum - D.leaf.getD c.leaf.id 0 > 1 / 1000000) :
    Spec.Improving d c cuts D (c.pathOf st a order (c.costOf st a)) := by
  obtain ⟨-, σ, hm⟩ := (hi.feasible_iff h rfl a).1 hf
  have hwf := pathOf_wf h hm.split hord (c.costOf st a)
  exact ⟨hwf.1, rfl, hwf.2, rfl, by rw [redCost_pathOf h hm hord D]; exact hgt⟩

/-- C47 for `DTreeSubProblem` and `DTreeSubProblemOld`: after `update_subproblem` with duals `D`, if the solver's answer is a solution of the
model, every returned path is a path of the leaf over candidate splits with reduced cost above `1e-6`. -/
theorem C47_mip_sound {d : ℕ} {c : SubConf} (h : SubOk d c) (hk : c.kind ≠ .sat) {cuts : List (List Bool)} {st st' : SubSt}
    (hr : SubReached c cuts st) {D : Duals} (hD : D.cut.length = cuts.length + D.newCuts.length) (hu : c.update D st = (.ok (), st'))
    {ans : Answer} (ha : ans.status = .optimal ∨ ans.status = .feasible → IsSolution st'.m ans) :
    ∀ p ∈ c.generateMip st' ans, Spec.Improving d c (cuts ++ D.newCuts) D p := by
  obtain ⟨-, h2⟩ := update_inv h (hr.state h) hD hu
  obtain ⟨-, own, lins, hi, ho⟩ := h2 hk
  intro p hp
  unfold SubConf.generateMip at hp
  split_ifs at hp with h1 h3
  · simp at hp
  · rw [List.mem_singleton] at hp
    subst hp
    obtain ⟨hf, hv⟩ := ha h1
    have hlen : D.cut.length = (cuts ++ D.newCuts).length := by rw [hD, List.length_append]
    have hval := ho.value h hi.rep (by rw [hlen]; exact hi.vars) ans.values
    refine hi.improving h hf (filter_range_perm h) ?_
    have hs : (fun t : SV × ℚ => c.sc t.2 * ans.values (st'.idx t.1)) = fun t : SV × ℚ => t.2 * ans.values (st'.idx t.1) := by
      funext t; simp [SubConf.sc, hk]
    rw [hs, hlen] at hval
    rw [← hval, ← hv]
    unfold tol at h3
    linarith
  · simp at hp

theorem pathCallback_mem (c : SubConf) (D : Duals) (st : SubSt) (sols : List (ℕ → ℚ)) (acc : List Path) (p : Path) :
    p ∈ sols.foldl (c.callback D st) acc ↔ p ∈ acc ∨ ∃ a ∈ sols, c.origObjective D st a > tol ∧ p = c.pathOf st a c.leafNodes (c.costOf st a) := by
  induction sols generalizing acc with
  | nil => simp
  | cons a l ih =>
    rw [List.foldl_cons, ih]
    unfold SubConf.callback
    split_ifs with hle
    · constructor
      · rintro (hp | ⟨b, hb, h1, h2⟩)
        · exact Or.inl hp
        · exact Or.inr ⟨b, by simp [hb], h1, h2⟩
      · rintro (hp | ⟨b, hb, h1, h2⟩)
        · exact Or.inl hp
        · rcases List.mem_cons.1 hb with rfl | hb
          · exact absurd hle (not_le.2 h1)
          · exact Or.inr ⟨b, hb, h1, h2⟩
    · push Not at hle
      constructor
      · rintro (hp | ⟨b, hb, h1, h2⟩)
        · rcases List.mem_append.1 hp with hp | hp
          · exact Or.inl hp
          · exact Or.inr ⟨a, by simp, hle, by simpa using hp⟩
        · exact Or.inr ⟨b, by simp [hb], h1, h2⟩
      · rintro (hp | ⟨b, hb, h1, h2⟩)
        · exact Or.inl (by simp [hp])
        · rcases List.mem_cons.1 hb with rfl | hb
          · exact Or.inl (by simp [h2])
          · exact Or.inr ⟨b, hb, h1, h2⟩

theorem origObjective_eq {c : SubConf} {D : Duals} {st : SubSt} (ho : SubObj c D st) (hk : c.kind = .sat) (hcuts : st.cuts = D.cut.length) (a : ℕ → ℚ) :
    c.origObjective D st a = ((c.objTerms D D.cut.length).map (fun t => t.2 * a (st.idx t.1))).sum - D.leaf.getD c.leaf.id 0 := by
  rw [objTerms_sum]
  unfold SubConf.origObjective
  rw [hcuts]
  have r1 : c.kept.map (fun i => st.orig (st.idx (.y i)) * a (st.idx (.y i))) = c.kept.map (fun i => -D.row.getD i 0 * a (st.idx (.y i))) := by
    refine List.map_congr_left ?_
    intro i hi
    have := ho.orig (SV.y i, -D.row.getD i 0) (by
      unfold SubConf.objTerms
      refine List.mem_append_left _ (List.mem_append_left _ (List.mem_flatMap.2 ⟨i, hi, ?_⟩))
      rw [hk]; simp)
    simp only at this
    rw [this]
  have r2 : (List.range D.cut.length).map (fun k => st.orig (st.idx (.yc k)) * a (st.idx (.yc k))) =
      (List.range D.cut.length).map (fun k => -D.cut.getD k 0 * a (st.idx (.yc k))) := by
    refine List.map_congr_left ?_
    intro k hk'
    have := ho.orig (SV.yc k, -D.cut.getD k 0) (by
      unfold SubConf.objTerms
      exact List.mem_append_left _ (List.mem_append_right _ (List.mem_map.2 ⟨k, hk', rfl⟩)))
    simp only at this
    rw [this]
  have r3 : c.leafNodes.map (fun n => ((c.cands n).map (fun s => st.orig (st.idx (.u n s)) * a (st.idx (.u n s)))).sum) =
      c.leafNodes.map (fun n => ((c.cands n).map (fun s => -(D.ns c.leaf.id n s).getD 0 * a (st.idx (.u n s)))).sum) := by
    refine List.map_congr_left ?_
    intro n hn
    congr 1
    refine List.map_congr_left ?_
    intro s hs
    have := ho.orig (SV.u n s, -(D.ns c.leaf.id n s).getD 0) (by
      unfold SubConf.objTerms
      exact List.mem_append_right _ (List.mem_flatMap.2 ⟨n, hn, List.mem_map.2 ⟨s, hs, rfl⟩⟩))
    simp only at this
    rw [this]
  rw [r1, r2, r3]

/-- C47 for `DTreeSubProblemSat`: if all solutions passed to the callback satisfy the constraints, every returned path is a path of the leaf
over candidate splits, with one of the classes as target, and with reduced cost above `1e-6`. -/
theorem C47_sat_sound {d : ℕ} {c : SubConf} (h : SubOk d c) (hk : c.kind = .sat) {cuts : List (List Bool)} {st st' : SubSt}
    (hr : SubReached c cuts st) {D : Duals} (hD : D.cut.length = cuts.length) {sols : Model → List (ℕ → ℚ)} {ps : List Path}
    (hgen : c.generateSat D sols st = (.ok ps, st')) (hs : ∀ a ∈ sols st'.m, st'.m.Feasible a) :
    ∀ p ∈ ps, Spec.Improving d c cuts D p ∧ ∃ t ∈ c.targets, p.target = (t : ℤ) := by
  unfold SubConf.generateSat at hgen
  rcases hrf : c.refresh D st with e | st1
  · rw [hrf] at hgen; simp at hgen
  · rw [hrf] at hgen
    simp only [Prod.mk.injEq, Except.ok.injEq] at hgen
    obtain ⟨rfl, rfl⟩ := hgen
    obtain ⟨-, own, lins, hi, ho⟩ := refresh_inv h (hr.state h) (by omega) hrf
    intro p hp
    rw [pathCallback_mem] at hp
    rcases hp with hp | ⟨a, ha, hgt, rfl⟩
    · simp at hp
    · have hf := hs a ha
      rw [origObjective_eq ho hk hi.ncuts, hD] at hgt
      rw [hD] at hi
      refine ⟨hi.improving h hf (List.Perm.refl _) hgt, ?_⟩
      obtain ⟨hb, σ, hm⟩ := (hi.feasible_iff h rfl a).1 hf
      have hold : c.isOld = false := by unfold SubConf.isOld; rw [hk]
      have hw : ∀ t < c.targets.length, a (st1.idx (.w t)) = 0 ∨ a (st1.idx (.w t)) = 1 := fun t ht =>
        hb _ ((mem_allVars c _ _).2 (Or.inr (Or.inr (Or.inr ⟨hold, t, ht, rfl⟩))))
      rcases target_cases h hm hold hw c.leafNodes (c.costOf st1 a) with ⟨t, ht, _, he⟩ | ⟨h0, _⟩
      · exact ⟨t, h.targets.mem_iff.2 (List.mem_range.2 ht), he⟩
      · have := (hm.single hold).2 hk
        have hz : (List.range c.targets.length).map (fun t => a (st1.idx (.w t))) = (List.range c.targets.length).map (fun _ => (0 : ℚ)) :=
          List.map_congr_left (fun t ht => h0 t (List.mem_range.1 ht))
        rw [hz] at this
        simp at this

/-! ## Completeness -/

open Classical in
/-- The values of the variables for a path and a class. -/
noncomputable def valOf (d : ℕ) (c : SubConf) (cuts : List (List Bool)) (p : Path) (t : ℕ) : SV → ℚ
  | .z i => if Follows d (rowPat c i) p ∧ c.y.getD i 0 = t then 1 else 0
  | .y i => if Follows d (rowPat c i) p then 1 else 0
  | .yc k => if Follows d (cutPat cuts k) p then 1 else 0
  | .u n s => if (n, s) ∈ p.pairs then 1 else 0
  | .w t' => if t' = t then 1 else 0

/-- A path of the leaf over candidate splits. -/
structure Spec.CandPath (d : ℕ) (c : SubConf) (p : Path) : Prop where
  wf : WFPath d p
  leaf : p.leafId = c.leaf.id
  cand : UsesCand c.nodes p

theorem redCost_congr {d : ℕ} {c : SubConf} {cuts : List (List Bool)} {D : Duals} {p q : Path} (hl : p.leafId = q.leafId)
    (hp : p.pairs.Perm q.pairs) : redCost d c cuts D p - p.cost = redCost d c cuts D q - q.cost := by
  have hf : ∀ left, Follows d left p ↔ Follows d left q := by
    intro left
    unfold Follows
    rw [hl]
    constructor <;> intro h k hk s hs
    · exact h k hk s (hp.mem_iff.2 hs)
    · exact h k hk s (hp.mem_iff.1 hs)
  have h1 : (fun i => Follows d (rowPat c i) p) = fun i => Follows d (rowPat c i) q := by funext i; exact propext (hf _)
  have h2 : (fun k => Follows d (cutPat cuts k) p) = fun k => Follows d (cutPat cuts k) q := by funext i; exact propext (hf _)
  unfold redCost
  rw [h1, h2, hl, (hp.map _).sum_eq]
  ring

/-- Every candidate path with every class is described by a feasible point whose objective is its reduced cost. -/
theorem point_core {d : ℕ} {c : SubConf} (h : SubOk d c) {cuts : List (List Bool)} {own : List SV} {lins : List Lin} {st : SubSt}
    (hi : SubInv c cuts.length cuts own lins st) {p : Path} (hp : CandPath d c p) {t : ℕ} (ht : t < c.targets.length)
    (D : Duals) :
    ∃ a, st.m.Feasible a ∧ (∀ o ∈ c.allVars cuts.length, a (st.idx o) = 0 ∨ a (st.idx o) = 1) ∧
      ((c.objTerms D cuts.length).map (fun t => t.2 * a (st.idx t.1))).sum - D.leaf.getD c.leaf.id 0 =
        redCost d c cuts D p - p.cost + c.costOf st a ∧
      ∀ o ∈ c.allVars cuts.length, a (st.idx o) = valOf d c cuts p t o := by
  classical
  have ha : ∀ o ∈ c.allVars cuts.length, pointOf own (valOf d c cuts p t) (st.idx o) = valOf d c cuts p t o := fun o ho =>
    hi.rep.pointOf _ (hi.vars.mem_iff.2 ho)
  obtain ⟨a, hadef⟩ : ∃ a, a = pointOf own (valOf d c cuts p t) := ⟨_, rfl⟩
  rw [← hadef] at ha
  have hsplit : ∀ n ∈ c.leafNodes, ∃ s, (n, s) ∈ p.pairs := by
    intro n hn
    obtain ⟨k, hk, rfl⟩ := (h.mem_leafNodes n).1 hn
    rw [← hp.leaf]
    exact hp.wf.exists_split hk
  choose! σ hσ using hsplit
  have hpairs : p.pairs.Perm (c.leafNodes.map (fun n => (n, σ n))) := by
    have hnd : p.pairs.Nodup := by
      have := hp.wf.nodup
      rw [← hp.wf.pairs_fst] at this
      exact this.of_map
    refine (List.perm_ext_iff_of_nodup hnd ?_).2 ?_
    · exact List.Nodup.map (fun x y he => by simpa using (Prod.mk.inj he).1) h.leafNodes_nodup
    · rintro ⟨n, s⟩
      rw [List.mem_map]
      constructor
      · intro hq
        obtain ⟨k, hk, he⟩ := hp.wf.mem_pairs hq
        have hn : n ∈ c.leafNodes := (h.mem_leafNodes n).2 ⟨k, hk, by rw [← hp.leaf]; exact he⟩
        refine ⟨n, hn, ?_⟩
        rw [hp.wf.split_unique (hσ n hn) hq]
      · rintro ⟨m, hm, he⟩
        rw [← he]
        exact hσ m hm
  have hu : ∀ n ∈ c.leafNodes, ∀ s ∈ c.cands n, a (st.idx (.u n s)) = if s = σ n then 1 else 0 := by
    intro n hn s hs
    rw [ha _ ((mem_allVars c _ _).2 (Or.inr (Or.inr (Or.inl ((mem_splitVars c _).2 ⟨n, hn, s, hs, rfl⟩)))))]
    unfold valOf
    by_cases he : s = σ n
    · rw [if_pos he, he]
      simp [hσ n hn]
    · rw [if_neg he]
      simp only
      rw [if_neg]
      intro hc
      exact he (hp.wf.split_unique hc (hσ n hn))
  have hch : Chooses c st a σ := by
    intro n hn
    refine ⟨?_, hu n hn⟩
    rw [c.cands_eq]
    exact hp.cand _ (hσ n hn)
  have hfol : ∀ left, Follows d left p ↔ Towards c left σ := by
    intro left
    rw [follows_iff hp.wf]
    have e : (createLeaf p.leafId d).leftNodes = c.leaf.leftNodes := by rw [hp.leaf, ← h.leaf]
    rw [e]
    constructor
    · intro hq n hn
      exact hq _ (hσ n hn)
    · intro htw q hq
      have := hpairs.mem_iff.1 hq
      obtain ⟨n, hn, rfl⟩ := List.mem_map.1 this
      exact htw n hn
  have hy : ∀ i, Kept c i → a (st.idx (.y i)) = if Follows d (rowPat c i) p then 1 else 0 := fun i hk =>
    ha _ ((mem_allVars c _ _).2 (Or.inl ((mem_rowVars c _).2 (Or.inl ⟨i, hk, rfl⟩))))
  have hz : c.isOld = false → ∀ i, Kept c i → a (st.idx (.z i)) = if Follows d (rowPat c i) p ∧ c.y.getD i 0 = t then 1 else 0 := fun hold i hk =>
    ha _ ((mem_allVars c _ _).2 (Or.inl ((mem_rowVars c _).2 (Or.inr ⟨hold, i, hk, rfl⟩))))
  have hyc : ∀ k < cuts.length, a (st.idx (.yc k)) = if Follows d (cutPat cuts k) p then 1 else 0 := fun k hk =>
    ha _ ((mem_allVars c _ _).2 (Or.inr (Or.inl ⟨k, hk, rfl⟩)))
  have hw : c.isOld = false → ∀ t' < c.targets.length, a (st.idx (.w t')) = if t' = t then 1 else 0 := fun hold t' ht' =>
    ha _ ((mem_allVars c _ _).2 (Or.inr (Or.inr (Or.inr ⟨hold, t', ht', rfl⟩))))
  have hm : Means c cuts st a σ := by
    refine ⟨hch, ?_, ?_, ?_, ?_⟩
    · intro i hk
      rw [hy i hk]
      exact if_congr (hfol _) rfl rfl
    · intro k hk
      rw [hyc k hk]
      exact if_congr (hfol _) rfl rfl
    · intro hold
      have e : (List.range c.targets.length).map (fun t => a (st.idx (.w t))) = (List.range c.targets.length).map (fun t' => if t' = t then (1 : ℚ) else 0) :=
        List.map_congr_left (fun t' ht' => hw hold t' (List.mem_range.1 ht'))
      rw [e, sum_ite_mem _ List.nodup_range, if_pos (List.mem_range.2 ht)]
      exact ⟨le_rfl, fun _ => rfl⟩
    · intro hold i hk
      rw [hz hold i hk, hy i hk, hw hold _ (h.y_lt i hk.1)]
      constructor <;> split_ifs <;> first | (exfalso; tauto) | norm_num
  have hb : ∀ o ∈ c.allVars cuts.length, a (st.idx o) = 0 ∨ a (st.idx o) = 1 := by
    intro o ho
    rw [ha o ho]
    cases o <;> simp only [valOf] <;> split_ifs <;> simp
  refine ⟨a, (hi.feasible_iff h rfl a).2 ⟨hb, σ, hm⟩, hb, ?_, ha⟩
  have hred := redCost_pathOf h hm (List.Perm.refl c.leafNodes) D
  rw [← hred]
  have := redCost_congr (d := d) (c := c) (cuts := cuts) (D := D) (p := p) (q := c.pathOf st a c.leafNodes (c.costOf st a))
    (by rw [hp.leaf]; rfl) (by rw [pathOf_pairs hch c.leafNodes (fun n hn => hn)]; exact hpairs)
  have e0 : (c.pathOf st a c.leafNodes (c.costOf st a)).cost = c.costOf st a := rfl
  rw [e0] at this
  linarith

theorem point_of_path {d : ℕ} {c : SubConf} (h : SubOk d c) {cuts : List (List Bool)} {own : List SV} {lins : List Lin} {st : SubSt}
    (hi : SubInv c cuts.length cuts own lins st) {p : Path} (hp : CandPath d c p) {t : ℕ} (ht : t < c.targets.length)
    (hold : c.isOld = false) (D : Duals) :
    ∃ a, st.m.Feasible a ∧ (∀ o ∈ c.allVars cuts.length, a (st.idx o) = 0 ∨ a (st.idx o) = 1) ∧
      ((c.objTerms D cuts.length).map (fun t => t.2 * a (st.idx t.1))).sum - D.leaf.getD c.leaf.id 0 =
        redCost d c cuts D p - p.cost + hitsOf d c p t ∧
      (c.kept.map (fun i => c.weight i * a (st.idx (.z i)))).sum = hitsOf d c p t ∧
      ∀ o ∈ c.allVars cuts.length, a (st.idx o) = valOf d c cuts p t o := by
  classical
  obtain ⟨a, haf, hb, hred, ha⟩ := point_core h hi hp ht D
  have hz : ∀ i, Kept c i → a (st.idx (.z i)) = if Follows d (rowPat c i) p ∧ c.y.getD i 0 = t then 1 else 0 := fun i hk =>
    ha _ ((mem_allVars c _ _).2 (Or.inl ((mem_rowVars c _).2 (Or.inr ⟨hold, i, hk, rfl⟩))))
  have hcost : (c.kept.map (fun i => c.weight i * a (st.idx (.z i)))).sum = hitsOf d c p t := by
    unfold hitsOf
    rw [keptSum_eq]
    congr 1
    refine List.map_congr_left ?_
    intro i hk
    rw [hz i ((mem_kept c i).1 hk), weight_eq]
    by_cases hc : Follows d (rowPat c i) p ∧ c.y.getD i 0 = t
    · rw [if_pos hc, if_pos ⟨hc.1, by exact_mod_cast hc.2⟩, mul_one]
    · rw [if_neg hc, if_neg (fun h' => hc ⟨h'.1, by exact_mod_cast h'.2⟩), mul_zero]
  have hco : c.costOf st a = hitsOf d c p t := by
    rw [← hcost]
    unfold SubConf.costOf
    unfold SubConf.isOld at hold
    cases hk : c.kind with
    | mip => rfl
    | sat => rfl
    | old t => rw [hk] at hold; simp at hold
  exact ⟨a, haf, hb, by rw [hred, hco], hcost, ha⟩

/-- The number of kept rows of class `t` that follow the path, not weighted. -/
noncomputable def Spec.countOf (d : ℕ) (c : SubConf) (p : Path) (t : ℤ) : ℚ :=
  keptSum c (fun i => Follows d (rowPat c i) p ∧ ((c.y.getD i 0 : ℕ) : ℤ) = t) (fun _ => 1)

theorem sum_filter_eq {α : Type*} (l : List α) (P : α → Bool) (f : α → ℚ) :
    ((l.filter P).map f).sum = (l.map (fun x => if P x = true then f x else 0)).sum := by
  induction l with
  | nil => rfl
  | cons x l ih => by_cases hx : P x = true <;> simp [hx, ih]

theorem point_old {d : ℕ} {c : SubConf} (h : SubOk d c) {cuts : List (List Bool)} {own : List SV} {lins : List Lin} {st : SubSt}
    (hi : SubInv c cuts.length cuts own lins st) {p : Path} (hp : CandPath d c p) {t : ℕ} (ht : t ∈ c.targets) (hk : c.kind = .old t) (D : Duals) :
    ∃ a, st.m.Feasible a ∧ ((c.objTerms D cuts.length).map (fun t => t.2 * a (st.idx t.1))).sum - D.leaf.getD c.leaf.id 0 =
        redCost d c cuts D p - p.cost + countOf d c p t := by
  classical
  obtain ⟨a, haf, hb, hred, ha⟩ := point_core h hi hp (List.mem_range.1 (h.targets.mem_iff.1 ht)) D
  refine ⟨a, haf, ?_⟩
  rw [hred]
  congr 1
  unfold SubConf.costOf countOf
  rw [hk]
  simp only
  rw [keptSum_eq, sum_filter_eq]
  refine congrArg List.sum (List.map_congr_left ?_)
  intro i hik
  have hy : a (st.idx (.y i)) = if Follows d (rowPat c i) p then 1 else 0 :=
    ha _ ((mem_allVars c _ _).2 (Or.inl ((mem_rowVars c _).2 (Or.inl ⟨i, (mem_kept c i).1 hik, rfl⟩))))
  rw [hy]
  simp only [decide_eq_true_eq]
  by_cases h1 : c.y.getD i 0 = t <;> by_cases h2 : Follows d (rowPat c i) p
  · rw [if_pos h1, if_pos h2, if_pos ⟨h2, by exact_mod_cast h1⟩]
  · rw [if_pos h1, if_neg h2, if_neg (fun h' => h2 h'.1)]
  · rw [if_neg h1, if_neg (fun h' => h1 (by exact_mod_cast h'.2))]
  · rw [if_neg h1, if_neg (fun h' => h2 h'.1)]

theorem pyRound_err (x : ℚ) : |(pyRound x : ℚ) - x| ≤ 1 / 2 := by
  have h1 := Int.floor_le x
  have h2 := Int.lt_floor_add_one x
  unfold pyRound
  rw [abs_le]
  split_ifs <;> push_cast <;> constructor <;> linarith

theorem pyRound_int (z : ℤ) : pyRound z = z := by
  unfold pyRound
  simp

theorem scaleObj_err (x : ℚ) : |scaleObj x - x * 100000| ≤ 1 / 2 := pyRound_err _

/-- Scaling and rounding the coefficients of a 0/1 point changes the sum by at most half a unit per term. -/
theorem scaled_sum {α : Type*} (l : List α) (q x : α → ℚ) (hx : ∀ t ∈ l, x t = 0 ∨ x t = 1) :
    |(l.map (fun t => scaleObj (q t) * x t)).sum - 100000 * (l.map (fun t => q t * x t)).sum| ≤ l.length / 2 := by
  induction l with
  | nil => simp
  | cons t l ih =>
    have h1 := ih (fun u hu => hx u (by simp [hu]))
    have h2 : |scaleObj (q t) * x t - 100000 * (q t * x t)| ≤ 1 / 2 := by
      rcases hx t (by simp) with e | e
      · rw [e]; norm_num
      · rw [e]
        have := scaleObj_err (q t)
        rw [show scaleObj (q t) * 1 - 100000 * (q t * 1) = scaleObj (q t) - q t * 100000 by ring]
        exact this
    simp only [List.map_cons, List.sum_cons, List.length_cons]
    push_cast
    rw [abs_le] at h1 h2 ⊢
    constructor <;> linarith [h1.1, h1.2, h2.1, h2.2]

/-- The number of objective terms: two per kept row, one per cut and one per candidate split of the nodes of the leaf. -/
def Spec.numTerms (d : ℕ) (c : SubConf) (cuts : List (List Bool)) : ℕ :=
  2 * ((List.range c.X.length).filter (fun i => !c.removed i)).length + cuts.length +
    ((List.range d).map (fun k => (cand c.nodes (anc d c.leaf.id k)).length)).sum

theorem objTerms_length {d : ℕ} {c : SubConf} (h : SubOk d c) (D : Duals) (cuts : List (List Bool)) (hold : c.isOld = false) :
    (c.objTerms D cuts.length).length = numTerms d c cuts := by
  have e : (c.objTerms D cuts.length).length = ((c.objTerms D cuts.length).map (·.1)).length := by simp
  rw [e, objTerms_keys]
  unfold SubConf.rowVars SubConf.splitVars numTerms
  rw [hold]
  simp only [List.length_append, List.length_flatMap, List.length_map, List.length_range]
  have e1 : (c.kept.map (fun i => (if false = true then [SV.y i] else [SV.z i, SV.y i]).length)).sum =
      2 * ((List.range c.X.length).filter (fun i => !c.removed i)).length := by
    show (c.kept.map (fun _ => 2)).sum = 2 * c.kept.length
    simp
    ring
  rw [e1]
  congr 1
  have e2 := ((h.leafNodes_perm).map (fun n => (c.cands n).length)).sum_eq
  rw [e2, List.map_map]
  simp only [Function.comp_def, c.cands_eq]

/-- The rejected and returned solutions of `DTreeSubProblemSat.generate_columns` when an optimal solution of the scaled program was found:
no candidate path of the leaf, with any class, is better than the best returned path by more than the rounding error. -/
theorem sat_complete {d : ℕ} {c : SubConf} (h : SubOk d c) (hk : c.kind = .sat) {cuts : List (List Bool)} {st st' : SubSt}
    (hr : SubReached c cuts st) {D : Duals} (hD : D.cut.length = cuts.length) {sols : Model → List (ℕ → ℚ)} {ps : List Path}
    (hgen : c.generateSat D sols st = (.ok ps, st'))
    {best : ℕ → ℚ} (hb : best ∈ sols st'.m) (hf : st'.m.Feasible best) (hopt : ∀ a, st'.m.Feasible a → st'.m.value a ≤ st'.m.value best)
    {q : Path} (hq : CandPath d c q) {t : ℕ} (ht : t ∈ c.targets) (hc : q.cost ≤ hitsOf d c q t) :
    ((∃ p ∈ ps, redCost d c cuts D q ≤ redCost d c cuts D p + numTerms d c cuts / 100000) ∨
      redCost d c cuts D q ≤ 1 / 1000000 + numTerms d c cuts / 100000) := by
  unfold SubConf.generateSat at hgen
  rcases hrf : c.refresh D st with e | st1
  · rw [hrf] at hgen; simp at hgen
  · rw [hrf] at hgen
    simp only [Prod.mk.injEq, Except.ok.injEq] at hgen
    obtain ⟨rfl, rfl⟩ := hgen
    obtain ⟨-, own, lins, hi, ho⟩ := refresh_inv h (hr.state h) (by omega) hrf
    have hold : c.isOld = false := by unfold SubConf.isOld; rw [hk]
    have hncuts := hi.ncuts
    have hvars := hi.vars
    have hval := ho.value h hi.rep hi.vars
    have horig := origObjective_eq ho hk hi.ncuts best
    rw [hD] at hi hval horig
    have ht' : t < c.targets.length := List.mem_range.1 (h.targets.mem_iff.1 ht)
    obtain ⟨a, haf, hab, hred, -, -⟩ := point_of_path h hi hq ht' hold D
    obtain ⟨hbb, σ, hm⟩ := (hi.feasible_iff h rfl best).1 hf
    have hv := hopt a haf
    rw [hval, hval] at hv
    have hsc : c.sc = scaleObj := by funext x; simp [SubConf.sc, hk]
    rw [hsc] at hv
    have hmem : ∀ u ∈ c.objTerms D cuts.length, u.1 ∈ c.allVars cuts.length := by
      intro u hu
      unfold SubConf.allVars
      rw [← objTerms_keys c D]
      exact List.mem_append_left _ (List.mem_map.2 ⟨u, hu, rfl⟩)
    have e1 := scaled_sum (c.objTerms D cuts.length) (fun u => u.2) (fun u => a (st1.idx u.1)) (fun u hu => hab _ (hmem u hu))
    have e2 := scaled_sum (c.objTerms D cuts.length) (fun u => u.2) (fun u => best (st1.idx u.1)) (fun u hu => hbb _ (hmem u hu))
    rw [objTerms_length h D cuts hold] at e1 e2
    rw [abs_le] at e1 e2
    have hle : redCost d c cuts D q ≤ ((c.objTerms D cuts.length).map (fun t => t.2 * best (st1.idx t.1))).sum - D.leaf.getD c.leaf.id 0 +
        numTerms d c cuts / 100000 := by
      have h1 : redCost d c cuts D q ≤ ((c.objTerms D cuts.length).map (fun t => t.2 * a (st1.idx t.1))).sum - D.leaf.getD c.leaf.id 0 := by
        rw [hred]; linarith
      linarith [e1.1, e1.2, e2.1, e2.2]
    by_cases hgt : c.origObjective D st1 best > tol
    · refine Or.inl ⟨c.pathOf st1 best c.leafNodes (c.costOf st1 best), (pathCallback_mem _ _ _ _ _ _).2 (Or.inr ⟨best, hb, hgt, rfl⟩), ?_⟩
      rw [redCost_pathOf h hm (List.Perm.refl _) D]
      exact hle
    · refine Or.inr ?_
      rw [horig] at hgt
      unfold tol at hgt
      linarith

/-- C48: if `DTreeSubProblemSat.generate_columns` returns no path although an optimal solution of the scaled program was among the solutions
passed to the callback, no candidate path of the leaf has, with any class and a cost up to its weighted number of hits, a reduced cost above
`1e-6` plus `1e-5` per objective term. -/
theorem C48_rounding {d : ℕ} {c : SubConf} (h : SubOk d c) (hk : c.kind = .sat) {cuts : List (List Bool)} {st st' : SubSt}
    (hr : SubReached c cuts st) {D : Duals} (hD : D.cut.length = cuts.length) {sols : Model → List (ℕ → ℚ)}
    (hgen : c.generateSat D sols st = (.ok [], st'))
    {best : ℕ → ℚ} (hb : best ∈ sols st'.m) (hf : st'.m.Feasible best) (hopt : ∀ a, st'.m.Feasible a → st'.m.value a ≤ st'.m.value best)
    {q : Path} (hq : CandPath d c q) {t : ℕ} (ht : t ∈ c.targets) (hc : q.cost ≤ hitsOf d c q t) :
    redCost d c cuts D q ≤ 1 / 1000000 + numTerms d c cuts / 100000 := by
  rcases sat_complete h hk hr hD hgen hb hf hopt hq ht hc with ⟨p, hp, _⟩ | h1
  · simp at hp
  · exact h1

/-- C48, second part: when paths are returned and an optimal solution was found, one of them is best up to the rounding error. -/
theorem C48_best {d : ℕ} {c : SubConf} (h : SubOk d c) (hk : c.kind = .sat) {cuts : List (List Bool)} {st st' : SubSt}
    (hr : SubReached c cuts st) {D : Duals} (hD : D.cut.length = cuts.length) {sols : Model → List (ℕ → ℚ)} {ps : List Path}
    (hgen : c.generateSat D sols st = (.ok ps, st'))
    {best : ℕ → ℚ} (hb : best ∈ sols st'.m) (hf : st'.m.Feasible best) (hopt : ∀ a, st'.m.Feasible a → st'.m.value a ≤ st'.m.value best)
    {q : Path} (hq : CandPath d c q) {t : ℕ} (ht : t ∈ c.targets) (hc : q.cost ≤ hitsOf d c q t)
    (hbig : redCost d c cuts D q > 1 / 1000000 + numTerms d c cuts / 100000) :
    ∃ p ∈ ps, redCost d c cuts D q ≤ redCost d c cuts D p + numTerms d c cuts / 100000 := by
  rcases sat_complete h hk hr hD hgen hb hf hopt hq ht hc with h1 | h1
  · exact h1
  · linarith

/-- Exact pricing (`DTreeSubProblem`) is complete: if an optimal answer leads to no path, no candidate path of the leaf has, with any class,
a reduced cost above `1e-6`. -/
theorem C48_mip_exact {d : ℕ} {c : SubConf} (h : SubOk d c) (hk : c.kind = .mip) {cuts : List (List Bool)} {st st' : SubSt}
    (hr : SubReached c cuts st) {D : Duals} (hD : D.cut.length = cuts.length + D.newCuts.length) (hu : c.update D st = (.ok (), st'))
    {ans : Answer} (hs : ans.status = .optimal) (ha : IsOptimal st'.m ans) (hnone : c.generateMip st' ans = [])
    {q : Path} (hq : CandPath d c q) {t : ℕ} (ht : t ∈ c.targets) (hc : q.cost ≤ hitsOf d c q t) :
    redCost d c (cuts ++ D.newCuts) D q ≤ 1 / 1000000 := by
  have hns : c.kind ≠ .sat := by rw [hk]; simp
  have hold : c.isOld = false := by unfold SubConf.isOld; rw [hk]
  obtain ⟨-, h2⟩ := update_inv h (hr.state h) hD hu
  obtain ⟨-, own, lins, hi, ho⟩ := h2 hns
  have hlen : D.cut.length = (cuts ++ D.newCuts).length := by rw [hD, List.length_append]
  have hval := ho.value h hi.rep (by rw [hlen]; exact hi.vars)
  have ht' : t < c.targets.length := List.mem_range.1 (h.targets.mem_iff.1 ht)
  obtain ⟨a, haf, -, hred, -, -⟩ := point_of_path h hi hq ht' hold D
  have hle : ans.objective ≤ tol := by
    unfold SubConf.generateMip at hnone
    by_contra hc'
    rw [if_pos (Or.inl hs), if_neg hc'] at hnone
    simp at hnone
  have hb := ha.2 a haf
  unfold Model.better at hb
  rw [ho.maximize, if_pos rfl, hval] at hb
  have hsc : (fun u : SV × ℚ => c.sc u.2 * a (st'.idx u.1)) = fun u : SV × ℚ => u.2 * a (st'.idx u.1) := by
    funext u; simp [SubConf.sc, hns]
  rw [hsc, hlen, hred] at hb
  unfold tol at hle
  linarith

/-- Pricing of `DTreeSubProblemOld` is complete for its class, except that rows are counted without their weights: if an optimal answer leads to
no path, no candidate path of the leaf whose cost is at most its number of rows of the class has a reduced cost above `1e-6`. -/
theorem C48_old_exact {d : ℕ} {c : SubConf} (h : SubOk d c) {t : ℕ} (hk : c.kind = .old t) {cuts : List (List Bool)} {st st' : SubSt}
    (hr : SubReached c cuts st) {D : Duals} (hD : D.cut.length = cuts.length + D.newCuts.length) (hu : c.update D st = (.ok (), st'))
    {ans : Answer} (hs : ans.status = .optimal) (ha : IsOptimal st'.m ans) (hnone : c.generateMip st' ans = [])
    {q : Path} (hq : CandPath d c q) (ht : t ∈ c.targets) (hc : q.cost ≤ countOf d c q t) :
    redCost d c (cuts ++ D.newCuts) D q ≤ 1 / 1000000 := by
  have hns : c.kind ≠ .sat := by rw [hk]; simp
  obtain ⟨-, h2⟩ := update_inv h (hr.state h) hD hu
  obtain ⟨-, own, lins, hi, ho⟩ := h2 hns
  have hlen : D.cut.length = (cuts ++ D.newCuts).length := by rw [hD, List.length_append]
  have hval := ho.value h hi.rep (by rw [hlen]; exact hi.vars)
  obtain ⟨a, haf, hred⟩ := point_old h hi hq ht hk D
  have hle : ans.objective ≤ tol := by
    unfold SubConf.generateMip at hnone
    by_contra hc'
    rw [if_pos (Or.inl hs), if_neg hc'] at hnone
    simp at hnone
  have hb := ha.2 a haf
  unfold Model.better at hb
  rw [ho.maximize, if_pos rfl, hval] at hb
  have hsc : (fun u : SV × ℚ => c.sc u.2 * a (st'.idx u.1)) = fun u : SV × ℚ => u.2 * a (st'.idx u.1) := by
    funext u; simp [SubConf.sc, hns]
  rw [hsc, hlen, hred] at hb
  unfold tol at hle
  linarith

end Verif.DTree
