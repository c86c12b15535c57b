import Verif.DTree.LpProps
import Verif.BDR.Props

/-!
# Properties C52, C53, C54, C56 and C57: cuts, columns and constructor checks
-/

set_option linter.unusedSectionVars false
set_option linter.unusedSimpArgs false

namespace Verif.DTree

open MP Spec

/-! ## C52 -/

/-- A value of one feature that produces the pattern. -/
theorem exists_value (splits : List Split) (hd : Distinct splits) (a : ℕ → Bool) (hm : Monotone splits a) (f : ℕ) :
    ∃ x : ℚ, ∀ i < splits.length, (splitAt splits i).feature = f → (x ≤ (splitAt splits i).threshold ↔ a i = true) := by
  classical
  let T := (Finset.range splits.length).filter (fun i => (splitAt splits i).feature = f ∧ a i = true)
  by_cases hT : T.Nonempty
  · obtain ⟨j, hj, hmin⟩ := Finset.exists_min_image T (fun i => (splitAt splits i).threshold) hT
    simp only [T, Finset.mem_filter, Finset.mem_range] at hj hmin
    refine ⟨(splitAt splits j).threshold, ?_⟩
    intro i hi hf
    constructor
    · intro hle
      rcases lt_or_eq_of_le hle with hlt | heq
      · exact hm j hj.1 i hi (hj.2.1.trans hf.symm) hlt hj.2.2
      · by_cases hij : j = i
        · rw [← hij]; exact hj.2.2
        · exact absurd heq (hd j hj.1 i hi hij (hj.2.1.trans hf.symm))
    · intro ha
      exact hmin i ⟨hi, hf, ha⟩
  · have hnone : ∀ i < splits.length, (splitAt splits i).feature = f → a i = false := by
      intro i hi hf
      by_contra ha
      apply hT
      exact ⟨i, by simp only [T, Finset.mem_filter, Finset.mem_range]; exact ⟨hi, hf, by simpa using ha⟩⟩
    let U := (Finset.range splits.length).filter (fun i => (splitAt splits i).feature = f)
    by_cases hU : U.Nonempty
    · obtain ⟨j, hj, hmax⟩ := Finset.exists_max_image U (fun i => (splitAt splits i).threshold) hU
      simp only [U, Finset.mem_filter, Finset.mem_range] at hj hmax
      refine ⟨(splitAt splits j).threshold + 1, ?_⟩
      intro i hi hf
      have := hmax i ⟨hi, hf⟩
      rw [hnone i hi hf]
      constructor
      · intro h; linarith
      · intro h; cases h
    · refine ⟨0, ?_⟩
      intro i hi hf
      exfalso
      apply hU
      exact ⟨i, by simp only [U, Finset.mem_filter, Finset.mem_range]; exact ⟨hi, hf⟩⟩

/-- Monotone patterns are the patterns of rows. -/
theorem realizable (splits : List Split) (hd : Distinct splits) (a : ℕ → Bool) :
    Monotone splits a ↔ ∃ row : List ℚ, ∀ i < splits.length, takesLeft row (splitAt splits i) = a i := by
  constructor
  · intro hm
    choose val hval using exists_value splits hd a hm
    let F := (Finset.range splits.length).sup (fun i => (splitAt splits i).feature)
    refine ⟨(List.range (F + 1)).map val, ?_⟩
    intro i hi
    have hF : (splitAt splits i).feature ≤ F :=
      Finset.le_sup (f := fun i => (splitAt splits i).feature) (Finset.mem_range.2 hi)
    unfold takesLeft feat
    rw [List.getD_eq_getElem?_getD, List.getElem?_map, List.getElem?_range (by omega)]
    simp only [Option.map_some, Option.getD_some]
    rw [Bool.eq_iff_iff, decide_eq_true_eq]
    exact hval _ i hi rfl
  · rintro ⟨row, hrow⟩ i hi j hj hf hlt ha
    rw [← hrow i hi] at ha
    rw [← hrow j hj]
    unfold takesLeft at *
    rw [decide_eq_true_eq] at *
    rw [← hf]
    linarith

theorem monotone_same {splits' splits : List Split} (h : Same splits' splits) (hid : ∀ i (s : Split), splits[i]? = some s → s.id = i) {row : List ℚ}
    {a : ℕ → Bool} : (∀ i < splits.length, takesLeft row (splitAt splits' i) = a i) ↔ ∀ i < splits.length, takesLeft row (splitAt splits i) = a i := by
  have := h.rowLeft row
  constructor
  · intro hh i hi
    have e : rowLeft splits' row i = rowLeft splits row i := by rw [this]
    exact e.symm.trans (hh i hi)
  · intro hh i hi
    have e : rowLeft splits' row i = rowLeft splits row i := by rw [this]
    exact e.trans (hh i hi)

/-- **C52.** In every reached state: a pattern of the splits extends to a feasible point of the cut generation model iff some row of real
(rational) numbers produces it, and in every feasible point the variable of a path is 1 iff the pattern follows the path. -/
theorem C52_cut_model {d : ℕ} {c : Conf} {o : Oracle} {paths : List Path} {splits : List Split} {dataRows : Option (List Row)}
    (hs : Setup d c splits dataRows) (hp : ∀ p ∈ paths, GoodPath d splits p) (ho : CutSound o) {s : MS}
    (h : Reached d c o paths splits dataRows s) :
    s.cutSplitVars.length = splits.length ∧ s.cutPathVars.length = s.paths.length ∧ (s.cutSplitVars ++ s.cutPathVars).Nodup ∧
    (∀ b, s.cp.Holds b → ∀ (i v : ℕ) (p : Path), s.cutPathVars[i]? = some v → s.paths[i]? = some p →
      (b v = true ↔ Follows d (fun t => b (s.cutSplitVars.getD t 0)) p)) ∧
    ∀ pattern : ℕ → Bool, (∃ b, s.cp.Holds b ∧ ∀ t < splits.length, b (s.cutSplitVars.getD t 0) = pattern t) ↔
      ∃ row : List ℚ, ∀ t < splits.length, takesLeft row (splitAt s.splits t) = pattern t := by
  obtain ⟨cuts, own, cd, hi⟩ := reached_inv hs hp ho h
  have hsv : ∀ t < splits.length, s.cutSplitVars.getD t 0 = t := by
    intro t ht
    rw [hi.cut.sv, List.getD_eq_getElem?_getD, List.getElem?_range ht]
    rfl
  have hfol : ∀ (b : ℕ → Bool) (p : Path), p ∈ s.paths → (Follows d (fun t => b (s.cutSplitVars.getD t 0)) p ↔ Follows d b p) := by
    intro b p hp
    apply follows_congr
    intro t ht
    rw [hsv t ((hi.good p hp).2 t ht)]
  refine ⟨by rw [hi.cut.sv]; simp, by rw [hi.cut.pv]; simp, ?_, ?_, ?_⟩
  · rw [hi.cut.sv, hi.cut.pv, List.nodup_append]
    refine ⟨List.nodup_range, List.nodup_range', ?_⟩
    intro x hx y hy
    rw [List.mem_range] at hx
    rw [List.mem_range'] at hy
    obtain ⟨i, _, rfl⟩ := hy
    omega
  · intro b hb i v p hv hip
    have hi' := (List.getElem?_eq_some_iff.1 hip).1
    rw [hi.cut.pv, List.getElem?_range' (by omega)] at hv
    injection hv with hv
    rw [hfol b p (List.mem_of_getElem? hip), ← hv]
    have := ((hi.cut.holds b).1 hb).1 i p hip
    rw [one_mul]
    exact this
  · intro pattern
    constructor
    · rintro ⟨b, hb, he⟩
      have hm := ((hi.cut.holds b).1 hb).2
      have hm' : Monotone splits pattern := by
        intro i hi' j hj hf hlt ha
        rw [← he i hi', hsv i hi'] at ha
        rw [← he j hj, hsv j hj]
        exact hm i hi' j hj hf hlt ha
      obtain ⟨row, hrow⟩ := (realizable splits hi.distinct pattern).1 hm'
      exact ⟨row, (monotone_same hi.same hs.tree.split_id).2 hrow⟩
    · rintro ⟨row, hrow⟩
      have hm' := (realizable splits hi.distinct pattern).2 ⟨row, (monotone_same hi.same hs.tree.split_id).1 hrow⟩
      classical
      let b : ℕ → Bool := fun v => if v < splits.length then pattern v else
        match s.paths[v - splits.length]? with
        | some p => decide (Follows d pattern p)
        | none => false
      have hbp : ∀ t < splits.length, b t = pattern t := fun t ht => if_pos ht
      refine ⟨b, (hi.cut.holds b).2 ⟨?_, ?_⟩, ?_⟩
      · intro i p hip
        have hb1 : b (splits.length + i) = decide (Follows d pattern p) := by
          simp only [b]
          rw [if_neg (by omega), show splits.length + i - splits.length = i by omega, hip]
        rw [hb1, decide_eq_true_eq]
        apply follows_congr
        intro t ht
        exact (hbp t ((hi.good p (List.mem_of_getElem? hip)).2 t ht)).symm
      · intro i hi' j hj hf hlt ha
        rw [hbp i hi'] at ha
        rw [hbp j hj]
        exact hm' i hi' j hj hf hlt ha
      · intro t ht
        rw [hsv t ht]
        exact hbp t ht

/-- **C52**, when the model can be built: `generate_mp` raises `AssertionError` exactly if two splits have the same feature and threshold,
and otherwise succeeds. -/
theorem C52_generate {d : ℕ} {c : Conf} {paths : List Path} {splits : List Split} {dataRows : Option (List Row)}
    (hs : Setup d c splits dataRows) (hp : ∀ p ∈ paths, GoodPath d splits p) :
    ((generateMp c (MS.init paths splits dataRows)).1 = .ok () ↔ Distinct splits) ∧
    (¬ Distinct splits → (generateMp c (MS.init paths splits dataRows)).1 = .error .assertionError) := by
  obtain ⟨hc1, hc2⟩ := createCutModel_spec splits paths hp
  unfold generateMp
  rw [if_neg (by simp [MS.init])]
  cases hcm : createCutModel c.leaves (MS.init paths splits dataRows).splits (MS.init paths splits dataRows).paths with
  | error e =>
    obtain ⟨he, hnd⟩ := hc2 e (by rw [← hs.tree.leaves]; exact hcm)
    subst he
    refine ⟨⟨(fun h => by cases h), fun h => absurd h hnd⟩, fun _ => rfl⟩
  | ok x =>
    obtain ⟨cp, sv, pv⟩ := x
    obtain ⟨_, hdist⟩ := hc1 cp sv pv (by rw [← hs.tree.leaves]; exact hcm)
    exact ⟨⟨fun _ => hdist, fun _ => rfl⟩, fun h => absurd hdist h⟩

/-! ## C53 -/

theorem zip_filter_sum (paths : List Path) (cut : List Bool) (sol : ℕ → ℚ) (P : Path → Prop)
    (h : ∀ (i : ℕ) (p : Path), paths[i]? = some p → (cut[i]? = some true ↔ P p)) :
    (((paths.zip cut).filter (fun t => t.2)).map (fun t => sol t.1.id)).sum = pathSum paths sol P := by
  rw [pathSum_eq]
  induction paths generalizing cut with
  | nil => simp
  | cons p ps ih =>
    cases cut with
    | nil =>
      simp only [List.zip_nil_right, List.filter_nil, List.map_nil, List.sum_nil]
      symm
      apply List.sum_eq_zero
      intro y hy
      obtain ⟨q, hq, rfl⟩ := List.mem_map.1 hy
      obtain ⟨i, hi⟩ := List.mem_iff_getElem?.1 hq
      rw [ind_neg, zero_mul]
      intro hP
      have := (h i q hi).2 hP
      simp at this
    | cons b bs =>
      have h0 := h 0 p rfl
      simp only [List.getElem?_cons_zero, Option.some.injEq] at h0
      rw [List.zip_cons_cons, List.filter_cons, List.map_cons, List.sum_cons,
        ← ih bs (fun i q hq => by simpa using h (i + 1) q (by simpa using hq))]
      cases b
      · rw [ind_neg (fun hP => by simpa using h0.2 hP)]
        simp
      · rw [ind_pos (h0.1 rfl)]
        simp

/-- **C53.** Every cut that `add_cuts` records is violated by the stored LP solution by more than `1e-6`, is the pattern of some row, and
becomes a new cut constraint whose pattern is remembered by the splits (in order). -/
theorem C53_cuts_separate {d : ℕ} {c : Conf} {o : Oracle} {paths : List Path} {splits : List Split} {dataRows : Option (List Row)}
    (hs : Setup d c splits dataRows) (hp : ∀ p ∈ paths, GoodPath d splits p) (ho : CutSound o) {s : MS}
    (h : Reached d c o paths splits dataRows s) :
    (addCuts o s).2.cutCons.length = s.cutCons.length + (addCuts o s).1.length ∧
    ∀ (k : ℕ) (x : List Bool), (addCuts o s).1[k]? = some x →
      pathSum s.paths s.pathSol (Follows d (fun t => x.getD t false)) > 1 + 1 / 1000000 ∧
      (∀ t < splits.length, cutLeft (addCuts o s).2.splits (s.cutCons.length + k) t = x.getD t false) ∧
      (∃ row : List ℚ, ∀ t < splits.length, takesLeft row (splitAt s.splits t) = x.getD t false) ∧
      ¬ MasterFeasible d c (addCuts o s).2 s.pathSol := by
  obtain ⟨cuts, own, cd, hi⟩ := reached_inv hs hp ho h
  obtain ⟨k1, k2, k3, k4⟩ := inv_addCuts hs.tree.split_id hi ho
  have hlen : (addCuts o s).2.cutCons.length = s.cutCons.length + (addCuts o s).1.length := by
    rw [k1.cutlen, k2, hi.cutlen]; simp
  refine ⟨hlen, ?_⟩
  intro k x hx
  rw [k2, List.getElem?_map] at hx
  cases hrec : (recorded o s)[k]? with
  | none => rw [hrec] at hx; cases hx
  | some y =>
    rw [hrec] at hx
    injection hx with hx
    simp only at hx
    subst hx
    obtain ⟨r1, r2, r3, r4⟩ := recorded_spec hi ho y (List.mem_of_getElem? hrec)
    have hklt : k < (recorded o s).length := (List.getElem?_eq_some_iff.1 hrec).1
    have hsum : pathSum s.paths s.pathSol (Follows d (fun t => y.2.getD t false)) > 1 + 1 / 1000000 := by
      rw [← zip_filter_sum s.paths y.1 s.pathSol _ r3]
      exact r4
    have hcl : ∀ t < splits.length, cutLeft (addCuts o s).2.splits (s.cutCons.length + k) t = y.2.getD t false := by
      intro t ht
      rw [cutLeft_eq k1.cutsFilled (k1.same.id hs.tree.split_id) (by rw [hi.cutlen]; simp; omega) (by rw [k1.same.length]; exact ht)]
      unfold pat
      rw [hi.cutlen, List.getD_eq_getElem?_getD, List.getD_eq_getElem?_getD, List.getElem?_append_right (by omega),
        show cuts.length + k - cuts.length = k by omega, List.getElem?_map, hrec]
      simp [List.getD_eq_getElem?_getD]
    refine ⟨hsum, hcl, ?_, ?_⟩
    · obtain ⟨row, hrow⟩ := (realizable splits hi.distinct (fun t => y.2.getD t false)).1 r2
      exact ⟨row, (monotone_same hi.same hs.tree.split_id).2 hrow⟩
    · intro hmf
      have hc := hmf.cuts (s.cutCons.length + k) (by rw [hlen, k2]; simp; omega)
      rw [k3] at hc
      have : pathSum s.paths s.pathSol (Follows d (cutLeft (addCuts o s).2.splits (s.cutCons.length + k))) =
          pathSum s.paths s.pathSol (Follows d (fun t => y.2.getD t false)) := by
        apply pathSum_congr
        intro p hp
        apply follows_congr
        intro t ht
        exact hcl t ((hi.good p hp).2 t ht)
      rw [this] at hc
      rw [hc] at hsum
      norm_num at hsum

/-- **C53**, later columns: `add_column` gives the new variable coefficient 1 in exactly the cut constraints whose pattern the path
follows (and 0 in the others). -/
theorem C53_columns_enter_cuts {d : ℕ} {c : Conf} {o : Oracle} {paths : List Path} {splits : List Split} {dataRows : Option (List Row)}
    (hs : Setup d c splits dataRows) (hp : ∀ p ∈ paths, GoodPath d splits p) (ho : CutSound o) {s : MS}
    (h : Reached d c o paths splits dataRows s) {p : Path} (hgp : GoodPath d splits p) (k i : ℕ) (hk : s.cutCons[k]? = some i) :
    ∃ con, (addColumn c p s).2.m.cons[i]? = some con ∧
      (Follows d (cutLeft s.splits k) p → con.coeff s.m.vars.length = 1) ∧
      (¬ Follows d (cutLeft s.splits k) p → con.coeff s.m.vars.length = 0) := by
  obtain ⟨cuts, own, cd, hi⟩ := reached_inv hs hp ho h
  obtain ⟨k1, k2, _⟩ := inv_addColumn hs.depth hs.tree hs.filled hi hgp
  have hcd := (hi.cutc k i).1 hk
  have hklt : k < cuts.length := by
    rw [← hi.cutlen]
    exact (List.getElem?_eq_some_iff.1 hk).1
  have hlen := hi.rep.length_vars
  have hcong : Follows d (cutLeft s.splits k) p ↔ Follows d (pat cuts k) p := by
    apply follows_congr
    intro t ht
    exact cutLeft_eq hi.cutsFilled (hi.same.id hs.tree.split_id) hklt (by rw [hi.same.length]; exact hgp.2 t ht)
  refine ⟨_, by rw [k2.rep.cons, List.getElem?_map, hcd]; rfl, ?_, ?_⟩
  · intro hf
    simp only
    rw [hlen, atVar_append, if_pos rfl]
    exact ind_pos (hcong.1 hf)
  · intro hf
    simp only
    rw [hlen, atVar_append, if_pos rfl]
    exact ind_neg (fun h => hf (hcong.2 h))

/-! ## C54 -/

theorem Inv.cd_nodup {d : ℕ} {c : Conf} {splits : List Split} {cuts : List (List Bool)} {own : List Own} {cd : List CD} {s : MS}
    (h : Inv d c splits cuts own cd s) : cd.Nodup := by
  have hinj : ∀ (i j : ℕ) x, cd[i]? = some x → cd[j]? = some x → i = j := by
    intro i j x hi hj
    cases x with
    | leaf l =>
      have h1 := (h.leafc l i).2 hi
      rw [(h.leafc l j).2 hj] at h1
      injection h1 with h1
      exact h1.symm
    | row l =>
      have h1 := (h.rowc l i).2 hi
      rw [(h.rowc l j).2 hj] at h1
      injection h1 with h1
      exact h1.symm
    | ns l n t =>
      have h1 := (h.nsc l n t i).2 hi
      rw [(h.nsc l n t j).2 hj] at h1
      injection h1 with h1
      exact h1.symm
    | cut k =>
      have h1 := (h.cutc k i).2 hi
      rw [(h.cutc k j).2 hj] at h1
      injection h1 with h1
      exact h1.symm
  rw [List.nodup_iff_getElem?_ne_getElem?]
  intro i j hij hj he
  have h1 : cd[j]? = some (cd[j]) := List.getElem?_eq_getElem hj
  have := hinj i j _ (he.trans h1) h1
  omega

/-- The consistency constraints of the tree. -/
def nsAll (d : ℕ) (nodes : List Node) : List CD :=
  (List.range (2 ^ d)).flatMap (fun l => (List.range d).flatMap (fun k => (cand nodes (anc d l k)).map (fun t => CD.ns l (anc d l k) t)))

theorem mem_nsAll {d : ℕ} {nodes : List Node} {l n t : ℕ} :
    CD.ns l n t ∈ nsAll d nodes ↔ l < 2 ^ d ∧ ∃ k < d, n = anc d l k ∧ t ∈ cand nodes n := by
  unfold nsAll
  simp only [List.mem_flatMap, List.mem_range, List.mem_map, CD.ns.injEq]
  constructor
  · rintro ⟨l', hl, k, hk, t', ht, rfl, rfl, rfl⟩
    exact ⟨hl, k, hk, rfl, ht⟩
  · rintro ⟨hl, k, hk, rfl, ht⟩
    exact ⟨l, hl, k, hk, t, ht, rfl, rfl, rfl⟩

theorem nodup_nsAll {d : ℕ} {leaves : List Leaf} {nodes : List Node} {splits : List Split} (ht : Tree d leaves nodes splits) :
    (nsAll d nodes).Nodup := by
  unfold nsAll
  rw [List.nodup_flatMap]
  refine ⟨?_, ?_⟩
  · intro l hl
    rw [List.mem_range] at hl
    rw [List.nodup_flatMap]
    refine ⟨?_, ?_⟩
    · intro k hk
      rw [List.mem_range] at hk
      apply List.Nodup.map
      · intro a b he
        injection he
      · unfold cand
        cases hn : nodes[anc d l k]? with
        | none => simp
        | some n => simpa using ht.cand_nodup n (List.mem_of_getElem? hn)
    · apply List.Pairwise.imp_of_mem _ List.nodup_range
      intro k k' hk hk' hne
      rw [List.mem_range] at hk hk'
      intro x hx hx'
      obtain ⟨t, _, rfl⟩ := List.mem_map.1 hx
      obtain ⟨t', _, he⟩ := List.mem_map.1 hx'
      injection he with _ he _
      exact hne (anc_inj hl hk.le hk'.le he.symm)
  · apply List.Pairwise.imp_of_mem _ List.nodup_range
    intro l l' _ _ hne x hx hx'
    simp only [List.mem_flatMap, List.mem_map] at hx hx'
    obtain ⟨k, _, t, _, rfl⟩ := hx
    obtain ⟨k', _, t', _, he⟩ := hx'
    injection he with he _ _
    exact hne he.symm

/-- The rows with a constraint. -/
def addedRows (c : Conf) (s : MS) : List ℕ := (List.range c.X.length).filter (fun r => s.addedRow.getD r false)

theorem Inv.cd_perm {d : ℕ} {c : Conf} {splits : List Split} (ht : Tree d c.leaves c.nodes splits) {cuts : List (List Bool)}
    {own : List Own} {cd : List CD} {s : MS} (h : Inv d c splits cuts own cd s) :
    cd.Perm ((List.range (2 ^ d)).map .leaf ++ nsAll d c.nodes ++ (addedRows c s).map .row ++ (List.range cuts.length).map .cut) := by
  rw [List.perm_ext_iff_of_nodup h.cd_nodup]
  · intro x
    simp only [List.mem_append, List.mem_map, List.mem_range]
    cases x with
    | leaf l =>
      rw [h.leafmem]
      constructor
      · intro hl; exact Or.inl (Or.inl (Or.inl ⟨l, hl, rfl⟩))
      · rintro (((⟨a, ha, he⟩ | hn) | ⟨a, ha, he⟩) | ⟨a, ha, he⟩)
        · injection he with he; omega
        · simp [nsAll] at hn
        · cases he
        · cases he
    | row r =>
      rw [h.rowmem]
      constructor
      · intro hr; exact Or.inl (Or.inr ⟨r, by simp only [addedRows, List.mem_filter, List.mem_range]; exact hr, rfl⟩)
      · rintro (((⟨a, ha, he⟩ | hn) | ⟨a, ha, he⟩) | ⟨a, ha, he⟩)
        · cases he
        · simp [nsAll] at hn
        · injection he with he
          subst he
          simpa only [addedRows, List.mem_filter, List.mem_range] using ha
        · cases he
    | ns l n t =>
      rw [h.nscmem, ← mem_nsAll]
      constructor
      · intro hr; exact Or.inl (Or.inl (Or.inr hr))
      · rintro (((⟨a, ha, he⟩ | hn) | ⟨a, ha, he⟩) | ⟨a, ha, he⟩)
        · cases he
        · exact hn
        · cases he
        · cases he
    | cut k =>
      constructor
      · intro hk
        obtain ⟨i, hi⟩ := List.mem_iff_getElem?.1 hk
        have := (List.getElem?_eq_some_iff.1 ((h.cutc k i).2 hi)).1
        exact Or.inr ⟨k, by rw [← h.cutlen]; exact this, rfl⟩
      · rintro (((⟨a, ha, he⟩ | hn) | ⟨a, ha, he⟩) | ⟨a, ha, he⟩)
        · cases he
        · simp [nsAll] at hn
        · cases he
        · injection he with he
          subst he
          rw [← h.cutlen] at ha
          exact List.mem_of_getElem? ((h.cutc a _).1 (List.getElem?_eq_getElem ha))
  · have hx : ∀ {α : Type} (f : α → CD) (l : List α), (∀ a b, f a = f b → a = b) → l.Nodup → (l.map f).Nodup :=
      fun f l hf hl => List.Nodup.map (fun a b he => hf a b he) hl
    rw [List.nodup_append, List.nodup_append, List.nodup_append]
    refine ⟨⟨⟨hx _ _ (fun a b he => by injection he) List.nodup_range, nodup_nsAll ht, ?_⟩,
      hx _ _ (fun a b he => by injection he) (List.Nodup.filter _ List.nodup_range), ?_⟩,
      hx _ _ (fun a b he => by injection he) List.nodup_range, ?_⟩
    · intro a ha b hb he
      subst he
      obtain ⟨l, _, rfl⟩ := List.mem_map.1 ha
      simp [nsAll] at hb
    · intro a ha b hb he
      subst he
      obtain ⟨l, _, rfl⟩ := List.mem_map.1 hb
      simp [nsAll] at ha
    · intro a ha b hb he
      subst he
      obtain ⟨l, _, rfl⟩ := List.mem_map.1 hb
      simp [nsAll] at ha

/-- **C54**, one call: `add_beta_cuts` reports the number of constraints it adds, at most 10; they belong to different rows of the data
that are not removed and had no constraint before; only those rows are marked. -/
theorem C54_beta_call {d : ℕ} {c : Conf} {o : Oracle} {paths : List Path} {splits : List Split} {dataRows : Option (List Row)}
    (hs : Setup d c splits dataRows) (hp : ∀ p ∈ paths, GoodPath d splits p) (ho : CutSound o) {s : MS}
    (h : Reached d c o paths splits dataRows s) :
    (addBetaCuts c s).1 ≤ 10 ∧ (addBetaCuts c s).2.m.cons.length = s.m.cons.length + (addBetaCuts c s).1 ∧
    ∃ new : List ℕ, new.Nodup ∧ new.length = (addBetaCuts c s).1 ∧
      (∀ r ∈ new, r < c.X.length ∧ (rowAt (s.dataRows.getD []) r).removedFromMaster = false ∧ s.addedRow.getD r false = false ∧
        ∃ i, s.m.cons.length ≤ i ∧ (addBetaCuts c s).2.rowCons r = some i) ∧
      ∀ r < c.X.length, ((addBetaCuts c s).2.addedRow.getD r false = true ↔ s.addedRow.getD r false = true ∨ r ∈ new) := by
  obtain ⟨cuts, own, cd, hi⟩ := reached_inv hs hp ho h
  obtain ⟨new, k1, k2, k3, k4, k5, k6, _, _, _, _, k11⟩ := inv_addBetaCuts hi
  refine ⟨by omega, by rw [k2]; exact k11, new, k4, k2.symm, ?_, ?_⟩
  · intro r hr
    obtain ⟨q1, q2, q3, _⟩ := k5 r hr
    obtain ⟨i, hi'⟩ := List.mem_iff_getElem?.1 hr
    refine ⟨q1, q2, q3, cd.length + i, by rw [hi.rep.length_cons]; omega, ?_⟩
    rw [k1.rowc, List.getElem?_append_right (by omega), show cd.length + i - cd.length = i by omega, List.getElem?_map, hi']
    rfl
  · intro r hr
    by_cases hn : r ∈ new
    · exact ⟨fun _ => Or.inr hn, fun _ => (k5 r hn).2.2.2.2⟩
    · rw [k6 r hn]
      exact ⟨Or.inl, fun h => h.resolve_right hn⟩

/-- **C54**, all histories: the number of constraints of the model is always the number of leaves, plus one per leaf, node above it and
candidate split of that node, plus one per marked row, plus the number of cuts: every row has at most one constraint; different rows
have different constraints; the marked rows are exactly those with a constraint. -/
theorem C54_history {d : ℕ} {c : Conf} {o : Oracle} {paths : List Path} {splits : List Split} {dataRows : Option (List Row)}
    (hs : Setup d c splits dataRows) (hp : ∀ p ∈ paths, GoodPath d splits p) (ho : CutSound o) {s : MS}
    (h : Reached d c o paths splits dataRows s) :
    s.m.cons.length = 2 ^ d + ((List.range (2 ^ d)).map (fun l => ((List.range d).map (fun k => (cand c.nodes (anc d l k)).length)).sum)).sum +
      (addedRows c s).length + s.cutCons.length ∧
    (∀ r < c.X.length, s.addedRow.getD r false = true ↔ ∃ i < s.m.cons.length, s.rowCons r = some i) ∧
    ∀ r r' i, s.rowCons r = some i → s.rowCons r' = some i → r = r' := by
  obtain ⟨cuts, own, cd, hi⟩ := reached_inv hs hp ho h
  refine ⟨?_, ?_, ?_⟩
  · rw [hi.rep.length_cons, (hi.cd_perm hs.tree).length_eq, hi.cutlen]
    simp only [List.length_append, List.length_map, List.length_range, nsAll, List.length_flatMap]
  · intro r hr
    have := hi.rowmem r
    constructor
    · intro ha
      obtain ⟨i, hi'⟩ := List.mem_iff_getElem?.1 (this.2 ⟨hr, ha⟩)
      exact ⟨i, by rw [hi.rep.length_cons]; exact (List.getElem?_eq_some_iff.1 hi').1, (hi.rowc r i).2 hi'⟩
    · rintro ⟨i, _, hi'⟩
      exact (this.1 (List.mem_of_getElem? ((hi.rowc r i).1 hi'))).2
  · intro r r' i h1 h2
    have h3 := (hi.rowc r i).1 h1
    rw [(hi.rowc r' i).1 h2] at h3
    injection h3 with h3
    injection h3 with h3
    exact h3.symm

/-! ## C55 -/

/-- **C55**, the part that holds: the paths followed by an added row have a sum that differs from 1 by more than `1e-6`, and the new
constraint is violated by the solution iff the sum exceeds 1. The full claim (always violated) fails for sums below 1, see
`C55_refuted`. -/
theorem C55_beta_violated_partial {d : ℕ} {c : Conf} {o : Oracle} {paths : List Path} {splits : List Split} {dataRows : Option (List Row)}
    (hs : Setup d c splits dataRows) (hp : ∀ p ∈ paths, GoodPath d splits p) (ho : CutSound o) {s : MS}
    (h : Reached d c o paths splits dataRows s) (r : ℕ) (hr : r < c.X.length) (hnot : s.addedRow.getD r false = false)
    (hadd : (addBetaCuts c s).2.addedRow.getD r false = true) :
    |pathSum s.paths s.pathSol (Follows d (rowLeft s.splits (c.X.getD r []))) - 1| > 1 / 1000000 ∧
    ∃ i con, (addBetaCuts c s).2.rowCons r = some i ∧ (addBetaCuts c s).2.m.cons[i]? = some con ∧
      (¬ inBounds con.lb con.ub (activity (addBetaCuts c s).2.m.vars.length con.coeff s.pathSol) ↔
        1 < pathSum s.paths s.pathSol (Follows d (rowLeft s.splits (c.X.getD r [])))) := by
  obtain ⟨cuts, own, cd, hi⟩ := reached_inv hs hp ho h
  obtain ⟨new, k1, k2, k3, k4, k5, k6, k7, k8, k9, k10, k11⟩ := inv_addBetaCuts hi
  have hrn : r ∈ new := by
    by_contra hn
    rw [k6 r hn, hnot] at hadd
    cases hadd
  have hleft : rowLeft s.splits (c.X.getD r []) = rowLeft splits (c.X.getD r []) := hi.same.rowLeft _
  rw [hleft]
  constructor
  · obtain ⟨_, _, _, hv, _⟩ := k5 r hrn
    obtain ⟨rows, hrows, hlen, hdata⟩ := hi.data
    have hget : rows[r]? = some (rowAt (s.dataRows.getD []) r) := by
      rw [hrows, Option.getD_some]
      unfold rowAt
      rw [List.getD_eq_getElem?_getD, List.getElem?_eq_getElem (by omega)]
      rfl
    obtain ⟨hnd, hmem⟩ := hdata r _ hget
    have hsum : ((rowAt (s.dataRows.getD []) r).reachablePaths.map s.pathSol).sum =
        pathSum s.paths s.pathSol (Follows d (rowLeft splits (c.X.getD r []))) := by
      classical
      unfold pathSum
      have hperm : (rowAt (s.dataRows.getD []) r).reachablePaths.Perm
          ((s.paths.filter (fun p => decide (Follows d (rowLeft splits (c.X.getD r [])) p))).map (·.id)) := by
        rw [List.perm_ext_iff_of_nodup hnd]
        · intro i
          rw [hmem, List.mem_map]
          constructor
          · rintro ⟨p, hp, hid, hf⟩
            exact ⟨p, List.mem_filter.2 ⟨hp, by simpa using hf⟩, hid⟩
          · rintro ⟨p, hp, hid⟩
            obtain ⟨hp1, hp2⟩ := List.mem_filter.1 hp
            exact ⟨p, hp1, hid, by simpa using hp2⟩
        · exact List.Nodup.sublist (List.Sublist.map _ List.filter_sublist) hi.ids_nodup
      rw [(hperm.map s.pathSol).sum_eq, List.map_map]
      apply congrArg
      have : ∀ (f g : Path → Bool), (∀ p, f p = g p) → (s.paths.filter f).map (s.pathSol ∘ fun p => p.id) = (s.paths.filter g).map (fun p => s.pathSol p.id) := by
        intro f g hfg
        rw [funext hfg]
        rfl
      apply this
      intro p
      congr
    unfold violatedRow at hv
    rw [decide_eq_true_eq, hsum] at hv
    exact hv
  · obtain ⟨i, hi'⟩ := List.mem_iff_getElem?.1 ((k1.rowmem r).2 ⟨hr, hadd⟩)
    refine ⟨i, _, (k1.rowc r i).2 hi', by rw [k1.rep.cons, List.getElem?_map, hi']; rfl, ?_⟩
    have hact := k1.lhs s.pathSol (.row r) (List.mem_of_getElem? hi')
    rw [← activity_idx own _ s.pathSol (idxOf (addBetaCuts c s).2) k1.idx] at hact
    have e : activity (addBetaCuts c s).2.m.vars.length (atVar own ((sig d (fun r => rowLeft splits (c.X.getD r [])) (pat cuts)).coef (.row r))) s.pathSol =
        pathSum s.paths s.pathSol (Follows d (rowLeft splits (c.X.getD r []))) := by
      rw [k1.rep.length_vars, ← k7]
      refine hact.trans ?_
      simp only [rhoPart, add_zero]
      rfl
    rw [e]
    change ¬ inBounds none (some 1) _ ↔ _
    rw [MP.inBounds_le, not_le]

/-! ## C56 -/

/-- A new column at value 0 keeps feasibility and value. -/
theorem extend_zero {O C : Type} {S : Sig O C} {m m' : Model} {own : List O} {cd : List C} {x : O} (hr : Rep S m own cd)
    (hr' : Rep S m' (own ++ [x]) cd) {f : O → ℚ} (ho : ObjIs m own f) (ho' : ObjIs m' (own ++ [x]) f) (hoff : m.offset = m'.offset)
    (hx : inBounds (S.var x).lb (S.var x).ub 0) {a : ℕ → ℚ} (h : m.FeasibleLP a) :
    m'.FeasibleLP (Function.update a m.vars.length 0) ∧ m'.value (Function.update a m.vars.length 0) = m.value a := by
  have hl : m.vars.length = own.length := hr.length_vars
  have hl' : m'.vars.length = own.length + 1 := by rw [hr'.length_vars]; simp
  have hact : ∀ g : O → ℚ, activity (own.length + 1) (atVar (own ++ [x]) g) (Function.update a own.length 0) = activity own.length (atVar own g) a := by
    intro g
    unfold activity
    rw [Finset.sum_range_succ, Function.update_self, mul_zero, add_zero]
    apply Finset.sum_congr rfl
    intro i hi
    rw [Finset.mem_range] at hi
    rw [Function.update_of_ne (by omega), atVar_append, if_neg (by omega)]
  refine ⟨⟨?_, ?_⟩, ?_⟩
  · intro i v hv
    rw [hr'.vars, List.getElem?_map] at hv
    rw [hl]
    by_cases hi : i = own.length
    · subst hi
      rw [Function.update_self]
      simp only [List.getElem?_concat_length, Option.map_some, Option.some.injEq] at hv
      rw [← hv]
      exact hx
    · rw [Function.update_of_ne hi]
      apply h.bounds i v
      rw [hr.vars, List.getElem?_map, ← hv]
      rcases Nat.lt_or_ge i own.length with hlt | hge
      · rw [List.getElem?_append_left hlt]
      · rw [List.getElem?_eq_none hge, List.getElem?_eq_none (by rw [List.length_append, List.length_singleton]; omega)]
  · intro k con hk
    rw [hr'.cons, List.getElem?_map] at hk
    cases hc : cd[k]? with
    | none => rw [hc] at hk; cases hk
    | some q =>
      rw [hc] at hk
      simp only [Option.map_some, Option.some.injEq] at hk
      subst hk
      simp only
      rw [hl', hl, hact, ← hl]
      exact h.cons k ⟨S.lb q, S.ub q, atVar own (S.coef q)⟩ (by rw [hr.cons, List.getElem?_map, hc]; rfl)
  · unfold Model.value
    rw [hl', hl, ho', ho, hact, hoff]

/-- Calls of `add_column` for a list of paths. -/
def addColumns (c : Conf) (cols : List Path) (s : MS) : MS := cols.foldl (fun s p => (addColumn c p s).2) s

theorem addColumns_extend {d : ℕ} {c : Conf} {splits : List Split} {dataRows : Option (List Row)} (hs : Setup d c splits dataRows)
    (cols : List Path) (hc : ∀ p ∈ cols, GoodPath d splits p) {cuts : List (List Bool)} {own : List Own} {cd : List CD} {s : MS}
    (hi : Inv d c splits cuts own cd s) {a : ℕ → ℚ} (ha : s.m.FeasibleLP a) :
    ∃ a', (addColumns c cols s).m.FeasibleLP a' ∧ (addColumns c cols s).m.value a' = s.m.value a ∧ (addColumns c cols s).m.maximize = true := by
  induction cols generalizing s own a with
  | nil => exact ⟨a, ha, rfl, hi.maxi⟩
  | cons p ps ih =>
    obtain ⟨_, k2, _⟩ := inv_addColumn hs.depth hs.tree hs.filled hi (hc p (by simp))
    obtain ⟨e1, e2⟩ := extend_zero hi.rep k2.rep hi.obj k2.obj (hi.off.trans k2.off.symm)
      (by simp [sig, nonnegInt, inBounds]) ha
    obtain ⟨a', h1, h2, h3⟩ := ih (fun q hq => hc q (by simp [hq])) k2 e1
    exact ⟨a', h1, h2.trans e2, h3⟩

/-- **C56**, tree master: adding columns never decreases the optimum of the linear relaxation. -/
theorem C56_tree_columns {d : ℕ} {c : Conf} {o : Oracle} {paths : List Path} {splits : List Split} {dataRows : Option (List Row)}
    (hs : Setup d c splits dataRows) (hp : ∀ p ∈ paths, GoodPath d splits p) (ho : CutSound o) {s : MS}
    (h : Reached d c o paths splits dataRows s) (cols : List Path) (hc : ∀ p ∈ cols, GoodPath d splits p) (ans ans' : Answer)
    (h1 : IsOptimalLP s.m ans) (h2 : IsOptimalLP (addColumns c cols s).m ans') : ans.objective ≤ ans'.objective := by
  obtain ⟨cuts, own, cd, hi⟩ := reached_inv hs hp ho h
  obtain ⟨a', e1, e2, e3⟩ := addColumns_extend hs cols hc hi h1.1
  have := h2.2.2 a' e1
  unfold Model.better at this
  rw [if_pos e3, e2] at this
  rw [h1.2.1]
  exact this

theorem cutRounds_prev (c : Conf) (o : Oracle) (n : ℕ) (acc : List (List Bool)) (s : MS) :
    (cutRounds c o n acc s).2.prevRmpObj = s.prevRmpObj := by
  induction n generalizing acc s with
  | zero => rfl
  | succ n ih =>
    have hcr : (cutRound c o s).2.2.prevRmpObj = s.prevRmpObj := by
      unfold cutRound
      simp only
      split <;> split <;> first | rfl | skip
      all_goals
        unfold addCuts
        simp only
        split <;> rfl
    unfold cutRounds
    split
    · simp only
      split
      · rw [ih]
        exact hcr
      · exact hcr
    · rfl

/-- **C56**, improvement: after a `solve_rmp`, `rmp_objective_improved` holds iff the last LP solve of the call was optimal and the stored
objective is larger than before the call. -/
theorem C56_improved (c : Conf) (o : Oracle) (s : MS) (hg : s.generated = true) :
    rmpObjectiveImproved (solveRmp c o s).2 = true ↔
      (solveRmp c o s).2.last.status = .optimal ∧ s.rmpObj < (solveRmp c o s).2.rmpObj := by
  have hprev : (solveRmp c o s).2.prevRmpObj = s.rmpObj := by
    unfold solveRmp
    rw [if_pos hg]
    simp only
    split <;> split <;> first | rfl | exact cutRounds_prev _ _ _ _ _
  unfold rmpObjectiveImproved
  rw [hprev]
  split <;> rename_i hst
  · simp [hst]
  · simp [hst]

end Verif.DTree

namespace Verif.BDR

open MP Spec

theorem clausesOf_append (ops ops' : List Op) : ∃ K, clausesOf (ops ++ ops') = clausesOf ops ++ K := by
  unfold clausesOf
  rw [List.foldl_append]
  generalize ops.foldl _ [[]] = K0
  induction ops' generalizing K0 with
  | nil => exact ⟨[], by simp⟩
  | cons op rest ih =>
    rw [List.foldl_cons]
    cases op with
    | addColumn k =>
      simp only
      split
      · exact ih K0
      · obtain ⟨K, hK⟩ := ih (K0 ++ [k])
        exact ⟨k :: K, by rw [hK]; simp⟩
    | generateMp X y => exact ih K0
    | solveRmp a => exact ih K0
    | solveIp f => exact ih K0

theorem sum_extend (n k : ℕ) (f g : ℕ → ℚ) (h : ∀ j < n, f j = g j) (h0 : ∀ j, n ≤ j → f j = 0) :
    ∑ j ∈ Finset.range (n + k), f j = ∑ j ∈ Finset.range n, g j := by
  induction k with
  | zero => exact Finset.sum_congr rfl (fun j hj => h j (Finset.mem_range.1 hj))
  | succ k ih => rw [← Nat.add_assoc, Finset.sum_range_succ, ih, h0 _ (by omega), add_zero]

/-- **C56**, Boolean decision rules: after any further calls (columns, solves) the optimum of the linear relaxation is not larger. -/
theorem C56_bdr_columns (C p : ℚ) (X : Data) (y : List ℕ) (ops ops' : List Op) (hb : Binary X.rows y) (ans ans' : Answer)
    (h1 : IsOptimalLP (after C p X y ops).solver ans) (h2 : IsOptimalLP (after C p X y (ops ++ ops')).solver ans') :
    ans'.objective ≤ ans.objective := by
  obtain ⟨K, hK⟩ := clausesOf_append ops ops'
  obtain ⟨f1, f2, f3, _⟩ := C22_master C p X y ops hb ans.values
  set P := (pos X.rows y).length with hP
  let a : ℕ → ℚ := fun i => if i < P + (clausesOf ops).length then ans.values i else 0
  obtain ⟨g1, g2, g3, _⟩ := C22_master C p X y (ops ++ ops') hb a
  have hfe := f1.1 h1.1
  have ha1 : ∀ i < P, a i = ans.values i := fun i hi => if_pos (by omega)
  have ha2 : ∀ j < (clausesOf ops).length, a (P + j) = ans.values (P + j) := fun j hj => if_pos (by omega)
  have ha3 : ∀ j, (clausesOf ops).length ≤ j → a (P + j) = 0 := fun j hj => if_neg (by omega)
  have hget : ∀ j < (clausesOf ops).length, (clausesOf (ops ++ ops')).getD j [] = (clausesOf ops).getD j [] := by
    intro j hj
    rw [hK, List.getD_eq_getElem?_getD, List.getElem?_append_left hj, List.getD_eq_getElem?_getD]
  have hlen : (clausesOf (ops ++ ops')).length = (clausesOf ops).length + K.length := by rw [hK]; simp
  have hcov : ∀ r, covered (clausesOf (ops ++ ops')) (fun j => a (P + j)) r = covered (clausesOf ops) (fun j => ans.values (P + j)) r := by
    intro r
    unfold covered
    rw [hlen]
    apply sum_extend
    · intro j hj
      simp only
      rw [hget j hj, ha2 j hj]
    · intro j hj
      simp only
      rw [ha3 j hj, ite_self]
  have hcomp : complexity (clausesOf (ops ++ ops')) (fun j => a (P + j)) = complexity (clausesOf ops) (fun j => ans.values (P + j)) := by
    unfold complexity
    rw [hlen]
    apply sum_extend
    · intro j hj
      simp only
      rw [hget j hj, ha2 j hj]
    · intro j hj
      simp only
      rw [ha3 j hj, mul_zero]
  have hobj : objective X.rows y p (clausesOf (ops ++ ops')) (fun i => a i) (fun j => a (P + j)) =
      objective X.rows y p (clausesOf ops) (fun i => ans.values i) (fun j => ans.values (P + j)) := by
    unfold objective
    congr 1
    · congr 1
      exact Finset.sum_congr rfl (fun i hi => ha1 i (Finset.mem_range.1 hi))
    · rw [hlen]
      apply sum_extend
      · intro j hj
        simp only
        rw [hget j hj, ha2 j hj]
      · intro j hj
        simp only
        rw [ha3 j hj, mul_zero]
  have hfe' : (after C p X y (ops ++ ops')).solver.FeasibleLP a := by
    apply g1.2
    refine ⟨?_, ?_, ?_, ?_⟩
    · intro i hi
      rw [ha1 i hi]
      exact hfe.xi_nonneg i hi
    · intro j hj
      rcases Nat.lt_or_ge j (clausesOf ops).length with hlt | hge
      · rw [ha2 j hlt]
        exact hfe.w_nonneg j hlt
      · rw [ha3 j hge]
    · intro i r hr
      rw [ha1 i (List.getElem?_eq_some_iff.1 hr).1, hcov]
      exact hfe.sat i r hr
    · rw [hcomp]
      exact hfe.comp
  have := h2.2.2 a hfe'
  unfold Model.better at this
  rw [if_neg (by rw [g3]; simp), g2, hobj, ← f2] at this
  rw [h1.2.1]
  exact this

end Verif.BDR

namespace Verif.DTree

open MP Spec

/-! ## C57 -/

theorem inSequence_iff (k : ℕ) (l : List ℕ) : inSequence k l = true ↔ l = List.range' k l.length := by
  induction l generalizing k with
  | nil => simp [inSequence]
  | cons i is ih =>
    unfold inSequence
    rw [List.length_cons, List.range'_succ]
    split <;> rename_i h
    · rw [ih, h]; simp
    · simp [h]

/-- **C57**, `DTreeClassifier.__init__`: the arguments are accepted iff node and leaf ids are `0, 1, 2, ...` in order and every initial path
has the id of a leaf, ids of nodes, ids of splits, a target among the targets and exactly `tree_depth` nodes and splits; otherwise
`AssertionError` is raised. -/
theorem C57_tree_init (paths : List Path) (leaves : List Leaf) (nodes : List Node) (splits : List Split) (depth : ℕ) (targets : List ℤ) :
    (initChecks paths leaves nodes splits depth targets = .ok () ↔
      (∀ (i : ℕ) (n : Node), nodes[i]? = some n → n.id = i) ∧ (∀ (i : ℕ) (l : Leaf), leaves[i]? = some l → l.id = i) ∧
      ∀ p ∈ paths, (∃ l ∈ leaves, l.id = p.leafId) ∧ (∀ x ∈ p.nodeIds, ∃ n ∈ nodes, n.id = x) ∧
        (∀ x ∈ p.splits, ∃ s ∈ splits, s.id = x) ∧ p.target ∈ targets ∧ p.nodeIds.length = depth ∧ p.splits.length = depth) ∧
    (initChecks paths leaves nodes splits depth targets ≠ .ok () →
      initChecks paths leaves nodes splits depth targets = .error .assertionError) := by
  have hseq : ∀ {α : Type} (l : List α) (f : α → ℕ), inSequence 0 (l.map f) = true ↔ ∀ (i : ℕ) (x : α), l[i]? = some x → f x = i := by
    intro α l f
    rw [inSequence_iff, List.length_map]
    constructor
    · intro h i x hx
      have h1 : (l.map f)[i]? = some (f x) := by rw [List.getElem?_map, hx]; rfl
      rw [h, List.getElem?_range' (List.getElem?_eq_some_iff.1 hx).1] at h1
      injection h1 with h1
      omega
    · intro h
      apply List.ext_getElem?
      intro i
      rw [List.getElem?_map]
      rcases Nat.lt_or_ge i l.length with hi | hi
      · rw [List.getElem?_range' hi, List.getElem?_eq_getElem hi]
        simp only [Option.map_some, Option.some.injEq]
        rw [h i _ (List.getElem?_eq_getElem hi)]
        omega
      · rw [List.getElem?_eq_none hi, List.getElem?_eq_none (by simpa using hi)]
        rfl
  have hpath : paths.all (pathOk (leaves.map (·.id)) (nodes.map (·.id)) (splits.map (·.id)) targets depth) = true ↔
      ∀ p ∈ paths, (∃ l ∈ leaves, l.id = p.leafId) ∧ (∀ x ∈ p.nodeIds, ∃ n ∈ nodes, n.id = x) ∧
        (∀ x ∈ p.splits, ∃ s ∈ splits, s.id = x) ∧ p.target ∈ targets ∧ p.nodeIds.length = depth ∧ p.splits.length = depth := by
    rw [List.all_eq_true]
    refine forall_congr' fun p => forall_congr' fun _ => ?_
    unfold pathOk
    simp only [Bool.and_eq_true, decide_eq_true_eq, List.all_eq_true, List.mem_map]
    tauto
  unfold initChecks
  rw [← hseq nodes (·.id), ← hseq leaves (·.id), ← hpath]
  split_ifs with h1 h2 h3
  · simp [h1]
  · simp [h1, h2]
  · simp [h1, h2, h3]
  · simp only [Bool.not_eq_false] at h1 h2 h3
    simp [h1, h2, h3]

/-- The checks accept a depth-1 tree with one path, and refuse a path with an unknown split. -/
example : initChecks [⟨0, [0], [0], 3, 0, 1, true⟩] [createLeaf 0 1, createLeaf 1 1] [⟨0, [0], [1], -1, -1, 1, 2, true⟩] [⟨0, 0, 1/2, false, [], [], [], []⟩] 1 [0, 1] = .ok () ∧
    initChecks [⟨0, [0], [1], 3, 0, 1, true⟩] [createLeaf 0 1, createLeaf 1 1] [⟨0, [0], [1], -1, -1, 1, 2, true⟩] [⟨0, 0, 1/2, false, [], [], [], []⟩] 1 [0, 1] =
      .error .assertionError := by
  constructor <;> decide +kernel

end Verif.DTree
