import Verif.DTree.FloatCut

/-!
# Cut rounds of the decision tree master with rounded arithmetic (C121)

The rounds of `solve_rmp` with rounded arithmetic and an LP solver whose solutions satisfy the constraints only up to a tolerance.
-/

set_option linter.unusedSectionVars false
set_option linter.unusedSimpArgs false

namespace Verif.DTree

open MP Spec Fl

/-! ## Specification -/

/-- `a` satisfies the lower bounds of the variables and the constraints up to `δ` (the feasibility tolerance of an LP solver). -/
structure Spec.Near (δ : ℚ) (m : Model) (a : ℕ → ℚ) : Prop where
  bounds : ∀ (i : ℕ) (v : Var), m.vars[i]? = some v → ∀ l, v.lb = some l → l - δ ≤ a i
  cons : ∀ (c : ℕ) (k : Cons), m.cons[c]? = some k → (∀ l, k.lb = some l → l - δ ≤ activity m.vars.length k.coeff a) ∧
    ∀ u, k.ub = some u → activity m.vars.length k.coeff a ≤ u + δ

/-- The LP solver reports optimality only with a solution that is feasible up to `δ`. -/
def Spec.LpNear (δ : ℚ) (o : Oracle) : Prop := ∀ m k, (o.lp m k).status = .optimal → Near δ m (o.lp m k).values

/-- The largest total weight of the paths of such a solution, for `n` paths and depth `d`. -/
def Spec.massBound (δ : ℚ) (d n : ℕ) : ℚ := 2 ^ d * (1 + δ) + 2 * n * δ

/-! ## Lemmas -/

theorem Inv.near {d : ℕ} {c : Conf} {splits : List Split} {cuts : List (List Bool)} {own : List Own} {cd : List CD} {s : MS}
    (h : Inv d c splits cuts own cd s) {δ : ℚ} {a : ℕ → ℚ} (hn : Near δ s.m a) :
    (∀ p ∈ s.paths, -δ ≤ a p.id) ∧ (∀ l < 2 ^ d, pathSum s.paths a (fun p => p.leafId = l) ≤ 1 + δ) ∧
    ∀ k < cuts.length, pathSum s.paths a (Follows d (pat cuts k)) ≤ 1 + δ := by
  have hact : ∀ x ∈ cd, ∀ u, x.ub = some u → pathSum s.paths a (x.has d (fun r => rowLeft splits (c.X.getD r [])) (pat cuts) ·) +
      rhoPart s a x ≤ u + δ := by
    intro x hx u hu
    obtain ⟨i, hi⟩ := List.mem_iff_getElem?.1 hx
    have h1 := h.lhs a x hx
    have h2 := (hn.cons i _ (by rw [h.rep.cons, List.getElem?_map, hi]; rfl)).2 u hu
    rw [h.rep.length_vars] at h2
    rw [← h1]
    refine le_trans (le_of_eq ?_) h2
    exact (activity_idx own _ a (idxOf s) h.idx).symm
  refine ⟨?_, ?_, ?_⟩
  · intro p hp
    have h1 := (h.pidx p.id p).2 ⟨hp, rfl⟩
    have h2 := hn.bounds p.id ((sig d (fun r => rowLeft splits (c.X.getD r [])) (pat cuts)).var (.path p))
      (by rw [h.rep.vars, List.getElem?_map, h1]; rfl) 0 rfl
    linarith
  · intro l hl
    have := hact (.leaf l) ((h.leafmem l).2 hl) 1 rfl
    simpa [CD.has, rhoPart] using this
  · intro k hk
    have := hact (.cut k) ((cut_mem_lt h k).2 hk) 1 rfl
    simpa [CD.has, rhoPart] using this

theorem mass_near {d : ℕ} {ps : List Path} {a : ℕ → ℚ} {δ : ℚ} (hd : ∀ p ∈ ps, p.leafId < 2 ^ d) (hδ : 0 ≤ δ) (h0 : ∀ p ∈ ps, -δ ≤ a p.id)
    (hl : ∀ l < 2 ^ d, pathSum ps a (fun p => p.leafId = l) ≤ 1 + δ) : (ps.map (fun p => |a p.id|)).sum ≤ massBound δ d ps.length := by
  have h1 : (ps.map (fun p => |a p.id|)).sum ≤ (ps.map (fun p => a p.id)).sum + 2 * ps.length * δ := by
    clear hl hd
    induction ps with
    | nil => simp
    | cons p ps ih =>
      have := ih (fun q hq => h0 q (List.mem_cons_of_mem _ hq))
      have hp := h0 p (by simp)
      have ha : |a p.id| ≤ a p.id + 2 * δ := by
        rw [abs_le]
        constructor <;> linarith
      simp only [List.map_cons, List.sum_cons, List.length_cons, Nat.cast_add, Nat.cast_one]
      linarith
  have h2 : (ps.map (fun p => a p.id)).sum ≤ 2 ^ d * (1 + δ) := by
    rw [mass_leaves ps a hd]
    refine (List.sum_le_card_nsmul _ (1 + δ) ?_).trans ?_
    · intro x hx
      obtain ⟨l, hl', rfl⟩ := List.mem_map.1 hx
      exact hl l (List.mem_range.1 hl')
    · simp
  unfold massBound
  linarith

theorem cutSlack_mono {u η A B : ℚ} (hu : 0 ≤ u) (n : ℕ) (hAB : A ≤ B) : cutSlack u η n A ≤ cutSlack u η n B := by
  have := mul_le_mul_of_nonneg_left hAB hu
  have hn : (0 : ℚ) ≤ n := by positivity
  unfold cutSlack sumSlack
  nlinarith

theorem floorSlack_mono {u η A B : ℚ} (hu : 0 ≤ u) (n : ℕ) (hAB : A ≤ B) : floorSlack u η n A ≤ floorSlack u η n B := by
  have := mul_le_mul_of_nonneg_left hAB hu
  unfold floorSlack
  linarith

section
variable {rnd : ℚ → ℚ} {u η δ : ℚ} {ord : ℕ → ℕ → List ℕ → List ℕ}

/-- One round: nothing is found, or something new is. -/
theorem cutRoundR_progress (ha : Accurate rnd u η) (hu : 0 ≤ u) (hη : 0 ≤ η) (hord : Lists ord) (hδ : 0 ≤ δ) {d : ℕ} {c : Conf}
    {splits : List Split} (hid : ∀ i (s : Split), splits[i]? = some s → s.id = i)
    {o : Oracle} (ho : CutSound o) {cuts : List (List Bool)} {own : List Own} {cd : List CD} {s : MS} (h : Inv d c splits cuts own cd s)
    (hn : 2 * (s.paths.length : ℚ) * u ≤ 1)
    (hsl : δ + cutSlack u η s.paths.length (massBound δ d s.paths.length) ≤ 1 / 1000000)
    (hf : Near δ s.m s.last.values) :
    ∃ cuts' cd', Inv d c splits cuts' own cd' (cutRoundR rnd ord c o s).2.2 ∧ (cutRoundR rnd ord c o s).2.2.paths = s.paths ∧
      (cutRoundR rnd ord c o s).2.2.last = s.last ∧
      ((cutRoundR rnd ord c o s).2.1.length > 0 ∨ (cutRoundR rnd ord c o s).1 > 0 →
        left d c splits cuts' (cutRoundR rnd ord c o s).2.2 < left d c splits cuts s) ∧
      (¬ ((cutRoundR rnd ord c o s).2.1.length > 0 ∨ (cutRoundR rnd ord c o s).1 > 0) → c.generateCuts = true → CutOptimal o → ∀ row,
        pathSum s.paths s.last.values (Follows d (rowLeft (cutRoundR rnd ord c o s).2.2.splits row)) ≤
          1 + cutTol s.paths.length + (cutSlack u η s.paths.length (massBound δ d s.paths.length) +
            floorSlack u η s.paths.length (massBound δ d s.paths.length))) := by
  have h1 : Inv d c splits cuts own cd (storeLp s) := h.of_eq rfl
  obtain ⟨n1, n2, n3⟩ := h.near hf
  have hmass := mass_near (fun p hp => (h.good p hp).1.leaf_lt) hδ n1 n2
  obtain ⟨b, hb⟩ : ∃ b, b = if c.betaAsCuts then addBetaCutsR rnd ord c (storeLp s) else (0, storeLp s) := ⟨_, rfl⟩
  have h2 : ∃ cd2, Inv d c splits cuts own cd2 b.2 ∧ b.2.paths = s.paths ∧ b.2.last = s.last ∧ b.2.pathSol = s.last.values ∧
      (b.1 > 0 → (rowSet c.X.length s.addedRow).card < (rowSet c.X.length b.2.addedRow).card) ∧
      (b.1 = 0 → rowSet c.X.length b.2.addedRow = rowSet c.X.length s.addedRow) := by
    rw [hb]
    by_cases hb : c.betaAsCuts = true
    · rw [if_pos hb]
      obtain ⟨new, k1, k2, _, k4, k5, k6, k7, k8, k9, k10, _⟩ := inv_addBetaCutsR (rnd := rnd) hord h1
      refine ⟨_, k1, k7, rfl, rfl, ?_, ?_⟩
      · intro hpos
        rw [k2] at hpos
        obtain ⟨r, hr⟩ := List.exists_mem_of_length_pos hpos
        apply Finset.card_lt_card
        rw [Finset.ssubset_iff_of_subset]
        · refine ⟨r, ?_, ?_⟩
          · unfold rowSet
            rw [Finset.mem_filter, Finset.mem_range]
            exact ⟨(k5 r hr).1, (k5 r hr).2.2.2.2⟩
          · unfold rowSet
            rw [Finset.mem_filter]
            rintro ⟨_, e⟩
            have e' : s.addedRow.getD r false = false := (k5 r hr).2.2.1
            rw [e'] at e
            cases e
        · intro x hx
          unfold rowSet at *
          rw [Finset.mem_filter] at *
          refine ⟨hx.1, ?_⟩
          by_cases hxn : x ∈ new
          · exact (k5 x hxn).2.2.2.2
          · rw [k6 x hxn]; exact hx.2
      · intro hz
        rw [k2] at hz
        have hnil : new = [] := List.length_eq_zero_iff.1 hz
        subst hnil
        unfold rowSet
        apply Finset.filter_congr
        intro r _
        rw [k6 r (by simp)]
        rfl
    · rw [if_neg hb]
      exact ⟨cd, h1, rfl, rfl, rfl, fun h => absurd h (by simp), fun _ => rfl⟩
  obtain ⟨cd2, h2, hp2, hl2, hs2, hpos, hzero⟩ := h2
  obtain ⟨g, hg⟩ : ∃ g, g = if c.generateCuts && b.1 == 0 then addCutsR rnd o b.2 else ([], b.2) := ⟨_, rfl⟩
  have e : cutRoundR rnd ord c o s = (b.1, g.1, { g.2 with totalCuts := g.2.totalCuts + (g.1.length + b.1) }) := by
    rw [hg, hb]; rfl
  have hrest : ∀ o s, (addCutsR rnd o s).2.last = s.last := by
    intro o s
    unfold addCutsR storeCuts
    simp only
    split_ifs <;> rfl
  have hm2 : pathMass b.2 ≤ massBound δ d s.paths.length := by
    unfold pathMass
    rw [hp2, hs2]
    exact hmass
  rw [e]
  by_cases hgc : (c.generateCuts && b.1 == 0) = true
  · rw [if_pos hgc] at hg
    obtain ⟨k1, k2, k3, _⟩ := inv_addCutsR (rnd := rnd) hid h2 ho
    have hb0 : b.1 = 0 := by
      rw [Bool.and_eq_true] at hgc
      exact beq_iff_eq.1 hgc.2
    have hadd := hzero hb0
    rw [← hg] at k1 k2 k3
    have hadd2 : rowSet c.X.length g.2.addedRow = rowSet c.X.length b.2.addedRow := by
      unfold rowSet
      apply Finset.filter_congr
      intro r hr
      rw [Finset.mem_range] at hr
      have : g.2.addedRow.getD r false = b.2.addedRow.getD r false := by
        rw [hg]
        unfold addCutsR storeCuts
        simp only
        split_ifs
        · rfl
        · simp only
          rw [List.getD_eq_getElem?_getD, List.getElem?_append_left (by rw [h2.added]; omega), ← List.getD_eq_getElem?_getD]
      rw [this]
    refine ⟨_, _, k1.of_eq rfl, k3.trans hp2, ?_, ?_, ?_⟩
    · change g.2.last = s.last
      rw [hg, hrest o b.2, hl2]
    · simp only
      intro hsome
      have hne : g.1.length > 0 := by
        rcases hsome with h | h
        · exact h
        · omega
      rw [k2, List.length_map] at hne
      obtain ⟨y, hy⟩ := List.exists_mem_of_length_pos hne
      unfold left
      change (_ - (patSet splits.length (cuts ++ (recordedR rnd o b.2).map (·.2))).card) +
        (c.X.length - (rowSet c.X.length g.2.addedRow).card) < _
      rw [hadd2, hadd]
      have hlt : (patSet splits.length cuts).card < (patSet splits.length (cuts ++ (recordedR rnd o b.2).map (·.2))).card := by
        apply Finset.card_lt_card
        rw [Finset.ssubset_iff_of_subset (patSet_append _ _ _)]
        refine ⟨fun t => y.2.getD t false, ?_, ?_⟩
        · obtain ⟨k, hk⟩ := List.mem_iff_getElem?.1 hy
          have hk' := (List.getElem?_eq_some_iff.1 hk).1
          unfold patSet
          rw [Finset.mem_image]
          refine ⟨cuts.length + k, by rw [Finset.mem_range, List.length_append, List.length_map]; omega, ?_⟩
          funext t
          unfold pat
          rw [List.getD_eq_getElem?_getD (l := cuts ++ _), List.getElem?_append_right (by omega),
            show cuts.length + k - cuts.length = k by omega, List.getElem?_map, hk]
          rfl
        · unfold patSet
          rw [Finset.mem_image]
          rintro ⟨k, hk, he⟩
          rw [Finset.mem_range] at hk
          have hsum := h2.recordedR_sum ha hu hη ho (by rw [hp2]; exact hn) hy
          have hc := n3 k hk
          have : pathSum s.paths s.last.values (Follows d (pat cuts k)) = pathSum s.paths s.last.values (Follows d (fun t => y.2.getD t false)) := by
            apply pathSum_congr
            intro p hp
            apply follows_congr
            intro t ht
            exact congrFun he ⟨t, (h.good p hp).2 t ht⟩
          have hmono := cutSlack_mono (η := η) hu s.paths.length hm2
          rw [hp2, hs2] at hsum
          rw [this] at hc
          linarith
      have := patSet_card splits.length (cuts ++ (recordedR rnd o b.2).map (·.2))
      omega
    · simp only
      intro hno _ hopt row
      have hnil : (addCutsR rnd o b.2).1 = [] := by
        rw [← hg]
        apply List.length_eq_zero_iff.1
        by_contra hne
        exact hno (.inl (by omega))
      have := h2.no_violationR ha hu hη hid ho hopt (by rw [hp2]; exact hn) hnil row
      rw [hp2, hs2] at this
      change pathSum s.paths s.last.values (Follows d (rowLeft g.2.splits row)) ≤ _
      rw [k1.same.rowLeft row, ← h2.same.rowLeft row]
      have hm3 := cutSlack_mono (η := η) hu s.paths.length hm2
      have hm4 := floorSlack_mono (η := η) hu s.paths.length hm2
      linarith
  · rw [if_neg hgc] at hg
    rw [hg]
    refine ⟨cuts, cd2, h2.of_eq rfl, hp2, hl2, ?_, ?_⟩
    · simp only
      intro hsome
      have hb1 : b.1 > 0 := by
        rcases hsome with h | h
        · simp at h
        · exact h
      have := hpos hb1
      unfold left
      change (_ - _) + (c.X.length - (rowSet c.X.length b.2.addedRow).card) < _
      have := rowSet_card c.X.length b.2.addedRow
      omega
    · simp only
      intro hno hgen
      exfalso
      apply hgc
      rw [hgen, Bool.true_and, beq_iff_eq]
      by_contra hne
      exact hno (.inr (by omega))

/-- With more rounds than things to find, the rounds end because nothing is found, or because the LP solver fails. -/
theorem cutRoundsR_stop (ha : Accurate rnd u η) (hu : 0 ≤ u) (hη : 0 ≤ η) (hord : Lists ord) (hδ : 0 ≤ δ) {d : ℕ} {c : Conf}
    {splits : List Split} (hid : ∀ i (s : Split), splits[i]? = some s → s.id = i)
    {o : Oracle} (ho : CutSound o) (hl : LpNear δ o) (n : ℕ) (acc : List (List Bool)) {cuts : List (List Bool)} {own : List Own}
    {cd : List CD} {s : MS} (h : Inv d c splits cuts own cd s) (hnp : 2 * (s.paths.length : ℚ) * u ≤ 1)
    (hsl : δ + cutSlack u η s.paths.length (massBound δ d s.paths.length) ≤ 1 / 1000000)
    (hf : s.last.status = .optimal → Near δ s.m s.last.values)
    (hn : left d c splits cuts s < n) (hopt : CutOptimal o) (hg : c.generateCuts = true)
    (hst : (cutRoundsR rnd ord c o n acc s).2.last.status = .optimal) (row : List ℚ) :
    (cutRoundsR rnd ord c o n acc s).2.paths = s.paths ∧
    pathSum s.paths (cutRoundsR rnd ord c o n acc s).2.last.values (Follows d (rowLeft (cutRoundsR rnd ord c o n acc s).2.splits row)) ≤
      1 + cutTol s.paths.length + (cutSlack u η s.paths.length (massBound δ d s.paths.length) +
        floorSlack u η s.paths.length (massBound δ d s.paths.length)) := by
  induction n generalizing acc cuts cd s with
  | zero => omega
  | succ n ih =>
    by_cases hs : s.last.status = .optimal
    · obtain ⟨cuts', cd', k1, k2, k3, k5, k6⟩ := cutRoundR_progress ha hu hη hord hδ hid ho h hnp hsl (hf hs)
      by_cases hsome : (cutRoundR rnd ord c o s).2.1.length > 0 ∨ (cutRoundR rnd ord c o s).1 > 0
      · have e : cutRoundsR rnd ord c o (n + 1) acc s =
            cutRoundsR rnd ord c o n (acc ++ (cutRoundR rnd ord c o s).2.1) (lpSolve o (cutRoundR rnd ord c o s).2.2) := by
          rw [cutRoundsR, if_pos hs]
          exact if_pos hsome
        rw [e] at hst ⊢
        have hp : (lpSolve o (cutRoundR rnd ord c o s).2.2).paths = s.paths := k2
        have := ih (acc ++ (cutRoundR rnd ord c o s).2.1) (s := lpSolve o (cutRoundR rnd ord c o s).2.2) (cuts := cuts') (cd := cd')
          (k1.of_eq rfl) (by rw [hp]; exact hnp) (by rw [hp]; exact hsl)
          (fun hopt => hl _ _ hopt) (lt_of_lt_of_le (k5 hsome) (by omega)) hst
        rw [hp] at this
        exact this
      · have e : cutRoundsR rnd ord c o (n + 1) acc s = (acc, (cutRoundR rnd ord c o s).2.2) := by
          rw [cutRoundsR, if_pos hs]
          exact if_neg hsome
        rw [e]
        refine ⟨k2, ?_⟩
        change pathSum s.paths (cutRoundR rnd ord c o s).2.2.last.values _ ≤ _
        rw [k3]
        exact k6 hsome hg hopt row
    · have e : cutRoundsR rnd ord c o (n + 1) acc s = (acc, s) := by
        rw [cutRoundsR, if_neg hs]
      rw [e] at hst
      exact absurd hst hs

/-- **C121**, all rounds of one `solve_rmp`: with rounded arithmetic, and an LP solver whose solutions satisfy the constraints up to `δ`, the
rounds still end because nothing is found (if the limit on the rounds exceeds the number of conceivable patterns and rows), and then the
stored solution respects the bound of every row of numbers up to the accuracy of the search and the rounding errors. -/
theorem C121_rounds (ha : Accurate rnd u η) (hu : 0 ≤ u) (hη : 0 ≤ η) (hord : Lists ord) (hδ : 0 ≤ δ)
    {d : ℕ} {c : Conf} {o : Oracle} {paths : List Path} {splits : List Split} {dataRows : Option (List Row)}
    (hs : Setup d c splits dataRows) (hp : ∀ p ∈ paths, GoodPath d splits p) (ho : CutSound o) (hopt : CutOptimal o) (hl : LpNear δ o)
    {s : MS} (h : ReachedR rnd ord d c o paths splits dataRows s) (hit : (s.iter + 1) % 10 = 0) (hg : c.generateCuts = true)
    (hnp : 2 * (s.paths.length : ℚ) * u ≤ 1)
    (hsl : δ + cutSlack u η s.paths.length (massBound δ d s.paths.length) ≤ 1 / 1000000)
    (hn : 2 ^ splits.length + c.X.length < c.numCutsRound) (hst : (solveRmpR rnd ord c o s).2.last.status = .optimal) (row : List ℚ) :
    (solveRmpR rnd ord c o s).2.paths = s.paths ∧
    pathSum s.paths (solveRmpR rnd ord c o s).2.pathSol (Follows d (rowLeft (solveRmpR rnd ord c o s).2.splits row)) ≤
      1 + cutTol s.paths.length + (cutSlack u η s.paths.length (massBound δ d s.paths.length) +
        floorSlack u η s.paths.length (massBound δ d s.paths.length)) := by
  obtain ⟨cuts, own, cd, hi⟩ := reachedR_inv hord hs hp ho h
  obtain ⟨s1, hs1⟩ : ∃ s1, s1 = lpSolve o { s with
      prevRmpObj := s.rmpObj
      iter := s.iter + 1 } := ⟨_, rfl⟩
  have h1 : Inv d c splits cuts own cd s1 := by rw [hs1]; exact hi.of_eq rfl
  have hp1 : s1.paths = s.paths := by rw [hs1]; rfl
  obtain ⟨r, hr⟩ : ∃ r, r = cutRoundsR rnd ord c o c.numCutsRound [] s1 := ⟨_, rfl⟩
  have e : solveRmpR rnd ord c o s = if r.2.last.status = .optimal then (.ok (readDuals c r.2 r.1), storeLp r.2)
      else (.ok ⟨[], [], fun _ _ _ => none, [], r.1⟩, r.2) := by
    unfold solveRmpR
    rw [if_pos hi.gen]
    simp only
    rw [← hs1]
    have : s1.iter % 10 = 0 := by rw [hs1]; exact hit
    rw [if_pos this, ← hr]
  have hst' : r.2.last.status = .optimal := by
    by_contra hne
    rw [e, if_neg hne] at hst
    exact hne hst
  rw [if_pos hst'] at e
  rw [e]
  change r.2.paths = s.paths ∧ pathSum s.paths r.2.last.values (Follows d (rowLeft r.2.splits row)) ≤ _
  have := cutRoundsR_stop ha hu hη hord hδ hs.tree.split_id ho hl c.numCutsRound [] h1 (by rw [hp1]; exact hnp) (by rw [hp1]; exact hsl) ?_ ?_
    hopt hg (by rw [← hr]; exact hst') row
  · rw [← hr, hp1] at this
    exact this
  · intro hopt'
    rw [hs1] at hopt' ⊢
    exact hl _ _ hopt'
  · unfold left
    exact lt_of_le_of_lt (Nat.add_le_add (Nat.sub_le _ _) (Nat.sub_le _ _)) hn

end

/-! ## Exact arithmetic -/

theorem cutCallbackR_id : cutCallbackR id = cutCallback := by
  funext pv sv cs acc a
  unfold cutCallbackR cutCallback
  rw [flSum_id, zero_add, hitTerms_sum]
  unfold hitSum eps
  rfl

/-- **C121**: without rounding, the functions are those of the exact model. -/
theorem C121_exact : (∀ o s, addCutsR id o s = addCuts o s) ∧ (∀ c s, addBetaCutsR id (fun _ _ l => l) c s = addBetaCuts c s) ∧
    ∀ c o s, solveRmpR id (fun _ _ l => l) c o s = solveRmp c o s := by
  have h1 : ∀ o s, addCutsR id o s = addCuts o s := by
    intro o s
    unfold addCutsR addCuts recordedR storeCuts cutObjectiveR cutObjective
    rw [cutCallbackR_id]
    rfl
  have h2 : ∀ c s, addBetaCutsR id (fun _ _ l => l) c s = addBetaCuts c s := by
    intro c s
    unfold addBetaCutsR addBetaCuts storeBeta
    simp only [betaLoop_with]
    have : ∀ ids, violatedRowR id s.pathSol ids = violatedRow s.pathSol ids := by
      intro ids
      unfold violatedRowR violatedRow
      rw [flSum_id, zero_add]
      rfl
    simp only [this]
  have h3 : ∀ c o s, cutRoundR id (fun _ _ l => l) c o s = cutRound c o s := by
    intro c o s
    unfold cutRoundR cutRound
    simp only [h1, h2]
  have h4 : ∀ c o n acc s, cutRoundsR id (fun _ _ l => l) c o n acc s = cutRounds c o n acc s := by
    intro c o n
    induction n with
    | zero => intro acc s; rfl
    | succ n ih =>
      intro acc s
      unfold cutRoundsR cutRounds
      simp only [h3, ih]
  refine ⟨h1, h2, ?_⟩
  intro c o s
  unfold solveRmpR solveRmp
  simp only [h4]

/-! ## Python's floats -/

theorem cut64 {n : ℕ} {A : ℚ} (hA : 0 ≤ A) (h : ((n : ℚ) + 1) * (A + 1) ≤ 2 ^ 28) :
    2 * (n : ℚ) * (1 / 2 ^ 53) ≤ 1 ∧ cutSlack (1 / 2 ^ 53) (1 / 2 ^ 1075) n A ≤ 1 / 10000000 ∧
    floorSlack (1 / 2 ^ 53) (1 / 2 ^ 1075) n A ≤ 1 / 10000000 ∧ betaSlack (1 / 2 ^ 53) (1 / 2 ^ 1075) n A ≤ 1 / 10000000 := by
  have ht := tiny
  obtain ⟨η, hη⟩ : ∃ η : ℚ, η = 1 / 2 ^ 1075 := ⟨_, rfl⟩
  have h0 : 0 ≤ η := by rw [hη]; positivity
  rw [← hη] at ht ⊢
  have hn0 : (0 : ℚ) ≤ n := by positivity
  have hnA : 0 ≤ (n : ℚ) * A := by positivity
  have hn : (n : ℚ) ≤ 2 ^ 28 := by nlinarith
  have hA2 : A ≤ 2 ^ 28 := by nlinarith
  have hnA2 : (n : ℚ) * A ≤ 2 ^ 28 := by nlinarith
  have hnη : (n : ℚ) * η ≤ 2 ^ 28 * (1 / 2 ^ 80) := mul_le_mul hn ht h0 (by positivity)
  unfold cutSlack floorSlack betaSlack sumSlack litSlack
  have e : 2 * (n : ℚ) * (1 / 2 ^ 53 * A + η) = 2 / 2 ^ 53 * (n * A) + 2 * (n * η) := by ring
  rw [e]
  norm_num at hn hA2 hnA2 hnη ht ⊢
  refine ⟨by linarith, by linarith, by linarith, by linarith⟩

section
variable {ord : ℕ → ℕ → List ℕ → List ℕ} {d : ℕ} {c : Conf} {o : Oracle} {paths : List Path} {splits : List Split}
  {dataRows : Option (List Row)} {s : MS}

/-- **C121** with Python's floats: if the number of paths (plus one) times the total weight (plus one) is at most `2 ^ 28`, every recorded cut is
exceeded by more than `9e-7`; without a recorded cut, no row of numbers has a weight above `1` by more than the accuracy of the search plus
`2e-7`; a row gets a constraint only if its weight differs from `1` by more than `9e-7`; if fewer than ten rows got one, the weights of the
remaining rows differ from `1` by at most `1.1e-6`. -/
theorem C121_binary64 (hord : Lists ord) (hs : Setup d c splits dataRows) (hp : ∀ p ∈ paths, GoodPath d splits p) (ho : CutSound o)
    (h : ReachedR binary64.rnd ord d c o paths splits dataRows s) (hn : ((s.paths.length : ℚ) + 1) * (pathMass s + 1) ≤ 2 ^ 28) :
    (∀ x ∈ (addCutsR binary64.rnd o s).1, pathSum s.paths s.pathSol (Follows d (fun t => x.getD t false)) > 1 + 9 / 10000000) ∧
    (CutOptimal o → (addCutsR binary64.rnd o s).1 = [] → ∀ row, pathSum s.paths s.pathSol (Follows d (rowLeft s.splits row)) ≤
      1 + cutTol s.paths.length + 2 / 10000000) ∧
    (∀ r < c.X.length, s.addedRow.getD r false = false → (addBetaCutsR binary64.rnd ord c s).2.addedRow.getD r false = true →
      |pathSum s.paths s.pathSol (Follows d (rowLeft s.splits (c.X.getD r []))) - 1| > 9 / 10000000) ∧
    ((addBetaCutsR binary64.rnd ord c s).1 < 10 → ∀ r < c.X.length, (rowAt (s.dataRows.getD []) r).removedFromMaster = false →
      (addBetaCutsR binary64.rnd ord c s).2.addedRow.getD r false = false →
      |pathSum s.paths s.pathSol (Follows d (rowLeft s.splits (c.X.getD r []))) - 1| ≤ 11 / 10000000) := by
  obtain ⟨g1, g2, g3, g4⟩ := cut64 (pathMass_nonneg s) hn
  have hη : (0 : ℚ) ≤ 1 / 2 ^ 1075 := by positivity
  have hu : (0 : ℚ) ≤ 1 / 2 ^ 53 := by positivity
  refine ⟨?_, ?_, ?_, ?_⟩
  · intro x hx
    obtain ⟨i, hx⟩ := List.mem_iff_getElem?.1 hx
    have := ((C121_sound binary64_accurate hu hη hord hs hp ho h g1).2 i x hx).1
    linarith
  · intro hopt hnil row
    have := C121_complete binary64_accurate hu hη hord hs hp ho hopt h g1 hnil row
    linarith
  · intro r hr h1 h2
    have := (C121_beta binary64_accurate hu hη hord hs hp ho h g1 r hr).1 h1 h2
    linarith
  · intro hnum r hr h1 h2
    have := (C121_beta binary64_accurate hu hη hord hs hp ho h g1 r hr).2 hnum h1 h2
    linarith

/-- **C121** with Python's floats, all rounds: with an LP solver whose solutions satisfy the constraints up to `9e-7`. -/
theorem C121_rounds64 (hord : Lists ord) {δ : ℚ} (hδ : 0 ≤ δ) (hδ' : δ ≤ 9 / 10000000)
    (hs : Setup d c splits dataRows) (hp : ∀ p ∈ paths, GoodPath d splits p) (ho : CutSound o) (hopt : CutOptimal o) (hl : LpNear δ o)
    (h : ReachedR binary64.rnd ord d c o paths splits dataRows s) (hit : (s.iter + 1) % 10 = 0) (hg : c.generateCuts = true)
    (hnp : ((s.paths.length : ℚ) + 1) * (massBound δ d s.paths.length + 1) ≤ 2 ^ 28)
    (hn : 2 ^ splits.length + c.X.length < c.numCutsRound) (hst : (solveRmpR binary64.rnd ord c o s).2.last.status = .optimal) (row : List ℚ) :
    (solveRmpR binary64.rnd ord c o s).2.paths = s.paths ∧
    pathSum s.paths (solveRmpR binary64.rnd ord c o s).2.pathSol (Follows d (rowLeft (solveRmpR binary64.rnd ord c o s).2.splits row)) ≤
      1 + cutTol s.paths.length + 2 / 10000000 := by
  obtain ⟨g1, g2, g3, g4⟩ := cut64 (A := massBound δ d s.paths.length) (by unfold massBound; positivity) hnp
  have := C121_rounds binary64_accurate (by positivity) (by positivity) hord hδ hs hp ho hopt hl h hit hg g1 (by linarith) hn hst row
  exact ⟨this.1, by linarith [this.2]⟩

end

end Verif.DTree
