import Verif.DTree.CutProps
import Mathlib.Data.Rat.Floor
import Mathlib.Data.Fintype.Pi
import Mathlib.Data.Int.LeastGreatest

/-!
# Properties C88 and C89: the cut search misses no violated bound, and never repeats a cut
-/

set_option linter.unusedSectionVars false
set_option linter.unusedSimpArgs false

namespace Verif.DTree

open MP Spec

/-! ## Specification -/

/-- The run of the cut generation model passes an optimal solution to the callback (CP-SAT does so when it ends with status `OPTIMAL`). -/
def Spec.CutOptimal (o : Oracle) : Prop :=
  ∀ cp k, (∃ a, cp.Holds a) → ∃ a ∈ o.cut cp k, cp.Holds a ∧ ∀ b, cp.Holds b → cp.value b ≤ cp.value a

/-- The LP solver reports optimality only with a feasible solution. -/
def Spec.LpFeasible (o : Oracle) : Prop := ∀ m k, (o.lp m k).status = .optimal → m.FeasibleLP (o.lp m k).values

/-- Accuracy of the search with `n` paths: the threshold of the callback and the rounding of `n` scaled coefficients. -/
def Spec.cutTol (n : ℕ) : ℚ := 1 / 1000000 + n / 1000000

/-! ## Scaled and unscaled objective -/

/-- Sum of the coefficients of the true variables. -/
def hitSum (vs : List ℕ) (cs : List ℚ) (b : ℕ → Bool) : ℚ := ((vs.zip cs).map (fun t => if b t.1 then t.2 else 0)).sum

def hitSumInt (vs : List ℕ) (cs : List ℤ) (b : ℕ → Bool) : ℤ := ((vs.zip cs).map (fun t => if b t.1 then t.2 else 0)).sum

theorem hitSum_floor_le (vs : List ℕ) (cs : List ℚ) (b : ℕ → Bool) :
    (hitSumInt vs (cs.map (fun x => ⌊x * 1000000⌋)) b : ℚ) ≤ 1000000 * hitSum vs cs b := by
  unfold hitSum hitSumInt
  induction vs generalizing cs with
  | nil => simp
  | cons v vs ih =>
    cases cs with
    | nil => simp
    | cons x xs =>
      have := ih xs
      simp only [List.map_cons, List.zip_cons_cons, List.sum_cons, Int.cast_add]
      have hx : ((⌊x * 1000000⌋ : ℤ) : ℚ) ≤ x * 1000000 := Int.floor_le _
      cases b v
      · simp only [Bool.false_eq_true, if_false, Int.cast_zero, zero_add]
        exact this
      · simp only [if_true]
        linarith

theorem hitSum_le_floor (vs : List ℕ) (cs : List ℚ) (b : ℕ → Bool) :
    1000000 * hitSum vs cs b ≤ hitSumInt vs (cs.map (fun x => ⌊x * 1000000⌋)) b + cs.length := by
  unfold hitSum hitSumInt
  induction vs generalizing cs with
  | nil => simp
  | cons v vs ih =>
    cases cs with
    | nil => simp
    | cons x xs =>
      have := ih xs
      simp only [List.map_cons, List.zip_cons_cons, List.sum_cons, List.length_cons, Int.cast_add, Nat.cast_add, Nat.cast_one]
      have hx : x * 1000000 < ((⌊x * 1000000⌋ : ℤ) : ℚ) + 1 := Int.lt_floor_add_one _
      cases b v
      · simp only [Bool.false_eq_true, if_false, Int.cast_zero, zero_add]
        linarith
      · simp only [if_true]
        linarith

theorem hitSum_eq_floor (vs : List ℕ) (cs : List ℚ) (b : ℕ → Bool) (hz : ∀ x ∈ cs, ∃ z : ℤ, x = z) :
    1000000 * hitSum vs cs b = hitSumInt vs (cs.map (fun x => ⌊x * 1000000⌋)) b := by
  unfold hitSum hitSumInt
  induction vs generalizing cs with
  | nil => simp
  | cons v vs ih =>
    cases cs with
    | nil => simp
    | cons x xs =>
      have := ih xs (fun y hy => hz y (List.mem_cons_of_mem _ hy))
      obtain ⟨z, rfl⟩ := hz x (by simp)
      simp only [List.map_cons, List.zip_cons_cons, List.sum_cons, Int.cast_add]
      have hx : ⌊(z : ℚ) * 1000000⌋ = z * 1000000 := by
        have : (z : ℚ) * 1000000 = ((z * 1000000 : ℤ) : ℚ) := by push_cast; ring
        rw [this, Int.floor_intCast]
      cases b v
      · simp only [Bool.false_eq_true, if_false, Int.cast_zero, zero_add]
        exact this
      · simp only [if_true]
        rw [hx, Int.cast_mul, Int.cast_ofNat]
        linarith

theorem hitSum_paths (vs : List ℕ) (ps : List Path) (sol : ℕ → ℚ) (b : ℕ → Bool) (P : Path → Prop) (hl : vs.length = ps.length)
    (h : ∀ (i v : ℕ) (p : Path), vs[i]? = some v → ps[i]? = some p → (b v = true ↔ P p)) :
    hitSum vs (ps.map (fun p => sol p.id)) b = pathSum ps sol P := by
  rw [pathSum_eq]
  unfold hitSum
  induction vs generalizing ps with
  | nil =>
    have : ps = [] := List.length_eq_zero_iff.1 hl.symm
    subst this
    rfl
  | cons v vs ih =>
    cases ps with
    | nil => cases hl
    | cons p ps =>
      have h0 := h 0 v p rfl rfl
      simp only [List.map_cons, List.zip_cons_cons, List.sum_cons]
      rw [ih ps (by simpa using hl) (fun i v' p' hv hp => h (i + 1) v' p' (by simpa using hv) (by simpa using hp))]
      congr 1
      cases hb : b v
      · rw [ind_neg (fun hP => by rw [h0.2 hP] at hb; cases hb)]
        simp
      · rw [ind_pos (h0.1 hb)]
        simp

/-- A solution whose coefficients sum to more than the threshold is recorded. -/
theorem callback_records (pv sv : List ℕ) (coeffs : List ℚ) (sols : List (ℕ → Bool)) (acc : List (List Bool × List Bool))
    (h : sols.foldl (cutCallback pv sv coeffs) acc = []) : acc = [] ∧ ∀ a ∈ sols, hitSum pv coeffs a ≤ 1 + eps := by
  induction sols generalizing acc with
  | nil => exact ⟨h, by simp⟩
  | cons a l ih =>
    rw [List.foldl_cons] at h
    obtain ⟨h1, h2⟩ := ih _ h
    unfold cutCallback at h1
    simp only at h1
    split_ifs at h1 with hc
    · simp at h1
    · refine ⟨h1, ?_⟩
      intro b hb
      rcases List.mem_cons.1 hb with rfl | hb
      · exact not_lt.1 hc
      · exact h2 b hb

/-! ## C88 -/

/-- A pattern of a row is a feasible point of the cut generation model. -/
theorem Inv.point {d : ℕ} {c : Conf} {splits : List Split} {cuts : List (List Bool)} {own : List Own} {cd : List CD} {s : MS}
    (hi : Inv d c splits cuts own cd s) (row : List ℚ) :
    ∃ b, s.cp.Holds b ∧ ∀ (i v : ℕ) (p : Path), s.cutPathVars[i]? = some v → s.paths[i]? = some p →
      (b v = true ↔ Follows d (rowLeft splits row) p) := by
  classical
  let b : ℕ → Bool := fun v => if v < splits.length then rowLeft splits row v else
    match s.paths[v - splits.length]? with
    | some p => decide (Follows d (rowLeft splits row) p)
    | none => false
  have hbp : ∀ t < splits.length, b t = rowLeft splits row t := fun t ht => if_pos ht
  have hb1 : ∀ (i : ℕ) (p : Path), s.paths[i]? = some p → b (splits.length + i) = decide (Follows d (rowLeft splits row) p) := by
    intro i p hip
    simp only [b]
    rw [if_neg (by omega), show splits.length + i - splits.length = i by omega, hip]
  refine ⟨b, (hi.cut.holds b).2 ⟨?_, ?_⟩, ?_⟩
  · intro i p hip
    rw [hb1 i p hip, decide_eq_true_eq]
    apply follows_congr
    intro t ht
    exact (hbp t ((hi.good p (List.mem_of_getElem? hip)).2 t ht)).symm
  · have hm := (realizable splits hi.distinct (rowLeft splits row)).2 ⟨row, fun _ _ => rfl⟩
    intro i hi' j hj hf hlt ha
    rw [hbp i hi'] at ha
    rw [hbp j hj]
    exact hm i hi' j hj hf hlt ha
  · intro i v p hv hip
    have hi' := (List.getElem?_eq_some_iff.1 hip).1
    rw [hi.cut.pv, List.getElem?_range' (by omega)] at hv
    injection hv with hv
    rw [← hv, one_mul, hb1 i p hip, decide_eq_true_eq]

theorem Inv.no_violation {d : ℕ} {c : Conf} {splits : List Split} {cuts : List (List Bool)} {own : List Own} {cd : List CD} {s : MS}
    (hi : Inv d c splits cuts own cd s) {o : Oracle} (hopt : CutOptimal o) (hnil : (addCuts o s).1 = []) (row : List ℚ) :
    pathSum s.paths s.pathSol (Follows d (rowLeft s.splits row)) ≤ 1 + cutTol s.paths.length ∧
    ((∀ p ∈ s.paths, ∃ z : ℤ, s.pathSol p.id = z) → pathSum s.paths s.pathSol (Follows d (rowLeft s.splits row)) ≤ 1) := by
  rw [hi.same.rowLeft row]
  obtain ⟨b, hb, hbv⟩ := hi.point row
  have hpl : s.cutPathVars.length = s.paths.length := by rw [hi.cut.pv]; simp
  obtain ⟨a, ha, _, hmax⟩ := hopt ⟨s.cp.nvars, s.cp.cons, cutObjective s⟩ s.cutCalls ⟨b, hb⟩
  have hrec : (o.cut ⟨s.cp.nvars, s.cp.cons, cutObjective s⟩ s.cutCalls).foldl
      (cutCallback s.cutPathVars s.cutSplitVars (s.paths.map (fun p => s.pathSol p.id))) [] = [] := by
    by_contra hne
    apply hne
    have hlen : ¬ ((o.cut ⟨s.cp.nvars, s.cp.cons, cutObjective s⟩ s.cutCalls).foldl
      (cutCallback s.cutPathVars s.cutSplitVars (s.paths.map (fun p => s.pathSol p.id))) []).length = 0 :=
      fun h => hne (List.length_eq_zero_iff.1 h)
    have h1 : (addCuts o s).1 = ((o.cut ⟨s.cp.nvars, s.cp.cons, cutObjective s⟩ s.cutCalls).foldl
      (cutCallback s.cutPathVars s.cutSplitVars (s.paths.map (fun p => s.pathSol p.id))) []).map (·.2) := by
      unfold addCuts
      exact congrArg Prod.fst (if_neg hlen)
    rw [hnil] at h1
    exact List.map_eq_nil_iff.1 h1.symm
  have hle := (callback_records _ _ _ _ _ hrec).2 a ha
  have hv := hmax b hb
  have e : ∀ x : ℕ → Bool, Cp.value ⟨s.cp.nvars, s.cp.cons, cutObjective s⟩ x =
      hitSumInt s.cutPathVars ((s.paths.map (fun p => s.pathSol p.id)).map (fun x => ⌊x * 1000000⌋)) x := by
    intro x
    unfold Cp.value hitSumInt cutObjective
    rw [List.map_map]
    rfl
  rw [e, e] at hv
  have hv' : (hitSumInt s.cutPathVars ((s.paths.map (fun p => s.pathSol p.id)).map (fun x => ⌊x * 1000000⌋)) b : ℚ) ≤
      hitSumInt s.cutPathVars ((s.paths.map (fun p => s.pathSol p.id)).map (fun x => ⌊x * 1000000⌋)) a := by exact_mod_cast hv
  have h1 := hitSum_floor_le s.cutPathVars (s.paths.map (fun p => s.pathSol p.id)) a
  have h2 := hitSum_le_floor s.cutPathVars (s.paths.map (fun p => s.pathSol p.id)) b
  rw [← hitSum_paths s.cutPathVars s.paths s.pathSol b _ hpl hbv]
  rw [List.length_map] at h2
  unfold eps at hle
  constructor
  · unfold cutTol
    linarith
  · intro hz
    have hz' : ∀ x ∈ s.paths.map (fun p => s.pathSol p.id), ∃ z : ℤ, x = z := by
      intro x hx
      obtain ⟨p, hp, rfl⟩ := List.mem_map.1 hx
      exact hz p hp
    have h3 := hitSum_eq_floor s.cutPathVars (s.paths.map (fun p => s.pathSol p.id)) b hz'
    have hi2 : ∃ z : ℤ, hitSum s.cutPathVars (s.paths.map (fun p => s.pathSol p.id)) b = z := by
      unfold hitSum
      generalize hL : s.cutPathVars.zip (s.paths.map (fun p => s.pathSol p.id)) = L
      have hLz : ∀ t ∈ L, ∃ z : ℤ, t.2 = z := by
        intro t ht
        rw [← hL] at ht
        exact hz' t.2 (List.of_mem_zip ht).2
      clear hL
      induction L with
      | nil => exact ⟨0, by simp⟩
      | cons t l ih =>
        obtain ⟨z, hzl⟩ := ih (fun t ht => hLz t (List.mem_cons_of_mem _ ht))
        obtain ⟨w, hw⟩ := hLz t (by simp)
        rw [List.map_cons, List.sum_cons, hzl]
        split_ifs
        · exact ⟨w + z, by rw [hw]; push_cast; rfl⟩
        · exact ⟨z, by simp⟩
    obtain ⟨z, hz2⟩ := hi2
    have hlt : (z : ℚ) < 2 := by rw [← hz2]; linarith
    have : z < 2 := by exact_mod_cast hlt
    rw [hz2]
    have : z ≤ 1 := by omega
    exact_mod_cast this

/-- **C88.** When `add_cuts` finds nothing (and the run of its model passed an optimal solution to the callback), no row of numbers at all, of
the data or not, is given more weight than `1` by the stored LP solution, up to the accuracy `cutTol` of the search. If the stored values of
the paths are integers, the bound is exact. -/
theorem C88_no_cut_no_violation {d : ℕ} {c : Conf} {o : Oracle} {paths : List Path} {splits : List Split} {dataRows : Option (List Row)}
    (hs : Setup d c splits dataRows) (hp : ∀ p ∈ paths, GoodPath d splits p) (ho : CutSound o) (hopt : CutOptimal o) {s : MS}
    (h : Reached d c o paths splits dataRows s) (hnil : (addCuts o s).1 = []) (row : List ℚ) :
    pathSum s.paths s.pathSol (Follows d (rowLeft s.splits row)) ≤ 1 + cutTol s.paths.length ∧
    ((∀ p ∈ s.paths, ∃ z : ℤ, s.pathSol p.id = z) → pathSum s.paths s.pathSol (Follows d (rowLeft s.splits row)) ≤ 1) := by
  obtain ⟨cuts, own, cd, hi⟩ := reached_inv hs hp ho h
  exact hi.no_violation hopt hnil row

/-! ## C89 -/

theorem Inv.new_cut {d : ℕ} {c : Conf} {splits : List Split} (hid : ∀ i (s : Split), splits[i]? = some s → s.id = i)
    {cuts : List (List Bool)} {own : List Own} {cd : List CD} {s : MS}
    (hi : Inv d c splits cuts own cd s) {o : Oracle} (ho : CutSound o) (hf : MasterFeasible d c s s.pathSol) (y : List Bool × List Bool)
    (hy : y ∈ recorded o s) (k : ℕ) (hk : k < cuts.length) :
    ∃ t < splits.length, cutLeft s.splits k t ≠ y.2.getD t false := by
  obtain ⟨r1, r2, r3, r4⟩ := recorded_spec hi ho y hy
  rw [zip_filter_sum s.paths y.1 s.pathSol _ r3] at r4
  by_contra hno
  have hall : ∀ t < splits.length, cutLeft s.splits k t = y.2.getD t false := by
    intro t ht
    by_contra hne
    exact hno ⟨t, ht, hne⟩
  have hc := hf.cuts k (by rw [hi.cutlen]; exact hk)
  have : pathSum s.paths s.pathSol (Follows d (cutLeft s.splits k)) =
      pathSum s.paths s.pathSol (Follows d (fun t => y.2.getD t false)) := by
    apply pathSum_congr
    intro p hp
    apply follows_congr
    intro t ht
    exact hall t ((hi.good p hp).2 t ht)
  rw [this] at hc
  rw [hc] at r4
  unfold eps at r4
  norm_num at r4

/-- **C89**, one call: as long as the stored LP solution satisfies the constraints of the master, `add_cuts` never returns a pattern that is
already the pattern of a cut. -/
theorem C89_cuts_are_new {d : ℕ} {c : Conf} {o : Oracle} {paths : List Path} {splits : List Split} {dataRows : Option (List Row)}
    (hs : Setup d c splits dataRows) (hp : ∀ p ∈ paths, GoodPath d splits p) (ho : CutSound o) {s : MS}
    (h : Reached d c o paths splits dataRows s) (hf : s.m.FeasibleLP s.pathSol) (x : List Bool) (hx : x ∈ (addCuts o s).1) (k : ℕ)
    (hk : k < s.cutCons.length) : ∃ t < splits.length, cutLeft s.splits k t ≠ x.getD t false := by
  obtain ⟨cuts, own, cd, hi⟩ := reached_inv hs hp ho h
  rw [(inv_addCuts hs.tree.split_id hi ho).2.1] at hx
  obtain ⟨y, hy, rfl⟩ := List.mem_map.1 hx
  exact hi.new_cut hs.tree.split_id ho ((hi.feasible hs.tree.split_id _).1 hf) y hy k (by rw [← hi.cutlen]; exact hk)

/-- The patterns of the cuts. -/
def patSet (n : ℕ) (cuts : List (List Bool)) : Finset (Fin n → Bool) :=
  (Finset.range cuts.length).image (fun k t => pat cuts k t)

theorem patSet_card (n : ℕ) (cuts : List (List Bool)) : (patSet n cuts).card ≤ 2 ^ n := by
  have := Finset.card_le_univ (patSet n cuts)
  rwa [Fintype.card_fun, Fintype.card_bool, Fintype.card_fin] at this

theorem patSet_append (n : ℕ) (cuts new : List (List Bool)) : patSet n cuts ⊆ patSet n (cuts ++ new) := by
  intro f hf
  unfold patSet at *
  rw [Finset.mem_image] at *
  obtain ⟨k, hk, rfl⟩ := hf
  rw [Finset.mem_range] at hk
  refine ⟨k, by rw [Finset.mem_range, List.length_append]; omega, ?_⟩
  funext t
  unfold pat
  rw [List.getD_eq_getElem?_getD (l := cuts ++ new), List.getElem?_append_left hk, List.getD_eq_getElem?_getD (l := cuts)]

/-- The rows of the data with a constraint. -/
def rowSet (N : ℕ) (added : List Bool) : Finset ℕ := (Finset.range N).filter (fun r => added.getD r false = true)

theorem rowSet_card (N : ℕ) (added : List Bool) : (rowSet N added).card ≤ N := by
  have := Finset.card_filter_le (Finset.range N) (fun r => added.getD r false = true)
  rwa [Finset.card_range] at this

/-- What is left to find. -/
def left (d : ℕ) (c : Conf) (splits : List Split) (cuts : List (List Bool)) (s : MS) : ℕ :=
  (2 ^ splits.length - (patSet splits.length cuts).card) + (c.X.length - (rowSet c.X.length s.addedRow).card)

/-- One round: nothing is found, or something new is. -/
theorem cutRound_progress {d : ℕ} {c : Conf} {splits : List Split} (hid : ∀ i (s : Split), splits[i]? = some s → s.id = i)
    {o : Oracle} (ho : CutSound o) {cuts : List (List Bool)} {own : List Own} {cd : List CD} {s : MS} (h : Inv d c splits cuts own cd s)
    (hf : s.m.FeasibleLP s.last.values) :
    ∃ cuts' cd', Inv d c splits cuts' own cd' (cutRound c o s).2.2 ∧ (cutRound c o s).2.2.paths = s.paths ∧
      (cutRound c o s).2.2.last = s.last ∧ (cutRound c o s).2.2.pathSol = s.last.values ∧
      ((cutRound c o s).2.1.length > 0 ∨ (cutRound c o s).1 > 0 → left d c splits cuts' (cutRound c o s).2.2 < left d c splits cuts s) ∧
      (¬ ((cutRound c o s).2.1.length > 0 ∨ (cutRound c o s).1 > 0) → c.generateCuts = true → CutOptimal o → ∀ row,
        pathSum s.paths s.last.values (Follows d (rowLeft (cutRound c o s).2.2.splits row)) ≤ 1 + cutTol s.paths.length) := by
  have h1 : Inv d c splits cuts own cd (storeLp s) := h.of_eq rfl
  obtain ⟨b, hb⟩ : ∃ b, b = if c.betaAsCuts then addBetaCuts c (storeLp s) else (0, storeLp s) := ⟨_, rfl⟩
  have h2 : ∃ cd2, Inv d c splits cuts own cd2 b.2 ∧ b.2.paths = s.paths ∧ b.2.last = s.last ∧ b.2.pathSol = s.last.values ∧
      (b.1 > 0 → (rowSet c.X.length s.addedRow).card < (rowSet c.X.length b.2.addedRow).card) ∧
      (b.1 = 0 → b.2.addedRow = s.addedRow ∧ MasterFeasible d c b.2 b.2.pathSol) := by
    rw [hb]
    by_cases hb : c.betaAsCuts = true
    · rw [if_pos hb]
      obtain ⟨new, k1, k2, _, k4, k5, k6, k7, k8, k9, k10, _⟩ := inv_addBetaCuts h1
      refine ⟨_, k1, k7, rfl, rfl, ?_, ?_⟩
      · intro hpos
        rw [k2] at hpos
        obtain ⟨r, hr⟩ := List.exists_mem_of_length_pos hpos
        apply Finset.card_lt_card
        rw [Finset.ssubset_iff_of_subset]
        · refine ⟨r, ?_, ?_⟩
          · unfold rowSet
            rw [Finset.mem_filter, Finset.mem_range]
            exact ⟨(k5 r hr).1, (k5 r hr).2.2.2.2⟩
          · unfold rowSet
            rw [Finset.mem_filter]
            rintro ⟨_, e⟩
            have e' : s.addedRow.getD r false = false := (k5 r hr).2.2.1
            rw [e'] at e
            cases e
        · intro x hx
          unfold rowSet at *
          rw [Finset.mem_filter] at *
          refine ⟨hx.1, ?_⟩
          by_cases hxn : x ∈ new
          · exact (k5 x hxn).2.2.2.2
          · rw [k6 x hxn]; exact hx.2
      · intro hz
        rw [k2] at hz
        have hnil : new = [] := List.length_eq_zero_iff.1 hz
        subst hnil
        have hfe : MasterFeasible d c (storeLp s) s.last.values := (h1.feasible hid _).1 hf
        have hadd : ∀ r, (addBetaCuts c (storeLp s)).2.addedRow.getD r false = s.addedRow.getD r false := fun r => k6 r (by simp)
        have hlen : (addBetaCuts c (storeLp s)).2.addedRow.length = s.addedRow.length := by rw [k1.added, h.added]
        refine ⟨?_, ?_⟩
        · apply List.ext_getElem hlen
          intro i hi1 hi2
          have := hadd i
          rw [List.getD_eq_getElem?_getD, List.getD_eq_getElem?_getD, List.getElem?_eq_getElem hi1, List.getElem?_eq_getElem hi2] at this
          exact this
        · refine ⟨by rw [k7]; exact hfe.path_nonneg, by rw [k8]; exact hfe.rho_nonneg, by rw [k7]; exact hfe.leaf, ?_, ?_, ?_⟩
          · rw [k7, k8]; exact hfe.consistent
          · intro r hr ha
            rw [hadd r] at ha
            rw [k7, k10]
            exact hfe.rows r hr ha
          · rw [k7, k9, k10]
            exact hfe.cuts
    · rw [if_neg hb]
      exact ⟨cd, h1, rfl, rfl, rfl, fun h => absurd h (by simp), fun _ => ⟨rfl, (h1.feasible hid _).1 hf⟩⟩
  obtain ⟨cd2, h2, hp2, hl2, hs2, hpos, hzero⟩ := h2
  obtain ⟨g, hg⟩ : ∃ g, g = if c.generateCuts && b.1 == 0 then addCuts o b.2 else ([], b.2) := ⟨_, rfl⟩
  have e : cutRound c o s = (b.1, g.1, { g.2 with totalCuts := g.2.totalCuts + (g.1.length + b.1) }) := by
    rw [hg, hb]; rfl
  have hrest : ∀ o s, (addCuts o s).2.last = s.last ∧ (addCuts o s).2.pathSol = s.pathSol := by
    intro o s
    unfold addCuts
    simp only
    split_ifs <;> exact ⟨rfl, rfl⟩
  rw [e]
  by_cases hgc : (c.generateCuts && b.1 == 0) = true
  · rw [if_pos hgc] at hg
    obtain ⟨k1, k2, k3, _⟩ := inv_addCuts hid h2 ho
    have hb0 : b.1 = 0 := by
      rw [Bool.and_eq_true] at hgc
      exact beq_iff_eq.1 hgc.2
    obtain ⟨hadd, hfe⟩ := hzero hb0
    rw [← hg] at k1 k2 k3
    have hadd2 : rowSet c.X.length g.2.addedRow = rowSet c.X.length b.2.addedRow := by
      unfold rowSet
      apply Finset.filter_congr
      intro r hr
      rw [Finset.mem_range] at hr
      have : g.2.addedRow.getD r false = b.2.addedRow.getD r false := by
        rw [hg]
        unfold addCuts
        simp only
        split_ifs
        · rfl
        · simp only
          rw [List.getD_eq_getElem?_getD, List.getElem?_append_left (by rw [h2.added]; omega), ← List.getD_eq_getElem?_getD]
      rw [this]
    refine ⟨_, _, k1.of_eq rfl, k3.trans hp2, ?_, ?_, ?_, ?_⟩
    · change g.2.last = s.last
      rw [hg, (hrest o b.2).1, hl2]
    · change g.2.pathSol = _
      rw [hg, (hrest o b.2).2, hs2]
    · simp only
      intro hsome
      have hne : g.1.length > 0 := by
        rcases hsome with h | h
        · exact h
        · omega
      rw [k2, List.length_map] at hne
      obtain ⟨y, hy⟩ := List.exists_mem_of_length_pos hne
      unfold left
      change (_ - (patSet splits.length (cuts ++ (recorded o b.2).map (·.2))).card) + (c.X.length - (rowSet c.X.length g.2.addedRow).card) < _
      rw [hadd2, hadd]
      have hlt : (patSet splits.length cuts).card < (patSet splits.length (cuts ++ (recorded o b.2).map (·.2))).card := by
        apply Finset.card_lt_card
        rw [Finset.ssubset_iff_of_subset (patSet_append _ _ _)]
        refine ⟨fun t => y.2.getD t false, ?_, ?_⟩
        · obtain ⟨k, hk⟩ := List.mem_iff_getElem?.1 hy
          have hk' := (List.getElem?_eq_some_iff.1 hk).1
          unfold patSet
          rw [Finset.mem_image]
          refine ⟨cuts.length + k, by rw [Finset.mem_range, List.length_append, List.length_map]; omega, ?_⟩
          funext t
          unfold pat
          rw [List.getD_eq_getElem?_getD (l := cuts ++ _), List.getElem?_append_right (by omega),
            show cuts.length + k - cuts.length = k by omega, List.getElem?_map, hk]
          rfl
        · unfold patSet
          rw [Finset.mem_image]
          rintro ⟨k, hk, he⟩
          rw [Finset.mem_range] at hk
          obtain ⟨t, ht, hne⟩ := h2.new_cut hid ho hfe y hy k hk
          apply hne
          rw [cutLeft_eq h2.cutsFilled (h2.same.id hid) hk (by rw [h2.same.length]; exact ht)]
          exact congrFun he ⟨t, ht⟩
      have := patSet_card splits.length (cuts ++ (recorded o b.2).map (·.2))
      omega
    · simp only
      intro hno _ hopt row
      have hnil : (addCuts o b.2).1 = [] := by
        rw [← hg]
        apply List.length_eq_zero_iff.1
        by_contra hne
        exact hno (.inl (by omega))
      have := (h2.no_violation hopt hnil row).1
      rw [hp2, hs2] at this
      change pathSum s.paths s.last.values (Follows d (rowLeft g.2.splits row)) ≤ _
      rw [k1.same.rowLeft row, ← h2.same.rowLeft row]
      exact this
  · rw [if_neg hgc] at hg
    rw [hg]
    refine ⟨cuts, cd2, h2.of_eq rfl, hp2, hl2, hs2, ?_, ?_⟩
    · simp only
      intro hsome
      have hb1 : b.1 > 0 := by
        rcases hsome with h | h
        · simp at h
        · exact h
      have := hpos hb1
      unfold left
      change (_ - _) + (c.X.length - (rowSet c.X.length b.2.addedRow).card) < _
      have := rowSet_card c.X.length b.2.addedRow
      omega
    · simp only
      intro hno hgen
      exfalso
      apply hgc
      rw [hgen, Bool.true_and, beq_iff_eq]
      by_contra hne
      exact hno (.inr (by omega))

/-- With more rounds than things to find, the rounds end because nothing is found, or because the LP solver fails. -/
theorem cutRounds_stop {d : ℕ} {c : Conf} {splits : List Split} (hid : ∀ i (s : Split), splits[i]? = some s → s.id = i)
    {o : Oracle} (ho : CutSound o) (hl : LpFeasible o) (n : ℕ) (acc : List (List Bool)) {cuts : List (List Bool)} {own : List Own}
    {cd : List CD} {s : MS} (h : Inv d c splits cuts own cd s) (hf : s.last.status = .optimal → s.m.FeasibleLP s.last.values)
    (hn : left d c splits cuts s < n) (hopt : CutOptimal o) (hg : c.generateCuts = true)
    (hst : (cutRounds c o n acc s).2.last.status = .optimal) (row : List ℚ) :
    pathSum s.paths (cutRounds c o n acc s).2.last.values (Follows d (rowLeft (cutRounds c o n acc s).2.splits row)) ≤
      1 + cutTol s.paths.length := by
  induction n generalizing acc cuts cd s with
  | zero => omega
  | succ n ih =>
    by_cases hs : s.last.status = .optimal
    · obtain ⟨cuts', cd', k1, k2, k3, k4, k5, k6⟩ := cutRound_progress hid ho h (hf hs)
      by_cases hsome : (cutRound c o s).2.1.length > 0 ∨ (cutRound c o s).1 > 0
      · have e : cutRounds c o (n + 1) acc s = cutRounds c o n (acc ++ (cutRound c o s).2.1) (lpSolve o (cutRound c o s).2.2) := by
          rw [cutRounds, if_pos hs]
          exact if_pos hsome
        rw [e] at hst ⊢
        have := ih (acc ++ (cutRound c o s).2.1) (s := lpSolve o (cutRound c o s).2.2) (cuts := cuts') (cd := cd') (k1.of_eq rfl)
          (fun hopt => hl _ _ hopt) (lt_of_lt_of_le (k5 hsome) (by omega)) hst
        rw [← k2]
        exact this
      · have e : cutRounds c o (n + 1) acc s = (acc, (cutRound c o s).2.2) := by
          rw [cutRounds, if_pos hs]
          exact if_neg hsome
        rw [e]
        change pathSum s.paths (cutRound c o s).2.2.last.values _ ≤ _
        rw [k3]
        exact k6 hsome hg hopt row
    · have e : cutRounds c o (n + 1) acc s = (acc, s) := by
        rw [cutRounds, if_neg hs]
      rw [e] at hst
      exact absurd hst hs

/-- **C89**, all rounds of one `solve_rmp`: in an iteration with cut rounds, if the limit on the rounds exceeds the number of conceivable
patterns and rows (and the LP solver ends with an optimal solution), the stored solution respects the bound of *every* row of numbers, up to
the accuracy of the search. -/
theorem C89_rounds_end_clean {d : ℕ} {c : Conf} {o : Oracle} {paths : List Path} {splits : List Split} {dataRows : Option (List Row)}
    (hs : Setup d c splits dataRows) (hp : ∀ p ∈ paths, GoodPath d splits p) (ho : CutSound o) (hopt : CutOptimal o) (hl : LpFeasible o)
    {s : MS} (h : Reached d c o paths splits dataRows s) (hit : (s.iter + 1) % 10 = 0) (hg : c.generateCuts = true)
    (hn : 2 ^ splits.length + c.X.length < c.numCutsRound) (hst : (solveRmp c o s).2.last.status = .optimal) (row : List ℚ) :
    pathSum (solveRmp c o s).2.paths (solveRmp c o s).2.pathSol (Follows d (rowLeft (solveRmp c o s).2.splits row)) ≤
      1 + cutTol (solveRmp c o s).2.paths.length := by
  obtain ⟨cuts, own, cd, hi⟩ := reached_inv hs hp ho h
  obtain ⟨s1, hs1⟩ : ∃ s1, s1 = lpSolve o { s with
      prevRmpObj := s.rmpObj
      iter := s.iter + 1 } := ⟨_, rfl⟩
  have h1 : Inv d c splits cuts own cd s1 := by rw [hs1]; exact hi.of_eq rfl
  obtain ⟨r, hr⟩ : ∃ r, r = cutRounds c o c.numCutsRound [] s1 := ⟨_, rfl⟩
  have e : solveRmp c o s = if r.2.last.status = .optimal then (.ok (readDuals c r.2 r.1), storeLp r.2)
      else (.ok ⟨[], [], fun _ _ _ => none, [], r.1⟩, r.2) := by
    unfold solveRmp
    rw [if_pos hi.gen]
    simp only
    rw [← hs1]
    have : s1.iter % 10 = 0 := by rw [hs1]; exact hit
    rw [if_pos this, ← hr]
  have hst' : r.2.last.status = .optimal := by
    by_contra hne
    rw [e, if_neg hne] at hst
    exact hne hst
  rw [if_pos hst'] at e
  rw [e]
  change pathSum r.2.paths r.2.last.values (Follows d (rowLeft r.2.splits row)) ≤ 1 + cutTol r.2.paths.length
  have hpaths : r.2.paths = s1.paths := by
    rw [hr]
    obtain ⟨_, _, _, k⟩ := inv_cutRounds hs.tree.split_id ho c.numCutsRound [] h1
    exact k
  rw [hpaths, hr]
  refine cutRounds_stop hs.tree.split_id ho hl c.numCutsRound [] h1 ?_ ?_ hopt hg (by rw [← hr]; exact hst') row
  · intro hopt'
    rw [hs1] at hopt' ⊢
    exact hl _ _ hopt'
  · unfold left
    exact lt_of_le_of_lt (Nat.add_le_add (Nat.sub_le _ _) (Nat.sub_le _ _)) hn

/-! ## The hypotheses can be met -/

theorem hit_le (obj : List (ℕ × ℤ)) (a : ℕ → Bool) :
    (obj.map (fun t => if a t.1 then t.2 else 0)).sum ≤ (obj.map (fun t => |t.2|)).sum := by
  induction obj with
  | nil => simp
  | cons t l ih =>
    rw [List.map_cons, List.sum_cons, List.map_cons, List.sum_cons]
    have h1 := le_abs_self t.2
    have h2 := abs_nonneg t.2
    split_ifs <;> omega

theorem exists_best (cp : Cp) (h : ∃ a, cp.Holds a) : ∃ a, cp.Holds a ∧ ∀ b, cp.Holds b → cp.value b ≤ cp.value a := by
  obtain ⟨a0, h0⟩ := h
  obtain ⟨z, ⟨a, ha, hz⟩, hmax⟩ := Int.exists_greatest_of_bdd (P := fun z => ∃ a, cp.Holds a ∧ cp.value a = z)
    ⟨(cp.obj.map (fun t => |t.2|)).sum, by rintro z ⟨a, _, rfl⟩; exact hit_le cp.obj a⟩ ⟨_, a0, h0, rfl⟩
  exact ⟨a, ha, fun b hb => by rw [hz]; exact hmax _ ⟨b, hb, rfl⟩⟩

open Classical in
/-- A run of the cut generation model that passes one optimal solution. -/
noncomputable def bestCut (cp : Cp) (_ : ℕ) : List (ℕ → Bool) := if h : ∃ a, cp.Holds a then [(exists_best cp h).choose] else []

theorem bestCut_sound (o : Oracle) (h : o.cut = bestCut) : CutSound o ∧ CutOptimal o := by
  constructor
  · intro cp k a ha
    rw [h] at ha
    unfold bestCut at ha
    split_ifs at ha with hh
    · rw [List.mem_singleton.1 ha]
      exact (exists_best cp hh).choose_spec.1
    · cases ha
  · intro cp k hh
    rw [h]
    unfold bestCut
    rw [dif_pos hh]
    exact ⟨_, List.mem_singleton.2 rfl, (exists_best cp hh).choose_spec⟩

end Verif.DTree
