import Verif.DTree.MasterHist
import Verif.DTree.ReachProps

/-!
# Properties C40, C41, C42 and C50: the restricted master and its integer solutions
-/

set_option linter.unusedSectionVars false
set_option linter.unusedSimpArgs false

namespace Verif.DTree

open MP Spec

/-! ## C40 -/

theorem paths_generate {c : Conf} {paths : List Path} {splits : List Split} {dataRows : Option (List Row)} {s : MS}
    (h : generateMp c (MS.init paths splits dataRows) = (.ok (), s)) : s.paths = paths.mapIdx (fun i p => { p with id := i }) := by
  unfold generateMp at h
  rw [if_neg (by simp [MS.init])] at h
  cases hcm : createCutModel c.leaves (MS.init paths splits dataRows).splits (MS.init paths splits dataRows).paths with
  | error e => rw [hcm] at h; cases h
  | ok x =>
    obtain ⟨cp, sv, pv⟩ := x
    rw [hcm] at h
    simp only [Prod.mk.injEq, true_and] at h
    rw [← h]
    simp only
    obtain ⟨own1, a1, a2, a3, a4, a5, a6, a7, a8, a9⟩ := addPathVars_spec 0 (fun _ _ => false) (fun _ _ => false) paths Model.empty [] []
      Rep.empty (ObjIs.empty _) (by intro v p; simp) rfl (by intro o ho; cases ho)
    simp only [List.nil_append, List.length_nil, Nat.zero_add] at a8
    exact a8

theorem addRowCons_added (c : Conf) (splits : List Split) (paths : List Path) (rows : List Row) (rs : List ℕ)
    (st : Model × (ℕ → Option ℕ) × List Bool) (hlt : ∀ r ∈ rs, r < st.2.2.length) (r : ℕ) :
    (rs.foldl (addRowCons c splits paths rows) st).2.2.getD r false = true ↔
      st.2.2.getD r false = true ∨ (r ∈ rs ∧ (rowAt rows r).removedFromMaster = false) := by
  induction rs generalizing st with
  | nil => simp
  | cons r0 rs ih =>
    rw [List.foldl_cons]
    have hlen : (addRowCons c splits paths rows st r0).2.2.length = st.2.2.length := by
      unfold addRowCons
      split_ifs
      · rfl
      · simp
    rw [ih _ (by rw [hlen]; intro r hr; exact hlt r (List.mem_cons_of_mem _ hr))]
    unfold addRowCons
    split_ifs with hrm
    · simp only [List.mem_cons]
      constructor
      · rintro (h | ⟨h1, h2⟩)
        · exact Or.inl h
        · exact Or.inr ⟨Or.inr h1, h2⟩
      · rintro (h | ⟨rfl | h1, h2⟩)
        · exact Or.inl h
        · rw [h2] at hrm; cases hrm
        · exact Or.inr ⟨h1, h2⟩
    · simp only [List.mem_cons]
      have hr0 := hlt r0 (List.mem_cons_self ..)
      rw [List.getD_eq_getElem?_getD, List.getD_eq_getElem?_getD]
      by_cases he : r = r0
      · subst he
        rw [List.getElem?_set_self hr0]
        simp at hrm
        simp [hrm]
      · rw [List.getElem?_set_ne (Ne.symm he)]
        simp [he]

theorem rows_generate {c : Conf} {paths : List Path} {splits : List Split} {dataRows : Option (List Row)} {s : MS}
    (h : generateMp c (MS.init paths splits dataRows) = (.ok (), s)) (r : ℕ) : s.addedRow.getD r false = true ↔
      c.betaAsCuts = false ∧ r < c.X.length ∧ (rowAt (s.dataRows.getD []) r).removedFromMaster = false := by
  unfold generateMp at h
  rw [if_neg (by simp [MS.init])] at h
  cases hcm : createCutModel c.leaves (MS.init paths splits dataRows).splits (MS.init paths splits dataRows).paths with
  | error e => rw [hcm] at h; cases h
  | ok x =>
    obtain ⟨cp, sv, pv⟩ := x
    rw [hcm] at h
    simp only [Prod.mk.injEq, true_and] at h
    rw [← h]
    simp only [Option.getD_some]
    have hrep : ∀ r, (List.replicate c.X.length false).getD r false = false := by
      intro r
      rw [List.getD_eq_getElem?_getD, List.getElem?_replicate]
      split_ifs <;> rfl
    by_cases hb : c.betaAsCuts = true
    · rw [if_pos hb]
      simp only [hrep, hb]
      simp
    · rw [if_neg hb, addRowCons_added _ _ _ _ _ _ (by intro r hr; simpa using hr)]
      simp only [hrep, List.mem_range]
      simp [hb]

/-- **C40.** After `generate_mp` and any sequence of calls, an assignment is feasible for the LP of the solver model iff it satisfies the
documented program: nonnegative variables, one path per leaf, consistent splits, added rows, cuts. The objective to maximise is the sum
of cost times variable; every variable is an integer variable of the integer model; no variable is shared. -/
theorem C40_master_program {d : ℕ} {c : Conf} {o : Oracle} {paths : List Path} {splits : List Split} {dataRows : Option (List Row)}
    (hs : Setup d c splits dataRows) (hp : ∀ p ∈ paths, GoodPath d splits p) (ho : CutSound o) {s : MS}
    (h : Reached d c o paths splits dataRows s) :
    (∀ a, s.m.FeasibleLP a ↔ MasterFeasible d c s a) ∧
    (∀ a, s.m.value a = (s.paths.map (fun p => p.cost * a p.id)).sum) ∧ s.m.maximize = true ∧
    (∀ a, s.m.Feasible a ↔ MasterFeasible d c s a ∧ (∀ p ∈ s.paths, ∃ z : ℤ, a p.id = z) ∧
      ∀ n t v, s.nsVars n t = some v → ∃ z : ℤ, a v = z) ∧
    (s.paths.map (·.id)).Nodup ∧ (∀ n t v, s.nsVars n t = some v → ∀ p ∈ s.paths, p.id ≠ v) ∧
    (∀ n t n' t' v, s.nsVars n t = some v → s.nsVars n' t' = some v → n = n' ∧ t = t') := by
  obtain ⟨cuts, own, cd, hi⟩ := reached_inv hs hp ho h
  have hid := hs.tree.split_id
  refine ⟨hi.feasible hid, hi.value, hi.maxi, ?_, hi.ids_nodup, fun n t v hv p hp => hi.ns_ne_path hv hp, ?_⟩
  · intro a
    constructor
    · intro hf
      have hint : ∀ (i : ℕ) (o : Own), own[i]? = some o → ∃ z : ℤ, a i = z := by
        intro i o ho
        refine hf.integral i _ ?_ (rfl : (nonnegInt).int = true)
        rw [hi.rep.vars, List.getElem?_map, ho]
        rfl
      refine ⟨(hi.feasible hid a).1 hf.toFeasibleLP, ?_, ?_⟩
      · intro p hp
        exact hint p.id _ ((hi.pidx p.id p).2 ⟨hp, rfl⟩)
      · intro n t v hv
        exact hint v _ ((hi.nsv n t v).1 hv)
    · rintro ⟨hf, h1, h2⟩
      refine ⟨(hi.feasible hid a).2 hf, ?_⟩
      intro i v hv _
      rw [hi.rep.vars, List.getElem?_map] at hv
      cases ho : own[i]? with
      | none => rw [ho] at hv; cases hv
      | some o =>
        cases o with
        | path p =>
          have := (hi.pidx i p).1 ho
          rw [← this.2]
          exact h1 p this.1
        | ns n t => exact h2 n t i ((hi.nsv n t i).2 ho)
  · intro n t n' t' v h1 h2
    have e1 := (hi.nsv n t v).1 h1
    rw [(hi.nsv n' t' v).1 h2] at e1
    injection e1 with e1
    injection e1 with e1 e2
    exact ⟨e1.symm, e2.symm⟩

/-- **C40**, the paths and rows: `generate_mp` keeps the initial paths in order and constrains exactly the rows not removed by
preprocessing (none when they are added as cuts); `add_column` succeeds and appends its path; nothing else changes the paths. -/
theorem C40_paths_and_rows {d : ℕ} {c : Conf} {o : Oracle} {paths : List Path} {splits : List Split} {dataRows : Option (List Row)}
    (hs : Setup d c splits dataRows) (hp : ∀ p ∈ paths, GoodPath d splits p) (ho : CutSound o) :
    (∀ s, generateMp c (MS.init paths splits dataRows) = (.ok (), s) → s.paths = paths.mapIdx (fun i p => { p with id := i }) ∧
      ∀ r, s.addedRow.getD r false = true ↔
        c.betaAsCuts = false ∧ r < c.X.length ∧ (rowAt (s.dataRows.getD []) r).removedFromMaster = false) ∧
    ∀ s, Reached d c o paths splits dataRows s →
      (∀ p, GoodPath d splits p → (addColumn c p s).1 = .ok true ∧
        ∃ i, (addColumn c p s).2.paths = s.paths ++ [{ p with id := i }]) ∧
      (addBetaCuts c s).2.paths = s.paths ∧ (addCuts o s).2.paths = s.paths ∧ (solveRmp c o s).2.paths = s.paths ∧
      (solveIp o s).2.paths = s.paths ∧ (generateMp c s).2.paths = s.paths := by
  refine ⟨fun s h => ⟨paths_generate h, rows_generate h⟩, ?_⟩
  intro s h
  obtain ⟨cuts, own, cd, hi⟩ := reached_inv hs hp ho h
  refine ⟨?_, ?_, ?_, ?_, ?_, ?_⟩
  · intro p hp
    obtain ⟨k1, _, k3, _⟩ := inv_addColumn hs.depth hs.tree hs.filled hi hp
    exact ⟨k1, _, k3⟩
  · rfl
  · exact (inv_addCuts hs.tree.split_id hi ho).2.2.1
  · obtain ⟨_, _, _, k⟩ := inv_solveRmp hs.tree.split_id ho hi
    exact k
  · unfold solveIp
    rw [if_pos hi.gen]
    simp only
    split_ifs <;> rfl
  · unfold generateMp
    rw [if_pos hi.gen]

/-! ## Integer solutions are trees -/

theorem sum_zero_of_nonneg {α : Type*} (l : List α) (f : α → ℚ) (h0 : ∀ x ∈ l, 0 ≤ f x) (hs : (l.map f).sum ≤ 0) : ∀ x ∈ l, f x = 0 := by
  induction l with
  | nil => intro x hx; cases hx
  | cons y l ih =>
    rw [List.map_cons, List.sum_cons] at hs
    have h1 := h0 y (List.mem_cons_self ..)
    have h2 : 0 ≤ (l.map f).sum := List.sum_nonneg (by
      intro z hz
      obtain ⟨x, hx, rfl⟩ := List.mem_map.1 hz
      exact h0 x (List.mem_cons_of_mem _ hx))
    intro x hx
    rcases List.mem_cons.1 hx with rfl | hx
    · linarith
    · exact ih (fun x hx => h0 x (List.mem_cons_of_mem _ hx)) (by linarith) x hx

/-- Nonnegative integers with sum 1: one is 1, the others are 0. -/
theorem int_sum_one {α : Type*} (l : List α) (f : α → ℚ) (hz : ∀ x ∈ l, ∃ z : ℤ, f x = z) (h0 : ∀ x ∈ l, 0 ≤ f x) (hs : (l.map f).sum = 1) :
    ∃ x l1 l2, l = l1 ++ x :: l2 ∧ f x = 1 ∧ ∀ y ∈ l1 ++ l2, f y = 0 := by
  induction l with
  | nil => simp at hs
  | cons y l ih =>
    rw [List.map_cons, List.sum_cons] at hs
    have h1 := h0 y (List.mem_cons_self ..)
    have h2 : 0 ≤ (l.map f).sum := List.sum_nonneg (by
      intro z hz
      obtain ⟨x, hx, rfl⟩ := List.mem_map.1 hz
      exact h0 x (List.mem_cons_of_mem _ hx))
    obtain ⟨z, hzy⟩ := hz y (List.mem_cons_self ..)
    have hl0 : ∀ x ∈ l, 0 ≤ f x := fun x hx => h0 x (List.mem_cons_of_mem _ hx)
    by_cases hz0 : z ≤ 0
    · have hy : f y = 0 := by
        have : (z : ℚ) ≤ 0 := by exact_mod_cast hz0
        linarith
      obtain ⟨x, l1, l2, k1, k2, k3⟩ := ih (fun x hx => hz x (List.mem_cons_of_mem _ hx)) hl0 (by linarith)
      refine ⟨x, y :: l1, l2, by rw [k1]; rfl, k2, ?_⟩
      intro w hw
      rcases List.mem_cons.1 hw with rfl | hw
      · exact hy
      · exact k3 w hw
    · have hz1 : (1 : ℚ) ≤ z := by
        have : 1 ≤ z := by omega
        exact_mod_cast this
      refine ⟨y, [], l, rfl, by linarith, ?_⟩
      intro w hw
      exact sum_zero_of_nonneg l f hl0 (by linarith) w hw

theorem pathSum_nonneg {paths : List Path} {a : ℕ → ℚ} (h : ∀ p ∈ paths, 0 ≤ a p.id) (P : Path → Prop) : 0 ≤ pathSum paths a P := by
  rw [pathSum_eq]
  apply List.sum_nonneg
  intro y hy
  obtain ⟨p, hp, rfl⟩ := List.mem_map.1 hy
  exact mul_nonneg (by unfold ind; split_ifs <;> norm_num) (h p hp)

theorem le_pathSum {paths : List Path} {a : ℕ → ℚ} (h : ∀ p ∈ paths, 0 ≤ a p.id) (P : Path → Prop) {p : Path} (hp : p ∈ paths) (hP : P p) :
    a p.id ≤ pathSum paths a P := by
  rw [pathSum_eq]
  have : a p.id ∈ paths.map (fun p => ind (P p) * a p.id) := List.mem_map.2 ⟨p, hp, by rw [ind_pos hP, one_mul]⟩
  refine List.single_le_sum ?_ _ this
  intro y hy
  obtain ⟨p, hp, rfl⟩ := List.mem_map.1 hy
  exact mul_nonneg (by unfold ind; split_ifs <;> norm_num) (h p hp)

theorem exists_of_pathSum {paths : List Path} {a : ℕ → ℚ} {P : Path → Prop} (h : 0 < pathSum paths a P) :
    ∃ p ∈ paths, P p ∧ 0 < a p.id := by
  by_contra hne
  push Not at hne
  have : pathSum paths a P ≤ (paths.map (fun _ => (0 : ℚ))).sum := by
    rw [pathSum_eq]
    apply List.sum_le_sum
    intro p hp
    by_cases hP : P p
    · rw [ind_pos hP, one_mul]; exact hne p hp hP
    · rw [ind_neg hP, zero_mul]
  simp at this
  linarith

theorem pathSum_congr' {paths : List Path} {a : ℕ → ℚ} {P Q : Path → Prop} (h : ∀ p ∈ paths, a p.id ≠ 0 → (P p ↔ Q p)) :
    pathSum paths a P = pathSum paths a Q := by
  rw [pathSum_eq, pathSum_eq]
  congr 1
  apply List.map_congr_left
  intro p hp
  by_cases h0 : a p.id = 0
  · rw [h0, mul_zero, mul_zero]
  · have : P p = Q p := propext (h p hp h0)
    rw [this]

/-- A path that uses the splits of a tree is followed iff its leaf is where the walk ends. -/
theorem follows_tree {d : ℕ} {σ : ℕ → ℕ} {p : Path} (hwf : WFPath d p) (hσ : ∀ q ∈ p.pairs, q.2 = σ q.1) (left : ℕ → Bool) :
    Follows d left p ↔ p.leafId = walkLeaf (fun n => left (σ n)) d := by
  rw [eq_comm, walkLeaf_iff _ hwf.leaf_lt]
  unfold Follows
  constructor
  · intro h k hk
    obtain ⟨s, hs⟩ := hwf.exists_split hk
    have h2 := h k hk s hs
    have h3 : s = σ (anc d p.leafId k) := hσ _ hs
    rw [h3] at h2
    exact h2
  · intro h k hk s hs
    have h3 : s = σ (anc d p.leafId k) := hσ _ hs
    rw [h3]
    exact h k hk

/-- The paths with a positive value form a tree with split `σ n` at node `n` and path `P l` at leaf `l`. -/
structure IsTree (d : ℕ) (s : MS) (a : ℕ → ℚ) (σ : ℕ → ℕ) (P : ℕ → Path) : Prop where
  mem : ∀ l < 2 ^ d, P l ∈ s.paths
  leaf : ∀ l < 2 ^ d, (P l).leafId = l
  one : ∀ l < 2 ^ d, a (P l).id = 1
  splits : ∀ l < 2 ^ d, ∀ q ∈ (P l).pairs, q.2 = σ q.1
  only : ∀ p ∈ s.paths, a p.id ≠ 0 → p = P p.leafId

theorem core_int {d : ℕ} {c : Conf} {s : MS} {a : ℕ → ℚ} (hw : ∀ p ∈ s.paths, WFPath d p) (hc : ∀ p ∈ s.paths, UsesCand c.nodes p)
    (h : Core d c s a) (hint : ∀ p ∈ s.paths, ∃ z : ℤ, a p.id = z) : ∃ σ P, IsTree d s a σ P := by
  classical
  have h1 : ∀ l < 2 ^ d, ∃ p ∈ s.paths, p.leafId = l ∧ a p.id = 1 ∧ ∀ q ∈ s.paths, q.leafId = l → a q.id ≠ 0 → q = p := by
    intro l hl
    have hsum := h.leaf l hl
    unfold pathSum at hsum
    beta_reduce at hsum
    obtain ⟨p, l1, l2, e, h1, h0⟩ := int_sum_one _ _ (by
        intro p hp
        exact hint p (List.mem_of_mem_filter hp)) (by
        intro p hp
        exact h.path_nonneg p (List.mem_of_mem_filter hp)) hsum
    have hmem : ∀ q, q ∈ l1 ++ p :: l2 ↔ q ∈ s.paths ∧ q.leafId = l := by
      intro q
      rw [← e, List.mem_filter]
      simp
    have hp := (hmem p).1 (by simp)
    refine ⟨p, hp.1, hp.2, h1, ?_⟩
    intro q hq hql hq0
    have hq' := (hmem q).2 ⟨hq, hql⟩
    simp only [List.mem_append, List.mem_cons] at hq'
    rcases hq' with hq' | hq' | hq'
    · exact absurd (h0 q (List.mem_append_left _ hq')) hq0
    · exact hq'
    · exact absurd (h0 q (List.mem_append_right _ hq')) hq0
  have h2 : ∀ l, ∃ p, l < 2 ^ d → p ∈ s.paths ∧ p.leafId = l ∧ a p.id = 1 ∧ ∀ q ∈ s.paths, q.leafId = l → a q.id ≠ 0 → q = p := by
    intro l
    by_cases hl : l < 2 ^ d
    · obtain ⟨p, k1, k2, k3, k4⟩ := h1 l hl
      exact ⟨p, fun _ => ⟨k1, k2, k3, k4⟩⟩
    · exact ⟨⟨0, [], [], 0, 0, 0, false⟩, fun hl' => absurd hl' hl⟩
  choose P hP using h2
  have hagree : ∀ l < 2 ^ d, ∀ l' < 2 ^ d, ∀ n t t', (n, t) ∈ (P l).pairs → (n, t') ∈ (P l').pairs → t = t' := by
    intro l hl l' hl' n t t' ht ht'
    obtain ⟨k1, k2, k3, k4⟩ := hP l hl
    obtain ⟨j1, j2, j3, j4⟩ := hP l' hl'
    obtain ⟨k, hk, hn⟩ := (hw _ k1).mem_pairs ht
    obtain ⟨k', hk', hn'⟩ := (hw _ j1).mem_pairs ht'
    rw [k2] at hn
    rw [j2] at hn'
    simp only at hn hn'
    have hkk : k = k' := anc_level hl hl' hk.le hk'.le (hn.symm.trans hn')
    subst hkk
    have hcand : t ∈ cand c.nodes n := hc _ k1 _ ht
    rw [hn] at hcand
    obtain ⟨v, hv, e1⟩ := h.consistent l hl k hk t hcand
    have hn2 : anc d l k = anc d l' k := hn.symm.trans hn'
    rw [hn2] at hcand
    obtain ⟨v', hv', e2⟩ := h.consistent l' hl' k hk t hcand
    rw [← hn2, hv] at hv'
    injection hv' with hv'
    have hge : 1 ≤ a v := by
      rw [← e1, ← k3]
      exact le_pathSum h.path_nonneg _ k1 ⟨k2, by rw [← hn]; exact ht⟩
    have hpos : 0 < pathSum s.paths a (fun p => p.leafId = l' ∧ (anc d l' k, t) ∈ p.pairs) := by
      rw [e2, ← hv']; linarith
    obtain ⟨q, hq, ⟨hq1, hq2⟩, hq3⟩ := exists_of_pathSum hpos
    have hqe := j4 q hq hq1 (ne_of_gt hq3)
    rw [hqe, ← hn'] at hq2
    exact (hw _ j1).split_unique hq2 ht'
  refine ⟨fun n => if h : ∃ t, ∃ l < 2 ^ d, (n, t) ∈ (P l).pairs then h.choose else 0, P, ?_, ?_, ?_, ?_, ?_⟩
  · intro l hl; exact (hP l hl).1
  · intro l hl; exact (hP l hl).2.1
  · intro l hl; exact (hP l hl).2.2.1
  · intro l hl q hq
    have hex : ∃ t, ∃ l < 2 ^ d, (q.1, t) ∈ (P l).pairs := ⟨q.2, l, hl, hq⟩
    rw [dif_pos hex]
    obtain ⟨l', hl', hm⟩ := hex.choose_spec
    exact hagree l hl l' hl' q.1 _ _ hq hm
  · intro p hp h0
    exact (hP p.leafId (hw p hp).leaf_lt).2.2.2 p hp rfl h0

theorem IsTree.follows {d : ℕ} {c : Conf} {s : MS} {a : ℕ → ℚ} {σ : ℕ → ℕ} {P : ℕ → Path} (ht : IsTree d s a σ P) (h : Core d c s a)
    (hw : ∀ p ∈ s.paths, WFPath d p) (left : ℕ → Bool) : pathSum s.paths a (Follows d left) = 1 := by
  rw [← h.leaf (walkLeaf (fun n => left (σ n)) d) (walkLeaf_lt _ _)]
  apply pathSum_congr'
  intro p hp h0
  have he := ht.only p hp h0
  have hl := (hw p hp).leaf_lt
  have := follows_tree (hw _ (ht.mem _ hl)) (ht.splits _ hl) left
  rw [← he] at this
  exact this

/-! ## C42 -/

theorem Spec.MasterFeasible.core {d : ℕ} {c : Conf} {s : MS} {a : ℕ → ℚ} (h : MasterFeasible d c s a) : Core d c s a :=
  ⟨h.path_nonneg, h.rho_nonneg, h.leaf, h.consistent⟩

/-- **C42.** Integer solutions of the leaf and consistency constraints satisfy all row constraints and all cuts, in fact exactly one path
is chosen among the paths followed by any split pattern: row constraints and cuts remove no integer solution. -/
theorem C42_cuts_keep_integer_points {d : ℕ} {c : Conf} {o : Oracle} {paths : List Path} {splits : List Split} {dataRows : Option (List Row)}
    (hs : Setup d c splits dataRows) (hp : ∀ p ∈ paths, GoodPath d splits p) (ho : CutSound o) {s : MS}
    (h : Reached d c o paths splits dataRows s) (hc : ∀ p ∈ s.paths, UsesCand c.nodes p) (a : ℕ → ℚ)
    (hint : ∀ p ∈ s.paths, ∃ z : ℤ, a p.id = z) :
    (MasterFeasible d c s a ↔ Core d c s a) ∧ (Core d c s a → ∀ left, pathSum s.paths a (Follows d left) = 1) := by
  obtain ⟨cuts, own, cd, hi⟩ := reached_inv hs hp ho h
  have hw : ∀ p ∈ s.paths, WFPath d p := fun p hp => (hi.good p hp).1
  have key : Core d c s a → ∀ left, pathSum s.paths a (Follows d left) = 1 := by
    intro hcore left
    obtain ⟨σ, P, ht⟩ := core_int hw hc hcore hint
    exact ht.follows hcore hw left
  refine ⟨⟨fun h => h.core, fun hcore => ⟨hcore.path_nonneg, hcore.rho_nonneg, hcore.leaf, hcore.consistent, ?_, ?_⟩⟩, key⟩
  · intro r _ _
    exact le_of_eq (key hcore _)
  · intro k _
    exact key hcore _

theorem sum_ind_eq (l : List Path) (hn : (l.map (·.id)).Nodup) (p : Path) (hp : p ∈ l) (g : Path → ℚ) (hg : ∀ q ∈ l, q ≠ p → g q = 0) :
    (l.map g).sum = g p := by
  induction l with
  | nil => cases hp
  | cons q l ih =>
    rw [List.map_cons, List.nodup_cons] at hn
    rw [List.map_cons, List.sum_cons]
    by_cases hq : q = p
    · subst hq
      have : (l.map g).sum = 0 := by
        apply List.sum_eq_zero
        intro y hy
        obtain ⟨r, hr, rfl⟩ := List.mem_map.1 hy
        apply hg r (List.mem_cons_of_mem _ hr)
        rintro rfl
        exact hn.1 (List.mem_map_of_mem hr)
      rw [this, add_zero]
    · have hm : p ∈ l := by
        rcases List.mem_cons.1 hp with h | h
        · exact absurd h.symm hq
        · exact h
      rw [ih hn.2 hm (fun r hr => hg r (List.mem_cons_of_mem _ hr)), hg q (List.mem_cons_self ..) hq, zero_add]

theorem id_inj {l : List Path} (hn : (l.map (·.id)).Nodup) {p q : Path} (hp : p ∈ l) (hq : q ∈ l) (h : p.id = q.id) : p = q :=
  List.inj_on_of_nodup_map hn hp hq h

/-- **C42**, every tree: if the available paths contain, for some choice of a split per node, a path with these splits for every leaf,
then choosing exactly these paths is feasible for the integer model of every reached state, whatever rows and cuts were added. -/
theorem C42_trees_stay_feasible {d : ℕ} {c : Conf} {o : Oracle} {paths : List Path} {splits : List Split} {dataRows : Option (List Row)}
    (hs : Setup d c splits dataRows) (hp : ∀ p ∈ paths, GoodPath d splits p) (ho : CutSound o) {s : MS}
    (h : Reached d c o paths splits dataRows s) (σ : ℕ → ℕ) (P : ℕ → Path)
    (hP : ∀ l < 2 ^ d, P l ∈ s.paths ∧ (P l).leafId = l ∧ ∀ q ∈ (P l).pairs, q.2 = σ q.1) :
    ∃ a, s.m.Feasible a ∧ ∀ p ∈ s.paths, (p = P p.leafId → a p.id = 1) ∧ (p ≠ P p.leafId → a p.id = 0) := by
  classical
  obtain ⟨cuts, own, cd, hi⟩ := reached_inv hs hp ho h
  have hw : ∀ p ∈ s.paths, WFPath d p := fun p hp => (hi.good p hp).1
  obtain ⟨_, _, _, hfeas, hnd, hne, hnsinj⟩ := C40_master_program hs hp ho h
  let a : ℕ → ℚ := fun i => if (∃ p ∈ s.paths, p.id = i ∧ p = P p.leafId) ∨ (∃ n, s.nsVars n (σ n) = some i) then 1 else 0
  have ha01 : ∀ i, a i = 0 ∨ a i = 1 := by
    intro i
    simp only [a]
    split_ifs
    · exact Or.inr rfl
    · exact Or.inl rfl
  have hpath1 : ∀ p ∈ s.paths, p = P p.leafId → a p.id = 1 := by
    intro p hp he
    exact if_pos (Or.inl ⟨p, hp, rfl, he⟩)
  have hpath0 : ∀ p ∈ s.paths, p ≠ P p.leafId → a p.id = 0 := by
    intro p hp he
    refine if_neg ?_
    rintro (⟨q, hq, hid, hqe⟩ | ⟨n, hn⟩)
    · have := id_inj hnd hq hp hid
      subst this
      exact he hqe
    · exact hne _ _ _ hn p hp rfl
  have hns : ∀ n t v, s.nsVars n t = some v → a v = if σ n = t then 1 else 0 := by
    intro n t v hv
    by_cases ht : σ n = t
    · rw [if_pos ht]
      exact if_pos (Or.inr ⟨n, by rw [ht]; exact hv⟩)
    · rw [if_neg ht]
      refine if_neg ?_
      rintro (⟨q, hq, hid, hqe⟩ | ⟨n', hn'⟩)
      · exact hne _ _ _ hv q hq hid
      · obtain ⟨rfl, h2⟩ := hnsinj _ _ _ _ _ hn' hv
        exact ht h2
  have hsum : ∀ l < 2 ^ d, ∀ Q : Path → Prop, pathSum s.paths a (fun p => p.leafId = l ∧ Q p) = ind (Q (P l)) := by
    intro l hl Q
    obtain ⟨k1, k2, k3⟩ := hP l hl
    rw [pathSum_eq, sum_ind_eq s.paths hnd (P l) k1]
    · rw [hpath1 _ k1 (by rw [k2]), mul_one]
      congr 1
      simp [k2]
    · intro q hq hqne
      by_cases hql : q.leafId = l
      · rw [hpath0 q hq (by rw [hql]; exact hqne), mul_zero]
      · rw [ind_neg (by simp [hql]), zero_mul]
  have hcore : Core d c s a := by
    refine ⟨?_, ?_, ?_, ?_⟩
    · intro p _
      rcases ha01 p.id with h | h <;> rw [h] <;> norm_num
    · intro n t v _
      rcases ha01 v with h | h <;> rw [h] <;> norm_num
    · intro l hl
      have := hsum l hl (fun _ => True)
      rw [ind_pos trivial] at this
      rw [← this]
      exact pathSum_congr (fun p _ => by simp)
    · intro l hl k hk t ht
      have hm : Own.ns (anc d l k) t ∈ own := (hi.nsmem _ _).2 ⟨anc_lt hl hk, ht⟩
      obtain ⟨v, hv⟩ := List.mem_iff_getElem?.1 hm
      have hnv := (hi.nsv _ _ v).2 hv
      refine ⟨v, hnv, ?_⟩
      rw [hsum l hl, hns _ _ _ hnv]
      obtain ⟨k1, k2, k3⟩ := hP l hl
      obtain ⟨u, hu⟩ := (hw _ k1).exists_split hk
      rw [k2] at hu
      have hσ := k3 _ hu
      simp only at hσ
      by_cases he : σ (anc d l k) = t
      · rw [if_pos he, ind_pos]
        rw [← he, ← hσ]; exact hu
      · rw [if_neg he, ind_neg]
        intro hmem
        exact he (k3 _ hmem).symm
  have hint : ∀ i, ∃ z : ℤ, a i = z := by
    intro i
    rcases ha01 i with h | h
    · exact ⟨0, by rw [h]; simp⟩
    · exact ⟨1, by rw [h]; simp⟩
  have hkey : ∀ left, pathSum s.paths a (Follows d left) = 1 := by
    have ht : IsTree d s a σ P := by
      refine ⟨fun l hl => (hP l hl).1, fun l hl => (hP l hl).2.1, fun l hl => ?_, fun l hl => (hP l hl).2.2, ?_⟩
      · exact hpath1 _ (hP l hl).1 (by rw [(hP l hl).2.1])
      · intro p hp h0
        by_contra hne
        exact h0 (hpath0 p hp hne)
    exact fun left => ht.follows hcore hw left
  refine ⟨a, (hfeas a).2 ⟨⟨hcore.path_nonneg, hcore.rho_nonneg, hcore.leaf, hcore.consistent, ?_, ?_⟩, fun p _ => hint _, fun _ _ v _ => hint v⟩,
    fun p hp => ⟨hpath1 p hp, hpath0 p hp⟩⟩
  · intro r _ _
    exact le_of_eq (hkey _)
  · intro k _
    exact hkey _

/-! ## C41 -/

/-- Contract of the integer solver: a reported solution is feasible with the right objective value. -/
def Spec.IpSound (o : Oracle) : Prop := ∀ m, (o.ip m).status = .optimal ∨ (o.ip m).status = .feasible → IsSolution m (o.ip m)

theorem predictRow_eq (leaves : List Leaf) (splits : List Split) (row : List ℚ) (ps : List Path) (p : Path) (hp : p ∈ ps)
    (h : ∀ q ∈ ps, rowSatisfiesPath row (leafAt leaves q.leafId) splits q = true ↔ q = p) : predictRow leaves splits row ps = p.target := by
  induction ps with
  | nil => cases hp
  | cons q ps ih =>
    unfold predictRow
    split_ifs with hs
    · rw [(h q (List.mem_cons_self ..)).1 hs]
    · have hm : p ∈ ps := by
        rcases List.mem_cons.1 hp with rfl | hm
        · exact absurd ((h p (List.mem_cons_self ..)).2 rfl) hs
        · exact hm
      exact ih hm (fun q hq => h q (List.mem_cons_of_mem _ hq))

theorem solveIp_tree {d : ℕ} {c : Conf} {o : Oracle} {paths : List Path} {splits : List Split} {dataRows : Option (List Row)}
    (hs : Setup d c splits dataRows) (hp : ∀ p ∈ paths, GoodPath d splits p) (ho : CutSound o) (hip : IpSound o) {s : MS}
    (h : Reached d c o paths splits dataRows s) (hc : ∀ p ∈ s.paths, UsesCand c.nodes p) (hok : (solveIp o s).1 = .ok true) :
    ∃ σ P, IsTree d s (o.ip s.m).values σ P ∧ ((solveIp o s).2.selected).Perm ((List.range (2 ^ d)).map P) ∧
      (o.ip s.m).objective = ((solveIp o s).2.selected.map (·.cost)).sum ∧ (solveIp o s).2.splits = s.splits := by
  obtain ⟨cuts, own, cd, hi⟩ := reached_inv hs hp ho h
  have hw : ∀ p ∈ s.paths, WFPath d p := fun p hp => (hi.good p hp).1
  obtain ⟨_, hval, _, hfeas, hnd, hne, hnsinj⟩ := C40_master_program hs hp ho h
  unfold solveIp at hok ⊢
  rw [if_pos hi.gen] at hok ⊢
  simp only at hok ⊢
  by_cases hst : (o.ip s.m).status = .optimal ∨ (o.ip s.m).status = .feasible
  swap
  · rw [if_neg hst] at hok; cases hok
  rw [if_pos hst]
  obtain ⟨hf, hobj⟩ := hip s.m hst
  obtain ⟨hmf, hint, _⟩ := (hfeas _).1 hf
  obtain ⟨σ, P, ht⟩ := core_int hw hc hmf.core hint
  have hval01 : ∀ p ∈ s.paths, (o.ip s.m).values p.id = 0 ∨ (o.ip s.m).values p.id = 1 := by
    intro p hp
    by_cases h0 : (o.ip s.m).values p.id = 0
    · exact Or.inl h0
    · right
      have he := ht.only p hp h0
      rw [he]
      exact ht.one _ (hw p hp).leaf_lt
  refine ⟨σ, P, ht, ?_, ?_, rfl⟩
  · simp only
    rw [List.perm_ext_iff_of_nodup]
    · intro p
      simp only [List.mem_filter, decide_eq_true_eq, List.mem_map, List.mem_range]
      constructor
      · rintro ⟨hp, hpos⟩
        exact ⟨p.leafId, (hw p hp).leaf_lt, (ht.only p hp (ne_of_gt hpos)).symm⟩
      · rintro ⟨l, hl, rfl⟩
        exact ⟨ht.mem l hl, by rw [ht.one l hl]; norm_num⟩
    · exact (List.Nodup.of_map _ hnd).filter _
    · apply List.Nodup.map_on _ List.nodup_range
      intro l hl l' hl' he
      rw [List.mem_range] at hl hl'
      have := congrArg Path.leafId he
      rw [ht.leaf l hl, ht.leaf l' hl'] at this
      exact this
  · rw [hobj, hval]
    simp only
    have : ∀ l : List Path, (∀ p ∈ l, (o.ip s.m).values p.id = 0 ∨ (o.ip s.m).values p.id = 1) →
        (l.map (fun p => p.cost * (o.ip s.m).values p.id)).sum =
          ((l.filter (fun p => decide ((o.ip s.m).values p.id > 0))).map (·.cost)).sum := by
      intro l
      induction l with
      | nil => intro _; rfl
      | cons p l ih =>
        intro hl
        rw [List.map_cons, List.sum_cons, ih (fun q hq => hl q (List.mem_cons_of_mem _ hq)), List.filter_cons]
        rcases hl p (List.mem_cons_self ..) with h0 | h1
        · rw [h0]; simp
        · rw [h1]; simp
    exact this _ hval01

theorem IsTree.sat {d : ℕ} {s : MS} {a : ℕ → ℚ} {σ : ℕ → ℕ} {P : ℕ → Path} (ht : IsTree d s a σ P) (hw : ∀ p ∈ s.paths, WFPath d p)
    (splits : List Split) (row : List ℚ) {l : ℕ} (hl : l < 2 ^ d) :
    rowSatisfiesPath row (leafAt (fullLeaves d) l) splits (P l) = true ↔ l = walkLeaf (fun n => takesLeft row (splitAt splits (σ n))) d := by
  have := rowSatisfiesPath_iff (hw _ (ht.mem l hl)) splits row
  rw [ht.leaf l hl] at this
  rw [this, follows_tree (hw _ (ht.mem l hl)) (ht.splits l hl), ht.leaf l hl]
  rfl

/-- **C41.** If the integer master is solved and all paths use candidate splits, the selected paths are one per leaf, agree on the split
`σ n` of every node, and `predict` answers (for every order of the selected paths and every row) the target of the one selected path the
row satisfies: that of the leaf where walking down the tree with splits `σ` ends. -/
theorem C41_selected_tree {d : ℕ} {c : Conf} {o : Oracle} {paths : List Path} {splits : List Split} {dataRows : Option (List Row)}
    (hs : Setup d c splits dataRows) (hp : ∀ p ∈ paths, GoodPath d splits p) (ho : CutSound o) (hip : IpSound o) {s : MS}
    (h : Reached d c o paths splits dataRows s) (hc : ∀ p ∈ s.paths, UsesCand c.nodes p) (hok : (solveIp o s).1 = .ok true) :
    ((solveIp o s).2.selected.map (·.leafId)).Perm (List.range (2 ^ d)) ∧ (∀ p ∈ (solveIp o s).2.selected, p ∈ s.paths) ∧
    ∃ σ : ℕ → ℕ, (∀ p ∈ (solveIp o s).2.selected, ∀ q ∈ p.pairs, q.2 = σ q.1 ∧ q.2 ∈ cand c.nodes q.1) ∧
      ∀ row, ∃ p ∈ (solveIp o s).2.selected,
        p.leafId = walkLeaf (fun n => takesLeft row (splitAt (solveIp o s).2.splits (σ n))) d ∧
        (∀ q ∈ (solveIp o s).2.selected, rowSatisfiesPath row (leafAt c.leaves q.leafId) (solveIp o s).2.splits q = true ↔ q = p) ∧
        ∀ sel, sel.Perm (solveIp o s).2.selected → predictRow c.leaves (solveIp o s).2.splits row sel = p.target := by
  obtain ⟨cuts, own, cd, hi⟩ := reached_inv hs hp ho h
  have hw : ∀ p ∈ s.paths, WFPath d p := fun p hp => (hi.good p hp).1
  obtain ⟨σ, P, ht, hperm, _, hspl⟩ := solveIp_tree hs hp ho hip h hc hok
  have hmem : ∀ p, p ∈ (solveIp o s).2.selected ↔ ∃ l < 2 ^ d, P l = p := by
    intro p
    rw [hperm.mem_iff]
    simp
  refine ⟨?_, ?_, σ, ?_, ?_⟩
  · refine (hperm.map _).trans ?_
    rw [List.map_map]
    have : (List.range (2 ^ d)).map ((·.leafId) ∘ P) = List.range (2 ^ d) := by
      conv_rhs => rw [← List.map_id (List.range (2 ^ d))]
      apply List.map_congr_left
      intro l hl
      exact ht.leaf l (List.mem_range.1 hl)
    rw [this]
  · intro p hp
    obtain ⟨l, hl, rfl⟩ := (hmem p).1 hp
    exact ht.mem l hl
  · intro p hp q hq
    obtain ⟨l, hl, rfl⟩ := (hmem p).1 hp
    exact ⟨ht.splits l hl q hq, hc _ (ht.mem l hl) q hq⟩
  · intro row
    rw [hspl, hs.tree.leaves]
    set l0 := walkLeaf (fun n => takesLeft row (splitAt s.splits (σ n))) d with hl0
    have hl0lt : l0 < 2 ^ d := walkLeaf_lt _ _
    have hsat : ∀ q ∈ (solveIp o s).2.selected, rowSatisfiesPath row (leafAt (fullLeaves d) q.leafId) s.splits q = true ↔ q = P l0 := by
      intro q hq
      obtain ⟨l, hl, rfl⟩ := (hmem q).1 hq
      rw [ht.leaf l hl, ht.sat hw s.splits row hl, ← hl0]
      constructor
      · intro he; rw [he]
      · intro he
        have := congrArg Path.leafId he
        rw [ht.leaf l hl, ht.leaf l0 hl0lt] at this
        exact this
    refine ⟨P l0, (hmem _).2 ⟨l0, hl0lt, rfl⟩, ht.leaf l0 hl0lt, hsat, ?_⟩
    intro sel hsel
    apply predictRow_eq
    · rw [hsel.mem_iff]; exact (hmem _).2 ⟨l0, hl0lt, rfl⟩
    · intro q hq
      rw [hsel.mem_iff] at hq
      exact hsat q hq

/-! ## C50 -/

/-- Training rows that follow the path and have its target. -/
def Spec.hits (leaves : List Leaf) (splits : List Split) (X : List (List ℚ)) (y : List ℤ) (p : Path) : ℕ :=
  ((Finset.range X.length).filter (fun r => rowSatisfiesPath (X.getD r []) (leafAt leaves p.leafId) splits p = true ∧ y.getD r 0 = p.target)).card

/-- Training rows that `predict` labels correctly. -/
def Spec.correct (leaves : List Leaf) (splits : List Split) (X : List (List ℚ)) (y : List ℤ) (sel : List Path) : ℕ :=
  ((Finset.range X.length).filter (fun r => predictRow leaves splits (X.getD r []) sel = y.getD r 0)).card

/-- **C50.** The reported integer objective is at most the number of training rows that `predict` labels correctly, when path costs are at
most the number of rows that follow the path and have its target; it equals that number when the costs count exactly. -/
theorem C50_objective_attained {d : ℕ} {c : Conf} {o : Oracle} {paths : List Path} {splits : List Split} {dataRows : Option (List Row)}
    (hs : Setup d c splits dataRows) (hp : ∀ p ∈ paths, GoodPath d splits p) (ho : CutSound o) (hip : IpSound o) {s : MS}
    (h : Reached d c o paths splits dataRows s) (hc : ∀ p ∈ s.paths, UsesCand c.nodes p) (hok : (solveIp o s).1 = .ok true) (y : List ℤ) :
    ((∀ p ∈ s.paths, p.cost ≤ hits c.leaves s.splits c.X y p) →
      (o.ip s.m).objective ≤ correct c.leaves (solveIp o s).2.splits c.X y (solveIp o s).2.selected) ∧
    ((∀ p ∈ s.paths, p.cost = hits c.leaves s.splits c.X y p) →
      (o.ip s.m).objective = correct c.leaves (solveIp o s).2.splits c.X y (solveIp o s).2.selected) := by
  classical
  obtain ⟨cuts, own, cd, hi⟩ := reached_inv hs hp ho h
  have hw : ∀ p ∈ s.paths, WFPath d p := fun p hp => (hi.good p hp).1
  obtain ⟨σ, P, ht, hperm, hobj, hspl⟩ := solveIp_tree hs hp ho hip h hc hok
  obtain ⟨_, hsub, σ', _, hpred⟩ := C41_selected_tree hs hp ho hip h hc hok
  rw [hspl, hobj]
  rw [hspl] at hpred
  have hsum : (((solveIp o s).2.selected.map (fun p => (hits c.leaves s.splits c.X y p : ℚ))).sum) =
      correct c.leaves s.splits c.X y (solveIp o s).2.selected := by
    rw [((hperm.map _).sum_eq), List.map_map]
    have : ((List.range (2 ^ d)).map ((fun p => (hits c.leaves s.splits c.X y p : ℚ)) ∘ P)).sum =
        ∑ l ∈ Finset.range (2 ^ d), (hits c.leaves s.splits c.X y (P l) : ℚ) := by
      change _ = (Multiset.map (fun l => (hits c.leaves s.splits c.X y (P l) : ℚ)) ↑(List.range (2 ^ d))).sum
      rw [Multiset.map_coe, Multiset.sum_coe]
      rfl
    rw [this]
    unfold hits correct
    simp only [Finset.card_filter]
    push_cast
    rw [Finset.sum_comm]
    apply Finset.sum_congr rfl
    intro r _
    obtain ⟨p, hp, hp1, hp2, hp3⟩ := hpred (c.X.getD r [])
    rw [hp3 _ (List.Perm.refl _)]
    obtain ⟨l0, hl0, rfl⟩ : ∃ l < 2 ^ d, P l = p := by
      have := hperm.mem_iff.1 hp
      simpa using this
    rw [Finset.sum_eq_single l0]
    · have hsat := (hp2 _ hp).2 rfl
      rw [hsat]
      simp only [true_and]
      simp [eq_comm]
    · intro l hl hne
      rw [Finset.mem_range] at hl
      have hmem : P l ∈ (solveIp o s).2.selected := hperm.mem_iff.2 (List.mem_map.2 ⟨l, List.mem_range.2 hl, rfl⟩)
      rw [if_neg]
      rintro ⟨h1, _⟩
      have := congrArg Path.leafId ((hp2 _ hmem).1 h1)
      rw [ht.leaf l hl, ht.leaf l0 hl0] at this
      exact hne this
    · intro hn
      exact absurd (Finset.mem_range.2 hl0) hn
  constructor
  · intro hcost
    rw [← hsum]
    apply List.sum_le_sum
    intro p hp
    exact hcost p (hsub p hp)
  · intro hcost
    rw [← hsum]
    congr 1
    apply List.map_congr_left
    intro p hp
    exact hcost p (hsub p hp)

end Verif.DTree
