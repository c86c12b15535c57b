import Verif.DTree.FitSpec
import Verif.BDR.FitLemmas

/-!
# Lemmas: single calls during `DTreeClassifier.fit`
-/

set_option linter.unusedSectionVars false
set_option linter.unusedSimpArgs false

namespace Verif.DTree

open MP Spec

variable {Ω : Type} {d : ℕ} {A : Args} {X : List (List ℚ)} {py : List ℕ} {o : FitOracle Ω} {tol : ℚ}

theorem marked_good (h : FitOk d A X py) : ∀ p ∈ marked A, GoodPath d A.splits p := by
  intro p hp
  obtain ⟨q, hq, rfl⟩ := List.mem_map.1 hp
  have := h.good q hq
  exact ⟨⟨this.1.leaf_lt, this.1.nodes, this.1.splits⟩, this.2⟩

/-! ## The master problem -/

theorem cutRound_last (c : Conf) (o : Oracle) (s : MS) :
    (cutRound c o s).2.2.last = s.last ∧ (¬ ((cutRound c o s).2.1.length > 0 ∨ (cutRound c o s).1 > 0) → (cutRound c o s).2.2.m = s.m) := by
  obtain ⟨b, hb⟩ : ∃ b, b = if c.betaAsCuts then addBetaCuts c (storeLp s) else (0, storeLp s) := ⟨_, rfl⟩
  obtain ⟨g, hg⟩ : ∃ g, g = if c.generateCuts && b.1 == 0 then addCuts o b.2 else ([], b.2) := ⟨_, rfl⟩
  have e : cutRound c o s = (b.1, g.1, { g.2 with totalCuts := g.2.totalCuts + (g.1.length + b.1) }) := by
    rw [hg, hb]; rfl
  have key : ∀ (rows : List Row) (sol : ℕ → ℚ) (l : List ℕ) (x : BS), x.num ≤ (betaLoop rows sol l x).num ∧
      ((betaLoop rows sol l x).num = x.num → (betaLoop rows sol l x).m = x.m) := by
    intro rows sol l
    induction l with
    | nil => intro x; exact ⟨le_rfl, fun _ => rfl⟩
    | cons r l ih =>
      intro x
      unfold betaLoop
      split_ifs
      · exact ih x
      · exact ⟨le_rfl, fun _ => rfl⟩
      · exact ih x
      · have h1 := ih ⟨addRow x.m none (some 1) ((rowAt rows r).reachablePaths.map (fun i => (i, 1))),
          Function.update x.rowCons r (some x.m.cons.length), x.addedRow.set r true, x.num + 1⟩
        simp only at h1
        exact ⟨by omega, fun h2 => by omega⟩
      · exact ih x
  have hb1 : b.2.last = s.last ∧ (b.1 = 0 → b.2.m = s.m) := by
    rw [hb]
    split_ifs
    · exact ⟨rfl, (key _ _ _ ⟨(storeLp s).m, (storeLp s).rowCons, (storeLp s).addedRow, 0⟩).2⟩
    · exact ⟨rfl, fun _ => rfl⟩
  have hg1 : g.2.last = b.2.last ∧ (g.1.length = 0 → g.2.m = b.2.m) := by
    rw [hg]
    split_ifs
    · unfold addCuts
      simp only
      split_ifs with h0
      · exact ⟨rfl, fun _ => rfl⟩
      · refine ⟨rfl, fun h1 => ?_⟩
        simp only [List.length_map] at h1
        exact absurd h1 h0
    · exact ⟨rfl, fun _ => rfl⟩
  rw [e]
  refine ⟨hg1.1.trans hb1.1, fun h0 => ?_⟩
  simp only at h0
  push Not at h0
  exact (hg1.2 (by omega)).trans (hb1.2 (by omega))

/-- The last LP answer always belongs to the current model. -/
theorem cutRounds_last (c : Conf) (o : Oracle) (n : ℕ) (acc : List (List Bool)) (s : MS) (h : ∃ k, s.last = o.lp s.m k) :
    ∃ k, (cutRounds c o n acc s).2.last = o.lp (cutRounds c o n acc s).2.m k := by
  induction n generalizing acc s with
  | zero => exact h
  | succ n ih =>
    obtain ⟨h1, h2⟩ := cutRound_last c o s
    unfold cutRounds
    simp only
    split_ifs with e1 e2
    · exact ih _ _ ⟨_, rfl⟩
    · obtain ⟨k, hk⟩ := h
      exact ⟨k, by rw [h1, h2 e2, hk]⟩
    · exact h

/-- After `solve_rmp` the stored answer is an answer for the final model. -/
theorem solveRmp_last (c : Conf) (o : Oracle) (s : MS) (hg : s.generated = true) :
    (∃ k, (solveRmp c o s).2.last = o.lp (solveRmp c o s).2.m k) ∧ ∃ D, (solveRmp c o s).1 = .ok D := by
  obtain ⟨s1, hs1⟩ : ∃ s1, s1 = lpSolve o { s with
      prevRmpObj := s.rmpObj
      iter := s.iter + 1 } := ⟨_, rfl⟩
  obtain ⟨r, hr⟩ : ∃ r, r = if s1.iter % 10 = 0 then cutRounds c o c.numCutsRound [] s1 else ([], s1) := ⟨_, rfl⟩
  have e : solveRmp c o s = if r.2.last.status = .optimal then (.ok (readDuals c r.2 r.1), storeLp r.2)
      else (.ok ⟨[], [], fun _ _ _ => none, [], r.1⟩, r.2) := by
    unfold solveRmp
    rw [if_pos hg, hr, hs1]
  have h1 : ∃ k, s1.last = o.lp s1.m k := by rw [hs1]; exact ⟨_, rfl⟩
  have h2 : ∃ k, r.2.last = o.lp r.2.m k := by
    rw [hr]
    split_ifs
    · exact cutRounds_last c o _ _ _ h1
    · exact h1
  rw [e]
  split_ifs
  · exact ⟨h2, _, rfl⟩
  · exact ⟨h2, _, rfl⟩

/-- The initial paths stay in the master problem. -/
theorem reached_initial {c : Conf} {o : Oracle} {paths : List Path} {splits : List Split} {dataRows : Option (List Row)}
    (hs : Setup d c splits dataRows) (hp : ∀ p ∈ paths, GoodPath d splits p) (ho : CutSound o) {s : MS}
    (h : Reached d c o paths splits dataRows s) : ∀ p ∈ paths, ∃ i, { p with id := i } ∈ s.paths := by
  obtain ⟨h1, h2⟩ := C40_paths_and_rows hs hp ho
  induction h with
  | generate h =>
    intro p hm
    obtain ⟨i, hi, rfl⟩ := List.mem_iff_getElem.1 hm
    rw [(h1 _ h).1]
    exact ⟨i, List.mem_iff_getElem.2 ⟨i, by simpa using hi, by simp⟩⟩
  | again h ih => rw [(h2 _ h).2.2.2.2.2]; exact ih
  | column h p hg ih =>
    obtain ⟨-, i, e⟩ := (h2 _ h).1 p hg
    rw [e]
    intro q hq
    obtain ⟨j, hj⟩ := ih q hq
    exact ⟨j, by simp [hj]⟩
  | beta h ih => rw [(h2 _ h).2.1]; exact ih
  | cuts h ih => rw [(h2 _ h).2.2.1]; exact ih
  | rmp h ih => rw [(h2 _ h).2.2.2.1]; exact ih
  | ip h ih => rw [(h2 _ h).2.2.2.2.1]; exact ih

/-- Trees of initial paths give trees of stored paths. -/
theorem hasTree_reached (h : FitOk d A X py) (hc : CutSound o.master) {s : MS} (hs : MasterState d A X o s) {σ : ℕ → ℕ} {P : ℕ → Path}
    (ht : HasTree d A.paths σ P) : ∃ Q, HasTree d s.paths σ Q ∧ ∀ l < 2 ^ d, (Q l).cost = (P l).cost := by
  classical
  have hi := reached_initial h.setup (marked_good h) hc hs
  have : ∀ l, ∃ q : Path, l < 2 ^ d → q ∈ s.paths ∧ q.leafId = l ∧ (∀ x ∈ q.pairs, x.2 = σ x.1) ∧ q.cost = (P l).cost := by
    intro l
    by_cases hl : l < 2 ^ d
    · obtain ⟨h1, h2, h3⟩ := ht l hl
      obtain ⟨i, hi⟩ := hi _ (List.mem_map.2 ⟨_, h1, rfl⟩)
      exact ⟨_, fun _ => ⟨hi, h2, h3, rfl⟩⟩
    · exact ⟨P l, fun h => absurd h hl⟩
  choose Q hQ using this
  exact ⟨Q, fun l hl => ⟨(hQ l hl).1, (hQ l hl).2.1, (hQ l hl).2.2.1⟩, fun l hl => (hQ l hl).2.2.2⟩

/-- The relaxation and the integer program of the master problem are always feasible and bounded. -/
theorem master_solvable (h : FitOk d A X py) (hc : CutSound o.master) {s : MS} (hs : MasterState d A X o s) :
    (∃ a, s.m.Feasible a) ∧ (∃ a, s.m.FeasibleLP a) ∧ ∃ B, ∀ a, s.m.FeasibleLP a → s.m.value a ≤ B := by
  obtain ⟨σ, P, ht⟩ := h.tree
  obtain ⟨Q, hQ, -⟩ := hasTree_reached h hc hs ht
  obtain ⟨a, ha, -⟩ := C42_trees_stay_feasible h.setup (marked_good h) hc hs σ Q hQ
  obtain ⟨m1, m2, -, m4, -⟩ := C40_master_program h.setup (marked_good h) hc hs
  refine ⟨⟨a, ha⟩, ⟨a, (m1 a).2 ((m4 a).1 ha).1⟩, (s.paths.map (fun p => |p.cost|)).sum, ?_⟩
  intro a ha
  have hf := (m1 a).1 ha
  rw [m2]
  refine sum_le_sum' _ _ _ ?_
  intro p hp
  have h0 := hf.path_nonneg p hp
  have h1 : a p.id ≤ 1 := by
    have hl := hf.leaf p.leafId ((reached_inv h.setup (marked_good h) hc hs).elim fun _ ⟨_, _, hi⟩ => (hi.good p hp).1.leaf_lt)
    rw [← hl]
    unfold pathSum
    refine List.single_le_sum ?_ _ (List.mem_map.2 ⟨p, by simp [hp], rfl⟩)
    intro x hx
    obtain ⟨q, hq, rfl⟩ := List.mem_map.1 hx
    exact hf.path_nonneg q (List.mem_of_mem_filter hq)
  calc p.cost * a p.id ≤ |p.cost| * a p.id := mul_le_mul_of_nonneg_right (le_abs_self _) h0
    _ ≤ |p.cost| * 1 := mul_le_mul_of_nonneg_left h1 (abs_nonneg _)
    _ = |p.cost| := mul_one _

/-! ## Paths of the pricing problems -/

theorem sum_is_nat {α : Type*} (l : List α) (f : α → ℚ) (h : ∀ x ∈ l, ∃ n : ℕ, f x = n) : ∃ n : ℕ, (l.map f).sum = n := by
  induction l with
  | nil => exact ⟨0, by simp⟩
  | cons x l ih =>
    obtain ⟨n, hn⟩ := h x (by simp)
    obtain ⟨k, hk⟩ := ih (fun y hy => h y (by simp [hy]))
    exact ⟨n + k, by rw [List.map_cons, List.sum_cons, hn, hk]; push_cast; ring⟩

theorem rowWeight_nat (c : SubConf) (i : ℕ) : ∃ n : ℕ, rowWeight c i = n := by
  unfold rowWeight
  cases c.dataRows with
  | none => exact ⟨1, by simp⟩
  | some rows => exact ⟨_, rfl⟩

theorem bool_nat {x : ℚ} (h : x = 0 ∨ x = 1) : ∃ n : ℕ, x = n := by
  rcases h with h | h
  · exact ⟨0, by simp [h]⟩
  · exact ⟨1, by simp [h]⟩

/-- Costs of the paths of `DTreeSubProblemSat`. -/
theorem sat_cols {c : SubConf} (h : SubOk d c) (hk : c.kind = .sat) {cuts : List (List Bool)} {st : SubSt} (hr : SubReached c cuts st) {D : Duals}
    (hD : D.cut.length = cuts.length) {sols : Model → List (ℕ → ℚ)} {ps : List Path} {st' : SubSt} (hgen : c.generateSat D sols st = (.ok ps, st'))
    (hs : ∀ a ∈ sols st'.m, st'.m.Feasible a) : ∀ p ∈ ps, p.cost ≤ hitsOf d c p p.target ∧ ∃ n : ℕ, p.cost = n := by
  have hr' : SubReached c cuts st' := by
    have := SubReached.price hr D hD sols
    rw [hgen] at this
    exact this
  unfold SubConf.generateSat at hgen
  rcases hrf : c.refresh D st with e | st1
  · rw [hrf] at hgen; simp at hgen
  · rw [hrf] at hgen
    simp only [Prod.mk.injEq, Except.ok.injEq] at hgen
    obtain ⟨rfl, rfl⟩ := hgen
    obtain ⟨-, own, lins, hi, -⟩ := refresh_inv h (hr.state h) (by omega) hrf
    intro p hp
    rw [pathCallback_mem] at hp
    rcases hp with hp | ⟨a, ha, -, e⟩
    · simp at hp
    · have hold : c.isOld = false := by unfold SubConf.isOld; rw [hk]
      refine ⟨(C46_cost h hr' hi.gen (hs a ha) (List.Perm.refl _) e hold).1, ?_⟩
      obtain ⟨-, -, -, -, -, -, h7⟩ := C46_points h hr' hi.gen (hs a ha) (List.Perm.refl _) e
      rw [e]
      change ∃ n : ℕ, c.costOf st1 a = n
      unfold SubConf.costOf
      rw [hk]
      refine sum_is_nat _ _ ?_
      intro i hi
      obtain ⟨n, hn⟩ := rowWeight_nat c i
      obtain ⟨k, hk⟩ := bool_nat (h7 hold i ((mem_kept c i).1 hi)).1
      exact ⟨n * k, by rw [weight_eq, hn, hk]; push_cast; ring⟩

/-- Costs and targets of the paths of `DTreeSubProblemOld`. -/
theorem old_cols {c : SubConf} (h : SubOk d c) {t : ℕ} (hk : c.kind = .old t) {cuts : List (List Bool)} {st st' : SubSt} (hr : SubReached c cuts st)
    {D : Duals} (hD : D.cut.length = cuts.length + D.newCuts.length) (hu : c.update D st = (.ok (), st')) {ans : Answer}
    (ha : ans.status = .optimal ∨ ans.status = .feasible → IsSolution st'.m ans) (hw : ∀ i, Kept c i → 1 ≤ rowWeight c i) :
    ∀ p ∈ c.generateMip st' ans, p.target = t ∧ p.cost ≤ hitsOf d c p p.target ∧ ∃ n : ℕ, p.cost = n := by
  classical
  have hr' := SubReached.update hr D hD hu
  obtain ⟨-, own, lins, hi, -⟩ := (update_inv h (hr.state h) hD hu).2 (by rw [hk]; simp)
  intro p hp
  unfold SubConf.generateMip at hp
  split_ifs at hp with h1 h3
  · simp at hp
  · rw [List.mem_singleton] at hp
    obtain ⟨-, -, -, -, h5, -, -⟩ := C46_points h hr' hi.gen (ha h1).1 (filter_range_perm h) hp
    have ht : p.target = t := by rw [hp]; simp only [SubConf.pathOf, hk]
    have hcost : p.cost = ((c.kept.filter (fun i => c.y.getD i 0 = t)).map (fun i => ans.values (st'.idx (.y i)))).sum := by
      rw [hp]
      change c.costOf st' ans.values = _
      unfold SubConf.costOf
      rw [hk]
    refine ⟨ht, ?_, ?_⟩
    · unfold hitsOf
      rw [keptSum_eq, hcost, sum_filter_dec]
      refine sum_le_sum' _ _ _ ?_
      intro i hi
      have hi := (mem_kept c i).1 hi
      obtain ⟨g1, g2⟩ := h5 i hi
      by_cases hy : c.y.getD i 0 = t
      · rw [if_pos hy]
        rcases g1 with e | e
        · rw [e]
          split_ifs
          · exact rowWeight_nonneg c i
          · exact le_rfl
        · rw [e, if_pos ⟨g2.1 e, by rw [ht, hy]⟩]
          exact hw i hi
      · rw [if_neg hy]
        split_ifs
        · exact rowWeight_nonneg c i
        · exact le_rfl
    · rw [hcost]
      refine sum_is_nat _ _ ?_
      intro i hi
      exact bool_nat (h5 i ((mem_kept c i).1 (List.mem_of_mem_filter hi))).1
  · simp at hp

/-- The hits as counted by the heuristic. -/
theorem hHits_eq (A : Args) (d : ℕ) (X : List (List ℚ)) (py : List ℕ) {splits : List Split} (hs : ∀ row, rowLeft splits row = rowLeft A.splits row)
    (p : Path) (t : ℤ) : (hHits d (A.heurConf X py) splits p t : ℚ) = hitsOf d (Args.base A d X py) p t := by
  classical
  unfold hHits hitsOf keptSum
  rw [Nat.cast_list_sum, List.map_map]
  refine congrArg List.sum (List.map_congr_left ?_)
  intro r hr
  have hr : r < X.length := List.mem_range.1 hr
  have hw : ((hWeight (A.heurConf X py) r : ℕ) : ℚ) = rowWeight (Args.base A d X py) r := by
    unfold hWeight rowWeight
    change ((((A.dataRows.map (fun rows => (rowAt rows r).weight)).getD 1 : ℕ)) : ℚ) = (A.dataRows.map (fun rows => ((rowAt rows r).weight : ℚ))).getD 1
    cases A.dataRows <;> simp
  have hc : (HKept (A.heurConf X py) r ∧ Follows d (rowLeft splits ((A.heurConf X py).X.getD r [])) p ∧
      (((A.heurConf X py).y.getD r 0 : ℕ) : ℤ) = t) ↔ (Kept (Args.base A d X py) r ∧ Follows d (rowPat (Args.base A d X py) r) p ∧
      (((Args.base A d X py).y.getD r 0 : ℕ) : ℤ) = t) := by
    rw [hs]
    constructor
    · rintro ⟨h1, h2, h3⟩
      exact ⟨⟨hr, h1⟩, h2, h3⟩
    · rintro ⟨h1, h2, h3⟩
      exact ⟨h1.2, h2, h3⟩
  simp only [Function.comp_apply]
  by_cases h : HKept (A.heurConf X py) r ∧ Follows d (rowLeft splits ((A.heurConf X py).X.getD r [])) p ∧
      (((A.heurConf X py).y.getD r 0 : ℕ) : ℤ) = t
  · rw [if_pos h, if_pos (hc.1 h), hw]
  · rw [if_neg h, if_neg (fun h' => h (hc.2 h'))]
    simp

end Verif.DTree
