import Verif.DTree.Fit
import Verif.Fit.Until
import Verif.Fit.Raised

/-!
# C128: the schedule of the cut generation

`solve_rmp` looks for cuts only when its own call counter `iter_` is a multiple of ten (`_dtree_classifier.py:1040`). The counter lives in the
master problem and is never reset, not by `generate_mp` and not by a further `fit`.
-/

namespace Verif.DTree

open Fit Fit.Spec

variable {Ω : Type}

/-! ## One call -/

/-- The attributes that count. -/
structure SameCounters (s s' : MS) : Prop where
  generated : s'.generated = s.generated
  iter : s'.iter = s.iter
  lpCalls : s'.lpCalls = s.lpCalls
  cutCalls : s'.cutCalls = s.cutCalls
  totalCuts : s'.totalCuts = s.totalCuts

theorem addBetaCuts_counters (c : Conf) (s : MS) : SameCounters s (addBetaCuts c s).2 := ⟨rfl, rfl, rfl, rfl, rfl⟩

theorem addColumn_counters (c : Conf) (p : Path) (s : MS) : SameCounters s (addColumn c p s).2 := by
  unfold addColumn
  dsimp only
  cases getSatisfiedRows { p with id := s.m.vars.length } (leafAt c.leaves p.leafId) s.splits with
  | error e => exact ⟨rfl, rfl, rfl, rfl, rfl⟩
  | ok rows =>
    dsimp only
    cases getSatisfiedCuts { p with id := s.m.vars.length } (leafAt c.leaves p.leafId) s.splits with
    | error e => exact ⟨rfl, rfl, rfl, rfl, rfl⟩
    | ok cuts => exact ⟨rfl, rfl, rfl, rfl, rfl⟩

theorem solveIp_counters (o : Oracle) (s : MS) : SameCounters s (solveIp o s).2 := by
  unfold solveIp
  dsimp only
  split
  · split <;> exact ⟨rfl, rfl, rfl, rfl, rfl⟩
  · exact ⟨rfl, rfl, rfl, rfl, rfl⟩

theorem generateMp_counters (c : Conf) (s : MS) :
    (generateMp c s).2.iter = s.iter ∧ (generateMp c s).2.lpCalls = s.lpCalls ∧ (generateMp c s).2.cutCalls = s.cutCalls ∧
    (generateMp c s).2.totalCuts = s.totalCuts ∧ ((generateMp c s).1 = .ok () → (generateMp c s).2.generated = true) := by
  unfold generateMp
  split
  · rename_i h
    exact ⟨rfl, rfl, rfl, rfl, fun _ => h⟩
  · cases createCutModel c.leaves s.splits s.paths with
    | error e => exact ⟨rfl, rfl, rfl, rfl, fun h => by cases h⟩
    | ok x => exact ⟨rfl, rfl, rfl, rfl, fun _ => rfl⟩

/-- One round: at most one run of the cut generation, no LP solve. -/
theorem cutRound_counters (c : Conf) (o : Oracle) (s : MS) :
    (cutRound c o s).2.2.generated = s.generated ∧ (cutRound c o s).2.2.iter = s.iter ∧ (cutRound c o s).2.2.lpCalls = s.lpCalls ∧
    s.cutCalls ≤ (cutRound c o s).2.2.cutCalls ∧ (cutRound c o s).2.2.cutCalls ≤ s.cutCalls + 1 := by
  have hb : ∀ t, SameCounters t (if c.betaAsCuts then addBetaCuts c t else (0, t)).2 := by
    intro t
    split
    · exact addBetaCuts_counters c t
    · exact ⟨rfl, rfl, rfl, rfl, rfl⟩
  have hc : ∀ t, (addCuts o t).2.generated = t.generated ∧ (addCuts o t).2.iter = t.iter ∧ (addCuts o t).2.lpCalls = t.lpCalls ∧
      (addCuts o t).2.cutCalls = t.cutCalls + 1 := by
    intro t
    unfold addCuts
    dsimp only
    split <;> exact ⟨rfl, rfl, rfl, rfl⟩
  unfold cutRound
  dsimp only
  have h1 := hb (storeLp s)
  generalize (if c.betaAsCuts then addBetaCuts c (storeLp s) else (0, storeLp s)) = b at h1
  have e : (storeLp s).generated = s.generated ∧ (storeLp s).iter = s.iter ∧ (storeLp s).lpCalls = s.lpCalls ∧ (storeLp s).cutCalls = s.cutCalls :=
    ⟨rfl, rfl, rfl, rfl⟩
  split
  · have h2 := hc b.2
    rw [h2.1, h2.2.1, h2.2.2.1, h2.2.2.2, h1.generated, h1.iter, h1.lpCalls, h1.cutCalls]
    exact ⟨e.1, e.2.1, e.2.2.1, by rw [e.2.2.2]; omega, by rw [e.2.2.2]⟩
  · rw [h1.generated, h1.iter, h1.lpCalls, h1.cutCalls]
    exact ⟨e.1, e.2.1, e.2.2.1, by rw [e.2.2.2], by rw [e.2.2.2]; omega⟩

theorem cutRounds_counters (c : Conf) (o : Oracle) : ∀ (n : ℕ) (acc : List (List Bool)) (s : MS),
    (cutRounds c o n acc s).2.generated = s.generated ∧ (cutRounds c o n acc s).2.iter = s.iter ∧
    s.lpCalls ≤ (cutRounds c o n acc s).2.lpCalls ∧ (cutRounds c o n acc s).2.lpCalls ≤ s.lpCalls + n ∧
    s.cutCalls ≤ (cutRounds c o n acc s).2.cutCalls ∧ (cutRounds c o n acc s).2.cutCalls ≤ s.cutCalls + n
  | 0, _, _ => ⟨rfl, rfl, le_rfl, le_rfl, le_rfl, le_rfl⟩
  | n + 1, acc, s => by
    obtain ⟨r1, r2, r3, r4, r5⟩ := cutRound_counters c o s
    unfold cutRounds
    dsimp only
    split
    · split
      · obtain ⟨h1, h2, h3, h4, h5, h6⟩ := cutRounds_counters c o n (acc ++ (cutRound c o s).2.1) (lpSolve o (cutRound c o s).2.2)
        have e1 : (lpSolve o (cutRound c o s).2.2).lpCalls = (cutRound c o s).2.2.lpCalls + 1 := rfl
        have e2 : (lpSolve o (cutRound c o s).2.2).cutCalls = (cutRound c o s).2.2.cutCalls := rfl
        rw [e1] at h3 h4
        rw [e2] at h5 h6
        exact ⟨h1.trans r1, h2.trans r2, by omega, by omega, by omega, by omega⟩
      · exact ⟨r1, r2, r3.ge, by dsimp only; omega, r4, by dsimp only; omega⟩
    · exact ⟨rfl, rfl, le_rfl, by dsimp only; omega, le_rfl, by dsimp only; omega⟩

/-- What one `solve_rmp` call does to the program when the counter is not a multiple of ten: nothing. -/
structure Spec.ProgramKept (s s' : MS) : Prop where
  m : s'.m = s.m
  paths : s'.paths = s.paths
  splits : s'.splits = s.splits
  dataRows : s'.dataRows = s.dataRows
  rowCons : s'.rowCons = s.rowCons
  addedRow : s'.addedRow = s.addedRow
  cutCons : s'.cutCons = s.cutCons
  cp : s'.cp = s.cp
  totalCuts : s'.totalCuts = s.totalCuts
  cutCalls : s'.cutCalls = s.cutCalls

/-- **C128, one call.** `solve_rmp` of a generated master problem counts up by one. If the new count is not a multiple of ten it solves the LP once,
reports no cuts and leaves the program, the splits and the rows alone; if it is, there are at most `num_cuts_round` further LP solves and at most as
many runs of the cut generation. -/
theorem C128_solve_rmp (c : Conf) (o : Oracle) {s : MS} (hg : s.generated = true) :
    ∃ D, (solveRmp c o s).1 = .ok D ∧ (solveRmp c o s).2.generated = true ∧ (solveRmp c o s).2.iter = s.iter + 1 ∧
    (¬ 10 ∣ s.iter + 1 → Spec.ProgramKept s (solveRmp c o s).2 ∧ D.newCuts = [] ∧ (solveRmp c o s).2.lpCalls = s.lpCalls + 1) ∧
    (10 ∣ s.iter + 1 → s.lpCalls + 1 ≤ (solveRmp c o s).2.lpCalls ∧ (solveRmp c o s).2.lpCalls ≤ s.lpCalls + 1 + c.numCutsRound ∧
      s.cutCalls ≤ (solveRmp c o s).2.cutCalls ∧ (solveRmp c o s).2.cutCalls ≤ s.cutCalls + c.numCutsRound) := by
  unfold solveRmp
  rw [if_pos hg]
  dsimp only
  set s1 := lpSolve o { s with
    prevRmpObj := s.rmpObj
    iter := s.iter + 1 } with hs1
  have e1 : s1.iter = s.iter + 1 := rfl
  have e2 : s1.lpCalls = s.lpCalls + 1 := rfl
  have e3 : s1.cutCalls = s.cutCalls := rfl
  have e4 : s1.generated = true := hg
  by_cases hd : 10 ∣ s.iter + 1
  · have hm : s1.iter % 10 = 0 := Nat.mod_eq_zero_of_dvd hd
    rw [if_pos hm]
    obtain ⟨h1, h2, h3, h4, h5, h6⟩ := cutRounds_counters c o c.numCutsRound [] s1
    generalize cutRounds c o c.numCutsRound [] s1 = r at h1 h2 h3 h4 h5 h6
    rw [e4] at h1
    rw [e1] at h2
    rw [e2] at h3 h4
    rw [e3] at h5 h6
    split
    · exact ⟨_, rfl, h1, h2, fun h => absurd hd h, fun _ => ⟨h3, h4, h5, h6⟩⟩
    · exact ⟨_, rfl, h1, h2, fun h => absurd hd h, fun _ => ⟨h3, h4, h5, h6⟩⟩
  · have hm : ¬ s1.iter % 10 = 0 := fun h => hd (Nat.dvd_of_mod_eq_zero h)
    rw [if_neg hm]
    split
    · exact ⟨_, rfl, e4, e1, fun _ => ⟨⟨rfl, rfl, rfl, rfl, rfl, rfl, rfl, rfl, rfl, rfl⟩, rfl, rfl⟩, fun h => absurd h hd⟩
    · exact ⟨_, rfl, e4, e1, fun _ => ⟨⟨rfl, rfl, rfl, rfl, rfl, rfl, rfl, rfl, rfl, rfl⟩, rfl, rfl⟩, fun h => absurd h hd⟩

/-! ## Whole runs -/

/-- The number of multiples of ten among `i + 1, ..., i + n`. -/
def Spec.tens (i n : ℕ) : ℕ := ((List.range n).filter (fun k => 10 ∣ i + k + 1)).length

theorem tens_succ (i n : ℕ) : Spec.tens i (n + 1) = Spec.tens i n + if 10 ∣ i + n + 1 then 1 else 0 := by
  unfold Spec.tens
  rw [List.range_succ, List.filter_append, List.length_append]
  congr 1
  by_cases h : 10 ∣ i + n + 1
  · rw [if_pos h, List.filter_cons_of_pos (by simpa using h)]
    rfl
  · rw [if_neg h, List.filter_cons_of_neg (by simpa using h)]
    rfl

theorem tens_zero {i N k : ℕ} (h : Spec.tens i N = 0) (hk : k < N) : ¬ 10 ∣ i + k + 1 := by
  intro hd
  have h0 := List.length_eq_zero_iff.1 h
  have : k ∈ (List.range N).filter (fun k => 10 ∣ i + k + 1) := List.mem_filter.2 ⟨List.mem_range.2 hk, by simpa using hd⟩
  rw [h0] at this
  cases this

/-- The counters of the master problem `w` after the calls `tr`, starting from `w0`. -/
structure Sched (A : Args) (w0 w : World Ω) (tr : List (Ev Duals Path)) : Prop where
  iter : w.master.iter = w0.master.iter + numRmp tr
  generated : (∃ y, Ev.generateMp y (.ok ()) ∈ tr) → w.master.generated = true
  lp_ge : w0.master.lpCalls + numRmp tr ≤ w.master.lpCalls
  lp_le : w.master.lpCalls ≤ w0.master.lpCalls + numRmp tr + A.cutsRound * Spec.tens w0.master.iter (numRmp tr)
  cut_le : w.master.cutCalls ≤ w0.master.cutCalls + A.cutsRound * Spec.tens w0.master.iter (numRmp tr)
  total : Spec.tens w0.master.iter (numRmp tr) = 0 → w.master.totalCuts = w0.master.totalCuts
  news : ∀ pre D post, tr = pre ++ Ev.solveRmp (.ok D) :: post → D.newCuts ≠ [] → 10 ∣ w0.master.iter + numRmp pre + 1

theorem snoc_inj {α : Type} {a pre post : List α} {x y b : α} (h : a ++ [x] = pre ++ y :: post.concat b) : a = pre ++ y :: post := by
  have h' : a ++ [x] = (pre ++ y :: post) ++ [b] := by rw [h]; simp
  exact (List.append_inj' h' rfl).1

theorem Sched.other {A : Args} {w0 w w' : World Ω} {tr : List (Ev Duals Path)} (h : Sched A w0 w tr) (e : Ev Duals Path) (he : isRmp e = false)
    (hg : ∀ y, e ≠ .generateMp y (.ok ())) (hs : SameCounters w.master w'.master) : Sched A w0 w' (tr ++ [e]) := by
  have hn : numRmp (tr ++ [e]) = numRmp tr := by rw [numRmp_snoc, he]; simp
  refine ⟨?_, ?_, ?_, ?_, ?_, ?_, ?_⟩
  · rw [hn, hs.iter]; exact h.iter
  · rintro ⟨y, hy⟩
    rw [hs.generated]
    rcases List.mem_append.1 hy with hy | hy
    · exact h.generated ⟨y, hy⟩
    · exact absurd (List.mem_singleton.1 hy).symm (hg y)
  · rw [hn, hs.lpCalls]; exact h.lp_ge
  · rw [hn, hs.lpCalls]; exact h.lp_le
  · rw [hn, hs.cutCalls]; exact h.cut_le
  · rw [hn, hs.totalCuts]; exact h.total
  · intro pre D post ht
    rcases List.eq_nil_or_concat post with rfl | ⟨post, b, rfl⟩
    · have : e = Ev.solveRmp (.ok D) := by
        have := congrArg List.getLast? ht
        simpa using this
      rw [this] at he
      cases he
    · refine h.news pre D post ?_
      exact (snoc_inj ht).symm ▸ rfl

theorem updateAt_counters (A : Args) (X : List (List ℚ)) (l i : ℕ) (D : Duals) (w : World Ω) : SameCounters w.master (updateAt A X l i D w).2.master := by
  unfold updateAt
  split
  · exact ⟨rfl, rfl, rfl, rfl, rfl⟩
  · split <;> exact ⟨rfl, rfl, rfl, rfl, rfl⟩

theorem generateAt_counters (o : FitOracle Ω) (A : Args) (X : List (List ℚ)) (l i : ℕ) (D : Duals) (w : World Ω) :
    SameCounters w.master (generateAt o A X l i D w).2.master := by
  unfold generateAt
  split
  · exact ⟨rfl, rfl, rfl, rfl, rfl⟩
  · split
    · exact ⟨rfl, rfl, rfl, rfl, rfl⟩
    · unfold priceAt
      split <;> exact ⟨rfl, rfl, rfl, rfl, rfl⟩

theorem sched_guided (o : FitOracle Ω) (A : Args) (X : List (List ℚ)) (cfg : Config) (py : List ℕ) (w0 : World Ω) :
    Guided (env o A X) cfg py (Sched A w0) where
  clock w tr h := ⟨h.iter, h.generated, h.lp_ge, h.lp_le, h.cut_le, h.total, h.news⟩
  timer w tr t _ h := h.other _ rfl (by intro y h; cases h) ⟨rfl, rfl, rfl, rfl, rfl⟩
  check w tr s t _ h := h.other _ rfl (by intro y h; cases h) ⟨rfl, rfl, rfl, rfl, rfl⟩
  flag w tr _ h := h.other _ rfl (by intro y h; cases h) ⟨rfl, rfl, rfl, rfl, rfl⟩
  clear w tr h := h
  generateMp w t h := by
    obtain ⟨g1, g2, g3, g4, g5⟩ := generateMp_counters (A.masterConf X) w.master
    have hn : ∀ r, numRmp ([Ev.timer t, Ev.generateMp py r] : List (Ev Duals Path)) = 0 := fun r => rfl
    have hn' : numRmp ([Ev.timer t] : List (Ev Duals Path)) = 0 := rfl
    have h1 := h.iter
    have h2 := h.lp_ge
    have h3 := h.lp_le
    have h4 := h.cut_le
    have h5 := h.total
    rw [hn'] at h1 h2 h3 h4 h5
    refine ⟨?_, ?_, ?_, ?_, ?_, ?_, ?_⟩
    · rw [hn]; exact g1.trans h1
    · rintro ⟨y, hy⟩
      simp only [List.mem_cons, List.not_mem_nil, or_false, reduceCtorEq, false_or] at hy
      injection hy with _ hy
      exact g5 hy.symm
    · rw [hn]; exact h2.trans_eq g2.symm
    · rw [hn]; exact g2.trans_le h3
    · rw [hn]; exact g3.trans_le h4
    · rw [hn]; exact fun h => g4.trans (h5 h)
    · intro pre D post ht
      have : Ev.solveRmp (.ok D) ∈ ([Ev.timer t, Ev.generateMp py ((env o A X).generateMp py w).1] : List (Ev Duals Path)) := by rw [ht]; simp
      simp at this
  solveRmp w tr hp ha h := by
    have hg := h.generated ha.1
    obtain ⟨D, d1, d2, d3, d4, d5⟩ := C128_solve_rmp (A.masterConf X) o.master hg
    have hn : ∀ r, numRmp (tr ++ [Ev.solveRmp r] : List (Ev Duals Path)) = numRmp tr + 1 := by
      intro r
      rw [numRmp_snoc]
      rfl
    have h1 := h.iter
    have h2 := h.lp_ge
    have h3 := h.lp_le
    have h4 := h.cut_le
    have er : (A.masterConf X).numCutsRound = A.cutsRound := rfl
    rw [er] at d5
    rw [h1] at d3 d4 d5
    refine ⟨?_, fun _ => d2, ?_, ?_, ?_, ?_, ?_⟩
    · rw [hn]; exact d3
    · rw [hn]
      show _ ≤ (DTree.solveRmp (A.masterConf X) o.master w.master).2.lpCalls
      by_cases hd : 10 ∣ w0.master.iter + numRmp tr + 1
      · have := (d5 hd).1; omega
      · have := (d4 hd).2.2; omega
    · rw [hn, tens_succ]
      show (DTree.solveRmp (A.masterConf X) o.master w.master).2.lpCalls ≤ _
      by_cases hd : 10 ∣ w0.master.iter + numRmp tr + 1
      · rw [if_pos hd, Nat.mul_succ]
        have := (d5 hd).2.1; omega
      · rw [if_neg hd]
        have := (d4 hd).2.2
        simp only [Nat.add_zero]; omega
    · rw [hn, tens_succ]
      show (DTree.solveRmp (A.masterConf X) o.master w.master).2.cutCalls ≤ _
      by_cases hd : 10 ∣ w0.master.iter + numRmp tr + 1
      · rw [if_pos hd, Nat.mul_succ]
        have := (d5 hd).2.2.2; omega
      · rw [if_neg hd]
        have := (d4 hd).1.cutCalls
        simp only [Nat.add_zero]; omega
    · rw [hn, tens_succ]
      intro ht
      by_cases hd : 10 ∣ w0.master.iter + numRmp tr + 1
      · rw [if_pos hd] at ht; omega
      · rw [if_neg hd] at ht
        exact (d4 hd).1.totalCuts.trans (h.total ht)
    · intro pre D' post ht hne
      rcases List.eq_nil_or_concat post with rfl | ⟨post, b, rfl⟩
      · obtain ⟨e1, e2⟩ := List.append_inj' ht rfl
        subst e1
        have e3 : ((env o A X).solveRmp w).1 = .ok D' := by
          injection e2 with e2
          injection e2
        have e4 : D = D' := by
          have : ((env o A X).solveRmp w).1 = .ok D := d1
          rw [this] at e3
          injection e3
        subst e4
        by_contra hd
        exact hne (d4 hd).2.1
      · refine h.news pre D' post ?_ hne
        exact (snoc_inj ht).symm ▸ rfl
  improved w tr _ _ h := h.other _ rfl (by intro y h; cases h) ⟨rfl, rfl, rfl, rfl, rfl⟩
  update w tr l i d _ _ h := h.other _ rfl (by intro y h; cases h) (updateAt_counters A X l i d w)
  generate w tr l i d _ _ h := h.other _ rfl (by intro y h; cases h) (generateAt_counters o A X l i d w)
  add w tr l i c _ _ h := h.other _ rfl (by intro y h; cases h) (addColumn_counters _ c _)
  solveIp w tr _ _ h := h.other _ rfl (by intro y h; cases h) (solveIp_counters _ _)

theorem sched_start (A : Args) (w0 : World Ω) : Sched A w0 w0 [] where
  iter := rfl
  generated := by simp
  lp_ge := le_rfl
  lp_le := by simp [numRmp]
  cut_le := by simp [numRmp]
  total := fun _ => rfl
  news := by simp

/-- **C128, whole runs.** After `fit`, returned or raised, started in any state (in particular by a classifier that was fitted before): the counter
of the master problem grew by the number of `solve_rmp` calls; there was one LP solve per call, plus at most `num_cuts_round` for every call whose
count is a multiple of ten; at most as many runs of the cut generation; cuts are handed to the pricing problems only by such calls; and without such
a call no cut or row was added at all. -/
theorem C128_schedule (o : FitOracle Ω) (A : Args) (X : List (List ℚ)) (cfg : Config) {fuel : ℕ} {y : List ℤ} {e0 : Est} {w0 : World Ω}
    {r : Except Err Unit × St (World Ω) Duals Path} (hr : fit (env o A X) cfg fuel y e0 w0 = some r) :
    let n := numRmp r.2.trace
    let k := Spec.tens w0.master.iter n
    r.2.world.master.iter = w0.master.iter + n ∧
    w0.master.lpCalls + n ≤ r.2.world.master.lpCalls ∧ r.2.world.master.lpCalls ≤ w0.master.lpCalls + n + A.cutsRound * k ∧
    r.2.world.master.cutCalls ≤ w0.master.cutCalls + A.cutsRound * k ∧
    (k = 0 → r.2.world.master.totalCuts = w0.master.totalCuts) ∧
    ∀ pre D post, r.2.trace = pre ++ Ev.solveRmp (.ok D) :: post → D.newCuts ≠ [] → 10 ∣ w0.master.iter + numRmp pre + 1 := by
  have h := (sched_guided o A X cfg _ w0).fit (sched_start A w0) hr
  exact ⟨h.iter, h.lp_ge, h.lp_le, h.cut_le, h.total, h.news⟩

/-- Constructor arguments that differ in `num_cuts_round` and `generate_cuts` only. -/
def Spec.SameButCuts (A A' : Args) : Prop := ∃ R G, A' = { A with
  cutsRound := R
  generateCuts := G }

/-- Solvers that differ in the cut generation only. -/
def Spec.SameButCutSolver (o o' : FitOracle Ω) : Prop := ∃ cut, o' = { o with
  master := ⟨o.master.lp, cut, o.master.ip⟩ }

theorem agree_until {o o' : FitOracle Ω} {A A' : Args} (hA : Spec.SameButCuts A A') (ho : Spec.SameButCutSolver o o') (X : List (List ℚ)) (cfg : Config)
    (w0 : World Ω) {N : ℕ} (hN : Spec.tens w0.master.iter N = 0) : AgreeUntil (env o A X) (env o' A' X) cfg N (Sched A w0) := by
  obtain ⟨R, G, rfl⟩ := hA
  obtain ⟨cut, rfl⟩ := ho
  refine ⟨rfl, rfl, rfl, rfl, ?_, rfl, rfl, rfl, rfl, rfl⟩
  intro w tr _ ha h hlt
  have hg := h.generated ha.1
  have hd : ¬ 10 ∣ w.master.iter + 1 := by
    rw [h.iter]
    exact tens_zero hN hlt
  have key : ∀ (c : Conf) (q : Oracle), DTree.solveRmp c q w.master =
      (let s1 := lpSolve q { w.master with
        prevRmpObj := w.master.rmpObj
        iter := w.master.iter + 1 }
      if s1.last.status = .optimal then (.ok (readDuals c s1 []), storeLp s1) else (.ok ⟨[], [], fun _ _ _ => none, [], []⟩, s1)) := by
    intro c q
    unfold DTree.solveRmp
    rw [if_pos hg]
    dsimp only
    have hm : ¬ (lpSolve q { w.master with
        prevRmpObj := w.master.rmpObj
        iter := w.master.iter + 1 }).iter % 10 = 0 := fun h => hd (Nat.dvd_of_mod_eq_zero h)
    rw [if_neg hm]
  show (((DTree.solveRmp _ _ w.master).1, { w with master := (DTree.solveRmp _ _ w.master).2 }) : Except Err Duals × World Ω) =
    ((DTree.solveRmp _ _ w.master).1, { w with master := (DTree.solveRmp _ _ w.master).2 })
  rw [key, key]
  rfl

/-- **C128, no influence.** `num_cuts_round`, `generate_cuts` and the answers of the cut generation solver have no influence on a run in which no
`solve_rmp` call has a count that is a multiple of ten: with other values the same run happens, call by call and to the last attribute. -/
theorem C128_no_influence {o o' : FitOracle Ω} {A A' : Args} (hA : Spec.SameButCuts A A') (ho : Spec.SameButCutSolver o o') (X : List (List ℚ))
    (cfg : Config) {fuel : ℕ} {y : List ℤ} {e0 : Est} {w0 : World Ω} {r : Except Err Unit × St (World Ω) Duals Path}
    (hr : fit (env o A X) cfg fuel y e0 w0 = some r) (hn : Spec.tens w0.master.iter (numRmp r.2.trace) = 0) :
    fit (env o' A' X) cfg fuel y e0 w0 = some r :=
  fit_until (sched_guided o A X cfg _ w0) (agree_until hA ho X cfg w0 hn) (sched_start A w0) hr le_rfl

/-- **C128, short runs.** A newly constructed classifier with an iteration limit below ten trains, or raises, alike with all values of `num_cuts_round` and
`generate_cuts` and all answers of the cut generation solver. -/
theorem C128_short_runs {o o' : FitOracle Ω} {A A' : Args} (hA : Spec.SameButCuts A A') (ho : Spec.SameButCutSolver o o') (X : List (List ℚ))
    {maxIterations : ℤ} (hm : 0 < maxIterations) (hm' : maxIterations < 10) (timeLimit : ℚ) {fuel : ℕ} {y : List ℤ} {e0 : Est} {ω : Ω}
    {r : Except Err Unit × St (World Ω) Duals Path} (hr : fitNew o A maxIterations timeLimit X fuel y e0 ω = some r) :
    fitNew o' A' maxIterations timeLimit X fuel y e0 ω = some r ∧ r.2.world.master.totalCuts = 0 ∧ r.2.world.master.cutCalls = 0 := by
  have h9 : (numRmp r.2.trace : ℤ) ≤ maxIterations := C01_limit_always hr hm
  have hz : Spec.tens (World.init A ω).master.iter (numRmp r.2.trace) = 0 := by
    have e : (World.init A ω).master.iter = 0 := rfl
    rw [e]
    unfold Spec.tens
    rw [List.length_eq_zero_iff, List.filter_eq_nil_iff]
    intro k hk
    have := List.mem_range.1 hk
    simp only [decide_eq_true_eq]
    omega
  have h := C128_schedule o A X _ hr
  refine ⟨?_, h.2.2.2.2.1 hz, ?_⟩
  · obtain ⟨R, G, rfl⟩ := hA
    exact C128_no_influence ⟨R, G, rfl⟩ ho X _ hr hz
  · have := h.2.2.2.1
    rw [hz] at this
    exact Nat.le_zero.1 this

end Verif.DTree
