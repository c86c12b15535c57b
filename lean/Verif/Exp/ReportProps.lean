import Verif.Exp.Report
import Verif.Fit.Balance
import Verif.Fit.TimeProps

/-!
# C90: the numbers in the result report fit together
-/

set_option linter.unusedSectionVars false
set_option linter.unusedSimpArgs false

namespace Verif.DTree

open MP Fit.Spec

variable {Ω : Type}

/-! ## Counters of the master problem -/

theorem addColumn_counts (c : Conf) (p : Path) (s : MS) : (addColumn c p s).2.addedRow = s.addedRow ∧
    (addColumn c p s).2.totalCuts = s.totalCuts ∧ (addColumn c p s).2.generated = s.generated ∧
    (addColumn c p s).2.paths.length = s.paths.length + 1 ∧ ∀ b, (addColumn c p s).1 = .ok b → b = true := by
  unfold addColumn
  simp only
  split
  · simp
  · split
    · simp
    · simp

theorem addPathVar_length (l : List Path) : ∀ st : Model × List Path, (l.foldl addPathVar st).2.length = st.2.length + l.length := by
  induction l with
  | nil => intro st; simp
  | cons p l ih =>
    intro st
    rw [List.foldl_cons, ih]
    simp [addPathVar]
    omega

/-- The rows marked in `added_row` are as many as `total_cuts_added`. -/
def Counted (c : Conf) (s : MS) : Prop :=
  if s.generated then s.addedRow.count true = s.totalCuts ∧ c.X.length ≤ s.addedRow.length ∧
    (c.generateCuts = false → s.addedRow.length = c.X.length) else s.totalCuts = 0 ∧ s.addedRow = []

theorem generateMp_counts (c : Conf) (s : MS) : (generateMp c s).2.paths.length = s.paths.length ∧
    (c.betaAsCuts = true → Counted c s → Counted c (generateMp c s).2) := by
  unfold generateMp
  split
  · exact ⟨rfl, fun _ h => h⟩
  · next hg =>
    split
    · exact ⟨rfl, fun _ h => h⟩
    · refine ⟨?_, fun hb h => ?_⟩
      · simp only
        rw [addPathVar_length]
        simp
      · unfold Counted at h ⊢
        rw [if_neg hg] at h
        simp [hb, h, List.count_replicate]

theorem betaLoop_counts (rows : List Row) (sol : ℕ → ℚ) (l : List ℕ) : ∀ b : BS, (∀ r ∈ l, r < b.addedRow.length) →
    (betaLoop rows sol l b).addedRow.length = b.addedRow.length ∧
    (betaLoop rows sol l b).addedRow.count true + b.num = b.addedRow.count true + (betaLoop rows sol l b).num := by
  induction l with
  | nil => intro b _; exact ⟨rfl, rfl⟩
  | cons r l ih =>
    intro b hl
    have hl' : ∀ r ∈ l, r < b.addedRow.length := fun x hx => hl x (List.mem_cons_of_mem _ hx)
    unfold betaLoop
    split_ifs with h1 h2 h3 h4
    · exact ih b hl'
    · exact ⟨rfl, rfl⟩
    · exact ih b hl'
    · have hr := hl r List.mem_cons_self
      obtain ⟨k1, k2⟩ := ih ⟨addRow b.m none (some 1) ((rowAt rows r).reachablePaths.map (fun i => (i, 1))),
        Function.update b.rowCons r (some b.m.cons.length), b.addedRow.set r true, b.num + 1⟩ (by simpa using hl')
      simp only [List.length_set] at k1 k2
      refine ⟨k1, ?_⟩
      have hf : b.addedRow[r] = false := by
        rw [List.getD_eq_getElem?_getD, List.getElem?_eq_getElem hr] at h3
        simpa using h3
      rw [List.count_set hr, hf] at k2
      simp at k2
      omega
    · exact ih b hl'

theorem addBetaCuts_counts (c : Conf) (s : MS) (h : c.X.length ≤ s.addedRow.length) : (addBetaCuts c s).2.addedRow.length = s.addedRow.length ∧
    (addBetaCuts c s).2.addedRow.count true = s.addedRow.count true + (addBetaCuts c s).1 ∧ (addBetaCuts c s).2.totalCuts = s.totalCuts ∧
    (addBetaCuts c s).2.generated = s.generated ∧ (addBetaCuts c s).2.paths = s.paths := by
  obtain ⟨k1, k2⟩ := betaLoop_counts (s.dataRows.getD []) s.pathSol (List.range c.X.length) ⟨s.m, s.rowCons, s.addedRow, 0⟩
    (fun r hr => lt_of_lt_of_le (List.mem_range.1 hr) h)
  refine ⟨k1, ?_, rfl, rfl, rfl⟩
  change (betaLoop _ _ _ _).addedRow.count true = s.addedRow.count true + (betaLoop _ _ _ _).num
  simpa using k2

theorem addCuts_counts (o : Oracle) (s : MS) :
    (addCuts o s).2.addedRow = s.addedRow ++ List.replicate (addCuts o s).1.length true ∧ (addCuts o s).2.totalCuts = s.totalCuts ∧
    (addCuts o s).2.generated = s.generated ∧ (addCuts o s).2.paths = s.paths := by
  unfold addCuts
  simp only
  split_ifs
  · simp
  · simp

theorem cutRound_counts (c : Conf) (o : Oracle) (s : MS) (hg : s.generated = true) (h : Counted c s) :
    Counted c (cutRound c o s).2.2 ∧ (cutRound c o s).2.2.generated = true ∧ (cutRound c o s).2.2.paths = s.paths := by
  obtain ⟨b, hb⟩ : ∃ b, b = if c.betaAsCuts then addBetaCuts c (storeLp s) else (0, storeLp s) := ⟨_, rfl⟩
  obtain ⟨g, hgen⟩ : ∃ g, g = if c.generateCuts && b.1 == 0 then addCuts o b.2 else ([], b.2) := ⟨_, rfl⟩
  have e : cutRound c o s = (b.1, g.1, { g.2 with totalCuts := g.2.totalCuts + (g.1.length + b.1) }) := by
    rw [hgen, hb]; rfl
  unfold Counted at h
  rw [if_pos hg] at h
  obtain ⟨h1, h2, h3⟩ := h
  have hb' : b.2.addedRow.length = s.addedRow.length ∧ b.2.addedRow.count true = s.addedRow.count true + b.1 ∧
      b.2.totalCuts = s.totalCuts ∧ b.2.generated = s.generated ∧ b.2.paths = s.paths := by
    rw [hb]
    split_ifs
    · exact addBetaCuts_counts c (storeLp s) h2
    · exact ⟨rfl, rfl, rfl, rfl, rfl⟩
  have hg' : g.2.addedRow.count true = b.2.addedRow.count true + g.1.length ∧ b.2.addedRow.length ≤ g.2.addedRow.length ∧
      (c.generateCuts = false → g.2.addedRow.length = b.2.addedRow.length) ∧
      g.2.totalCuts = b.2.totalCuts ∧ g.2.generated = b.2.generated ∧ g.2.paths = b.2.paths := by
    rw [hgen]
    split_ifs with hcond
    · obtain ⟨k1, k2, k3, k4⟩ := addCuts_counts o b.2
      rw [k1, k2, k3, k4]
      simp at hcond
      simp [hcond.1]
    · exact ⟨rfl, le_rfl, fun _ => rfl, rfl, rfl, rfl⟩
  obtain ⟨b1, b2, b3, b4, b5⟩ := hb'
  obtain ⟨g1, g2, g3, g4, g5, g6⟩ := hg'
  rw [e]
  refine ⟨?_, by simp only; rw [g5, b4, hg], by simp only; rw [g6, b5]⟩
  unfold Counted
  simp only
  rw [if_pos (by rw [g5, b4, hg])]
  refine ⟨by omega, by omega, fun hc => ?_⟩
  rw [g3 hc, b1, h3 hc]

theorem cutRounds_counts (c : Conf) (o : Oracle) (n : ℕ) : ∀ (acc : List (List Bool)) (s : MS), s.generated = true → Counted c s →
    Counted c (cutRounds c o n acc s).2 ∧ (cutRounds c o n acc s).2.generated = true ∧ (cutRounds c o n acc s).2.paths = s.paths := by
  induction n with
  | zero => intro acc s hg h; exact ⟨h, hg, rfl⟩
  | succ n ih =>
    intro acc s hg h
    unfold cutRounds
    simp only
    split_ifs with h1 h2
    · obtain ⟨k1, k2, k3⟩ := cutRound_counts c o s hg h
      obtain ⟨q1, q2, q3⟩ := ih (acc ++ (cutRound c o s).2.1) (lpSolve o (cutRound c o s).2.2) k2 k1
      exact ⟨q1, q2, q3.trans k3⟩
    · exact cutRound_counts c o s hg h
    · exact ⟨h, hg, rfl⟩

theorem solveRmp_counts (c : Conf) (o : Oracle) (s : MS) (h : Counted c s) : Counted c (solveRmp c o s).2 ∧
    (solveRmp c o s).2.paths = s.paths := by
  unfold solveRmp
  by_cases hg : s.generated
  · obtain ⟨s1, hs1⟩ : ∃ s1, s1 = lpSolve o { s with
      prevRmpObj := s.rmpObj
      iter := s.iter + 1 } := ⟨_, rfl⟩
    have hg1 : s1.generated = true := by rw [hs1]; exact hg
    have hc1 : Counted c s1 := by rw [hs1]; exact h
    have hp1 : s1.paths = s.paths := by rw [hs1]; rfl
    obtain ⟨r, hr⟩ : ∃ r, r = if s1.iter % 10 = 0 then cutRounds c o c.numCutsRound [] s1 else ([], s1) := ⟨_, rfl⟩
    have hr' : Counted c r.2 ∧ r.2.paths = s.paths := by
      rw [hr]
      split_ifs
      · obtain ⟨k1, _, k3⟩ := cutRounds_counts c o c.numCutsRound [] s1 hg1 hc1
        exact ⟨k1, k3.trans hp1⟩
      · exact ⟨hc1, hp1⟩
    rw [if_pos hg]
    simp only
    rw [← hs1, ← hr]
    split_ifs
    · exact hr'
    · exact hr'
  · rw [if_neg hg]
    exact ⟨h, rfl⟩

theorem solveRmp_paths (c : Conf) (o : Oracle) (s : MS) : (solveRmp c o s).2.paths = s.paths := by
  have hround : ∀ s, (cutRound c o s).2.2.paths = s.paths := by
    intro s
    obtain ⟨b, hb⟩ : ∃ b, b = if c.betaAsCuts then addBetaCuts c (storeLp s) else (0, storeLp s) := ⟨_, rfl⟩
    have e : (cutRound c o s).2.2.paths = (if c.generateCuts && b.1 == 0 then addCuts o b.2 else ([], b.2)).2.paths := by
      rw [hb]; rfl
    have hb' : b.2.paths = s.paths := by rw [hb]; split_ifs <;> rfl
    rw [e]
    split_ifs
    · exact (addCuts_counts o b.2).2.2.2.trans hb'
    · exact hb'
  have hrounds : ∀ n acc s, (cutRounds c o n acc s).2.paths = s.paths := by
    intro n
    induction n with
    | zero => intro acc s; rfl
    | succ n ih =>
      intro acc s
      unfold cutRounds
      simp only
      split_ifs with h1 h2
      · exact (ih _ (lpSolve o (cutRound c o s).2.2)).trans (hround s)
      · exact hround s
      · rfl
  unfold solveRmp
  by_cases hg : s.generated
  · obtain ⟨s1, hs1⟩ : ∃ s1, s1 = lpSolve o { s with
      prevRmpObj := s.rmpObj
      iter := s.iter + 1 } := ⟨_, rfl⟩
    have hp1 : s1.paths = s.paths := by rw [hs1]; rfl
    obtain ⟨r, hr⟩ : ∃ r, r = if s1.iter % 10 = 0 then cutRounds c o c.numCutsRound [] s1 else ([], s1) := ⟨_, rfl⟩
    have hr' : r.2.paths = s.paths := by
      rw [hr]
      split_ifs
      · exact (hrounds _ _ _).trans hp1
      · exact hp1
    rw [if_pos hg]
    simp only
    rw [← hs1, ← hr]
    split_ifs
    · exact hr'
    · exact hr'
  · rw [if_neg hg]

theorem solveIp_counts (o : Oracle) (s : MS) : (solveIp o s).2.addedRow = s.addedRow ∧ (solveIp o s).2.totalCuts = s.totalCuts ∧
    (solveIp o s).2.generated = s.generated ∧ (solveIp o s).2.paths = s.paths := by
  unfold solveIp
  simp only
  split_ifs <;> exact ⟨rfl, rfl, rfl, rfl⟩

/-! ## The heuristic -/

theorem rounds_counts (c : HConf) (splits : List Split) (D : Duals) (dr : Draws) (is : List ℕ) : ∀ (gen : List Path) (failed : ℕ)
    (ps : List Path), (c.rounds splits D dr is gen failed).1 = .ok ps →
    ps.length + (c.rounds splits D dr is gen failed).2 = gen.length + failed + is.length := by
  induction is with
  | nil =>
    intro gen failed ps h
    simp only [HConf.rounds, Except.ok.injEq] at h ⊢
    simp [h]
  | cons i is ih =>
    intro gen failed ps h
    unfold HConf.rounds at h ⊢
    cases hr : c.round splits D dr i gen with
    | error e => rw [hr] at h; simp at h
    | ok q =>
      cases q with
      | none =>
        rw [hr] at h
        have := ih gen (failed + 1) ps h
        simp only [List.length_cons]
        omega
      | some p =>
        rw [hr] at h
        have := ih (gen ++ [p]) failed ps h
        rw [List.length_append, List.length_singleton] at this
        rw [List.length_cons]
        simp only
        omega

theorem heur_counts (c : HConf) (D : Duals) (dr : Draws) (st : HeurSt) (ps : List Path) (h : (c.generate D dr st).1 = .ok ps) :
    (c.generate D dr st).2.success = st.success + ps.length ∧
    (c.generate D dr st).2.success + (c.generate D dr st).2.failed = st.success + st.failed + 100 := by
  unfold HConf.generate at h ⊢
  have hc := rounds_counts c st.splits D dr (List.range 100) [] st.failed
  generalize c.rounds st.splits D dr (List.range 100) [] st.failed = q at h hc
  obtain ⟨q1, q2⟩ := q
  cases q1 with
  | error e => simp at h
  | ok ps' =>
    simp only [Except.ok.injEq] at h
    subst h
    have := hc ps' rfl
    simp only [List.length_nil, List.length_range] at this
    exact ⟨rfl, by simp only; omega⟩

/-! ## The counters during a run -/

/-- Calls of the heuristic in a trace. -/
def heurCalls (tr : List (Fit.Ev Duals Path)) : ℕ := (genPos tr).count (0, 0)

/-- The counters agree with the trace as long as no call raised an exception. -/
structure Tally (A : Args) (X : List (List ℚ)) (w : World Ω) (tr : List (Fit.Ev Duals Path)) : Prop where
  cuts : A.betaAsCuts = true → Counted (A.masterConf X) w.master
  paths : (∀ e ∈ tr, raised? e = none) → w.master.paths.length = A.paths.length + (accPos tr).length
  success : (∀ e ∈ tr, raised? e = none) → w.success = numPriced 0 0 tr
  rounds : (∀ e ∈ tr, raised? e = none) → w.success + w.failed = 100 * heurCalls tr
  offers : (∀ e ∈ tr, raised? e = none) → (accPos tr).count (0, 0) = numOffered 0 0 tr

theorem calm_init {tr : List (Fit.Ev Duals Path)} {e : Fit.Ev Duals Path} (h : ∀ e' ∈ tr ++ [e], raised? e' = none) :
    (∀ e' ∈ tr, raised? e' = none) ∧ raised? e = none :=
  ⟨fun e' h' => h e' (List.mem_append_left _ h'), h e (by simp)⟩

/-- An event that no counter sees. -/
theorem Tally.snoc {A : Args} {X : List (List ℚ)} {w w' : World Ω} {tr : List (Fit.Ev Duals Path)} {e : Fit.Ev Duals Path} (h : Tally A X w tr)
    (h1 : A.betaAsCuts = true → Counted (A.masterConf X) w.master → Counted (A.masterConf X) w'.master)
    (h2 : w'.master.paths.length = w.master.paths.length) (h3 : w'.success = w.success) (h4 : w'.failed = w.failed)
    (he1 : accepted? e = none) (he2 : gen? e = none) (he3 : col? e = none) : Tally A X w' (tr ++ [e]) := by
  have p0 : priced 0 0 e = 0 := by cases e <;> simp_all [priced, gen?]
  have o0 : offer 0 0 e = 0 := by cases e <;> simp_all [offer, col?]
  refine ⟨fun hb => h1 hb (h.cuts hb), fun hc => ?_, fun hc => ?_, fun hc => ?_, fun hc => ?_⟩
  · rw [h2, h.paths (calm_init hc).1, Fit.accPos_snoc, he1]; simp
  · rw [h3, h.success (calm_init hc).1, Fit.numPriced_snoc, p0]; simp
  · rw [h3, h4, h.rounds (calm_init hc).1]
    simp [heurCalls, genPos, List.filterMap_append, List.filterMap_cons, he2]
  · rw [Fit.accPos_snoc, he1, Fit.numOffered_snoc, o0]
    simpa using h.offers (calm_init hc).1

theorem Tally.same {A : Args} {X : List (List ℚ)} {w w' : World Ω} {tr : List (Fit.Ev Duals Path)} (h : Tally A X w tr)
    (h1 : w'.master = w.master) (h3 : w'.success = w.success) (h4 : w'.failed = w.failed) : Tally A X w' tr :=
  ⟨by rw [h1]; exact h.cuts, by rw [h1]; exact h.paths, by rw [h3]; exact h.success, by rw [h3, h4]; exact h.rounds, h.offers⟩

theorem tally_init (A : Args) (X : List (List ℚ)) (ω : Ω) : Tally A X (World.init A ω) [] := by
  refine ⟨fun _ => ?_, fun _ => ?_, fun _ => rfl, fun _ => rfl, fun _ => rfl⟩
  · simp [Counted, World.init, MS.init]
  · simp [World.init, MS.init, accPos]

theorem Counted.splits {c : Conf} {s : MS} (h : Counted c s) (l : List Split) : Counted c { s with splits := l } := h

theorem tally_guided (o : FitOracle Ω) (A : Args) (X : List (List ℚ)) (maxIt : ℤ) (tl : ℚ) (py : List ℕ) :
    Fit.Guided (env o A X) (config A maxIt tl) py (Tally A X) where
  clock w tr h := h.same rfl rfl rfl
  timer w tr t _ h := h.snoc (fun _ h => h) rfl rfl rfl rfl rfl rfl
  check w tr s t _ h := h.snoc (fun _ h => h) rfl rfl rfl rfl rfl rfl
  flag w tr _ h := h.snoc (fun _ h => h) rfl rfl rfl rfl rfl rfl
  clear w tr h := h
  generateMp w t h := by
    obtain ⟨k1, k2⟩ := generateMp_counts (A.masterConf X) w.master
    exact Tally.snoc (tr := [Fit.Ev.timer t]) h k2 k1 rfl rfl rfl rfl rfl
  solveRmp w tr _ _ h := by
    refine h.snoc (fun _ hc => (solveRmp_counts _ _ _ hc).1) ?_ rfl rfl rfl rfl rfl
    exact congrArg List.length (solveRmp_paths _ _ _)
  improved w tr _ _ h := h.snoc (fun _ h => h) rfl rfl rfl rfl rfl rfl
  update w tr l i D _ _ h := by
    have key : (updateAt A X l i D w).2.success = w.success ∧ (updateAt A X l i D w).2.failed = w.failed ∧
        (updateAt A X l i D w).2.master.paths = w.master.paths ∧
        (Counted (A.masterConf X) w.master → Counted (A.masterConf X) (updateAt A X l i D w).2.master) := by
      unfold updateAt
      split
      · exact ⟨rfl, rfl, rfl, fun h => h⟩
      · split
        · exact ⟨rfl, rfl, rfl, fun h => h⟩
        · exact ⟨rfl, rfl, rfl, fun h => h⟩
    exact h.snoc (fun _ => key.2.2.2) (congrArg List.length key.2.2.1) key.1 key.2.1 rfl rfl rfl
  generate w tr l i D _ hall h := by
    have hpos : (l, i) ∈ allPositions (config A maxIt tl).shape := by
      apply hall.2.2.1.subset
      simp
    change Tally A X (generateAt o A X l i D w).2 (tr ++ [.generate l i D (generateAt o A X l i D w).1])
    have key : (generateAt o A X l i D w).2.master.paths = w.master.paths ∧
        (Counted (A.masterConf X) w.master → Counted (A.masterConf X) (generateAt o A X l i D w).2.master) := by
      unfold generateAt priceAt
      split
      · exact ⟨rfl, fun h => h⟩
      · split
        · exact ⟨rfl, fun h => h⟩
        · split
          · exact ⟨rfl, fun h => h⟩
          · exact ⟨rfl, fun h => h⟩
    refine ⟨fun hb => key.2 (h.cuts hb), fun hc => ?_, ?_, ?_, fun hc => ?_⟩
    · rw [key.1, h.paths (calm_init hc).1, Fit.accPos_snoc]
      simp [accepted?]
    · intro hc
      obtain ⟨hc1, hc2⟩ := calm_init hc
      rw [Fit.numPriced_snoc, ← h.success hc1]
      by_cases hl : l = 0
      · subst hl
        obtain rfl : i = 0 := by
          obtain ⟨n, hn, hi⟩ := (Fit.mem_allPositions _ _ _).1 hpos
          simp [config] at hn
          omega
        cases hq : (generateAt o A X 0 0 D w).1 with
        | error e => rw [hq] at hc2; simp [raised?] at hc2
        | ok ps =>
          have := (heur_counts (A.heurConf X w.y) D (o.draws w.ω).1 w.heur ps hq).1
          change (generateAt o A X 0 0 D w).2.success = w.success + ps.length at this
          simpa [priced] using this
      · have : (generateAt o A X l i D w).2.success = w.success := by
          unfold generateAt priceAt
          rw [if_neg hl]
          split
          · rfl
          · split <;> rfl
        rw [this]
        cases (generateAt o A X l i D w).1 <;> simp [priced, hl]
    · intro hc
      obtain ⟨hc1, hc2⟩ := calm_init hc
      by_cases hl : l = 0
      · subst hl
        obtain rfl : i = 0 := by
          obtain ⟨n, hn, hi⟩ := (Fit.mem_allPositions _ _ _).1 hpos
          simp [config] at hn
          omega
        have e : heurCalls (tr ++ [.generate 0 0 D (generateAt o A X 0 0 D w).1]) = heurCalls tr + 1 := by
          simp [heurCalls, genPos, List.filterMap_append, List.filterMap_cons, gen?]
        rw [e]
        cases hq : (generateAt o A X 0 0 D w).1 with
        | error e => rw [hq] at hc2; simp [raised?] at hc2
        | ok ps =>
          have h1 := (heur_counts (A.heurConf X w.y) D (o.draws w.ω).1 w.heur ps hq).2
          have h2 := h.rounds hc1
          change _ = w.success + w.failed + 100 at h1
          change (generateAt o A X 0 0 D w).2.success + (generateAt o A X 0 0 D w).2.failed = _ at h1
          omega
      · have : (generateAt o A X l i D w).2.success = w.success ∧ (generateAt o A X l i D w).2.failed = w.failed := by
          unfold generateAt priceAt
          rw [if_neg hl]
          split
          · exact ⟨rfl, rfl⟩
          · split <;> exact ⟨rfl, rfl⟩
        rw [this.1, this.2, h.rounds hc1]
        simp [heurCalls, genPos, List.filterMap_append, List.filterMap_cons, gen?, hl]
    · rw [Fit.accPos_snoc, Fit.numOffered_snoc]
      simpa [accepted?, offer] using h.offers (calm_init hc).1
  add w tr l i p _ _ h := by
    obtain ⟨k1, k2, k3, k4, k5⟩ := addColumn_counts (A.masterConf X) p w.master
    change Tally A X { w with master := (addColumn (A.masterConf X) p w.master).2 }
      (tr ++ [.add l i p (addColumn (A.masterConf X) p w.master).1])
    have acc : (∀ e ∈ tr ++ [Fit.Ev.add l i p (addColumn (A.masterConf X) p w.master).1], raised? e = none) →
        (addColumn (A.masterConf X) p w.master).1 = .ok true := by
      intro hc
      have hc2 := (calm_init hc).2
      cases hq : (addColumn (A.masterConf X) p w.master).1 with
      | error e => rw [hq] at hc2; simp [raised?] at hc2
      | ok b => rw [k5 b hq]
    refine ⟨fun hb => ?_, fun hc => ?_, fun hc => ?_, fun hc => ?_, fun hc => ?_⟩
    · have := h.cuts hb
      unfold Counted at this ⊢
      simp only [k1, k2, k3]
      exact this
    · rw [Fit.accPos_snoc, acc hc]
      simp only [accepted?, Option.toList_some, List.length_append, List.length_singleton]
      rw [k4, h.paths (calm_init hc).1]
      omega
    · rw [Fit.numPriced_snoc]
      simpa [priced] using h.success (calm_init hc).1
    · rw [h.rounds (calm_init hc).1]
      simp [heurCalls, genPos, List.filterMap_append, List.filterMap_cons, gen?]
    · rw [Fit.accPos_snoc, Fit.numOffered_snoc, acc hc]
      simp only [accepted?, Option.toList_some, List.count_append, List.count_singleton, offer]
      rw [h.offers (calm_init hc).1]
      simp
  solveIp w tr _ _ h := by
    obtain ⟨k1, k2, k3, k4⟩ := solveIp_counts o.master w.master
    refine h.snoc (fun _ hc => ?_) (congrArg List.length k4) rfl rfl rfl rfl rfl
    unfold Counted at hc ⊢
    change if (solveIp o.master w.master).2.generated = true then (solveIp o.master w.master).2.addedRow.count true =
      (solveIp o.master w.master).2.totalCuts ∧ _ ≤ (solveIp o.master w.master).2.addedRow.length ∧
      (_ → (solveIp o.master w.master).2.addedRow.length = _) else (solveIp o.master w.master).2.totalCuts = 0 ∧
      (solveIp o.master w.master).2.addedRow = []
    rw [k1, k2, k3]
    exact hc

end Verif.DTree

namespace Verif.Exp

open Verif.DTree Fit.Spec

variable {Ω : Type} {o : FitOracle Ω} {A : Args} {maxIt : ℤ} {tl : ℚ} {X : List (List ℚ)} {fuel : ℕ} {y : List ℤ} {e0 : Fit.Est} {ω : Ω} {u : Unit}
  {s : Fit.St (World Ω) Duals Path} {XTrain XTest : List (List ℚ)} {yTrain yTest : List ℤ} {R : Results}

theorem tally_fit (hfit : fitNew o A maxIt tl X fuel y e0 ω = some (.ok u, s)) : Tally A X s.world s.trace ∧ ∀ e ∈ s.trace, raised? e = none := by
  refine ⟨(tally_guided o A X maxIt tl _).fit (tally_init A X ω) hfit, fun e he => ?_⟩
  cases hq : raised? e with
  | none => rfl
  | some er =>
    have := (Fit.C64_propagates hfit he hq).1
    cases this

/-- The two rows of `num_col_added_sp_`. -/
theorem numColAdded_shape (hfit : fitNew o A maxIt tl X fuel y e0 ω = some (.ok u, s)) :
    ∃ a row, s.est.numColAdded = [[a], row] ∧ a = (accPos s.trace).count (0, 0) ∧ a + row.sum = (accPos s.trace).length := by
  obtain ⟨h1, h2, h3, -⟩ := Fit.C06_column_accounting hfit
  change s.est.numColAdded.map List.length = [1, (A.subConfs [] []).length] at h1
  obtain ⟨r0, row, hn⟩ : ∃ r0 row, s.est.numColAdded = [r0, row] := by
    apply List.length_eq_two.1
    simpa using congrArg List.length h1
  rw [hn] at h1 h2 h3
  simp only [List.map_cons, List.cons.injEq, List.length_eq_one_iff] at h1
  obtain ⟨⟨a, rfl⟩, -⟩ := h1
  refine ⟨a, row, hn, h2 0 [a] rfl 0 a rfl, ?_⟩
  simpa using h3

theorem report_ok (h : report A s XTrain yTrain XTest yTest = .ok R) : ∃ train test, predictFitted A s XTrain = .ok train ∧
    predictFitted A s XTest = .ok test ∧ R = {
      trainAccuracy := score yTrain train
      testAccuracy := score yTest test
      trainingTime := s.est.timeElapsed
      masterTime := s.est.timeSpentMaster
      masterNumCuts := s.world.master.totalCuts
      spTimeHeuristic := (s.est.timeSpentSp.getD 0 []).getD 0 0
      spTimeIp := (s.est.timeSpentSp.getD 1 []).sum
      spColsHeuristic := (s.est.numColAdded.getD 0 []).getD 0 0
      spColsIp := (s.est.numColAdded.getD 1 []).sum
      colAddTime := s.est.timeAddCol
      masterIpTime := s.est.timeSpentMasterIp
      totalIterations := s.est.iter
      numImproving := s.est.numImproving
      hitRate := hitRate s.world.success s.world.failed } := by
  unfold report at h
  cases h1 : predictFitted A s XTrain with
  | error e => rw [h1] at h; cases h
  | ok train =>
    cases h2 : predictFitted A s XTest with
    | error e => rw [h1, h2] at h; cases h
    | ok test =>
      rw [h1, h2] at h
      exact ⟨train, test, rfl, rfl, (Except.ok.inj h).symm⟩

/-- **C90, columns.** After a run of `fit` that returns, the columns reported for the heuristic and for the exact pricing problems together
are the paths that were added to the initial ones. -/
theorem C90_columns (hfit : fitNew o A maxIt tl X fuel y e0 ω = some (.ok u, s)) (hrep : report A s XTrain yTrain XTest yTest = .ok R) :
    s.world.master.paths.length = A.paths.length + R.spColsHeuristic + R.spColsIp := by
  obtain ⟨train, test, _, _, rfl⟩ := report_ok hrep
  obtain ⟨ht, hq⟩ := tally_fit hfit
  obtain ⟨a, row, hn, _, hs⟩ := numColAdded_shape hfit
  simp only [hn, List.getD_cons_zero, List.getD_cons_succ]
  rw [ht.paths hq, ← hs]
  omega

/-- **C90, heuristic.** The reported hit rate of the heuristic is the number of columns reported for it divided by 100 times the number of
its calls, and there is at most one call per iteration: all generated columns were accepted. The rate is between 0 and 1. -/
theorem C90_hit_rate (hfit : fitNew o A maxIt tl X fuel y e0 ω = some (.ok u, s)) (hrep : report A s XTrain yTrain XTest yTest = .ok R) :
    R.hitRate = (R.spColsHeuristic : ℚ) / ((100 * heurCalls s.trace : ℕ) : ℚ) ∧ heurCalls s.trace ≤ R.totalIterations ∧
      R.spColsHeuristic ≤ 100 * R.totalIterations ∧ 0 ≤ R.hitRate ∧ R.hitRate ≤ 1 := by
  obtain ⟨train, test, _, _, rfl⟩ := report_ok hrep
  obtain ⟨ht, hq⟩ := tally_fit hfit
  obtain ⟨a, row, hn, ha, _⟩ := numColAdded_shape hfit
  have h1 : a = s.world.success := by rw [ha, ht.offers hq, Fit.numOffered_return hfit, ← ht.success hq]
  have h2 := ht.rounds hq
  have h3 : heurCalls s.trace ≤ s.est.iter := by
    rw [(Fit.C01_iteration_limit hfit).1]
    have := Fit.count_genPos (0, 0) s.trace (Fit.fit_protocol hfit)
    unfold heurCalls
    omega
  have hrate : hitRate s.world.success s.world.failed = (s.world.success : ℚ) / ((100 * heurCalls s.trace : ℕ) : ℚ) := by
    unfold hitRate
    rw [← h2]
    split_ifs with h0
    · rfl
    · have : s.world.success = 0 := by omega
      rw [this]
      simp
  simp only [hn, List.getD_cons_zero]
  rw [h1, hrate]
  have hle : s.world.success ≤ 100 * heurCalls s.trace := by omega
  refine ⟨rfl, h3, by omega, by positivity, ?_⟩
  exact div_le_one_of_le₀ (by exact_mod_cast hle) (by positivity)

theorem count_getD (l : List Bool) (n : ℕ) (h : l.length = n) : ((List.range n).filter fun r => l.getD r false).length = l.count true := by
  have e : l = (List.range n).map fun r => l.getD r false := by
    apply List.ext_getElem (by simp [h])
    intro i h1 h2
    simp [h1]
  conv_rhs => rw [e]
  rw [List.count_eq_countP, List.countP_map, List.countP_eq_length_filter]
  congr 1
  apply List.filter_congr
  intro r _
  simp

/-- **C90, cuts.** With row constraints as cuts and without other cuts (the setting of the experiment) the reported number of cuts is the
number of rows in `added_rows`. -/
theorem C90_cuts (hfit : fitNew o A maxIt tl X fuel y e0 ω = some (.ok u, s)) (hrep : report A s XTrain yTrain XTest yTest = .ok R)
    (hb : A.betaAsCuts = true) (hg : A.generateCuts = false) : R.masterNumCuts = (addedRows s X.length).length := by
  obtain ⟨train, test, _, _, rfl⟩ := report_ok hrep
  obtain ⟨ht, hq⟩ := tally_fit hfit
  have hc := ht.cuts hb
  unfold Counted at hc
  have key : (addedRows s X.length).length = s.world.master.totalCuts := by
    unfold addedRows
    split_ifs at hc
    · obtain ⟨h1, _, h3⟩ := hc
      rw [← h1, ← count_getD _ _ (h3 hg)]
      rfl
    · rw [hc.1, hc.2]
      simp
  exact key.symm

/-- **C90, accuracies.** They are between 0 and 1. -/
theorem C90_accuracies (hrep : report A s XTrain yTrain XTest yTest = .ok R) :
    0 ≤ R.trainAccuracy ∧ R.trainAccuracy ≤ 1 ∧ 0 ≤ R.testAccuracy ∧ R.testAccuracy ≤ 1 := by
  obtain ⟨train, test, _, _, rfl⟩ := report_ok hrep
  have key : ∀ y preds : List ℤ, 0 ≤ score y preds ∧ score y preds ≤ 1 := by
    intro y preds
    have : correct y preds ≤ y.length := by
      unfold correct
      exact (List.length_filter_le _ _).trans (by simp)
    unfold score
    refine ⟨by positivity, ?_⟩
    exact div_le_one_of_le₀ (by exact_mod_cast this) (by positivity)
  exact ⟨(key _ _).1, (key _ _).2, (key _ _).1, (key _ _).2⟩

/-- **C90, times.** In real time the reported times are nonnegative and those of the parts add up to at most the training time. -/
theorem C90_times (hfit : fitNew o A maxIt tl X fuel y e0 ω = some (.ok u, s)) (hrep : report A s XTrain yTrain XTest yTest = .ok R)
    {T : World Ω → ℚ} (hT : RealTime (env o A X) T) :
    0 ≤ R.masterTime ∧ 0 ≤ R.spTimeHeuristic ∧ 0 ≤ R.spTimeIp ∧ 0 ≤ R.colAddTime ∧ 0 ≤ R.masterIpTime ∧
      R.masterTime + R.spTimeHeuristic + R.spTimeIp + R.colAddTime + R.masterIpTime ≤ R.trainingTime := by
  obtain ⟨train, test, _, _, rfl⟩ := report_ok hrep
  obtain ⟨h1, h2, h3, h4, h5⟩ := Fit.C82_times hT (fun w => by simp [env]) hfit
  have key : ∀ ll : List (List ℚ), (∀ l ∈ ll, ∀ x ∈ l, 0 ≤ x) → 0 ≤ (ll.getD 0 []).getD 0 0 ∧ 0 ≤ (ll.getD 1 []).sum ∧
      (ll.getD 0 []).getD 0 0 + (ll.getD 1 []).sum ≤ total ll := by
    intro ll hll
    have hsum : ∀ l : List ℚ, (∀ x ∈ l, 0 ≤ x) → 0 ≤ l.getD 0 0 ∧ l.getD 0 0 ≤ l.sum := by
      intro l hl
      cases l with
      | nil => simp
      | cons x l =>
        have : 0 ≤ l.sum := List.sum_nonneg fun z hz => hl z (List.mem_cons_of_mem _ hz)
        simp only [List.getD_cons_zero, List.sum_cons]
        exact ⟨hl x List.mem_cons_self, by linarith⟩
    have hnn : ∀ ll : List (List ℚ), (∀ l ∈ ll, ∀ x ∈ l, 0 ≤ x) → 0 ≤ (ll.map List.sum).sum := by
      intro ll hll
      apply List.sum_nonneg
      intro x hx
      obtain ⟨l, hl, rfl⟩ := List.mem_map.1 hx
      exact List.sum_nonneg (hll l hl)
    unfold total
    match ll, hll with
    | [], _ => simp
    | [a], hll =>
      have := hsum a (hll a (by simp))
      simpa using this
    | a :: b :: ll, hll =>
      have g1 := hsum a (hll a (by simp))
      have g2 : 0 ≤ b.sum := List.sum_nonneg (hll b (by simp))
      have g3 := hnn ll fun l hl => hll l (by simp [hl])
      simp only [List.getD_cons_zero, List.getD_cons_succ, List.map_cons, List.sum_cons]
      exact ⟨g1.1, g2, by linarith [g1.2]⟩
  obtain ⟨k1, k2, k3⟩ := key _ h2
  exact ⟨h1, k1, k2, h3, h4, by simp only; linarith⟩

end Verif.Exp
