import Verif.Fit.Props

/-!
# Rounds of the column generation loop in which everything is known

Without a time limit and with one subproblem on the first level: if the duals and the only column priced out with them are known, so is the
round.
-/

set_option linter.unusedSectionVars false

namespace Verif.Fit

variable {W D Col : Type} {env : Env W D Col} {cfg : Config} {I J : W → Prop} {d : D} {c : Col}

/-- All calls before `add_column` succeed, keep `I`, the duals are `d` and the first subproblem returns the column `c`. -/
structure Round (env : Env W D Col) (cfg : Config) (I : W → Prop) (d : D) (c : Col) : Prop where
  limit : cfg.timeLimit ≤ 0
  shape : ∃ rest, cfg.shape = 1 :: rest
  clock : ∀ w, I w → I (env.clock w).2
  noReset : ∀ w, env.resetFlag w ≠ some true
  solveRmp : ∀ w, I w → (env.solveRmp w).1 = .ok d ∧ I (env.solveRmp w).2
  improved : ∀ w, I w → (∃ b, (env.improved w).1 = .ok b) ∧ I (env.improved w).2
  update : ∀ l i w, I w → (∃ u, (env.update l i d w).1 = .ok u) ∧ I (env.update l i d w).2
  generate : ∀ w, I w → (env.generate 0 0 d w).1 = .ok [c] ∧ I (env.generate 0 0 d w).2

theorem updateLoop_round (h : Round env cfg I d c) : ∀ (ps : List (ℕ × ℕ)) (s : St W D Col), I s.world →
    ∃ s1, updateLoop env d ps s = (.ok (), s1) ∧ I s1.world ∧ s1.est.iter = s.est.iter := by
  intro ps
  induction ps with
  | nil => intro s hs; exact ⟨s, rfl, hs, rfl⟩
  | cons q ps ih =>
    obtain ⟨l, i⟩ := q
    intro s hs
    simp only [updateLoop, now, call]
    obtain ⟨⟨u, hu⟩, h2⟩ := h.update l i _ (h.clock _ hs)
    simp only [hu]
    exact ih (St.set _ _) (h.clock _ h2)

theorem spLoop_round (h : Round env cfg I d c) (s : St W D Col) (hs : I s.world) :
    ∃ w, I w ∧ (∀ e, (env.addColumn c w).1 = .error e → ∃ s2, spLoop env cfg d 0 [0] s = (.error e, s2)) ∧
      ((env.addColumn c w).1 = .ok true → ∃ s2, spLoop env cfg d 0 [0] s = (.ok true, s2) ∧ s2.est.iter = s.est.iter ∧
        s2.world = (env.clock (env.addColumn c w).2).2) := by
  have hlim : (decide (cfg.timeLimit > 0)) = false := decide_eq_false (not_lt.2 h.limit)
  simp only [spLoop, now, St.set, St.log, hlim, Bool.false_and, Bool.false_eq_true, if_false, call]
  obtain ⟨e7, i7⟩ := h.generate _ (h.clock _ (h.clock _ hs))
  simp only [e7, addCols, call]
  refine ⟨_, h.clock _ (h.clock _ i7), ?_, ?_⟩
  · intro e he
    simp only [he]
    exact ⟨_, rfl⟩
  · intro he
    simp only [he, Bool.or_true, if_true]
    exact ⟨_, rfl, rfl, rfl⟩

theorem levelLoop_round (h : Round env cfg I d c) (ls : List (ℕ × ℕ)) (s : St W D Col) (hs : I s.world) :
    ∃ w, I w ∧ (∀ e, (env.addColumn c w).1 = .error e → ∃ s2, levelLoop env cfg d ((0, 1) :: ls) s = (.error e, s2)) ∧
      ((env.addColumn c w).1 = .ok true → ∃ s2, levelLoop env cfg d ((0, 1) :: ls) s = (.ok true, s2) ∧ s2.est.iter = s.est.iter ∧
        s2.world = (env.clock (env.clock (env.addColumn c w).2).2).2) := by
  obtain ⟨w, hw, k1, k2⟩ := spLoop_round h s hs
  simp only [levelLoop, List.range_one]
  refine ⟨w, hw, ?_, ?_⟩
  · intro e he
    obtain ⟨s7, e7⟩ := k1 e he
    rw [e7]
    exact ⟨_, rfl⟩
  · intro he
    obtain ⟨s7, e7, i7, w7⟩ := k2 he
    rw [e7]
    simp only [now, St.set]
    by_cases ht : s7.est.timeLimitReached = true
    · exact ⟨_, if_pos ht, i7, by rw [← w7]⟩
    · exact ⟨_, (if_neg ht).trans (if_pos trivial), i7, by rw [← w7]⟩

/-- The round up to `add_column`. -/
theorem body_round (h : Round env cfg I d c) (s : St W D Col) (hs : I s.world) :
    ∃ w, I w ∧ (∀ e, (env.addColumn c w).1 = .error e → ∃ s2, body env cfg s = (.error e, s2)) ∧
      ((env.addColumn c w).1 = .ok true → ∃ s2, body env cfg s = (.ok true, s2) ∧ s2.est.iter = s.est.iter + 1 ∧
        s2.world = (env.clock (env.clock (env.addColumn c w).2).2).2) := by
  obtain ⟨rest, hshape⟩ := h.shape
  have hlev : levels cfg.shape = (0, 1) :: (levels cfg.shape).tail := by rw [hshape]; rfl
  simp only [body, now, St.set, call]
  obtain ⟨e1, i1⟩ := h.solveRmp _ (h.clock _ (h.clock _ hs))
  simp only [e1]
  obtain ⟨⟨b, e2⟩, i2⟩ := h.improved _ (h.clock _ i1)
  simp only [e2, resetTimer, St.log, if_neg (h.noReset _)]
  generalize hg : ({ est := _, world := _, trace := _ } : St W D Col) = s5
  have h5 : I s5.world := by rw [← hg]; exact i2
  have h5i : s5.est.iter = s.est.iter + 1 := by rw [← hg]
  obtain ⟨s6, e6, h6, h6i⟩ := updateLoop_round h (positions cfg.shape) s5 h5
  simp only [e6]
  rw [hlev]
  obtain ⟨w, hw, k1, k2⟩ := levelLoop_round h (levels cfg.shape).tail s6 h6
  refine ⟨w, hw, ?_, ?_⟩
  · intro e he
    obtain ⟨s7, e7⟩ := k1 e he
    simp only [e7]
    exact ⟨_, rfl⟩
  · intro he
    obtain ⟨s7, e7, i7, w7⟩ := k2 he
    simp only [e7, if_true]
    exact ⟨_, rfl, i7.trans (h6i.trans h5i), w7⟩

/-- The column is added and the loop goes on. -/
theorem body_accepts (h : Round env cfg I d c) (hJ : ∀ w, J w → J (env.clock w).2)
    (hadd : ∀ w, I w → (env.addColumn c w).1 = .ok true ∧ J (env.addColumn c w).2) (s : St W D Col) (hs : I s.world) :
    ∃ s2, body env cfg s = (.ok true, s2) ∧ s2.est.iter = s.est.iter + 1 ∧ J s2.world := by
  obtain ⟨w, h1, -, h2⟩ := body_round h s hs
  obtain ⟨e, hj⟩ := hadd _ h1
  obtain ⟨s2, e2, i2, w2⟩ := h2 e
  exact ⟨s2, e2, i2, by rw [w2]; exact hJ _ (hJ _ hj)⟩

/-- `add_column` raises and so does the round. -/
theorem body_raises (h : Round env cfg I d c) {e : Err} (hadd : ∀ w, I w → (env.addColumn c w).1 = .error e) (s : St W D Col) (hs : I s.world) :
    ∃ s2, body env cfg s = (.error e, s2) := by
  obtain ⟨w, h1, h2, -⟩ := body_round h s hs
  exact h2 e (hadd _ h1)

/-- One round that adds a column, and one whose `add_column` raises: the run raises. -/
theorem fit_two_rounds {d' : D} {c' : Col} {e : Err} (h : Round env cfg I d c) (h' : Round env cfg J d' c')
    (hadd : ∀ w, I w → (env.addColumn c w).1 = .ok true ∧ J (env.addColumn c w).2) (hadd' : ∀ w, J w → (env.addColumn c' w).1 = .error e)
    (hm : cfg.maxIterations ≤ 0 ∨ 2 ≤ cfg.maxIterations) {y : List ℤ} {e0 : Est} {w0 : W} (hy : 2 ≤ (Sk.uniqueLabels y).length)
    (hg : (env.generateMp (Sk.transform (Sk.uniqueLabels y) y) (env.clock w0).2).1 = .ok () ∧
      I (env.generateMp (Sk.transform (Sk.uniqueLabels y) y) (env.clock w0).2).2) (fuel : ℕ) :
    ∃ s, fit env cfg (fuel + 2) y e0 w0 = some (.error e, s) := by
  simp only [fit, now, St.set, St.log, call]
  have hc : ¬ (Sk.uniqueLabels y).length ≤ 1 := by omega
  simp only [hc, if_false, hg.1]
  generalize hq : ({ est := _, world := _, trace := _ } : St W D Col) = s1
  have h1 : I s1.world := by rw [← hq]; exact hg.2
  have h0 : s1.est.iter = 0 := by rw [← hq]; rfl
  obtain ⟨s2, e2, i2, j2⟩ := body_accepts h h'.clock hadd s1 h1
  obtain ⟨s3, e3⟩ := body_raises h' hadd' s2 j2
  simp only [loop]
  rw [if_neg (by rw [h0]; intro hh; have := hh.1; have := hh.2; push_cast at this; omega), e2]
  simp only
  rw [if_neg (by rw [i2, h0]; intro hh; have := hh.1; have := hh.2; push_cast at this; omega), e3]
  exact ⟨_, rfl⟩

end Verif.Fit
