import Verif.Fit.Props

/-!
# Runs that cannot succeed

If the master problem cannot be solved and the pricing problems cannot do anything with what it returns, `fit` raises.
-/

set_option linter.unusedSectionVars false

namespace Verif.Fit

variable {W D Col : Type} {env : Env W D Col} {cfg : Config} {I : W → Prop} {P : D → Prop}

/-- `generate_columns` of this position raises or returns nothing. -/
def Dry (env : Env W D Col) (I : W → Prop) (P : D → Prop) (l i : ℕ) : Prop :=
  ∀ d w, P d → I w → I (env.generate l i d w).2 ∧ ((∃ e, (env.generate l i d w).1 = .error e) ∨ (env.generate l i d w).1 = .ok [])

/-- `update_subproblem` of this position raises. -/
def Refuses (env : Env W D Col) (I : W → Prop) (P : D → Prop) (l i : ℕ) : Prop :=
  ∀ d w, P d → I w → ∃ e, (env.update l i d w).1 = .error e

/-- What is known about the calls: all of them keep `I`, the duals satisfy `P`, nothing can be done with such duals, and the integer problem cannot
be solved. -/
structure Stuck (env : Env W D Col) (cfg : Config) (I : W → Prop) (P : D → Prop) : Prop where
  clock : ∀ w, I w → I (env.clock w).2
  noReset : ∀ w, env.resetFlag w ≠ some true
  solveRmp : ∀ w, I w → I (env.solveRmp w).2 ∧ ((∃ e, (env.solveRmp w).1 = .error e) ∨ ∃ d, (env.solveRmp w).1 = .ok d ∧ P d)
  improved : ∀ w, I w → I (env.improved w).2
  update : ∀ l i d w, P d → I w → I (env.update l i d w).2
  blocked : (∃ q ∈ positions cfg.shape, Refuses env I P q.1 q.2) ∨ ∀ q ∈ positions cfg.shape, Dry env I P q.1 q.2
  solveIp : ∀ w, I w → I (env.solveIp w).2 ∧ ∃ e, (env.solveIp w).1 = .error e
  ip : cfg.rmpIsIp = true

/-- The invariant holds, and the result raises or is as stated. -/
def Ends {α : Type} (I : W → Prop) (Q : α → Prop) (r : Except Err α × St W D Col) : Prop :=
  I r.2.world ∧ ((∃ e, r.1 = .error e) ∨ ∃ a, r.1 = .ok a ∧ Q a)

theorem Ends.ite {α : Type} {Q : α → Prop} {c : Prop} [Decidable c] {x y : Except Err α × St W D Col} (h1 : c → Ends I Q x) (h2 : ¬c → Ends I Q y) :
    Ends I Q (if c then x else y) := by
  by_cases h : c
  · rw [if_pos h]; exact h1 h
  · rw [if_neg h]; exact h2 h

theorem spLoop_stuck (hs : Stuck env cfg I P) (d : D) (hd : P d) (l : ℕ) : ∀ (is : List ℕ) (s : St W D Col), (∀ i ∈ is, Dry env I P l i) → I s.world →
    Ends I (fun b => b = false) (spLoop env cfg d l is s) := by
  intro is
  induction is with
  | nil => intro s _ h; exact ⟨h, .inr ⟨_, rfl, rfl⟩⟩
  | cons i is ih =>
    intro s hdry h
    simp only [spLoop, now, St.set, St.log]
    refine Ends.ite (fun _ => ?_) (fun _ => ?_)
    · exact ⟨hs.clock _ h, .inr ⟨_, rfl, rfl⟩⟩
    · simp only [call]
      have h2 := hs.clock _ (hs.clock _ h)
      obtain ⟨hI, ⟨e, he⟩ | he⟩ := hdry i List.mem_cons_self d _ hd h2
      · simp only [he]
        exact ⟨hI, .inl ⟨e, rfl⟩⟩
      · simp only [he, addCols, Bool.false_eq_true, if_false]
        refine ih _ (fun j hj => hdry j (List.mem_cons_of_mem _ hj)) ?_
        exact hs.clock _ (hs.clock _ (hs.clock _ hI))

theorem levelLoop_stuck (hs : Stuck env cfg I P) (d : D) (hd : P d) : ∀ (ls : List (ℕ × ℕ)) (s : St W D Col),
    (∀ q ∈ ls, ∀ i < q.2, Dry env I P q.1 i) → I s.world → Ends I (fun b => b = false) (levelLoop env cfg d ls s) := by
  intro ls
  induction ls with
  | nil => intro s _ h; exact ⟨h, .inr ⟨_, rfl, rfl⟩⟩
  | cons q ls ih =>
    obtain ⟨l, n⟩ := q
    intro s hdry h
    simp only [levelLoop]
    have h1 := spLoop_stuck hs d hd l (List.range n) s (fun i hi => hdry (l, n) List.mem_cons_self i (List.mem_range.1 hi)) h
    generalize spLoop env cfg d l (List.range n) s = r at h1 ⊢
    obtain ⟨v, s1⟩ := r
    obtain ⟨hI, ⟨e, rfl⟩ | ⟨a, rfl, rfl⟩⟩ := h1
    · exact ⟨hI, .inl ⟨e, rfl⟩⟩
    · simp only [now, St.set]
      by_cases ht : s1.est.timeLimitReached = true
      · simp only [ht, if_true]
        exact ⟨hs.clock _ hI, .inr ⟨_, rfl, rfl⟩⟩
      · simp only [ht, if_false, Bool.false_eq_true]
        exact ih _ (fun q hq => hdry q (List.mem_cons_of_mem _ hq)) (hs.clock _ hI)

theorem updateLoop_stuck (hs : Stuck env cfg I P) (d : D) (hd : P d) : ∀ (ps : List (ℕ × ℕ)) (s : St W D Col), I s.world →
    ((∃ q ∈ ps, Refuses env I P q.1 q.2) → ∃ e, (updateLoop env d ps s).1 = .error e) ∧ Ends I (fun _ => True) (updateLoop env d ps s) := by
  intro ps
  induction ps with
  | nil => intro s h; exact ⟨fun ⟨q, hq, _⟩ => absurd hq (by simp), h, .inr ⟨_, rfl, trivial⟩⟩
  | cons q ps ih =>
    obtain ⟨l, i⟩ := q
    intro s h
    simp only [updateLoop, now, call]
    have h1 := hs.clock _ h
    have h2 := hs.update l i d _ hd h1
    rcases hu : (env.update l i d (env.clock s.world).2).1 with e | u
    · simp only [hu]
      exact ⟨fun _ => ⟨e, rfl⟩, h2, .inl ⟨e, rfl⟩⟩
    · simp only [hu]
      obtain ⟨h3, h4⟩ := ih (St.set ⟨s.est, (env.clock (env.update l i d (env.clock s.world).2).2).2, s.trace ++ [.update l i d (.ok u)]⟩
        (fun e => { e with timeSpentSp := bump e.timeSpentSp l i ((env.clock (env.update l i d (env.clock s.world).2).2).1 - (env.clock s.world).1) }))
        (hs.clock _ h2)
      refine ⟨?_, h4⟩
      rintro ⟨q, hq, hr⟩
      rcases List.mem_cons.1 hq with rfl | hq
      · obtain ⟨e, he⟩ := hr d _ hd h1
        rw [hu] at he
        cases he
      · exact h3 ⟨q, hq, hr⟩

theorem mem_positions {shape : List ℕ} {q : ℕ × ℕ} (hq : q ∈ levels shape) {i : ℕ} (hi : i < q.2) : (q.1, i) ∈ positions shape := by
  unfold positions
  exact List.mem_flatMap.2 ⟨q, hq, List.mem_map.2 ⟨i, List.mem_range.2 hi, rfl⟩⟩

theorem body_stuck (hs : Stuck env cfg I P) (s : St W D Col) (h : I s.world) : Ends I (fun b => b = false) (body env cfg s) := by
  simp only [body, now, St.set, call]
  have h2 := hs.clock _ (hs.clock _ h)
  obtain ⟨h3, ⟨e, he⟩ | ⟨d, he, hd⟩⟩ := hs.solveRmp _ h2
  · simp only [he]
    exact ⟨h3, .inl ⟨e, rfl⟩⟩
  · simp only [he]
    have h4 := hs.improved _ (hs.clock _ h3)
    rcases hi : (env.improved (env.clock (env.solveRmp (env.clock (env.clock s.world).2).2).2).2).1 with e | b
    · simp only [hi]
      exact ⟨h4, .inl ⟨e, rfl⟩⟩
    · simp only [hi]
      simp only [resetTimer, St.log, if_neg (hs.noReset _)]
      generalize hg : ({ est := _, world := _, trace := _ } : St W D Col) = s5
      have h5 : I s5.world := by rw [← hg]; exact h4
      obtain ⟨u1, u2⟩ := updateLoop_stuck hs d hd (positions cfg.shape) s5 h5
      generalize updateLoop env d (positions cfg.shape) s5 = r at u1 u2 ⊢
      obtain ⟨v, s6⟩ := r
      obtain ⟨hI, ⟨e, rfl⟩ | ⟨a, rfl, -⟩⟩ := u2
      · exact ⟨hI, .inl ⟨e, rfl⟩⟩
      · rcases hs.blocked with hb | hb
        · obtain ⟨e, he⟩ := u1 hb
          cases he
        · have h7 := levelLoop_stuck hs d hd (levels cfg.shape) s6 (fun q hq i hi => hb _ (mem_positions hq hi)) hI
          simp only
          generalize levelLoop env cfg d (levels cfg.shape) s6 = r at h7 ⊢
          obtain ⟨v, s7⟩ := r
          obtain ⟨hI, ⟨e, rfl⟩ | ⟨a, rfl, rfl⟩⟩ := h7
          · exact ⟨hI, .inl ⟨e, rfl⟩⟩
          · simp only [Bool.false_eq_true, if_false]
            refine ⟨?_, .inr ⟨_, rfl, rfl⟩⟩
            split_ifs <;> exact hI

/-- Such a run raises after the first iteration at the latest. -/
theorem fit_stuck (hs : Stuck env cfg I P) {y : List ℤ} {e0 : Est} {w0 : W}
    (hg : (∃ e, (env.generateMp (Sk.transform (Sk.uniqueLabels y) y) (env.clock w0).2).1 = .error e) ∨
      I (env.generateMp (Sk.transform (Sk.uniqueLabels y) y) (env.clock w0).2).2) (fuel : ℕ) :
    ∃ e s, fit env cfg (fuel + 1) y e0 w0 = some (.error e, s) ∧
      (s.world = (env.clock w0).2 ∨ ((env.generateMp (Sk.transform (Sk.uniqueLabels y) y) (env.clock w0).2).1 = .error e ∧
        s.world = (env.generateMp (Sk.transform (Sk.uniqueLabels y) y) (env.clock w0).2).2) ∨ I s.world) := by
  simp only [fit, now, St.set, St.log, call]
  by_cases hc : (Sk.uniqueLabels y).length ≤ 1
  · simp only [hc, if_true]
    exact ⟨_, _, rfl, .inl rfl⟩
  · simp only [hc, if_false]
    rcases hq : (env.generateMp (Sk.transform (Sk.uniqueLabels y) y) (env.clock w0).2).1 with e | u
    · simp only [hq]
      exact ⟨_, _, rfl, .inr (.inl ⟨rfl, rfl⟩)⟩
    · simp only [hq]
      have hI : I (env.generateMp (Sk.transform (Sk.uniqueLabels y) y) (env.clock w0).2).2 := by
        rcases hg with ⟨e, he⟩ | h
        · rw [hq] at he; cases he
        · exact h
      generalize hg : ({ est := _, world := _, trace := _ } : St W D Col) = s1
      have h1 : I s1.world := by rw [← hg]; exact hI
      have h0 : s1.est.iter = 0 := by rw [← hg]; rfl
      have hb := body_stuck hs s1 h1
      simp only [loop]
      rw [if_neg (by rw [h0]; intro h; have := h.1; have := h.2; push_cast at this; omega)]
      generalize body env cfg s1 = r at hb ⊢
      obtain ⟨v, s2⟩ := r
      obtain ⟨hI, ⟨e, rfl⟩ | ⟨a, rfl, rfl⟩⟩ := hb
      · exact ⟨e, s2, rfl, .inr (.inr hI)⟩
      · simp only [finish, hs.ip, if_true, now, St.set, call]
        obtain ⟨h6, e, he⟩ := hs.solveIp _ (hs.clock _ hI)
        simp only [he]
        exact ⟨e, _, rfl, .inr (.inr h6)⟩

end Verif.Fit
