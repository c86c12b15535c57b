import Verif.Fit.Invariant

/-!
# Two runs of `fit` that differ only in their limits

The runs are the same until the tighter limits stop the one; the other continues from the state in which the first left the loop.
-/

namespace Verif.Fit

variable {W D Col : Type} {env : Env W D Col} {c c' : Config}

namespace Spec

/-- A limit that is not positive is no limit; otherwise the larger number is the looser limit. -/
def LimitLE {α : Type} [Zero α] [LE α] [LT α] (a a' : α) : Prop := a' ≤ 0 ∨ (0 < a ∧ a ≤ a')

/-- The limits of `c'` are at least as loose as those of `c`; the other arguments are the same. -/
structure Looser (c c' : Config) : Prop where
  iterations : LimitLE c.maxIterations c'.maxIterations
  time : LimitLE c.timeLimit c'.timeLimit
  shape : c'.shape = c.shape
  ip : c'.rmpIsIp = c.rmpIsIp

end Spec

open Spec

/-! ## `mp_optimal_` is only set at the end of an iteration that is the last -/

theorem addCols_opt (l i : ℕ) (cs : List Col) : ∀ (upd : Bool) (s : St W D Col), (addCols env l i cs upd s).2.est.mpOptimal = s.est.mpOptimal := by
  induction cs with
  | nil => intro upd s; rfl
  | cons k cs ih =>
    intro upd s
    simp only [addCols, call]
    generalize env.addColumn k s.world = g
    obtain ⟨gr, gw⟩ := g
    cases gr with
    | error er => rfl
    | ok b => exact ih _ _

theorem spLoop_opt (d : D) (l : ℕ) (is : List ℕ) : ∀ s : St W D Col, (spLoop env c d l is s).2.est.mpOptimal = s.est.mpOptimal := by
  induction is with
  | nil => intro s; rfl
  | cons i is ih =>
    intro s
    simp only [spLoop, now, St.set, St.log, call]
    set P : Except Err Bool × St W D Col → Prop := fun r => r.2.est.mpOptimal = s.est.mpOptimal with hP
    change P (if (decide (c.timeLimit > 0) && decide ((env.clock s.world).1 - s.est.tStart > c.timeLimit)) = true then _ else _)
    split
    · rfl
    · generalize env.generate l i d _ = g
      obtain ⟨gr, gw⟩ := g
      cases gr with
      | error er => rfl
      | ok cols =>
        simp only
        generalize hst : ({ est := _, world := (env.clock (env.clock gw).2).2, trace := _ } : St W D Col) = st
        have h1 : st.est.mpOptimal = s.est.mpOptimal := by subst hst; rfl
        have h2 := addCols_opt (env := env) l i cols false st
        generalize addCols env l i cols false st = r at h2
        obtain ⟨res, s2⟩ := r
        cases res with
        | error er => exact h2.trans h1
        | ok upd =>
          cases upd with
          | true => exact h2.trans h1
          | false => exact (ih _).trans (h2.trans h1)

theorem levelLoop_opt (d : D) (ls : List (ℕ × ℕ)) : ∀ s : St W D Col, (levelLoop env c d ls s).2.est.mpOptimal = s.est.mpOptimal := by
  induction ls with
  | nil => intro s; rfl
  | cons p ls ih =>
    obtain ⟨l, n⟩ := p
    intro s
    simp only [levelLoop, now, St.set]
    have h1 := spLoop_opt (env := env) (c := c) d l (List.range n) s
    generalize spLoop env c d l (List.range n) s = r at h1
    obtain ⟨res, s1⟩ := r
    cases res with
    | error er => exact h1
    | ok upd =>
      cases hb : s1.est.timeLimitReached with
      | true => simpa [hb] using h1
      | false =>
        cases upd with
        | true => simpa [hb] using h1
        | false =>
          simp only [hb, Bool.false_eq_true, if_false]
          exact (ih _).trans h1

theorem updateLoop_opt (d : D) (ps : List (ℕ × ℕ)) : ∀ s : St W D Col, (updateLoop env d ps s).2.est.mpOptimal = s.est.mpOptimal := by
  induction ps with
  | nil => intro s; rfl
  | cons p ps ih =>
    obtain ⟨l, i⟩ := p
    intro s
    simp only [updateLoop, now, call]
    generalize env.update l i d _ = g
    obtain ⟨gr, gw⟩ := g
    cases gr with
    | error er => rfl
    | ok u => exact ih _

theorem resetTimer_opt (s : St W D Col) : (resetTimer env s).est.mpOptimal = s.est.mpOptimal := by
  unfold resetTimer
  simp only [St.log, now, St.set]
  split <;> rfl

/-! ## One iteration -/

/-- `r'` arises from the world `w` and the trace `tr` by further calls. -/
def Later (env : Env W D Col) (w : W) (tr : List (Ev D Col)) (s' : St W D Col) : Prop :=
  ∀ J : W → List (Ev D Col) → Prop, Preserved env J → J w tr → J s'.world s'.trace

theorem over_looser (h : Looser c c') {x : ℚ} (hx : (decide (c'.timeLimit > 0) && decide (x > c'.timeLimit)) = true) :
    (decide (c.timeLimit > 0) && decide (x > c.timeLimit)) = true := by
  simp only [Bool.and_eq_true, decide_eq_true_eq] at hx ⊢
  rcases h.time with h1 | ⟨h1, h2⟩
  · exact absurd hx.1 (not_lt.2 h1)
  · exact ⟨h1, lt_of_le_of_lt h2 hx.2⟩

/-- The loop over the subproblems: the runs agree, or the tighter one stops at a check of the time. -/
theorem spLoop_limit (h : Looser c c') (d : D) (l : ℕ) (is : List ℕ) : ∀ s : St W D Col,
    spLoop env c' d l is s = spLoop env c d l is s ∨
    ((spLoop env c d l is s).1 = .ok false ∧ (spLoop env c d l is s).2.est.timeLimitReached = true ∧
      Later env (env.clock (spLoop env c d l is s).2.world).2 (spLoop env c d l is s).2.trace (spLoop env c' d l is s).2) := by
  induction is with
  | nil => intro s; exact Or.inl rfl
  | cons i is ih =>
    intro s
    by_cases h1 : (decide (c.timeLimit > 0) && decide ((env.clock s.world).1 - s.est.tStart > c.timeLimit)) = true
    · have e1 : spLoop env c d l (i :: is) s = (.ok false, ⟨{ s.est with
          timeElapsed := (env.clock s.world).1 - s.est.tStart
          timeLimitReached := true }, (env.clock s.world).2, s.trace ++ [.check s.est.tStart (env.clock s.world).1]⟩) := by
        simp only [spLoop, now, St.set, St.log]
        exact if_pos h1
      by_cases h2 : (decide (c'.timeLimit > 0) && decide ((env.clock s.world).1 - s.est.tStart > c'.timeLimit)) = true
      · left
        rw [e1]
        simp only [spLoop, now, St.set, St.log]
        exact if_pos h2
      · right
        rw [e1]
        refine ⟨rfl, rfl, fun J hJ hj => ?_⟩
        have e2 := hJ.spLoop c' d l (i :: is)
        simp only [spLoop, now, St.set, St.log, call]
        set P : Except Err Bool × St W D Col → Prop := fun r => J r.2.world r.2.trace with hP
        change P (if (decide (c'.timeLimit > 0) && decide ((env.clock s.world).1 - s.est.tStart > c'.timeLimit)) = true then _ else _)
        rw [if_neg h2]
        have h3 := hJ.generate _ _ l i d hj
        simp only at h3
        generalize env.generate l i d _ = g at h3
        obtain ⟨gr, gw⟩ := g
        cases gr with
        | error er => exact h3
        | ok cols =>
          simp only
          have h4 := hJ.clock _ _ (hJ.clock _ _ h3)
          generalize hst : ({ est := _, world := (env.clock (env.clock gw).2).2, trace := _ } : St W D Col) = st
          have h5 : J st.world st.trace := by subst hst; exact h4
          have h6 := hJ.addCols l i cols false st h5
          generalize addCols env l i cols false st = r at h6
          obtain ⟨res, s2⟩ := r
          cases res with
          | error er => exact h6
          | ok upd =>
            cases upd with
            | true => exact hJ.clock _ _ h6
            | false => exact hJ.spLoop c' d l is _ (hJ.clock _ _ h6)
    · have h2 : ¬ (decide (c'.timeLimit > 0) && decide ((env.clock s.world).1 - s.est.tStart > c'.timeLimit)) = true :=
        fun hx => h1 (over_looser h hx)
      simp only [spLoop, now, St.set, St.log, call]
      set P : Except Err Bool × St W D Col → Except Err Bool × St W D Col → Prop := fun r r' => r' = r ∨
        (r.1 = .ok false ∧ r.2.est.timeLimitReached = true ∧ Later env (env.clock r.2.world).2 r.2.trace r'.2) with hP
      change P (if (decide (c.timeLimit > 0) && decide ((env.clock s.world).1 - s.est.tStart > c.timeLimit)) = true then _ else _)
        (if (decide (c'.timeLimit > 0) && decide ((env.clock s.world).1 - s.est.tStart > c'.timeLimit)) = true then _ else _)
      rw [if_neg h1, if_neg h2]
      generalize env.generate l i d _ = g
      obtain ⟨gr, gw⟩ := g
      cases gr with
      | error er => exact Or.inl rfl
      | ok cols =>
        simp only
        generalize hst : ({ est := _, world := (env.clock (env.clock gw).2).2, trace := _ } : St W D Col) = st
        generalize addCols env l i cols false st = r
        obtain ⟨res, s2⟩ := r
        cases res with
        | error er => exact Or.inl rfl
        | ok upd =>
          cases upd with
          | true => exact Or.inl rfl
          | false => exact ih _

/-- The loop over the levels. -/
theorem levelLoop_limit (h : Looser c c') (d : D) (ls : List (ℕ × ℕ)) : ∀ s : St W D Col,
    levelLoop env c' d ls s = levelLoop env c d ls s ∨
    ((levelLoop env c d ls s).1 = .ok false ∧ (levelLoop env c d ls s).2.est.timeLimitReached = true ∧
      Later env (levelLoop env c d ls s).2.world (levelLoop env c d ls s).2.trace (levelLoop env c' d ls s).2) := by
  induction ls with
  | nil => intro s; exact Or.inl rfl
  | cons p ls ih =>
    obtain ⟨l, n⟩ := p
    intro s
    rcases spLoop_limit (env := env) h d l (List.range n) s with e | ⟨h1, h2, h3⟩
    · simp only [levelLoop, now, St.set]
      rw [e]
      generalize spLoop env c d l (List.range n) s = r
      obtain ⟨res, s1⟩ := r
      cases res with
      | error er => exact Or.inl rfl
      | ok upd =>
        cases hb : s1.est.timeLimitReached with
        | true => left; simp [hb]
        | false =>
          cases upd with
          | true => left; simp [hb]
          | false =>
            simp only [hb, Bool.false_eq_true, if_false]
            exact ih _
    · right
      simp only [levelLoop, now, St.set]
      generalize spLoop env c d l (List.range n) s = r at h1 h2 h3
      obtain ⟨res, s1⟩ := r
      simp only at h1 h2 h3
      subst h1
      simp only [h2, if_true]
      refine ⟨trivial, trivial, fun J hJ hj => ?_⟩
      have h4 := h3 J hJ hj
      generalize spLoop env c' d l (List.range n) s = r' at h4
      obtain ⟨res', s1'⟩ := r'
      cases res' with
      | error er => exact h4
      | ok upd' =>
        have h5 := hJ.clock _ _ h4
        cases hb : s1'.est.timeLimitReached with
        | true => simpa [hb] using h5
        | false =>
          cases upd' with
          | true => simpa [hb] using h5
          | false =>
            simp only [hb, Bool.false_eq_true, if_false]
            exact hJ.levelLoop c' d ls _ h5

/-- One iteration: the runs agree, or the tighter one breaks because of the time limit. -/
theorem body_limit (h : Looser c c') (s : St W D Col) :
    body env c' s = body env c s ∨
    ((body env c s).1 = .ok false ∧ (body env c s).2.est.timeLimitReached = true ∧ (body env c s).2.est.mpOptimal = s.est.mpOptimal ∧
      Later env (body env c s).2.world (body env c s).2.trace (body env c' s).2) := by
  simp only [body, now, St.set, call]
  rw [h.shape]
  generalize env.solveRmp (env.clock (env.clock s.world).2).2 = g
  obtain ⟨gr, gw⟩ := g
  cases gr with
  | error er => exact Or.inl rfl
  | ok d =>
    simp only
    generalize env.improved (env.clock gw).2 = g2
    obtain ⟨gr2, gw2⟩ := g2
    cases gr2 with
    | error er => exact Or.inl rfl
    | ok b =>
      simp only
      generalize hst : ({ est := _, world := gw2, trace := _ } : St W D Col) = st
      have o1 : st.est.mpOptimal = s.est.mpOptimal := by subst hst; rfl
      have o2 := updateLoop_opt (env := env) d (positions c.shape) (resetTimer env st)
      rw [resetTimer_opt, o1] at o2
      generalize updateLoop env d (positions c.shape) (resetTimer env st) = r5 at o2
      obtain ⟨res5, s5⟩ := r5
      cases res5 with
      | error er => exact Or.inl rfl
      | ok u =>
        simp only at o2 ⊢
        have o3 := levelLoop_opt (env := env) (c := c) d (levels c.shape) s5
        rw [o2] at o3
        rcases levelLoop_limit (env := env) h d (levels c.shape) s5 with e | ⟨h1, h2, h3⟩
        · rw [e]; exact Or.inl rfl
        · right
          generalize levelLoop env c d (levels c.shape) s5 = r6 at h1 h2 h3 o3
          obtain ⟨res6, s6⟩ := r6
          simp only at h1 h2 h3 o3
          subst h1
          simp only [h2, Bool.false_eq_true, if_false, if_true]
          refine ⟨trivial, trivial, o3, fun J hJ hj => ?_⟩
          have h4 := h3 J hJ hj
          generalize levelLoop env c' d (levels c.shape) s5 = r7 at h4
          obtain ⟨res7, s7⟩ := r7
          cases res7 with
          | error er => exact h4
          | ok b7 =>
            cases b7 with
            | true => exact h4
            | false =>
              simp only [Bool.false_eq_true, if_false]
              split <;> exact h4

/-- An iteration after which the loop continues does not set `mp_optimal_`. -/
theorem body_opt (s : St W D Col) (hb : (body env c s).1 = .ok true) : (body env c s).2.est.mpOptimal = s.est.mpOptimal := by
  revert hb
  simp only [body, now, St.set, call]
  generalize env.solveRmp (env.clock (env.clock s.world).2).2 = g
  obtain ⟨gr, gw⟩ := g
  cases gr with
  | error er => exact fun hb => nomatch hb
  | ok d =>
    simp only
    generalize env.improved (env.clock gw).2 = g2
    obtain ⟨gr2, gw2⟩ := g2
    cases gr2 with
    | error er => exact fun hb => nomatch hb
    | ok b =>
      simp only
      generalize hst : ({ est := _, world := gw2, trace := _ } : St W D Col) = st
      have o1 : st.est.mpOptimal = s.est.mpOptimal := by subst hst; rfl
      have o2 := updateLoop_opt (env := env) d (positions c.shape) (resetTimer env st)
      rw [resetTimer_opt, o1] at o2
      generalize updateLoop env d (positions c.shape) (resetTimer env st) = r5 at o2
      obtain ⟨res5, s5⟩ := r5
      cases res5 with
      | error er => exact fun hb => nomatch hb
      | ok u =>
        simp only at o2 ⊢
        have o3 := levelLoop_opt (env := env) (c := c) d (levels c.shape) s5
        rw [o2] at o3
        generalize levelLoop env c d (levels c.shape) s5 = r6 at o3
        obtain ⟨res6, s6⟩ := r6
        cases res6 with
        | error er => exact fun hb => nomatch hb
        | ok b6 =>
          cases b6 with
          | true => exact fun _ => o3
          | false => simp

/-! ## The loop and `fit` -/

/-- The tighter limits stopped the loop in the state `s1`. -/
def StoppedBy (c : Config) (s1 : St W D Col) : Prop :=
  s1.est.mpOptimal = false ∧ (s1.est.timeLimitReached = true ∨ (0 < c.maxIterations ∧ (s1.est.iter : ℤ) ≥ c.maxIterations))

theorem loop_limit (h : Looser c c') : ∀ (n : ℕ) (s : St W D Col) (r' : Except Err Unit × St W D Col), s.est.mpOptimal = false →
    loop env c' n s = some r' → ∃ r, loop env c n s = some r ∧ (r' = r ∨
      (r.1 = .ok () ∧ StoppedBy c r.2 ∧ Later env r.2.world r.2.trace r'.2)) := by
  intro n
  induction n with
  | zero => intro s r' _ hr; cases hr
  | succ n ih =>
    intro s r' ho hr
    simp only [loop] at hr ⊢
    by_cases h1 : c.maxIterations > 0 ∧ (s.est.iter : ℤ) ≥ c.maxIterations
    · refine ⟨(.ok (), s), if_pos h1, Or.inr ⟨rfl, ⟨ho, Or.inr h1⟩, fun J hJ hj => ?_⟩⟩
      exact hJ.loop c' (n + 1) s hj r' (by simp only [loop]; exact hr)
    · have h2 : ¬ (c'.maxIterations > 0 ∧ (s.est.iter : ℤ) ≥ c'.maxIterations) := by
        rintro ⟨a1, a2⟩
        rcases h.iterations with b1 | ⟨b1, b2⟩
        · exact absurd a1 (not_lt.2 b1)
        · exact h1 ⟨b1, le_trans b2 a2⟩
      rw [if_neg h2] at hr
      rw [if_neg h1]
      rcases body_limit (env := env) h s with e | ⟨b1, b2, b3, b4⟩
      · rw [e] at hr
        have o1 := body_opt (env := env) (c := c) s
        generalize body env c s = g at hr o1
        obtain ⟨res, s'⟩ := g
        cases res with
        | error er => exact ⟨_, rfl, Or.inl (Option.some.inj hr).symm⟩
        | ok b =>
          cases b with
          | true => exact ih s' r' ((o1 rfl).trans ho) hr
          | false => exact ⟨_, rfl, Or.inl (Option.some.inj hr).symm⟩
      · generalize body env c s = g at b1 b2 b3 b4
        obtain ⟨res, s1⟩ := g
        simp only at b1 b2 b3 b4
        subst b1
        refine ⟨(.ok (), s1), rfl, Or.inr ⟨rfl, ⟨b3.trans ho, Or.inl b2⟩, fun J hJ hj => ?_⟩⟩
        have h4 := b4 J hJ hj
        generalize body env c' s = g' at h4 hr
        obtain ⟨res', s1'⟩ := g'
        cases res' with
        | error er => cases hr; exact h4
        | ok b =>
          cases b with
          | true => exact hJ.loop c' n s1' h4 r' hr
          | false => cases hr; exact h4

/-- A run that its limits did not stop is the same under looser limits. -/
theorem loop_same (h : Looser c c') : ∀ (n : ℕ) (s : St W D Col) (r : Except Err Unit × St W D Col), s.est.mpOptimal = false →
    loop env c n s = some r → loop env c' n s = some r ∨ (r.1 = .ok () ∧ StoppedBy c r.2) := by
  intro n
  induction n with
  | zero => intro s r _ hr; cases hr
  | succ n ih =>
    intro s r ho hr
    simp only [loop] at hr ⊢
    by_cases h1 : c.maxIterations > 0 ∧ (s.est.iter : ℤ) ≥ c.maxIterations
    · rw [if_pos h1] at hr
      cases hr
      exact Or.inr ⟨rfl, ho, Or.inr h1⟩
    · have h2 : ¬ (c'.maxIterations > 0 ∧ (s.est.iter : ℤ) ≥ c'.maxIterations) := by
        rintro ⟨a1, a2⟩
        rcases h.iterations with b1 | ⟨b1, b2⟩
        · exact absurd a1 (not_lt.2 b1)
        · exact h1 ⟨b1, le_trans b2 a2⟩
      rw [if_neg h1] at hr
      rw [if_neg h2]
      rcases body_limit (env := env) h s with e | ⟨b1, b2, b3, -⟩
      · rw [e]
        have o1 := body_opt (env := env) (c := c) s
        generalize body env c s = g at hr o1
        obtain ⟨res, s'⟩ := g
        cases res with
        | error er => exact Or.inl hr
        | ok b =>
          cases b with
          | true => exact ih s' r ((o1 rfl).trans ho) hr
          | false => exact Or.inl hr
      · generalize body env c s = g at b1 b2 b3 hr
        obtain ⟨res, s1⟩ := g
        simp only at b1 b2 b3
        subst b1
        cases hr
        exact Or.inr ⟨rfl, b3.trans ho, Or.inl b2⟩

theorem finish_limit (h : Looser c c') (s : St W D Col) : finish env c' s = finish env c s := by
  unfold finish
  rw [h.ip]

theorem startSt_limit (h : Looser c c') (y : List ℤ) (e0 : Est) (w0 : W) : startSt env c' y e0 w0 = startSt env c y e0 w0 := by
  unfold startSt
  rw [h.shape]

/-- If the run with the looser limits ends, so does the other. Either both are the same, or the tighter limits stopped the loop and the run with the looser limits
arises by further calls from the state in which the other left the loop. -/
theorem fit_limit (h : Looser c c') {fuel : ℕ} {y : List ℤ} {e0 : Est} {w0 : W} {r' : Except Err Unit × St W D Col}
    (hr : fit env c' fuel y e0 w0 = some r') :
    ∃ r, fit env c fuel y e0 w0 = some r ∧ (r' = r ∨
      ∃ s1, r = finish env c s1 ∧ StoppedBy c s1 ∧ Later env s1.world s1.trace r'.2) := by
  rw [fit_eq] at hr ⊢
  rw [startSt_limit h] at hr
  by_cases hc : (Sk.uniqueLabels y).length ≤ 1
  · rw [if_pos hc] at hr ⊢
    exact ⟨_, rfl, Or.inl (Option.some.inj hr).symm⟩
  · rw [if_neg hc] at hr ⊢
    generalize (env.generateMp (Sk.transform (Sk.uniqueLabels y) y) (env.clock w0).2).1 = g at hr ⊢
    cases g with
    | error e => exact ⟨_, rfl, Or.inl (Option.some.inj hr).symm⟩
    | ok u =>
      simp only at hr ⊢
      cases hl : loop env c' fuel (startSt env c y e0 w0) with
      | none => rw [hl] at hr; cases hr
      | some r2 =>
        rw [hl] at hr
        obtain ⟨r, e1, e2⟩ := loop_limit (env := env) h fuel _ r2 rfl hl
        rw [e1]
        obtain ⟨res, s1⟩ := r
        obtain ⟨res2, s2⟩ := r2
        rcases e2 with e2 | ⟨a1, a2, a3⟩
        · cases e2
          cases res with
          | error e => exact ⟨_, rfl, Or.inl (Option.some.inj hr).symm⟩
          | ok u =>
            simp only [finish_limit h] at hr
            exact ⟨_, rfl, Or.inl (Option.some.inj hr).symm⟩
        · simp only at a1 a2 a3
          subst a1
          refine ⟨_, rfl, Or.inr ⟨s1, rfl, a2, fun J hJ hj => ?_⟩⟩
          have h4 := a3 J hJ hj
          cases res2 with
          | error e => cases hr; exact h4
          | ok u => cases hr; exact hJ.finish c' s2 h4

/-- What the clock and `solve_ip` keep is kept by the end of `fit`. -/
theorem finish_keeps {Q : W → Prop} (hclock : ∀ w, Q w → Q (env.clock w).2) (hip : ∀ w, Q w → Q (env.solveIp w).2) {s : St W D Col} (h : Q s.world) :
    Q (finish env c s).2.world := by
  unfold finish
  simp only [now, St.set, call]
  split
  · have h1 := hip _ (hclock _ h)
    generalize env.solveIp (env.clock s.world).2 = g at h1
    obtain ⟨gr, gw⟩ := g
    cases gr with
    | error er => exact h1
    | ok b =>
      cases b with
      | true => exact hclock _ (hclock _ h1)
      | false => exact hclock _ h1
  · exact hclock _ h

/-- The end of `fit` keeps the attributes that report the stop reason. -/
theorem finish_stopped {s : St W D Col} (h : StoppedBy c s) : StoppedBy c (finish env c s).2 := by
  unfold finish
  simp only [now, St.set, call]
  split
  · generalize env.solveIp (env.clock s.world).2 = g
    obtain ⟨gr, gw⟩ := g
    cases gr with
    | error er => exact h
    | ok b =>
      cases b with
      | true => exact h
      | false => exact h
  · exact h

theorem fit_same (h : Looser c c') {fuel : ℕ} {y : List ℤ} {e0 : Est} {w0 : W} {r : Except Err Unit × St W D Col}
    (hr : fit env c fuel y e0 w0 = some r) : fit env c' fuel y e0 w0 = some r ∨ StoppedBy c r.2 := by
  rw [fit_eq] at hr ⊢
  rw [startSt_limit h]
  by_cases hc : (Sk.uniqueLabels y).length ≤ 1
  · rw [if_pos hc] at hr ⊢
    exact Or.inl hr
  · rw [if_neg hc] at hr ⊢
    generalize (env.generateMp (Sk.transform (Sk.uniqueLabels y) y) (env.clock w0).2).1 = g at hr ⊢
    cases g with
    | error e => exact Or.inl hr
    | ok u =>
      simp only at hr ⊢
      cases hl : loop env c fuel (startSt env c y e0 w0) with
      | none => rw [hl] at hr; cases hr
      | some r2 =>
        rw [hl] at hr
        obtain ⟨res2, s2⟩ := r2
        rcases loop_same (env := env) h fuel _ _ rfl hl with e | ⟨e1, e2⟩
        · rw [e]
          cases res2 with
          | error e => exact Or.inl hr
          | ok u => simp only [finish_limit h]; exact Or.inl hr
        · simp only at e1
          subst e1
          cases hr
          exact Or.inr (finish_stopped e2)

end Verif.Fit
