import Verif.Fit.Lemmas

/-!
# World invariants through `fit`

A relation between world and trace that every single call preserves holds after every run.
-/

set_option linter.unusedSectionVars false

namespace Verif.Fit

open Spec

variable {W D Col : Type}

/-- `J` is preserved by every call `fit` can make. -/
structure Preserved (env : Env W D Col) (J : W → List (Ev D Col) → Prop) : Prop where
  clock : ∀ w tr, J w tr → J (env.clock w).2 tr
  timer : ∀ w tr t, J w tr → J w (tr ++ [.timer t])
  check : ∀ w tr s t, J w tr → J w (tr ++ [.check s t])
  flag : ∀ w tr, J w tr → J w (tr ++ [.resetFlag (env.resetFlag w)])
  clear : ∀ w tr, J w tr → J (env.clearReset w) tr
  generateMp : ∀ w tr y, J w tr → J (env.generateMp y w).2 (tr ++ [.generateMp y (env.generateMp y w).1])
  solveRmp : ∀ w tr, J w tr → J (env.solveRmp w).2 (tr ++ [.solveRmp (env.solveRmp w).1])
  improved : ∀ w tr, J w tr → J (env.improved w).2 (tr ++ [.improved (env.improved w).1])
  update : ∀ w tr l i d, J w tr → J (env.update l i d w).2 (tr ++ [.update l i d (env.update l i d w).1])
  generate : ∀ w tr l i d, J w tr → J (env.generate l i d w).2 (tr ++ [.generate l i d (env.generate l i d w).1])
  add : ∀ w tr l i c, J w tr → J (env.addColumn c w).2 (tr ++ [.add l i c (env.addColumn c w).1])
  solveIp : ∀ w tr, J w tr → J (env.solveIp w).2 (tr ++ [.solveIp (env.solveIp w).1])

variable {env : Env W D Col} {J : W → List (Ev D Col) → Prop}

theorem Preserved.addCols (hJ : Preserved env J) (l i : ℕ) (cs : List Col) : ∀ (upd : Bool) (s : St W D Col),
    J s.world s.trace → J (addCols env l i cs upd s).2.world (addCols env l i cs upd s).2.trace := by
  induction cs with
  | nil => intro upd s h; exact h
  | cons c cs ih =>
    intro upd s h
    simp only [Fit.addCols, call]
    have hadd := hJ.add s.world s.trace l i c h
    generalize env.addColumn c s.world = g at hadd
    obtain ⟨gr, gw⟩ := g
    cases gr with
    | error er => exact hadd
    | ok b => exact ih _ _ hadd

theorem Preserved.spLoop (hJ : Preserved env J) (cfg : Config) (d : D) (l : ℕ) (is : List ℕ) : ∀ (s : St W D Col),
    J s.world s.trace → J (spLoop env cfg d l is s).2.world (spLoop env cfg d l is s).2.trace := by
  induction is with
  | nil => intro s h; exact h
  | cons i is ih =>
    intro s h
    simp only [Fit.spLoop, now, St.set, St.log, call]
    have h1 := hJ.check _ _ s.est.tStart (env.clock s.world).1 (hJ.clock _ _ h)
    set P : Except Err Bool × St W D Col → Prop := fun r => J r.2.world r.2.trace with hP
    change P (if (decide (cfg.timeLimit > 0) &&
      decide ((env.clock s.world).1 - s.est.tStart > cfg.timeLimit)) = true then _ else _)
    split
    · exact h1
    · have h2 := hJ.generate _ _ l i d (hJ.clock _ _ h1)
      generalize env.generate l i d (env.clock (env.clock s.world).2).2 = g at h2
      obtain ⟨gr, gw⟩ := g
      cases gr with
      | error er => exact h2
      | ok cols =>
        simp only
        generalize hst : ({ est := _, world := _, trace := _ } : St W D Col) = st
        have h3 : J st.world st.trace := by
          subst hst
          exact hJ.clock _ _ (hJ.clock _ _ h2)
        have h4 := hJ.addCols l i cols false st h3
        generalize Fit.addCols env l i cols false st = r at h4
        obtain ⟨res, s'⟩ := r
        cases res with
        | error er => exact h4
        | ok b =>
          cases b with
          | true => exact hJ.clock _ _ h4
          | false => exact ih _ (hJ.clock _ _ h4)

theorem Preserved.levelLoop (hJ : Preserved env J) (cfg : Config) (d : D) (ls : List (ℕ × ℕ)) : ∀ (s : St W D Col),
    J s.world s.trace → J (levelLoop env cfg d ls s).2.world (levelLoop env cfg d ls s).2.trace := by
  induction ls with
  | nil => intro s h; exact h
  | cons p ls ih =>
    obtain ⟨l, n⟩ := p
    intro s h
    simp only [Fit.levelLoop, now, St.set]
    have h1 := hJ.spLoop cfg d l (List.range n) s h
    generalize Fit.spLoop env cfg d l (List.range n) s = r at h1
    obtain ⟨res, s'⟩ := r
    cases res with
    | error er => exact h1
    | ok b =>
      have h2 := hJ.clock _ _ h1
      simp only
      set P : Except Err Bool × St W D Col → Prop := fun r => J r.2.world r.2.trace with hP
      change P (if s'.est.timeLimitReached = true then _ else _)
      split
      · exact h2
      · cases b with
        | true => exact h2
        | false => exact ih _ h2

theorem Preserved.updateLoop (hJ : Preserved env J) (d : D) (ps : List (ℕ × ℕ)) : ∀ (s : St W D Col),
    J s.world s.trace → J (updateLoop env d ps s).2.world (updateLoop env d ps s).2.trace := by
  induction ps with
  | nil => intro s h; exact h
  | cons p ps ih =>
    obtain ⟨l, i⟩ := p
    intro s h
    simp only [Fit.updateLoop, now, call]
    have h1 := hJ.update _ _ l i d (hJ.clock _ _ h)
    generalize env.update l i d (env.clock s.world).2 = g at h1
    obtain ⟨gr, gw⟩ := g
    cases gr with
    | error er => exact h1
    | ok u => exact ih _ (hJ.clock _ _ h1)

theorem Preserved.resetTimer (hJ : Preserved env J) (s : St W D Col) (h : J s.world s.trace) :
    J (resetTimer env s).world (resetTimer env s).trace := by
  have h1 := hJ.flag _ _ h
  unfold Fit.resetTimer
  simp only [St.log, now, St.set]
  split
  · exact hJ.clear _ _ (hJ.timer _ _ _ (hJ.clock _ _ h1))
  · exact h1

theorem Preserved.body (hJ : Preserved env J) (cfg : Config) (s : St W D Col) (h : J s.world s.trace) :
    J (body env cfg s).2.world (body env cfg s).2.trace := by
  simp only [Fit.body, now, St.set, call]
  have h1 := hJ.solveRmp _ _ (hJ.clock _ _ (hJ.clock _ _ h))
  generalize env.solveRmp (env.clock (env.clock s.world).2).2 = g at h1
  obtain ⟨gr, gw⟩ := g
  cases gr with
  | error er => exact h1
  | ok d =>
    simp only
    have h2 := hJ.improved _ _ (hJ.clock _ _ h1)
    generalize env.improved (env.clock gw).2 = g2 at h2
    obtain ⟨gr2, gw2⟩ := g2
    cases gr2 with
    | error er => exact h2
    | ok b =>
      simp only
      generalize hst : ({ est := _, world := gw2, trace := _ } : St W D Col) = st
      have h3 : J st.world st.trace := by subst hst; exact h2
      have h4 := hJ.resetTimer st h3
      have h5 := hJ.updateLoop d (positions cfg.shape) _ h4
      generalize Fit.updateLoop env d (positions cfg.shape) (Fit.resetTimer env st) = r5 at h5
      obtain ⟨res5, s5⟩ := r5
      cases res5 with
      | error er => exact h5
      | ok u =>
        have h6 := hJ.levelLoop cfg d (levels cfg.shape) _ h5
        simp only
        generalize Fit.levelLoop env cfg d (levels cfg.shape) s5 = r6 at h6
        obtain ⟨res6, s6⟩ := r6
        cases res6 with
        | error er => exact h6
        | ok b6 =>
          cases b6 with
          | true => exact h6
          | false =>
            simp only [Bool.false_eq_true, if_false]
            split
            · exact h6
            · exact h6

theorem Preserved.loop (hJ : Preserved env J) (cfg : Config) : ∀ (n : ℕ) (s : St W D Col), J s.world s.trace →
    ∀ r, loop env cfg n s = some r → J r.2.world r.2.trace := by
  intro n
  induction n with
  | zero => intro s _ r hr; simp [Fit.loop] at hr
  | succ n ih =>
    intro s h r hr
    simp only [Fit.loop] at hr
    split at hr
    · cases hr; exact h
    · have hb := hJ.body cfg s h
      generalize Fit.body env cfg s = g at hb hr
      obtain ⟨res, s'⟩ := g
      cases res with
      | error er => cases hr; exact hb
      | ok b =>
        cases b with
        | true => exact ih s' hb r hr
        | false => cases hr; exact hb

theorem Preserved.finish (hJ : Preserved env J) (cfg : Config) (s : St W D Col) (h : J s.world s.trace) :
    J (finish env cfg s).2.world (finish env cfg s).2.trace := by
  simp only [Fit.finish, now, St.set, call]
  split
  · have h1 := hJ.solveIp _ _ (hJ.clock _ _ h)
    generalize env.solveIp (env.clock s.world).2 = g at h1
    obtain ⟨gr, gw⟩ := g
    cases gr with
    | error er => exact h1
    | ok b =>
      cases b with
      | true => exact hJ.clock _ _ (hJ.clock _ _ h1)
      | false => exact hJ.clock _ _ h1
  · exact hJ.clock _ _ h

/-- The state in which the loop starts. -/
def startSt (env : Env W D Col) (cfg : Config) (y : List ℤ) (e0 : Est) (w0 : W) : St W D Col :=
  let py := Sk.transform (Sk.uniqueLabels y) y
  { est := initEst cfg.shape { e0 with
      tStart := (env.clock w0).1
      classes := Sk.uniqueLabels y }
    world := (env.generateMp py (env.clock w0).2).2
    trace := [.timer (env.clock w0).1, .generateMp py (env.generateMp py (env.clock w0).2).1] }

/-- `fit` unfolded once. -/
theorem fit_eq (env : Env W D Col) (cfg : Config) (fuel : ℕ) (y : List ℤ) (e0 : Est) (w0 : W) :
    fit env cfg fuel y e0 w0 =
      if (Sk.uniqueLabels y).length ≤ 1 then
        some (.error .valueError, ⟨{ e0 with tStart := (env.clock w0).1, classes := Sk.uniqueLabels y },
          (env.clock w0).2, [.timer (env.clock w0).1]⟩)
      else
        match (env.generateMp (Sk.transform (Sk.uniqueLabels y) y) (env.clock w0).2).1 with
        | .error e => some (.error e, ⟨{ e0 with tStart := (env.clock w0).1, classes := Sk.uniqueLabels y },
            (startSt env cfg y e0 w0).world, (startSt env cfg y e0 w0).trace⟩)
        | .ok _ =>
          match loop env cfg fuel (startSt env cfg y e0 w0) with
          | none => none
          | some (.error e, s) => some (.error e, s)
          | some (.ok _, s) => some (finish env cfg s) := by
  by_cases hc : (Sk.uniqueLabels y).length ≤ 1
  · rw [if_pos hc]
    unfold Fit.fit
    exact if_pos hc
  · rw [if_neg hc]
    unfold Fit.fit
    refine (if_neg hc).trans ?_
    simp only [call, now, St.set, St.log, startSt]
    cases (env.generateMp (Sk.transform (Sk.uniqueLabels y) y) (env.clock w0).2).1 <;> rfl

/-- **Invariant principle.** -/
theorem Preserved.fit (hJ : Preserved env J) (cfg : Config) (fuel : ℕ) (y : List ℤ) (e0 : Est) (w0 : W)
    (h0 : J w0 []) : ∀ r, fit env cfg fuel y e0 w0 = some r → J r.2.world r.2.trace := by
  intro r hr
  rw [fit_eq] at hr
  have h1 := hJ.timer _ _ (env.clock w0).1 (hJ.clock _ _ h0)
  have h2 := hJ.generateMp _ _ (Sk.transform (Sk.uniqueLabels y) y) h1
  have h3 : J (startSt env cfg y e0 w0).world (startSt env cfg y e0 w0).trace := h2
  by_cases hc : (Sk.uniqueLabels y).length ≤ 1
  · rw [if_pos hc] at hr
    cases hr; exact h1
  · rw [if_neg hc] at hr
    split at hr
    · cases hr; exact h3
    · cases hl : Fit.loop env cfg fuel (startSt env cfg y e0 w0) with
      | none => rw [hl] at hr; simp at hr
      | some r2 =>
        rw [hl] at hr
        have h4 := hJ.loop cfg fuel _ h3 r2 hl
        obtain ⟨res, s2⟩ := r2
        cases res with
        | error er => cases hr; exact h4
        | ok u =>
          cases hr
          exact hJ.finish cfg s2 h4

end Verif.Fit
