import Verif.Fit.Props

/-!
# Lemmas for C63 - C65: `since` over appends, the improving counter through the loop
-/

set_option linter.unusedSectionVars false
set_option linter.unusedSimpArgs false

namespace Verif.Fit

open Spec

variable {W D Col : Type} {env : Env W D Col} {cfg : Config} {fuel : ℕ} {y : List ℤ} {e0 : Est} {w0 : W}
  {r : Except Err Unit × St W D Col} {s : St W D Col} {u : Unit}

theorem since_append_of_none {p : Ev D Col → Bool} (pre mid : List (Ev D Col)) (hm : ∀ e ∈ mid, p e = false) :
    since p (pre ++ mid) = since p pre ++ mid := by
  induction mid using List.reverseRecOn with
  | nil => simp
  | append_singleton mid e ih =>
    have he : p e = false := hm e (by simp)
    rw [← List.append_assoc, since_snoc, he, ih (fun e' h' => hm e' (by simp [h']))]
    simp

theorem since_append_of_mem {p : Ev D Col → Bool} (pre mid : List (Ev D Col)) (x : Ev D Col) (hx : p x = true)
    (hm : ∀ e ∈ mid, p e = false) : since p (pre ++ x :: mid) = mid := by
  rw [show pre ++ x :: mid = (pre ++ [x]) ++ mid by simp, since_append_of_none _ _ hm, since_snoc, hx]
  simp

/-! ## C63 -/

/-- The counter agrees with the trace. -/
def Imp (s : St W D Col) : Prop := s.est.numImproving = s.trace.countP isImp ∧ s.trace.countP isImp ≤ numRmp s.trace

theorem numRmp_append (a b : List (Ev D Col)) : numRmp (a ++ b) = numRmp a + numRmp b := by
  simp [numRmp]

theorem Imp.of {s s' : St W D Col} (h : Imp s) (h1 : s'.est.numImproving = s.est.numImproving) {ev : Ev D Col}
    (h2 : s'.trace = s.trace ++ [ev]) (h3 : isImp ev = false) : Imp s' := by
  unfold Imp at *
  rw [h1, h2, List.countP_append, h.1, numRmp_append]
  refine ⟨by simp [h3], ?_⟩
  simp only [List.countP_singleton, h3, Bool.false_eq_true, if_false]
  omega

theorem Imp.keep {s s' : St W D Col} (h : Imp s) (h1 : s'.est.numImproving = s.est.numImproving) (h2 : s'.trace = s.trace) :
    Imp s' := by
  unfold Imp at *
  rw [h1, h2]
  exact h

theorem imp_addCols (l i : ℕ) (cs : List Col) : ∀ (upd : Bool) (s : St W D Col), Imp s → Imp (addCols env l i cs upd s).2 := by
  induction cs with
  | nil => intro upd s h; exact h
  | cons c cs ih =>
    intro upd s h
    simp only [addCols, call]
    generalize env.addColumn c s.world = g
    obtain ⟨gr, gw⟩ := g
    cases gr with
    | error er => exact h.of rfl rfl rfl
    | ok b =>
      simp only
      apply ih
      exact h.of rfl rfl rfl

theorem imp_spLoop (d : D) (l : ℕ) (is : List ℕ) : ∀ (s : St W D Col), Imp s → Imp (spLoop env cfg d l is s).2 := by
  induction is with
  | nil => intro s h; exact h
  | cons i is ih =>
    intro s h
    simp only [spLoop, now, St.set, St.log, call]
    set P : Except Err Bool × St W D Col → Prop := fun r => Imp r.2 with hP
    change P (if (decide (cfg.timeLimit > 0) &&
      decide ((env.clock s.world).1 - s.est.tStart > cfg.timeLimit)) = true then _ else _)
    split
    · exact h.of rfl rfl rfl
    · generalize env.generate l i d (env.clock (env.clock s.world).2).2 = g
      obtain ⟨gr, gw⟩ := g
      have h1 : Imp (⟨s.est, gw, s.trace ++ [Ev.check s.est.tStart (env.clock s.world).1] ++ [Ev.generate l i d gr]⟩ :
          St W D Col) := by
        refine Imp.of (s := ⟨s.est, gw, s.trace ++ [Ev.check s.est.tStart (env.clock s.world).1]⟩) ?_ rfl rfl rfl
        exact h.of rfl rfl rfl
      cases gr with
      | error er => exact h1.keep rfl rfl
      | ok cols =>
        simp only
        generalize hst : ({ est := _, world := _, trace := _ } : St W D Col) = st
        have h2 : Imp st := by subst hst; exact h1.keep rfl rfl
        have h3 := imp_addCols (env := env) l i cols false st h2
        generalize addCols env l i cols false st = r at h3
        obtain ⟨res, s'⟩ := r
        cases res with
        | error er => exact h3
        | ok b =>
          cases b with
          | true => exact h3.keep rfl rfl
          | false => exact ih _ (h3.keep rfl rfl)

theorem imp_levelLoop (d : D) (ls : List (ℕ × ℕ)) : ∀ (s : St W D Col), Imp s → Imp (levelLoop env cfg d ls s).2 := by
  induction ls with
  | nil => intro s h; exact h
  | cons p ls ih =>
    obtain ⟨l, n⟩ := p
    intro s h
    simp only [levelLoop, now, St.set]
    have h1 := imp_spLoop (env := env) (cfg := cfg) d l (List.range n) s h
    generalize spLoop env cfg d l (List.range n) s = r at h1
    obtain ⟨res, s'⟩ := r
    cases res with
    | error er => exact h1
    | ok b =>
      simp only
      set P : Except Err Bool × St W D Col → Prop := fun r => Imp r.2 with hP
      change P (if s'.est.timeLimitReached = true then _ else _)
      split
      · exact h1.keep rfl rfl
      · cases b with
        | true => exact h1.keep rfl rfl
        | false => exact ih _ (h1.keep rfl rfl)

theorem imp_updateLoop (d : D) (ps : List (ℕ × ℕ)) : ∀ (s : St W D Col), Imp s → Imp (updateLoop env d ps s).2 := by
  induction ps with
  | nil => intro s h; exact h
  | cons p ps ih =>
    obtain ⟨l, i⟩ := p
    intro s h
    simp only [updateLoop, now, call]
    generalize env.update l i d (env.clock s.world).2 = g
    obtain ⟨gr, gw⟩ := g
    cases gr with
    | error er => exact h.of rfl rfl rfl
    | ok u => exact ih _ (h.of rfl rfl rfl)

theorem imp_resetTimer (s : St W D Col) (h : Imp s) : Imp (resetTimer env s) := by
  unfold resetTimer
  simp only [St.log, now, St.set]
  have h1 : Imp (⟨s.est, s.world, s.trace ++ [Ev.resetFlag (env.resetFlag s.world)]⟩ : St W D Col) := h.of rfl rfl rfl
  split
  · exact Imp.of h1 rfl rfl rfl
  · exact h1

theorem imp_body (s : St W D Col) (h : Imp s) : Imp (body env cfg s).2 := by
  simp only [body, now, St.set, call]
  generalize env.solveRmp (env.clock (env.clock s.world).2).2 = g
  obtain ⟨gr, gw⟩ := g
  have h1 : Imp (⟨s.est, gw, s.trace ++ [Ev.solveRmp gr]⟩ : St W D Col) := h.of rfl rfl rfl
  cases gr with
  | error er => exact h1.keep rfl rfl
  | ok d =>
    simp only
    generalize env.improved (env.clock gw).2 = g2
    obtain ⟨gr2, gw2⟩ := g2
    cases gr2 with
    | error er => exact h1.of rfl rfl rfl
    | ok b =>
      simp only
      generalize hst : ({ est := _, world := gw2, trace := _ } : St W D Col) = st
      have h3 : Imp st := by
        subst hst
        unfold Imp at h1 ⊢
        simp only at h1 ⊢
        have h' := h
        unfold Imp at h'
        simp only [List.countP_append, numRmp_append] at h1 h' ⊢
        have e1 : List.countP isImp [Ev.solveRmp (Except.ok d) (D := D) (Col := Col)] = 0 := rfl
        have e2 : numRmp [Ev.solveRmp (Except.ok d) (D := D) (Col := Col)] = 1 := rfl
        have e3 : numRmp [Ev.improved (Except.ok b) (D := D) (Col := Col)] = 0 := rfl
        have e4 : List.countP isImp [Ev.improved (Except.ok b) (D := D) (Col := Col)] = if b then 1 else 0 := by
          cases b <;> rfl
        rw [e1, e2, e3, e4]
        cases b
        · simp only [Bool.false_eq_true, if_false]; omega
        · simp only [if_true]; omega
      have h4 := imp_resetTimer (env := env) st h3
      have h5 := imp_updateLoop (env := env) d (positions cfg.shape) _ h4
      generalize updateLoop env d (positions cfg.shape) (resetTimer env st) = r5 at h5
      obtain ⟨res5, s5⟩ := r5
      cases res5 with
      | error er => exact h5
      | ok u =>
        have h6 := imp_levelLoop (env := env) (cfg := cfg) d (levels cfg.shape) _ h5
        simp only
        generalize levelLoop env cfg d (levels cfg.shape) s5 = r6 at h6
        obtain ⟨res6, s6⟩ := r6
        cases res6 with
        | error er => exact h6
        | ok b6 =>
          cases b6 with
          | true => exact h6
          | false =>
            simp only [Bool.false_eq_true, if_false]
            split
            · exact h6
            · exact h6.keep rfl rfl

theorem imp_loop : ∀ (n : ℕ) (s : St W D Col), Imp s → ∀ r, loop env cfg n s = some r → Imp r.2 := by
  intro n
  induction n with
  | zero => intro s _ r hr; simp [loop] at hr
  | succ n ih =>
    intro s h r hr
    simp only [loop] at hr
    split at hr
    · cases hr; exact h
    · have hb := imp_body (env := env) (cfg := cfg) s h
      generalize body env cfg s = g at hb hr
      obtain ⟨res, s'⟩ := g
      cases res with
      | error er => cases hr; exact hb
      | ok b =>
        cases b with
        | true => exact ih s' hb r hr
        | false => cases hr; exact hb

theorem imp_finish {s' : St W D Col} (s1 : St W D Col) (h1 : Imp s1) {u : Unit} (h : finish env cfg s1 = (.ok u, s')) : Imp s' := by
  simp only [finish, now, St.set, call] at h
  cases hip : cfg.rmpIsIp with
  | false =>
    rw [hip] at h
    simp only [Bool.false_eq_true, if_false] at h
    cases h
    exact h1.keep rfl rfl
  | true =>
    rw [hip] at h
    simp only [if_true] at h
    generalize env.solveIp (env.clock s1.world).2 = g at h
    obtain ⟨gr, gw⟩ := g
    cases gr with
    | error er => cases h
    | ok b =>
      cases b with
      | true => cases h; exact h1.of rfl rfl rfl
      | false => cases h

end Verif.Fit
