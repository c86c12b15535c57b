import Verif.Fit.CountLemmas
import Verif.Fit.Guided

/-!
# C01 for runs that raise: the iteration limit bounds the calls of `solve_rmp` whatever happens
-/

set_option linter.unusedSectionVars false
set_option linter.unusedSimpArgs false

namespace Verif.Fit

open Spec

variable {W D Col : Type} {env : Env W D Col} {cfg : Config} {fuel : ℕ} {y : List ℤ} {e0 : Est} {w0 : W}
  {r : Except Err Unit × St W D Col} {s : St W D Col} {k : ℕ}

/-- `iter_` and the number of calls of `solve_rmp` are `k`. -/
def Rd (k : ℕ) (s : St W D Col) : Prop := s.est.iter = k ∧ numRmp s.trace = k

theorem Rd.of {s s' : St W D Col} (h : Rd k s) (h1 : s'.est.iter = s.est.iter) {ev : Ev D Col}
    (h2 : s'.trace = s.trace ++ [ev]) (h3 : isRmp ev = false) : Rd k s' :=
  ⟨h1.trans h.1, by rw [h2, numRmp_snoc, h3, h.2]; simp⟩

theorem Rd.keep {s s' : St W D Col} (h : Rd k s) (h1 : s'.est.iter = s.est.iter) (h2 : s'.trace = s.trace) : Rd k s' :=
  ⟨h1.trans h.1, by rw [h2, h.2]⟩

theorem rd_addCols (l i : ℕ) (cs : List Col) : ∀ (upd : Bool) (s : St W D Col), Rd k s → Rd k (addCols env l i cs upd s).2 := by
  induction cs with
  | nil => intro upd s h; exact h
  | cons c cs ih =>
    intro upd s h
    simp only [addCols, call]
    generalize env.addColumn c s.world = g
    obtain ⟨gr, gw⟩ := g
    cases gr with
    | error er => exact h.of rfl rfl rfl
    | ok b =>
      simp only
      apply ih
      exact h.of rfl rfl rfl

theorem rd_spLoop (d : D) (l : ℕ) (is : List ℕ) : ∀ (s : St W D Col), Rd k s → Rd k (spLoop env cfg d l is s).2 := by
  induction is with
  | nil => intro s h; exact h
  | cons i is ih =>
    intro s h
    simp only [spLoop, now, St.set, St.log, call]
    set P : Except Err Bool × St W D Col → Prop := fun r => Rd k r.2 with hP
    change P (if (decide (cfg.timeLimit > 0) &&
      decide ((env.clock s.world).1 - s.est.tStart > cfg.timeLimit)) = true then _ else _)
    split
    · exact h.of rfl rfl rfl
    · generalize env.generate l i d (env.clock (env.clock s.world).2).2 = g
      obtain ⟨gr, gw⟩ := g
      have h1 : Rd k (⟨s.est, gw, s.trace ++ [Ev.check s.est.tStart (env.clock s.world).1] ++ [Ev.generate l i d gr]⟩ :
          St W D Col) := by
        refine Rd.of (s := ⟨s.est, gw, s.trace ++ [Ev.check s.est.tStart (env.clock s.world).1]⟩) ?_ rfl rfl rfl
        exact h.of rfl rfl rfl
      cases gr with
      | error er => exact h1.keep rfl rfl
      | ok cols =>
        simp only
        generalize hst : ({ est := _, world := _, trace := _ } : St W D Col) = st
        have h2 : Rd k st := by subst hst; exact h1.keep rfl rfl
        have h3 := rd_addCols (env := env) l i cols false st h2
        generalize addCols env l i cols false st = r at h3
        obtain ⟨res, s'⟩ := r
        cases res with
        | error er => exact h3
        | ok b =>
          cases b with
          | true => exact h3.keep rfl rfl
          | false => exact ih _ (h3.keep rfl rfl)

theorem rd_levelLoop (d : D) (ls : List (ℕ × ℕ)) : ∀ (s : St W D Col), Rd k s → Rd k (levelLoop env cfg d ls s).2 := by
  induction ls with
  | nil => intro s h; exact h
  | cons p ls ih =>
    obtain ⟨l, n⟩ := p
    intro s h
    simp only [levelLoop, now, St.set]
    have h1 := rd_spLoop (env := env) (cfg := cfg) d l (List.range n) s h
    generalize spLoop env cfg d l (List.range n) s = r at h1
    obtain ⟨res, s'⟩ := r
    cases res with
    | error er => exact h1
    | ok b =>
      simp only
      set P : Except Err Bool × St W D Col → Prop := fun r => Rd k r.2 with hP
      change P (if s'.est.timeLimitReached = true then _ else _)
      split
      · exact h1.keep rfl rfl
      · cases b with
        | true => exact h1.keep rfl rfl
        | false => exact ih _ (h1.keep rfl rfl)

theorem rd_updateLoop (d : D) (ps : List (ℕ × ℕ)) : ∀ (s : St W D Col), Rd k s → Rd k (updateLoop env d ps s).2 := by
  induction ps with
  | nil => intro s h; exact h
  | cons p ps ih =>
    obtain ⟨l, i⟩ := p
    intro s h
    simp only [updateLoop, now, call]
    generalize env.update l i d (env.clock s.world).2 = g
    obtain ⟨gr, gw⟩ := g
    cases gr with
    | error er => exact h.of rfl rfl rfl
    | ok u => exact ih _ (h.of rfl rfl rfl)

theorem rd_resetTimer (s : St W D Col) (h : Rd k s) : Rd k (resetTimer env s) := by
  unfold resetTimer
  simp only [St.log, now, St.set]
  have h1 : Rd k (⟨s.est, s.world, s.trace ++ [Ev.resetFlag (env.resetFlag s.world)]⟩ : St W D Col) := h.of rfl rfl rfl
  split
  · exact Rd.of h1 rfl rfl rfl
  · exact h1

theorem rd_body (s : St W D Col) (h : Rd k s) : Rd (k + 1) (body env cfg s).2 := by
  simp only [body, now, St.set, call]
  generalize env.solveRmp (env.clock (env.clock s.world).2).2 = g
  obtain ⟨gr, gw⟩ := g
  have h1 : Rd (k + 1) (⟨{ s.est with iter := s.est.iter + 1 }, gw, s.trace ++ [Ev.solveRmp gr]⟩ : St W D Col) :=
    ⟨by show s.est.iter + 1 = k + 1; rw [h.1], by show numRmp (s.trace ++ [_]) = k + 1; rw [numRmp_snoc, h.2]; rfl⟩
  cases gr with
  | error er => exact h1.keep rfl rfl
  | ok d =>
    simp only
    generalize env.improved (env.clock gw).2 = g2
    obtain ⟨gr2, gw2⟩ := g2
    cases gr2 with
    | error er => exact h1.of rfl rfl rfl
    | ok b =>
      simp only
      generalize hst : ({ est := _, world := gw2, trace := _ } : St W D Col) = st
      have h3 : Rd (k + 1) st := by
        subst hst
        exact h1.of rfl rfl rfl
      have h4 := rd_resetTimer (env := env) st h3
      have h5 := rd_updateLoop (env := env) d (positions cfg.shape) _ h4
      generalize updateLoop env d (positions cfg.shape) (resetTimer env st) = r5 at h5
      obtain ⟨res5, s5⟩ := r5
      cases res5 with
      | error er => exact h5
      | ok u =>
        have h6 := rd_levelLoop (env := env) (cfg := cfg) d (levels cfg.shape) _ h5
        simp only
        generalize levelLoop env cfg d (levels cfg.shape) s5 = r6 at h6
        obtain ⟨res6, s6⟩ := r6
        cases res6 with
        | error er => exact h6
        | ok b6 =>
          cases b6 with
          | true => exact h6
          | false =>
            simp only [Bool.false_eq_true, if_false]
            split
            · exact h6
            · exact h6.keep rfl rfl

theorem rd_loop : ∀ (n k : ℕ) (s : St W D Col), Rd k s → (cfg.maxIterations > 0 → (k : ℤ) ≤ cfg.maxIterations) → ∀ r, loop env cfg n s = some r →
    ∃ k', Rd k' r.2 ∧ (cfg.maxIterations > 0 → (k' : ℤ) ≤ cfg.maxIterations) := by
  intro n
  induction n with
  | zero => intro k s _ _ r hr; simp [loop] at hr
  | succ n ih =>
    intro k s h hk r hr
    simp only [loop] at hr
    split at hr
    · cases hr; exact ⟨k, h, hk⟩
    · rename_i hlim
      have hk' : cfg.maxIterations > 0 → ((k + 1 : ℕ) : ℤ) ≤ cfg.maxIterations := by
        intro hm
        by_contra h0
        refine hlim ⟨hm, ?_⟩
        rw [h.1]
        push_cast at h0
        omega
      have hb := rd_body (env := env) (cfg := cfg) s h
      generalize body env cfg s = g at hb hr
      obtain ⟨res, s'⟩ := g
      cases res with
      | error er => cases hr; exact ⟨_, hb, hk'⟩
      | ok b =>
        cases b with
        | true => exact ih (k + 1) s' hb hk' r hr
        | false => cases hr; exact ⟨_, hb, hk'⟩

theorem rd_finish (s : St W D Col) (h : Rd k s) : Rd k (finish env cfg s).2 := by
  unfold finish
  simp only [St.set, now, call]
  split
  · generalize env.solveIp (env.clock s.world).2 = g
    obtain ⟨gr, gw⟩ := g
    cases gr with
    | error er => exact h.of rfl rfl rfl
    | ok b =>
      cases b with
      | true => exact h.of rfl rfl rfl
      | false => exact h.of rfl rfl rfl
  · exact h.keep rfl rfl

/-- **C01, whatever happens.** However `fit` ends, with a return or with any exception of any call, `solve_rmp` was called at most `max_iterations`
times if that is positive. -/
theorem C01_limit_always (hr : fit env cfg fuel y e0 w0 = some r) (hm : cfg.maxIterations > 0) : (numRmp r.2.trace : ℤ) ≤ cfg.maxIterations := by
  have hz : (0 : ℤ) ≤ cfg.maxIterations := by omega
  simp only [fit, now, St.set, St.log, call] at hr
  by_cases hc : (Sk.uniqueLabels y).length ≤ 1
  · replace hr := (if_pos hc).symm.trans hr
    cases hr
    simpa [numRmp, isRmp] using hz
  · replace hr := (if_neg hc).symm.trans hr
    generalize env.generateMp (Sk.transform (Sk.uniqueLabels y) y) (env.clock w0).2 = g at hr
    obtain ⟨gr, gw⟩ := g
    cases gr with
    | error er =>
      cases hr
      simpa [numRmp, isRmp] using hz
    | ok u =>
      simp only at hr
      generalize hs : ({ est := _, world := _, trace := _ } : St W D Col) = s0 at hr
      have h0 : Rd 0 s0 := by
        subst hs
        exact ⟨rfl, by simp [numRmp, isRmp]⟩
      cases hl : loop env cfg fuel s0 with
      | none => rw [hl] at hr; cases hr
      | some q =>
        obtain ⟨k', h1, h2⟩ := rd_loop fuel 0 s0 h0 (fun _ => by simpa using hz) q hl
        rw [hl] at hr
        obtain ⟨res, s1⟩ := q
        cases res with
        | error er =>
          cases hr
          rw [h1.2]
          exact h2 hm
        | ok _ =>
          cases hr
          rw [(rd_finish (env := env) (cfg := cfg) s1 h1).2]
          exact h2 hm

end Verif.Fit
