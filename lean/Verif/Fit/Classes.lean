import Mathlib.Data.List.TakeWhile
import Verif.Fit.Trace

/-!
# `classes_` after `fit`, and the columns of the last round
-/

set_option linter.unusedSectionVars false
set_option linter.unusedSimpArgs false

namespace Verif.Fit

open Spec

variable {W D Col : Type} {env : Env W D Col} {cfg : Config} {fuel : ℕ} {y : List ℤ} {e0 : Est} {w0 : W}
  {r : Except Err Unit × St W D Col} {s : St W D Col} {u : Unit} {cl : List ℤ}

/-- `classes_` has the value `cl`. -/
def Cls (cl : List ℤ) (s : St W D Col) : Prop := s.est.classes = cl

theorem cls_addCols (l i : ℕ) (cs : List Col) : ∀ (upd : Bool) (s : St W D Col), Cls cl s → Cls cl (addCols env l i cs upd s).2 := by
  induction cs with
  | nil => intro upd s h; exact h
  | cons c cs ih =>
    intro upd s h
    simp only [addCols, call]
    generalize env.addColumn c s.world = g
    obtain ⟨gr, gw⟩ := g
    cases gr with
    | error er => exact h
    | ok b =>
      simp only
      apply ih
      exact h

theorem cls_spLoop (d : D) (l : ℕ) (is : List ℕ) : ∀ (s : St W D Col), Cls cl s → Cls cl (spLoop env cfg d l is s).2 := by
  induction is with
  | nil => intro s h; exact h
  | cons i is ih =>
    intro s h
    simp only [spLoop, now, St.set, St.log, call]
    set P : Except Err Bool × St W D Col → Prop := fun r => Cls cl r.2 with hP
    change P (if (decide (cfg.timeLimit > 0) &&
      decide ((env.clock s.world).1 - s.est.tStart > cfg.timeLimit)) = true then _ else _)
    split
    · exact h
    · generalize env.generate l i d (env.clock (env.clock s.world).2).2 = g
      obtain ⟨gr, gw⟩ := g
      have h1 : Cls cl (⟨s.est, gw, s.trace ++ [Ev.check s.est.tStart (env.clock s.world).1] ++ [Ev.generate l i d gr]⟩ :
          St W D Col) := by
        exact h
      cases gr with
      | error er => exact h1
      | ok cols =>
        simp only
        generalize hst : ({ est := _, world := _, trace := _ } : St W D Col) = st
        have h2 : Cls cl st := by subst hst; exact h1
        have h3 := cls_addCols (env := env) l i cols false st h2
        generalize addCols env l i cols false st = r at h3
        obtain ⟨res, s'⟩ := r
        cases res with
        | error er => exact h3
        | ok b =>
          cases b with
          | true => exact h3
          | false => exact ih _ h3

theorem cls_levelLoop (d : D) (ls : List (ℕ × ℕ)) : ∀ (s : St W D Col), Cls cl s → Cls cl (levelLoop env cfg d ls s).2 := by
  induction ls with
  | nil => intro s h; exact h
  | cons p ls ih =>
    obtain ⟨l, n⟩ := p
    intro s h
    simp only [levelLoop, now, St.set]
    have h1 := cls_spLoop (env := env) (cfg := cfg) d l (List.range n) s h
    generalize spLoop env cfg d l (List.range n) s = r at h1
    obtain ⟨res, s'⟩ := r
    cases res with
    | error er => exact h1
    | ok b =>
      simp only
      set P : Except Err Bool × St W D Col → Prop := fun r => Cls cl r.2 with hP
      change P (if s'.est.timeLimitReached = true then _ else _)
      split
      · exact h1
      · cases b with
        | true => exact h1
        | false => exact ih _ h1

theorem cls_updateLoop (d : D) (ps : List (ℕ × ℕ)) : ∀ (s : St W D Col), Cls cl s → Cls cl (updateLoop env d ps s).2 := by
  induction ps with
  | nil => intro s h; exact h
  | cons p ps ih =>
    obtain ⟨l, i⟩ := p
    intro s h
    simp only [updateLoop, now, call]
    generalize env.update l i d (env.clock s.world).2 = g
    obtain ⟨gr, gw⟩ := g
    cases gr with
    | error er => exact h
    | ok u => exact ih _ h

theorem cls_resetTimer (s : St W D Col) (h : Cls cl s) : Cls cl (resetTimer env s) := by
  unfold resetTimer
  simp only [St.log, now, St.set]
  have h1 : Cls cl (⟨s.est, s.world, s.trace ++ [Ev.resetFlag (env.resetFlag s.world)]⟩ : St W D Col) := h
  split
  · exact h1
  · exact h1

theorem cls_body (s : St W D Col) (h : Cls cl s) : Cls cl (body env cfg s).2 := by
  simp only [body, now, St.set, call]
  generalize env.solveRmp (env.clock (env.clock s.world).2).2 = g
  obtain ⟨gr, gw⟩ := g
  have h1 : Cls cl (⟨s.est, gw, s.trace ++ [Ev.solveRmp gr]⟩ : St W D Col) := h
  cases gr with
  | error er => exact h1
  | ok d =>
    simp only
    generalize env.improved (env.clock gw).2 = g2
    obtain ⟨gr2, gw2⟩ := g2
    cases gr2 with
    | error er => exact h1
    | ok b =>
      simp only
      generalize hst : ({ est := _, world := gw2, trace := _ } : St W D Col) = st
      have h3 : Cls cl st := by subst hst; exact h1
      have h4 := cls_resetTimer (env := env) st h3
      have h5 := cls_updateLoop (env := env) d (positions cfg.shape) _ h4
      generalize updateLoop env d (positions cfg.shape) (resetTimer env st) = r5 at h5
      obtain ⟨res5, s5⟩ := r5
      cases res5 with
      | error er => exact h5
      | ok u =>
        have h6 := cls_levelLoop (env := env) (cfg := cfg) d (levels cfg.shape) _ h5
        simp only
        generalize levelLoop env cfg d (levels cfg.shape) s5 = r6 at h6
        obtain ⟨res6, s6⟩ := r6
        cases res6 with
        | error er => exact h6
        | ok b6 =>
          cases b6 with
          | true => exact h6
          | false =>
            simp only [Bool.false_eq_true, if_false]
            split
            · exact h6
            · exact h6

theorem cls_loop : ∀ (n : ℕ) (s : St W D Col), Cls cl s → ∀ r, loop env cfg n s = some r → Cls cl r.2 := by
  intro n
  induction n with
  | zero => intro s _ r hr; simp [loop] at hr
  | succ n ih =>
    intro s h r hr
    simp only [loop] at hr
    split at hr
    · cases hr; exact h
    · have hb := cls_body (env := env) (cfg := cfg) s h
      generalize body env cfg s = g at hb hr
      obtain ⟨res, s'⟩ := g
      cases res with
      | error er => cases hr; exact hb
      | ok b =>
        cases b with
        | true => exact ih s' hb r hr
        | false => cases hr; exact hb

theorem cls_finish (s : St W D Col) (h : Cls cl s) : Cls cl (finish env cfg s).2 := by
  simp only [finish, now, St.set, call]
  cases hip : cfg.rmpIsIp with
  | false => exact h
  | true =>
    simp only [if_true]
    generalize env.solveIp (env.clock s.world).2 = g
    obtain ⟨gr, gw⟩ := g
    cases gr with
    | error er => exact h
    | ok b => cases b <;> exact h

/-- `classes_` is the sorted list of the distinct labels, however `fit` ends. -/
theorem fit_classes (hr : fit env cfg fuel y e0 w0 = some r) : r.2.est.classes = Sk.uniqueLabels y := by
  have h0 : Cls (Sk.uniqueLabels y) (startSt env cfg y e0 w0) := rfl
  rw [fit_eq] at hr
  by_cases hc : (Sk.uniqueLabels y).length ≤ 1
  · rw [if_pos hc] at hr
    cases hr
    rfl
  · rw [if_neg hc] at hr
    cases hg : (env.generateMp (Sk.transform (Sk.uniqueLabels y) y) (env.clock w0).2).1 with
    | error er => rw [hg] at hr; cases hr; rfl
    | ok u0 =>
      rw [hg] at hr
      simp only at hr
      cases hl : loop env cfg fuel (startSt env cfg y e0 w0) with
      | none => rw [hl] at hr; cases hr
      | some r2 =>
        rw [hl] at hr
        have h4 := cls_loop fuel _ h0 r2 hl
        obtain ⟨res, s2⟩ := r2
        cases res with
        | error er => cases hr; exact h4
        | ok u2 =>
          cases hr
          exact cls_finish s2 h4

/-- Every column generated in the last round was offered to the master in the last round. -/
theorem round_offered {u : Unit} (hr : fit env cfg fuel y e0 w0 = some (.ok u, s)) {l i : ℕ} {d : D} {cols : List Col}
    (hg : Ev.generate l i d (.ok cols) ∈ round s.trace) {c : Col} (hc : c ∈ cols) : ∃ l' i' q, Ev.add l' i' c q ∈ round s.trace := by
  have hsuf : ∃ pre, s.trace = pre ++ round s.trace ∧ ∀ e ∈ round s.trace, isRmp e = false := by
    unfold round since
    have h := List.takeWhile_append_dropWhile (p := fun e => !isRmp e) (l := s.trace.reverse)
    refine ⟨(s.trace.reverse.dropWhile (fun e => !isRmp e)).reverse, ?_, ?_⟩
    · rw [← List.reverse_append, h, List.reverse_reverse]
    · intro e he
      have := List.mem_takeWhile_imp (List.mem_reverse.1 he)
      simpa using this
  obtain ⟨pre, hpre, hno⟩ := hsuf
  obtain ⟨r1, r2, hr2⟩ := List.append_of_mem hg
  have hsplit : ∃ mid rest, r2 = mid ++ rest ∧ (∀ e ∈ mid, isGen e = false) ∧ (rest = [] ∨ ∃ e post, rest = e :: post ∧ isGen e = true) := by
    refine ⟨r2.takeWhile (fun e => !isGen e), r2.dropWhile (fun e => !isGen e), List.takeWhile_append_dropWhile.symm, ?_, ?_⟩
    · intro e he
      have := List.mem_takeWhile_imp he
      simpa using this
    · cases hd : r2.dropWhile (fun e => !isGen e) with
      | nil => exact Or.inl rfl
      | cons e post =>
        refine Or.inr ⟨e, post, rfl, ?_⟩
        have := List.head_dropWhile_not (fun e => !isGen e) (l := r2) (by rw [hd]; simp)
        simp only [hd, List.head_cons] at this
        simpa using this
  obtain ⟨mid, rest, hmr, hmid, hrest⟩ := hsplit
  have hq : Quiet mid := fun e he => ⟨hmid e he, hno e (by rw [hr2, hmr]; simp [he])⟩
  have hcols : mid.filterMap col? = cols := by
    rcases hrest with rfl | ⟨e, post, rfl, he⟩
    · refine C63_all_offered_return hr (pre := pre ++ r1) (l := l) (i := i) (d := d) ?_ hq
      rw [hpre, hr2, hmr]
      simp
    · refine C63_all_offered hr (pre := pre ++ r1) (l := l) (i := i) (d := d) (e := e) (post := post) ?_ hq ?_
      · simp only
        rw [hpre, hr2, hmr]
        simp
      · cases e with
        | generate l' i' d' q => exact Or.inl ⟨_, _, _, _, rfl⟩
        | _ => simp [isGen] at he
  rw [← hcols] at hc
  obtain ⟨e, he, hec⟩ := List.mem_filterMap.1 hc
  cases e with
  | add l' i' c' q =>
    simp only [col?, Option.some.injEq] at hec
    subst hec
    exact ⟨l', i', q, by rw [hr2, hmr]; simp [he]⟩
  | _ => simp [col?] at hec

end Verif.Fit
