import Verif.Fit.Prog

/-!
# Two environments that answer alike until the master problem was solved often enough
-/

namespace Verif.Fit

open Spec

variable {W D Col : Type} {env env' : Env W D Col} {cfg : Config} {y : List ℤ} {J : W → List (Ev D Col) → Prop}

/-- The environments differ at most in `solve_rmp`, and there not in the first `N` calls. -/
structure AgreeUntil (env env' : Env W D Col) (cfg : Config) (N : ℕ) (J : W → List (Ev D Col) → Prop) : Prop where
  clock : env'.clock = env.clock
  flag : env'.resetFlag = env.resetFlag
  clear : env'.clearReset = env.clearReset
  generateMp : env'.generateMp = env.generateMp
  solveRmp : ∀ w tr, Protocol cfg tr → Allowed cfg tr (.solveRmp (env.solveRmp w).1) → J w tr → numRmp tr < N → env'.solveRmp w = env.solveRmp w
  improved : env'.improved = env.improved
  update : env'.update = env.update
  generate : env'.generate = env.generate
  add : env'.addColumn = env.addColumn
  solveIp : env'.solveIp = env.solveIp

theorem watch_until {py : List ℕ} {N : ℕ} (hJ : Guided env cfg py J) (hA : AgreeUntil env env' cfg N J) :
    Guided (watch env env') cfg py (fun w tr => J w.1 tr ∧ (numRmp tr ≤ N → w.2 = true)) where
  clock w tr h := ⟨hJ.clock _ _ h.1, fun hn => by simp [watch, h.2 hn, hA.clock]⟩
  timer w tr t hp h := ⟨hJ.timer _ _ _ hp h.1, fun hn => h.2 (by rw [numRmp_snoc] at hn; omega)⟩
  check w tr s t hp h := ⟨hJ.check _ _ _ _ hp h.1, fun hn => h.2 (by rw [numRmp_snoc] at hn; omega)⟩
  flag w tr hp h := ⟨hJ.flag _ _ hp h.1, fun hn => h.2 (by rw [numRmp_snoc] at hn; omega)⟩
  clear w tr h := ⟨hJ.clear _ _ h.1, h.2⟩
  generateMp w t h := ⟨hJ.generateMp _ _ h.1, fun _ => by simp [watch, h.2 (by simp [numRmp, isRmp]), hA.generateMp]⟩
  solveRmp w tr hp ha h := ⟨hJ.solveRmp _ _ hp ha h.1, fun hn => by
    rw [numRmp_snoc] at hn
    simp only [isRmp, if_true] at hn
    simp [watch, h.2 (by omega), hA.solveRmp _ _ hp ha h.1 (by omega)]⟩
  improved w tr hp ha h := ⟨hJ.improved _ _ hp ha h.1, fun hn => by
    rw [numRmp_snoc] at hn
    simp [watch, h.2 (by omega), hA.improved]⟩
  update w tr l i d hp ha h := ⟨hJ.update _ _ _ _ _ hp ha h.1, fun hn => by
    rw [numRmp_snoc] at hn
    simp [watch, h.2 (by omega), hA.update]⟩
  generate w tr l i d hp ha h := ⟨hJ.generate _ _ _ _ _ hp ha h.1, fun hn => by
    rw [numRmp_snoc] at hn
    simp [watch, h.2 (by omega), hA.generate]⟩
  add w tr l i c hp ha h := ⟨hJ.add _ _ _ _ _ hp ha h.1, fun hn => by
    rw [numRmp_snoc] at hn
    simp [watch, h.2 (by omega), hA.add]⟩
  solveIp w tr hp ha h := ⟨hJ.solveIp _ _ hp ha h.1, fun hn => by
    rw [numRmp_snoc] at hn
    simp [watch, h.2 (by omega), hA.solveIp]⟩

/-- A run with at most `N` solved master problems is also a run of the other environment. -/
theorem fit_until {N : ℕ} (hJ : Guided env cfg (Sk.transform (Sk.uniqueLabels y) y) J) (hA : AgreeUntil env env' cfg N J)
    {w0 : W} (h0 : J w0 []) {fuel : ℕ} {e0 : Est} {r : Except Err Unit × St W D Col} (hr : fit env cfg fuel y e0 w0 = some r)
    (hN : numRmp r.2.trace ≤ N) : fit env' cfg fuel y e0 w0 = some r := by
  obtain ⟨h1, h2, h3⟩ := watch_run (env := env) (env' := env') hA.flag hA.clear (Prog.fit cfg fuel y e0) w0 true
  have hw : ∃ q, fit (watch env env') cfg fuel y e0 (w0, true) = some q ∧ q.2.world = ((Prog.fit cfg fuel y e0).run (watch env env') (w0, true)).2 ∧
      q.2.trace = r.2.trace := by
    rw [fit_run] at hr ⊢
    unfold glueO at hr ⊢
    rw [← h1] at hr
    cases hn : ((Prog.fit cfg fuel y e0).run (watch env env') (w0, true)).1.1 with
    | none => rw [hn] at hr; simp at hr
    | some a =>
      rw [hn] at hr
      simp only [Option.map_some, Option.some.injEq] at hr
      subst hr
      exact ⟨_, rfl, rfl, rfl⟩
  obtain ⟨q, hq, hqw, hqt⟩ := hw
  have hb := ((watch_until hJ hA).fit (w0 := (w0, true)) ⟨h0, fun _ => rfl⟩ hq).2 (by rw [hqt]; exact hN)
  rw [hqw] at hb
  rw [fit_run, (h3 hb).2, ← fit_run]
  exact hr

end Verif.Fit
