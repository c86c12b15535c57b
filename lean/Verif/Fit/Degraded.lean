import Verif.Fit.Props2

/-!
# Plug-ins that do the same or raise

`Degraded env env' E`: every call on the plug-ins `env'` does what the call on `env` does, or raises an exception in `E`. Then so does `fit`.
-/

namespace Verif.Fit

variable {W D Col : Type} {env env' : Env W D Col} {E : Err → Prop}

/-- The call does the same or raises. -/
def SameOr {α : Type} (E : Err → Prop) (r r' : Except Err α × W) : Prop := r' = r ∨ ∃ e w, r' = (.error e, w) ∧ E e

structure Degraded (env env' : Env W D Col) (E : Err → Prop) : Prop where
  clock : env'.clock = env.clock
  flag : env'.resetFlag = env.resetFlag
  clear : env'.clearReset = env.clearReset
  generateMp : ∀ y w, SameOr E (env.generateMp y w) (env'.generateMp y w)
  solveRmp : ∀ w, SameOr E (env.solveRmp w) (env'.solveRmp w)
  improved : ∀ w, SameOr E (env.improved w) (env'.improved w)
  update : ∀ l i d w, SameOr E (env.update l i d w) (env'.update l i d w)
  generate : ∀ l i d w, SameOr E (env.generate l i d w) (env'.generate l i d w)
  add : ∀ c w, SameOr E (env.addColumn c w) (env'.addColumn c w)
  solveIp : ∀ w, SameOr E (env.solveIp w) (env'.solveIp w)

theorem SameOr.call {α : Type} {f f' : W → Except Err α × W} (ev : Except Err α → Ev D Col) (h : ∀ w, SameOr E (f w) (f' w)) (s : St W D Col) :
    SameOr E (call f ev s) (call f' ev s) := by
  unfold Fit.call
  rcases h s.world with h | ⟨e, w, h, he⟩
  · left
    simp only [h]
  · right
    refine ⟨e, ⟨s.est, w, s.trace ++ [ev (.error e)]⟩, ?_, he⟩
    simp only [h]

theorem SameOr.refl {α : Type} {V : Type} (r : Except Err α × V) : SameOr E r r := Or.inl rfl

theorem now_degraded (h : Degraded env env' E) (s : St W D Col) : now env' s = now env s := by
  unfold now
  rw [h.clock]

theorem addCols_degraded (h : Degraded env env' E) (l i : ℕ) : ∀ (cs : List Col) (upd : Bool) (s : St W D Col),
    SameOr E (addCols env l i cs upd s) (addCols env' l i cs upd s)
  | [], _, _ => .refl _
  | c :: cs, upd, s => by
    unfold addCols
    rcases SameOr.call (Ev.add l i c) (h.add c) s with h1 | ⟨e, w, h1, he⟩
    · rw [h1]
      generalize call (env.addColumn c) (Ev.add l i c) s = r
      obtain ⟨r, s1⟩ := r
      cases r with
      | error e => exact .refl _
      | ok a => exact addCols_degraded h l i cs _ _
    · rw [h1]
      exact Or.inr ⟨e, w, rfl, he⟩

theorem spLoop_degraded (h : Degraded env env' E) (cfg : Config) (d : D) (l : ℕ) : ∀ (is : List ℕ) (s : St W D Col),
    SameOr E (spLoop env cfg d l is s) (spLoop env' cfg d l is s)
  | [], _ => .refl _
  | i :: is, s => by
    unfold spLoop
    simp only [now_degraded h]
    split
    · exact .refl _
    · generalize now env ((((now env s).2.set (fun e => { e with timeElapsed := (now env s).1 - e.tStart })).log
        (.check ((now env s).2.set (fun e => { e with timeElapsed := (now env s).1 - e.tStart })).est.tStart (now env s).1))) = q
      obtain ⟨t0, s1⟩ := q
      simp only
      rcases SameOr.call (Ev.generate l i d) (h.generate l i d) s1 with h1 | ⟨e, w, h1, he⟩
      · rw [h1]
        generalize call (env.generate l i d) (Ev.generate l i d) s1 = r
        obtain ⟨r, s2⟩ := r
        cases r with
        | error e => exact .refl _
        | ok cols =>
          simp only
          rcases addCols_degraded h l i cols false (now env ((now env s2).2.set
            (fun e => { e with timeSpentSp := bump e.timeSpentSp l i ((now env s2).1 - t0) }))).2 with h2 | ⟨e, w, h2, he⟩
          · rw [h2]
            generalize addCols env l i cols false _ = r
            obtain ⟨r, s3⟩ := r
            cases r with
            | error e => exact .refl _
            | ok upd =>
              simp only
              split
              · exact .refl _
              · exact spLoop_degraded h cfg d l is _
          · rw [h2]
            exact Or.inr ⟨e, w, rfl, he⟩
      · rw [h1]
        exact Or.inr ⟨e, w, rfl, he⟩

theorem levelLoop_degraded (h : Degraded env env' E) (cfg : Config) (d : D) : ∀ (ls : List (ℕ × ℕ)) (s : St W D Col),
    SameOr E (levelLoop env cfg d ls s) (levelLoop env' cfg d ls s)
  | [], _ => .refl _
  | (l, n) :: ls, s => by
    unfold levelLoop
    rcases spLoop_degraded h cfg d l (List.range n) s with h1 | ⟨e, w, h1, he⟩
    · rw [h1]
      generalize spLoop env cfg d l (List.range n) s = r
      obtain ⟨r, s1⟩ := r
      cases r with
      | error e => exact .refl _
      | ok upd =>
        simp only [now_degraded h]
        split
        · exact .refl _
        · split
          · exact .refl _
          · exact levelLoop_degraded h cfg d ls _
    · rw [h1]
      exact Or.inr ⟨e, w, rfl, he⟩

theorem updateLoop_degraded (h : Degraded env env' E) (d : D) : ∀ (ps : List (ℕ × ℕ)) (s : St W D Col),
    SameOr E (updateLoop env d ps s) (updateLoop env' d ps s)
  | [], _ => .refl _
  | (l, i) :: ps, s => by
    unfold updateLoop
    simp only [now_degraded h]
    rcases SameOr.call (Ev.update l i d) (h.update l i d) (now env s).2 with h1 | ⟨e, w, h1, he⟩
    · rw [h1]
      generalize call (env.update l i d) (Ev.update l i d) (now env s).2 = r
      obtain ⟨r, s1⟩ := r
      cases r with
      | error e => exact .refl _
      | ok u => exact updateLoop_degraded h d ps _
    · rw [h1]
      exact Or.inr ⟨e, w, rfl, he⟩

theorem body_degraded (h : Degraded env env' E) (cfg : Config) (s : St W D Col) : SameOr E (body env cfg s) (body env' cfg s) := by
  have hreset : ∀ s, resetTimer env' s = resetTimer env s := by
    intro s
    unfold resetTimer
    simp only [now_degraded h, h.flag, h.clear]
  unfold body
  simp only [now_degraded h, hreset]
  generalize now env (now env (s.set (fun e => { e with iter := e.iter + 1 }))).2 = q
  obtain ⟨m0, s0⟩ := q
  simp only
  rcases SameOr.call (Ev.solveRmp) h.solveRmp s0 with h1 | ⟨e, w, h1, he⟩
  · rw [h1]
    generalize call env.solveRmp Ev.solveRmp s0 = r
    obtain ⟨r, s1⟩ := r
    cases r with
    | error e => exact .refl _
    | ok d =>
      simp only
      generalize (now env s1).2.set (fun e => { e with timeSpentMaster := e.timeSpentMaster + ((now env s1).1 - m0) }) = s2
      rcases SameOr.call (Ev.improved) h.improved s2 with h1 | ⟨e, w, h1, he⟩
      · rw [h1]
        generalize call env.improved Ev.improved s2 = r
        obtain ⟨r, s3⟩ := r
        cases r with
        | error e => exact .refl _
        | ok b =>
          simp only
          generalize resetTimer env (s3.set (fun e => { e with numImproving := e.numImproving + (if b then 1 else 0) })) = s4
          rcases updateLoop_degraded h d (positions cfg.shape) s4 with h1 | ⟨e, w, h1, he⟩
          · rw [h1]
            generalize updateLoop env d (positions cfg.shape) s4 = r
            obtain ⟨r, s5⟩ := r
            cases r with
            | error e => exact .refl _
            | ok u =>
              simp only
              rcases levelLoop_degraded h cfg d (levels cfg.shape) s5 with h1 | ⟨e, w, h1, he⟩
              · rw [h1]
                exact .refl _
              · rw [h1]
                exact Or.inr ⟨e, w, rfl, he⟩
          · rw [h1]
            exact Or.inr ⟨e, w, rfl, he⟩
      · rw [h1]
        exact Or.inr ⟨e, w, rfl, he⟩
  · rw [h1]
    exact Or.inr ⟨e, w, rfl, he⟩

theorem loop_degraded (h : Degraded env env' E) (cfg : Config) : ∀ (n : ℕ) (s : St W D Col),
    loop env' cfg n s = loop env cfg n s ∨ ∃ e s', loop env' cfg n s = some (.error e, s') ∧ E e
  | 0, _ => Or.inl rfl
  | n + 1, s => by
    unfold loop
    split
    · exact Or.inl rfl
    · rcases body_degraded h cfg s with h1 | ⟨e, w, h1, he⟩
      · rw [h1]
        generalize body env cfg s = r
        obtain ⟨r, s1⟩ := r
        rcases r with e | b
        · exact Or.inl rfl
        · cases b
          · exact Or.inl rfl
          · exact loop_degraded h cfg n s1
      · rw [h1]
        exact Or.inr ⟨e, w, rfl, he⟩

theorem finish_degraded (h : Degraded env env' E) (cfg : Config) (s : St W D Col) : SameOr E (finish env cfg s) (finish env' cfg s) := by
  unfold finish
  simp only [now_degraded h]
  split
  · generalize now env (s.set (fun e => { e with timeSpentMasterIp := 0 })) = q
    obtain ⟨t0, s1⟩ := q
    simp only
    rcases SameOr.call (Ev.solveIp) h.solveIp s1 with h1 | ⟨e, w, h1, he⟩
    · rw [h1]
      exact .refl _
    · rw [h1]
      exact Or.inr ⟨e, w, rfl, he⟩
  · exact .refl _

/-- If every call on the plug-ins does the same or raises an exception in `E`, so does `fit`. -/
theorem fit_degraded (h : Degraded env env' E) (cfg : Config) (fuel : ℕ) (y : List ℤ) (e0 : Est) (w0 : W) :
    fit env' cfg fuel y e0 w0 = fit env cfg fuel y e0 w0 ∨ ∃ e s, fit env' cfg fuel y e0 w0 = some (.error e, s) ∧ E e := by
  unfold fit
  simp only [now_degraded h]
  split
  · exact Or.inl rfl
  · generalize ((now env (⟨e0, w0, []⟩ : St W D Col)).2.set _ |>.log _).set _ = s0
    rcases SameOr.call (Ev.generateMp (Sk.transform (Sk.uniqueLabels y) y)) (h.generateMp (Sk.transform (Sk.uniqueLabels y) y)) s0 with h1 | ⟨e, w, h1, he⟩
    · rw [h1]
      generalize call (env.generateMp (Sk.transform (Sk.uniqueLabels y) y)) (Ev.generateMp (Sk.transform (Sk.uniqueLabels y) y)) s0 = r
      obtain ⟨r, s1⟩ := r
      cases r with
      | error e => exact Or.inl rfl
      | ok u =>
        simp only
        rcases loop_degraded h cfg fuel (s1.set (initEst cfg.shape)) with h2 | ⟨e, w, h2, he⟩
        · rw [h2]
          generalize loop env cfg fuel (s1.set (initEst cfg.shape)) = q
          rcases q with _ | ⟨e | u, s2⟩
          · exact Or.inl rfl
          · exact Or.inl rfl
          · simp only
            rcases finish_degraded h cfg s2 with h3 | ⟨e, w, h3, he⟩
            · rw [h3]
              exact Or.inl rfl
            · rw [h3]
              exact Or.inr ⟨e, w, rfl, he⟩
        · rw [h2]
          exact Or.inr ⟨e, w, rfl, he⟩
    · rw [h1]
      exact Or.inr ⟨e, w, rfl, he⟩

/-- A `fit` whose `generate_mp` raises. -/
theorem fit_mp_raises {W D Col : Type} {env : Env W D Col} {w0 w' : W} {y : List ℤ} {e : Err} (cfg : Config) (fuel : ℕ) (e0 : Est)
    (h2 : ∃ a ∈ y, ∃ b ∈ y, a ≠ b)
    (he : env.generateMp (Sk.transform (Sk.uniqueLabels y) y) (env.clock w0).2 = (.error e, w')) :
    ∃ est, fit env cfg fuel y e0 w0 = some (.error e, ⟨est, w', [.timer (env.clock w0).1,
      .generateMp (Sk.transform (Sk.uniqueLabels y) y) (.error e)]⟩) ∧ est.isFitted = e0.isFitted := by
  obtain ⟨a, ha, b, hb, hab⟩ := h2
  have hc : ¬ (Sk.uniqueLabels y).length ≤ 1 := fun hle => hab (uniqueLabels_length_le_iff.1 hle a ha b hb)
  refine ⟨{ e0 with tStart := (env.clock w0).1, classes := Sk.uniqueLabels y }, ?_, rfl⟩
  rw [fit_eq, if_neg hc]
  simp only [startSt, he]

end Verif.Fit
