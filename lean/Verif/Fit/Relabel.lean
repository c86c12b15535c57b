import Verif.Fit.Model

/-!
# The loop does not read the class labels

All parts of `fit` after the encoding of the labels commute with a change of `classes_`. Used for C86.
-/

namespace Verif.Fit

variable {W D Col : Type} {env : Env W D Col} {cfg : Config}

/-- The state with other class labels. -/
def St.cls (c : List ℤ) (s : St W D Col) : St W D Col := s.set (fun e => { e with classes := c })

/-- A result with other class labels. -/
def mapCls {α : Type} (c : List ℤ) (r : Except Err α × St W D Col) : Except Err α × St W D Col := (r.1, r.2.cls c)

theorem addCols_cls (c : List ℤ) (l i : ℕ) (cs : List Col) : ∀ (upd : Bool) (s : St W D Col),
    addCols env l i cs upd (s.cls c) = mapCls c (addCols env l i cs upd s) := by
  induction cs with
  | nil => intro upd s; rfl
  | cons k cs ih =>
    intro upd s
    simp only [addCols, call]
    rw [show (s.cls c).world = s.world from rfl]
    rcases env.addColumn k s.world with ⟨_ | b, w⟩
    · rfl
    · exact ih (upd || b) ⟨{ s.est with numColAdded := bump s.est.numColAdded l i (if b then 1 else 0) }, w, s.trace ++ [.add l i k (.ok b)]⟩

theorem spLoop_cls (c : List ℤ) (d : D) (l : ℕ) (is : List ℕ) : ∀ s : St W D Col,
    spLoop env cfg d l is (s.cls c) = mapCls c (spLoop env cfg d l is s) := by
  induction is with
  | nil => intro s; rfl
  | cons i is ih =>
    intro s
    simp only [spLoop]
    obtain ⟨s1, hs1⟩ : ∃ s1, s1 = ((now env s).2.set (fun e => { e with timeElapsed := (now env s).1 - e.tStart })).log
      (.check ((now env s).2.set (fun e => { e with timeElapsed := (now env s).1 - e.tStart })).est.tStart (now env s).1) := ⟨_, rfl⟩
    have e1 : ((now env (s.cls c)).2.set (fun e => { e with timeElapsed := (now env (s.cls c)).1 - e.tStart })).log
      (.check ((now env (s.cls c)).2.set (fun e => { e with timeElapsed := (now env (s.cls c)).1 - e.tStart })).est.tStart (now env (s.cls c)).1) =
        s1.cls c := by rw [hs1]; rfl
    rw [e1, ← hs1]
    rw [show (s1.cls c).est.timeElapsed = s1.est.timeElapsed from rfl]
    split
    · rfl
    · simp only [call, now]
      rw [show (s1.cls c).world = s1.world from rfl]
      rcases env.generate l i d (env.clock s1.world).2 with ⟨_ | cols, w⟩
      · rfl
      · simp only
        obtain ⟨s2, hs2⟩ : ∃ s2 : St W D Col, s2 = ⟨{ s1.est with timeSpentSp := bump s1.est.timeSpentSp l i ((env.clock w).1 - (env.clock s1.world).1) },
          (env.clock (env.clock w).2).2, s1.trace ++ [.generate l i d (.ok cols)]⟩ := ⟨_, rfl⟩
        have e2 := addCols_cls (env := env) c l i cols false s2
        have h := e2
        rw [hs2] at h
        simp only [St.set] at h ⊢
        erw [h]
        generalize addCols env l i cols false _ = r
        rcases r with ⟨_ | b, s3⟩
        · rfl
        · cases b
          · exact ih ⟨{ s3.est with timeAddCol := s3.est.timeAddCol + ((env.clock s3.world).1 - (env.clock (env.clock w).2).1) },
              (env.clock s3.world).2, s3.trace⟩
          · rfl

theorem levelLoop_cls (c : List ℤ) (d : D) (ls : List (ℕ × ℕ)) : ∀ s : St W D Col,
    levelLoop env cfg d ls (s.cls c) = mapCls c (levelLoop env cfg d ls s) := by
  induction ls with
  | nil => intro s; rfl
  | cons p ls ih =>
    intro s
    obtain ⟨l, n⟩ := p
    simp only [levelLoop]
    rw [spLoop_cls]
    generalize spLoop env cfg d l (List.range n) s = r
    rcases r with ⟨_ | b, s1⟩
    · rfl
    · simp only [mapCls]
      obtain ⟨s2, hs2⟩ : ∃ s2, s2 = (now env s1).2.set (fun e => { e with timeElapsed := (now env s1).1 - e.tStart }) := ⟨_, rfl⟩
      have e1 : (now env (s1.cls c)).2.set (fun e => { e with timeElapsed := (now env (s1.cls c)).1 - e.tStart }) = s2.cls c := by rw [hs2]; rfl
      rw [e1, ← hs2, show (s2.cls c).est.timeLimitReached = s2.est.timeLimitReached from rfl]
      split
      · rfl
      · cases b
        · exact ih _
        · rfl

theorem updateLoop_cls (c : List ℤ) (d : D) (ps : List (ℕ × ℕ)) : ∀ s : St W D Col,
    updateLoop env d ps (s.cls c) = mapCls c (updateLoop env d ps s) := by
  induction ps with
  | nil => intro s; rfl
  | cons p ps ih =>
    intro s
    obtain ⟨l, i⟩ := p
    simp only [updateLoop, call, now]
    rw [show (s.cls c).world = s.world from rfl]
    rcases env.update l i d (env.clock s.world).2 with ⟨_ | u, w⟩
    · rfl
    · exact ih ⟨{ s.est with timeSpentSp := bump s.est.timeSpentSp l i ((env.clock w).1 - (env.clock s.world).1) }, (env.clock w).2,
        s.trace ++ [.update l i d (.ok u)]⟩

theorem resetTimer_cls (c : List ℤ) (s : St W D Col) : resetTimer env (s.cls c) = (resetTimer env s).cls c := by
  simp only [resetTimer]
  rw [show (s.cls c).world = s.world from rfl]
  split <;> rfl

theorem body_cls (c : List ℤ) (s : St W D Col) : body env cfg (s.cls c) = mapCls c (body env cfg s) := by
  simp only [body, call, now, St.set]
  rw [show (s.cls c).world = s.world from rfl]
  rcases env.solveRmp (env.clock (env.clock s.world).2).2 with ⟨_ | d, w⟩
  · rfl
  · simp only
    rcases env.improved (env.clock w).2 with ⟨_ | b, w'⟩
    · rfl
    · simp only
      obtain ⟨s0, hs0⟩ : ∃ s0 : St W D Col, s0 = ⟨{ s.est with
          iter := s.est.iter + 1
          timeSpentMaster := s.est.timeSpentMaster + ((env.clock w).1 - (env.clock (env.clock s.world).2).1)
          numImproving := s.est.numImproving + (if b then 1 else 0) }, w',
        s.trace ++ [.solveRmp (.ok d)] ++ [.improved (.ok b)]⟩ := ⟨_, rfl⟩
      have e := (congrArg (updateLoop env d (positions cfg.shape)) (resetTimer_cls (env := env) c s0)).trans
        (updateLoop_cls c d (positions cfg.shape) (resetTimer env s0))
      rw [hs0] at e
      erw [e]
      generalize updateLoop env d (positions cfg.shape) _ = r
      rcases r with ⟨_ | u, s1⟩
      · rfl
      · simp only [mapCls]
        rw [levelLoop_cls]
        generalize levelLoop env cfg d (levels cfg.shape) s1 = r
        rcases r with ⟨_ | b, s2⟩
        · rfl
        · cases b
          · simp only [mapCls]
            rw [show (s2.cls c).est.timeLimitReached = s2.est.timeLimitReached from rfl]
            cases s2.est.timeLimitReached <;> rfl
          · rfl

theorem loop_cls (c : List ℤ) : ∀ (n : ℕ) (s : St W D Col), loop env cfg n (s.cls c) = (loop env cfg n s).map (mapCls c) := by
  intro n
  induction n with
  | zero => intro s; rfl
  | succ n ih =>
    intro s
    simp only [loop]
    rw [show (s.cls c).est.iter = s.est.iter from rfl, body_cls]
    split
    · rfl
    · generalize body env cfg s = r
      rcases r with ⟨_ | b, s1⟩
      · rfl
      · cases b
        · rfl
        · exact ih _

theorem finish_cls (c : List ℤ) (s : St W D Col) : finish env cfg (s.cls c) = mapCls c (finish env cfg s) := by
  simp only [finish, call, now, St.set]
  rw [show (s.cls c).world = s.world from rfl]
  split
  · rcases env.solveIp (env.clock s.world).2 with ⟨_ | b, w⟩
    · rfl
    · cases b <;> rfl
  · rfl

/-- Two label vectors with the same codes and equally many classes give runs that differ only in `classes_`. -/
theorem fit_cls (fuel : ℕ) (y y' : List ℤ) (e0 : Est) (w0 : W) (hn : (Sk.uniqueLabels y').length = (Sk.uniqueLabels y).length)
    (ht : Sk.transform (Sk.uniqueLabels y') y' = Sk.transform (Sk.uniqueLabels y) y) :
    fit env cfg fuel y' e0 w0 = (fit env cfg fuel y e0 w0).map (mapCls (Sk.uniqueLabels y')) := by
  simp only [fit, call, now, St.set, St.log, ht, hn]
  by_cases hc : (Sk.uniqueLabels y).length ≤ 1
  · refine (if_pos hc).trans (Eq.trans ?_ (congrArg (Option.map (mapCls (Sk.uniqueLabels y'))) (if_pos hc)).symm)
    rfl
  · refine (if_neg hc).trans (Eq.trans ?_ (congrArg (Option.map (mapCls (Sk.uniqueLabels y'))) (if_neg hc)).symm)
    rcases env.generateMp (Sk.transform (Sk.uniqueLabels y) y) (env.clock w0).2 with ⟨_ | u, w⟩
    · rfl
    · simp only
      obtain ⟨s1, hs1⟩ : ∃ s1 : St W D Col, s1 = ⟨initEst cfg.shape { e0 with tStart := (env.clock w0).1, classes := Sk.uniqueLabels y }, w,
        [] ++ [.timer (env.clock w0).1] ++ [.generateMp (Sk.transform (Sk.uniqueLabels y) y) (.ok u)]⟩ := ⟨_, rfl⟩
      have e := loop_cls (env := env) (cfg := cfg) (Sk.uniqueLabels y') fuel s1
      rw [hs1] at e
      erw [e]
      generalize loop env cfg fuel _ = r
      rcases r with _ | ⟨_ | u, s2⟩
      · rfl
      · rfl
      · simp only [Option.map_some, mapCls]
        rw [finish_cls]
        rfl

end Verif.Fit
