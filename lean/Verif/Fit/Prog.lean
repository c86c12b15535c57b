import Verif.Fit.Guided

/-!
# `fit` as a program that talks to its plug-ins

The loop model as an interaction tree: a question to the plug-ins, then a continuation for every answer. Running the tree with an environment
gives `fit` (`fit_run`), so facts about all environments can be proved by induction on the tree. The use made of it: two environments that
answer alike wherever an invariant of the first one holds have the same runs (`fit_congr`).
-/

set_option linter.unusedSectionVars false

namespace Verif.Fit

open Spec

/-- A question to the plug-ins or the clock. -/
inductive Op (D Col : Type) where
  | clock
  | generateMp (y : List ℕ)
  | solveRmp
  | improved
  | resetFlag
  | clearReset
  | update (l i : ℕ) (d : D)
  | generate (l i : ℕ) (d : D)
  | addColumn (c : Col)
  | solveIp

/-- The type of the answers. -/
abbrev Op.Ans {D Col : Type} : Op D Col → Type
  | .clock => ℚ
  | .generateMp _ => Except Err Unit
  | .solveRmp => Except Err D
  | .improved => Except Err Bool
  | .resetFlag => Option Bool
  | .clearReset => Unit
  | .update _ _ _ => Except Err Unit
  | .generate _ _ _ => Except Err (List Col)
  | .addColumn _ => Except Err Bool
  | .solveIp => Except Err Bool

variable {W D Col : Type}

/-- The answer of an environment and the world afterwards. -/
def Env.ask (env : Env W D Col) : (op : Op D Col) → W → op.Ans × W
  | .clock, w => env.clock w
  | .generateMp y, w => env.generateMp y w
  | .solveRmp, w => env.solveRmp w
  | .improved, w => env.improved w
  | .resetFlag, w => (env.resetFlag w, w)
  | .clearReset, w => ((), env.clearReset w)
  | .update l i d, w => env.update l i d w
  | .generate l i d, w => env.generate l i d w
  | .addColumn c, w => env.addColumn c w
  | .solveIp, w => env.solveIp w

/-- Interaction trees. -/
inductive Prog (D Col α : Type) where
  | ret (a : α) : Prog D Col α
  | ask (op : Op D Col) (k : op.Ans → Prog D Col α) : Prog D Col α

/-- Running a tree. -/
def Prog.run {α : Type} (env : Env W D Col) : Prog D Col α → W → α × W
  | .ret a, w => (a, w)
  | .ask op k, w => (k (env.ask op w).1).run env (env.ask op w).2

def Prog.bind {α β : Type} : Prog D Col α → (α → Prog D Col β) → Prog D Col β
  | .ret a, f => f a
  | .ask op k, f => .ask op (fun x => (k x).bind f)

theorem Prog.run_bind {α β : Type} (env : Env W D Col) (f : α → Prog D Col β) : ∀ (p : Prog D Col α) (w : W),
    (p.bind f).run env w = (f (p.run env w).1).run env (p.run env w).2
  | .ret _, _ => rfl
  | .ask op k, w => by
    show ((k (env.ask op w).1).bind f).run env (env.ask op w).2 = _
    rw [Prog.run_bind env f (k (env.ask op w).1) (env.ask op w).2]
    rfl

/-- The part of the machine state that is not the world. -/
structure PS (D Col : Type) where
  est : Est
  trace : List (Ev D Col)

def PS.log (s : PS D Col) (e : Ev D Col) : PS D Col := ⟨s.est, s.trace ++ [e]⟩

def PS.set (s : PS D Col) (f : Est → Est) : PS D Col := ⟨f s.est, s.trace⟩

/-- Putting the world back. -/
def glue {α : Type} (r : (α × PS D Col) × W) : α × St W D Col := (r.1.1, ⟨r.1.2.est, r.2, r.1.2.trace⟩)

namespace Prog

/-- `time()`. -/
def now {α : Type} (s : PS D Col) (k : ℚ → PS D Col → Prog D Col α) : Prog D Col α := .ask .clock (fun t => k t s)

/-- A call with its ghost event. -/
def call {α : Type} (op : Op D Col) (ev : op.Ans → Ev D Col) (s : PS D Col) (k : op.Ans → PS D Col → Prog D Col α) : Prog D Col α :=
  .ask op (fun r => k r (s.log (ev r)))

def addCols (l i : ℕ) : List Col → Bool → PS D Col → Prog D Col (Except Err Bool × PS D Col)
  | [], upd, s => .ret (.ok upd, s)
  | c :: cs, upd, s =>
    call (.addColumn c) (.add l i c) s fun r s1 =>
      match r with
      | .error e => .ret (.error e, s1)
      | .ok added => addCols l i cs (upd || added) (s1.set (fun e => { e with numColAdded := bump e.numColAdded l i (if added then 1 else 0) }))

def spLoop (cfg : Config) (d : D) (l : ℕ) : List ℕ → PS D Col → Prog D Col (Except Err Bool × PS D Col)
  | [], s => .ret (.ok false, s)
  | i :: is, s =>
    now s fun t s =>
      let s := s.set (fun e => { e with timeElapsed := t - e.tStart })
      let s := s.log (.check s.est.tStart t)
      if decide (cfg.timeLimit > 0) && decide (s.est.timeElapsed > cfg.timeLimit) then
        .ret (.ok false, s.set (fun e => { e with timeLimitReached := true }))
      else
        now s fun t0 s =>
          call (.generate l i d) (.generate l i d) s fun r s =>
            match r with
            | .error e => .ret (.error e, s)
            | .ok cols =>
              now s fun t1 s =>
                now (s.set (fun e => { e with timeSpentSp := bump e.timeSpentSp l i (t1 - t0) })) fun t2 s =>
                  (addCols l i cols false s).bind fun q =>
                    match q with
                    | (.error e, s) => .ret (.error e, s)
                    | (.ok upd, s) =>
                      now s fun t3 s =>
                        let s := s.set (fun e => { e with timeAddCol := e.timeAddCol + (t3 - t2) })
                        if upd then .ret (.ok true, s) else spLoop cfg d l is s

def levelLoop (cfg : Config) (d : D) : List (ℕ × ℕ) → PS D Col → Prog D Col (Except Err Bool × PS D Col)
  | [], s => .ret (.ok false, s)
  | (l, n) :: ls, s =>
    (spLoop cfg d l (List.range n) s).bind fun q =>
      match q with
      | (.error e, s) => .ret (.error e, s)
      | (.ok upd, s) =>
        now s fun t s =>
          let s := s.set (fun e => { e with timeElapsed := t - e.tStart })
          if s.est.timeLimitReached then .ret (.ok upd, s)
          else if upd then .ret (.ok true, s)
          else levelLoop cfg d ls s

def updateLoop (d : D) : List (ℕ × ℕ) → PS D Col → Prog D Col (Except Err Unit × PS D Col)
  | [], s => .ret (.ok (), s)
  | (l, i) :: ps, s =>
    now s fun t0 s =>
      call (.update l i d) (.update l i d) s fun r s =>
        match r with
        | .error e => .ret (.error e, s)
        | .ok _ => now s fun t1 s => updateLoop d ps (s.set (fun e => { e with timeSpentSp := bump e.timeSpentSp l i (t1 - t0) }))

def resetTimer (s : PS D Col) : Prog D Col (Unit × PS D Col) :=
  .ask .resetFlag fun b =>
    let s := s.log (.resetFlag b)
    if b = some true then
      now s fun t s => .ask .clearReset fun _ => .ret ((), (s.set (fun e => { e with tStart := t })).log (.timer t))
    else .ret ((), s)

def body (cfg : Config) (s : PS D Col) : Prog D Col (Except Err Bool × PS D Col) :=
  now (s.set (fun e => { e with iter := e.iter + 1 })) fun _ s =>
    now s fun m0 s =>
      call .solveRmp .solveRmp s fun r s =>
        match r with
        | .error e => .ret (.error e, s)
        | .ok d =>
          now s fun m1 s =>
            call .improved .improved (s.set (fun e => { e with timeSpentMaster := e.timeSpentMaster + (m1 - m0) })) fun r s =>
              match r with
              | .error e => .ret (.error e, s)
              | .ok b =>
                (resetTimer (s.set (fun e => { e with numImproving := e.numImproving + (if b then 1 else 0) }))).bind fun q =>
                  (updateLoop d (positions cfg.shape) q.2).bind fun q =>
                    match q with
                    | (.error e, s) => .ret (.error e, s)
                    | (.ok _, s) =>
                      (levelLoop cfg d (levels cfg.shape) s).bind fun q =>
                        match q with
                        | (.error e, s) => .ret (.error e, s)
                        | (.ok upd, s) =>
                          if upd then .ret (.ok true, s)
                          else .ret (.ok false, if s.est.timeLimitReached then s else s.set (fun e => { e with mpOptimal := true }))

/-- The result `none` means that the fuel did not suffice. -/
def loop (cfg : Config) : ℕ → PS D Col → Prog D Col (Option (Except Err Unit) × PS D Col)
  | 0, s => .ret (none, s)
  | n + 1, s =>
    if cfg.maxIterations > 0 ∧ (s.est.iter : ℤ) ≥ cfg.maxIterations then .ret (some (.ok ()), s)
    else
      (body cfg s).bind fun q =>
        match q with
        | (.error e, s) => .ret (some (.error e), s)
        | (.ok true, s) => loop cfg n s
        | (.ok false, s) => .ret (some (.ok ()), s)

def done (s : PS D Col) : Prog D Col (Except Err Unit × PS D Col) :=
  now (s.set (fun e => { e with isFitted := true })) fun t s => .ret (.ok (), s.set (fun e => { e with timeElapsed := t - e.tStart }))

def finish (cfg : Config) (s : PS D Col) : Prog D Col (Except Err Unit × PS D Col) :=
  if cfg.rmpIsIp then
    now (s.set (fun e => { e with timeSpentMasterIp := 0 })) fun t0 s =>
      call .solveIp .solveIp s fun r s =>
        match r with
        | .error e => .ret (.error e, s)
        | .ok solved =>
          now s fun t1 s =>
            if solved then done (s.set (fun e => { e with timeSpentMasterIp := e.timeSpentMasterIp + (t1 - t0) }))
            else .ret (.error .assertionError, s.set (fun e => { e with timeSpentMasterIp := e.timeSpentMasterIp + (t1 - t0) }))
  else done (s.set (fun e => { e with timeSpentMasterIp := 0 }))

def fit (cfg : Config) (fuel : ℕ) (y : List ℤ) (e0 : Est) : Prog D Col (Option (Except Err Unit) × PS D Col) :=
  now ⟨e0, []⟩ fun t s =>
    let s := ((s.set (fun e => { e with tStart := t })).log (.timer t)).set (fun e => { e with classes := Sk.uniqueLabels y })
    if s.est.classes.length ≤ 1 then .ret (some (.error .valueError), s)
    else
      call (.generateMp (Sk.transform (Sk.uniqueLabels y) y)) (.generateMp (Sk.transform (Sk.uniqueLabels y) y)) s fun r s =>
        match r with
        | .error e => .ret (some (.error e), s)
        | .ok _ =>
          (loop cfg fuel (s.set (initEst cfg.shape))).bind fun q =>
            match q with
            | (none, s) => .ret (none, s)
            | (some (.error e), s) => .ret (some (.error e), s)
            | (some (.ok _), s) => (finish cfg s).bind fun q => .ret (some q.1, q.2)

end Prog

variable (env : Env W D Col)

theorem addCols_run (l i : ℕ) : ∀ (cs : List Col) (b : Bool) (e : Est) (tr : List (Ev D Col)) (w : W),
    addCols env l i cs b ⟨e, w, tr⟩ = glue ((Prog.addCols l i cs b ⟨e, tr⟩).run env w)
  | [], _, _, _, _ => rfl
  | c :: cs, b, e, tr, w => by
    unfold addCols Prog.addCols Prog.call Fit.call
    simp only [Prog.run, Env.ask, PS.log]
    cases h : (env.addColumn c w).1 with
    | error e => rfl
    | ok a => exact addCols_run l i cs _ _ _ _

theorem spLoop_run (cfg : Config) (d : D) (l : ℕ) : ∀ (is : List ℕ) (e : Est) (tr : List (Ev D Col)) (w : W),
    spLoop env cfg d l is ⟨e, w, tr⟩ = glue ((Prog.spLoop cfg d l is ⟨e, tr⟩).run env w)
  | [], _, _, _ => rfl
  | i :: is, e, tr, w => by
    unfold spLoop Prog.spLoop Prog.now Prog.call Fit.call Fit.now
    simp only [Prog.run, Env.ask, PS.log, PS.set, St.log, St.set]
    by_cases hc : (decide (cfg.timeLimit > 0) && decide ((env.clock w).1 - e.tStart > cfg.timeLimit)) = true
    · refine (if_pos hc).trans ?_
      refine Eq.trans ?_ (congrArg (fun p => glue (Prog.run env p (env.clock w).2)) (if_pos hc).symm)
      rfl
    · refine (if_neg hc).trans ?_
      refine Eq.trans ?_ (congrArg (fun p => glue (Prog.run env p (env.clock w).2)) (if_neg hc).symm)
      simp only [Prog.run, Env.ask]
      cases h : (env.generate l i d (env.clock (env.clock w).2).2).1 with
      | error e => rfl
      | ok cols =>
        simp only [Prog.run, Env.ask, Prog.run_bind]
        rw [addCols_run]
        unfold glue
        generalize (Prog.addCols l i cols false _).run env _ = q
        obtain ⟨⟨r, s⟩, w'⟩ := q
        cases r with
        | error e => rfl
        | ok upd =>
          cases upd with
          | true => rfl
          | false =>
            simp only [Prog.run, Env.ask, Bool.false_eq_true, if_false]
            exact spLoop_run cfg d l is _ _ _

theorem levelLoop_run (cfg : Config) (d : D) : ∀ (ls : List (ℕ × ℕ)) (e : Est) (tr : List (Ev D Col)) (w : W),
    levelLoop env cfg d ls ⟨e, w, tr⟩ = glue ((Prog.levelLoop cfg d ls ⟨e, tr⟩).run env w)
  | [], _, _, _ => rfl
  | (l, n) :: ls, e, tr, w => by
    unfold levelLoop Prog.levelLoop Prog.now Fit.now
    simp only [Prog.run_bind]
    rw [spLoop_run]
    unfold glue
    generalize (Prog.spLoop cfg d l (List.range n) _).run env _ = q
    obtain ⟨⟨r, s⟩, w'⟩ := q
    cases r with
    | error e => rfl
    | ok upd =>
      simp only [Prog.run, Env.ask, PS.set, St.set]
      by_cases hc : s.est.timeLimitReached = true
      · refine (if_pos hc).trans ?_
        refine Eq.trans ?_ (congrArg (fun p => glue (Prog.run env p (env.clock w').2)) (if_pos hc).symm)
        rfl
      · refine (if_neg hc).trans ?_
        refine Eq.trans ?_ (congrArg (fun p => glue (Prog.run env p (env.clock w').2)) (if_neg hc).symm)
        cases upd with
        | true => rfl
        | false => exact levelLoop_run cfg d ls _ _ _

theorem updateLoop_run (d : D) : ∀ (ps : List (ℕ × ℕ)) (e : Est) (tr : List (Ev D Col)) (w : W),
    updateLoop env d ps ⟨e, w, tr⟩ = glue ((Prog.updateLoop d ps ⟨e, tr⟩).run env w)
  | [], _, _, _ => rfl
  | (l, i) :: ps, e, tr, w => by
    unfold updateLoop Prog.updateLoop Prog.now Prog.call Fit.call Fit.now
    simp only [Prog.run, Env.ask, PS.log, PS.set, St.set]
    cases h : (env.update l i d (env.clock w).2).1 with
    | error e => rfl
    | ok u =>
      simp only [Prog.run, Env.ask]
      exact updateLoop_run d ps _ _ _

theorem resetTimer_run (e : Est) (tr : List (Ev D Col)) (w : W) :
    ((), resetTimer env ⟨e, w, tr⟩) = glue ((Prog.resetTimer ⟨e, tr⟩).run env w) := by
  unfold resetTimer Prog.resetTimer Prog.now Fit.now
  simp only [Prog.run, Env.ask, PS.log, PS.set, St.log, St.set]
  by_cases hc : env.resetFlag w = some true
  · simp only [hc, if_true]
    rfl
  · simp only [hc, if_false]
    rfl

theorem body_run (cfg : Config) (e : Est) (tr : List (Ev D Col)) (w : W) :
    body env cfg ⟨e, w, tr⟩ = glue ((Prog.body cfg ⟨e, tr⟩).run env w) := by
  unfold body Prog.body Prog.now Prog.call Fit.call Fit.now
  simp only [Prog.run, Env.ask, PS.log, PS.set, St.set]
  cases h : (env.solveRmp (env.clock (env.clock w).2).2).1 with
  | error e => rfl
  | ok d =>
    simp only [Prog.run, Env.ask]
    generalize (env.solveRmp (env.clock (env.clock w).2).2).2 = w1
    cases h : (env.improved (env.clock w1).2).1 with
    | error e => rfl
    | ok b =>
      simp only [Prog.run_bind]
      have hr := fun e tr w => congrArg Prod.snd (resetTimer_run env e tr w)
      simp only at hr
      rw [hr]
      unfold glue
      generalize (Prog.resetTimer _).run env _ = q
      obtain ⟨⟨⟨⟩, s⟩, w2⟩ := q
      simp only
      rw [updateLoop_run]
      unfold glue
      generalize (Prog.updateLoop d (positions cfg.shape) _).run env _ = q
      obtain ⟨⟨r, s⟩, w3⟩ := q
      cases r with
      | error e => rfl
      | ok u =>
        simp only [Prog.run_bind]
        rw [levelLoop_run]
        unfold glue
        generalize (Prog.levelLoop cfg d (levels cfg.shape) _).run env _ = q
        obtain ⟨⟨r, s⟩, w4⟩ := q
        cases r with
        | error e => rfl
        | ok upd =>
          cases upd with
          | true => rfl
          | false =>
            simp only [Bool.false_eq_true, if_false, Prog.run]
            split <;> rfl

/-- Putting the world back, with fuel. -/
def glueO {α : Type} (r : (Option α × PS D Col) × W) : Option (α × St W D Col) := r.1.1.map (fun a => (a, ⟨r.1.2.est, r.2, r.1.2.trace⟩))

theorem loop_run (cfg : Config) : ∀ (n : ℕ) (e : Est) (tr : List (Ev D Col)) (w : W),
    loop env cfg n ⟨e, w, tr⟩ = glueO ((Prog.loop cfg n ⟨e, tr⟩).run env w)
  | 0, _, _, _ => rfl
  | n + 1, e, tr, w => by
    unfold loop Prog.loop
    simp only
    split
    · rfl
    · simp only [Prog.run_bind]
      rw [body_run]
      unfold glue
      generalize (Prog.body cfg _).run env _ = q
      obtain ⟨⟨r, s⟩, w'⟩ := q
      cases r with
      | error e => rfl
      | ok b =>
        cases b with
        | true => exact loop_run cfg n _ _ _
        | false => rfl

theorem finish_run (cfg : Config) (e : Est) (tr : List (Ev D Col)) (w : W) :
    finish env cfg ⟨e, w, tr⟩ = glue ((Prog.finish cfg ⟨e, tr⟩).run env w) := by
  unfold finish Prog.finish Prog.now Prog.call Fit.call Fit.now
  simp only [PS.set, St.set]
  split
  · simp only [Prog.run, Env.ask, PS.log]
    cases h : (env.solveIp (env.clock w).2).1 with
    | error e => rfl
    | ok b =>
      cases b with
      | true => rfl
      | false => rfl
  · rfl

/-- `fit` is the program run with the environment. -/
theorem fit_run (cfg : Config) (fuel : ℕ) (y : List ℤ) (e0 : Est) (w : W) :
    fit env cfg fuel y e0 w = glueO ((Prog.fit cfg fuel y e0).run env w) := by
  unfold fit Prog.fit Prog.now Prog.call Fit.call Fit.now
  simp only [Prog.run, Env.ask, PS.log, PS.set, St.log, St.set]
  by_cases hc : (Sk.uniqueLabels y).length ≤ 1
  · refine (if_pos hc).trans ?_
    refine Eq.trans ?_ (congrArg (fun p => glueO (Prog.run env p (env.clock w).2)) (if_pos hc).symm)
    rfl
  · refine (if_neg hc).trans ?_
    refine Eq.trans ?_ (congrArg (fun p => glueO (Prog.run env p (env.clock w).2)) (if_neg hc).symm)
    simp only [Prog.run, Env.ask]
    cases h : (env.generateMp (Sk.transform (Sk.uniqueLabels y) y) (env.clock w).2).1 with
    | error e => rfl
    | ok u =>
      simp only [Prog.run_bind]
      rw [loop_run]
      unfold glueO
      generalize (Prog.loop cfg fuel _).run env _ = q
      obtain ⟨⟨r, s⟩, w'⟩ := q
      cases r with
      | none => rfl
      | some r =>
        cases r with
        | error e => rfl
        | ok u =>
          simp only [Option.map_some, Prog.run_bind]
          rw [finish_run]
          rfl

/-! ## Two environments that agree along the run of the first -/

section
open Classical

/-- The first environment with a flag that remembers whether the second one would always have answered alike. -/
noncomputable def watch (env env' : Env W D Col) : Env (W × Bool) D Col where
  clock w := ((env.clock w.1).1, (env.clock w.1).2, w.2 && decide (env'.clock w.1 = env.clock w.1))
  generateMp y w := ((env.generateMp y w.1).1, (env.generateMp y w.1).2, w.2 && decide (env'.generateMp y w.1 = env.generateMp y w.1))
  solveRmp w := ((env.solveRmp w.1).1, (env.solveRmp w.1).2, w.2 && decide (env'.solveRmp w.1 = env.solveRmp w.1))
  improved w := ((env.improved w.1).1, (env.improved w.1).2, w.2 && decide (env'.improved w.1 = env.improved w.1))
  resetFlag w := env.resetFlag w.1
  clearReset w := (env.clearReset w.1, w.2)
  update l i d w := ((env.update l i d w.1).1, (env.update l i d w.1).2, w.2 && decide (env'.update l i d w.1 = env.update l i d w.1))
  generate l i d w := ((env.generate l i d w.1).1, (env.generate l i d w.1).2, w.2 && decide (env'.generate l i d w.1 = env.generate l i d w.1))
  addColumn c w := ((env.addColumn c w.1).1, (env.addColumn c w.1).2, w.2 && decide (env'.addColumn c w.1 = env.addColumn c w.1))
  solveIp w := ((env.solveIp w.1).1, (env.solveIp w.1).2, w.2 && decide (env'.solveIp w.1 = env.solveIp w.1))

variable {env}
variable {env' : Env W D Col} (hflag : env'.resetFlag = env.resetFlag) (hclear : env'.clearReset = env.clearReset)

include hflag hclear

theorem watch_ask (op : Op D Col) (w : W) (b : Bool) :
    ((watch env env').ask op (w, b)).1 = (env.ask op w).1 ∧ ((watch env env').ask op (w, b)).2.1 = (env.ask op w).2 ∧
      (((watch env env').ask op (w, b)).2.2 = true → b = true ∧ env'.ask op w = env.ask op w) := by
  cases op <;> simp [Env.ask, watch, hflag, hclear]

theorem watch_run {α : Type} : ∀ (p : Prog D Col α) (w : W) (b : Bool),
    (p.run (watch env env') (w, b)).1 = (p.run env w).1 ∧ (p.run (watch env env') (w, b)).2.1 = (p.run env w).2 ∧
      ((p.run (watch env env') (w, b)).2.2 = true → b = true ∧ p.run env' w = p.run env w)
  | .ret _, _, _ => ⟨rfl, rfl, fun h => ⟨h, rfl⟩⟩
  | .ask op k, w, b => by
    obtain ⟨h1, h2, h3⟩ := watch_ask hflag hclear op w b
    have ih := watch_run (k ((watch env env').ask op (w, b)).1) ((watch env env').ask op (w, b)).2.1 ((watch env env').ask op (w, b)).2.2
    simp only [Prod.mk.eta] at ih
    rw [h1, h2] at ih
    simp only [Prog.run]
    rw [h1]
    refine ⟨ih.1, ih.2.1, fun h => ?_⟩
    obtain ⟨h4, h5⟩ := ih.2.2 h
    obtain ⟨h6, h7⟩ := h3 h4
    exact ⟨h6, by rw [h7]; exact h5⟩

end

/-- The environments answer alike wherever the invariant `J` of the first one holds. -/
structure Agree (env env' : Env W D Col) (cfg : Config) (py : List ℕ) (J : W → List (Ev D Col) → Prop) : Prop where
  clock : env'.clock = env.clock
  flag : env'.resetFlag = env.resetFlag
  clear : env'.clearReset = env.clearReset
  generateMp : ∀ w t, J w [.timer t] → env'.generateMp py w = env.generateMp py w
  solveRmp : ∀ w tr, Protocol cfg tr → Allowed cfg tr (.solveRmp (env.solveRmp w).1) → J w tr → env'.solveRmp w = env.solveRmp w
  improved : ∀ w tr, Protocol cfg tr → Allowed cfg tr (.improved (env.improved w).1) → J w tr → env'.improved w = env.improved w
  update : ∀ w tr l i d, Protocol cfg tr → Allowed cfg tr (.update l i d (env.update l i d w).1) → J w tr →
    env'.update l i d w = env.update l i d w
  generate : ∀ w tr l i d, Protocol cfg tr → Allowed cfg tr (.generate l i d (env.generate l i d w).1) → J w tr →
    env'.generate l i d w = env.generate l i d w
  add : ∀ w tr l i c, Protocol cfg tr → Allowed cfg tr (.add l i c (env.addColumn c w).1) → J w tr → env'.addColumn c w = env.addColumn c w
  solveIp : ∀ w tr, Protocol cfg tr → Allowed cfg tr (.solveIp (env.solveIp w).1) → J w tr → env'.solveIp w = env.solveIp w

variable {env} {env' : Env W D Col} {cfg : Config} {y : List ℤ} {J : W → List (Ev D Col) → Prop}

theorem watch_guided {py : List ℕ} (hJ : Guided env cfg py J) (hA : Agree env env' cfg py J) :
    Guided (watch env env') cfg py (fun w tr => J w.1 tr ∧ w.2 = true) where
  clock w tr h := ⟨hJ.clock _ _ h.1, by simp [watch, h.2, hA.clock]⟩
  timer w tr t hp h := ⟨hJ.timer _ _ _ hp h.1, h.2⟩
  check w tr s t hp h := ⟨hJ.check _ _ _ _ hp h.1, h.2⟩
  flag w tr hp h := ⟨hJ.flag _ _ hp h.1, h.2⟩
  clear w tr h := ⟨hJ.clear _ _ h.1, h.2⟩
  generateMp w t h := ⟨hJ.generateMp _ _ h.1, by simp [watch, h.2, hA.generateMp _ _ h.1]⟩
  solveRmp w tr hp ha h := ⟨hJ.solveRmp _ _ hp ha h.1, by simp [watch, h.2, hA.solveRmp _ _ hp ha h.1]⟩
  improved w tr hp ha h := ⟨hJ.improved _ _ hp ha h.1, by simp [watch, h.2, hA.improved _ _ hp ha h.1]⟩
  update w tr l i d hp ha h := ⟨hJ.update _ _ _ _ _ hp ha h.1, by simp [watch, h.2, hA.update _ _ _ _ _ hp ha h.1]⟩
  generate w tr l i d hp ha h := ⟨hJ.generate _ _ _ _ _ hp ha h.1, by simp [watch, h.2, hA.generate _ _ _ _ _ hp ha h.1]⟩
  add w tr l i c hp ha h := ⟨hJ.add _ _ _ _ _ hp ha h.1, by simp [watch, h.2, hA.add _ _ _ _ _ hp ha h.1]⟩
  solveIp w tr hp ha h := ⟨hJ.solveIp _ _ hp ha h.1, by simp [watch, h.2, hA.solveIp _ _ hp ha h.1]⟩

/-- Environments that agree wherever an invariant of the first one holds have the same runs. -/
theorem fit_congr (hJ : Guided env cfg (Sk.transform (Sk.uniqueLabels y) y) J) (hA : Agree env env' cfg (Sk.transform (Sk.uniqueLabels y) y) J)
    {w0 : W} (h0 : J w0 []) {fuel : ℕ} {e0 : Est} {r : Except Err Unit × St W D Col} (hr : fit env cfg fuel y e0 w0 = some r) :
    fit env' cfg fuel y e0 w0 = some r := by
  obtain ⟨h1, h2, h3⟩ := watch_run (env := env) (env' := env') hA.flag hA.clear (Prog.fit cfg fuel y e0) w0 true
  have hw : ∃ q, fit (watch env env') cfg fuel y e0 (w0, true) = some q ∧ q.2.world = ((Prog.fit cfg fuel y e0).run (watch env env') (w0, true)).2 := by
    rw [fit_run] at hr ⊢
    unfold glueO at hr ⊢
    rw [← h1] at hr
    cases hn : ((Prog.fit cfg fuel y e0).run (watch env env') (w0, true)).1.1 with
    | none => rw [hn] at hr; simp at hr
    | some a => exact ⟨_, rfl, rfl⟩
  obtain ⟨q, hq, hqw⟩ := hw
  have hb := ((watch_guided hJ hA).fit (w0 := (w0, true)) ⟨h0, rfl⟩ hq).2
  rw [hqw] at hb
  rw [fit_run, (h3 hb).2, ← fit_run]
  exact hr

end Verif.Fit
