import Verif.Fit.Model

/-!
# Two runs of the loop side by side

If two families of plug-ins answer alike, then without time limit the two runs of `fit` agree on everything but measured times.
-/

namespace Verif.Fit

variable {W W' D Col : Type}

namespace Spec

/-- The attributes that are not measured times agree. -/
structure SameResult (e e' : Est) : Prop where
  isFitted : e.isFitted = e'.isFitted
  classes : e.classes = e'.classes
  iter : e.iter = e'.iter
  performedIter : e.performedIter = e'.performedIter
  numImproving : e.numImproving = e'.numImproving
  mpOptimal : e.mpOptimal = e'.mpOptimal
  timeLimitReached : e.timeLimitReached = e'.timeLimitReached
  numColAdded : e.numColAdded = e'.numColAdded

/-- An event that is not a reading of the clock. -/
def Untimed : Ev D Col → Bool
  | .timer _ => false
  | .check _ _ => false
  | _ => true

/-- The calls on the master problem and the subproblems, with their results, agree. -/
def SameCalls (t t' : List (Ev D Col)) : Prop := t.filter Untimed = t'.filter Untimed

end Spec

open Spec

/-- What may be passed to the plug-ins: encoded labels, duals, columns, and the worlds in which the integer master is solved. -/
structure Scope (W' D Col : Type) where
  labels : List ℕ → Prop
  duals : D → Prop
  col : Col → Prop
  final : W' → Prop

/-- No restriction. -/
def Scope.all : Scope W' D Col := ⟨fun _ => True, fun _ => True, fun _ => True, fun _ => True⟩

/-- Plug-ins that answer alike on related worlds, for the arguments that can occur. -/
structure Sim (env : Env W D Col) (env' : Env W' D Col) (P : Scope W' D Col) (R : W → W' → Prop) : Prop where
  clock : ∀ w w', R w w' → R (env.clock w).2 (env'.clock w').2
  generateMp : ∀ y w w', P.labels y → R w w' →
    (env.generateMp y w).1 = (env'.generateMp y w').1 ∧ R (env.generateMp y w).2 (env'.generateMp y w').2
  solveRmp : ∀ w w', R w w' → (env.solveRmp w).1 = (env'.solveRmp w').1 ∧ R (env.solveRmp w).2 (env'.solveRmp w').2
  duals : ∀ w w' d, R w w' → (env'.solveRmp w').1 = .ok d → P.duals d
  improved : ∀ w w', R w w' → (env.improved w).1 = (env'.improved w').1 ∧ R (env.improved w).2 (env'.improved w').2
  resetFlag : ∀ w w', R w w' → env.resetFlag w = env'.resetFlag w'
  clearReset : ∀ w w', R w w' → R (env.clearReset w) (env'.clearReset w')
  update : ∀ l i d w w', P.duals d → R w w' →
    (env.update l i d w).1 = (env'.update l i d w').1 ∧ R (env.update l i d w).2 (env'.update l i d w').2
  generate : ∀ l i d w w', P.duals d → R w w' →
    (env.generate l i d w).1 = (env'.generate l i d w').1 ∧ R (env.generate l i d w).2 (env'.generate l i d w').2
  cols : ∀ l i d w w' cs, P.duals d → R w w' → (env'.generate l i d w').1 = .ok cs → ∀ c ∈ cs, P.col c
  addColumn : ∀ c w w', P.col c → R w w' →
    (env.addColumn c w).1 = (env'.addColumn c w').1 ∧ R (env.addColumn c w).2 (env'.addColumn c w').2
  solveIp : ∀ w w', P.final w' → R w w' → (env.solveIp w).1 = (env'.solveIp w').1 ∧ R (env.solveIp w).2 (env'.solveIp w').2

/-- Related machine states. -/
structure Rel (R : W → W' → Prop) (s : St W D Col) (s' : St W' D Col) : Prop where
  est : SameResult s.est s'.est
  world : R s.world s'.world
  trace : SameCalls s.trace s'.trace

/-- Related results. -/
def RelRes {α : Type} (R : W → W' → Prop) (r : Except Err α × St W D Col) (r' : Except Err α × St W' D Col) : Prop :=
  r.1 = r'.1 ∧ Rel R r.2 r'.2

variable {env : Env W D Col} {env' : Env W' D Col} {P : Scope W' D Col} {R : W → W' → Prop} {s : St W D Col}
  {s' : St W' D Col}

theorem SameResult.refl (e : Est) : SameResult e e := ⟨rfl, rfl, rfl, rfl, rfl, rfl, rfl, rfl⟩

theorem Rel.log (h : Rel R s s') (e e' : Ev D Col) (he : e = e' ∨ (Untimed e = false ∧ Untimed e' = false)) :
    Rel R (s.log e) (s'.log e') := by
  refine ⟨h.est, h.world, ?_⟩
  unfold SameCalls St.log
  simp only [List.filter_append]
  rw [show s.trace.filter Untimed = s'.trace.filter Untimed from h.trace]
  rcases he with rfl | ⟨h1, h2⟩
  · rfl
  · simp [h1, h2]

theorem Rel.now (hs : Sim env env' P R) (h : Rel R s s') : Rel R (now env s).2 (now env' s').2 :=
  ⟨h.est, hs.clock _ _ h.world, h.trace⟩

theorem Rel.set (h : Rel R s s') {f f' : Est → Est} (hf : SameResult (f s.est) (f' s'.est)) : Rel R (s.set f) (s'.set f') :=
  ⟨hf, h.world, h.trace⟩

theorem Rel.call {α : Type} (h : Rel R s s') {f : W → Except Err α × W} {f' : W' → Except Err α × W'} (ev : Except Err α → Ev D Col)
    (hf : (f s.world).1 = (f' s'.world).1 ∧ R (f s.world).2 (f' s'.world).2) : RelRes R (call f ev s) (call f' ev s') := by
  obtain ⟨h1, h2⟩ := hf
  refine ⟨h1, h.est, h2, ?_⟩
  unfold SameCalls Fit.call
  simp only [List.filter_append, h1]
  rw [show s.trace.filter Untimed = s'.trace.filter Untimed from h.trace]

theorem addCols_rel (hs : Sim env env' P R) (l i : ℕ) : ∀ (cs : List Col) (b : Bool) (s : St W D Col) (s' : St W' D Col),
    (∀ c ∈ cs, P.col c) → Rel R s s' → RelRes R (addCols env l i cs b s) (addCols env' l i cs b s')
  | [], _, _, _, _, h => ⟨rfl, h⟩
  | c :: cs, b, s, s', hq, h => by
    unfold addCols
    have hc := h.call (.add l i c) (hs.addColumn c _ _ (hq c List.mem_cons_self) h.world)
    generalize call (env.addColumn c) (.add l i c) s = r at hc
    generalize call (env'.addColumn c) (.add l i c) s' = r' at hc
    obtain ⟨r, s1⟩ := r
    obtain ⟨r', s1'⟩ := r'
    obtain ⟨rfl, h1⟩ := hc
    cases r with
    | error e => exact ⟨rfl, h1⟩
    | ok added =>
      refine addCols_rel hs l i cs _ _ _ (fun c' hc' => hq c' (List.mem_cons_of_mem _ hc')) (h1.set ?_)
      have he := h1.est
      exact ⟨he.1, he.2, he.3, he.4, he.5, he.6, he.7, by simp only; rw [he.8]⟩

theorem spLoop_rel (hs : Sim env env' P R) (cfg : Config) (hl : ¬ cfg.timeLimit > 0) (d : D) (hd : P.duals d) (l : ℕ) :
    ∀ (is : List ℕ) (s : St W D Col) (s' : St W' D Col), Rel R s s' → RelRes R (spLoop env cfg d l is s) (spLoop env' cfg d l is s')
  | [], _, _, h => ⟨rfl, h⟩
  | i :: is, s, s', h => by
    unfold spLoop
    simp only [hl, decide_false, Bool.false_and, Bool.false_eq_true, if_false]
    have h1 := h.now hs
    have h2 := h1.set (f := fun e => { e with timeElapsed := (Fit.now env s).1 - e.tStart })
      (f' := fun e => { e with timeElapsed := (Fit.now env' s').1 - e.tStart }) ⟨h1.est.1, h1.est.2, h1.est.3, h1.est.4, h1.est.5, h1.est.6, h1.est.7, h1.est.8⟩
    have h3 := (h2.log (.check ((Fit.now env s).2.set (fun e => { e with timeElapsed := (Fit.now env s).1 - e.tStart })).est.tStart (Fit.now env s).1)
      (.check ((Fit.now env' s').2.set (fun e => { e with timeElapsed := (Fit.now env' s').1 - e.tStart })).est.tStart (Fit.now env' s').1)
      (Or.inr ⟨rfl, rfl⟩)).now hs
    have hc := h3.call (.generate l i d) (hs.generate l i d _ _ hd h3.world)
    have hq : ∀ cs, (call (env'.generate l i d) (.generate l i d) (Fit.now env' (St.log ((Fit.now env' s').2.set
        (fun e => { e with timeElapsed := (Fit.now env' s').1 - e.tStart })) (.check ((Fit.now env' s').2.set (fun e =>
        { e with timeElapsed := (Fit.now env' s').1 - e.tStart })).est.tStart (Fit.now env' s').1))).2).1 = .ok cs → ∀ c ∈ cs, P.col c :=
      fun cs hcs => hs.cols l i d _ _ cs hd h3.world hcs
    revert hc hq
    generalize call (env.generate l i d) (.generate l i d) _ = r
    generalize call (env'.generate l i d) (.generate l i d) _ = r'
    generalize (Fit.now env (St.log _ _)).1 = t0
    generalize (Fit.now env' (St.log _ _)).1 = t0'
    intro hc hq
    obtain ⟨r, s1⟩ := r
    obtain ⟨r', s1'⟩ := r'
    obtain ⟨rfl, h4⟩ := hc
    cases r with
    | error e => exact ⟨rfl, h4⟩
    | ok cols =>
      simp only
      have h5 := h4.now hs
      have ha := addCols_rel hs l i cols false _ _ (hq cols rfl) (Rel.now hs (h5.set
        (f := fun e => { e with timeSpentSp := bump e.timeSpentSp l i ((Fit.now env s1).1 - t0) })
        (f' := fun e => { e with timeSpentSp := bump e.timeSpentSp l i ((Fit.now env' s1').1 - t0') })
        ⟨h5.est.1, h5.est.2, h5.est.3, h5.est.4, h5.est.5, h5.est.6, h5.est.7, h5.est.8⟩))
      revert ha
      generalize addCols env l i cols false _ = q
      generalize addCols env' l i cols false _ = q'
      intro ha
      obtain ⟨q, s2⟩ := q
      obtain ⟨q', s2'⟩ := q'
      obtain ⟨rfl, h6⟩ := ha
      cases q with
      | error e => exact ⟨rfl, h6⟩
      | ok upd =>
        simp only
        have h7 := h6.now hs
        cases upd with
        | true =>
          refine ⟨rfl, ?_⟩
          simp only [if_true]
          refine h7.set ?_
          exact ⟨h7.est.1, h7.est.2, h7.est.3, h7.est.4, h7.est.5, h7.est.6, h7.est.7, h7.est.8⟩
        | false =>
          refine spLoop_rel hs cfg hl d hd l is _ _ (h7.set ?_)
          exact ⟨h7.est.1, h7.est.2, h7.est.3, h7.est.4, h7.est.5, h7.est.6, h7.est.7, h7.est.8⟩

theorem levelLoop_rel (hs : Sim env env' P R) (cfg : Config) (hl : ¬ cfg.timeLimit > 0) (d : D) (hd : P.duals d) :
    ∀ (ls : List (ℕ × ℕ)) (s : St W D Col) (s' : St W' D Col), Rel R s s' → RelRes R (levelLoop env cfg d ls s) (levelLoop env' cfg d ls s')
  | [], _, _, h => ⟨rfl, h⟩
  | (l, n) :: ls, s, s', h => by
    unfold levelLoop
    have hr := spLoop_rel hs cfg hl d hd l (List.range n) s s' h
    revert hr
    generalize spLoop env cfg d l (List.range n) s = r
    generalize spLoop env' cfg d l (List.range n) s' = r'
    intro hr
    obtain ⟨r, s1⟩ := r
    obtain ⟨r', s1'⟩ := r'
    obtain ⟨rfl, h1⟩ := hr
    cases r with
    | error e => exact ⟨rfl, h1⟩
    | ok upd =>
      have h2 := h1.now hs
      have h3 := h2.set (f := fun e => { e with timeElapsed := (Fit.now env s1).1 - e.tStart })
        (f' := fun e => { e with timeElapsed := (Fit.now env' s1').1 - e.tStart })
        ⟨h2.est.1, h2.est.2, h2.est.3, h2.est.4, h2.est.5, h2.est.6, h2.est.7, h2.est.8⟩
      simp only
      have e7 := h3.est.7
      revert h3 e7
      generalize (Fit.now env s1).2.set _ = a
      generalize (Fit.now env' s1').2.set _ = a'
      intro h3 e7
      rw [e7]
      split
      · exact ⟨rfl, h3⟩
      · split
        · exact ⟨rfl, h3⟩
        · exact levelLoop_rel hs cfg hl d hd ls _ _ h3

theorem updateLoop_rel (hs : Sim env env' P R) (d : D) (hd : P.duals d) :
    ∀ (ps : List (ℕ × ℕ)) (s : St W D Col) (s' : St W' D Col), Rel R s s' → RelRes R (updateLoop env d ps s) (updateLoop env' d ps s')
  | [], _, _, h => ⟨rfl, h⟩
  | (l, i) :: ps, s, s', h => by
    unfold updateLoop
    have hc := (h.now hs).call (.update l i d) (hs.update l i d _ _ hd (h.now hs).world)
    simp only
    revert hc
    generalize call (env.update l i d) (.update l i d) _ = r
    generalize call (env'.update l i d) (.update l i d) _ = r'
    intro hc
    obtain ⟨r, s1⟩ := r
    obtain ⟨r', s1'⟩ := r'
    obtain ⟨rfl, h1⟩ := hc
    cases r with
    | error e => exact ⟨rfl, h1⟩
    | ok u =>
      refine updateLoop_rel hs d hd ps _ _ ((h1.now hs).set ?_)
      have he := (h1.now hs).est
      exact ⟨he.1, he.2, he.3, he.4, he.5, he.6, he.7, he.8⟩

theorem resetTimer_rel (hs : Sim env env' P R) (h : Rel R s s') : Rel R (resetTimer env s) (resetTimer env' s') := by
  unfold resetTimer
  have e := hs.resetFlag _ _ h.world
  simp only
  rw [e]
  have h1 := h.log (.resetFlag (env'.resetFlag s'.world)) (.resetFlag (env'.resetFlag s'.world)) (Or.inl rfl)
  split
  · have h2 := h1.now hs
    have h3 := (h2.set (f := fun e => { e with tStart := (Fit.now env (s.log (.resetFlag (env'.resetFlag s'.world)))).1 })
      (f' := fun e => { e with tStart := (Fit.now env' (s'.log (.resetFlag (env'.resetFlag s'.world)))).1 })
      ⟨h2.est.1, h2.est.2, h2.est.3, h2.est.4, h2.est.5, h2.est.6, h2.est.7, h2.est.8⟩).log
      (.timer (Fit.now env (s.log (.resetFlag (env'.resetFlag s'.world)))).1)
      (.timer (Fit.now env' (s'.log (.resetFlag (env'.resetFlag s'.world)))).1) (Or.inr ⟨rfl, rfl⟩)
    exact ⟨h3.est, hs.clearReset _ _ h3.world, h3.trace⟩
  · exact h1

theorem body_rel (hs : Sim env env' P R) (cfg : Config) (hl : ¬ cfg.timeLimit > 0) (h : Rel R s s') :
    RelRes R (body env cfg s) (body env' cfg s') := by
  unfold body
  have h0 := h.set (f := fun e => { e with iter := e.iter + 1 }) (f' := fun e => { e with iter := e.iter + 1 })
    ⟨h.est.1, h.est.2, by simp only; rw [h.est.3], h.est.4, h.est.5, h.est.6, h.est.7, h.est.8⟩
  have hc := ((h0.now hs).now hs).call .solveRmp (hs.solveRmp _ _ ((h0.now hs).now hs).world)
  have hq : ∀ d, (call env'.solveRmp .solveRmp (Fit.now env' (Fit.now env' (s'.set (fun e => { e with iter := e.iter + 1 }))).2).2).1 =
      .ok d → P.duals d := fun d hd => hs.duals _ _ d ((h0.now hs).now hs).world hd
  simp only
  revert hc hq
  generalize call env.solveRmp .solveRmp _ = r
  generalize call env'.solveRmp .solveRmp _ = r'
  generalize (Fit.now env (Prod.snd _)).1 = t0
  generalize (Fit.now env' (Prod.snd _)).1 = t0'
  intro hc hq
  obtain ⟨r, s1⟩ := r
  obtain ⟨r', s1'⟩ := r'
  obtain ⟨rfl, h1⟩ := hc
  cases r with
  | error e => exact ⟨rfl, h1⟩
  | ok d =>
    simp only
    have hd := hq d rfl
    have h2 := h1.now hs
    have h2 := (h2.set (f := fun e => { e with timeSpentMaster := e.timeSpentMaster + ((Fit.now env s1).1 - t0) })
      (f' := fun e => { e with timeSpentMaster := e.timeSpentMaster + ((Fit.now env' s1').1 - t0') })
      ⟨h2.est.1, h2.est.2, h2.est.3, h2.est.4, h2.est.5, h2.est.6, h2.est.7, h2.est.8⟩)
    have hc := h2.call .improved (hs.improved _ _ h2.world)
    revert hc
    generalize call env.improved .improved _ = r
    generalize call env'.improved .improved _ = r'
    intro hc
    obtain ⟨r, s2⟩ := r
    obtain ⟨r', s2'⟩ := r'
    obtain ⟨rfl, h3⟩ := hc
    cases r with
    | error e => exact ⟨rfl, h3⟩
    | ok b =>
      simp only
      have hu := updateLoop_rel hs d hd (positions cfg.shape) _ _ (resetTimer_rel hs (h3.set
        (f := fun e => { e with numImproving := e.numImproving + (if b then 1 else 0) })
        (f' := fun e => { e with numImproving := e.numImproving + (if b then 1 else 0) })
        ⟨h3.est.1, h3.est.2, h3.est.3, h3.est.4, by simp only; rw [h3.est.5], h3.est.6, h3.est.7, h3.est.8⟩))
      revert hu
      generalize updateLoop env d (positions cfg.shape) _ = r
      generalize updateLoop env' d (positions cfg.shape) _ = r'
      intro hu
      obtain ⟨r, s3⟩ := r
      obtain ⟨r', s3'⟩ := r'
      obtain ⟨rfl, h4⟩ := hu
      cases r with
      | error e => exact ⟨rfl, h4⟩
      | ok u =>
        simp only
        have hv := levelLoop_rel hs cfg hl d hd (levels cfg.shape) _ _ h4
        revert hv
        generalize levelLoop env cfg d (levels cfg.shape) _ = r
        generalize levelLoop env' cfg d (levels cfg.shape) _ = r'
        intro hv
        obtain ⟨r, s4⟩ := r
        obtain ⟨r', s4'⟩ := r'
        obtain ⟨rfl, h5⟩ := hv
        cases r with
        | error e => exact ⟨rfl, h5⟩
        | ok upd =>
          simp only
          split
          · exact ⟨rfl, h5⟩
          · refine ⟨rfl, ?_⟩
            simp only
            rw [h5.est.7]
            split
            · exact h5
            · exact h5.set ⟨h5.est.1, h5.est.2, h5.est.3, h5.est.4, h5.est.5, rfl, h5.est.7, h5.est.8⟩

/-- Related results of runs with fuel. -/
def RelOpt (R : W → W' → Prop) : Option (Except Err Unit × St W D Col) → Option (Except Err Unit × St W' D Col) → Prop
  | none, none => True
  | some r, some r' => RelRes R r r'
  | _, _ => False

theorem RelOpt.exists {x : Option (Except Err Unit × St W D Col)} {x' : Option (Except Err Unit × St W' D Col)} (h : RelOpt R x x')
    {r : Except Err Unit} {s' : St W' D Col} (hx : x' = some (r, s')) : ∃ s, x = some (r, s) ∧ Rel R s s' := by
  subst hx
  match x, h with
  | some (r1, s), ⟨e, hr⟩ =>
    simp only at e hr
    subst e
    exact ⟨s, rfl, hr⟩

theorem loop_rel (hs : Sim env env' P R) (cfg : Config) (hl : ¬ cfg.timeLimit > 0) :
    ∀ (n : ℕ) (s : St W D Col) (s' : St W' D Col), Rel R s s' → RelOpt R (loop env cfg n s) (loop env' cfg n s')
  | 0, _, _, _ => trivial
  | n + 1, s, s', h => by
    unfold loop
    rw [h.est.3]
    split
    · exact ⟨rfl, h⟩
    · have hb := body_rel hs cfg hl h
      revert hb
      generalize body env cfg s = r
      generalize body env' cfg s' = r'
      intro hb
      obtain ⟨r, s1⟩ := r
      obtain ⟨r', s1'⟩ := r'
      obtain ⟨rfl, h1⟩ := hb
      match r with
      | .error e => exact ⟨rfl, h1⟩
      | .ok true => exact loop_rel hs cfg hl n _ _ h1
      | .ok false => exact ⟨rfl, h1⟩

theorem finish_rel (hs : Sim env env' P R) (cfg : Config) (hF : P.final (Fit.now env' s').2.world) (h : Rel R s s') : RelRes R (finish env cfg s) (finish env' cfg s') := by
  have hdone : ∀ {s : St W D Col} {s' : St W' D Col}, Rel R s s' → RelRes (α := Unit) R
      (.ok (), (Fit.now env (s.set (fun e => { e with isFitted := true }))).2.set
        (fun e => { e with timeElapsed := (Fit.now env (s.set (fun e => { e with isFitted := true }))).1 - e.tStart }))
      (.ok (), (Fit.now env' (s'.set (fun e => { e with isFitted := true }))).2.set
        (fun e => { e with timeElapsed := (Fit.now env' (s'.set (fun e => { e with isFitted := true }))).1 - e.tStart })) := by
    intro s s' h
    have h1 := h.set (f := fun e => { e with isFitted := true }) (f' := fun e => { e with isFitted := true })
      ⟨rfl, h.est.2, h.est.3, h.est.4, h.est.5, h.est.6, h.est.7, h.est.8⟩
    have h2 := h1.now hs
    refine ⟨rfl, ?_⟩
    simp only
    exact h2.set ⟨h2.est.1, h2.est.2, h2.est.3, h2.est.4, h2.est.5, h2.est.6, h2.est.7, h2.est.8⟩
  unfold finish
  have h0 := h.set (f := fun e => { e with timeSpentMasterIp := 0 }) (f' := fun e => { e with timeSpentMasterIp := 0 })
    ⟨h.est.1, h.est.2, h.est.3, h.est.4, h.est.5, h.est.6, h.est.7, h.est.8⟩
  cases cfg.rmpIsIp with
  | false => exact hdone h0
  | true =>
    have hc := (h0.now hs).call .solveIp (hs.solveIp _ _ hF (h0.now hs).world)
    simp only [if_true]
    revert hc
    generalize call env.solveIp .solveIp _ = r
    generalize call env'.solveIp .solveIp _ = r'
    intro hc
    obtain ⟨r, s1⟩ := r
    obtain ⟨r', s1'⟩ := r'
    obtain ⟨rfl, h1⟩ := hc
    cases r with
    | error e => exact ⟨rfl, h1⟩
    | ok b =>
      have h2 := h1.now hs
      have h3 := h2.set
        (f := fun e => { e with timeSpentMasterIp := e.timeSpentMasterIp + ((Fit.now env s1).1 -
          (Fit.now env (s.set (fun e => { e with timeSpentMasterIp := 0 }))).1) })
        (f' := fun e => { e with timeSpentMasterIp := e.timeSpentMasterIp + ((Fit.now env' s1').1 -
          (Fit.now env' (s'.set (fun e => { e with timeSpentMasterIp := 0 }))).1) })
        ⟨h2.est.1, h2.est.2, h2.est.3, h2.est.4, h2.est.5, h2.est.6, h2.est.7, h2.est.8⟩
      cases b with
      | true => exact hdone h3
      | false => exact ⟨rfl, h3⟩

/-- The state in which `fit` enters the loop, when `generate_mp` does not raise. -/
def preLoop (env : Env W D Col) (cfg : Config) (y : List ℤ) (e : Est) (w : W) : St W D Col :=
  (call (env.generateMp (Sk.transform (Sk.uniqueLabels y) y)) (.generateMp (Sk.transform (Sk.uniqueLabels y) y))
    ((((now env ⟨e, w, []⟩).2.set (fun x => { x with tStart := (now env (⟨e, w, []⟩ : St W D Col)).1 })).log
      (.timer (now env (⟨e, w, []⟩ : St W D Col)).1)).set (fun x => { x with classes := Sk.uniqueLabels y }))).2.set (initEst cfg.shape)

theorem fit_rel (hs : Sim env env' P R) (cfg : Config) (hl : ¬ cfg.timeLimit > 0) (fuel : ℕ) (y : List ℤ)
    (hy : P.labels (Sk.transform (Sk.uniqueLabels y) y)) {e e' : Est} (he : SameResult e e')
    {w : W} {w' : W'} (hw : R w w')
    (hF : ∀ s', loop env' cfg fuel (preLoop env' cfg y e' w') = some (.ok (), s') → P.final (now env' s').2.world) :
    RelOpt R (fit env cfg fuel y e w) (fit env' cfg fuel y e' w') := by
  have h0 : Rel R (⟨e, w, []⟩ : St W D Col) (⟨e', w', []⟩ : St W' D Col) := ⟨he, hw, rfl⟩
  have h1 := h0.now hs
  have h2 := (h1.set (f := fun x => { x with tStart := (Fit.now env (⟨e, w, []⟩ : St W D Col)).1 })
    (f' := fun x => { x with tStart := (Fit.now env' (⟨e', w', []⟩ : St W' D Col)).1 })
    ⟨h1.est.1, h1.est.2, h1.est.3, h1.est.4, h1.est.5, h1.est.6, h1.est.7, h1.est.8⟩).log
      (.timer (Fit.now env (⟨e, w, []⟩ : St W D Col)).1) (.timer (Fit.now env' (⟨e', w', []⟩ : St W' D Col)).1) (Or.inr ⟨rfl, rfl⟩)
  have h3 := h2.set (f := fun x => { x with classes := Sk.uniqueLabels y }) (f' := fun x => { x with classes := Sk.uniqueLabels y })
    ⟨h2.est.1, rfl, h2.est.3, h2.est.4, h2.est.5, h2.est.6, h2.est.7, h2.est.8⟩
  unfold fit
  simp only
  have ec := h3.est.2
  unfold preLoop at hF
  revert h3 ec hF
  generalize St.set _ (fun x => { x with classes := Sk.uniqueLabels y }) = a'
  generalize St.set _ (fun x => { x with classes := Sk.uniqueLabels y }) = a
  intro hF h3 ec
  rw [ec]
  split
  · exact ⟨rfl, h3⟩
  · have hc := h3.call (.generateMp (Sk.transform (Sk.uniqueLabels y) y)) (hs.generateMp (Sk.transform (Sk.uniqueLabels y) y) _ _ hy h3.world)
    revert hc hF
    generalize call (env.generateMp _) _ _ = r
    generalize call (env'.generateMp _) _ _ = r'
    intro hF hc
    obtain ⟨r, s1⟩ := r
    obtain ⟨r', s1'⟩ := r'
    obtain ⟨rfl, h4⟩ := hc
    cases r with
    | error e => exact ⟨rfl, h4⟩
    | ok u =>
      simp only
      have h5 := h4.set (f := initEst cfg.shape) (f' := initEst cfg.shape) ⟨h4.est.1, h4.est.2, rfl, rfl, rfl, rfl, rfl, rfl⟩
      have hr := loop_rel hs cfg hl fuel _ _ h5
      revert hr hF
      generalize loop env cfg fuel _ = r
      generalize loop env' cfg fuel _ = r'
      intro hF hr
      match r, r', hr, hF with
      | none, none, _, _ => trivial
      | some (r, t), some (r', t'), hr, hF =>
        obtain ⟨e1, h6⟩ := hr
        simp only at e1 h6
        subst e1
        cases r with
        | error e => exact ⟨rfl, h6⟩
        | ok u => exact finish_rel hs cfg (hF t' rfl) h6

/-- What `fit` does after the loop. -/
def fitTail (env : Env W D Col) (cfg : Config) : Option (Except Err Unit × St W D Col) → Option (Except Err Unit × St W D Col)
  | none => none
  | some (.error e, s) => some (.error e, s)
  | some (.ok _, s) => some (finish env cfg s)

theorem fit_eq_tail (env : Env W D Col) (cfg : Config) (fuel : ℕ) (y : List ℤ) (e : Est) (w : W) (hc : ¬ (Sk.uniqueLabels y).length ≤ 1)
    (hg : (env.generateMp (Sk.transform (Sk.uniqueLabels y) y) (env.clock w).2).1 = .ok ()) :
    fit env cfg fuel y e w = fitTail env cfg (loop env cfg fuel (preLoop env cfg y e w)) := by
  unfold fit preLoop
  simp only
  have hc' : ¬ ((((now env (⟨e, w, []⟩ : St W D Col)).2.set (fun x => { x with tStart := (now env (⟨e, w, []⟩ : St W D Col)).1 })).log
        (.timer (now env (⟨e, w, []⟩ : St W D Col)).1)).set (fun x => { x with classes := Sk.uniqueLabels y })).est.classes.length ≤ 1 := hc
  rw [if_neg hc']
  have h1 : (call (env.generateMp (Sk.transform (Sk.uniqueLabels y) y)) (.generateMp (Sk.transform (Sk.uniqueLabels y) y))
      ((((now env ⟨e, w, []⟩).2.set (fun x => { x with tStart := (now env (⟨e, w, []⟩ : St W D Col)).1 })).log
        (.timer (now env (⟨e, w, []⟩ : St W D Col)).1)).set (fun x => { x with classes := Sk.uniqueLabels y }))).1 = .ok () := hg
  revert h1
  generalize call (env.generateMp (Sk.transform (Sk.uniqueLabels y) y)) (.generateMp (Sk.transform (Sk.uniqueLabels y) y)) _ = r
  intro h1
  obtain ⟨r, s⟩ := r
  simp only at h1
  subst h1
  simp only
  generalize loop env cfg fuel _ = q
  match q with
  | none => rfl
  | some (.error e, s) => rfl
  | some (.ok _, s) => rfl

/-- `fit_rel` when the worlds are related only from the start of the loop on. -/
theorem fitTail_rel (hs : Sim env env' P R) (cfg : Config) (hl : ¬ cfg.timeLimit > 0) (fuel : ℕ) (h : Rel R s s')
    (hF : ∀ t', loop env' cfg fuel s' = some (.ok (), t') → P.final (now env' t').2.world) :
    RelOpt R (fitTail env cfg (loop env cfg fuel s)) (fitTail env' cfg (loop env' cfg fuel s')) := by
  have hr := loop_rel hs cfg hl fuel _ _ h
  revert hr hF
  generalize loop env cfg fuel s = r
  generalize loop env' cfg fuel s' = r'
  intro hF hr
  match r, r', hr, hF with
  | none, none, _, _ => trivial
  | some (r, t), some (r', t'), hr, hF =>
    obtain ⟨e1, h6⟩ := hr
    simp only at e1 h6
    subst e1
    cases r with
    | error e => exact ⟨rfl, h6⟩
    | ok u => exact finish_rel hs cfg (hF t' rfl) h6

end Verif.Fit
