import Verif.Fit.Model

/-!
# Two runs of the loop in lockstep

If two families of plug-ins and their clocks answer alike on related worlds, then the two runs of `fit` agree in everything: exceptions,
attributes (also the measured times), calls and their results. Time limits are allowed.
-/

namespace Verif.Fit

variable {W W' D Col : Type}

/-- Plug-ins that answer alike on related worlds; `col` are the columns that may be passed to `add_column`. -/
structure Twins (env : Env W D Col) (env' : Env W' D Col) (col : Col → Prop) (R : W → W' → Prop) : Prop where
  clock : ∀ w w', R w w' → (env.clock w).1 = (env'.clock w').1 ∧ R (env.clock w).2 (env'.clock w').2
  generateMp : ∀ y w w', R w w' → (env.generateMp y w).1 = (env'.generateMp y w').1 ∧ R (env.generateMp y w).2 (env'.generateMp y w').2
  solveRmp : ∀ w w', R w w' → (env.solveRmp w).1 = (env'.solveRmp w').1 ∧ R (env.solveRmp w).2 (env'.solveRmp w').2
  improved : ∀ w w', R w w' → (env.improved w).1 = (env'.improved w').1 ∧ R (env.improved w).2 (env'.improved w').2
  resetFlag : ∀ w w', R w w' → env.resetFlag w = env'.resetFlag w'
  clearReset : ∀ w w', R w w' → R (env.clearReset w) (env'.clearReset w')
  update : ∀ l i d w w', R w w' → (env.update l i d w).1 = (env'.update l i d w').1 ∧ R (env.update l i d w).2 (env'.update l i d w').2
  generate : ∀ l i d w w', R w w' →
    (env.generate l i d w).1 = (env'.generate l i d w').1 ∧ R (env.generate l i d w).2 (env'.generate l i d w').2
  cols : ∀ l i d w w' cs, R w w' → (env.generate l i d w).1 = .ok cs → ∀ c ∈ cs, col c
  addColumn : ∀ c w w', col c → R w w' → (env.addColumn c w).1 = (env'.addColumn c w').1 ∧ R (env.addColumn c w).2 (env'.addColumn c w').2
  solveIp : ∀ w w', R w w' → (env.solveIp w).1 = (env'.solveIp w').1 ∧ R (env.solveIp w).2 (env'.solveIp w').2

/-- Machine states that differ in the world only. -/
structure Twin (R : W → W' → Prop) (s : St W D Col) (s' : St W' D Col) : Prop where
  est : s.est = s'.est
  world : R s.world s'.world
  trace : s.trace = s'.trace

/-- Results that differ in the world only. -/
def TwinRes {α : Type} (R : W → W' → Prop) (r : α × St W D Col) (r' : α × St W' D Col) : Prop := r.1 = r'.1 ∧ Twin R r.2 r'.2

variable {env : Env W D Col} {env' : Env W' D Col} {col : Col → Prop} {R : W → W' → Prop} {s : St W D Col} {s' : St W' D Col}

theorem Twin.log (h : Twin R s s') (e : Ev D Col) : Twin R (s.log e) (s'.log e) :=
  ⟨h.est, h.world, by unfold St.log; simp only; rw [h.trace]⟩

theorem Twin.now (hs : Twins env env' col R) (h : Twin R s s') : TwinRes R (now env s) (now env' s') :=
  ⟨(hs.clock _ _ h.world).1, h.est, (hs.clock _ _ h.world).2, h.trace⟩

theorem Twin.set (h : Twin R s s') (f : Est → Est) : Twin R (s.set f) (s'.set f) :=
  ⟨by unfold St.set; simp only; rw [h.est], h.world, h.trace⟩

theorem Twin.call {α : Type} (h : Twin R s s') {f : W → Except Err α × W} {f' : W' → Except Err α × W'} (ev : Except Err α → Ev D Col)
    (hf : (f s.world).1 = (f' s'.world).1 ∧ R (f s.world).2 (f' s'.world).2) : TwinRes R (call f ev s) (call f' ev s') :=
  ⟨hf.1, h.est, hf.2, by unfold Fit.call; simp only; rw [h.trace, hf.1]⟩

theorem addCols_twin (hs : Twins env env' col R) (l i : ℕ) : ∀ (cs : List Col) (b : Bool) (s : St W D Col) (s' : St W' D Col),
    (∀ c ∈ cs, col c) → Twin R s s' → TwinRes R (addCols env l i cs b s) (addCols env' l i cs b s')
  | [], _, _, _, _, h => ⟨rfl, h⟩
  | c :: cs, b, s, s', hq, h => by
    unfold addCols
    have hc := h.call (.add l i c) (hs.addColumn c _ _ (hq c List.mem_cons_self) h.world)
    generalize call (env.addColumn c) (.add l i c) s = r at hc
    generalize call (env'.addColumn c) (.add l i c) s' = r' at hc
    obtain ⟨r, s1⟩ := r
    obtain ⟨r', s1'⟩ := r'
    obtain ⟨rfl, h1⟩ := hc
    cases r with
    | error e => exact ⟨rfl, h1⟩
    | ok added => exact addCols_twin hs l i cs _ _ _ (fun c' hc' => hq c' (List.mem_cons_of_mem _ hc')) (h1.set _)

theorem spLoop_twin (hs : Twins env env' col R) (cfg : Config) (d : D) (l : ℕ) :
    ∀ (is : List ℕ) (s : St W D Col) (s' : St W' D Col), Twin R s s' → TwinRes R (spLoop env cfg d l is s) (spLoop env' cfg d l is s')
  | [], _, _, h => ⟨rfl, h⟩
  | i :: is, s, s', h => by
    unfold spLoop
    have h1 := h.now hs
    generalize Fit.now env s = r at h1
    generalize Fit.now env' s' = r' at h1
    obtain ⟨t, s1⟩ := r
    obtain ⟨t', s1'⟩ := r'
    obtain ⟨e1, h1⟩ := h1
    simp only at e1 h1
    subst e1
    simp only
    have h2 := h1.set (fun e => { e with timeElapsed := t - e.tStart })
    generalize s1.set (fun e => { e with timeElapsed := t - e.tStart }) = s2 at h2
    generalize s1'.set (fun e => { e with timeElapsed := t - e.tStart }) = s2' at h2
    have h3 := h2.log (.check s2.est.tStart t)
    rw [← h2.est]
    generalize s2.log (.check s2.est.tStart t) = s3 at h3
    generalize s2'.log (.check s2.est.tStart t) = s3' at h3
    rw [← h3.est]
    split
    · exact ⟨rfl, h3.set (fun e => { e with timeLimitReached := true })⟩
    · have h4 := h3.now hs
      generalize Fit.now env s3 = r at h4
      generalize Fit.now env' s3' = r' at h4
      obtain ⟨t0, s4⟩ := r
      obtain ⟨t0', s4'⟩ := r'
      obtain ⟨e4, h4⟩ := h4
      simp only at e4 h4
      subst e4
      simp only
      have hq := fun cs => hs.cols l i d _ _ cs h4.world
      have h5 := h4.call (.generate l i d) (hs.generate l i d _ _ h4.world)
      have hv : (call (env.generate l i d) (.generate l i d) s4).1 = (env.generate l i d s4.world).1 := rfl
      rw [← hv] at hq
      clear hv
      generalize call (env.generate l i d) (.generate l i d) s4 = r at h5 hq
      generalize call (env'.generate l i d) (.generate l i d) s4' = r' at h5
      obtain ⟨r, s5⟩ := r
      obtain ⟨r', s5'⟩ := r'
      obtain ⟨e5, h5⟩ := h5
      simp only at e5 h5 hq
      subst e5
      cases r with
      | error e => exact ⟨rfl, h5⟩
      | ok cols =>
        simp only
        have hq := hq cols rfl
        have h6 := h5.now hs
        generalize Fit.now env s5 = r at h6
        generalize Fit.now env' s5' = r' at h6
        obtain ⟨t1, s6⟩ := r
        obtain ⟨t1', s6'⟩ := r'
        obtain ⟨e6, h6⟩ := h6
        simp only at e6 h6
        subst e6
        simp only
        have h7 := (h6.set (fun e => { e with timeSpentSp := bump e.timeSpentSp l i (t1 - t0) })).now hs
        generalize Fit.now env (s6.set _) = r at h7
        generalize Fit.now env' (s6'.set _) = r' at h7
        obtain ⟨t2, s7⟩ := r
        obtain ⟨t2', s7'⟩ := r'
        obtain ⟨e7, h7⟩ := h7
        simp only at e7 h7
        subst e7
        simp only
        have h8 := addCols_twin hs l i cols false _ _ hq h7
        generalize addCols env l i cols false s7 = r at h8
        generalize addCols env' l i cols false s7' = r' at h8
        obtain ⟨r, s8⟩ := r
        obtain ⟨r', s8'⟩ := r'
        obtain ⟨e8, h8⟩ := h8
        simp only at e8 h8
        subst e8
        cases r with
        | error e => exact ⟨rfl, h8⟩
        | ok upd =>
          simp only
          have h9 := h8.now hs
          generalize Fit.now env s8 = r at h9
          generalize Fit.now env' s8' = r' at h9
          obtain ⟨t3, s9⟩ := r
          obtain ⟨t3', s9'⟩ := r'
          obtain ⟨e9, h9⟩ := h9
          simp only at e9 h9
          subst e9
          simp only
          split
          · exact ⟨rfl, h9.set (fun e => { e with timeAddCol := e.timeAddCol + (t3 - t2) })⟩
          · exact spLoop_twin hs cfg d l is _ _ (h9.set _)

theorem levelLoop_twin (hs : Twins env env' col R) (cfg : Config) (d : D) :
    ∀ (ls : List (ℕ × ℕ)) (s : St W D Col) (s' : St W' D Col), Twin R s s' → TwinRes R (levelLoop env cfg d ls s) (levelLoop env' cfg d ls s')
  | [], _, _, h => ⟨rfl, h⟩
  | (l, n) :: ls, s, s', h => by
    unfold levelLoop
    have h1 := spLoop_twin hs cfg d l (List.range n) s s' h
    generalize spLoop env cfg d l (List.range n) s = r at h1
    generalize spLoop env' cfg d l (List.range n) s' = r' at h1
    obtain ⟨r, s1⟩ := r
    obtain ⟨r', s1'⟩ := r'
    obtain ⟨rfl, h1⟩ := h1
    cases r with
    | error e => exact ⟨rfl, h1⟩
    | ok upd =>
      simp only
      have h2 := h1.now hs
      simp only at h2
      generalize Fit.now env s1 = r at h2
      generalize Fit.now env' s1' = r' at h2
      obtain ⟨t, s2⟩ := r
      obtain ⟨t', s2'⟩ := r'
      obtain ⟨e2, h2⟩ := h2
      simp only at e2 h2
      subst e2
      simp only
      have h3 := h2.set (fun e => { e with timeElapsed := t - e.tStart })
      generalize s2.set (fun e => { e with timeElapsed := t - e.tStart }) = s3 at h3
      generalize s2'.set (fun e => { e with timeElapsed := t - e.tStart }) = s3' at h3
      rw [← h3.est]
      split
      · exact ⟨rfl, h3⟩
      · split
        · exact ⟨rfl, h3⟩
        · exact levelLoop_twin hs cfg d ls _ _ h3

theorem updateLoop_twin (hs : Twins env env' col R) (d : D) :
    ∀ (ps : List (ℕ × ℕ)) (s : St W D Col) (s' : St W' D Col), Twin R s s' → TwinRes R (updateLoop env d ps s) (updateLoop env' d ps s')
  | [], _, _, h => ⟨rfl, h⟩
  | (l, i) :: ps, s, s', h => by
    unfold updateLoop
    have h1 := h.now hs
    generalize Fit.now env s = r at h1
    generalize Fit.now env' s' = r' at h1
    obtain ⟨t0, s1⟩ := r
    obtain ⟨t0', s1'⟩ := r'
    obtain ⟨e1, h1⟩ := h1
    simp only at e1 h1
    subst e1
    simp only
    have h2 := h1.call (.update l i d) (hs.update l i d _ _ h1.world)
    generalize call (env.update l i d) (.update l i d) s1 = r at h2
    generalize call (env'.update l i d) (.update l i d) s1' = r' at h2
    obtain ⟨r, s2⟩ := r
    obtain ⟨r', s2'⟩ := r'
    obtain ⟨e2, h2⟩ := h2
    simp only at e2 h2
    subst e2
    cases r with
    | error e => exact ⟨rfl, h2⟩
    | ok u =>
      simp only
      have h3 := h2.now hs
      generalize Fit.now env s2 = r at h3
      generalize Fit.now env' s2' = r' at h3
      obtain ⟨t1, s3⟩ := r
      obtain ⟨t1', s3'⟩ := r'
      obtain ⟨e3, h3⟩ := h3
      simp only at e3 h3
      subst e3
      exact updateLoop_twin hs d ps _ _ (h3.set _)

theorem resetTimer_twin (hs : Twins env env' col R) (h : Twin R s s') : Twin R (resetTimer env s) (resetTimer env' s') := by
  unfold resetTimer
  simp only
  rw [hs.resetFlag _ _ h.world]
  generalize env'.resetFlag s'.world = b
  have h1 := h.log (.resetFlag b)
  generalize s.log (.resetFlag b) = s1 at h1
  generalize s'.log (.resetFlag b) = s1' at h1
  split
  · have h2 := h1.now hs
    generalize Fit.now env s1 = r at h2
    generalize Fit.now env' s1' = r' at h2
    obtain ⟨t, s2⟩ := r
    obtain ⟨t', s2'⟩ := r'
    obtain ⟨e2, h2⟩ := h2
    simp only at e2 h2
    subst e2
    have h3 := (h2.set (fun e => { e with tStart := t })).log (.timer t)
    exact ⟨h3.est, hs.clearReset _ _ h3.world, h3.trace⟩
  · exact h1

theorem body_twin (hs : Twins env env' col R) (cfg : Config) (h : Twin R s s') : TwinRes R (body env cfg s) (body env' cfg s') := by
  unfold body
  have h1 := (h.set (fun e => { e with iter := e.iter + 1 })).now hs
  simp only
  generalize Fit.now env (s.set _) = r at h1
  generalize Fit.now env' (s'.set _) = r' at h1
  obtain ⟨t0, s1⟩ := r
  obtain ⟨t0', s1'⟩ := r'
  obtain ⟨-, h1⟩ := h1
  simp only at h1
  simp only
  have h2 := h1.now hs
  generalize Fit.now env s1 = r at h2
  generalize Fit.now env' s1' = r' at h2
  obtain ⟨m0, s2⟩ := r
  obtain ⟨m0', s2'⟩ := r'
  obtain ⟨e2, h2⟩ := h2
  simp only at e2 h2
  subst e2
  simp only
  have h3 := h2.call .solveRmp (hs.solveRmp _ _ h2.world)
  generalize call env.solveRmp .solveRmp s2 = r at h3
  generalize call env'.solveRmp .solveRmp s2' = r' at h3
  obtain ⟨r, s3⟩ := r
  obtain ⟨r', s3'⟩ := r'
  obtain ⟨e3, h3⟩ := h3
  simp only at e3 h3
  subst e3
  cases r with
  | error e => exact ⟨rfl, h3⟩
  | ok d =>
    simp only
    have h4 := h3.now hs
    generalize Fit.now env s3 = r at h4
    generalize Fit.now env' s3' = r' at h4
    obtain ⟨m1, s4⟩ := r
    obtain ⟨m1', s4'⟩ := r'
    obtain ⟨e4, h4⟩ := h4
    simp only at e4 h4
    subst e4
    simp only
    have h5 := h4.set (fun e => { e with timeSpentMaster := e.timeSpentMaster + (m1 - m0) })
    generalize s4.set _ = s5 at h5
    generalize s4'.set _ = s5' at h5
    have h6 := h5.call .improved (hs.improved _ _ h5.world)
    generalize call env.improved .improved s5 = r at h6
    generalize call env'.improved .improved s5' = r' at h6
    obtain ⟨r, s6⟩ := r
    obtain ⟨r', s6'⟩ := r'
    obtain ⟨e6, h6⟩ := h6
    simp only at e6 h6
    subst e6
    cases r with
    | error e => exact ⟨rfl, h6⟩
    | ok b =>
      simp only
      have h7 := resetTimer_twin hs (h6.set (fun e => { e with numImproving := e.numImproving + (if b then 1 else 0) }))
      generalize resetTimer env _ = s7 at h7
      generalize resetTimer env' _ = s7' at h7
      have h8 := updateLoop_twin hs d (positions cfg.shape) _ _ h7
      generalize updateLoop env d (positions cfg.shape) s7 = r at h8
      generalize updateLoop env' d (positions cfg.shape) s7' = r' at h8
      obtain ⟨r, s8⟩ := r
      obtain ⟨r', s8'⟩ := r'
      obtain ⟨e8, h8⟩ := h8
      simp only at e8 h8
      subst e8
      cases r with
      | error e => exact ⟨rfl, h8⟩
      | ok u =>
        simp only
        have h9 := levelLoop_twin hs cfg d (levels cfg.shape) _ _ h8
        generalize levelLoop env cfg d (levels cfg.shape) s8 = r at h9
        generalize levelLoop env' cfg d (levels cfg.shape) s8' = r' at h9
        obtain ⟨r, s9⟩ := r
        obtain ⟨r', s9'⟩ := r'
        obtain ⟨e9, h9⟩ := h9
        simp only at e9 h9
        subst e9
        cases r with
        | error e => exact ⟨rfl, h9⟩
        | ok upd =>
          simp only
          split
          · exact ⟨rfl, h9⟩
          · refine ⟨rfl, ?_⟩
            simp only
            rw [← h9.est]
            split
            · exact h9
            · exact h9.set _

/-- Results of runs with fuel. -/
def TwinOpt {α : Type} (R : W → W' → Prop) : Option (α × St W D Col) → Option (α × St W' D Col) → Prop
  | none, none => True
  | some r, some r' => TwinRes R r r'
  | _, _ => False

theorem TwinOpt.cases {α : Type} {x : Option (α × St W D Col)} {x' : Option (α × St W' D Col)} (h : TwinOpt R x x') :
    (x' = none ↔ x = none) ∧ ∀ r s, x = some (r, s) → ∃ s', x' = some (r, s') ∧ Twin R s s' := by
  match x, x', h with
  | none, none, _ => exact ⟨by simp, by simp⟩
  | some (r, s), some (r', s'), h =>
    refine ⟨by simp, ?_⟩
    intro r1 s1 e1
    simp only [Option.some.injEq, Prod.mk.injEq] at e1
    obtain ⟨rfl, rfl⟩ := e1
    obtain ⟨e1, h⟩ := h
    simp only at e1 h
    exact ⟨s', by rw [e1], h⟩

theorem loop_twin (hs : Twins env env' col R) (cfg : Config) :
    ∀ (n : ℕ) (s : St W D Col) (s' : St W' D Col), Twin R s s' → TwinOpt R (loop env cfg n s) (loop env' cfg n s')
  | 0, _, _, _ => trivial
  | n + 1, s, s', h => by
    unfold loop
    rw [← h.est]
    split
    · exact ⟨rfl, h⟩
    · have h1 := body_twin hs cfg h
      generalize body env cfg s = r at h1
      generalize body env' cfg s' = r' at h1
      obtain ⟨r, s1⟩ := r
      obtain ⟨r', s1'⟩ := r'
      obtain ⟨rfl, h1⟩ := h1
      match r with
      | .error e => exact ⟨rfl, h1⟩
      | .ok true => exact loop_twin hs cfg n _ _ h1
      | .ok false => exact ⟨rfl, h1⟩

theorem finish_twin (hs : Twins env env' col R) (cfg : Config) (h : Twin R s s') : TwinRes R (finish env cfg s) (finish env' cfg s') := by
  have hdone : ∀ {s : St W D Col} {s' : St W' D Col}, Twin R s s' → TwinRes (α := Except Err Unit) R
      (.ok (), (Fit.now env (s.set (fun e => { e with isFitted := true }))).2.set
        (fun e => { e with timeElapsed := (Fit.now env (s.set (fun e => { e with isFitted := true }))).1 - e.tStart }))
      (.ok (), (Fit.now env' (s'.set (fun e => { e with isFitted := true }))).2.set
        (fun e => { e with timeElapsed := (Fit.now env' (s'.set (fun e => { e with isFitted := true }))).1 - e.tStart })) := by
    intro s s' h
    have h1 := (h.set (fun e => { e with isFitted := true })).now hs
    refine ⟨rfl, ?_⟩
    simp only
    rw [h1.1]
    exact h1.2.set _
  unfold finish
  have h0 := h.set (fun e => { e with timeSpentMasterIp := 0 })
  simp only
  generalize s.set _ = s0 at h0
  generalize s'.set _ = s0' at h0
  cases cfg.rmpIsIp with
  | false => exact hdone h0
  | true =>
    simp only [if_true]
    have h1 := h0.now hs
    generalize Fit.now env s0 = r at h1
    generalize Fit.now env' s0' = r' at h1
    obtain ⟨t0, s1⟩ := r
    obtain ⟨t0', s1'⟩ := r'
    obtain ⟨e1, h1⟩ := h1
    simp only at e1 h1
    subst e1
    simp only
    have h2 := h1.call .solveIp (hs.solveIp _ _ h1.world)
    generalize call env.solveIp .solveIp s1 = r at h2
    generalize call env'.solveIp .solveIp s1' = r' at h2
    obtain ⟨r, s2⟩ := r
    obtain ⟨r', s2'⟩ := r'
    obtain ⟨e2, h2⟩ := h2
    simp only at e2 h2
    subst e2
    cases r with
    | error e => exact ⟨rfl, h2⟩
    | ok b =>
      simp only
      have h3 := h2.now hs
      generalize Fit.now env s2 = r at h3
      generalize Fit.now env' s2' = r' at h3
      obtain ⟨t1, s3⟩ := r
      obtain ⟨t1', s3'⟩ := r'
      obtain ⟨e3, h3⟩ := h3
      simp only at e3 h3
      subst e3
      simp only
      have h4 := h3.set (fun e => { e with timeSpentMasterIp := e.timeSpentMasterIp + (t1 - t0) })
      cases b with
      | true => exact hdone h4
      | false => exact ⟨rfl, h4⟩

theorem fit_twin (hs : Twins env env' col R) (cfg : Config) (fuel : ℕ) (y : List ℤ) (e : Est) {w : W} {w' : W'} (hw : R w w') :
    TwinOpt R (fit env cfg fuel y e w) (fit env' cfg fuel y e w') := by
  have h0 : Twin R (⟨e, w, []⟩ : St W D Col) (⟨e, w', []⟩ : St W' D Col) := ⟨rfl, hw, rfl⟩
  unfold fit
  have h1 := h0.now hs
  simp only
  generalize Fit.now env (⟨e, w, []⟩ : St W D Col) = r at h1
  generalize Fit.now env' (⟨e, w', []⟩ : St W' D Col) = r' at h1
  obtain ⟨t, s1⟩ := r
  obtain ⟨t', s1'⟩ := r'
  obtain ⟨e1, h1⟩ := h1
  simp only at e1 h1
  subst e1
  simp only
  have h2 := ((h1.set (fun e => { e with tStart := t })).log (.timer t)).set (fun e => { e with classes := Sk.uniqueLabels y })
  generalize St.set _ (fun e => { e with classes := Sk.uniqueLabels y }) = s2 at h2
  generalize St.set _ (fun e => { e with classes := Sk.uniqueLabels y }) = s2' at h2
  rw [← h2.est]
  split
  · exact ⟨rfl, h2⟩
  · have h3 := h2.call (.generateMp (Sk.transform (Sk.uniqueLabels y) y)) (hs.generateMp (Sk.transform (Sk.uniqueLabels y) y) _ _ h2.world)
    generalize call (env.generateMp _) _ s2 = r at h3
    generalize call (env'.generateMp _) _ s2' = r' at h3
    obtain ⟨r, s3⟩ := r
    obtain ⟨r', s3'⟩ := r'
    obtain ⟨e3, h3⟩ := h3
    simp only at e3 h3
    subst e3
    cases r with
    | error e => exact ⟨rfl, h3⟩
    | ok u =>
      simp only
      have h4 := loop_twin hs cfg fuel _ _ (h3.set (initEst cfg.shape))
      generalize loop env cfg fuel _ = r at h4
      generalize loop env' cfg fuel _ = r' at h4
      match r, r', h4 with
      | none, none, _ => trivial
      | some (r, t), some (r', t'), h4 =>
        obtain ⟨e4, h5⟩ := h4
        simp only at e4 h5
        subst e4
        cases r with
        | error e => exact ⟨rfl, h5⟩
        | ok u => exact finish_twin hs cfg h5

end Verif.Fit
