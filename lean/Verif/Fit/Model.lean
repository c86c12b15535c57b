import Mathlib.Data.Rat.Defs
import Mathlib.Algebra.Order.Ring.Rat
import Verif.Sk

/-!
# Model of `ColGenClassifier` (`col_gen_estimator/_col_gen_classifier.py:251-475`)

The master problem, the subproblems and the clock are arbitrary: their objects live in one world `W`, every call is an arbitrary function
of the world (so calls may influence each other in any way, may raise, and may remember anything). `X` is fixed during `fit`
and therefore part of the world; the duals `D` and columns `Col` are opaque.

Every call is logged in a ghost trace with its result. The trace is never read by the model.

Simplifications: `print` is dropped (its `time()` reading is kept); `check_X_y` is assumed to have accepted the data;
`generate_columns` returns a finite list (not a lazy generator); the parameter strings are fixed functions of the
subproblem position and part of the world; `add_column`'s result is used through its truth value.
-/

namespace Verif.Fit

/-- Ghost events: the calls made by `fit` with their results. Positions are (level, index). -/
inductive Ev (D Col : Type) where
  /-- `t_start = time()` -/
  | timer (t : ℚ)
  | generateMp (y : List ℕ) (r : Except Err Unit)
  | solveRmp (r : Except Err D)
  | improved (r : Except Err Bool)
  /-- reading of `master_problem.reset_timer_` (`none`: no such attribute) -/
  | resetFlag (b : Option Bool)
  | update (l i : ℕ) (d : D) (r : Except Err Unit)
  /-- comparison of `now - start` with the time limit -/
  | check (start now : ℚ)
  | generate (l i : ℕ) (d : D) (r : Except Err (List Col))
  | add (l i : ℕ) (c : Col) (r : Except Err Bool)
  | solveIp (r : Except Err Bool)

/-- The behaviour of the user supplied objects and the clock. -/
structure Env (W D Col : Type) where
  clock : W → ℚ × W
  generateMp : List ℕ → W → Except Err Unit × W
  solveRmp : W → Except Err D × W
  improved : W → Except Err Bool × W
  resetFlag : W → Option Bool
  clearReset : W → W
  update : ℕ → ℕ → D → W → Except Err Unit × W
  generate : ℕ → ℕ → D → W → Except Err (List Col) × W
  addColumn : Col → W → Except Err Bool × W
  solveIp : W → Except Err Bool × W

/-- The constructor arguments used by `fit`; `shape` lists the number of subproblems of every level. -/
structure Config where
  maxIterations : ℤ
  timeLimit : ℚ
  shape : List ℕ
  rmpIsIp : Bool

/-- The estimator attributes written by `fit` (and the local `t_start`). -/
structure Est where
  isFitted : Bool
  classes : List ℤ
  iter : ℕ
  performedIter : ℕ
  numImproving : ℕ
  mpOptimal : Bool
  timeLimitReached : Bool
  numColAdded : List (List ℕ)
  timeSpentSp : List (List ℚ)
  timeAddCol : ℚ
  timeSpentMaster : ℚ
  timeSpentMasterIp : ℚ
  timeElapsed : ℚ
  tStart : ℚ

/-- Machine state. -/
structure St (W D Col : Type) where
  est : Est
  world : W
  trace : List (Ev D Col)

variable {W D Col : Type}

/-- A call on a user object: runs it and logs it. -/
def call {α : Type} (f : W → Except Err α × W) (ev : Except Err α → Ev D Col) (s : St W D Col) :
    Except Err α × St W D Col :=
  let r := f s.world
  (r.1, { s with world := r.2, trace := s.trace ++ [ev r.1] })

/-- `time()`. -/
def now (env : Env W D Col) (s : St W D Col) : ℚ × St W D Col :=
  let r := env.clock s.world
  (r.1, { s with world := r.2 })

/-- Ghost logging. -/
def St.log (s : St W D Col) (e : Ev D Col) : St W D Col := { s with trace := s.trace ++ [e] }

/-- Attribute assignment. -/
def St.set (s : St W D Col) (f : Est → Est) : St W D Col := { s with est := f s.est }

/-- `l[i][j] += x` on a list of lists. -/
def bump {α : Type} [Add α] (ll : List (List α)) (i j : ℕ) (x : α) : List (List α) :=
  ll.modify i (fun row => row.modify j (· + x))

/-- `_col_gen_classifier.py:428-432`: the loop over the generated columns; the argument and result `upd` is `rmp_updated`. -/
def addCols (env : Env W D Col) (l i : ℕ) : List Col → Bool → St W D Col → Except Err Bool × St W D Col
  | [], upd, s => (.ok upd, s)
  | c :: cs, upd, s =>
    match call (env.addColumn c) (.add l i c) s with
    | (.error e, s1) => (.error e, s1)
    | (.ok added, s1) =>
      let s2 := s1.set (fun e => { e with numColAdded := bump e.numColAdded l i (if added then 1 else 0) })
      addCols env l i cs (upd || added) s2

/-- `_col_gen_classifier.py:413-435`: the loop over the subproblems of one level (`is` the remaining indices); the result is
`rmp_updated` when the loop is left. -/
def spLoop (env : Env W D Col) (cfg : Config) (d : D) (l : ℕ) :
    List ℕ → St W D Col → Except Err Bool × St W D Col
  | [], s => (.ok false, s)
  | i :: is, s =>
    let (t, s) := now env s
    let s := s.set (fun e => { e with timeElapsed := t - e.tStart })
    let s := s.log (.check s.est.tStart t)
    if decide (cfg.timeLimit > 0) && decide (s.est.timeElapsed > cfg.timeLimit) then
      (.ok false, s.set (fun e => { e with timeLimitReached := true }))
    else
      let (t0, s) := now env s
      match call (env.generate l i d) (.generate l i d) s with
      | (.error e, s) => (.error e, s)
      | (.ok cols, s) =>
        let (t1, s) := now env s
        let s := s.set (fun e => { e with timeSpentSp := bump e.timeSpentSp l i (t1 - t0) })
        let (t2, s) := now env s
        match addCols env l i cols false s with
        | (.error e, s) => (.error e, s)
        | (.ok upd, s) =>
          let (t3, s) := now env s
          let s := s.set (fun e => { e with timeAddCol := e.timeAddCol + (t3 - t2) })
          if upd then (.ok true, s) else spLoop env cfg d l is s

/-- `_col_gen_classifier.py:410-441`: the loop over the levels, `(l, n)` = (level, number of subproblems). -/
def levelLoop (env : Env W D Col) (cfg : Config) (d : D) :
    List (ℕ × ℕ) → St W D Col → Except Err Bool × St W D Col
  | [], s => (.ok false, s)
  | (l, n) :: ls, s =>
    match spLoop env cfg d l (List.range n) s with
    | (.error e, s) => (.error e, s)
    | (.ok upd, s) =>
      let (t, s) := now env s
      let s := s.set (fun e => { e with timeElapsed := t - e.tStart })
      if s.est.timeLimitReached then (.ok upd, s)
      else if upd then (.ok true, s)
      else levelLoop env cfg d ls s

/-- `_col_gen_classifier.py:400-408`: `update_subproblem` on all subproblems (the nested loops over level and index as one loop over
the pairs in order). -/
def updateLoop (env : Env W D Col) (d : D) : List (ℕ × ℕ) → St W D Col → Except Err Unit × St W D Col
  | [], s => (.ok (), s)
  | (l, i) :: ps, s =>
    let (t0, s) := now env s
    match call (env.update l i d) (.update l i d) s with
    | (.error e, s) => (.error e, s)
    | (.ok _, s) =>
      let (t1, s) := now env s
      updateLoop env d ps (s.set (fun e => { e with timeSpentSp := bump e.timeSpentSp l i (t1 - t0) }))

/-- `enumerate(subproblems)` with sizes. -/
def levels (shape : List ℕ) : List (ℕ × ℕ) := shape.zipIdx.map (fun p => (p.2, p.1))

/-- All positions (level, index) in loop order. -/
def positions (shape : List ℕ) : List (ℕ × ℕ) :=
  (levels shape).flatMap (fun p => (List.range p.2).map (fun i => (p.1, i)))

/-- `_col_gen_classifier.py:392-396`: the optional timer reset. -/
def resetTimer (env : Env W D Col) (s : St W D Col) : St W D Col :=
  let b := env.resetFlag s.world
  let s := s.log (.resetFlag b)
  if b = some true then
    let (t, s) := now env s
    let s := (s.set (fun e => { e with tStart := t })).log (.timer t)
    { s with world := env.clearReset s.world }
  else s

/-- One iteration of the `while` loop after the limit check, `_col_gen_classifier.py:382-447`. The result `true` means that the loop
continues, `false` that it is left with `break`. -/
def body (env : Env W D Col) (cfg : Config) (s : St W D Col) : Except Err Bool × St W D Col :=
  let s := s.set (fun e => { e with iter := e.iter + 1 })
  let (_, s) := now env s
  let (m0, s) := now env s
  match call env.solveRmp .solveRmp s with
  | (.error e, s) => (.error e, s)
  | (.ok d, s) =>
    let (m1, s) := now env s
    let s := s.set (fun e => { e with timeSpentMaster := e.timeSpentMaster + (m1 - m0) })
    match call env.improved .improved s with
    | (.error e, s) => (.error e, s)
    | (.ok b, s) =>
      let s := s.set (fun e => { e with numImproving := e.numImproving + (if b then 1 else 0) })
      let s := resetTimer env s
      match updateLoop env d (positions cfg.shape) s with
      | (.error e, s) => (.error e, s)
      | (.ok _, s) =>
        match levelLoop env cfg d (levels cfg.shape) s with
        | (.error e, s) => (.error e, s)
        | (.ok upd, s) =>
          if upd then (.ok true, s)
          else (.ok false, if s.est.timeLimitReached then s else s.set (fun e => { e with mpOptimal := true }))

/-- The `while True` loop, `_col_gen_classifier.py:379-447`, with fuel; `none` means that the fuel did not suffice. -/
def loop (env : Env W D Col) (cfg : Config) : ℕ → St W D Col → Option (Except Err Unit × St W D Col)
  | 0, _ => none
  | n + 1, s =>
    if cfg.maxIterations > 0 ∧ (s.est.iter : ℤ) ≥ cfg.maxIterations then some (.ok (), s)
    else
      match body env cfg s with
      | (.error e, s) => some (.error e, s)
      | (.ok true, s) => loop env cfg n s
      | (.ok false, s) => some (.ok (), s)

/-- `_col_gen_classifier.py:449-458`: after the loop. -/
def finish (env : Env W D Col) (cfg : Config) (s : St W D Col) : Except Err Unit × St W D Col :=
  let s := s.set (fun e => { e with timeSpentMasterIp := 0 })
  let done : St W D Col → Except Err Unit × St W D Col := fun s =>
    let s := s.set (fun e => { e with isFitted := true })
    let (t, s) := now env s
    (.ok (), s.set (fun e => { e with timeElapsed := t - e.tStart }))
  if cfg.rmpIsIp then
    let (t0, s) := now env s
    match call env.solveIp .solveIp s with
    | (.error e, s) => (.error e, s)
    | (.ok solved, s) =>
      let (t1, s) := now env s
      let s := s.set (fun e => { e with timeSpentMasterIp := e.timeSpentMasterIp + (t1 - t0) })
      if solved then done s else (.error .assertionError, s)
  else done s

/-- The attribute initialisation, `_col_gen_classifier.py:366-378`. -/
def initEst (shape : List ℕ) (e : Est) : Est :=
  { e with
    performedIter := 0
    numImproving := 0
    mpOptimal := false
    timeLimitReached := false
    numColAdded := shape.map (fun n => List.replicate n 0)
    timeSpentSp := shape.map (fun n => List.replicate n 0)
    timeAddCol := 0
    timeSpentMaster := 0
    iter := 0 }

/-- `ColGenClassifier.fit`, `_col_gen_classifier.py:329-459`, on validated data with labels `y`. The initial estimator `e0` is arbitrary
(a refit is allowed). -/
def fit (env : Env W D Col) (cfg : Config) (fuel : ℕ) (y : List ℤ) (e0 : Est) (w0 : W) :
    Option (Except Err Unit × St W D Col) :=
  let s : St W D Col := ⟨e0, w0, []⟩
  let (t, s) := now env s
  let s := (s.set (fun e => { e with tStart := t })).log (.timer t)
  let s := s.set (fun e => { e with classes := Sk.uniqueLabels y })
  if s.est.classes.length ≤ 1 then some (.error .valueError, s)
  else
    let py := Sk.transform (Sk.uniqueLabels y) y
    match call (env.generateMp py) (.generateMp py) s with
    | (.error e, s) => some (.error e, s)
    | (.ok _, s) =>
      let s := s.set (initEst cfg.shape)
      match loop env cfg fuel s with
      | none => none
      | some (.error e, s) => some (.error e, s)
      | some (.ok _, s) => some (finish env cfg s)

/-- `ColGenClassifier.__init__`, `_col_gen_classifier.py:325-327`: the two assertions on the shapes; `spShape` and `paramShape` are the
lengths of the inner lists of `subproblems` and `subproblem_params`. The loop indexes `subproblem_params[level]` after the
lengths were compared, so it cannot raise `IndexError`. -/
def initChecks (spShape paramShape : List ℕ) : Except Err Unit :=
  if spShape.length ≠ paramShape.length then .error .assertionError
  else if (List.range spShape.length).all (fun l => spShape[l]? == paramShape[l]?) then .ok ()
  else .error .assertionError

end Verif.Fit
