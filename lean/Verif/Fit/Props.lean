import Verif.Fit.FitLemmas

/-!
# Properties C01 - C12 of `ColGenClassifier.fit` (and the shape check of C57)

All theorems quantify over an arbitrary environment (master problem, subproblems, clock), configuration, label vector and initial state of
the estimator. `fit env cfg fuel y e0 w0 = some (.ok (), s)` is a normal return, `some (.error e, s)` an exception.
-/

set_option linter.unusedSectionVars false

namespace Verif.Fit

open Spec

variable {W D Col : Type} {env : Env W D Col} {cfg : Config} {fuel : ℕ} {y : List ℤ} {e0 : Est} {w0 : W}
  {r : Except Err Unit × St W D Col} {s : St W D Col} {u : Unit}

private theorem returned (hr : fit env cfg fuel y e0 w0 = some (.ok u, s)) :
    ∃ e tr, LoopEnd cfg e0.isFitted e tr ∧ SameLoop s.est e ∧
      s.trace = tr ++ (if cfg.rmpIsIp then [Ev.solveIp (.ok true)] else []) :=
  (fit_spec env cfg fuel y e0 w0 (.ok u, s) hr).ex

private theorem numRmp_tail (tr : List (Ev D Col)) (b : Bool) :
    numRmp (tr ++ (if b then [Ev.solveIp (.ok true)] else [])) = numRmp tr := by
  cases b <;> simp [numRmp, isRmp, List.countP_append]

private theorem accPos_tail (tr : List (Ev D Col)) (b : Bool) :
    accPos (tr ++ (if b then [Ev.solveIp (.ok true)] else [])) = accPos tr := by
  cases b <;> simp [accPos, accepted?, List.filterMap_append, List.filterMap_cons]

private theorem round_tail (tr : List (Ev D Col)) (b : Bool) :
    round (tr ++ (if b then [Ev.solveIp (.ok true)] else [])) =
      round tr ++ (if b then [Ev.solveIp (.ok true)] else []) := by
  cases b with
  | false => simp
  | true => simp [round_snoc, isRmp]

private theorem over_tail (tr : List (Ev D Col)) (b : Bool) :
    Over cfg (tr ++ (if b then [Ev.solveIp (.ok true)] else [])) ↔ Over cfg tr := by
  cases b with
  | false => simp
  | true => simp only [if_true]; exact over_snoc_of_ne (by intro s t; simp)

private theorem allRejected_tail (tr : List (Ev D Col)) (b : Bool) :
    AllRejected (tr ++ (if b then [Ev.solveIp (.ok true)] else [])) ↔ AllRejected tr := by
  cases b <;> simp [AllRejected]

/-! ## C01 -/

/-- C01, termination: with a positive iteration limit the loop always ends. -/
theorem C01_terminates (env : Env W D Col) (cfg : Config) (y : List ℤ) (e0 : Est) (w0 : W) (hm : cfg.maxIterations > 0) :
    ∃ r, fit env cfg (cfg.maxIterations.toNat + 1) y e0 w0 = some r := by
  apply fit_terminates_of_loop
  intro h
  apply loop_terminates_max env cfg _ hm _ _ h
  have : (startSt env cfg y e0 w0).est.iter = 0 := rfl
  rw [this]
  simp

/-- C01: `iter_` counts the `solve_rmp` calls and respects the limit; a limit `≤ 0` is never the reason for stopping. -/
theorem C01_iteration_limit (hr : fit env cfg fuel y e0 w0 = some (.ok u, s)) :
    s.est.iter = numRmp s.trace ∧ (cfg.maxIterations > 0 → (s.est.iter : ℤ) ≤ cfg.maxIterations) ∧
    (cfg.maxIterations ≤ 0 → s.est.mpOptimal = true ∨ s.est.timeLimitReached = true) := by
  obtain ⟨e, tr, hE, hS, htr⟩ := returned hr
  refine ⟨?_, ?_, ?_⟩
  · rw [hS.iter, hE.iter, htr, numRmp_tail]
  · intro hm
    obtain ⟨s1, u1, u0, hg, hl, hf⟩ := fit_ok_inv hr
    rw [finish_iter hf]
    exact iter_le_of_loop env cfg e0.isFitted hm fuel _ (Acc.ofStart hg)
      (by have : (startSt env cfg y e0 w0).est.iter = 0 := rfl
          rw [this]; push_cast; omega) u1 s1 hl
  · intro hm
    rw [hS.opt, hS.tl]
    cases hE with
    | limit h h1 h2 => omega
    | optimal d e' h h1 => left; rw [h1]
    | timed h => right; exact h.tl

/-- C01: more fuel never changes a result, so "the" result of a terminating run is well defined. -/
theorem C01_fuel_irrelevant (hr : fit env cfg fuel y e0 w0 = some r) (k : ℕ) :
    fit env cfg (fuel + k) y e0 w0 = some r := fit_mono env cfg fuel k y e0 w0 r hr

/-! ## C02 -/

/-- C02: exactly one of the three reasons. -/
theorem C02_stop_reason (hr : fit env cfg fuel y e0 w0 = some (.ok u, s)) :
    (s.est.mpOptimal = true ∧ s.est.timeLimitReached = false) ∨
    (s.est.mpOptimal = false ∧ s.est.timeLimitReached = true) ∨
    (s.est.mpOptimal = false ∧ s.est.timeLimitReached = false ∧ cfg.maxIterations > 0 ∧
      (s.est.iter : ℤ) = cfg.maxIterations) := by
  have hlim := (C01_iteration_limit hr).2.1
  obtain ⟨e, tr, hE, hS, htr⟩ := returned hr
  rw [hS.opt, hS.tl]
  cases hE with
  | limit h h1 h2 =>
    right; right
    refine ⟨h.opt, h.tl, h1, ?_⟩
    have := hlim h1
    rw [hS.iter] at this ⊢
    omega
  | optimal d e' h h1 => left; rw [h1]; exact ⟨rfl, h.tl⟩
  | timed h => right; left; exact ⟨h.opt, h.tl⟩

/-! ## C03 -/

/-- C03, meaning of `mp_optimal_`: in the last round every subproblem of every level was asked, and no column was accepted. -/
theorem C03_mp_optimal (hr : fit env cfg fuel y e0 w0 = some (.ok u, s)) (ho : s.est.mpOptimal = true) :
    0 < numRmp s.trace ∧ AllRejected (round s.trace) ∧ ¬ Over cfg s.trace ∧
    ∀ l n i, cfg.shape[l]? = some n → i < n → ∃ d res, Ev.generate l i d res ∈ round s.trace := by
  obtain ⟨e, tr, hE, hS, htr⟩ := returned hr
  rw [htr, numRmp_tail, round_tail, over_tail, allRejected_tail]
  rw [hS.opt] at ho
  cases hE with
  | limit h h1 h2 => rw [h.opt] at ho; cases ho
  | timed h => rw [h.opt] at ho; cases ho
  | optimal d e' h h1 =>
    refine ⟨h.pos, h.rej, h.over, ?_⟩
    intro l n i hl hi
    have hm : (l, i) ∈ genPos (round tr) := by
      rw [h.gens]
      exact (mem_allPositions _ _ _).2 ⟨n, hl, hi⟩
    obtain ⟨ev, hev, hg⟩ := List.mem_filterMap.1 hm
    cases ev with
    | generate l' i' d' r' =>
      simp only [gen?, Option.some.injEq, Prod.mk.injEq] at hg
      obtain ⟨rfl, rfl⟩ := hg
      exact ⟨d', r', List.mem_append_left _ hev⟩
    | _ => simp [gen?] at hg

/-- C03, converse: if the last round accepted nothing and the time limit was not hit, `mp_optimal_` is set. -/
theorem C03_converse (hr : fit env cfg fuel y e0 w0 = some (.ok u, s)) (hrej : AllRejected (round s.trace))
    (hover : ¬ Over cfg s.trace) : s.est.mpOptimal = true := by
  obtain ⟨e, tr, hE, hS, htr⟩ := returned hr
  rw [htr, round_tail, allRejected_tail] at hrej
  rw [htr, over_tail] at hover
  rw [hS.opt]
  cases hE with
  | limit h h1 h2 =>
    have hpos : 0 < numRmp tr := by rw [← h.iter]; omega
    exact absurd (accPos_of_allRejected hrej) (h.acc1 hpos)
  | optimal d e' h h1 => rw [h1]
  | timed h =>
    obtain ⟨pre, a, b, heq, -, h1, h2⟩ := h.over
    exact absurd ⟨a, b, by rw [heq]; simp, h1, h2⟩ hover

/-! ## C04, C05 -/

/-- C04: a subproblem is asked only after all earlier subproblems (all lower levels, and the same level before it) were asked in the
same round, and no column of that round was accepted before. Also for runs that raise. -/
theorem C04_level_discipline (hr : fit env cfg fuel y e0 w0 = some r) {pre post : List (Ev D Col)} {l i : ℕ} {d : D}
    {res : Except Err (List Col)} (htr : r.2.trace = pre ++ Ev.generate l i d res :: post) :
    AllRejected (round pre) ∧
    ∀ l' n i', cfg.shape[l']? = some n → i' < n → (l' < l ∨ (l' = l ∧ i' < i)) →
      ∃ d' res', Ev.generate l' i' d' res' ∈ round pre := by
  have hall := fit_protocol hr pre _ post htr
  refine ⟨hall.2.2.2.1, ?_⟩
  intro l' n i' hl hi hlt
  have hm : (l', i') ∈ genPos (round pre) :=
    mem_of_prefix hall.2.2.1 ((mem_allPositions _ _ _).2 ⟨n, hl, hi⟩) hlt
  obtain ⟨ev, hev, hg⟩ := List.mem_filterMap.1 hm
  cases ev with
  | generate l2 i2 d2 r2 =>
    simp only [gen?, Option.some.injEq, Prod.mk.injEq] at hg
    obtain ⟨rfl, rfl⟩ := hg
    exact ⟨d2, r2, hev⟩
  | _ => simp [gen?] at hg

/-- C05: after an accepted column of subproblem `(l,i)`, until the next `solve_rmp`, no subproblem is asked and all columns offered to the
master come from the same subproblem. Also for runs that raise. -/
theorem C05_one_contributor (hr : fit env cfg fuel y e0 w0 = some r) {pre mid post : List (Ev D Col)} {l i : ℕ} {c : Col}
    (htr : r.2.trace = pre ++ Ev.add l i c (.ok true) :: mid ++ post) (hmid : ∀ e ∈ mid, ∀ q, e ≠ Ev.solveRmp q) :
    ∀ e ∈ mid, (∀ l' i' d res, e ≠ Ev.generate l' i' d res) ∧
      (∀ l' i' c' res, e = Ev.add l' i' c' res → l' = l ∧ i' = i) := by
  intro e he
  obtain ⟨m1, m2, rfl⟩ := List.append_of_mem he
  have hall := fit_protocol hr (pre ++ Ev.add l i c (.ok true) :: m1) e (m2 ++ post) (by rw [htr]; simp)
  have hin : Ev.add l i c (.ok true) ∈ round (pre ++ Ev.add l i c (.ok true) :: m1) := by
    apply mem_since_append rfl
    intro e' he'
    cases e' with
    | solveRmp q => exact absurd rfl (hmid (.solveRmp q) (by simp [he']) q)
    | _ => rfl
  constructor
  · rintro l' i' d res rfl
    have := hall.2.2.2.1 l i c (.ok true) hin
    cases this
  · rintro l' i' c' res rfl
    have := hall.2.1 (l, i) (List.mem_filterMap.2 ⟨_, hin, rfl⟩)
    simp only [Prod.mk.injEq] at this
    exact ⟨this.1.symm, this.2.symm⟩

/-! ## C06 -/

/-- C06: column accounting. -/
theorem C06_column_accounting (hr : fit env cfg fuel y e0 w0 = some (.ok u, s)) :
    s.est.numColAdded.map List.length = cfg.shape ∧
    (∀ l row, s.est.numColAdded[l]? = some row → ∀ i x, row[i]? = some x → x = (accPos s.trace).count (l, i)) ∧
    s.est.numColAdded.flatten.sum = (accPos s.trace).length ∧
    s.est.iter ≤ s.est.numColAdded.flatten.sum + 1 := by
  obtain ⟨e, tr, hE, hS, htr⟩ := returned hr
  rw [htr, accPos_tail, hS.nca, hS.iter]
  have ht := total_eq hE.cnt hE.prot
  refine ⟨hE.cnt.1, hE.cnt.2, ht, ?_⟩
  rw [ht]
  exact hE.acc

/-! ## C07 -/

/-- C07: if, however long the run goes on, at most `N` columns are accepted, `fit` ends after at most `N+1` iterations. No iteration or
time limit is assumed. `after n` is the state after at most `n` iterations. -/
theorem C07_finite_columns (env : Env W D Col) (cfg : Config) (y : List ℤ) (e0 : Est) (w0 : W) (N : ℕ)
    (hN : ∀ n, (accPos (after env cfg n (startSt env cfg y e0 w0)).trace).length ≤ N) :
    ∃ r, fit env cfg (N + 1) y e0 w0 = some r := by
  apply fit_terminates_of_loop
  intro h
  cases hl : loop env cfg (N + 1) (startSt env cfg y e0 w0) with
  | some r => exact ⟨r, rfl⟩
  | none =>
    have := acc_after env cfg _ (N + 1) _ h hl
    have h2 := hN (N + 1)
    omega

/-- `fit` that ends normally made at most one iteration more than it accepted columns. -/
theorem C07_iterations (hr : fit env cfg fuel y e0 w0 = some (.ok u, s)) {N : ℕ} (hN : (accPos s.trace).length ≤ N) :
    numRmp s.trace ≤ N + 1 := by
  have h := C06_column_accounting hr
  have := (C01_iteration_limit hr).1
  omega

/-- C07 through an invariant of the world: `J` is any relation between world and call history preserved by every call. -/
theorem C07_invariant {J : W → List (Ev D Col) → Prop} (hJ : Preserved env J) (h0 : J w0 []) (N : ℕ)
    (hb : ∀ w tr, Protocol cfg tr → J w tr → (accPos tr).length ≤ N) :
    ∃ r, fit env cfg (N + 1) y e0 w0 = some r := by
  apply fit_terminates_of_loop
  intro h
  cases hl : loop env cfg (N + 1) (startSt env cfg y e0 w0) with
  | some r => exact ⟨r, rfl⟩
  | none =>
    have := acc_after env cfg _ (N + 1) _ h hl
    have h1 := hJ.timer _ _ (env.clock w0).1 (hJ.clock _ _ h0)
    have h2 := hJ.generateMp _ _ (Sk.transform (Sk.uniqueLabels y) y) h1
    have h3 : J (startSt env cfg y e0 w0).world (startSt env cfg y e0 w0).trace := h2
    have h4 := hb _ _ (protocol_after env cfg _ (N + 1) _ h) (hJ.after cfg (N + 1) _ h3)
    omega

/-! ## C08 -/

/-- C08: `time_limit_reached_` is set exactly if a clock reading exceeded the limit, counted from the last start or reset of the timer;
never with a limit `≤ 0`; nothing but `solve_ip` happens afterwards. -/
theorem C08_time_limit (hr : fit env cfg fuel y e0 w0 = some (.ok u, s)) :
    (s.est.timeLimitReached = true ↔
      ∃ pre a b post, s.trace = pre ++ Ev.check a b :: post ∧ lastTimer pre = some a ∧ cfg.timeLimit > 0 ∧
        b - a > cfg.timeLimit) ∧
    (cfg.timeLimit ≤ 0 → s.est.timeLimitReached = false) := by
  obtain ⟨e, tr, hE, hS, htr⟩ := returned hr
  have key : s.est.timeLimitReached = true ↔
      ∃ pre a b post, s.trace = pre ++ Ev.check a b :: post ∧ lastTimer pre = some a ∧ cfg.timeLimit > 0 ∧
        b - a > cfg.timeLimit := by
    rw [hS.tl]
    constructor
    · intro ht
      cases hE with
      | limit h h1 h2 => rw [h.tl] at ht; cases ht
      | optimal d e' h h1 => rw [h1] at ht; rw [show ({ e' with mpOptimal := true } : Est).timeLimitReached = e'.timeLimitReached from rfl, h.tl] at ht; cases ht
      | timed h =>
        obtain ⟨pre, a, b, heq, h1, h2, h3⟩ := h.over
        exact ⟨pre, a, b, _, by rw [htr, heq, List.append_assoc]; rfl, h1, h2, h3⟩
    · rintro ⟨pre, a, b, post, heq, -, h1, h2⟩
      have hover : Over cfg tr := by
        rw [← over_tail tr cfg.rmpIsIp, ← htr]
        exact ⟨a, b, by rw [heq]; simp, h1, h2⟩
      cases hE with
      | limit h => exact absurd hover h.over
      | optimal d e' h h1 => exact absurd hover h.over
      | timed h => exact h.tl
  refine ⟨key, ?_⟩
  intro hle
  cases ht : s.est.timeLimitReached with
  | false => rfl
  | true =>
    obtain ⟨_, _, _, _, _, _, h, _⟩ := key.1 ht
    exact absurd hle (not_le.2 h)

/-- C08: after a reading beyond the limit no pricing, column or LP call is made. Also for runs that raise. -/
theorem C08_nothing_after (hr : fit env cfg fuel y e0 w0 = some r) {pre post : List (Ev D Col)} {a b : ℚ}
    (htr : r.2.trace = pre ++ Ev.check a b :: post) (h1 : cfg.timeLimit > 0) (h2 : b - a > cfg.timeLimit) :
    ∀ e ∈ post, ∃ q, e = Ev.solveIp q := by
  have := fit_protocol hr
  rw [htr] at this
  exact after_over h1 h2 post this

/-- C08: with a time limit, every pricing call is directly preceded by a clock reading within the limit, measured from the last
start of the timer. -/
theorem C08_checked_before_pricing (hr : fit env cfg fuel y e0 w0 = some r) {pre post : List (Ev D Col)} {l i : ℕ} {d : D}
    {res : Except Err (List Col)} (htr : r.2.trace = pre ++ Ev.generate l i d res :: post) (h1 : cfg.timeLimit > 0) :
    ∃ pre' a b, pre = pre' ++ [Ev.check a b] ∧ lastTimer pre' = some a ∧ b - a ≤ cfg.timeLimit := by
  have hp := fit_protocol hr
  have hall := hp pre _ post htr
  obtain ⟨a, b, hlast⟩ := hall.2.2.2.2.1 h1
  rw [List.getLast?_eq_some_iff] at hlast
  obtain ⟨pre', rfl⟩ := hlast
  have hc := hp pre' (Ev.check a b) (Ev.generate l i d res :: post) (by rw [htr]; simp)
  refine ⟨pre', a, b, rfl, hc.1, ?_⟩
  by_contra h
  exact hall.2.2.2.2.2.1 ⟨a, b, by simp, h1, not_le.1 h⟩

/-! ## C09 -/

/-- C09: with fewer than two distinct labels `fit` raises `ValueError`, and neither the master nor a subproblem was called (the world only saw
the clock); otherwise `generate_mp` is the first call and gets codes `py` for the labels: order preserving, injective and decodable. -/
theorem C09_single_class (env : Env W D Col) (cfg : Config) (fuel : ℕ) (y : List ℤ) (e0 : Est) (w0 : W) :
    ((∀ a ∈ y, ∀ b ∈ y, a = b) → ∃ s, fit env cfg fuel y e0 w0 = some (.error .valueError, s) ∧
      s.trace = [Ev.timer (env.clock w0).1] ∧ s.world = (env.clock w0).2 ∧ s.est.isFitted = e0.isFitted) ∧
    ((∃ a ∈ y, ∃ b ∈ y, a ≠ b) → ∀ r, fit env cfg fuel y e0 w0 = some r →
      ∃ t py res rest, r.2.trace = Ev.timer t :: Ev.generateMp py res :: rest ∧ py.length = y.length ∧
        (∀ (i : ℕ) a, y[i]? = some a → ∃ c, py[i]? = some c ∧ Sk.inverseOne (Sk.uniqueLabels y) c = .ok a) ∧
        (∀ (i j : ℕ) a b c d, y[i]? = some a → y[j]? = some b → py[i]? = some c → py[j]? = some d → (c < d ↔ a < b))) := by
  constructor
  · intro h
    have hc : (Sk.uniqueLabels y).length ≤ 1 := uniqueLabels_length_le h
    rw [fit_eq, if_pos hc]
    exact ⟨_, rfl, rfl, rfl, rfl⟩
  · rintro ⟨a, ha, b, hb, hab⟩ r hr
    have hc : ¬ (Sk.uniqueLabels y).length ≤ 1 := by
      intro hle
      exact hab (uniqueLabels_length_le_iff.1 hle a ha b hb)
    have hpre : [Ev.timer (env.clock w0).1, Ev.generateMp (Sk.transform (Sk.uniqueLabels y) y)
        (env.generateMp (Sk.transform (Sk.uniqueLabels y) y) (env.clock w0).2).1] <+: r.2.trace :=
      fit_trace_prefix hc hr
    obtain ⟨rest, hrest⟩ := hpre
    refine ⟨_, _, _, rest, hrest.symm, by simp [Sk.transform], ?_, ?_⟩
    · intro i a hi
      refine ⟨(Sk.uniqueLabels y).idxOf a, by simp [Sk.transform, hi], ?_⟩
      exact Sk.inverse_transform_one y a (List.mem_of_getElem? hi)
    · intro i j a b c d hi hj hci hdj
      simp only [Sk.transform, List.getElem?_map, hi, hj, Option.map_some, Option.some.injEq] at hci hdj
      subst hci; subst hdj
      exact Sk.idxOf_lt_iff y (List.mem_of_getElem? hi) (List.mem_of_getElem? hj)

/-! ## C10 -/

/-- C10, normal return: `is_fitted_` is set; `solve_ip` was called exactly once, as the last call, and succeeded, if `rmp_is_ip`; otherwise it
was not called. -/
theorem C10_returns (hr : fit env cfg fuel y e0 w0 = some (.ok u, s)) :
    s.est.isFitted = true ∧
    (cfg.rmpIsIp = true → ∃ tr, s.trace = tr ++ [Ev.solveIp (.ok true)] ∧ ∀ q, Ev.solveIp q ∉ tr) ∧
    (cfg.rmpIsIp = false → ∀ q, Ev.solveIp q ∉ s.trace) := by
  have hf := (fit_spec env cfg fuel y e0 w0 (.ok u, s) hr).fitted
  obtain ⟨e, tr, hE, hS, htr⟩ := returned hr
  refine ⟨hf, ?_, ?_⟩
  · intro h
    rw [h] at htr
    exact ⟨tr, htr, fun q hq => hE.ip ⟨q, hq⟩⟩
  · intro h q hq
    rw [htr, h] at hq
    simp only [Bool.false_eq_true, if_false, List.append_nil] at hq
    exact hE.ip ⟨q, hq⟩

/-- C10, exception: `is_fitted_` keeps its old value; `solve_ip` is called at most once, only if `rmp_is_ip`, and nothing follows it; if it
reported failure the exception is `AssertionError`. -/
theorem C10_raises {er : Err} (hr : fit env cfg fuel y e0 w0 = some (.error er, s)) :
    s.est.isFitted = e0.isFitted ∧
    (∀ q, Ev.solveIp q ∈ s.trace → cfg.rmpIsIp = true ∧ (∃ tr, s.trace = tr ++ [Ev.solveIp q] ∧ ∀ q', Ev.solveIp q' ∉ tr) ∧
      ((q = .ok false ∧ er = .assertionError) ∨ q = .error er)) := by
  have hR := fit_spec env cfg fuel y e0 w0 (.error er, s) hr
  cases hR with
  | early t h h1 h2 => exact ⟨h1, fun q hq => by rw [h] at hq; simp at hq⟩
  | gen t py h h1 => exact ⟨h1, fun q hq => by rw [h] at hq; simp at hq⟩
  | loop h => exact ⟨h.fitted, fun q hq => absurd ⟨q, hq⟩ h.ip⟩
  | ip e tr q0 h h1 h2 h3 h4 =>
    refine ⟨h4, fun q hq => ?_⟩
    rw [h2] at hq
    rcases List.mem_append.1 hq with hq | hq
    · exact absurd ⟨q, hq⟩ h.ip
    · have : q = q0 := by simpa using hq
      subst this
      exact ⟨h1, ⟨tr, h2, fun q' hq' => h.ip ⟨q', hq'⟩⟩, h3⟩

/-! ## C11 (false of the code) -/

/-- C11 as stated is `performedIter = iter`. The code never increments `performed_iter_`, so on every normal return it is 0 while
`iter_` is at least 1. This is what the code does instead. -/
theorem C11_performed_iter_partial (hr : fit env cfg fuel y e0 w0 = some (.ok u, s)) :
    s.est.performedIter = 0 ∧ 1 ≤ s.est.iter := by
  obtain ⟨e, tr, hE, hS, htr⟩ := returned hr
  refine ⟨by rw [hS.perf, hE.perf], ?_⟩
  rw [hS.iter]
  cases hE with
  | limit h h1 h2 => omega
  | optimal d e' h h1 => rw [h1]; have := h.pos; rw [← h.iter] at this; exact this
  | timed h => have := h.pos; rw [← h.iter] at this; exact this

/-! ## C12 -/

/-- What `allPositions` lists: every existing subproblem once, in level order. -/
theorem C12_positions (shape : List ℕ) :
    (∀ l i, (l, i) ∈ allPositions shape ↔ ∃ n, shape[l]? = some n ∧ i < n) ∧ (allPositions shape).Nodup ∧
    (allPositions shape).Pairwise (fun p q => p.1 < q.1 ∨ (p.1 = q.1 ∧ p.2 < q.2)) :=
  ⟨fun l i => mem_allPositions shape l i, nodup_allPositions shape, pairwise_positionsFrom 0 shape⟩

/-- C12, updates: `update_subproblem` gets the duals of the last `solve_rmp`, before any pricing of that round. Also for runs that raise. -/
theorem C12_update (hr : fit env cfg fuel y e0 w0 = some r) {pre post : List (Ev D Col)} {l i : ℕ} {d : D}
    {res : Except Err Unit} (htr : r.2.trace = pre ++ Ev.update l i d res :: post) :
    lastDuals pre = some (.ok d) ∧ (∀ l' i' d' q, Ev.generate l' i' d' q ∉ round pre) ∧
    updPos (round pre) ++ [(l, i)] <+: allPositions cfg.shape := by
  have hall := fit_protocol hr pre _ post htr
  refine ⟨hall.1, ?_, hall.2.1⟩
  intro l' i' d' q hm
  have : (l', i') ∈ genPos (round pre) := List.mem_filterMap.2 ⟨_, hm, rfl⟩
  rw [hall.2.2.1] at this
  simp at this

/-- C12, pricing: `generate_columns` gets the same duals, after every subproblem was updated exactly once in that round. Also for runs
that raise. -/
theorem C12_generate (hr : fit env cfg fuel y e0 w0 = some r) {pre post : List (Ev D Col)} {l i : ℕ} {d : D}
    {res : Except Err (List Col)} (htr : r.2.trace = pre ++ Ev.generate l i d res :: post) :
    lastDuals pre = some (.ok d) ∧ updPos (round pre) = allPositions cfg.shape := by
  have hall := fit_protocol hr pre _ post htr
  exact ⟨hall.1, hall.2.1⟩

/-- C12, whole rounds: when a round is over (next `solve_rmp`, or normal return) every subproblem was updated exactly once in it. -/
theorem C12_rounds :
    (∀ r, fit env cfg fuel y e0 w0 = some r → ∀ pre q post, r.2.trace = pre ++ Ev.solveRmp q :: post → 0 < numRmp pre →
      updPos (round pre) = allPositions cfg.shape) ∧
    (∀ u s, fit env cfg fuel y e0 w0 = some (.ok u, s) → updPos (round s.trace) = allPositions cfg.shape) := by
  constructor
  · intro r hr pre q post htr hpos
    exact ((fit_protocol hr pre _ post htr).2.2.2 hpos).1
  · intro u s hr
    obtain ⟨e, tr, hE, hS, htr⟩ := returned hr
    rw [htr, round_tail]
    have h2 : updPos (round tr ++ (if cfg.rmpIsIp then [Ev.solveIp (.ok true)] else [])) = updPos (round tr) := by
      cases cfg.rmpIsIp <;> simp [updPos, upd?, List.filterMap_append, List.filterMap_cons]
    rw [h2]
    cases hE with
    | limit h h1 h2 => exact h.upds (by rw [← h.iter]; omega)
    | optimal d e' h h1 => exact h.upds
    | timed h => exact h.upds

/-! ## C57, shape part -/

/-- C57 (estimator constructor): the shape assertions pass exactly if both lists of lists have the same shape, otherwise
`AssertionError`. -/
theorem C57_shapes (spShape paramShape : List ℕ) :
    (initChecks spShape paramShape = .ok () ↔ spShape = paramShape) ∧
    (spShape ≠ paramShape → initChecks spShape paramShape = .error .assertionError) := by
  have h1 : initChecks spShape paramShape = .ok () ↔ spShape = paramShape := by
    unfold initChecks
    constructor
    · intro h
      split at h
      · cases h
      · rename_i hlen
        split at h
        · rename_i hall
          apply List.ext_getElem?
          intro l
          by_cases hl : l < spShape.length
          · have := List.all_eq_true.1 hall l (List.mem_range.2 hl)
            simpa using this
          · have hlen' : spShape.length = paramShape.length := not_not.1 hlen
            rw [List.getElem?_eq_none (by omega), List.getElem?_eq_none (by omega)]
        · cases h
    · rintro rfl
      simp
  refine ⟨h1, fun hne => ?_⟩
  cases h : initChecks spShape paramShape with
  | ok u => exact absurd (h1.1 (by cases u; exact h)) hne
  | error e =>
    unfold initChecks at h
    split at h
    · exact h.symm
    · split at h
      · cases h
      · exact h.symm

end Verif.Fit
