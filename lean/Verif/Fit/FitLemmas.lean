import Verif.Fit.Invariant

/-!
# From the loop to `fit`
-/

set_option linter.unusedSectionVars false

namespace Verif.Fit

open Spec

variable {W D Col : Type}

theorem Acc.ofStart {env : Env W D Col} {cfg : Config} {y : List ℤ} {e0 : Est} {w0 : W} {u : Unit}
    (hg : (env.generateMp (Sk.transform (Sk.uniqueLabels y) y) (env.clock w0).2).1 = .ok u) :
    Acc cfg e0.isFitted (startSt env cfg y e0 w0).est (startSt env cfg y e0 w0).trace := by
  have hp1 : Protocol cfg ([Ev.timer (env.clock w0).1] : List (Ev D Col)) := by
    have := protocol_snoc (cfg := cfg) (e := Ev.timer (env.clock w0).1) (protocol_nil (D := D) (Col := Col) cfg) (Or.inl rfl)
    simpa using this
  have hp2 : Protocol cfg (startSt env cfg y e0 w0).trace := by
    have := protocol_snoc (e := Ev.generateMp (Sk.transform (Sk.uniqueLabels y) y)
      (env.generateMp (Sk.transform (Sk.uniqueLabels y) y) (env.clock w0).2).1) hp1 ⟨_, rfl⟩
    simpa [startSt] using this
  refine { prot := hp2, cnt := ?_, iter := ?_, start := ?_, over := ?_, ip := ?_, tl := rfl, opt := rfl, gmp := ?_,
           perf := rfl, fitted := rfl, acc := ?_, clean := ?_, upds := ?_, acc1 := ?_, acc2 := ?_, off := ?_ }
  · refine ⟨?_, ?_⟩
    · simp only [startSt, initEst, List.map_map]
      conv_rhs => rw [← List.map_id cfg.shape]
      apply List.map_congr_left
      intro a _
      simp
    · intro l row hrow i x hx
      simp only [startSt, initEst, List.getElem?_map] at hrow
      obtain ⟨n, -, rfl⟩ := Option.map_eq_some_iff.1 hrow
      have hx0 : x = 0 := by
        rw [List.getElem?_replicate] at hx
        split at hx
        · exact (Option.some.inj hx).symm
        · cases hx
      subst hx0
      simp [startSt, accPos, accepted?, List.filterMap_cons]
  · rfl
  · simp [startSt, lastTimer, timer?, List.filterMap_cons, initEst]
  · rintro ⟨s, t, h, -⟩
    simp [startSt] at h
  · rintro ⟨r, h⟩
    simp [startSt] at h
  · refine ⟨Sk.transform (Sk.uniqueLabels y) y, ?_⟩
    simp [startSt, hg]
  · simp [startSt, initEst]
  · intro ev hev
    simp only [startSt, hg, List.mem_cons, List.not_mem_nil, or_false] at hev
    rcases hev with rfl | rfl <;> rfl
  · intro h; simp [startSt, numRmp, isRmp] at h
  · intro h; simp [startSt, numRmp, isRmp] at h
  · simp [startSt, initEst]
  · exact offered_of_genPos rfl

/-- The three ways in which the loop ends normally. -/
inductive LoopEnd (cfg : Config) (f0 : Bool) (e : Est) (tr : List (Ev D Col)) : Prop where
  | limit (h : Acc cfg f0 e tr) (h1 : cfg.maxIterations > 0) (h2 : (e.iter : ℤ) ≥ cfg.maxIterations)
  | optimal (d : D) (e' : Est) (h : Price cfg f0 d (allPositions cfg.shape) e' tr) (h1 : e = { e' with mpOptimal := true })
  | timed (h : Timed cfg f0 e tr)

/-- Estimators that agree on everything written by the loop. -/
structure SameLoop (e e' : Est) : Prop where
  iter : e.iter = e'.iter
  perf : e.performedIter = e'.performedIter
  opt : e.mpOptimal = e'.mpOptimal
  tl : e.timeLimitReached = e'.timeLimitReached
  nca : e.numColAdded = e'.numColAdded
  ts : e.tStart = e'.tStart
  imp : e.numImproving = e'.numImproving

/-- What can be said about a normal return. -/
structure Returned (cfg : Config) (f0 : Bool) (s : St W D Col) : Prop where
  ex : ∃ e tr, LoopEnd cfg f0 e tr ∧ SameLoop s.est e ∧
    s.trace = tr ++ (if cfg.rmpIsIp then [Ev.solveIp (.ok true)] else [])
  fitted : s.est.isFitted = true

/-- What can be said about an exception. -/
inductive Raised (cfg : Config) (f0 : Bool) (er : Err) (s : St W D Col) : Prop where
  | early (t : ℚ) (h : s.trace = [Ev.timer t]) (h1 : s.est.isFitted = f0) (h2 : er = .valueError)
  | gen (t : ℚ) (py : List ℕ) (h : s.trace = [Ev.timer t, Ev.generateMp py (.error er)]) (h1 : s.est.isFitted = f0)
  | loop (h : Failed cfg f0 er s.est s.trace)
  | ip (e : Est) (tr : List (Ev D Col)) (r : Except Err Bool) (h : LoopEnd cfg f0 e tr) (h1 : cfg.rmpIsIp = true)
      (h2 : s.trace = tr ++ [Ev.solveIp r]) (h3 : (r = .ok false ∧ er = .assertionError) ∨ r = .error er)
      (h4 : s.est.isFitted = f0)

theorem LoopEnd.fitted {cfg : Config} {f0 : Bool} {e : Est} {tr : List (Ev D Col)} (h : LoopEnd cfg f0 e tr) :
    e.isFitted = f0 := by
  cases h with
  | limit h => exact h.fitted
  | optimal d e' h h1 => subst h1; exact h.fitted
  | timed h => exact h.fitted

theorem LoopEnd.prot {cfg : Config} {f0 : Bool} {e : Est} {tr : List (Ev D Col)} (h : LoopEnd cfg f0 e tr) :
    Protocol cfg tr := by
  cases h with
  | limit h => exact h.prot
  | optimal d e' h h1 => exact h.prot
  | timed h => exact h.prot

theorem LoopEnd.ip {cfg : Config} {f0 : Bool} {e : Est} {tr : List (Ev D Col)} (h : LoopEnd cfg f0 e tr) :
    ¬ IpCalled tr := by
  cases h with
  | limit h => exact h.ip
  | optimal d e' h h1 => exact h.ip
  | timed h => exact h.ip

theorem LoopEnd.off {cfg : Config} {f0 : Bool} {e : Est} {tr : List (Ev D Col)} (h : LoopEnd cfg f0 e tr) :
    Offered tr := by
  cases h with
  | limit h => exact h.off
  | optimal d e' h h1 => exact h.off
  | timed h => exact h.off

theorem LoopEnd.clean {cfg : Config} {f0 : Bool} {e : Est} {tr : List (Ev D Col)} (h : LoopEnd cfg f0 e tr) :
    Clean tr := by
  cases h with
  | limit h => exact h.clean
  | optimal d e' h h1 => exact h.clean
  | timed h => exact h.clean

theorem LoopEnd.iter {cfg : Config} {f0 : Bool} {e : Est} {tr : List (Ev D Col)} (h : LoopEnd cfg f0 e tr) :
    e.iter = numRmp tr := by
  cases h with
  | limit h => exact h.iter
  | optimal d e' h h1 => subst h1; exact h.iter
  | timed h => exact h.iter

theorem LoopEnd.cnt {cfg : Config} {f0 : Bool} {e : Est} {tr : List (Ev D Col)} (h : LoopEnd cfg f0 e tr) :
    Cnt cfg.shape e.numColAdded tr := by
  cases h with
  | limit h => exact h.cnt
  | optimal d e' h h1 => subst h1; exact h.cnt
  | timed h => exact h.cnt

theorem LoopEnd.acc {cfg : Config} {f0 : Bool} {e : Est} {tr : List (Ev D Col)} (h : LoopEnd cfg f0 e tr) :
    e.iter ≤ (accPos tr).length + 1 := by
  cases h with
  | limit h => exact h.acc
  | optimal d e' h h1 => subst h1; exact h.acc
  | timed h => exact h.acc

theorem LoopEnd.perf {cfg : Config} {f0 : Bool} {e : Est} {tr : List (Ev D Col)} (h : LoopEnd cfg f0 e tr) :
    e.performedIter = 0 := by
  cases h with
  | limit h => exact h.perf
  | optimal d e' h h1 => subst h1; exact h.perf
  | timed h => exact h.perf

theorem finish_spec (env : Env W D Col) (cfg : Config) (f0 : Bool) (s : St W D Col) (h : LoopEnd cfg f0 s.est s.trace) :
    match finish env cfg s with
    | (.ok _, s') => Returned cfg f0 s'
    | (.error er, s') => Raised cfg f0 er s' := by
  have hf := h.fitted
  simp only [finish, now, St.set, call]
  cases hip : cfg.rmpIsIp with
  | false =>
    simp only [Bool.false_eq_true, if_false]
    exact ⟨⟨s.est, s.trace, h, ⟨rfl, rfl, rfl, rfl, rfl, rfl, rfl⟩, by simp [hip]⟩, rfl⟩
  | true =>
    simp only [if_true]
    generalize env.solveIp (env.clock s.world).2 = g
    obtain ⟨gr, gw⟩ := g
    cases gr with
    | error er => exact .ip s.est s.trace _ h hip rfl (Or.inr rfl) hf
    | ok b =>
      cases b with
      | true => exact ⟨⟨s.est, s.trace, h, ⟨rfl, rfl, rfl, rfl, rfl, rfl, rfl⟩, by simp [hip]⟩, rfl⟩
      | false => exact .ip s.est s.trace _ h hip rfl (Or.inl ⟨rfl, rfl⟩) hf

theorem loopEnd_of_loop {env : Env W D Col} {cfg : Config} {f0 : Bool} {n : ℕ} {s s' : St W D Col} {u : Unit}
    (h : Acc cfg f0 s.est s.trace) (hl : loop env cfg n s = some (.ok u, s')) : LoopEnd cfg f0 s'.est s'.trace := by
  rcases loop_spec env cfg f0 n s h _ hl with ⟨h1, h2, h3⟩ | ⟨d, e, h1, h2⟩ | h1
  · exact .limit h1 h2 h3
  · exact .optimal d e h1 h2
  · exact .timed h1

theorem fit_spec (env : Env W D Col) (cfg : Config) (fuel : ℕ) (y : List ℤ) (e0 : Est) (w0 : W)
    (r : Except Err Unit × St W D Col) : fit env cfg fuel y e0 w0 = some r →
    match r with
    | (.ok _, s) => Returned cfg e0.isFitted s
    | (.error er, s) => Raised cfg e0.isFitted er s := by
  intro hr
  rw [fit_eq] at hr
  by_cases hc : (Sk.uniqueLabels y).length ≤ 1
  · rw [if_pos hc] at hr
    cases hr
    exact .early _ rfl rfl rfl
  · rw [if_neg hc] at hr
    cases hg : (env.generateMp (Sk.transform (Sk.uniqueLabels y) y) (env.clock w0).2).1 with
    | error er =>
      rw [hg] at hr
      cases hr
      refine .gen (env.clock w0).1 (Sk.transform (Sk.uniqueLabels y) y) ?_ rfl
      simp [startSt, hg]
    | ok u =>
      rw [hg] at hr
      simp only at hr
      have hA := Acc.ofStart (cfg := cfg) (e0 := e0) hg
      cases hl : loop env cfg fuel (startSt env cfg y e0 w0) with
      | none => rw [hl] at hr; cases hr
      | some r2 =>
        rw [hl] at hr
        obtain ⟨res, s2⟩ := r2
        cases res with
        | error er =>
          cases hr
          have := loop_spec env cfg e0.isFitted fuel _ hA _ hl
          exact .loop this
        | ok u2 =>
          have hE := loopEnd_of_loop hA hl
          have := finish_spec env cfg e0.isFitted s2 hE
          simp only [Option.some.injEq] at hr
          rw [hr] at this
          exact this

theorem protocol_ip {cfg : Config} {tr : List (Ev D Col)} {r : Except Err Bool} (h : Protocol cfg tr)
    (hi : ¬ IpCalled tr) (ho : Offered tr) (hc : cfg.rmpIsIp = true) : Protocol cfg (tr ++ [Ev.solveIp r]) :=
  protocol_snoc h ⟨hc, hi, ho⟩

/-- Every run, whatever its outcome, follows the protocol. -/
theorem fit_protocol {env : Env W D Col} {cfg : Config} {fuel : ℕ} {y : List ℤ} {e0 : Est} {w0 : W}
    {r : Except Err Unit × St W D Col} (hr : fit env cfg fuel y e0 w0 = some r) : Protocol cfg r.2.trace := by
  have := fit_spec env cfg fuel y e0 w0 r hr
  have hp1 : ∀ t, Protocol cfg ([Ev.timer t] : List (Ev D Col)) := by
    intro t
    have := protocol_snoc (cfg := cfg) (e := Ev.timer t) (protocol_nil (D := D) (Col := Col) cfg) (Or.inl rfl)
    simpa using this
  obtain ⟨res, s⟩ := r
  cases res with
  | ok u =>
    obtain ⟨⟨e, tr, hE, -, htr⟩, -⟩ := this
    simp only
    rw [htr]
    cases hip : cfg.rmpIsIp with
    | false => simpa using hE.prot
    | true => exact protocol_ip hE.prot hE.ip hE.off hip
  | error er =>
    cases this with
    | early t h h1 h2 => simp only; rw [h]; exact hp1 t
    | gen t py h h1 =>
      simp only; rw [h]
      have := protocol_snoc (e := Ev.generateMp py (.error er)) (hp1 t) ⟨_, rfl⟩
      simpa using this
    | loop h => exact h.prot
    | ip e tr r h h1 h2 h3 h4 =>
      simp only; rw [h2]
      exact protocol_ip h.prot h.ip h.off h1

/-! ## Termination -/

theorem loop_terminates_max (env : Env W D Col) (cfg : Config) (f0 : Bool) (hm : cfg.maxIterations > 0) :
    ∀ (n : ℕ) (s : St W D Col), Acc cfg f0 s.est s.trace → cfg.maxIterations ≤ s.est.iter + n →
      ∃ r, loop env cfg (n + 1) s = some r := by
  intro n
  induction n with
  | zero =>
    intro s h hn
    simp only [loop]
    rw [if_pos ⟨hm, by simpa using hn⟩]
    exact ⟨_, rfl⟩
  | succ n ih =>
    intro s h hn
    rw [loop]
    split
    · exact ⟨_, rfl⟩
    · have hb := body_spec env cfg f0 s h
      generalize body env cfg s = g at hb
      obtain ⟨res, s'⟩ := g
      cases res with
      | error er => exact ⟨_, rfl⟩
      | ok b =>
        cases b with
        | true => exact ih s' hb.1 (by rw [hb.2]; push_cast at hn ⊢; omega)
        | false => exact ⟨_, rfl⟩

/-- The state of the run after at most `n` iterations (the state in which the run stopped if it stopped earlier). -/
def after (env : Env W D Col) (cfg : Config) : ℕ → St W D Col → St W D Col
  | 0, s => s
  | n + 1, s =>
    if cfg.maxIterations > 0 ∧ (s.est.iter : ℤ) ≥ cfg.maxIterations then s
    else
      match body env cfg s with
      | (.ok true, s') => after env cfg n s'
      | (_, s') => s'

/-- If the loop has not stopped after `n` iterations, at least that many columns were accepted. -/
theorem acc_after (env : Env W D Col) (cfg : Config) (f0 : Bool) :
    ∀ (n : ℕ) (s : St W D Col), Acc cfg f0 s.est s.trace → loop env cfg n s = none →
      s.est.iter + n ≤ (accPos (after env cfg n s).trace).length := by
  intro n
  induction n with
  | zero => intro s h _; exact h.acc2
  | succ n ih =>
    intro s h hn
    simp only [loop] at hn
    simp only [after]
    split at hn
    · cases hn
    · rename_i hc
      rw [if_neg hc]
      have hb := body_spec env cfg f0 s h
      generalize body env cfg s = g at hb hn
      obtain ⟨res, s'⟩ := g
      cases res with
      | error er => cases hn
      | ok b =>
        cases b with
        | true =>
          have := ih s' hb.1 hn
          simp only
          have h2 := hb.2
          omega
        | false => cases hn

end Verif.Fit

namespace Verif.Fit

open Spec

variable {W D Col : Type}

theorem iter_le_of_loop (env : Env W D Col) (cfg : Config) (f0 : Bool) (hm : cfg.maxIterations > 0) :
    ∀ (n : ℕ) (s : St W D Col), Acc cfg f0 s.est s.trace → (s.est.iter : ℤ) ≤ cfg.maxIterations →
      ∀ u s', loop env cfg n s = some (.ok u, s') → (s'.est.iter : ℤ) ≤ cfg.maxIterations := by
  intro n
  induction n with
  | zero => intro s _ _ u s' hr; simp [loop] at hr
  | succ n ih =>
    intro s h hle u s' hr
    simp only [loop] at hr
    split at hr
    · cases hr; exact hle
    · rename_i hlim
      have hlt : (s.est.iter : ℤ) + 1 ≤ cfg.maxIterations := by
        by_contra h0
        exact hlim ⟨hm, by omega⟩
      have hb := body_spec env cfg f0 s h
      generalize body env cfg s = g at hb hr
      obtain ⟨res, s2⟩ := g
      cases res with
      | error er => cases hr
      | ok b =>
        cases b with
        | true => exact ih s2 hb.1 (by rw [hb.2]; push_cast; exact hlt) u s' hr
        | false => cases hr; rw [hb.2]; push_cast; exact hlt

/-- A normal return in terms of the loop. -/
theorem fit_ok_inv {env : Env W D Col} {cfg : Config} {fuel : ℕ} {y : List ℤ} {e0 : Est} {w0 : W} {u : Unit}
    {s : St W D Col} (hr : fit env cfg fuel y e0 w0 = some (.ok u, s)) :
    ∃ s1 u1 u0, (env.generateMp (Sk.transform (Sk.uniqueLabels y) y) (env.clock w0).2).1 = .ok u0 ∧
      loop env cfg fuel (startSt env cfg y e0 w0) = some (.ok u1, s1) ∧ finish env cfg s1 = (.ok u, s) := by
  rw [fit_eq] at hr
  by_cases hc : (Sk.uniqueLabels y).length ≤ 1
  · rw [if_pos hc] at hr; cases hr
  · rw [if_neg hc] at hr
    cases hg : (env.generateMp (Sk.transform (Sk.uniqueLabels y) y) (env.clock w0).2).1 with
    | error er => rw [hg] at hr; cases hr
    | ok u0 =>
      rw [hg] at hr
      simp only at hr
      cases hl : loop env cfg fuel (startSt env cfg y e0 w0) with
      | none => rw [hl] at hr; cases hr
      | some r2 =>
        rw [hl] at hr
        obtain ⟨res, s2⟩ := r2
        cases res with
        | error er => cases hr
        | ok u2 => exact ⟨s2, u2, u0, rfl, rfl, Option.some.inj hr⟩

theorem finish_iter {env : Env W D Col} {cfg : Config} {s s' : St W D Col} {u : Unit}
    (h : finish env cfg s = (.ok u, s')) : s'.est.iter = s.est.iter := by
  simp only [finish, now, St.set, call] at h
  cases hip : cfg.rmpIsIp with
  | false =>
    rw [hip] at h
    simp only [Bool.false_eq_true, if_false] at h
    cases h; rfl
  | true =>
    rw [hip] at h
    simp only [if_true] at h
    generalize env.solveIp (env.clock s.world).2 = g at h
    obtain ⟨gr, gw⟩ := g
    cases gr with
    | error er => cases h
    | ok b =>
      cases b with
      | true => cases h; rfl
      | false => cases h

theorem loop_mono (env : Env W D Col) (cfg : Config) : ∀ (n k : ℕ) (s : St W D Col) (r),
    loop env cfg n s = some r → loop env cfg (n + k) s = some r := by
  intro n
  induction n with
  | zero => intro k s r h; simp [loop] at h
  | succ n ih =>
    intro k s r h
    rw [show n + 1 + k = (n + k) + 1 by omega]
    simp only [loop] at h ⊢
    split at h
    · rename_i hc; rw [if_pos hc]; exact h
    · rename_i hc
      rw [if_neg hc]
      generalize body env cfg s = g at h ⊢
      obtain ⟨res, s2⟩ := g
      cases res with
      | error er => exact h
      | ok b =>
        cases b with
        | true => exact ih k s2 r h
        | false => exact h

/-- Fuel beyond what is needed does not change the result. -/
theorem fit_mono (env : Env W D Col) (cfg : Config) (n k : ℕ) (y : List ℤ) (e0 : Est) (w0 : W)
    (r : Except Err Unit × St W D Col) (h : fit env cfg n y e0 w0 = some r) :
    fit env cfg (n + k) y e0 w0 = some r := by
  rw [fit_eq] at h ⊢
  by_cases hc : (Sk.uniqueLabels y).length ≤ 1
  · rw [if_pos hc] at h ⊢; exact h
  · rw [if_neg hc] at h ⊢
    cases hg : (env.generateMp (Sk.transform (Sk.uniqueLabels y) y) (env.clock w0).2).1 with
    | error er => rw [hg] at h; exact h
    | ok u0 =>
      rw [hg] at h
      simp only at h ⊢
      cases hl : loop env cfg n (startSt env cfg y e0 w0) with
      | none => rw [hl] at h; cases h
      | some r2 =>
        rw [hl] at h
        rw [loop_mono env cfg n k _ r2 hl]
        exact h

theorem fit_terminates_of_loop {env : Env W D Col} {cfg : Config} {n : ℕ} {y : List ℤ} {e0 : Est} {w0 : W}
    (h : Acc cfg e0.isFitted (startSt env cfg y e0 w0).est (startSt env cfg y e0 w0).trace →
      ∃ r, loop env cfg n (startSt env cfg y e0 w0) = some r) : ∃ r, fit env cfg n y e0 w0 = some r := by
  rw [fit_eq]
  split
  · exact ⟨_, rfl⟩
  · cases hg : (env.generateMp (Sk.transform (Sk.uniqueLabels y) y) (env.clock w0).2).1 with
    | error er => exact ⟨_, rfl⟩
    | ok u0 =>
      obtain ⟨⟨res, s⟩, hl⟩ := h (Acc.ofStart hg)
      simp only
      rw [hl]
      cases res <;> exact ⟨_, rfl⟩

/-! ## Trace lemmas -/

theorem mem_since_append {p : Ev D Col → Bool} {pre mid : List (Ev D Col)} {x : Ev D Col} (hx : p x = false)
    (hm : ∀ e ∈ mid, p e = false) : x ∈ since p (pre ++ x :: mid) := by
  induction mid using List.reverseRecOn with
  | nil => rw [since_snoc, hx]; simp
  | append_singleton mid e ih =>
    have he : p e = false := hm e (by simp)
    rw [show pre ++ x :: (mid ++ [e]) = (pre ++ x :: mid) ++ [e] by simp, since_snoc, he]
    simp only [Bool.false_eq_true, if_false]
    exact List.mem_append_left _ (ih (fun e' h' => hm e' (by simp [h'])))

theorem protocol_of_append {cfg : Config} {tr tr' : List (Ev D Col)} (h : Protocol cfg (tr ++ tr')) : Protocol cfg tr := by
  intro pre e post heq
  exact h pre e (post ++ tr') (by rw [heq]; simp)

theorem since_subset (p : Ev D Col → Bool) (tr : List (Ev D Col)) : ∀ e ∈ since p tr, e ∈ tr := by
  intro e he
  have := (List.takeWhile_sublist (fun e => !p e) (l := tr.reverse)).subset (List.mem_reverse.1 he)
  exact List.mem_reverse.1 this

/-- Accepted columns belong to existing subproblems. -/
theorem accPos_mem {cfg : Config} {tr : List (Ev D Col)} (h : Protocol cfg tr) :
    ∀ p ∈ accPos tr, p ∈ allPositions cfg.shape := by
  rintro ⟨l, i⟩ hp
  obtain ⟨e, he, hacc⟩ := List.mem_filterMap.1 hp
  obtain ⟨pre, post, heq⟩ := List.append_of_mem he
  have hall := h pre e post heq
  cases e with
  | add l' i' c r =>
    cases r with
    | error er => simp [accepted?] at hacc
    | ok b =>
      cases b with
      | false => simp [accepted?] at hacc
      | true =>
        simp only [accepted?, Option.some.injEq, Prod.mk.injEq] at hacc
        obtain ⟨rfl, rfl⟩ := hacc
        obtain ⟨⟨cols, hcols, -⟩, -⟩ := hall
        have hm := List.mem_of_getLast? hcols
        obtain ⟨g, hg, hgr⟩ := List.mem_filterMap.1 hm
        have hg' := since_subset _ _ _ hg
        obtain ⟨pre2, post2, heq2⟩ := List.append_of_mem hg'
        have hall2 := h pre2 g (post2 ++ Ev.add l' i' c (.ok true) :: post) (by rw [heq, heq2]; simp)
        cases g with
        | generate l2 i2 d2 r2 =>
          simp only [genRes?, Option.some.injEq, Prod.mk.injEq] at hgr
          obtain ⟨rfl, rfl, -⟩ := hgr
          exact hall2.2.2.1.subset (by simp)
        | _ => simp [genRes?] at hgr
  | _ => simp [accepted?] at hacc

theorem flatten_eq_positions (f : ℕ × ℕ → ℕ) (nca : List (List ℕ)) : ∀ (k : ℕ) (shape : List ℕ),
    nca.map List.length = shape →
    (∀ l row, nca[l]? = some row → ∀ i x, row[i]? = some x → x = f (k + l, i)) →
    nca.flatten = (positionsFrom k shape).map f := by
  induction nca with
  | nil => intro k shape h _; subst h; rfl
  | cons row nca ih =>
    intro k shape hs h
    subst hs
    simp only [List.map_cons, positionsFrom, List.flatten_cons, List.map_append, List.map_map]
    congr 1
    · apply List.ext_getElem?
      intro i
      have h0 := h 0 row rfl i
      cases hrow : row[i]? with
      | none =>
        rw [List.getElem?_eq_none_iff] at hrow
        symm
        rw [List.getElem?_eq_none_iff]
        simpa using hrow
      | some x =>
        have hlt := (List.getElem?_eq_some_iff.1 hrow).1
        simp [hlt, h0 x hrow]
    · refine ih (k + 1) _ rfl ?_
      intro l row' hrow i x hx
      have := h (l + 1) row' hrow i x hx
      rw [this]
      congr 2
      omega

theorem sum_count (P : List (ℕ × ℕ)) (hP : P.Nodup) : ∀ L : List (ℕ × ℕ), (∀ p ∈ L, p ∈ P) →
    (P.map (fun p => L.count p)).sum = L.length := by
  intro L
  induction L with
  | nil => intro _; simp
  | cons a L ih =>
    intro h
    have h1 : ∀ Q : List (ℕ × ℕ), (Q.map (fun p => (a :: L).count p)).sum = (Q.map (fun p => L.count p)).sum + Q.count a := by
      intro Q
      induction Q with
      | nil => rfl
      | cons q Q ihq =>
        rw [List.map_cons, List.sum_cons, ihq, List.map_cons, List.sum_cons, List.count_cons, List.count_cons]
        by_cases hq : a = q
        · subst hq; simp; omega
        · have : ¬ q = a := fun h => hq h.symm
          simp [hq, this]; omega
    rw [h1, ih (fun p hp => h p (List.mem_cons_of_mem _ hp)), List.count_eq_one_of_mem hP (h a (by simp))]
    simp

theorem total_eq {cfg : Config} {nca : List (List ℕ)} {tr : List (Ev D Col)} (h : Cnt cfg.shape nca tr)
    (hp : Protocol cfg tr) : nca.flatten.sum = (accPos tr).length := by
  rw [flatten_eq_positions (fun p => (accPos tr).count p) nca 0 cfg.shape h.1 (by
    intro l row hrow i x hx
    rw [Nat.zero_add]
    exact h.2 l row hrow i x hx)]
  exact sum_count _ (nodup_allPositions cfg.shape) _ (accPos_mem hp)

/-- After the time limit was exceeded only `solve_ip` may be called. -/
theorem after_over {cfg : Config} {pre : List (Ev D Col)} {s t : ℚ} (h1 : cfg.timeLimit > 0)
    (h2 : t - s > cfg.timeLimit) : ∀ post, Protocol cfg (pre ++ Ev.check s t :: post) → ∀ e ∈ post, ∃ r, e = .solveIp r := by
  intro post
  induction post using List.reverseRecOn with
  | nil => intro _ e he; simp at he
  | append_singleton post x ih =>
    intro hp
    have hp' : Protocol cfg (pre ++ Ev.check s t :: post) := by
      apply protocol_of_append (tr' := [x])
      simpa using hp
    have ih' := ih hp'
    have hx := hp (pre ++ Ev.check s t :: post) x [] (by simp)
    have hover : Over cfg (pre ++ Ev.check s t :: post) := ⟨s, t, by simp, h1, h2⟩
    have hlast : ∀ a, (pre ++ Ev.check s t :: post).getLast? = some a → (∃ s t, a = Ev.check s t) ∨ ∃ r, a = Ev.solveIp r := by
      intro a ha
      rcases List.eq_nil_or_concat post with hnil | ⟨q, z, hz⟩
      · subst hnil
        simp at ha
        exact Or.inl ⟨s, t, ha.symm⟩
      · rw [List.concat_eq_append] at hz
        subst hz
        rw [show pre ++ Ev.check s t :: (q ++ [z]) = (pre ++ Ev.check s t :: q) ++ [z] by simp, List.getLast?_concat] at ha
        cases ha
        exact Or.inr (ih' _ (by simp))
    have hx' : ∃ r, x = Ev.solveIp r := by
      cases x with
      | timer t' =>
        rcases hx with h | h
        · simp at h
        · rcases hlast _ h with ⟨_, _, h⟩ | ⟨_, h⟩ <;> cases h
      | generateMp y r =>
        obtain ⟨t', h⟩ := hx
        have := hover
        rw [h] at this
        obtain ⟨a, b, hm, -⟩ := this
        simp at hm
      | solveRmp r => exact absurd hover hx.2.1
      | improved r =>
        obtain ⟨d, h⟩ := hx
        rcases hlast _ h with ⟨_, _, h⟩ | ⟨_, h⟩ <;> cases h
      | resetFlag b =>
        obtain ⟨d, h⟩ := hx
        rcases hlast _ h with ⟨_, _, h⟩ | ⟨_, h⟩ <;> cases h
      | update l i d r => exact absurd hover hx.2.2.2.1
      | check a b => exact absurd hover hx.2.1
      | generate l i d r => exact absurd hover hx.2.2.2.2.2.1
      | add l i c r => exact absurd hover hx.2.2.1
      | solveIp r => exact ⟨r, rfl⟩
    intro e he
    rcases List.mem_append.1 he with he | he
    · exact ih' e he
    · rw [List.mem_singleton.1 he]; exact hx'

end Verif.Fit

namespace Verif.Fit

open Spec

variable {W D Col : Type}

theorem Preserved.after {env : Env W D Col} {J : W → List (Ev D Col) → Prop} (hJ : Preserved env J) (cfg : Config) :
    ∀ (n : ℕ) (s : St W D Col), J s.world s.trace → J (after env cfg n s).world (after env cfg n s).trace := by
  intro n
  induction n with
  | zero => intro s h; exact h
  | succ n ih =>
    intro s h
    simp only [Fit.after]
    split
    · exact h
    · have hb := hJ.body cfg s h
      generalize Fit.body env cfg s = g at hb
      obtain ⟨res, s'⟩ := g
      cases res with
      | error er => exact hb
      | ok b =>
        cases b with
        | true => exact ih s' hb
        | false => exact hb

theorem protocol_after (env : Env W D Col) (cfg : Config) (f0 : Bool) :
    ∀ (n : ℕ) (s : St W D Col), Acc cfg f0 s.est s.trace → Protocol cfg (after env cfg n s).trace := by
  intro n
  induction n with
  | zero => intro s h; exact h.prot
  | succ n ih =>
    intro s h
    simp only [after]
    split
    · exact h.prot
    · have hb := body_spec env cfg f0 s h
      generalize body env cfg s = g at hb
      obtain ⟨res, s'⟩ := g
      cases res with
      | error er => exact hb.prot
      | ok b =>
        cases b with
        | true => exact ih s' hb.1
        | false =>
          rcases hb.1 with ⟨d, e, hP, -⟩ | hT
          · exact hP.prot
          · exact hT.prot

theorem uniqueLabels_length_le_iff {y : List ℤ} :
    (Sk.uniqueLabels y).length ≤ 1 ↔ ∀ a ∈ y, ∀ b ∈ y, a = b := by
  constructor
  · intro h a ha b hb
    have ha' := (Sk.mem_uniqueLabels y a).2 ha
    have hb' := (Sk.mem_uniqueLabels y b).2 hb
    match hl : Sk.uniqueLabels y, h, ha', hb' with
    | [], _, ha', _ => simp at ha'
    | [x], _, ha', hb' => rw [List.mem_singleton.1 ha', List.mem_singleton.1 hb']
  · intro h
    by_contra hlt
    have hnd := Sk.nodup_uniqueLabels y
    match hl : Sk.uniqueLabels y with
    | [] => rw [hl] at hlt; simp at hlt
    | [x] => rw [hl] at hlt; simp at hlt
    | a :: b :: rest =>
      rw [hl] at hnd
      have ha := (Sk.mem_uniqueLabels y a).1 (by rw [hl]; simp)
      have hb := (Sk.mem_uniqueLabels y b).1 (by rw [hl]; simp)
      have := h a ha b hb
      simp [this] at hnd

theorem uniqueLabels_length_le {y : List ℤ} (h : ∀ a ∈ y, ∀ b ∈ y, a = b) : (Sk.uniqueLabels y).length ≤ 1 :=
  uniqueLabels_length_le_iff.2 h

/-- The world invariant "the trace starts with `p`". -/
theorem Preserved.prefix (env : Env W D Col) (p : List (Ev D Col)) : Preserved env (fun _ tr => p <+: tr) where
  clock _ _ h := h
  timer _ _ _ h := h.trans (List.prefix_append _ _)
  check _ _ _ _ h := h.trans (List.prefix_append _ _)
  flag _ _ h := h.trans (List.prefix_append _ _)
  clear _ _ h := h
  generateMp _ _ _ h := h.trans (List.prefix_append _ _)
  solveRmp _ _ h := h.trans (List.prefix_append _ _)
  improved _ _ h := h.trans (List.prefix_append _ _)
  update _ _ _ _ _ h := h.trans (List.prefix_append _ _)
  generate _ _ _ _ _ h := h.trans (List.prefix_append _ _)
  add _ _ _ _ _ h := h.trans (List.prefix_append _ _)
  solveIp _ _ h := h.trans (List.prefix_append _ _)

theorem fit_trace_prefix {env : Env W D Col} {cfg : Config} {fuel : ℕ} {y : List ℤ} {e0 : Est} {w0 : W}
    {r : Except Err Unit × St W D Col} (hc : ¬ (Sk.uniqueLabels y).length ≤ 1) (hr : fit env cfg fuel y e0 w0 = some r) :
    [Ev.timer (env.clock w0).1, Ev.generateMp (Sk.transform (Sk.uniqueLabels y) y)
        (env.generateMp (Sk.transform (Sk.uniqueLabels y) y) (env.clock w0).2).1] <+: r.2.trace := by
  rw [fit_eq, if_neg hc] at hr
  set p := (startSt env cfg y e0 w0).trace with hp
  have hJ := Preserved.prefix env p
  have h3 : p <+: (startSt env cfg y e0 w0).trace := List.prefix_rfl
  change p <+: r.2.trace
  cases hg : (env.generateMp (Sk.transform (Sk.uniqueLabels y) y) (env.clock w0).2).1 with
  | error er => rw [hg] at hr; cases hr; exact h3
  | ok u0 =>
    rw [hg] at hr
    simp only at hr
    cases hl : loop env cfg fuel (startSt env cfg y e0 w0) with
    | none => rw [hl] at hr; cases hr
    | some r2 =>
      rw [hl] at hr
      have h4 := hJ.loop cfg fuel _ h3 r2 hl
      obtain ⟨res, s2⟩ := r2
      cases res with
      | error er => cases hr; exact h4
      | ok u2 =>
        have h5 := hJ.finish cfg s2 h4
        cases hr
        exact h5

end Verif.Fit
