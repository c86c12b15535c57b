import Verif.Fit.TimeProps
import Mathlib.Tactic.Positivity
import Mathlib.Tactic.NormNum

/-!
# Property C152: by how much `fit` can exceed its time limit

`fit` looks at the clock only before it calls `generate_columns`. So a run can last longer than `time_limit`, but not by more than one pricing call with its columns, one solution of
the restricted master problem, one update of all subproblems and the final integer program.
-/

set_option linter.unusedSectionVars false

namespace Verif.Fit

variable {W D Col : Type}

namespace Spec

/-- How long calls take at most, in the true time `T`: `g` for `generate_mp`, `m` for `solve_rmp`, `u` for `update_subproblem`, `p` for `generate_columns`, which returns at most `k`
columns, `a` for `add_column` and `v` for `solve_ip`. Reading the clock and asking for an improvement take no time. -/
structure Durations (env : Env W D Col) (T : W → ℚ) (g m u p a v : ℚ) (k : ℕ) : Prop where
  clock : ∀ w, (env.clock w).1 = T w ∧ T (env.clock w).2 = T w
  generateMp : ∀ y w, T (env.generateMp y w).2 ≤ T w + g
  solveRmp : ∀ w, T (env.solveRmp w).2 ≤ T w + m
  improved : ∀ w, T (env.improved w).2 ≤ T w
  update : ∀ l i d w, T (env.update l i d w).2 ≤ T w + u
  generate : ∀ l i d w, T (env.generate l i d w).2 ≤ T w + p
  columns : ∀ l i d w cols, (env.generate l i d w).1 = .ok cols → cols.length ≤ k
  addColumn : ∀ c w, T (env.addColumn c w).2 ≤ T w + a
  solveIp : ∀ w, T (env.solveIp w).2 ≤ T w + v
  nonneg : 0 ≤ g ∧ 0 ≤ m ∧ 0 ≤ u ∧ 0 ≤ p ∧ 0 ≤ a ∧ 0 ≤ v

end Spec

open Spec

variable {env : Env W D Col} {cfg : Config} {T : W → ℚ} {g m u p a v : ℚ} {k : ℕ}

theorem addCols_time (hd : Durations env T g m u p a v k) (l i : ℕ) (cs : List Col) (upd : Bool) (s : St W D Col) :
    (addCols env l i cs upd s).2.est.tStart = s.est.tStart ∧ T (addCols env l i cs upd s).2.world ≤ T s.world + cs.length * a := by
  induction cs generalizing upd s with
  | nil => exact ⟨rfl, by simp [addCols]⟩
  | cons c cs ih =>
    have hw := hd.addColumn c s.world
    have ha : 0 ≤ cs.length * a := mul_nonneg (Nat.cast_nonneg _) hd.nonneg.2.2.2.2.1
    rw [addCols, call]
    rcases hr : (env.addColumn c s.world) with ⟨r, w⟩
    rw [hr] at hw
    simp only [List.length_cons, Nat.cast_add, Nat.cast_one] at hw ⊢
    rcases r with e | b
    · exact ⟨rfl, by simp only; linarith⟩
    · simp only
      obtain ⟨h1, h2⟩ := ih (upd || b) _
      refine ⟨h1, h2.trans ?_⟩
      simp only [St.set]
      linarith

/-- What is known of the time after a part of the loops. -/
def InTime (T : W → ℚ) (start late : ℚ) (B : ℚ) (r : Except Err Bool × St W D Col) : Prop :=
  r.2.est.tStart = start ∧ T r.2.world ≤ max B late ∧ (r.1 = .ok true → T r.2.world ≤ late)

theorem ite_timed {c : Prop} [Decidable c] {start late B : ℚ} {x y : Except Err Bool × St W D Col} (h1 : c → InTime T start late B x) (h2 : ¬ c → InTime T start late B y) :
    InTime T start late B (if c then x else y) := by
  split_ifs with h
  · exact h1 h
  · exact h2 h

theorem spLoop_time (hd : Durations env T g m u p a v k) (hl : 0 < cfg.timeLimit) (d : D) (l : ℕ) (is : List ℕ) (s : St W D Col) :
    InTime T s.est.tStart (s.est.tStart + cfg.timeLimit + p + k * a) (T s.world) (spLoop env cfg d l is s) := by
  induction is generalizing s with
  | nil => exact ⟨rfl, le_max_left _ _, fun h => by cases h⟩
  | cons i is ih =>
    obtain ⟨c1, c2⟩ := hd.clock s.world
    rw [spLoop]
    simp only [now, St.set, St.log, call]
    refine ite_timed (fun _ => ⟨rfl, ?_, fun h => by cases h⟩) (fun hc => ?_)
    · simp only; rw [c2]; exact le_max_left _ _
    · have hin : T s.world ≤ s.est.tStart + cfg.timeLimit := by
        have hc' : ¬ ((decide (cfg.timeLimit > 0) && decide ((env.clock s.world).1 - s.est.tStart > cfg.timeLimit)) = true) := hc
        rw [c1] at hc'
        by_contra h
        refine hc' ?_
        rw [Bool.and_eq_true, decide_eq_true_eq, decide_eq_true_eq]
        exact ⟨hl, by linarith [not_le.1 h]⟩
      obtain ⟨w1, hw1⟩ : ∃ w1, w1 = (env.clock s.world).2 := ⟨_, rfl⟩
      rw [← hw1] at c2 ⊢
      obtain ⟨-, b2⟩ := hd.clock w1
      have b3 := hd.generate l i d (env.clock w1).2
      have b4 := hd.columns l i d (env.clock w1).2
      have hka : 0 ≤ k * a := mul_nonneg (Nat.cast_nonneg _) hd.nonneg.2.2.2.2.1
      rcases hg : env.generate l i d (env.clock w1).2 with ⟨r, w2⟩
      rw [hg] at b3 b4
      simp only at b3 b4
      rcases r with e | cols
      · exact ⟨rfl, le_max_of_le_right (by simp only; linarith), fun h => by cases h⟩
      · simp only
        have b5 : (cols.length : ℚ) * a ≤ k * a := mul_le_mul_of_nonneg_right (by exact_mod_cast b4 cols rfl) hd.nonneg.2.2.2.2.1
        obtain ⟨-, e2⟩ := hd.clock w2
        obtain ⟨-, f2⟩ := hd.clock (env.clock w2).2
        generalize hs4 : ({ est := _, world := (env.clock (env.clock w2).2).2, trace := _ } : St W D Col) = s4
        have hs4w : T s4.world = T w2 := by rw [← hs4]; simp only; rw [f2, e2]
        have hs4s : s4.est.tStart = s.est.tStart := by rw [← hs4]
        obtain ⟨h1, h2⟩ := addCols_time hd l i cols false s4
        rcases hac : addCols env l i cols false s4 with ⟨r, s5⟩
        rw [hac] at h1 h2
        simp only at h1 h2
        have h3 : T s5.world ≤ s.est.tStart + cfg.timeLimit + p + k * a := by linarith
        rcases r with e | upd
        · exact ⟨h1.trans hs4s, le_max_of_le_right h3, fun h => by cases h⟩
        · simp only
          obtain ⟨-, i2⟩ := hd.clock s5.world
          refine ite_timed (fun _ => ⟨h1.trans hs4s, le_max_of_le_right ?_, fun _ => ?_⟩) (fun _ => ?_)
          · simp only; rw [i2]; exact h3
          · simp only; rw [i2]; exact h3
          · generalize hX : ({ est := _, world := (env.clock s5.world).2, trace := s5.trace } : St W D Col) = X
            have hXs : X.est.tStart = s.est.tStart := by rw [← hX]; exact h1.trans hs4s
            have hXw : T X.world ≤ s.est.tStart + cfg.timeLimit + p + k * a := by rw [← hX]; simp only; rw [i2]; exact h3
            obtain ⟨j1, j2, j3⟩ := ih X
            rw [hXs] at j1 j2 j3
            exact ⟨j1, le_max_of_le_right (j2.trans (max_le hXw le_rfl)), j3⟩

theorem levelLoop_time (hd : Durations env T g m u p a v k) (hl : 0 < cfg.timeLimit) (d : D) (ls : List (ℕ × ℕ)) (s : St W D Col) :
    InTime T s.est.tStart (s.est.tStart + cfg.timeLimit + p + k * a) (T s.world) (levelLoop env cfg d ls s) := by
  induction ls generalizing s with
  | nil => exact ⟨rfl, le_max_left _ _, fun h => by cases h⟩
  | cons q ls ih =>
    obtain ⟨l, n⟩ := q
    rw [levelLoop]
    obtain ⟨h1, h2, h3⟩ := spLoop_time (cfg := cfg) hd hl d l (List.range n) s
    rcases hr : spLoop env cfg d l (List.range n) s with ⟨r, s1⟩
    rw [hr] at h1 h2 h3
    simp only at h1 h2 h3
    rcases r with e | upd
    · exact ⟨h1, h2, fun h => by cases h⟩
    · simp only [now, St.set]
      obtain ⟨-, c2⟩ := hd.clock s1.world
      refine ite_timed (fun _ => ⟨h1, ?_, fun h => ?_⟩) (fun _ => ite_timed (fun hu => ⟨h1, ?_, fun _ => ?_⟩) (fun _ => ?_))
      · simp only; rw [c2]; exact h2
      · simp only; rw [c2]; exact h3 h
      · simp only; rw [c2]; exact h2
      · simp only; rw [c2]; exact h3 (by rw [hu])
      · generalize hX : ({ est := _, world := (env.clock s1.world).2, trace := s1.trace } : St W D Col) = X
        have hXs : X.est.tStart = s.est.tStart := by rw [← hX]; exact h1
        have hXw : T X.world ≤ max (T s.world) (s.est.tStart + cfg.timeLimit + p + k * a) := by rw [← hX]; simp only; rw [c2]; exact h2
        obtain ⟨j1, j2, j3⟩ := ih X
        rw [hXs] at j1 j2 j3
        exact ⟨j1, j2.trans (max_le hXw (le_max_right _ _)), j3⟩

theorem updateLoop_time (hd : Durations env T g m u p a v k) (d : D) (ps : List (ℕ × ℕ)) (s : St W D Col) :
    (updateLoop env d ps s).2.est.tStart = s.est.tStart ∧ T (updateLoop env d ps s).2.world ≤ T s.world + ps.length * u := by
  induction ps generalizing s with
  | nil => exact ⟨rfl, by simp [updateLoop]⟩
  | cons q ps ih =>
    obtain ⟨l, i⟩ := q
    have hu : 0 ≤ ps.length * u := mul_nonneg (Nat.cast_nonneg _) hd.nonneg.2.2.1
    rw [updateLoop]
    simp only [now, call, St.set]
    obtain ⟨-, a2⟩ := hd.clock s.world
    have a3 := hd.update l i d (env.clock s.world).2
    rcases hr : env.update l i d (env.clock s.world).2 with ⟨r, w⟩
    rw [hr] at a3
    simp only [List.length_cons, Nat.cast_add, Nat.cast_one] at a3 ⊢
    rcases r with e | x
    · exact ⟨rfl, by simp only; linarith⟩
    · simp only
      obtain ⟨-, b2⟩ := hd.clock w
      obtain ⟨h1, h2⟩ := ih (⟨{ s.est with timeSpentSp := bump s.est.timeSpentSp l i ((env.clock w).1 - (env.clock s.world).1) }, (env.clock w).2, s.trace ++ [Ev.update l i d (Except.ok x)]⟩ : St W D Col)
      refine ⟨h1, h2.trans ?_⟩
      simp only
      linarith

theorem body_time (hd : Durations env T g m u p a v k) (hn : NoReset env) (hl : 0 < cfg.timeLimit) (s : St W D Col) :
    InTime T s.est.tStart (s.est.tStart + cfg.timeLimit + p + k * a) (T s.world + m + (positions cfg.shape).length * u) (body env cfg s) := by
  have hu : 0 ≤ (positions cfg.shape).length * u := mul_nonneg (Nat.cast_nonneg _) hd.nonneg.2.2.1
  have hm := hd.nonneg.2.1
  unfold body
  simp only [now, call, St.set]
  obtain ⟨-, a2⟩ := hd.clock s.world
  obtain ⟨w1, hw1⟩ : ∃ w1, w1 = (env.clock s.world).2 := ⟨_, rfl⟩
  rw [← hw1] at a2 ⊢
  obtain ⟨-, b2⟩ := hd.clock w1
  have b3 := hd.solveRmp (env.clock w1).2
  rcases hr : env.solveRmp (env.clock w1).2 with ⟨r, w2⟩
  rw [hr] at b3
  simp only at b3
  rcases r with e | d
  · exact ⟨rfl, le_max_of_le_left (by simp only; linarith), fun h => by cases h⟩
  · simp only
    obtain ⟨-, c2⟩ := hd.clock w2
    have c3 := hd.improved (env.clock w2).2
    rcases hi : env.improved (env.clock w2).2 with ⟨r, w3⟩
    rw [hi] at c3
    simp only at c3
    rcases r with e | b
    · exact ⟨rfl, le_max_of_le_left (by simp only; linarith), fun h => by cases h⟩
    · simp only
      generalize hs3 : ({ est := _, world := w3, trace := _ } : St W D Col) = s3
      have hs3w : s3.world = w3 := by rw [← hs3]
      have hs3s : s3.est.tStart = s.est.tStart := by rw [← hs3]
      have h4 : (resetTimer env s3).est.tStart = s3.est.tStart ∧ (resetTimer env s3).world = s3.world := by
        unfold resetTimer
        simp only [St.log]
        rw [if_neg (hn _)]
        exact ⟨rfl, rfl⟩
      obtain ⟨h5, h6⟩ := updateLoop_time hd d (positions cfg.shape) (resetTimer env s3)
      rcases hup : updateLoop env d (positions cfg.shape) (resetTimer env s3) with ⟨r, s5⟩
      rw [hup] at h5 h6
      simp only at h5 h6
      rw [h4.1, hs3s] at h5
      rw [h4.2, hs3w] at h6
      have h7 : T s5.world ≤ T s.world + m + (positions cfg.shape).length * u := by linarith
      rcases r with e | x
      · exact ⟨h5, le_max_of_le_left h7, fun h => by cases h⟩
      · simp only
        obtain ⟨j1, j2, j3⟩ := levelLoop_time (cfg := cfg) hd hl d (levels cfg.shape) s5
        rw [h5] at j1 j2 j3
        rcases hlv : levelLoop env cfg d (levels cfg.shape) s5 with ⟨r, s6⟩
        rw [hlv] at j1 j2 j3
        simp only at j1 j2 j3
        have j4 := j2.trans (max_le_max_right (s.est.tStart + cfg.timeLimit + p + k * a) h7)
        rcases r with e | upd
        · exact ⟨j1, j4, fun h => by cases h⟩
        · simp only
          refine ite_timed (fun hu => ⟨j1, j4, fun _ => j3 (by rw [hu])⟩) (fun _ => ?_)
          by_cases hc : s6.est.timeLimitReached = true
          · simp only [hc, if_true]; exact ⟨j1, j4, fun h => by cases h⟩
          · simp only [hc]; exact ⟨j1, j4, fun h => by cases h⟩

theorem loop_time (hd : Durations env T g m u p a v k) (hn : NoReset env) (hl : 0 < cfg.timeLimit) (fuel : ℕ) (s : St W D Col) {B : ℚ} (hB : T s.world ≤ B)
    (hlate : s.est.tStart + cfg.timeLimit + p + k * a ≤ B) {r : Except Err Unit × St W D Col} (hr : loop env cfg fuel s = some r) :
    r.2.est.tStart = s.est.tStart ∧ T r.2.world ≤ B + m + (positions cfg.shape).length * u := by
  have hu : 0 ≤ (positions cfg.shape).length * u := mul_nonneg (Nat.cast_nonneg _) hd.nonneg.2.2.1
  have hm := hd.nonneg.2.1
  induction fuel generalizing s with
  | zero => simp [loop] at hr
  | succ n ih =>
    rw [loop] at hr
    by_cases hc : cfg.maxIterations > 0 ∧ (s.est.iter : ℤ) ≥ cfg.maxIterations
    · rw [if_pos hc, Option.some.injEq] at hr
      rw [← hr]
      exact ⟨rfl, by simp only; linarith⟩
    · rw [if_neg hc] at hr
      obtain ⟨j1, j2, j3⟩ := body_time (cfg := cfg) hd hn hl s
      rcases hbd : body env cfg s with ⟨r', s'⟩
      rw [hbd] at j1 j2 j3 hr
      simp only at j1 j2 j3
      have j4 : T s'.world ≤ B + m + (positions cfg.shape).length * u := j2.trans (max_le (by linarith) (by linarith))
      rcases r' with e | b
      · simp only [Option.some.injEq] at hr
        rw [← hr]; exact ⟨j1, j4⟩
      · cases b
        · simp only [Option.some.injEq] at hr
          rw [← hr]; exact ⟨j1, j4⟩
        · obtain ⟨i1, i2⟩ := ih s' ((j3 rfl).trans hlate) (by rw [j1]; exact hlate) hr
          exact ⟨i1.trans j1, i2⟩

/-- **C152.** If calls take no longer than `Durations` says and the timer is not restarted, a run of `fit` with a time limit that ends, normally or with an exception, ends at most
`max g (time_limit + p + k * a) + m + n * u + v` after its begin, where `n` is the number of subproblems. If it returns, `time_elapsed_` is at most that. -/
theorem C152_overrun (hd : Durations env T g m u p a v k) (hn : NoReset env) (hl : 0 < cfg.timeLimit) {fuel : ℕ} {y : List ℤ} {e0 : Est} {w0 : W}
    {r : Except Err Unit × St W D Col} (hr : fit env cfg fuel y e0 w0 = some r) :
    T r.2.world - T w0 ≤ max g (cfg.timeLimit + p + k * a) + m + (cfg.shape.sum : ℕ) * u + v ∧
    (r.1 = .ok () → r.2.est.timeElapsed ≤ max g (cfg.timeLimit + p + k * a) + m + (cfg.shape.sum : ℕ) * u + v) := by
  have hpos : (positions cfg.shape).length = cfg.shape.sum := by
    unfold positions levels
    rw [List.length_flatMap]
    simp only [List.map_map, Function.comp_def, List.length_map, List.length_range]
    congr 1
    exact List.zipIdx_map_fst _ _
  rw [← hpos]
  obtain ⟨n0, n1, n2, n3, n4, n5⟩ := hd.nonneg
  have hu : 0 ≤ (positions cfg.shape).length * u := mul_nonneg (Nat.cast_nonneg _) n2
  have hmax := le_max_left g (cfg.timeLimit + p + k * a)
  have hmax' := le_max_right g (cfg.timeLimit + p + k * a)
  obtain ⟨M, hM⟩ : ∃ M, M = max g (cfg.timeLimit + p + k * a) := ⟨_, rfl⟩
  rw [← hM] at hmax hmax' ⊢
  unfold fit at hr
  simp only [now, St.set, St.log, call] at hr
  obtain ⟨a1, a2⟩ := hd.clock w0
  by_cases hc : (Sk.uniqueLabels y).length ≤ 1
  · have h0 := (if_pos hc).symm.trans hr
    rw [Option.some.injEq] at h0
    rw [← h0]
    exact ⟨by simp only; linarith, fun h => by cases h⟩
  replace hr := (if_neg hc).symm.trans hr
  have a3 := hd.generateMp (Sk.transform (Sk.uniqueLabels y) y) (env.clock w0).2
  rcases hg : env.generateMp (Sk.transform (Sk.uniqueLabels y) y) (env.clock w0).2 with ⟨r1, w1⟩
  rw [hg] at a3 hr
  simp only at a3
  rcases r1 with e | u1
  · simp only [Option.some.injEq] at hr
    rw [← hr]
    exact ⟨by simp only; linarith, fun h => by cases h⟩
  simp only at hr
  generalize hs1 : ({ est := initEst cfg.shape _, world := w1, trace := _ } : St W D Col) = s1 at hr
  have hs1w : s1.world = w1 := by rw [← hs1]
  have hs1s : s1.est.tStart = T w0 := by rw [← hs1]; simp only [initEst]; exact a1
  rcases hl' : loop env cfg fuel s1 with _ | ⟨r2, s2⟩
  · rw [hl'] at hr; simp at hr
  rw [hl'] at hr
  obtain ⟨h1, h2⟩ := loop_time (B := T w0 + M) hd hn hl fuel s1 (by rw [hs1w]; linarith) (by rw [hs1s]; linarith) hl'
  simp only at h1 h2
  rw [hs1s] at h1
  rcases r2 with e | u2
  · simp only [Option.some.injEq] at hr
    rw [← hr]
    exact ⟨by simp only; linarith, fun h => by cases h⟩
  simp only [Option.some.injEq] at hr
  unfold finish at hr
  simp only [now, St.set, call] at hr
  obtain ⟨b1, b2⟩ := hd.clock s2.world
  by_cases hi : cfg.rmpIsIp = true
  · rw [if_pos hi] at hr
    have b3 := hd.solveIp (env.clock s2.world).2
    rcases hs : env.solveIp (env.clock s2.world).2 with ⟨r3, w3⟩
    rw [hs] at b3 hr
    simp only at b3
    rcases r3 with e | solved
    · simp only at hr
      rw [← hr]
      exact ⟨by simp only; linarith, fun h => by cases h⟩
    simp only at hr
    obtain ⟨c1, c2⟩ := hd.clock w3
    obtain ⟨d1, d2⟩ := hd.clock (env.clock w3).2
    by_cases hso : solved = true
    · rw [if_pos hso] at hr
      rw [← hr]
      simp only
      exact ⟨by linarith, fun _ => by linarith⟩
    · rw [if_neg hso] at hr
      rw [← hr]
      exact ⟨by simp only; linarith, fun h => by cases h⟩
  · rw [if_neg hi] at hr
    rw [← hr]
    simp only
    exact ⟨by linarith, fun _ => by linarith⟩

/-! ## Example: the bound is attained -/

namespace OverrunDemo

/-- A world that is the present time; `generate_mp` takes 1, `solve_rmp` 10, `update_subproblem` 3, `generate_columns` 5, `add_column` 2 and `solve_ip` 7. Every pricing call finds a
column. -/
def slow : Env ℚ Unit Unit := ⟨fun w => (w, w), fun _ w => (.ok (), w + 1), fun w => (.ok (), w + 10), fun w => (.ok true, w), fun _ => none, fun w => w,
  fun _ _ _ w => (.ok (), w + 3), fun _ _ _ w => (.ok [()], w + 5), fun _ w => (.ok true, w + 2), fun w => (.ok true, w + 7)⟩

theorem slow_durations : Durations slow (fun w => w) 1 10 3 5 2 7 1 :=
  ⟨fun _ => ⟨rfl, rfl⟩, fun _ _ => le_rfl, fun _ => le_rfl, fun _ => le_rfl, fun _ _ _ _ => le_rfl, fun _ _ _ _ => le_rfl,
    fun _ _ _ _ cols h => by cases h; exact le_rfl, fun _ _ => le_rfl, fun _ => le_rfl, by norm_num⟩

def cfg14 : Config := ⟨0, 14, [1], true⟩

def est0 : Est := ⟨true, [], 0, 0, 0, false, false, [], [], 0, 0, 0, 0, 0⟩

theorem runs : (fit slow cfg14 5 [3, 8] est0 100).map (fun r => (r.1.toOption.isSome, r.2.world, r.2.est.timeElapsed, r.2.est.iter, r.2.est.timeLimitReached)) =
    some (true, 141, 41, 2, true) := by decide +kernel

/-- With a limit of 14 the run lasts 41, which is the bound: `max 1 (14 + 5 + 1 * 2) + 10 + 1 * 3 + 7`. -/
example : ∃ r, fit slow cfg14 5 [3, 8] est0 100 = some r ∧ r.2.est.timeElapsed = 41 ∧
    r.2.world - 100 ≤ max 1 (14 + 5 + ((1 : ℕ) : ℚ) * 2) + 10 + (([1] : List ℕ).sum : ℕ) * 3 + 7 ∧ max 1 (14 + 5 + ((1 : ℕ) : ℚ) * 2) + 10 + (([1] : List ℕ).sum : ℕ) * 3 + 7 = 41 := by
  have h := runs
  cases hf : fit slow cfg14 5 [3, 8] est0 100 with
  | none => rw [hf] at h; cases h
  | some r =>
    rw [hf] at h
    simp only [Option.map_some, Option.some.injEq, Prod.mk.injEq] at h
    exact ⟨r, rfl, h.2.2.1, (C152_overrun slow_durations (fun _ h => by cases h) (cfg := cfg14) (by norm_num [cfg14]) hf).1, by norm_num⟩

end OverrunDemo

end Verif.Fit
