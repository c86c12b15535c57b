import Verif.Fit.Model
import Mathlib.Tactic.Linarith
import Mathlib.Algebra.BigOperators.Group.List.Basic

/-!
# Property C82: the reported times are nonnegative and add up to at most `time_elapsed_`
-/

set_option linter.unusedSectionVars false
set_option linter.unusedSimpArgs false

namespace Verif.Fit

variable {W D Col : Type}

namespace Spec

/-- `T` is the true time in a world: no call and no reading of the clock goes back in time, and a reading shows a time between its begin
and its end. -/
structure RealTime (env : Env W D Col) (T : W → ℚ) : Prop where
  clock : ∀ w, T w ≤ (env.clock w).1 ∧ (env.clock w).1 ≤ T (env.clock w).2
  generateMp : ∀ y w, T w ≤ T (env.generateMp y w).2
  solveRmp : ∀ w, T w ≤ T (env.solveRmp w).2
  improved : ∀ w, T w ≤ T (env.improved w).2
  update : ∀ l i d w, T w ≤ T (env.update l i d w).2
  generate : ∀ l i d w, T w ≤ T (env.generate l i d w).2
  addColumn : ∀ c w, T w ≤ T (env.addColumn c w).2
  solveIp : ∀ w, T w ≤ T (env.solveIp w).2

/-- The master problem never asks to restart the timer. -/
def NoReset (env : Env W D Col) : Prop := ∀ w, env.resetFlag w ≠ some true

/-- The sum of all entries of a list of lists. -/
def total (ll : List (List ℚ)) : ℚ := (ll.map List.sum).sum

end Spec

open Spec

theorem sum_modify (l : List ℚ) (j : ℕ) (x : ℚ) (hx : 0 ≤ x) : (l.modify j (· + x)).sum ≤ l.sum + x := by
  induction l generalizing j with
  | nil => simp [hx]
  | cons a l ih =>
    cases j with
    | zero => simp only [List.modify_zero_cons, List.sum_cons]; linarith
    | succ j => simp only [List.modify_succ_cons, List.sum_cons]; linarith [ih j]

theorem total_bump (ll : List (List ℚ)) (i j : ℕ) (x : ℚ) (hx : 0 ≤ x) : total (bump ll i j x) ≤ total ll + x := by
  unfold total bump
  induction ll generalizing i with
  | nil => simp [hx]
  | cons a ll ih =>
    cases i with
    | zero => simp only [List.modify_zero_cons, List.map_cons, List.sum_cons]; linarith [sum_modify a j x hx]
    | succ i => simp only [List.modify_succ_cons, List.map_cons, List.sum_cons]; linarith [ih i]

theorem mem_modify_nonneg {l : List ℚ} (j : ℕ) {x : ℚ} (hx : 0 ≤ x) (h : ∀ y ∈ l, 0 ≤ y) : ∀ y ∈ l.modify j (· + x), 0 ≤ y := by
  induction l generalizing j with
  | nil => simp
  | cons a l ih =>
    have ha := h a (by simp)
    have hl : ∀ y ∈ l, 0 ≤ y := fun y hy => h y (by simp [hy])
    cases j with
    | zero =>
      intro y hy
      rw [List.modify_zero_cons, List.mem_cons] at hy
      rcases hy with rfl | hy
      · linarith
      · exact hl y hy
    | succ j =>
      intro y hy
      rw [List.modify_succ_cons, List.mem_cons] at hy
      rcases hy with rfl | hy
      · exact ha
      · exact ih j hl y hy

theorem bump_nonneg {ll : List (List ℚ)} (i j : ℕ) {x : ℚ} (hx : 0 ≤ x) (h : ∀ l ∈ ll, ∀ y ∈ l, 0 ≤ y) : ∀ l ∈ bump ll i j x, ∀ y ∈ l, 0 ≤ y := by
  unfold bump
  induction ll generalizing i with
  | nil => simp
  | cons a ll ih =>
    have ha := h a (by simp)
    have hl : ∀ l ∈ ll, ∀ y ∈ l, 0 ≤ y := fun l hy => h l (by simp [hy])
    cases i with
    | zero =>
      intro l hy
      rw [List.modify_zero_cons, List.mem_cons] at hy
      rcases hy with rfl | hy
      · exact mem_modify_nonneg j hx ha
      · exact hl l hy
    | succ i =>
      intro l hy
      rw [List.modify_succ_cons, List.mem_cons] at hy
      rcases hy with rfl | hy
      · exact ha
      · exact ih i hl l hy

/-- The times booked so far. -/
def spent (e : Est) : ℚ := e.timeSpentMaster + total e.timeSpentSp + e.timeAddCol

/-- Invariant: the booked times are nonnegative and fit between the start and the present. -/
structure Booked (T : W → ℚ) (s : St W D Col) : Prop where
  master : 0 ≤ s.est.timeSpentMaster
  sp : ∀ l ∈ s.est.timeSpentSp, ∀ x ∈ l, 0 ≤ x
  add : 0 ≤ s.est.timeAddCol
  fits : s.est.tStart + spent s.est ≤ T s.world

variable {env : Env W D Col} {cfg : Config} {T : W → ℚ}

/-- The attributes the accounting depends on. -/
def times (e : Est) : ℚ × List (List ℚ) × ℚ × ℚ := (e.timeSpentMaster, e.timeSpentSp, e.timeAddCol, e.tStart)

/-- Anything that leaves the booked times alone and does not go back in time keeps the invariant. -/
theorem Booked.keep {s s' : St W D Col} (h : Booked T s) (he : times s'.est = times s.est) (hw : T s.world ≤ T s'.world) : Booked T s' := by
  simp only [times, Prod.mk.injEq] at he
  obtain ⟨h1, h2, h3, h4⟩ := he
  refine ⟨by rw [h1]; exact h.master, by rw [h2]; exact h.sp, by rw [h3]; exact h.add, ?_⟩
  have := h.fits
  unfold spent at this ⊢
  rw [h1, h2, h3, h4]
  linarith

theorem addCols_keep (ht : RealTime env T) (l i : ℕ) (cs : List Col) (upd : Bool) (s : St W D Col) :
    times (addCols env l i cs upd s).2.est = times s.est ∧ T s.world ≤ T (addCols env l i cs upd s).2.world := by
  induction cs generalizing upd s with
  | nil => exact ⟨rfl, le_rfl⟩
  | cons c cs ih =>
    have hw := ht.addColumn c s.world
    rw [addCols, call]
    rcases hr : (env.addColumn c s.world) with ⟨r, w⟩
    rw [hr] at hw
    rcases r with e | b
    · exact ⟨rfl, hw⟩
    · simp only
      obtain ⟨h1, h2⟩ := ih (upd || b) _
      exact ⟨h1, hw.trans h2⟩

theorem ite_both {α : Type} {c : Prop} [Decidable c] {a b : α × St W D Col} (h1 : Booked T a.2) (h2 : Booked T b.2) :
    Booked T (if c then a else b).2 := by
  split_ifs
  · exact h1
  · exact h2

theorem spLoop_acc (ht : RealTime env T) (d : D) (l : ℕ) (is : List ℕ) (s : St W D Col) (h : Booked T s) :
    Booked T (spLoop env cfg d l is s).2 := by
  induction is generalizing s with
  | nil => exact h
  | cons i is ih =>
    obtain ⟨a1, a2⟩ := ht.clock s.world
    rw [spLoop]
    simp only [now, St.set, St.log, call]
    refine ite_both ?_ ?_
    · exact h.keep rfl (by simp only; linarith)
    · obtain ⟨w1, hw1⟩ : ∃ w1, w1 = (env.clock s.world).2 := ⟨_, rfl⟩
      rw [← hw1] at a2 ⊢
      obtain ⟨b1, b2⟩ := ht.clock w1
      have b3 := ht.generate l i d (env.clock w1).2
      obtain ⟨t0, ht0⟩ : ∃ t0, t0 = (env.clock w1).1 := ⟨_, rfl⟩
      rw [← ht0] at b1 b2 ⊢
      rcases hg : env.generate l i d (env.clock w1).2 with ⟨r, w2⟩
      rw [hg] at b3
      simp only at b3
      rcases r with e | cols
      · exact h.keep rfl (by simp only; linarith)
      · simp only
        obtain ⟨c1, c2⟩ := ht.clock w2
        obtain ⟨t1, ht1⟩ : ∃ t1, t1 = (env.clock w2).1 := ⟨_, rfl⟩
        obtain ⟨w3, hw3⟩ : ∃ w3, w3 = (env.clock w2).2 := ⟨_, rfl⟩
        rw [← ht1] at c1 c2 ⊢
        rw [← hw3] at c2 ⊢
        obtain ⟨d1, d2⟩ := ht.clock w3
        obtain ⟨t2, ht2⟩ : ∃ t2, t2 = (env.clock w3).1 := ⟨_, rfl⟩
        obtain ⟨w4, hw4⟩ : ∃ w4, w4 = (env.clock w3).2 := ⟨_, rfl⟩
        rw [← ht2] at d1 d2 ⊢
        rw [← hw4] at d2 ⊢
        have hx : 0 ≤ t1 - t0 := by linarith
        -- the state in which the columns are added
        obtain ⟨s4, hs4⟩ : ∃ s4 : St W D Col, s4 = (
            { est := { { s.est with timeElapsed := (env.clock s.world).1 - s.est.tStart } with
                timeSpentSp := bump s.est.timeSpentSp l i (t1 - t0) }
              world := w4
              trace := s.trace ++ [Ev.check s.est.tStart (env.clock s.world).1] ++ [Ev.generate l i d (Except.ok cols)] } : St W D Col) := ⟨_, rfl⟩
        have hadd := addCols_keep ht l i cols false s4
        have hfit4 : s.est.tStart + (s.est.timeSpentMaster + total (bump s.est.timeSpentSp l i (t1 - t0)) + s.est.timeAddCol) ≤ T w3 := by
          have := h.fits
          have := total_bump s.est.timeSpentSp l i _ hx
          unfold spent at *
          linarith
        have h4 : Booked T s4 := by
          rw [hs4]
          refine ⟨h.master, bump_nonneg l i hx h.sp, h.add, ?_⟩
          unfold spent
          simp only
          linarith
        rw [← hs4]
        rcases hac : addCols env l i cols false s4 with ⟨r, s5⟩
        rw [hac] at hadd
        obtain ⟨e1, e2⟩ := hadd
        rcases r with e | upd
        · exact h4.keep e1 e2
        · simp only at e1 e2 ⊢
          obtain ⟨f1, f2⟩ := ht.clock s5.world
          simp only [times, Prod.mk.injEq] at e1
          obtain ⟨g1, g2, g3, g4⟩ := e1
          have h5 : Booked T (⟨{ s5.est with timeAddCol := s5.est.timeAddCol + ((env.clock s5.world).1 - t2) }, (env.clock s5.world).2, s5.trace⟩ : St W D Col) := by
            have hw : s4.world = w4 := by rw [hs4]
            rw [hw] at e2
            have hge : 0 ≤ s4.est.timeAddCol := h4.add
            refine ⟨?_, ?_, ?_, ?_⟩
            · simp only; rw [g1]; exact h4.master
            · simp only; rw [g2]; exact h4.sp
            · simp only; rw [g3]; linarith
            · unfold spent
              simp only
              rw [g1, g2, g3, g4, hs4]
              simp only
              linarith
          exact ite_both h5 (ih _ h5)

theorem levelLoop_acc (ht : RealTime env T) (d : D) (ls : List (ℕ × ℕ)) (s : St W D Col) (h : Booked T s) :
    Booked T (levelLoop env cfg d ls s).2 := by
  induction ls generalizing s with
  | nil => exact h
  | cons p ls ih =>
    obtain ⟨l, n⟩ := p
    rw [levelLoop]
    have h1 := spLoop_acc (cfg := cfg) ht d l (List.range n) s h
    rcases hr : spLoop env cfg d l (List.range n) s with ⟨r, s1⟩
    rw [hr] at h1
    rcases r with e | upd
    · exact h1
    · simp only [now, St.set]
      obtain ⟨c1, c2⟩ := ht.clock s1.world
      have h2 : Booked T (⟨{ s1.est with timeElapsed := (env.clock s1.world).1 - s1.est.tStart }, (env.clock s1.world).2, s1.trace⟩ : St W D Col) := h1.keep rfl (by simp only; linarith)
      exact ite_both h2 (ite_both h2 (ih _ h2))

theorem updateLoop_acc (ht : RealTime env T) (d : D) (ps : List (ℕ × ℕ)) (s : St W D Col) (h : Booked T s) :
    Booked T (updateLoop env d ps s).2 := by
  induction ps generalizing s with
  | nil => exact h
  | cons p ps ih =>
    obtain ⟨l, i⟩ := p
    rw [updateLoop]
    simp only [now, call, St.set]
    obtain ⟨a1, a2⟩ := ht.clock s.world
    have a3 := ht.update l i d (env.clock s.world).2
    rcases hr : env.update l i d (env.clock s.world).2 with ⟨r, w⟩
    rw [hr] at a3
    rcases r with e | u
    · exact h.keep rfl (by simp only at a3 ⊢; linarith)
    · simp only at a3 ⊢
      obtain ⟨b1, b2⟩ := ht.clock w
      have hx : 0 ≤ (env.clock w).1 - (env.clock s.world).1 := by linarith
      apply ih
      refine ⟨h.master, bump_nonneg l i hx h.sp, h.add, ?_⟩
      have := h.fits
      have := total_bump s.est.timeSpentSp l i _ hx
      unfold spent at *
      simp only
      linarith

theorem body_acc (ht : RealTime env T) (hn : NoReset env) (s : St W D Col) (h : Booked T s) : Booked T (body env cfg s).2 := by
  unfold body
  simp only [now, call, St.set]
  obtain ⟨a1, a2⟩ := ht.clock s.world
  obtain ⟨w1, hw1⟩ : ∃ w1, w1 = (env.clock s.world).2 := ⟨_, rfl⟩
  rw [← hw1] at a2 ⊢
  obtain ⟨b1, b2⟩ := ht.clock w1
  have b3 := ht.solveRmp (env.clock w1).2
  rcases hr : env.solveRmp (env.clock w1).2 with ⟨r, w2⟩
  rw [hr] at b3
  simp only at b3
  rcases r with e | d
  · exact h.keep rfl (by simp only; linarith)
  · simp only
    obtain ⟨c1, c2⟩ := ht.clock w2
    have c3 := ht.improved (env.clock w2).2
    rcases hi : env.improved (env.clock w2).2 with ⟨r, w3⟩
    rw [hi] at c3
    simp only at c3
    have hfit : s.est.tStart + (s.est.timeSpentMaster + ((env.clock w2).1 - (env.clock w1).1) + total s.est.timeSpentSp + s.est.timeAddCol) ≤ T w3 := by
      have := h.fits
      unfold spent at this
      linarith
    have hm : 0 ≤ s.est.timeSpentMaster + ((env.clock w2).1 - (env.clock w1).1) := by linarith [h.master]
    rcases r with e | b
    · exact ⟨hm, h.sp, h.add, hfit⟩
    · simp only
      obtain ⟨s3, hs3⟩ : ∃ s3 : St W D Col, s3 = (
          { est := { s.est with
              iter := s.est.iter + 1
              timeSpentMaster := s.est.timeSpentMaster + ((env.clock w2).1 - (env.clock w1).1)
              numImproving := s.est.numImproving + (if b then 1 else 0) }
            world := w3
            trace := s.trace ++ [Ev.solveRmp (Except.ok d)] ++ [Ev.improved (Except.ok b)] } : St W D Col) := ⟨_, rfl⟩
      rw [← hs3]
      have h3 : Booked T s3 := by rw [hs3]; exact ⟨hm, h.sp, h.add, hfit⟩
      have h4 : Booked T (resetTimer env s3) := by
        unfold resetTimer
        simp only [St.log]
        rw [if_neg (hn _)]
        exact h3.keep rfl le_rfl
      have h5 := updateLoop_acc ht d (positions cfg.shape) _ h4
      rcases hu : updateLoop env d (positions cfg.shape) (resetTimer env s3) with ⟨r, s5⟩
      rw [hu] at h5
      rcases r with e | u
      · exact h5
      · simp only
        have h6 := levelLoop_acc (cfg := cfg) ht d (levels cfg.shape) s5 h5
        rcases hl : levelLoop env cfg d (levels cfg.shape) s5 with ⟨r, s6⟩
        rw [hl] at h6
        rcases r with e | upd
        · exact h6
        · simp only
          refine ite_both h6 ?_
          · by_cases hc : s6.est.timeLimitReached = true
            · simp only [hc, if_true]; exact h6
            · simp only [hc]; exact h6.keep rfl le_rfl

theorem loop_acc (ht : RealTime env T) (hn : NoReset env) (fuel : ℕ) (s : St W D Col) (h : Booked T s) {r : Except Err Unit × St W D Col}
    (hr : loop env cfg fuel s = some r) : Booked T r.2 := by
  induction fuel generalizing s with
  | zero => simp [loop] at hr
  | succ n ih =>
    rw [loop] at hr
    by_cases hc : cfg.maxIterations > 0 ∧ (s.est.iter : ℤ) ≥ cfg.maxIterations
    · rw [if_pos hc, Option.some.injEq] at hr
      rw [← hr]
      exact h
    · rw [if_neg hc] at hr
      have hb := body_acc (cfg := cfg) ht hn s h
      rcases hbd : body env cfg s with ⟨r', s'⟩
      rw [hbd] at hb hr
      rcases r' with e | b
      · simp only [Option.some.injEq] at hr
        rw [← hr]; exact hb
      · cases b
        · simp only [Option.some.injEq] at hr
          rw [← hr]; exact hb
        · exact ih s' hb hr

/-- **C82.** In real time and without a restart of the timer, after every run of `fit` that returns, all reported times are nonnegative, and
`time_spent_master_`, all entries of `time_spent_sp_`, `time_add_col_` and `time_spent_master_ip_` together are at most `time_elapsed_`. -/
theorem C82_times (ht : RealTime env T) (hn : NoReset env) {fuel : ℕ} {y : List ℤ} {e0 : Est} {w0 : W} {u : Unit} {s : St W D Col}
    (hr : fit env cfg fuel y e0 w0 = some (.ok u, s)) :
    0 ≤ s.est.timeSpentMaster ∧ (∀ l ∈ s.est.timeSpentSp, ∀ x ∈ l, 0 ≤ x) ∧ 0 ≤ s.est.timeAddCol ∧ 0 ≤ s.est.timeSpentMasterIp ∧
      s.est.timeSpentMaster + total s.est.timeSpentSp + s.est.timeAddCol + s.est.timeSpentMasterIp ≤ s.est.timeElapsed := by
  unfold fit at hr
  simp only [now, St.set, St.log, call] at hr
  by_cases hc : (Sk.uniqueLabels y).length ≤ 1
  · have h0 := (if_pos hc).symm.trans hr
    simp at h0
  replace hr := (if_neg hc).symm.trans hr
  obtain ⟨a1, a2⟩ := ht.clock w0
  have a3 := ht.generateMp (Sk.transform (Sk.uniqueLabels y) y) (env.clock w0).2
  rcases hg : env.generateMp (Sk.transform (Sk.uniqueLabels y) y) (env.clock w0).2 with ⟨r, w1⟩
  rw [hg] at a3 hr
  simp only at a3
  rcases r with e | u1
  · simp at hr
  simp only at hr
  obtain ⟨s1, hs1⟩ : ∃ s1 : St W D Col, s1 = (
      { est := initEst cfg.shape { e0 with
          tStart := (env.clock w0).1
          classes := Sk.uniqueLabels y }
        world := w1
        trace := [] ++ [Ev.timer (env.clock w0).1] ++ [Ev.generateMp (Sk.transform (Sk.uniqueLabels y) y) (Except.ok u1)] } : St W D Col) := ⟨_, rfl⟩
  have htot : ∀ shape : List ℕ, total (shape.map (fun n => List.replicate n (0 : ℚ))) = 0 := by
    intro shape
    unfold total
    induction shape with
    | nil => rfl
    | cons n ns ih => rw [List.map_cons, List.map_cons, List.sum_cons, ih, List.sum_replicate]; simp
  have h1 : Booked T s1 := by
    rw [hs1]
    refine ⟨le_rfl, ?_, le_rfl, ?_⟩
    · intro l hl x hx
      simp only [initEst, List.mem_map] at hl
      obtain ⟨n, -, rfl⟩ := hl
      rw [(List.mem_replicate.1 hx).2]
    · simp only [initEst, spent, htot]
      linarith
  rw [← hs1] at hr
  rcases hl : loop env cfg fuel s1 with _ | ⟨r, s2⟩
  · rw [hl] at hr; simp at hr
  rw [hl] at hr
  have h2 := loop_acc ht hn fuel s1 h1 hl
  simp only at h2
  rcases r with e | u2
  · simp at hr
  simp only [Option.some.injEq] at hr
  unfold finish at hr
  simp only [now, St.set, call] at hr
  have hfits := h2.fits
  unfold spent at hfits
  by_cases hi : cfg.rmpIsIp = true
  · rw [if_pos hi] at hr
    obtain ⟨b1, b2⟩ := ht.clock s2.world
    have b3 := ht.solveIp (env.clock s2.world).2
    rcases hs : env.solveIp (env.clock s2.world).2 with ⟨r, w3⟩
    rw [hs] at b3 hr
    simp only at b3
    rcases r with e | solved
    · simp at hr
    simp only at hr
    obtain ⟨c1, c2⟩ := ht.clock w3
    obtain ⟨d1, d2⟩ := ht.clock (env.clock w3).2
    by_cases hso : solved = true
    · rw [if_pos hso] at hr
      simp only [Prod.mk.injEq] at hr
      rw [← hr.2]
      simp only
      refine ⟨h2.master, h2.sp, h2.add, by linarith, by linarith⟩
    · rw [if_neg hso] at hr
      simp at hr
  · rw [if_neg hi] at hr
    obtain ⟨b1, b2⟩ := ht.clock s2.world
    simp only [Prod.mk.injEq] at hr
    rw [← hr.2]
    simp only
    exact ⟨h2.master, h2.sp, h2.add, le_rfl, by linarith⟩

end Verif.Fit
