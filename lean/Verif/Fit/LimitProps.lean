import Verif.Fit.LimitLemmas
import Verif.Fit.Examples

/-!
# Property C114: what a larger `max_iterations` or `time_limit` changes

Two calls of `fit` on the same objects in the same state (the same solvers, clock and random draws) that differ only in their limits.
-/

namespace Verif.Fit

open Spec

variable {W D Col : Type} {env : Env W D Col} {c c' : Config} {fuel : ℕ} {y : List ℤ} {e0 : Est} {w0 : W}

theorem prefix_preserved (env : Env W D Col) (t : List (Ev D Col)) : Preserved env (fun _ tr => t <+: tr) where
  clock _ _ h := h
  timer _ _ _ h := h.trans (List.prefix_append _ _)
  check _ _ _ _ h := h.trans (List.prefix_append _ _)
  flag _ _ h := h.trans (List.prefix_append _ _)
  clear _ _ h := h
  generateMp _ _ _ h := h.trans (List.prefix_append _ _)
  solveRmp _ _ h := h.trans (List.prefix_append _ _)
  improved _ _ h := h.trans (List.prefix_append _ _)
  update _ _ _ _ _ h := h.trans (List.prefix_append _ _)
  generate _ _ _ _ _ h := h.trans (List.prefix_append _ _)
  add _ _ _ _ _ h := h.trans (List.prefix_append _ _)
  solveIp _ _ h := h.trans (List.prefix_append _ _)

theorem finish_trace (s : St W D Col) : ∃ rest, (finish env c s).2.trace = s.trace ++ rest ∧ rest.length ≤ 1 ∧ ∀ e ∈ rest, ∃ q, e = .solveIp q := by
  unfold finish
  simp only [now, St.set, call]
  split
  · refine ⟨[.solveIp (env.solveIp (env.clock s.world).2).1], ?_, by simp, by simp⟩
    generalize env.solveIp (env.clock s.world).2 = g
    obtain ⟨gr, gw⟩ := g
    cases gr with
    | error er => rfl
    | ok b =>
      cases b with
      | true => rfl
      | false => rfl
  · exact ⟨[], by simp, by simp, by simp⟩

/-- **C114.** If the call with the looser limits ends, so does the one with the tighter limits. Unless the two are the same, the limits stopped the latter (`mp_optimal_` is
`False`), and all of its calls on the master problem and the subproblems up to the final integer program, with their results, are the first calls of the other. -/
theorem C114_same_start (h : Looser c c') {r' : Except Err Unit × St W D Col} (hr : fit env c' fuel y e0 w0 = some r') :
    ∃ r, fit env c fuel y e0 w0 = some r ∧ (r = r' ∨
      (r.2.est.mpOptimal = false ∧ (r.2.est.timeLimitReached = true ∨ (0 < c.maxIterations ∧ (r.2.est.iter : ℤ) ≥ c.maxIterations)) ∧
        ∃ t rest, r.2.trace = t ++ rest ∧ rest.length ≤ 1 ∧ (∀ e ∈ rest, ∃ q, e = .solveIp q) ∧ t <+: r'.2.trace)) := by
  obtain ⟨r, h1, h2⟩ := fit_limit h hr
  refine ⟨r, h1, ?_⟩
  rcases h2 with h2 | ⟨s1, rfl, h3, h4⟩
  · exact Or.inl h2.symm
  · right
    obtain ⟨rest, e1, e2, e3⟩ := finish_trace (env := env) (c := c) s1
    exact ⟨(finish_stopped h3).1, (finish_stopped h3).2, s1.trace, rest, e1, e2, e3, h4 _ (prefix_preserved env s1.trace) List.prefix_rfl⟩

/-- **C114.** A call that ends with `mp_optimal_`, or raises before the limits stop it, is the same under looser limits. -/
theorem C114_optimal_same (h : Looser c c') {r : Except Err Unit × St W D Col} (hr : fit env c fuel y e0 w0 = some r)
    (ho : r.2.est.mpOptimal = true ∨ (r.2.est.timeLimitReached = false ∧ (c.maxIterations ≤ 0 ∨ (r.2.est.iter : ℤ) < c.maxIterations))) :
    fit env c' fuel y e0 w0 = some r := by
  rcases fit_same h hr with h1 | ⟨h1, h2⟩
  · exact h1
  · exfalso
    rcases ho with ho | ⟨ho, h3⟩
    · rw [h1] at ho; cases ho
    · rcases h2 with h2 | ⟨h4, h5⟩
      · rw [ho] at h2; cases h2
      · omega

theorem fit_unique {n n' : ℕ} {r r' : Except Err Unit × St W D Col} (h : fit env c n y e0 w0 = some r) (h' : fit env c n' y e0 w0 = some r') : r = r' := by
  have e := fit_mono env c n n' y e0 w0 r h
  have e' := fit_mono env c n' n y e0 w0 r' h'
  rw [Nat.add_comm, e] at e'
  exact Option.some.inj e'

/-- Two calls that return, whatever fuel shows it. -/
theorem limit_cases (h : Looser c c') {n n' : ℕ} {r r' : Except Err Unit × St W D Col} (hr : fit env c n y e0 w0 = some r)
    (hr' : fit env c' n' y e0 w0 = some r') : r' = r ∨ ∃ s1, r = finish env c s1 ∧ StoppedBy c s1 ∧ Later env s1.world s1.trace r'.2 := by
  obtain ⟨r2, h1, h2⟩ := fit_limit h hr'
  rwa [← fit_unique hr h1] at h2

theorem filterMap_rest {β : Type} (f : Ev D Col → Option β) (hf : ∀ q, f (.solveIp q) = none) {rest : List (Ev D Col)}
    (h : ∀ e ∈ rest, ∃ q, e = .solveIp q) : rest.filterMap f = [] := by
  induction rest with
  | nil => rfl
  | cons e rest ih =>
    obtain ⟨q, rfl⟩ := h e List.mem_cons_self
    rw [List.filterMap_cons, hf q]
    exact ih (fun e he => h e (List.mem_cons_of_mem _ he))

/-- **C114.** Looser limits never mean fewer iterations or fewer columns: the columns accepted by the master problem are those of the tighter call, in order, followed by
further ones. -/
theorem C114_counts (h : Looser c c') {s s' : St W D Col} {u u' : Unit} {fuel' : ℕ} (hr : fit env c fuel y e0 w0 = some (.ok u, s))
    (hr' : fit env c' fuel' y e0 w0 = some (.ok u', s')) :
    s.est.iter ≤ s'.est.iter ∧ accPos s.trace <+: accPos s'.trace ∧ s.est.numColAdded.flatten.sum ≤ s'.est.numColAdded.flatten.sum := by
  obtain ⟨r, h1, h2⟩ := C114_same_start h hr'
  obtain rfl := fit_unique hr h1
  rw [(C01_iteration_limit hr).1, (C01_iteration_limit hr').1, (C06_column_accounting hr).2.2.1, (C06_column_accounting hr').2.2.1]
  rcases h2 with h2 | ⟨-, -, t, rest, e1, -, e3, e4⟩
  · cases h2
    exact ⟨le_rfl, List.prefix_rfl, le_rfl⟩
  · simp only at e1 e4
    have ha : accPos s.trace <+: accPos s'.trace := by
      unfold accPos
      rw [e1, List.filterMap_append, filterMap_rest accepted? (fun _ => rfl) e3, List.append_nil]
      exact e4.filterMap _
    refine ⟨?_, ha, ha.length_le⟩
    have hz : rest.countP isRmp = 0 := by
      rw [List.countP_eq_zero]
      intro e he
      obtain ⟨q, rfl⟩ := e3 e he
      simp [isRmp]
    unfold numRmp
    rw [e1, List.countP_append, hz, Nat.add_zero]
    exact e4.sublist.countP_le

end Verif.Fit

namespace Verif.Fit.Demo

open Spec

/-- The limits of the examples: two iterations, then four; the time limit is loosened too. -/
theorem looser_demo : Looser (cfg 2 100) (cfg 4 0) := ⟨Or.inr ⟨by decide, by decide⟩, Or.inl le_rfl, rfl, rfl⟩

/-- C114: with room for more columns the second call has more iterations and columns. -/
example : summary (fit env (cfg 2 100) 10 [5, 3, 5] est0 ⟨0, 0, 30⟩) =
    some (([true, false, false], [2, 0]), [[1], [2, 0]], [[(0, 0), (1, 0), (1, 0)], [(0, 0), (1, 0)]]) ∧
    summary (fit env (cfg 4 0) 10 [5, 3, 5] est0 ⟨0, 0, 30⟩) =
    some (([true, false, false], [4, 0]), [[1], [6, 0]], [[(0, 0), (1, 0), (1, 0), (1, 0), (1, 0), (1, 0), (1, 0)], [(0, 0), (1, 0)]]) :=
  ⟨by decide +kernel, by decide +kernel⟩

theorem looser_unlimited : Looser (cfg 5 0) (cfg 0 0) := ⟨Or.inl (by decide), Or.inl (by decide +kernel), rfl, rfl⟩

/-- C114: `C114_optimal_same` applies to a call that ends with `mp_optimal_`. -/
example : summary (fit env (cfg 5 0) 10 [5, 3, 5] est0 ⟨0, 0, 3⟩) = summary (fit env (cfg 0 0) 10 [5, 3, 5] est0 ⟨0, 0, 3⟩) := by
  cases hr : fit env (cfg 5 0) 10 [5, 3, 5] est0 ⟨0, 0, 3⟩ with
  | none => exact absurd hr (by have : (fit env (cfg 5 0) 10 [5, 3, 5] est0 ⟨0, 0, 3⟩).isSome = true := by decide +kernel
                                intro hn; rw [hn] at this; cases this)
  | some r =>
    have ho : (fit env (cfg 5 0) 10 [5, 3, 5] est0 ⟨0, 0, 3⟩).map (fun r => r.2.est.mpOptimal) = some true := by decide +kernel
    rw [hr] at ho
    rw [C114_optimal_same looser_unlimited hr (Or.inl (by simpa using ho))]

end Verif.Fit.Demo
