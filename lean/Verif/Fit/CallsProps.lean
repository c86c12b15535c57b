import Verif.Fit.Balance
import Verif.Fit.Examples
import Mathlib.Tactic.Ring

/-!
# Property C155: the sequence of calls on the subproblems
-/

set_option linter.unusedSectionVars false

namespace Verif.Fit

open Spec

variable {W D Col : Type} {env : Env W D Col} {cfg : Config} {fuel : ℕ} {y : List ℤ} {e0 : Est} {w0 : W} {s : St W D Col} {u : Unit}

theorem calls_protocol (tr : List (Ev D Col)) (hp : Protocol cfg tr) :
    (numRmp tr = 0 → updPos tr = [] ∧ genPos tr = []) ∧
    (0 < numRmp tr → updPos tr = (List.replicate (numRmp tr - 1) (allPositions cfg.shape)).flatten ++ updPos (round tr) ∧
      ∃ ks : List ℕ, ks.length = numRmp tr - 1 ∧ genPos tr = (ks.map (fun k => (allPositions cfg.shape).take k)).flatten ++ genPos (round tr) ∧
        genPos (round tr) <+: allPositions cfg.shape) := by
  induction tr using List.reverseRecOn with
  | nil => simp [numRmp, updPos, genPos]
  | append_singleton tr e ih =>
    have hp' := protocol_init hp
    have hall := hp tr e [] rfl
    obtain ⟨ih0, ih1⟩ := ih hp'
    cases e with
    | solveRmp q =>
      have e1 : updPos (tr ++ [Ev.solveRmp q]) = updPos tr := by simp [updPos, List.filterMap_append, List.filterMap_cons, upd?]
      have e2 : genPos (tr ++ [Ev.solveRmp q]) = genPos tr := by simp [genPos, List.filterMap_append, List.filterMap_cons, gen?]
      have e3 : numRmp (tr ++ [Ev.solveRmp q]) = numRmp tr + 1 := by rw [numRmp_snoc]; simp [isRmp]
      have e4 : round (tr ++ [Ev.solveRmp q]) = [] := by rw [round_snoc]; simp [isRmp]
      rw [e1, e2, e3, e4]
      refine ⟨fun h => by omega, fun _ => ?_⟩
      rcases Nat.eq_zero_or_pos (numRmp tr) with h0 | h0
      · rw [(ih0 h0).1, (ih0 h0).2, h0]
        exact ⟨rfl, [], rfl, rfl, List.nil_prefix⟩
      · obtain ⟨h1, ks, hk, h2, h3⟩ := ih1 h0
        have hu := (hall.2.2.2 h0).1
        refine ⟨?_, ks ++ [(genPos (round tr)).length], by simp [hk]; omega, ?_, List.nil_prefix⟩
        · rw [h1, hu]
          have : numRmp tr + 1 - 1 = (numRmp tr - 1) + 1 := by omega
          rw [this, List.replicate_succ', List.flatten_append]
          simp [updPos]
        · rw [h2, List.map_append, List.flatten_append]
          have := List.prefix_iff_eq_take.1 h3
          simp only [List.map_cons, List.map_nil, List.flatten_cons, List.flatten_nil, List.append_nil, ← this]
          simp [genPos]
    | generate l i d q =>
      have e1 : updPos (tr ++ [Ev.generate l i d q]) = updPos tr := by simp [updPos, List.filterMap_append, List.filterMap_cons, upd?]
      have e2 : genPos (tr ++ [Ev.generate l i d q]) = genPos tr ++ [(l, i)] := by simp [genPos, List.filterMap_append, List.filterMap_cons, gen?]
      have e3 : numRmp (tr ++ [Ev.generate l i d q]) = numRmp tr := by rw [numRmp_snoc]; simp [isRmp]
      have e4 : updPos (round (tr ++ [Ev.generate l i d q])) = updPos (round tr) := by
        rw [round_snoc]; simp [isRmp, updPos, List.filterMap_append, List.filterMap_cons, upd?]
      have e5 : genPos (round (tr ++ [Ev.generate l i d q])) = genPos (round tr) ++ [(l, i)] := by
        rw [round_snoc]; simp [isRmp, genPos, List.filterMap_append, List.filterMap_cons, gen?]
      have h0 := numRmp_of_lastDuals hall.1
      obtain ⟨h1, ks, hk, h2, h3⟩ := ih1 h0
      rw [e1, e2, e3, e4, e5]
      exact ⟨fun h => by omega, fun _ => ⟨h1, ks, hk, by rw [h2, List.append_assoc], hall.2.2.1⟩⟩
    | update l i d q =>
      have e1 : updPos (tr ++ [Ev.update l i d q]) = updPos tr ++ [(l, i)] := by simp [updPos, List.filterMap_append, List.filterMap_cons, upd?]
      have e2 : genPos (tr ++ [Ev.update l i d q]) = genPos tr := by simp [genPos, List.filterMap_append, List.filterMap_cons, gen?]
      have e3 : numRmp (tr ++ [Ev.update l i d q]) = numRmp tr := by rw [numRmp_snoc]; simp [isRmp]
      have e4 : updPos (round (tr ++ [Ev.update l i d q])) = updPos (round tr) ++ [(l, i)] := by
        rw [round_snoc]; simp [isRmp, updPos, List.filterMap_append, List.filterMap_cons, upd?]
      have e5 : genPos (round (tr ++ [Ev.update l i d q])) = genPos (round tr) := by
        rw [round_snoc]; simp [isRmp, genPos, List.filterMap_append, List.filterMap_cons, gen?]
      have h0 := numRmp_of_lastDuals hall.1
      obtain ⟨h1, ks, hk, h2, h3⟩ := ih1 h0
      rw [e1, e2, e3, e4, e5]
      exact ⟨fun h => by omega, fun _ => ⟨by rw [h1, List.append_assoc], ks, hk, h2, h3⟩⟩
    | _ =>
      rw [round_snoc, numRmp_snoc]
      simpa [updPos, genPos, isRmp, List.filterMap_append, List.filterMap_cons, upd?, gen?] using And.intro ih0 ih1

theorem upd_round (tr : List (Ev D Col)) (hp : Protocol cfg tr) : updPos (round tr) <+: allPositions cfg.shape := by
  induction tr using List.reverseRecOn with
  | nil => exact List.nil_prefix
  | append_singleton tr e ih =>
    have hall := hp tr e [] rfl
    replace ih := ih (protocol_init hp)
    rw [round_snoc]
    cases e with
    | solveRmp q => simp [isRmp, updPos]
    | update l i d q =>
      have := hall.2.1
      simpa [isRmp, updPos, List.filterMap_append, List.filterMap_cons, upd?] using this
    | _ => simpa [isRmp, updPos, List.filterMap_append, List.filterMap_cons, upd?] using ih

/-- **C155.** In every run, also one that raises, the calls of `update_subproblem` follow this order, and every round of pricing calls starts with the first subproblem. -/
theorem C155_any {r : Except Err Unit × St W D Col} (hr : fit env cfg fuel y e0 w0 = some r) :
    updPos r.2.trace <+: (List.replicate (numRmp r.2.trace) (allPositions cfg.shape)).flatten ∧
    ∃ ks : List ℕ, ks.length = numRmp r.2.trace ∧ genPos r.2.trace = (ks.map (fun k => (allPositions cfg.shape).take k)).flatten := by
  obtain ⟨h0, h1⟩ := calls_protocol r.2.trace (fit_protocol hr)
  rcases Nat.eq_zero_or_pos (numRmp r.2.trace) with h | h
  · rw [(h0 h).1, (h0 h).2, h]
    exact ⟨List.nil_prefix, [], rfl, rfl⟩
  · obtain ⟨h2, ks, hk, h3, h4⟩ := h1 h
    refine ⟨?_, ks ++ [(genPos (round r.2.trace)).length], by simp [hk]; omega, ?_⟩
    · rw [h2]
      conv_rhs => rw [show numRmp r.2.trace = (numRmp r.2.trace - 1) + 1 by omega, List.replicate_succ', List.flatten_append]
      refine List.prefix_append_right_inj _ |>.2 ?_
      simpa using upd_round r.2.trace (fit_protocol hr)
    · rw [h3, List.map_append, List.flatten_append]
      have := List.prefix_iff_eq_take.1 h4
      simp only [List.map_cons, List.map_nil, List.flatten_cons, List.flatten_nil, List.append_nil, ← this]

/-- The last round of a run that returned is complete. -/
theorem last_round (hr : fit env cfg fuel y e0 w0 = some (.ok u, s)) :
    (0 < numRmp s.trace → updPos (round s.trace) = allPositions cfg.shape) ∧
    (s.est.mpOptimal = true → 0 < numRmp s.trace ∧ genPos (round s.trace) = allPositions cfg.shape) := by
  obtain ⟨e, tr, hE, hS, htr⟩ := (fit_spec env cfg fuel y e0 w0 (.ok u, s) hr).ex
  have t1 : numRmp s.trace = numRmp tr := by rw [htr]; cases cfg.rmpIsIp <;> simp [numRmp, isRmp, List.countP_append]
  have t2 : updPos (round s.trace) = updPos (round tr) := by
    rw [htr]; cases cfg.rmpIsIp
    · simp
    · simp only [if_true]; rw [round_snoc]; simp [isRmp, updPos, List.filterMap_append, List.filterMap_cons, upd?]
  have t3 : genPos (round s.trace) = genPos (round tr) := by
    rw [htr]; cases cfg.rmpIsIp
    · simp
    · simp only [if_true]; rw [round_snoc]; simp [isRmp, genPos, List.filterMap_append, List.filterMap_cons, gen?]
  rw [t1, t2, t3, hS.opt]
  cases hE with
  | limit h h1 h2 => exact ⟨h.upds, fun ho => by rw [h.opt] at ho; cases ho⟩
  | optimal d e' h h1 => exact ⟨fun _ => h.upds, fun _ => ⟨h.pos, h.gens⟩⟩
  | timed h => exact ⟨fun _ => h.upds, fun ho => by rw [h.opt] at ho; cases ho⟩

/-- **C155.** The calls of `update_subproblem` are the list of all subproblems in level order, `iter_` times. -/
theorem C155_updates (hr : fit env cfg fuel y e0 w0 = some (.ok u, s)) :
    updPos s.trace = (List.replicate s.est.iter (allPositions cfg.shape)).flatten := by
  rw [(C01_iteration_limit hr).1]
  obtain ⟨h0, h1⟩ := calls_protocol s.trace (fit_protocol hr)
  rcases Nat.eq_zero_or_pos (numRmp s.trace) with h | h
  · rw [h, (h0 h).1]; rfl
  · rw [(h1 h).1, (last_round hr).1 h]
    conv_rhs => rw [show numRmp s.trace = (numRmp s.trace - 1) + 1 by omega, List.replicate_succ', List.flatten_append]
    simp

/-- **C155.** The calls of `generate_columns` are, for every iteration, those of the first so many subproblems in level order; with `mp_optimal_` all of them in the
last iteration. -/
theorem C155_generate (hr : fit env cfg fuel y e0 w0 = some (.ok u, s)) :
    ∃ ks : List ℕ, ks.length = s.est.iter ∧ genPos s.trace = (ks.map (fun k => (allPositions cfg.shape).take k)).flatten ∧
      (∀ k ∈ ks, k ≤ (allPositions cfg.shape).length) ∧ (s.est.mpOptimal = true → ks.getLast? = some (allPositions cfg.shape).length) := by
  rw [(C01_iteration_limit hr).1]
  obtain ⟨h0, h1⟩ := calls_protocol s.trace (fit_protocol hr)
  obtain ⟨-, l2⟩ := last_round hr
  rcases Nat.eq_zero_or_pos (numRmp s.trace) with h | h
  · exact ⟨[], h.symm, (h0 h).2, by simp, fun ho => by have := (l2 ho).1; omega⟩
  · obtain ⟨-, ks, hk, h2, h3⟩ := h1 h
    refine ⟨ks.map (fun k => min k (allPositions cfg.shape).length) ++ [(genPos (round s.trace)).length], by simp [hk]; omega, ?_, ?_, ?_⟩
    · rw [h2, List.map_append, List.flatten_append, List.map_map]
      have e1 := List.prefix_iff_eq_take.1 h3
      have e2 : ((fun k => (allPositions cfg.shape).take k) ∘ fun k => min k (allPositions cfg.shape).length) =
          fun k => (allPositions cfg.shape).take k := by
        funext k
        simp only [Function.comp]
        rcases le_total k (allPositions cfg.shape).length with hk | hk
        · rw [min_eq_left hk]
        · rw [min_eq_right hk, List.take_length, List.take_of_length_le hk]
      rw [e2]
      simp only [List.map_cons, List.map_nil, List.flatten_cons, List.flatten_nil, List.append_nil, ← e1]
    · intro k hk'
      rcases List.mem_append.1 hk' with hk' | hk'
      · obtain ⟨k', -, rfl⟩ := List.mem_map.1 hk'
        exact min_le_right _ _
      · rw [List.mem_singleton.1 hk']
        exact h3.length_le
    · intro ho
      rw [(l2 ho).2]
      simp

theorem positionsFrom_length : ∀ (k : ℕ) (l : List ℕ), (positionsFrom k l).length = l.sum
  | _, [] => rfl
  | k, n :: l => by simp [positionsFrom, positionsFrom_length (k + 1) l]

theorem flatten_length {α : Type} (l : List α) : ∀ n, (List.replicate n l).flatten.length = l.length * n
  | 0 => rfl
  | n + 1 => by rw [List.replicate_succ, List.flatten_cons, List.length_append, flatten_length l n]; ring

/-- **C155.** With `n` subproblems, `update_subproblem` is called exactly `n * iter_` times and `generate_columns` at most so many times; a subproblem is never asked
more often than one before it. -/
theorem C155_counts (hr : fit env cfg fuel y e0 w0 = some (.ok u, s)) :
    (updPos s.trace).length = cfg.shape.sum * s.est.iter ∧ (genPos s.trace).length ≤ cfg.shape.sum * s.est.iter ∧
    ∀ i j, (_ : i ≤ j) → (hj : j < (allPositions cfg.shape).length) →
      (genPos s.trace).count ((allPositions cfg.shape)[j]) ≤ (genPos s.trace).count ((allPositions cfg.shape)[i]'(by omega)) := by
  have hlen : (allPositions cfg.shape).length = cfg.shape.sum := positionsFrom_length 0 _
  obtain ⟨ks, hk, hg, hle, -⟩ := C155_generate hr
  refine ⟨?_, ?_, ?_⟩
  · rw [C155_updates hr, flatten_length, hlen]
  · rw [hg, ← hk, List.length_flatten, List.map_map, ← hlen]
    clear hg hk
    induction ks with
    | nil => simp
    | cons k ks ih =>
      have := ih (fun k hk => hle k (List.mem_cons_of_mem _ hk))
      simp only [List.map_cons, List.sum_cons, List.length_cons, Function.comp, List.length_take, mul_add, mul_one] at this ⊢
      have := min_le_right k (allPositions cfg.shape).length
      omega
  · intro i j hij hj
    rw [hg]
    clear hg hk hle
    have hnd := nodup_allPositions cfg.shape
    induction ks with
    | nil => simp
    | cons k ks ih =>
      simp only [List.map_cons, List.flatten_cons, List.count_append]
      refine Nat.add_le_add ?_ ih
      by_cases h : (allPositions cfg.shape)[j] ∈ (allPositions cfg.shape).take k
      · have hjk : j < k := by
          obtain ⟨m, hm, e⟩ := List.mem_iff_getElem.1 h
          rw [List.getElem_take] at e
          have := (hnd.getElem_inj_iff).1 e
          simp at hm
          omega
        have hmem : (allPositions cfg.shape)[i]'(by omega) ∈ (allPositions cfg.shape).take k :=
          List.mem_iff_getElem.2 ⟨i, by simp; omega, by rw [List.getElem_take]⟩
        rw [List.count_eq_one_of_mem (hnd.sublist (List.take_sublist _ _)) h, List.count_eq_one_of_mem (hnd.sublist (List.take_sublist _ _)) hmem]
      · rw [List.count_eq_zero_of_not_mem h]
        exact Nat.zero_le _

namespace CallsDemo

/-- Three iterations: in the first one the first subproblem contributes, in the second one the second, in the last one none. -/
example : (fit Demo.env (Demo.cfg (-1) 0) 10 [5, 3, 5] Demo.est0 ⟨0, 0, 3⟩).map (fun r => ((r.1.toOption.isSome, r.2.est.iter, r.2.est.mpOptimal), updPos r.2.trace,
      genPos r.2.trace)) =
    some ((true, 3, true), [(0, 0), (1, 0), (1, 1), (0, 0), (1, 0), (1, 1), (0, 0), (1, 0), (1, 1)],
      [(0, 0)] ++ [(0, 0), (1, 0)] ++ [(0, 0), (1, 0), (1, 1)]) := by
  decide +kernel

/-- A pricing problem that raises in the first iteration. -/
example : (fit { Demo.env with generate := fun _ i d w => if i = 1 then (.error .keyError, w) else Demo.env.generate 1 i d w } (Demo.cfg (-1) 0) 10 [5, 3, 5]
      Demo.est0 ⟨0, 0, 0⟩).map (fun r => (r.1.toOption.isSome, updPos r.2.trace, genPos r.2.trace)) =
    some (false, [(0, 0), (1, 0), (1, 1)], [(0, 0), (1, 0), (1, 1)]) := by
  decide +kernel

end CallsDemo

end Verif.Fit
