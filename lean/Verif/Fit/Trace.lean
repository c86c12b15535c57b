import Verif.Fit.Guided

/-!
# Lemmas about traces, and termination from a bound on the number of LP solves
-/

set_option linter.unusedSectionVars false

namespace Verif.Fit

open Spec

variable {W D Col : Type} {env : Env W D Col} {cfg : Config} {y : List ℤ} {e0 : Est} {w0 : W} {J : W → List (Ev D Col) → Prop}

theorem generateMp_of_rmp {tr : List (Ev D Col)} (hp : Protocol cfg tr) {r} (hm : Ev.solveRmp r ∈ tr) : ∃ y, Ev.generateMp y (.ok ()) ∈ tr := by
  obtain ⟨pre, post, rfl⟩ := List.append_of_mem hm
  obtain ⟨⟨y, hy⟩, -⟩ := hp pre _ post rfl
  exact ⟨y, by simp [hy]⟩

theorem rmp_of_lastDuals {tr : List (Ev D Col)} {r} (h : lastDuals tr = some r) : Ev.solveRmp r ∈ tr := by
  have hm := List.mem_of_getLast? h
  obtain ⟨e, he, h2⟩ := List.mem_filterMap.1 hm
  cases e with
  | solveRmp r => simp only [rmp?, Option.some.injEq] at h2; rwa [← h2]
  | _ => simp [rmp?] at h2

theorem mem_of_genRes {tr : List (Ev D Col)} {l i cols} (h : ((round tr).filterMap genRes?).getLast? = some (l, i, .ok cols)) :
    ∃ d, Ev.generate l i d (.ok cols) ∈ round tr := by
  have hm := List.mem_of_getLast? h
  obtain ⟨e, he, h2⟩ := List.mem_filterMap.1 hm
  cases e with
  | generate l' i' d' r' =>
    simp only [genRes?, Option.some.injEq, Prod.mk.injEq] at h2
    obtain ⟨rfl, rfl, rfl⟩ := h2
    exact ⟨d', he⟩
  | _ => simp [genRes?] at h2

theorem lastDuals_snoc_rmp (tr : List (Ev D Col)) (r : Except Err D) : lastDuals (tr ++ [.solveRmp r]) = some r := by
  simp [lastDuals, List.filterMap_append, List.filterMap_cons, rmp?]

theorem lastDuals_snoc {tr : List (Ev D Col)} {e : Ev D Col} (h : isRmp e = false) : lastDuals (tr ++ [e]) = lastDuals tr := by
  have : rmp? e = none := by cases e <;> simp_all [isRmp, rmp?]
  simp [lastDuals, List.filterMap_append, List.filterMap_cons, this]

theorem updPos_snoc (tr : List (Ev D Col)) (e : Ev D Col) : updPos (tr ++ [e]) = updPos tr ++ (upd? e).toList := by
  cases h : upd? e <;> simp [updPos, List.filterMap_append, List.filterMap_cons, h]

theorem numRmp_of_lastDuals {tr : List (Ev D Col)} {r} (h : lastDuals tr = some r) : 0 < numRmp tr := by
  unfold numRmp
  rw [List.countP_pos_iff]
  exact ⟨_, rmp_of_lastDuals h, rfl⟩

theorem lastDuals_of_numRmp {tr : List (Ev D Col)} (h : 0 < numRmp tr) : ∃ r, lastDuals tr = some r := by
  unfold numRmp at h
  rw [List.countP_pos_iff] at h
  obtain ⟨e, he, h2⟩ := h
  cases e with
  | solveRmp r =>
    have : tr.filterMap rmp? ≠ [] := by
      intro h0
      have := List.mem_filterMap.2 ⟨_, he, (rfl : rmp? (Ev.solveRmp r) = some r)⟩
      rw [h0] at this
      simp at this
    exact ⟨_, List.getLast?_eq_some_getLast this⟩
  | _ => simp [isRmp] at h2

theorem iter_after (env : Env W D Col) (cfg : Config) (f0 : Bool) :
    ∀ (n : ℕ) (s : St W D Col), Acc cfg f0 s.est s.trace → loop env cfg n s = none →
      s.est.iter + n ≤ numRmp (after env cfg n s).trace := by
  intro n
  induction n with
  | zero => intro s h _; exact h.iter.le
  | succ n ih =>
    intro s h hn
    simp only [loop] at hn
    simp only [after]
    split at hn
    · cases hn
    · rename_i hc
      rw [if_neg hc]
      have hb := body_spec env cfg f0 s h
      generalize body env cfg s = g at hb hn
      obtain ⟨res, s'⟩ := g
      cases res with
      | error er => cases hn
      | ok b =>
        cases b with
        | true =>
          have := ih s' hb.1 hn
          simp only
          have h2 := hb.2
          omega
        | false => cases hn

/-- Termination when the invariant bounds the number of LP solves. -/
theorem Guided.terminates_rmp (hJ : Guided env cfg (Sk.transform (Sk.uniqueLabels y) y) J) (h0 : J w0 []) (N : ℕ)
    (hb : ∀ w tr, Protocol cfg tr → J w tr → numRmp tr ≤ N) : ∃ r, Fit.fit env cfg (N + 1) y e0 w0 = some r := by
  apply fit_terminates_of_loop
  intro h
  cases hl : loop env cfg (N + 1) (startSt env cfg y e0 w0) with
  | some r => exact ⟨r, rfl⟩
  | none =>
    have := iter_after env cfg _ (N + 1) _ h hl
    have hP := hJ.preserved
    have h1 := hP.timer _ _ (env.clock w0).1 (hP.clock _ _ (fun _ _ => h0))
    have h2 := hP.generateMp _ _ (Sk.transform (Sk.uniqueLabels y) y) h1
    have h3 := hP.after cfg (N + 1) (startSt env cfg y e0 w0) h2
    have hp := protocol_after env cfg _ (N + 1) _ h
    have hpre := (Preserved.prefix env (startSt env cfg y e0 w0).trace).after cfg (N + 1) (startSt env cfg y e0 w0) List.prefix_rfl
    have h4 := hb _ _ hp (h3 hp (genIs_of_prefix hp hpre))
    omega

end Verif.Fit
