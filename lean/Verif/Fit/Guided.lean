import Verif.Fit.Props2

/-!
# World invariants through `fit`, with the call protocol available at every step

`Guided` is `Preserved` where every step may use that the trace so far and the new event follow the protocol, and that `generate_mp`
gets the encoded labels.
-/

set_option linter.unusedSectionVars false

namespace Verif.Fit

open Spec

variable {W D Col : Type} {env : Env W D Col} {cfg : Config} {fuel : ℕ} {y : List ℤ} {e0 : Est} {w0 : W}
  {r : Except Err Unit × St W D Col} {J : W → List (Ev D Col) → Prop} {py : List ℕ}

/-- The labels handed to `generate_mp` are `py`. -/
def GenIs (py : List ℕ) (tr : List (Ev D Col)) : Prop := ∀ y r, Ev.generateMp y r ∈ tr → y = py

structure Guided (env : Env W D Col) (cfg : Config) (py : List ℕ) (J : W → List (Ev D Col) → Prop) : Prop where
  clock : ∀ w tr, J w tr → J (env.clock w).2 tr
  timer : ∀ w tr t, Protocol cfg tr → J w tr → J w (tr ++ [.timer t])
  check : ∀ w tr s t, Protocol cfg tr → J w tr → J w (tr ++ [.check s t])
  flag : ∀ w tr, Protocol cfg tr → J w tr → J w (tr ++ [.resetFlag (env.resetFlag w)])
  clear : ∀ w tr, J w tr → J (env.clearReset w) tr
  generateMp : ∀ w t, J w [.timer t] → J (env.generateMp py w).2 [.timer t, .generateMp py (env.generateMp py w).1]
  solveRmp : ∀ w tr, Protocol cfg tr → Allowed cfg tr (.solveRmp (env.solveRmp w).1) → J w tr →
    J (env.solveRmp w).2 (tr ++ [.solveRmp (env.solveRmp w).1])
  improved : ∀ w tr, Protocol cfg tr → Allowed cfg tr (.improved (env.improved w).1) → J w tr →
    J (env.improved w).2 (tr ++ [.improved (env.improved w).1])
  update : ∀ w tr l i d, Protocol cfg tr → Allowed cfg tr (.update l i d (env.update l i d w).1) → J w tr →
    J (env.update l i d w).2 (tr ++ [.update l i d (env.update l i d w).1])
  generate : ∀ w tr l i d, Protocol cfg tr → Allowed cfg tr (.generate l i d (env.generate l i d w).1) → J w tr →
    J (env.generate l i d w).2 (tr ++ [.generate l i d (env.generate l i d w).1])
  add : ∀ w tr l i c, Protocol cfg tr → Allowed cfg tr (.add l i c (env.addColumn c w).1) → J w tr →
    J (env.addColumn c w).2 (tr ++ [.add l i c (env.addColumn c w).1])
  solveIp : ∀ w tr, Protocol cfg tr → Allowed cfg tr (.solveIp (env.solveIp w).1) → J w tr →
    J (env.solveIp w).2 (tr ++ [.solveIp (env.solveIp w).1])

theorem protocol_prefix {tr : List (Ev D Col)} {e : Ev D Col} (h : Protocol cfg (tr ++ [e])) : Protocol cfg tr ∧ Allowed cfg tr e :=
  ⟨fun pre e' post he => h pre e' (post ++ [e]) (by rw [he]; simp), h tr e [] rfl⟩

theorem GenIs.prefix {tr : List (Ev D Col)} {e : Ev D Col} (h : GenIs py (tr ++ [e])) : GenIs py tr :=
  fun y r hm => h y r (by simp [hm])

theorem Guided.preserved (hJ : Guided env cfg py J) : Preserved env (fun w tr => Protocol cfg tr → GenIs py tr → J w tr) where
  clock w tr h hp hg := hJ.clock w tr (h hp hg)
  timer w tr t h hp hg := hJ.timer w tr t (protocol_prefix hp).1 (h (protocol_prefix hp).1 hg.prefix)
  check w tr s t h hp hg := hJ.check w tr s t (protocol_prefix hp).1 (h (protocol_prefix hp).1 hg.prefix)
  flag w tr h hp hg := hJ.flag w tr (protocol_prefix hp).1 (h (protocol_prefix hp).1 hg.prefix)
  clear w tr h hp hg := hJ.clear w tr (h hp hg)
  generateMp w tr y h hp hg := by
    obtain rfl := hg y (env.generateMp y w).1 (by simp)
    obtain ⟨h1, t, rfl⟩ := protocol_prefix hp
    exact hJ.generateMp w t (h h1 hg.prefix)
  solveRmp w tr h hp hg := hJ.solveRmp w tr (protocol_prefix hp).1 (protocol_prefix hp).2 (h (protocol_prefix hp).1 hg.prefix)
  improved w tr h hp hg := hJ.improved w tr (protocol_prefix hp).1 (protocol_prefix hp).2 (h (protocol_prefix hp).1 hg.prefix)
  update w tr l i d h hp hg := hJ.update w tr l i d (protocol_prefix hp).1 (protocol_prefix hp).2 (h (protocol_prefix hp).1 hg.prefix)
  generate w tr l i d h hp hg :=
    hJ.generate w tr l i d (protocol_prefix hp).1 (protocol_prefix hp).2 (h (protocol_prefix hp).1 hg.prefix)
  add w tr l i c h hp hg := hJ.add w tr l i c (protocol_prefix hp).1 (protocol_prefix hp).2 (h (protocol_prefix hp).1 hg.prefix)
  solveIp w tr h hp hg := hJ.solveIp w tr (protocol_prefix hp).1 (protocol_prefix hp).2 (h (protocol_prefix hp).1 hg.prefix)

theorem genIs_of_prefix {tr : List (Ev D Col)} {t : ℚ} {q : Except Err Unit} (hp : Protocol cfg tr)
    (h : [Ev.timer t, Ev.generateMp py q] <+: tr) : GenIs py tr := by
  intro y r hm
  obtain ⟨pre, post, he⟩ := List.append_of_mem hm
  obtain ⟨t', rfl⟩ := hp pre _ post he
  obtain ⟨rest, hr⟩ := h
  rw [← hr] at he
  simp at he
  exact he.2.1.1.symm

theorem genIs_fit (hr : fit env cfg fuel y e0 w0 = some r) : GenIs (Sk.transform (Sk.uniqueLabels y) y) r.2.trace := by
  by_cases hc : (Sk.uniqueLabels y).length ≤ 1
  · rw [fit_eq, if_pos hc] at hr
    cases hr
    intro y r hm
    simp at hm
  · exact genIs_of_prefix (fit_protocol hr) (fit_trace_prefix hc hr)

/-- **Invariant principle** with the protocol. -/
theorem Guided.fit (hJ : Guided env cfg (Sk.transform (Sk.uniqueLabels y) y) J) (h0 : J w0 [])
    (hr : Fit.fit env cfg fuel y e0 w0 = some r) : J r.2.world r.2.trace :=
  hJ.preserved.fit cfg fuel y e0 w0 (fun _ _ => h0) r hr (fit_protocol hr) (genIs_fit hr)

/-- Termination when the invariant bounds the number of accepted columns. -/
theorem Guided.terminates (hJ : Guided env cfg (Sk.transform (Sk.uniqueLabels y) y) J) (h0 : J w0 []) (N : ℕ)
    (hb : ∀ w tr, Protocol cfg tr → J w tr → (accPos tr).length ≤ N) : ∃ r, Fit.fit env cfg (N + 1) y e0 w0 = some r := by
  apply fit_terminates_of_loop
  intro h
  cases hl : loop env cfg (N + 1) (startSt env cfg y e0 w0) with
  | some r => exact ⟨r, rfl⟩
  | none =>
    have := acc_after env cfg _ (N + 1) _ h hl
    have hP := hJ.preserved
    have h1 := hP.timer _ _ (env.clock w0).1 (hP.clock _ _ (fun _ _ => h0))
    have h2 := hP.generateMp _ _ (Sk.transform (Sk.uniqueLabels y) y) h1
    have h3 := hP.after cfg (N + 1) (startSt env cfg y e0 w0) h2
    have hp := protocol_after env cfg _ (N + 1) _ h
    have hpre := (Preserved.prefix env (startSt env cfg y e0 w0).trace).after cfg (N + 1) (startSt env cfg y e0 w0) List.prefix_rfl
    have h4 := hb _ _ hp (h3 hp (genIs_of_prefix hp hpre))
    omega

theorem numRmp_snoc (tr : List (Ev D Col)) (e : Ev D Col) : numRmp (tr ++ [e]) = numRmp tr + if isRmp e then 1 else 0 := by
  simp [numRmp, List.countP_append, List.countP_singleton]

theorem accPos_snoc (tr : List (Ev D Col)) (e : Ev D Col) : accPos (tr ++ [e]) = accPos tr ++ (accepted? e).toList := by
  cases h : accepted? e <;> simp [accPos, List.filterMap_append, List.filterMap_cons, h]

/-- Every LP solve but the first is preceded by an accepted column of the previous round. -/
theorem numRmp_le (tr : List (Ev D Col)) (hp : Protocol cfg tr) :
    numRmp tr ≤ (accPos tr).length + 1 ∧ (accPos (round tr) ≠ [] → numRmp tr ≤ (accPos tr).length) := by
  induction tr using List.reverseRecOn with
  | nil => simp [numRmp, accPos, round, since]
  | append_singleton tr e ih =>
    obtain ⟨h1, h2⟩ := ih (protocol_prefix hp).1
    have ha := (protocol_prefix hp).2
    rw [numRmp_snoc, accPos_snoc, round_snoc, List.length_append]
    cases hr : isRmp e with
    | true =>
      cases e with
      | solveRmp q =>
        refine ⟨?_, by simp [accPos]⟩
        simp only [if_true, accepted?, Option.toList_none, List.length_nil]
        rcases Nat.eq_zero_or_pos (numRmp tr) with h0 | h0
        · omega
        · have := h2 (ha.2.2.2 h0).2.1
          omega
      | _ => simp [isRmp] at hr
    | false =>
      simp only [Bool.false_eq_true, if_false, Nat.add_zero]
      refine ⟨by omega, ?_⟩
      rw [accPos_snoc]
      intro hne
      by_cases h0 : accPos (round tr) = []
      · rw [h0] at hne
        cases hc : accepted? e with
        | none => rw [hc] at hne; simp at hne
        | some q => simp only [Option.toList_some, List.length_singleton]; omega
      · have := h2 h0; omega

/-- The trace of a run that returns ends with all columns offered. -/
theorem offered_return {u : Unit} {s : St W D Col} (hr : Fit.fit env cfg fuel y e0 w0 = some (.ok u, s)) : Offered s.trace := by
  obtain ⟨e, tr, hE, hS, ht⟩ := (fit_spec env cfg fuel y e0 w0 (.ok u, s) hr).ex
  rw [ht]
  cases cfg.rmpIsIp with
  | false => simpa using hE.off
  | true => exact offered_snoc hE.off rfl rfl rfl rfl

end Verif.Fit
