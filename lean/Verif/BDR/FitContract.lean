import Verif.BDR.FitLemmas

/-!
# Invariants of the Boolean decision rule plug-ins during `fit`, with solvers that keep their contracts
-/

set_option linter.unusedSectionVars false
set_option linter.unusedSimpArgs false

namespace Verif.BDR

open MP Spec
open Fit.Spec
open Verif.Fit (Ev Guided Clean)

variable {Ω : Type} {o : Oracle Ω} {C p : ℚ} {kinds : List (List Kind)} {X : Data} {py : List ℕ} {cfg : Fit.Config}

/-- The solvers' contracts: the duals of the restricted master are dual feasible up to `1e-6`, the answers of the pricing program are
feasible solutions with their objective value, the integer master is not reported infeasible. -/
structure Contract (o : Oracle Ω) (C p : ℚ) (kinds : List (List Kind)) (X : Data) (py : List ℕ) : Prop where
  lp : ∀ ops ω, DualFeasible (after C p X py ops).solver (1 / 1000000) (o.lp (after C p X py ops).solver ω).1.duals
  mip : ∀ l i D, kindAt kinds l i = some (.exact D) → ∀ hist (d : ℚ × List ℚ) ω, 0 ≤ d.1 → (∀ x ∈ d.2, 0 ≤ x) →
    (o.mip (pricingModel D X py hist d) ω).1.status ≠ .other ∧
      IsSolution (pricingModel D X py hist d) (o.mip (pricingModel D X py hist d) ω).1
  ip : ∀ ops ω, (o.ip (after C p X py ops).solver ω).1.status ≠ .other

/-- The columns offered in the current round. -/
def roundCols (tr : Trace) : List Clause := (round tr).filterMap col?

/-- The pricing results of the current round. -/
def roundGens (tr : Trace) : List (ℕ × ℕ × Except Err (List Clause)) := (round tr).filterMap genRes?

structure Bd (o : Oracle Ω) (C p : ℚ) (X : Data) (py : List ℕ) (tr : Trace) (ops : List Op) : Prop where
  known : ∀ d, lastDuals tr = some (.ok d) → 0 ≤ d.1 ∧ (∀ x ∈ d.2, 0 ≤ x) ∧
    ∀ k ∈ clausesOf ops, -1 / 1000000 ≤ reducedCost X.rows py d.1 d.2 k ∨ k ∈ roundCols tr
  last : ∀ l i cols d, lastDuals tr = some (.ok d) → (roundGens tr).getLast? = some (l, i, .ok cols) →
    cols.Nodup ∧ ∀ k ∈ cols, k ≠ [] ∧ reducedCost X.rows py d.1 d.2 k < -1 / 1000000
  clean : Clean tr
  adds : ∀ l i c r, Ev.add l i c r ∈ tr → r = .ok true
  ips : ∀ r, Ev.solveIp r ∈ tr → r = .ok true
  same : roundGens tr ≠ [] → (since isGen tr).filterMap col? = roundCols tr
  none : roundGens tr = [] → roundCols tr = []
  empty : ∀ q ∈ (roundGens tr).dropLast, q.2.2 = .ok []
  lp : ∀ d, lastDuals tr = some (.ok d) → roundCols tr = [] →
    ∃ ω, (after C p X py ops).solveRmp (o.lp (after C p X py ops).solver ω).1 = .ok d

theorem roundCols_snoc {tr : Trace} {e : Ev (ℚ × List ℚ) Clause} (h : isRmp e = false) :
    roundCols (tr ++ [e]) = roundCols tr ++ (col? e).toList := by
  unfold roundCols
  rw [Fit.round_snoc, h]
  cases hc : col? e <;> simp [List.filterMap_append, List.filterMap_cons, hc]

theorem roundGens_snoc {tr : Trace} {e : Ev (ℚ × List ℚ) Clause} (h : isRmp e = false) :
    roundGens (tr ++ [e]) = roundGens tr ++ (genRes? e).toList := by
  unfold roundGens
  rw [Fit.round_snoc, h]
  cases hc : genRes? e <;> simp [List.filterMap_append, List.filterMap_cons, hc]

theorem lastDuals_snoc {tr : Trace} {e : Ev (ℚ × List ℚ) Clause} (h : rmp? e = Option.none) : lastDuals (tr ++ [e]) = lastDuals tr := by
  simp [lastDuals, List.filterMap_append, List.filterMap_cons, h]

/-- Events without influence on the invariant. -/
theorem Bd.neutral {tr : Trace} {ops : List Op} (h : Bd o C p X py tr ops) {e : Ev (ℚ × List ℚ) Clause} (h1 : isRmp e = false)
    (h2 : isGen e = false) (h3 : genRes? e = Option.none) (h4 : col? e = Option.none) (h5 : rmp? e = Option.none)
    (h6 : raised? e = Option.none) (h8 : ∀ r, e = .solveIp r → r = .ok true) : Bd o C p X py (tr ++ [e]) ops := by
  have e1 : roundCols (tr ++ [e]) = roundCols tr := by rw [roundCols_snoc h1, h4]; simp
  have e2 : roundGens (tr ++ [e]) = roundGens tr := by rw [roundGens_snoc h1, h3]; simp
  have e3 : (since isGen (tr ++ [e])).filterMap col? = (since isGen tr).filterMap col? := by
    rw [Fit.since_snoc, h2]
    simp [List.filterMap_append, List.filterMap_cons, h4]
  refine ⟨?_, ?_, ?_, ?_, ?_, ?_, ?_, ?_, ?_⟩
  · rw [lastDuals_snoc h5, e1]; exact h.known
  · rw [lastDuals_snoc h5, e2]; exact h.last
  · exact h.clean.snoc h6
  · intro l i c r hm
    rcases List.mem_append.1 hm with hm | hm
    · exact h.adds l i c r hm
    · rw [← List.mem_singleton.1 hm] at h4; simp [col?] at h4
  · intro r hm
    rcases List.mem_append.1 hm with hm | hm
    · exact h.ips r hm
    · exact h8 r (List.mem_singleton.1 hm).symm
  · rw [e1, e2, e3]; exact h.same
  · rw [e1, e2]; exact h.none
  · rw [e2]; exact h.empty
  · rw [lastDuals_snoc h5, e1]; exact h.lp

theorem Bd.start (t : ℚ) (q : Except Err Unit) (hq : raised? (Ev.generateMp py q : Ev (ℚ × List ℚ) Clause) = Option.none) :
    Bd o C p X py [.timer t, .generateMp py q] [] := by
  have hl : lastDuals ([.timer t, .generateMp py q] : Trace) = Option.none := rfl
  refine ⟨?_, ?_, ?_, ?_, ?_, ?_, ?_, ?_, ?_⟩
  · intro d hd; rw [hl] at hd; cases hd
  · intro l i cols d hd; rw [hl] at hd; cases hd
  · intro e he
    simp at he
    rcases he with rfl | rfl
    · rfl
    · exact hq
  · intro l i c r hm; simp at hm
  · intro r hm; simp at hm
  · intro hn; exact absurd rfl hn
  · intro _; rfl
  · intro q' hq'
    have : roundGens ([.timer t, .generateMp py q] : Trace) = [] := rfl
    rw [this] at hq'
    simp at hq'
  · intro d hd; rw [hl] at hd; cases hd

/-- A `solve_rmp` call. -/
theorem Bd.rmp {tr : Trace} {ops : List Op} (h : Bd o C p X py tr ops) (hb : Binary X.rows py)
    (hlp : ∀ ops ω, DualFeasible (after C p X py ops).solver (1 / 1000000) (o.lp (after C p X py ops).solver ω).1.duals) (ω : Ω) :
    Bd o C p X py (tr ++ [.solveRmp ((after C p X py ops).solveRmp (o.lp (after C p X py ops).solver ω).1)]) ops := by
  obtain ⟨hi, h1, h2, h3, h4⟩ := after_inv C p X py ops hb.len
  have hb' : Binary (after C p X py ops).X.rows (after C p X py ops).y := by rw [h1, h2]; exact hb
  have hsolve := hi.solveRmp (o.lp (after C p X py ops).solver ω).1
  obtain ⟨d, hd⟩ : ∃ d, (after C p X py ops).solveRmp (o.lp (after C p X py ops).solver ω).1 = .ok d := ⟨_, hsolve⟩
  have hk := known_cost hi hb' (hlp ops ω) hd
  rw [h1, h2] at hk
  rw [hd]
  have e1 : roundCols (tr ++ [.solveRmp (.ok d)]) = [] := by
    unfold roundCols; rw [Fit.round_snoc]; rfl
  have e2 : roundGens (tr ++ [.solveRmp (.ok d)]) = [] := by
    unfold roundGens; rw [Fit.round_snoc]; rfl
  have e3 : lastDuals (tr ++ [Ev.solveRmp (.ok d)]) = some (.ok d) := by
    simp [lastDuals, List.filterMap_append, List.filterMap_cons, rmp?]
  refine ⟨?_, ?_, ?_, ?_, ?_, ?_, ?_, ?_, ?_⟩
  · intro d' hd'
    rw [e3] at hd'
    cases hd'
    refine ⟨hk.2.1, hk.2.2.1, fun k hkk => Or.inl ?_⟩
    have := hk.1 k hkk
    linarith
  · intro l i cols d' _ hl
    rw [e2] at hl; simp at hl
  · exact h.clean.snoc rfl
  · intro l i c r hm
    rcases List.mem_append.1 hm with hm | hm
    · exact h.adds l i c r hm
    · simp at hm
  · intro r hm
    rcases List.mem_append.1 hm with hm | hm
    · exact h.ips r hm
    · simp at hm
  · intro hn; exact absurd e2 hn
  · intro _; exact e1
  · intro q hq; rw [e2] at hq; simp at hq
  · intro d' hd' _
    rw [e3] at hd'
    cases hd'
    exact ⟨ω, hd⟩

/-- Columns of a `generate_columns` call with duals for which all known clauses have a good reduced cost. -/
theorem genBy_cols {d : ℚ × List ℚ} {k : Kind} {r : Except Err (List Clause)} {ops : List Op} (hb : Binary X.rows py)
    (hmip : ∀ D, k = .exact D → ∀ hist (d : ℚ × List ℚ) ω, 0 ≤ d.1 → (∀ x ∈ d.2, 0 ≤ x) →
      (o.mip (pricingModel D X py hist d) ω).1.status ≠ .other ∧
        IsSolution (pricingModel D X py hist d) (o.mip (pricingModel D X py hist d) ω).1)
    (h : GenBy o X py d r k) (h1 : 0 ≤ d.1) (h2 : ∀ x ∈ d.2, 0 ≤ x)
    (hk : ∀ k ∈ clausesOf ops, -1 / 1000000 ≤ reducedCost X.rows py d.1 d.2 k) :
    ∃ cols, r = .ok cols ∧ cols.Nodup ∧ ∀ c ∈ cols, c ≠ [] ∧ reducedCost X.rows py d.1 d.2 c < -1 / 1000000 := by
  have hne : ∀ c, reducedCost X.rows py d.1 d.2 c < -1 / 1000000 → c ≠ [] := by
    intro c hc h0
    subst h0
    exact absurd hc (not_lt.2 (hk _ (nil_mem_clausesOf ops)))
  cases k with
  | heuristic K =>
    have h : r = heuristicColumns K X py d := h
    obtain ⟨cols, hc⟩ := (C29_raises K X py d).2 ⟨h1, h2⟩
    obtain ⟨g1, g2, -⟩ := C29_heuristic K X py d cols hb hc
    exact ⟨cols, by rw [h, hc], g2, fun c hm => ⟨hne c ((g1 c).1 hm).2.2.2, ((g1 c).1 hm).2.2.2⟩⟩
  | exact D =>
    obtain ⟨hist, ω, h⟩ := h
    obtain ⟨m1, m2⟩ := hmip D rfl hist d ω h1 h2
    rcases generateColumns_cases (subAfter_ok D X py hist) d (fun m => (o.mip m ω).1) with ⟨-, hn⟩ | ⟨-, -, -, e⟩
    · exact absurd ⟨h1, h2⟩ hn
    · have hr := h
      rw [e] at h
      rw [pricingModel_eq D X py hist d h1 h2] at m1
      rw [if_neg m1] at h
      have key : ∀ cols, r = .ok cols → ∀ c ∈ cols, c ≠ [] ∧ reducedCost X.rows py d.1 d.2 c < -1 / 1000000 := by
        intro cols hc c hm
        have := C26_sound D X py hist d (fun m => (o.mip m ω).1) cols hb (by rw [← hr, hc]) m2 c hm
        exact ⟨hne c this.2.2, this.2.2⟩
      split at h
      · exact ⟨[], h, List.nodup_nil, key _ h⟩
      · exact ⟨_, h, List.nodup_singleton _, key _ h⟩

/-- A `generate_columns` call. -/
theorem Bd.gen {tr : Trace} {ops : List Op} (h : Bd o C p X py tr ops) (hb : Binary X.rows py) {l i : ℕ} {d : ℚ × List ℚ}
    {k : Kind} {r : Except Err (List Clause)}
    (hmip : ∀ D, k = .exact D → ∀ hist (d : ℚ × List ℚ) ω, 0 ≤ d.1 → (∀ x ∈ d.2, 0 ≤ x) →
      (o.mip (pricingModel D X py hist d) ω).1.status ≠ .other ∧
        IsSolution (pricingModel D X py hist d) (o.mip (pricingModel D X py hist d) ω).1)
    (hby : GenBy o X py d r k) (ha : Allowed cfg tr (.generate l i d r)) : Bd o C p X py (tr ++ [.generate l i d r]) ops := by
  obtain ⟨hd, -, -, hrej, -, -, -, hoff⟩ := ha
  have hcols : roundCols tr = [] := by
    rw [List.eq_nil_iff_forall_not_mem]
    intro c hc
    obtain ⟨e, he, hce⟩ := List.mem_filterMap.1 hc
    cases e with
    | add l' i' c' r' =>
      have h1 := hrej _ _ _ _ he
      have h2 := h.adds _ _ _ _ (since_subset _ _ _ he)
      rw [h1] at h2; cases h2
    | _ => simp [col?] at hce
  obtain ⟨k1, k2, k3⟩ := h.known d hd
  have k3' : ∀ k ∈ clausesOf ops, -1 / 1000000 ≤ reducedCost X.rows py d.1 d.2 k := by
    intro k hk
    rcases k3 k hk with hc | hc
    · exact hc
    · rw [hcols] at hc; simp at hc
  obtain ⟨cols, hr, c1, c2⟩ := genBy_cols (ops := ops) hb hmip hby k1 k2 k3'
  subst hr
  have e1 : roundCols (tr ++ [.generate l i d (.ok cols)]) = [] := by rw [roundCols_snoc rfl, hcols]; rfl
  have e2 : roundGens (tr ++ [.generate l i d (.ok cols)]) = roundGens tr ++ [(l, i, .ok cols)] := by rw [roundGens_snoc rfl]; rfl
  have e3 : lastDuals (tr ++ [.generate l i d (.ok cols)]) = lastDuals tr := lastDuals_snoc rfl
  refine ⟨?_, ?_, ?_, ?_, ?_, ?_, ?_, ?_, ?_⟩
  · rw [e3, e1, ← hcols]; exact h.known
  · intro l' i' cols' d' hd' hl
    rw [e3, hd] at hd'
    cases hd'
    rw [e2] at hl
    simp only [List.getLast?_append, List.getLast?_singleton, Option.some_or, Option.some.injEq, Prod.mk.injEq, Except.ok.injEq] at hl
    obtain ⟨-, -, rfl⟩ := hl
    exact ⟨c1, c2⟩
  · exact h.clean.snoc rfl
  · intro l' i' c r hm
    rcases List.mem_append.1 hm with hm | hm
    · exact h.adds _ _ _ _ hm
    · simp at hm
  · intro r hm
    rcases List.mem_append.1 hm with hm | hm
    · exact h.ips r hm
    · simp at hm
  · intro _
    rw [e1, Fit.since_snoc]; rfl
  · intro _; exact e1
  · intro q hq
    rw [e2, List.dropLast_concat] at hq
    rcases List.eq_nil_or_concat (roundGens tr) with h0 | ⟨L, q0, h0⟩
    · rw [h0] at hq; simp at hq
    · rw [List.concat_eq_append] at h0
      have hemp := h.empty
      rw [h0, List.dropLast_concat] at hemp
      rw [h0] at hq
      rcases List.mem_append.1 hq with hq | hq
      · exact hemp q hq
      · rw [List.mem_singleton.1 hq]
        obtain ⟨l', i', r'⟩ := q0
        have hmem : (l', i', r') ∈ roundGens tr := by rw [h0]; simp
        have hr' : ∃ cols', r' = .ok cols' := by
          obtain ⟨e, he, hge⟩ := List.mem_filterMap.1 hmem
          cases e with
          | generate l'' i'' d'' r'' =>
            simp only [genRes?, Option.some.injEq, Prod.mk.injEq] at hge
            obtain ⟨-, -, rfl⟩ := hge
            have := h.clean _ (since_subset _ _ _ he)
            cases r'' with
            | error er => simp [raised?] at this
            | ok cols' => exact ⟨cols', rfl⟩
          | _ => simp [genRes?] at hge
        obtain ⟨cols', rfl⟩ := hr'
        have h5 := hoff l' i' cols' (by
          change (roundGens tr).getLast? = _
          rw [h0]; simp)
        rw [h.same (by rw [h0]; simp), hcols] at h5
        rw [← h5]
  · intro d' hd' _
    rw [e3] at hd'
    exact h.lp d' hd' hcols

/-- An `add_column` call: the column is new. -/
theorem Bd.fresh {tr : Trace} {ops : List Op} (h : Bd o C p X py tr ops) {l i : ℕ} {c : Clause} {r : Except Err Bool}
    (hp : Protocol cfg tr) (ha : Allowed cfg tr (.add l i c r)) : c ≠ [] ∧ c ∉ clausesOf ops := by
  obtain ⟨⟨cols, h1, h2⟩, -⟩ := ha
  obtain ⟨d0, hd0⟩ := mem_of_genRes h1
  have hd0' := since_subset _ _ _ hd0
  obtain ⟨d, hd⟩ : ∃ d, lastDuals tr = some (.ok d) := by
    obtain ⟨pre, post, rfl⟩ := List.append_of_mem hd0'
    have := (hp pre _ post rfl).1
    have hm := rmp_of_lastDuals this
    cases hl : lastDuals (pre ++ Ev.generate l i d0 (.ok cols) :: post) with
    | none =>
      exfalso
      unfold lastDuals at hl
      rw [List.getLast?_eq_none_iff] at hl
      have : (Except.ok d0 : Except Err (ℚ × List ℚ)) ∈ (pre ++ Ev.generate l i d0 (.ok cols) :: post).filterMap rmp? :=
        List.mem_filterMap.2 ⟨Ev.solveRmp (.ok d0), by simp [hm], rfl⟩
      rw [hl] at this
      simp at this
    | some q =>
      cases q with
      | ok d => exact ⟨d, rfl⟩
      | error er =>
        exfalso
        have hm := List.mem_of_getLast? hl
        obtain ⟨e, he, h2⟩ := List.mem_filterMap.1 hm
        cases e with
        | solveRmp r =>
          simp only [rmp?, Option.some.injEq] at h2
          subst h2
          have := h.clean _ he
          simp [raised?] at this
        | _ => simp [rmp?] at h2
  obtain ⟨c1, c2⟩ := h.last l i cols d hd h1
  have hc : c ∈ cols := h2.subset (by simp)
  refine ⟨(c2 c hc).1, fun hk => ?_⟩
  rcases (h.known d hd).2.2 c hk with hr | hr
  · exact absurd (c2 c hc).2 (not_lt.2 hr)
  · have hne : roundGens tr ≠ [] := by
      intro h0
      have h1' : (roundGens tr).getLast? = _ := h1
      rw [h0] at h1'; simp at h1'
    rw [← h.same hne] at hr
    have hn : ((since isGen tr).filterMap col? ++ [c]).Nodup := h2.sublist.nodup c1
    rw [List.nodup_append] at hn
    exact hn.2.2 c hr c (by simp) rfl

theorem Bd.add {tr : Trace} {ops : List Op} (h : Bd o C p X py tr ops) {l i : ℕ} {c : Clause} (hc : c ∉ clausesOf ops)
    (ha : Allowed cfg tr (.add l i c (.ok true))) : Bd o C p X py (tr ++ [.add l i c (.ok true)]) (ops ++ [.addColumn c]) := by
  obtain ⟨⟨cols, h1, h2⟩, -⟩ := ha
  have hne : roundGens tr ≠ [] := by
    intro h0
    have h1' : (roundGens tr).getLast? = _ := h1
    rw [h0] at h1'; simp at h1'
  have e1 : roundCols (tr ++ [.add l i c (.ok true)]) = roundCols tr ++ [c] := roundCols_snoc rfl
  have e2 : roundGens (tr ++ [.add l i c (.ok true)]) = roundGens tr := by rw [roundGens_snoc rfl]; simp [genRes?]
  have e3 : lastDuals (tr ++ [.add l i c (.ok true)]) = lastDuals tr := lastDuals_snoc rfl
  refine ⟨?_, ?_, ?_, ?_, ?_, ?_, ?_, ?_, ?_⟩
  · intro d hd
    rw [e3] at hd
    obtain ⟨k1, k2, k3⟩ := h.known d hd
    refine ⟨k1, k2, ?_⟩
    intro k hk
    rw [clausesOf_snoc_add, if_neg hc] at hk
    rw [e1]
    rcases List.mem_append.1 hk with hk | hk
    · rcases k3 k hk with h' | h'
      · exact Or.inl h'
      · exact Or.inr (by simp [h'])
    · exact Or.inr (by simp [List.mem_singleton.1 hk])
  · rw [e2, e3]; exact h.last
  · exact h.clean.snoc rfl
  · intro l' i' c' r hm
    rcases List.mem_append.1 hm with hm | hm
    · exact h.adds _ _ _ _ hm
    · simp at hm; exact hm.2.2.2
  · intro r hm
    rcases List.mem_append.1 hm with hm | hm
    · exact h.ips r hm
    · simp at hm
  · intro _
    rw [e1, ← h.same hne, Fit.since_snoc]
    simp [isGen, List.filterMap_append, List.filterMap_cons, col?]
  · intro h0; rw [e2] at h0; exact absurd h0 hne
  · rw [e2]; exact h.empty
  · intro d _ h0
    rw [e1] at h0; simp at h0

/-- A `solve_ip` call. -/
theorem Bd.ip {tr : Trace} {ops : List Op} (h : Bd o C p X py tr ops) (hl : py.length = X.rows.length) (f : Model → Answer)
    (hst : (f (after C p X py ops).solver).status ≠ .other) :
    Bd o C p X py (tr ++ [.solveIp ((after C p X py ops).solveIp f).1]) (ops ++ [.solveIp f]) := by
  obtain ⟨hi, h1, h2, h3, h4⟩ := after_inv C p X py ops hl
  obtain ⟨s', e, hi', g1, g2, g3, -⟩ := hi.explanation f hst
  have hs : after C p X py (ops ++ [.solveIp f]) = s' := by rw [after_snoc, step, e]
  have hb : Bd o C p X py (tr ++ [.solveIp ((after C p X py ops).solveIp f).1]) ops := by
    rw [e]
    exact h.neutral rfl rfl rfl rfl rfl rfl (by rintro r hr; cases hr; rfl)
  refine ⟨?_, hb.last, hb.clean, hb.adds, hb.ips, hb.same, hb.none, hb.empty, ?_⟩
  · rw [clausesOf_snoc_ip]; exact hb.known
  · intro d hd h0
    obtain ⟨ω, hω⟩ := hb.lp d hd h0
    refine ⟨ω, ?_⟩
    rw [hs, hi'.solveRmp, g1, g2, g3, ← hω, hi.solveRmp]

/-- The invariant. -/
def InvB (o : Oracle Ω) (C p : ℚ) (kinds : List (List Kind)) (X : Data) (py : List ℕ) (w : World Ω) (tr : Trace) : Prop :=
  Fresh C p kinds w tr ∨ ∃ ops, Core o C p kinds X py w tr ops ∧ Bd o C p X py tr ops

/-- At the start of a `fit` call the first invariant is enough. -/
theorem InvA.start {w : World Ω} (h : InvA o C p kinds X py w []) : InvB o C p kinds X py w [] := by
  rcases h with h | ⟨ops, h⟩
  · exact Or.inl h
  · exact Or.inr ⟨ops, h, ⟨fun d hd => by simp [lastDuals] at hd, fun l i cols d hd => by simp [lastDuals] at hd, by intro e he; simp at he,
      by simp, by simp, fun hn => absurd rfl hn, fun _ => rfl, fun q hq => by simp [roundGens, round, since] at hq, fun d hd => by simp [lastDuals] at hd⟩⟩

theorem invB_guided (hs : cfg.shape = kinds.map List.length) (hb : Binary X.rows py) (hc : Contract o C p kinds X py) :
    Guided (env o X kinds) cfg py (InvB o C p kinds X py) where
  clock w tr h := by
    rcases h with h | ⟨ops, h, hB⟩
    · exact Or.inl ⟨h.master, h.subs, h.gen, h.acc, h.gens⟩
    · exact Or.inr ⟨ops, h.clock _, hB⟩
  timer w tr t _ h := by
    rcases h with h | ⟨ops, h, hB⟩
    · exact Or.inl (h.event rfl (by intros; simp) (by intros; simp))
    · exact Or.inr ⟨ops, h.event rfl (by intros; simp), hB.neutral rfl rfl rfl rfl rfl rfl (by simp)⟩
  check w tr s t _ h := by
    rcases h with h | ⟨ops, h, hB⟩
    · exact Or.inl (h.event rfl (by intros; simp) (by intros; simp))
    · exact Or.inr ⟨ops, h.event rfl (by intros; simp), hB.neutral rfl rfl rfl rfl rfl rfl (by simp)⟩
  flag w tr _ h := by
    rcases h with h | ⟨ops, h, hB⟩
    · exact Or.inl (h.event rfl (by intros; simp) (by intros; simp))
    · exact Or.inr ⟨ops, h.event rfl (by intros; simp), hB.neutral rfl rfl rfl rfl rfl rfl (by simp)⟩
  clear w tr h := h
  generateMp w t h := by
    rcases h with h | ⟨ops, h, hB⟩
    · exact Or.inr ⟨[], h.start, Bd.start t _ rfl⟩
    · refine Or.inr ⟨ops, ?_, hB.neutral (e := .generateMp py (.ok ())) rfl rfl rfl rfl rfl rfl (by simp)⟩
      obtain ⟨hi, -⟩ := after_inv C p X py ops hb.len
      have hm : w.master.generateMp X py = w.master := by simp [Master.generateMp, h.master, hi.gen]
      have h' := h.event (e := .generateMp py (.ok ())) rfl (by intros; simp)
      exact ⟨by simpa [env, hm] using h'.master, rfl, h'.proper, h'.count, h'.subs, h'.gens⟩
  solveRmp w tr hp ha h := by
    rcases h with h | ⟨ops, h, hB⟩
    · obtain ⟨y, hy⟩ := ha.1
      exact absurd hy (h.gen _ _)
    · refine Or.inr ⟨ops, (h.event rfl (by intros; simp)).clock _, ?_⟩
      have := hB.rmp hb hc.lp w.ω
      simp only [env, h.master]
      exact this
  improved w tr _ _ h := by
    rcases h with h | ⟨ops, h, hB⟩
    · exact Or.inl (h.event rfl (by intros; simp) (by intros; simp))
    · exact Or.inr ⟨ops, h.event rfl (by intros; simp), hB.neutral rfl rfl rfl rfl rfl rfl (by simp)⟩
  update w tr l i d _ _ h := by
    rcases h with h | ⟨ops, h, hB⟩
    · exact Or.inl (h.event rfl (by intros; simp) (by intros; simp))
    · exact Or.inr ⟨ops, h.event rfl (by intros; simp), hB.neutral rfl rfl rfl rfl rfl rfl (by simp)⟩
  generate w tr l i d hp ha h := by
    rcases h with h | ⟨ops, h, hB⟩
    · obtain ⟨y, hy⟩ := generateMp_of_rmp hp (rmp_of_lastDuals ha.1)
      exact absurd hy (h.gen _ _)
    · obtain ⟨k, hk⟩ := kind_of_allowed hs ha
      obtain ⟨g1, g2⟩ := h.generate l i d hk
      exact Or.inr ⟨ops, g1, hB.gen hb (fun D hD => hc.mip l i D (hD ▸ hk)) g2 ha⟩
  add w tr l i c hp ha h := by
    have ha' := ha
    obtain ⟨⟨cols, h1, h2⟩, -⟩ := ha
    obtain ⟨d, hd⟩ := mem_of_genRes h1
    have hd' := since_subset _ _ _ hd
    rcases h with h | ⟨ops, h, hB⟩
    · exact absurd hd' (h.gens _ _ _ _)
    · obtain ⟨k, hk, hby⟩ := h.gens _ _ _ _ hd'
      have hcc : c ∈ cols := h2.subset (by simp)
      obtain ⟨f1, f2⟩ := hB.fresh hp ha'
      obtain ⟨ops', h', h3 | h3⟩ := h.add hb.len l i c (genBy_proper hby c hcc)
      · obtain ⟨-, -, e, rfl⟩ := h3
        refine Or.inr ⟨_, h', ?_⟩
        simp only [env] at ha' ⊢
        rw [e] at ha' ⊢
        exact hB.add f2 ha'
      · rcases h3.2 with h3 | h3
        · exact absurd h3 f1
        · exact absurd h3 f2
  solveIp w tr _ _ h := by
    rcases h with h | ⟨ops, h, hB⟩
    · left
      have e : w.master.solveIp (fun m => (o.ip m w.ω).1) = (.error .assertionError, w.master) := by
        simp [Master.solveIp, h.master, Master.new]
      have h' := h.event (e := .solveIp (.error .assertionError)) rfl (by intros; simp) (by intros; simp)
      simp only [env, e]
      exact ⟨h'.master, h'.subs, h'.gen, h'.acc, h'.gens⟩
    · refine Or.inr ⟨_, h.ip _ _ _, ?_⟩
      have := hB.ip hb.len (fun m => (o.ip m w.ω).1) (hc.ip ops w.ω)
      simp only [env, h.master]
      exact this

end Verif.BDR
