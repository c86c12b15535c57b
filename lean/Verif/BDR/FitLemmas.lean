import Verif.BDR.Fit

/-!
# Invariants of the Boolean decision rule plug-ins during `fit`
-/

set_option linter.unusedSectionVars false
set_option linter.unusedSimpArgs false

namespace Verif.BDR

open MP Spec
open Fit.Spec
open Verif.Fit (Ev Guided Clean)

variable {Ω : Type} {o : Oracle Ω} {C p : ℚ} {kinds : List (List Kind)} {X : Data} {py : List ℕ} {cfg : Fit.Config}

/-- Traces of this classifier. -/
abbrev Trace := List (Ev (ℚ × List ℚ) Clause)

theorem run_snoc (s : Master) (ops : List Op) (op : Op) : run s (ops ++ [op]) = step (run s ops) op := by
  simp [run]

theorem after_snoc (ops : List Op) (op : Op) : after C p X py (ops ++ [op]) = step (after C p X py ops) op := run_snoc _ _ _

theorem clausesOf_snoc_add (ops : List Op) (k : Clause) :
    clausesOf (ops ++ [.addColumn k]) = if k ∈ clausesOf ops then clausesOf ops else clausesOf ops ++ [k] := by
  unfold clausesOf
  rw [List.foldl_append]
  rfl

theorem clausesOf_snoc_ip (ops : List Op) (f : Model → Answer) : clausesOf (ops ++ [.solveIp f]) = clausesOf ops := by
  simp [clausesOf]

theorem nil_mem_clausesOf (ops : List Op) : [] ∈ clausesOf ops := by
  induction ops using List.reverseRecOn with
  | nil => simp [clausesOf]
  | append_singleton ops op ih =>
    cases op with
    | addColumn k =>
      rw [clausesOf_snoc_add]
      split
      · exact ih
      · simp [ih]
    | _ => simpa [clausesOf] using ih

theorem subAfter_snoc (D : ℚ) (hist : List ((ℚ × List ℚ) × (Model → Answer))) (h : (ℚ × List ℚ) × (Model → Answer)) :
    subAfter D X py (hist ++ [h]) = ((subAfter D X py hist).generateColumns X py h.1 h.2).2 := by
  simp [subAfter]

/-- Nothing happened yet. -/
structure Fresh (C p : ℚ) (kinds : List (List Kind)) (w : World Ω) (tr : Trace) : Prop where
  master : w.master = Master.new C p
  subs : ∀ l i D, kindAt kinds l i = some (.exact D) → w.subs l i = Sub.new D
  gen : ∀ y r, Ev.generateMp y r ∉ tr
  acc : accPos tr = []
  gens : ∀ l i d r, Ev.generate l i d r ∉ tr

/-- What a `generate_columns` call of kind `k` returned. -/
def GenBy (o : Oracle Ω) (X : Data) (py : List ℕ) (d : ℚ × List ℚ) (r : Except Err (List Clause)) : Kind → Prop
  | .heuristic K => r = heuristicColumns K X py d
  | .exact D => ∃ hist ω, r = ((subAfter D X py hist).generateColumns X py d (fun m => (o.mip m ω).1)).1

/-- After `generate_mp`: `ops` is the history of the master. -/
structure Core (o : Oracle Ω) (C p : ℚ) (kinds : List (List Kind)) (X : Data) (py : List ℕ) (w : World Ω) (tr : Trace) (ops : List Op) :
    Prop where
  master : w.master = after C p X py ops
  y : w.y = py
  proper : ∀ k ∈ clausesOf ops, Proper X.nFeat k
  count : 1 + (accPos tr).length ≤ (clausesOf ops).length
  subs : ∀ l i D, kindAt kinds l i = some (.exact D) → ∃ hist, w.subs l i = subAfter D X py hist
  gens : ∀ l i d r, Ev.generate l i d r ∈ tr → ∃ k, kindAt kinds l i = some k ∧ GenBy o X py d r k

theorem genBy_proper {d : ℚ × List ℚ} {cols : List Clause} {k : Kind} (h : GenBy o X py d (.ok cols) k) :
    ∀ c ∈ cols, Proper X.nFeat c := by
  intro c hc
  cases k with
  | heuristic K =>
    have h : .ok cols = heuristicColumns K X py d := h
    unfold heuristicColumns at h
    split at h
    · cases h
    · split at h
      · cases h
      · cases h
        exact ((mem_heuristic K X _ c).1 hc).1
  | exact D =>
    obtain ⟨hist, ω, h⟩ := h
    rcases generateColumns_cases (subAfter_ok D X py hist) d (fun m => (o.mip m ω).1) with ⟨e, -⟩ | ⟨-, -, -, e⟩
    · rw [e] at h; cases h
    · rw [e] at h
      split at h
      · cases h
      · split at h
        · cases h; simp at hc
        · cases h
          rw [List.mem_singleton.1 hc]
          exact readSet_proper _ _

/-! ## One step -/

theorem Core.clock {w : World Ω} {tr : Trace} {ops : List Op} (h : Core o C p kinds X py w tr ops) (ω : Ω) :
    Core o C p kinds X py { w with ω := ω } tr ops := ⟨h.master, h.y, h.proper, h.count, h.subs, h.gens⟩

theorem Core.event {w : World Ω} {tr : Trace} {ops : List Op} (h : Core o C p kinds X py w tr ops) {e : Ev (ℚ × List ℚ) Clause}
    (h1 : accepted? e = none) (h2 : ∀ l i d r, e ≠ .generate l i d r) : Core o C p kinds X py w (tr ++ [e]) ops :=
  ⟨h.master, h.y, h.proper, by
    have := h.count
    simpa [accPos, List.filterMap_append, List.filterMap_cons, h1] using this, h.subs, fun l i d r hm => by
    rcases List.mem_append.1 hm with hm | hm
    · exact h.gens l i d r hm
    · exact absurd (List.mem_singleton.1 hm).symm (h2 l i d r)⟩

theorem Core.generate {w : World Ω} {tr : Trace} {ops : List Op} (h : Core o C p kinds X py w tr ops) (l i : ℕ) (d : ℚ × List ℚ) {k : Kind}
    (hk : kindAt kinds l i = some k) :
    Core o C p kinds X py (generateAt o X kinds l i d w).2 (tr ++ [.generate l i d (generateAt o X kinds l i d w).1]) ops ∧
      GenBy o X py d (generateAt o X kinds l i d w).1 k := by
  have hacc : accPos (tr ++ [.generate l i d (generateAt o X kinds l i d w).1]) = accPos tr := by
    simp [accPos, List.filterMap_append, List.filterMap_cons, accepted?]
  have hby : GenBy o X py d (generateAt o X kinds l i d w).1 k := by
    cases k with
    | heuristic K => simp only [generateAt, hk, GenBy, h.y]
    | exact D =>
      obtain ⟨hist, hs⟩ := h.subs l i D hk
      simp only [generateAt, hk, GenBy, h.y]
      exact ⟨hist, w.ω, by rw [hs]⟩
  refine ⟨⟨?_, ?_, h.proper, by rw [hacc]; exact h.count, ?_, ?_⟩, hby⟩
  · rw [← h.master]; cases k <;> simp only [generateAt, hk]
  · rw [← h.y]; cases k <;> simp only [generateAt, hk]
  · intro l' i' D' hk'
    cases k with
    | heuristic K => simp only [generateAt, hk]; exact h.subs l' i' D' hk'
    | exact D =>
      simp only [generateAt, hk, setSub, h.y]
      by_cases hc : l' = l ∧ i' = i
      · rw [if_pos hc]
        obtain ⟨rfl, rfl⟩ := hc
        rw [hk] at hk'
        cases hk'
        obtain ⟨hist, hs⟩ := h.subs l' i' D' hk
        refine ⟨hist ++ [(d, fun m => (o.mip m w.ω).1)], ?_⟩
        rw [subAfter_snoc, hs]
      · rw [if_neg hc]
        exact h.subs l' i' D' hk'
  · intro l' i' d' r' hm
    rcases List.mem_append.1 hm with hm | hm
    · exact h.gens l' i' d' r' hm
    · have := List.mem_singleton.1 hm
      cases this
      exact ⟨k, hk, hby⟩

/-- What `add_column` does, in terms of the clauses of the master. -/
theorem Core.addCases {w : World Ω} {tr : Trace} {ops : List Op} (h : Core o C p kinds X py w tr ops) (hl : py.length = X.rows.length)
    (c : Clause) :
    (c = [] ∧ w.master.addColumn c = (.ok false, w.master)) ∨
    (c ≠ [] ∧ c ∈ clausesOf ops ∧ w.master.addColumn c = (.error .assertionError, w.master)) ∨
    (c ≠ [] ∧ c ∉ clausesOf ops ∧ w.master.addColumn c = (.ok true, after C p X py (ops ++ [.addColumn c]))) := by
  obtain ⟨hi, -⟩ := after_inv C p X py ops hl
  obtain ⟨a1, a2, a3⟩ := addColumn_inv hi c
  rw [h.master]
  by_cases h0 : c = []
  · exact Or.inl ⟨h0, a1 h0⟩
  · by_cases hm : c ∈ clausesOf ops
    · exact Or.inr (Or.inl ⟨h0, hm, a2 h0 hm⟩)
    · obtain ⟨s', e, -⟩ := a3 h0 hm
      refine Or.inr (Or.inr ⟨h0, hm, ?_⟩)
      rw [e, after_snoc, step, e]

theorem Core.add {w : World Ω} {tr : Trace} {ops : List Op} (h : Core o C p kinds X py w tr ops) (hl : py.length = X.rows.length)
    (l i : ℕ) (c : Clause) (hc : Proper X.nFeat c) :
    ∃ ops', Core o C p kinds X py { w with master := (w.master.addColumn c).2 } (tr ++ [.add l i c (w.master.addColumn c).1]) ops' ∧
      ((c ≠ [] ∧ c ∉ clausesOf ops ∧ (w.master.addColumn c).1 = .ok true ∧ ops' = ops ++ [.addColumn c]) ∨
        (ops' = ops ∧ (c = [] ∨ c ∈ clausesOf ops))) := by
  rcases h.addCases hl c with ⟨h0, e⟩ | ⟨h0, h1, e⟩ | ⟨h0, h1, e⟩
  · refine ⟨ops, ?_, Or.inr ⟨rfl, Or.inl h0⟩⟩
    rw [e]
    exact h.event rfl (by intros; simp)
  · refine ⟨ops, ?_, Or.inr ⟨rfl, Or.inr h1⟩⟩
    rw [e]
    exact h.event rfl (by intros; simp)
  · refine ⟨ops ++ [.addColumn c], ?_, Or.inl ⟨h0, h1, by rw [e], rfl⟩⟩
    rw [e]
    refine ⟨rfl, h.y, ?_, ?_, h.subs, ?_⟩
    · intro k hk
      rw [clausesOf_snoc_add, if_neg h1] at hk
      rcases List.mem_append.1 hk with hk | hk
      · exact h.proper k hk
      · rw [List.mem_singleton.1 hk]; exact hc
    · have := h.count
      rw [clausesOf_snoc_add, if_neg h1, List.length_append]
      simp [accPos, List.filterMap_append, List.filterMap_cons, accepted?] at this ⊢
      omega
    · intro l' i' d r hm
      rcases List.mem_append.1 hm with hm | hm
      · exact h.gens l' i' d r hm
      · simp at hm

theorem Core.ip {w : World Ω} {tr : Trace} {ops : List Op} (h : Core o C p kinds X py w tr ops) (f : Model → Answer) (ω : Ω) (q) :
    Core o C p kinds X py { w with
      master := (w.master.solveIp f).2
      ω := ω } (tr ++ [.solveIp q]) (ops ++ [.solveIp f]) := by
  have h' := h.event (e := .solveIp q) rfl (by intros; simp)
  exact ⟨by rw [after_snoc, step, h.master], h.y, by rw [clausesOf_snoc_ip]; exact h.proper, by rw [clausesOf_snoc_ip]; exact h'.count,
    h.subs, h'.gens⟩

/-! ## Consequences of the protocol -/

theorem generateMp_of_rmp {tr : Trace} (hp : Protocol cfg tr) {r} (hm : Ev.solveRmp r ∈ tr) : ∃ y, Ev.generateMp y (.ok ()) ∈ tr := by
  obtain ⟨pre, post, rfl⟩ := List.append_of_mem hm
  obtain ⟨⟨y, hy⟩, -⟩ := hp pre _ post rfl
  exact ⟨y, by simp [hy]⟩

theorem rmp_of_lastDuals {tr : Trace} {d} (h : lastDuals tr = some (.ok d)) : Ev.solveRmp (.ok d) ∈ tr := by
  have hm := List.mem_of_getLast? h
  obtain ⟨e, he, h2⟩ := List.mem_filterMap.1 hm
  cases e with
  | solveRmp r => simp only [rmp?, Option.some.injEq] at h2; rwa [← h2]
  | _ => simp [rmp?] at h2

theorem since_subset (f : Ev (ℚ × List ℚ) Clause → Bool) (tr : Trace) : ∀ e ∈ since f tr, e ∈ tr := by
  intro e he
  unfold since at he
  rw [List.mem_reverse] at he
  have := (List.takeWhile_prefix _).subset he
  simpa using this

theorem mem_of_genRes {tr : Trace} {l i cols} (h : ((round tr).filterMap genRes?).getLast? = some (l, i, .ok cols)) :
    ∃ d, Ev.generate l i d (.ok cols) ∈ round tr := by
  have hm := List.mem_of_getLast? h
  obtain ⟨e, he, h2⟩ := List.mem_filterMap.1 hm
  cases e with
  | generate l' i' d' r' =>
    simp only [genRes?, Option.some.injEq, Prod.mk.injEq] at h2
    obtain ⟨rfl, rfl, rfl⟩ := h2
    exact ⟨d', he⟩
  | _ => simp [genRes?] at h2

theorem kind_of_allowed {tr : Trace} {l i : ℕ} {d r} (hs : cfg.shape = kinds.map List.length)
    (h : Allowed cfg tr (.generate l i d r)) : ∃ k, kindAt kinds l i = some k := by
  have hm : (l, i) ∈ allPositions cfg.shape := h.2.2.1.subset (by simp)
  obtain ⟨n, h1, h2⟩ := (Fit.mem_allPositions _ _ _).1 hm
  rw [hs, List.getElem?_map] at h1
  cases hrow : kinds[l]? with
  | none => rw [hrow] at h1; simp at h1
  | some row =>
    rw [hrow] at h1
    simp only [Option.map_some, Option.some.injEq] at h1
    subst h1
    exact ⟨row[i], by simp [kindAt, hrow, h2]⟩

/-! ## The invariant without any assumption on the solvers -/

def InvA (o : Oracle Ω) (C p : ℚ) (kinds : List (List Kind)) (X : Data) (py : List ℕ) (w : World Ω) (tr : Trace) : Prop :=
  Fresh C p kinds w tr ∨ ∃ ops, Core o C p kinds X py w tr ops

theorem accPos_snoc_none {tr : Trace} {e : Ev (ℚ × List ℚ) Clause} (h : accepted? e = none) : accPos (tr ++ [e]) = accPos tr := by
  simp only [accPos, List.filterMap_append, List.filterMap_cons, h, List.filterMap_nil, List.append_nil]

theorem Fresh.event {w : World Ω} {tr : Trace} (h : Fresh C p kinds w tr) {e : Ev (ℚ × List ℚ) Clause} (h1 : accepted? e = none)
    (h2 : ∀ y r, e ≠ .generateMp y r) (h3 : ∀ l i d r, e ≠ .generate l i d r) : Fresh C p kinds w (tr ++ [e]) :=
  ⟨h.master, h.subs, fun y r hm => by
      rcases List.mem_append.1 hm with hm | hm
      · exact h.gen y r hm
      · exact h2 y r (List.mem_singleton.1 hm).symm,
    (accPos_snoc_none h1).trans h.acc,
    fun l i d r hm => by
      rcases List.mem_append.1 hm with hm | hm
      · exact h.gens l i d r hm
      · exact h3 l i d r (List.mem_singleton.1 hm).symm⟩

theorem Fresh.start {w : World Ω} {t : ℚ} (h : Fresh C p kinds w [.timer t]) :
    Core o C p kinds X py { w with
      master := w.master.generateMp X py
      y := py } [.timer t, .generateMp py (.ok ())] [] := by
  refine ⟨by rw [h.master]; rfl, rfl, ?_, ?_, ?_, ?_⟩
  · intro k hk
    simp [clausesOf] at hk
    subst hk
    exact ⟨List.Pairwise.nil, by simp⟩
  · simp [clausesOf, accPos, List.filterMap_cons, accepted?]
  · intro l i D hk
    exact ⟨[], by rw [show subAfter D X py [] = Sub.new D from rfl]; exact h.subs l i D hk⟩
  · intro l i d r hm
    simp at hm

theorem fresh_init (ω : Ω) : Fresh C p kinds (World.init C p kinds ω) ([] : Trace) := by
  refine ⟨rfl, ?_, by simp, rfl, by simp⟩
  intro l i D hk
  simp [World.init, hk]

theorem invA_guided (o : Oracle Ω) (C p : ℚ) (kinds : List (List Kind)) (X : Data) (py : List ℕ) (cfg : Fit.Config)
    (hs : cfg.shape = kinds.map List.length) (hl : py.length = X.rows.length) :
    Guided (env o X kinds) cfg py (InvA o C p kinds X py) where
  clock w tr h := by
    rcases h with h | ⟨ops, h⟩
    · exact Or.inl ⟨h.master, h.subs, h.gen, h.acc, h.gens⟩
    · exact Or.inr ⟨ops, h.clock _⟩
  timer w tr t _ h := by
    rcases h with h | ⟨ops, h⟩
    · exact Or.inl (h.event rfl (by intros; simp) (by intros; simp))
    · exact Or.inr ⟨ops, h.event rfl (by intros; simp)⟩
  check w tr s t _ h := by
    rcases h with h | ⟨ops, h⟩
    · exact Or.inl (h.event rfl (by intros; simp) (by intros; simp))
    · exact Or.inr ⟨ops, h.event rfl (by intros; simp)⟩
  flag w tr _ h := by
    rcases h with h | ⟨ops, h⟩
    · exact Or.inl (h.event rfl (by intros; simp) (by intros; simp))
    · exact Or.inr ⟨ops, h.event rfl (by intros; simp)⟩
  clear w tr h := h
  generateMp w t h := by
    rcases h with h | ⟨ops, h⟩
    · exact Or.inr ⟨[], h.start⟩
    · refine Or.inr ⟨ops, ?_⟩
      obtain ⟨hi, -⟩ := after_inv C p X py ops hl
      have hm : w.master.generateMp X py = w.master := by simp [Master.generateMp, h.master, hi.gen]
      have h' := h.event (e := .generateMp py (.ok ())) rfl (by intros; simp)
      exact ⟨by simpa [env, hm] using h'.master, rfl, h'.proper, h'.count, h'.subs, h'.gens⟩
  solveRmp w tr _ _ h := by
    rcases h with h | ⟨ops, h⟩
    · have h' := h.event (e := .solveRmp ((env o X kinds).solveRmp w).1) rfl (by intros; simp) (by intros; simp)
      exact Or.inl ⟨h'.master, h'.subs, h'.gen, h'.acc, h'.gens⟩
    · exact Or.inr ⟨ops, (h.event rfl (by intros; simp)).clock _⟩
  improved w tr _ _ h := by
    rcases h with h | ⟨ops, h⟩
    · exact Or.inl (h.event rfl (by intros; simp) (by intros; simp))
    · exact Or.inr ⟨ops, h.event rfl (by intros; simp)⟩
  update w tr l i d _ _ h := by
    rcases h with h | ⟨ops, h⟩
    · exact Or.inl (h.event rfl (by intros; simp) (by intros; simp))
    · exact Or.inr ⟨ops, h.event rfl (by intros; simp)⟩
  generate w tr l i d hp ha h := by
    rcases h with h | ⟨ops, h⟩
    · obtain ⟨y, hy⟩ := generateMp_of_rmp hp (rmp_of_lastDuals ha.1)
      exact absurd hy (h.gen _ _)
    · obtain ⟨k, hk⟩ := kind_of_allowed hs ha
      exact Or.inr ⟨ops, (h.generate l i d hk).1⟩
  add w tr l i c hp ha h := by
    obtain ⟨⟨cols, h1, h2⟩, -⟩ := ha
    obtain ⟨d, hd⟩ := mem_of_genRes h1
    have hd' := since_subset _ _ _ hd
    rcases h with h | ⟨ops, h⟩
    · exact absurd hd' (h.gens _ _ _ _)
    · obtain ⟨k, hk, hby⟩ := h.gens _ _ _ _ hd'
      have hc : c ∈ cols := h2.subset (by simp)
      obtain ⟨ops', h', -⟩ := h.add hl l i c (genBy_proper hby c hc)
      exact Or.inr ⟨ops', h'⟩
  solveIp w tr _ _ h := by
    rcases h with h | ⟨ops, h⟩
    · left
      have e : w.master.solveIp (fun m => (o.ip m w.ω).1) = (.error .assertionError, w.master) := by
        simp [Master.solveIp, h.master, Master.new]
      have h' := h.event (e := .solveIp (.error .assertionError)) rfl (by intros; simp) (by intros; simp)
      simp only [env, e]
      exact ⟨h'.master, h'.subs, h'.gen, h'.acc, h'.gens⟩
    · exact Or.inr ⟨_, h.ip _ _ _⟩

/-- Between two `fit` calls: the objects can be used for a further `fit` on the same data. -/
theorem InvA.again {w : World Ω} {tr : Trace} (h : InvA o C p kinds X py w tr) : InvA o C p kinds X py w [] := by
  rcases h with h | ⟨ops, h⟩
  · exact Or.inl ⟨h.master, h.subs, by simp, rfl, by simp⟩
  · refine Or.inr ⟨ops, h.master, h.y, h.proper, ?_, h.subs, by simp⟩
    have := List.length_pos_of_mem (nil_mem_clausesOf ops)
    simp [accPos]
    omega

/-- A list of different proper clauses over `n` features has at most `2^n` members. -/
theorem proper_bound (n : ℕ) (K : List Clause) (hn : K.Nodup) (hp : ∀ k ∈ K, Proper n k) : K.length ≤ 2 ^ n := by
  have hsub : K ⊆ (List.range n).sublists := by
    intro k hk
    exact List.mem_sublists.2 ((proper_iff_sublist n k).1 (hp k hk))
  have := (List.subperm_of_subset hn hsub).length_le
  rwa [List.length_sublists, List.length_range] at this

theorem InvA.bound {w : World Ω} {tr : Trace} (hl : py.length = X.rows.length) (h : InvA o C p kinds X py w tr) :
    (accPos tr).length ≤ 2 ^ X.nFeat - 1 := by
  rcases h with h | ⟨ops, h⟩
  · rw [h.acc]; simp
  · obtain ⟨hi, -⟩ := after_inv C p X py ops hl
    have := proper_bound X.nFeat _ hi.nodup h.proper
    have := h.count
    omega

end Verif.BDR
