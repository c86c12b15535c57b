import Verif.BDR.RuleProps

/-!
# C102: certified runs agree, whatever the solvers, the heuristics and the order of the data
-/

set_option linter.unusedSectionVars false
set_option linter.unusedSimpArgs false

namespace Verif.BDR

open MP Spec
open Fit.Spec
open Verif.Fit (Ev Guided Clean)

/-! ## Specification: one data set contains the other -/

/-- Labelled rows, seen through the features `ψ 0, .., ψ (n - 1)`, which are read as zero or not zero. -/
def Spec.views (n : ℕ) (ψ : ℕ → ℕ) (X : List (List ℚ)) (y : List ℕ) : List (List Bool × ℕ) :=
  (X.zip y).map (fun q => ((List.range n).map (fun j => decide (q.1.getD (ψ j) 0 ≠ 0)), q.2))

/-- The second data set has the same labelled rows as the first one, in any order and with any non-zero numbers in place of others, and its
feature `φ j` is feature `j` of the first one. It may have further features. -/
structure Spec.Contains (X1 : Data) (y1 : List ℕ) (X2 : Data) (y2 : List ℕ) (φ : ℕ → ℕ) : Prop where
  feats : ∀ j < X1.nFeat, φ j < X2.nFeat
  rows : (views X1.nFeat id X1.rows y1).Perm (views X1.nFeat φ X2.rows y2)

/-! ## Sizes of the clauses -/

/-- Largest clause that a pricing problem of this kind can return. -/
def Kind.size : Kind → ℚ
  | .heuristic K => K
  | .exact D => D

section sizes

variable {Ω : Type} {o : Oracle Ω} {C p S : ℚ} {kinds : List (List Kind)} {X : Data} {py : List ℕ} {cfg : Fit.Config}

theorem genBy_size (hb : Binary X.rows py) (hc : Contract o C p kinds X py) {l i : ℕ} {d : ℚ × List ℚ} {cols : List Clause} {k : Kind}
    (hk : kindAt kinds l i = some k) (h : GenBy o X py d (.ok cols) k) : ∀ c ∈ cols, (c.length : ℚ) ≤ k.size := by
  intro c hm
  cases k with
  | heuristic K =>
    have h : .ok cols = heuristicColumns K X py d := h
    have := (((C29_heuristic K X py d cols hb h.symm).1 c).1 hm).2.2.1
    change (c.length : ℚ) ≤ (K : ℚ)
    exact_mod_cast this
  | exact D =>
    obtain ⟨hist, ω, h⟩ := h
    rcases generateColumns_cases (subAfter_ok D X py hist) d (fun m => (o.mip m ω).1) with ⟨e, -⟩ | ⟨h1, h2, -, -⟩
    · rw [e] at h; cases h
    · exact (C26_sound D X py hist d _ cols hb h.symm (hc.mip l i D hk hist d ω h1 h2).2 c hm).2.1

/-- The invariant: all clauses of the master are small. -/
def InvS (o : Oracle Ω) (C p S : ℚ) (kinds : List (List Kind)) (X : Data) (py : List ℕ) (w : World Ω) (tr : Trace) : Prop :=
  InvB o C p kinds X py w tr ∧ ∀ k ∈ w.master.clauseDict.map (·.2), (k.length : ℚ) ≤ S

theorem solveIp_dict (s : Master) (f : Model → Answer) : (s.solveIp f).2.clauseDict = s.clauseDict := by
  unfold Master.solveIp
  split
  · rfl
  · dsimp only
    split
    · rfl
    · split <;> rfl

theorem generateAt_master (l i : ℕ) (d : ℚ × List ℚ) (w : World Ω) : (generateAt o X kinds l i d w).2.master = w.master := by
  unfold generateAt
  split <;> rfl

theorem addColumn_dict (s : Master) (c : Clause) :
    ∀ k ∈ (s.addColumn c).2.clauseDict.map (·.2), k ∈ s.clauseDict.map (·.2) ∨ k = c := by
  intro k hk
  unfold Master.addColumn at hk
  split at hk
  · exact Or.inl hk
  · split at hk
    · exact Or.inl hk
    · split at hk
      · exact Or.inl hk
      · dsimp only at hk
        split at hk
        all_goals
          simp only [List.map_append, List.map_cons, List.map_nil, List.mem_append, List.mem_singleton] at hk
          exact hk

theorem invS_guided (hs : cfg.shape = kinds.map List.length) (hb : Binary X.rows py) (hc : Contract o C p kinds X py) (hS : 0 ≤ S)
    (hsize : ∀ l i k, kindAt kinds l i = some k → k.size ≤ S) :
    Guided (env o X kinds) cfg py (InvS o C p S kinds X py) where
  clock w tr h := ⟨(invB_guided hs hb hc).clock w tr h.1, h.2⟩
  timer w tr t hp h := ⟨(invB_guided hs hb hc).timer w tr t hp h.1, h.2⟩
  check w tr s t hp h := ⟨(invB_guided hs hb hc).check w tr s t hp h.1, h.2⟩
  flag w tr hp h := ⟨(invB_guided hs hb hc).flag w tr hp h.1, h.2⟩
  clear w tr h := ⟨(invB_guided hs hb hc).clear w tr h.1, h.2⟩
  generateMp w t h := by
    refine ⟨(invB_guided hs hb hc).generateMp w t h.1, ?_⟩
    change ∀ k ∈ (w.master.generateMp X py).clauseDict.map (·.2), _
    rcases h.1 with hf | ⟨ops, hC, -⟩
    · have hm : w.master.generateMp X py = after C p X py [] := by rw [hf.master]; rfl
      obtain ⟨hi, -⟩ := after_inv C p X py [] hb.len
      rw [hm, hi.clauses]
      intro k hk
      simp [clausesOf] at hk
      rw [hk]
      simpa using hS
    · obtain ⟨hi, -⟩ := after_inv C p X py ops hb.len
      have hm : w.master.generateMp X py = w.master := by simp [Master.generateMp, hC.master, hi.gen]
      rw [hm]
      exact h.2
  solveRmp w tr hp ha h := ⟨(invB_guided hs hb hc).solveRmp w tr hp ha h.1, h.2⟩
  improved w tr hp ha h := ⟨(invB_guided hs hb hc).improved w tr hp ha h.1, h.2⟩
  update w tr l i d hp ha h := ⟨(invB_guided hs hb hc).update w tr l i d hp ha h.1, h.2⟩
  generate w tr l i d hp ha h := by
    refine ⟨(invB_guided hs hb hc).generate w tr l i d hp ha h.1, ?_⟩
    change ∀ k ∈ (generateAt o X kinds l i d w).2.master.clauseDict.map (·.2), _
    rw [generateAt_master]
    exact h.2
  add w tr l i c hp ha h := by
    refine ⟨(invB_guided hs hb hc).add w tr l i c hp ha h.1, ?_⟩
    change ∀ k ∈ (w.master.addColumn c).2.clauseDict.map (·.2), _
    intro k hk
    rcases addColumn_dict _ _ k hk with hk | rfl
    · exact h.2 k hk
    · obtain ⟨⟨cols, h1, h2⟩, -⟩ := ha
      obtain ⟨d, hd⟩ := mem_of_genRes h1
      have hd' := since_subset _ _ _ hd
      have hm : k ∈ cols := h2.subset (by simp)
      rcases h.1 with hf | ⟨ops, hC, -⟩
      · exact absurd hd' (hf.gens _ _ _ _)
      · obtain ⟨q, hq, hby⟩ := hC.gens _ _ _ _ hd'
        exact le_trans (genBy_size hb hc hq hby k hm) (hsize l i q hq)
  solveIp w tr hp ha h := by
    refine ⟨(invB_guided hs hb hc).solveIp w tr hp ha h.1, ?_⟩
    change ∀ k ∈ (w.master.solveIp (fun m => (o.ip m w.ω).1)).2.clauseDict.map (·.2), _
    rw [solveIp_dict]
    exact h.2

end sizes

variable {Ω Ω' : Type} {o : Oracle Ω} {o' : Oracle Ω'} {C C' p p' : ℚ} {kinds kinds' : List (List Kind)} {X X' : Data} {y y' : List ℤ}
  {maxIt maxIt' : ℤ} {limit limit' : ℚ} {fuel fuel' : ℕ} {e0 e0' : Fit.Est} {ω0 : Ω} {ω0' : Ω'}

/-- C102, sizes: however `fit` ends, the clauses of the master are proper clauses over the features of the data, and none is larger than the
pricing problems allow. -/
theorem C102_sizes (hl : y.length = X.rows.length) (h2 : (Sk.uniqueLabels y).length ≤ 2) (hc : Contract o C p kinds X (encoded y)) {S : ℚ}
    (hS : 0 ≤ S) (hsize : ∀ l i k, kindAt kinds l i = some k → k.size ≤ S) {r}
    (hr : fitNew o C p kinds maxIt limit X fuel y e0 ω0 = some r) :
    ∀ k ∈ r.2.world.master.clauseDict.map (·.2), Proper X.nFeat k ∧ (k.length : ℚ) ≤ S := by
  have hb := encoded_binary hl h2
  have h := (invS_guided (S := S) rfl hb hc hS hsize).fit (e0 := e0) ⟨Or.inl (fresh_init ω0), by
    intro k hk
    simp [World.init, Master.new] at hk⟩ hr
  intro k hk
  refine ⟨?_, h.2 k hk⟩
  rcases h.1 with hf | ⟨ops, hC, -⟩
  · rw [hf.master] at hk
    simp [Master.new] at hk
  · obtain ⟨hi, -⟩ := after_inv C p X (encoded y) ops hb.len
    rw [hC.master, hi.clauses] at hk
    exact hC.proper k hk

/-! ## The program in terms of the rows -/

/-- The value of clause weights with the smallest slacks. -/
def best (X : List (List ℚ)) (y : List ℕ) (p : ℚ) (K : List Clause) (w : ℕ → ℚ) : ℚ :=
  p * ((pos X y).map (fun r => max 0 (1 - covered K w r))).sum +
    ∑ j ∈ Finset.range K.length, (numSat (neg X y) (K.getD j []) : ℚ) * w j

theorem sum_range_getD' {α : Type} (L : List α) (a : α) (f : α → ℚ) : ∑ i ∈ Finset.range L.length, f (L.getD i a) = (L.map f).sum := by
  induction L with
  | nil => simp
  | cons k L ih =>
    rw [List.length_cons, Finset.sum_range_succ', List.map_cons, List.sum_cons, ← ih]
    simp only [List.getD_cons_succ, List.getD_cons_zero]
    ring

theorem best_le {rows : List (List ℚ)} {py : List ℕ} {K : List Clause} {xi w : ℕ → ℚ} (hf : Feasible rows py C K xi w) (hp : 0 ≤ p') (hpp : p' ≤ p) :
    best rows py p' K w ≤ objective rows py p K xi w := by
  unfold best objective
  have h1 : ((pos rows py).map (fun r => max 0 (1 - covered K w r))).sum ≤ ∑ i ∈ Finset.range (pos rows py).length, xi i := by
    rw [← sum_range_getD' _ []]
    refine Finset.sum_le_sum ?_
    intro i hi
    have hi := Finset.mem_range.1 hi
    have hs := hf.sat i _ (List.getElem?_eq_getElem hi)
    rw [List.getD_eq_getElem _ _ hi]
    exact max_le (hf.xi_nonneg i hi) (by linarith)
  have h2 : 0 ≤ ∑ i ∈ Finset.range (pos rows py).length, xi i := Finset.sum_nonneg (fun i hi => hf.xi_nonneg i (Finset.mem_range.1 hi))
  have h3 : p' * ((pos rows py).map (fun r => max 0 (1 - covered K w r))).sum ≤ p * ∑ i ∈ Finset.range (pos rows py).length, xi i :=
    le_trans (mul_le_mul_of_nonneg_left h1 hp) (mul_le_mul_of_nonneg_right hpp h2)
  linarith

theorem best_point {rows : List (List ℚ)} {py : List ℕ} {K : List Clause} {w : ℕ → ℚ} (hw : ∀ j < K.length, 0 ≤ w j) (hcomp : complexity K w ≤ C) :
    Feasible rows py C K (fun i => max 0 (1 - covered K w ((pos rows py).getD i []))) w ∧
    objective rows py p K (fun i => max 0 (1 - covered K w ((pos rows py).getD i []))) w = best rows py p K w := by
  refine ⟨⟨fun i _ => le_max_left _ _, hw, ?_, hcomp⟩, ?_⟩
  · intro i r hi
    have e : (pos rows py).getD i [] = r := by rw [List.getD_eq_getElem?_getD, hi]; rfl
    simp only [e]
    have := le_max_right 0 (1 - covered K w r)
    linarith
  · unfold objective best
    rw [sum_range_getD' (pos rows py) [] (fun r => max 0 (1 - covered K w r))]

/-! ## Comparison through the views -/

/-- A clause on a view. -/
def satView (v : List Bool) (k : Clause) : Bool := k.all (fun j => v.getD j false)

theorem satView_iff {n : ℕ} {ψ : ℕ → ℕ} {r : List ℚ} {k : Clause} (hk : ∀ j ∈ k, j < n) :
    satView ((List.range n).map (fun j => decide (r.getD (ψ j) 0 ≠ 0))) k = true ↔ Sat r (k.map ψ) := by
  unfold satView Sat
  rw [List.all_eq_true]
  constructor
  · intro h j hj
    obtain ⟨i, hi, rfl⟩ := List.mem_map.1 hj
    have := h i hi
    simpa [List.getD_eq_getElem?_getD, hk i hi] using this
  · intro h i hi
    have := h (ψ i) (List.mem_map.2 ⟨i, hi, rfl⟩)
    simpa [List.getD_eq_getElem?_getD, hk i hi] using this

/-- `covered` on a view. -/
def coveredView (K : List Clause) (w : ℕ → ℚ) (v : List Bool) : ℚ :=
  ∑ j ∈ Finset.range K.length, if satView v (K.getD j []) then w j else 0

/-- `best` on views. -/
def bestView (V : List (List Bool × ℕ)) (p : ℚ) (K : List Clause) (w : ℕ → ℚ) : ℚ :=
  p * ((V.filter (fun q => decide (q.2 = 1))).map (fun q => max 0 (1 - coveredView K w q.1))).sum +
    ∑ j ∈ Finset.range K.length, (((V.filter (fun q => decide (q.2 = 0))).countP (fun q => satView q.1 (K.getD j [])) : ℕ) : ℚ) * w j

theorem bestView_perm {V V' : List (List Bool × ℕ)} (h : V.Perm V') (K : List Clause) (w : ℕ → ℚ) : bestView V p K w = bestView V' p K w := by
  unfold bestView
  rw [((h.filter _).map _).sum_eq]
  congr 1
  refine Finset.sum_congr rfl ?_
  intro j _
  rw [(h.filter _).countP_eq]

theorem getD_map_clause (K : List Clause) (ψ : ℕ → ℕ) (j : ℕ) : (K.map (fun k => k.map ψ)).getD j [] = (K.getD j []).map ψ := by
  rw [List.getD_eq_getElem?_getD, List.getD_eq_getElem?_getD, List.getElem?_map]
  cases K[j]? <;> rfl

theorem best_view {n : ℕ} {ψ : ℕ → ℕ} {rows : List (List ℚ)} {py : List ℕ} {K : List Clause} (hK : ∀ k ∈ K, ∀ j ∈ k, j < n) (w : ℕ → ℚ) :
    best rows py p (K.map (fun k => k.map ψ)) w = bestView (views n ψ rows py) p K w := by
  have hk : ∀ j, ∀ i ∈ K.getD j [], i < n := by
    intro j i hi
    rw [List.getD_eq_getElem?_getD] at hi
    cases h : K[j]? with
    | none => rw [h] at hi; simp at hi
    | some k => rw [h] at hi; exact hK k (List.mem_of_getElem? h) i hi
  have hcov : ∀ r : List ℚ, covered (K.map (fun k => k.map ψ)) w r =
      coveredView K w ((List.range n).map (fun j => decide (r.getD (ψ j) 0 ≠ 0))) := by
    intro r
    unfold covered coveredView
    rw [List.length_map]
    refine Finset.sum_congr rfl ?_
    intro j _
    rw [getD_map_clause]
    by_cases h : Sat r ((K.getD j []).map ψ)
    · rw [if_pos h, if_pos ((satView_iff (hk j)).2 h)]
    · rw [if_neg h, if_neg (fun h' => h ((satView_iff (hk j)).1 h'))]
  unfold best bestView views pos neg numSat
  rw [List.length_map]
  congr 1
  · congr 2
    rw [List.filter_map, List.map_map, List.map_map]
    refine List.map_congr_left ?_
    intro q _
    simp only [Function.comp_apply, hcov]
  · refine Finset.sum_congr rfl ?_
    intro j _
    congr 2
    rw [List.filter_map, List.countP_map, List.countP_map, getD_map_clause]
    refine List.countP_congr ?_
    intro q _
    simp only [Function.comp_apply, decide_eq_true_eq]
    exact (satView_iff (hk j)).symm

theorem complexity_map (K : List Clause) (ψ : ℕ → ℕ) (w : ℕ → ℚ) : complexity (K.map (fun k => k.map ψ)) w = complexity K w := by
  unfold complexity
  rw [List.length_map]
  refine Finset.sum_congr rfl ?_
  intro j _
  rw [getD_map_clause, List.length_map]

/-- A point of the program of one data set is a point of the program of a larger one, with the same value. -/
theorem transfer {py py' : List ℕ} {φ : ℕ → ℕ} (hD : Contains X py X' py' φ) {K : List Clause} (hK : ∀ k ∈ K, ∀ j ∈ k, j < X.nFeat)
    {xi w : ℕ → ℚ} (hf : Feasible X.rows py C K xi w) (hC : C ≤ C') (hp : 0 ≤ p') (hpp : p' ≤ p) :
    ∃ xi', Feasible X'.rows py' C' (K.map (fun k => k.map φ)) xi' w ∧
      objective X'.rows py' p' (K.map (fun k => k.map φ)) xi' w ≤ objective X.rows py p K xi w := by
  obtain ⟨h1, h2⟩ := best_point (C := C') (p := p') (rows := X'.rows) (py := py') (K := K.map (fun k => k.map φ)) (w := w)
    (by rw [List.length_map]; exact hf.w_nonneg) (by rw [complexity_map]; exact le_trans hf.comp hC)
  refine ⟨_, h1, ?_⟩
  rw [h2, best_view (n := X.nFeat) hK, ← bestView_perm hD.rows, ← best_view hK]
  simp only [List.map_id_fun, id_eq, List.map_id_fun']
  simpa using best_le hf hp hpp

/-- C102: a certified run is as good as any other run. Let one call of `fit` on data `X'`, `y'` end with `mp_optimal_`, with optimal LP and
pricing answers. Then the LP value of its final master is, up to `1e-6 * C'`, at most the LP value of the final master of every other call of
`fit` that returned, certified or not, with other solvers, pricing levels, limits and clocks, on the same data or the same data in another
order or with fewer features, with a complexity bound that is not larger and a weight of missed rows that is not smaller. -/
theorem C102_compare {φ : ℕ → ℕ}
    -- the certified run
    (hl' : y'.length = X'.rows.length) (h2' : (Sk.uniqueLabels y').length ≤ 2) (hc' : Contract o' C' p' kinds' X' (encoded y'))
    (hex' : ∃ l i, kindAt kinds' l i = some (.exact C'))
    (hopt' : ∀ hist d ω, 0 ≤ d.1 → (∀ x ∈ d.2, 0 ≤ x) →
      IsOptimal (pricingModel C' X' (encoded y') hist d) (o'.mip (pricingModel C' X' (encoded y') hist d) ω).1) {u' : Unit} {s'}
    (hr' : fitNew o' C' p' kinds' maxIt' limit' X' fuel' y' e0' ω0' = some (.ok u', s')) (ho' : s'.est.mpOptimal = true)
    (hlp' : ∀ ω, IsOptimalLP s'.world.master.solver (o'.lp s'.world.master.solver ω).1)
    (hdual' : ∀ ω, DualFeasible s'.world.master.solver 0 (o'.lp s'.world.master.solver ω).1.duals)
    (hstrong' : ∀ ω, (o'.lp s'.world.master.solver ω).1.objective =
      s'.world.master.solver.dualValue (o'.lp s'.world.master.solver ω).1.duals)
    -- the other run
    (hl : y.length = X.rows.length) (h2 : (Sk.uniqueLabels y).length ≤ 2) (hc : Contract o C p kinds X (encoded y))
    (hC0 : 0 ≤ C) (hsize : ∀ l i k, kindAt kinds l i = some k → k.size ≤ C) {u : Unit} {s}
    (hr : fitNew o C p kinds maxIt limit X fuel y e0 ω0 = some (.ok u, s))
    (hlp : ∀ ω, IsOptimalLP s.world.master.solver (o.lp s.world.master.solver ω).1)
    -- the second data set contains the first
    (hD : Contains X (encoded y) X' (encoded y') φ) (hC : C ≤ C') (hp : 0 ≤ p') (hpp : p' ≤ p) (ω : Ω) (ω' : Ω') :
    (o'.lp s'.world.master.solver ω').1.objective ≤ (o.lp s.world.master.solver ω).1.objective + 1 / 1000000 * C' := by
  obtain ⟨ω1, d, -, -, hbound⟩ := C31_fit hl' h2' hc' hex' hopt' hr' ho' hdual' hstrong'
  have hb := encoded_binary hl h2
  have hb' := encoded_binary hl' h2'
  -- the two answers of the certified run agree
  have hmin' : s'.world.master.solver.maximize = false := by
    rcases fit_invB (Or.inl (fresh_init ω0')) hl' h2' hc' hr' with h | ⟨ops, hCr, -⟩
    · rw [h.master]; rfl
    · obtain ⟨hi, -⟩ := after_inv C' p' X' (encoded y') ops hb'.len
      rw [hCr.master]; exact hi.max
  have hsame : (o'.lp s'.world.master.solver ω').1.objective ≤ (o'.lp s'.world.master.solver ω1).1.objective := by
    have h1 := (hlp' ω').2.2 _ (hlp' ω1).1
    rw [← (hlp' ω1).2.1] at h1
    unfold Model.better at h1
    rw [hmin'] at h1
    exact h1
  have hsizes := C102_sizes hl h2 hc hC0 hsize hr
  -- the point of the other run
  rcases fit_invB (Or.inl (fresh_init ω0)) hl h2 hc hr with h | ⟨ops, hCr, -⟩
  · exfalso
    have hgt : ¬ (Sk.uniqueLabels y).length ≤ 1 := by
      intro h1
      obtain ⟨s2, e, -⟩ := (Fit.C09_single_class (env o X kinds) (config kinds maxIt limit) fuel y e0 (World.init C p kinds ω0)).1
        (Fit.uniqueLabels_length_le_iff.1 h1)
      unfold fitNew at hr
      rw [e] at hr
      cases hr
    have hpre := Fit.fit_trace_prefix hgt hr
    exact h.gen (encoded y) (.ok ()) (hpre.subset (by simp [env]))
  · obtain ⟨hi, -⟩ := after_inv C p X (encoded y) ops hb.len
    have hcl : ∀ k ∈ clausesOf ops, Proper X.nFeat k ∧ (k.length : ℚ) ≤ C := by
      intro k hk
      refine hsizes k ?_
      change k ∈ s.world.master.clauseDict.map (·.2)
      rw [hCr.master, hi.clauses]
      exact hk
    obtain ⟨hf1, hv1⟩ := hlp ω
    have hm := C22_master C p X (encoded y) ops hb (o.lp s.world.master.solver ω).1.values
    rw [← hCr.master] at hm
    have hfeas := hm.1.1 hf1
    obtain ⟨xi', hf', hle⟩ := transfer hD (fun k hk => (hcl k hk).1.2) hfeas hC hp hpp
    have hb3 := hbound _ xi' _ (by
      intro k hk
      obtain ⟨k0, hk0, rfl⟩ := List.mem_map.1 hk
      refine ⟨?_, ?_⟩
      · intro j hj
        obtain ⟨j0, hj0, rfl⟩ := List.mem_map.1 hj
        exact hD.feats j0 ((hcl k0 hk0).1.2 j0 hj0)
      · have h3 : ((k0.map φ).dedup.length : ℚ) ≤ (k0.length : ℚ) := by
          have := (List.dedup_sublist (k0.map φ)).length_le
          rw [List.length_map] at this
          exact_mod_cast this
        exact le_trans h3 (le_trans (hcl k0 hk0).2 hC)) hf'
    have hv : (o.lp s.world.master.solver ω).1.objective = _ := hv1.1.trans hm.2.1
    linarith

theorem contains_symm {py py' : List ℕ} (h : Contains X py X' py' id) (hn : X'.nFeat = X.nFeat) : Contains X' py' X py id :=
  ⟨fun j hj => by rw [← hn]; exact hj, by rw [hn]; exact h.rows.symm⟩

/-- C102: two certified runs with the same parameters, on the same labelled rows in any order, end with the same LP value up to `1e-6 * C`,
whatever the solvers, pricing levels, limits and clocks are. -/
theorem C102_agree
    (hl : y.length = X.rows.length) (h2 : (Sk.uniqueLabels y).length ≤ 2) (hc : Contract o C p kinds X (encoded y))
    (hex : ∃ l i, kindAt kinds l i = some (.exact C)) (hsize : ∀ l i k, kindAt kinds l i = some k → k.size ≤ C)
    (hopt : ∀ hist d ω, 0 ≤ d.1 → (∀ x ∈ d.2, 0 ≤ x) →
      IsOptimal (pricingModel C X (encoded y) hist d) (o.mip (pricingModel C X (encoded y) hist d) ω).1) {u : Unit} {s}
    (hr : fitNew o C p kinds maxIt limit X fuel y e0 ω0 = some (.ok u, s)) (ho : s.est.mpOptimal = true)
    (hlp : ∀ ω, IsOptimalLP s.world.master.solver (o.lp s.world.master.solver ω).1)
    (hdual : ∀ ω, DualFeasible s.world.master.solver 0 (o.lp s.world.master.solver ω).1.duals)
    (hstrong : ∀ ω, (o.lp s.world.master.solver ω).1.objective = s.world.master.solver.dualValue (o.lp s.world.master.solver ω).1.duals)
    (hl' : y'.length = X'.rows.length) (h2' : (Sk.uniqueLabels y').length ≤ 2) (hc' : Contract o' C p kinds' X' (encoded y'))
    (hex' : ∃ l i, kindAt kinds' l i = some (.exact C)) (hsize' : ∀ l i k, kindAt kinds' l i = some k → k.size ≤ C)
    (hopt' : ∀ hist d ω, 0 ≤ d.1 → (∀ x ∈ d.2, 0 ≤ x) →
      IsOptimal (pricingModel C X' (encoded y') hist d) (o'.mip (pricingModel C X' (encoded y') hist d) ω).1) {u' : Unit} {s'}
    (hr' : fitNew o' C p kinds' maxIt' limit' X' fuel' y' e0' ω0' = some (.ok u', s')) (ho' : s'.est.mpOptimal = true)
    (hlp' : ∀ ω, IsOptimalLP s'.world.master.solver (o'.lp s'.world.master.solver ω).1)
    (hdual' : ∀ ω, DualFeasible s'.world.master.solver 0 (o'.lp s'.world.master.solver ω).1.duals)
    (hstrong' : ∀ ω, (o'.lp s'.world.master.solver ω).1.objective =
      s'.world.master.solver.dualValue (o'.lp s'.world.master.solver ω).1.duals)
    (hD : Contains X (encoded y) X' (encoded y') id) (hn : X'.nFeat = X.nFeat) (hC : 0 ≤ C) (hp : 0 ≤ p) (ω : Ω) (ω' : Ω') :
    |(o'.lp s'.world.master.solver ω').1.objective - (o.lp s.world.master.solver ω).1.objective| ≤ 1 / 1000000 * C := by
  have h1 := C102_compare hl' h2' hc' hex' hopt' hr' ho' hlp' hdual' hstrong' hl h2 hc hC hsize hr hlp hD (le_refl C) hp (le_refl p) ω ω'
  have h3 := C102_compare hl h2 hc hex hopt hr ho hlp hdual hstrong hl' h2' hc' hC hsize' hr' hlp' (contains_symm hD hn) (le_refl C) hp (le_refl p) ω' ω
  rw [abs_le]
  constructor <;> linarith

/-! ## Exact solvers -/

/-- The answers of exact solvers on the final master. -/
theorem exact_final (clock : Ω → ℚ × Ω) {maxIt : ℤ} {limit : ℚ} {fuel : ℕ} {e0 : Fit.Est} {ω0 : Ω} (hl : y.length = X.rows.length)
    (h2 : (Sk.uniqueLabels y).length ≤ 2) (hC : 0 ≤ C) (hp : 0 ≤ p) {u : Unit} {s}
    (hr : fitNew (exact clock) C p kinds maxIt limit X fuel y e0 ω0 = some (.ok u, s)) (ω : Ω) :
    IsOptimalLP s.world.master.solver ((exact clock).lp s.world.master.solver ω).1 ∧
    DualFeasible s.world.master.solver 0 ((exact clock).lp s.world.master.solver ω).1.duals ∧
    ((exact clock).lp s.world.master.solver ω).1.objective = s.world.master.solver.dualValue ((exact clock).lp s.world.master.solver ω).1.duals := by
  obtain ⟨ops, hm⟩ := final_master hl hr
  have h := (exact_master (X := X) (encoded_binary hl h2) hC hp ops).1.2
  rw [hm]
  exact h

/-- C102 for exact solvers: without limits, two runs on two classes both return with `mp_optimal_`, and their LP values agree up to `1e-6 * C`,
whatever the clocks and the pricing levels are (as long as one of them is exact and none allows clauses larger than `C`) and whatever the order
of the rows is. -/
theorem C102_exact (clock : Ω → ℚ × Ω) (clock' : Ω' → ℚ × Ω') (maxIt maxIt' : ℤ) (limit limit' : ℚ) (e0 e0' : Fit.Est) (ω0 : Ω) (ω0' : Ω')
    (hl : y.length = X.rows.length) (h2 : (Sk.uniqueLabels y).length = 2) (hl' : y'.length = X'.rows.length) (h2' : (Sk.uniqueLabels y').length = 2)
    (hC : 0 ≤ C) (hp : 0 ≤ p)
    (hk : ∀ l i D, kindAt kinds l i = some (.exact D) → 0 ≤ D) (hk' : ∀ l i D, kindAt kinds' l i = some (.exact D) → 0 ≤ D)
    (hex : ∃ l i, kindAt kinds l i = some (.exact C)) (hsize : ∀ l i k, kindAt kinds l i = some k → k.size ≤ C)
    (hex' : ∃ l i, kindAt kinds' l i = some (.exact C)) (hsize' : ∀ l i k, kindAt kinds' l i = some k → k.size ≤ C)
    (hm : maxIt ≤ 0) (ht : limit ≤ 0) (hm' : maxIt' ≤ 0) (ht' : limit' ≤ 0)
    (hD : Contains X (encoded y) X' (encoded y') id) (hn : X'.nFeat = X.nFeat) :
    ∃ s s', fitNew (exact clock) C p kinds maxIt limit X (2 ^ X.nFeat) y e0 ω0 = some (.ok (), s) ∧ s.est.mpOptimal = true ∧
      fitNew (exact clock') C p kinds' maxIt' limit' X' (2 ^ X'.nFeat) y' e0' ω0' = some (.ok (), s') ∧ s'.est.mpOptimal = true ∧
      |(exactLp s'.world.master.solver).objective - (exactLp s.world.master.solver).objective| ≤ 1 / 1000000 * C := by
  obtain ⟨s, hr, ho⟩ := C66_exact_optimal (e0 := e0) (ω0 := ω0) clock hl h2 hC hp hk hm ht
  obtain ⟨s', hr', ho'⟩ := C66_exact_optimal (e0 := e0') (ω0 := ω0') clock' hl' h2' hC hp hk' hm' ht'
  have hb := encoded_binary hl (le_of_eq h2)
  have hb' := encoded_binary hl' (le_of_eq h2')
  have hE := exact_exact clock (kinds := kinds) hb hC hp hk
  have hE' := exact_exact clock' (kinds := kinds') hb' hC hp hk'
  have hf := exact_final clock hl (le_of_eq h2) hC hp hr
  have hf' := exact_final clock' hl' (le_of_eq h2') hC hp hr'
  refine ⟨s, s', hr, ho, hr', ho', ?_⟩
  exact C102_agree hl (le_of_eq h2) hE.contract hex hsize hE.mip hr ho (fun ω => (hf ω).1) (fun ω => (hf ω).2.1) (fun ω => (hf ω).2.2)
    hl' (le_of_eq h2') hE'.contract hex' hsize' hE'.mip hr' ho' (fun ω => (hf' ω).1) (fun ω => (hf' ω).2.1) (fun ω => (hf' ω).2.2)
    hD hn hC hp ω0 ω0'

end Verif.BDR
