import Verif.BDR.FitContract

/-!
# Properties C30 - C32, C66, C67 of `fit` on the Boolean decision rule plug-ins
-/

set_option linter.unusedSectionVars false
set_option linter.unusedSimpArgs false

namespace Verif.BDR

open MP Spec
open Fit.Spec
open Verif.Fit (Ev Guided Clean)

variable {Ω : Type} {o : Oracle Ω} {C p : ℚ} {kinds : List (List Kind)} {X : Data} {y : List ℤ} {maxIt : ℤ} {limit : ℚ} {fuel : ℕ}
  {e0 : Fit.Est} {ω0 : Ω} {w0 : World Ω}

/-- The labels after `LabelEncoder`. -/
abbrev encoded (y : List ℤ) : List ℕ := Sk.transform (Sk.uniqueLabels y) y

theorem encoded_length (y : List ℤ) : (encoded y).length = y.length := by simp [Sk.transform]

/-- With at most two classes the encoded labels are binary. -/
theorem encoded_binary {X : Data} {y : List ℤ} (hl : y.length = X.rows.length) (h2 : (Sk.uniqueLabels y).length ≤ 2) :
    Binary X.rows (encoded y) := by
  refine ⟨by rw [encoded_length, hl], ?_⟩
  intro v hv
  obtain ⟨a, ha, rfl⟩ := List.mem_map.1 hv
  have := List.idxOf_lt_length_of_mem ((Sk.mem_uniqueLabels y a).2 ha)
  omega

/-! ## C32 -/

/-- C32 for a further `fit`: the objects may have been used for `fit` on the same data before. -/
theorem terminates_from (o : Oracle Ω) (C p : ℚ) (kinds : List (List Kind)) (maxIt : ℤ) (limit : ℚ) (X : Data) (y : List ℤ) (e0 : Fit.Est)
    (w0 : World Ω) (hw : InvA o C p kinds X (encoded y) w0 []) (hl : y.length = X.rows.length) :
    ∃ r, Fit.fit (env o X kinds) (config kinds maxIt limit) (2 ^ X.nFeat) y e0 w0 = some r ∧ numRmp r.2.trace ≤ 2 ^ X.nFeat ∧
      (accPos r.2.trace).length ≤ 2 ^ X.nFeat - 1 := by
  have hl' : (encoded y).length = X.rows.length := by rw [encoded_length, hl]
  have hG := invA_guided o C p kinds X (encoded y) (config kinds maxIt limit) rfl hl'
  have hpos : 0 < 2 ^ X.nFeat := Nat.two_pow_pos _
  obtain ⟨r, hr⟩ := hG.terminates (e0 := e0) hw (2 ^ X.nFeat - 1) (fun w tr _ h => h.bound hl')
  rw [Nat.sub_add_cancel hpos] at hr
  have hb := (hG.fit hw hr).bound hl'
  refine ⟨r, hr, ?_, hb⟩
  have := (Fit.numRmp_le r.2.trace (Fit.fit_protocol hr)).1
  omega

/-- C32: whatever the solvers and the clock answer and whatever the limits are, `fit` of a new Boolean decision rule classifier (with any
combination of heuristic and exact pricing levels) ends, and solves the restricted master at most `2^n` times (`n` features). -/
theorem C32_terminates (o : Oracle Ω) (C p : ℚ) (kinds : List (List Kind)) (maxIt : ℤ) (limit : ℚ) (X : Data) (y : List ℤ) (e0 : Fit.Est)
    (ω : Ω) (hl : y.length = X.rows.length) :
    ∃ r, fitNew o C p kinds maxIt limit X (2 ^ X.nFeat) y e0 ω = some r ∧ numRmp r.2.trace ≤ 2 ^ X.nFeat ∧
      (accPos r.2.trace).length ≤ 2 ^ X.nFeat - 1 :=
  terminates_from o C p kinds maxIt limit X y e0 _ (Or.inl (fresh_init ω)) hl

/-! ## C30, C66 under the solvers' contracts -/

theorem fit_invB (hw : InvA o C p kinds X (encoded y) w0 []) (hl : y.length = X.rows.length) (h2 : (Sk.uniqueLabels y).length ≤ 2)
    (hc : Contract o C p kinds X (encoded y)) {r} (hr : Fit.fit (env o X kinds) (config kinds maxIt limit) fuel y e0 w0 = some r) :
    InvB o C p kinds X (encoded y) r.2.world r.2.trace :=
  (invB_guided rfl (encoded_binary hl h2) hc).fit hw.start hr

/-- C30 for a further `fit`. -/
theorem adds_from (hw : InvA o C p kinds X (encoded y) w0 []) (hl : y.length = X.rows.length) (h2 : (Sk.uniqueLabels y).length ≤ 2) (hc : Contract o C p kinds X (encoded y)) {r}
    (hr : Fit.fit (env o X kinds) (config kinds maxIt limit) fuel y e0 w0 = some r) :
    ∀ l i c q, Ev.add l i c q ∈ r.2.trace → q = .ok true := by
  intro l i c q hm
  rcases fit_invB hw hl h2 hc hr with h | ⟨ops, -, hB⟩
  · exfalso
    obtain ⟨pre, post, htr⟩ := List.append_of_mem hm
    obtain ⟨⟨cols, h1, -⟩, -⟩ := Fit.fit_protocol hr pre _ post htr
    obtain ⟨d, hd⟩ := mem_of_genRes h1
    exact h.gens l i d (.ok cols) (by rw [htr]; simp [since_subset _ _ _ hd])
  · exact hB.adds l i c q hm

/-- C30: in a run with two classes every `add_column` call gets a clause that the master does not contain yet: it returns `True` (the
duplicate assertion never fires, no column is rejected). -/
theorem C30_fit (hl : y.length = X.rows.length) (h2 : (Sk.uniqueLabels y).length ≤ 2) (hc : Contract o C p kinds X (encoded y)) {r}
    (hr : fitNew o C p kinds maxIt limit X fuel y e0 ω0 = some r) :
    ∀ l i c q, Ev.add l i c q ∈ r.2.trace → q = .ok true :=
  adds_from (Or.inl (fresh_init _)) hl h2 hc hr

/-- C66 for a further `fit`. -/
theorem returns_from (o : Oracle Ω) (C p : ℚ) (kinds : List (List Kind)) (maxIt : ℤ) (limit : ℚ) (X : Data) (y : List ℤ) (e0 : Fit.Est)
    (w0 : World Ω) (hw : InvA o C p kinds X (encoded y) w0 []) (hl : y.length = X.rows.length) (h2 : (Sk.uniqueLabels y).length = 2)
    (hc : Contract o C p kinds X (encoded y)) :
    ∃ s, Fit.fit (env o X kinds) (config kinds maxIt limit) (2 ^ X.nFeat) y e0 w0 = some (.ok (), s) ∧ s.est.isFitted = true := by
  obtain ⟨⟨res, s⟩, hr, -⟩ := terminates_from o C p kinds maxIt limit X y e0 w0 hw hl
  cases res with
  | ok u => exact ⟨s, hr, (Fit.C10_returns hr).1⟩
  | error er =>
    exfalso
    have hI := fit_invB hw hl (le_of_eq h2) hc hr
    have hc' : ¬ (Sk.uniqueLabels y).length ≤ 1 := by omega
    have hpre := Fit.fit_trace_prefix hc' hr
    rcases hI with h | ⟨ops, -, hB⟩
    · exact h.gen (encoded y) (.ok ()) (hpre.subset (by simp [env]))
    · rcases Fit.C64_exceptions hr with ⟨h1, -⟩ | ⟨pre, ev, h1, h3⟩ | ⟨-, pre, h1⟩
      · exact hc' (Fit.uniqueLabels_length_le_iff.2 h1)
      · have := hB.clean ev (by rw [h1]; simp)
        rw [this] at h3; cases h3
      · have := hB.ips (.ok false) (by rw [h1]; simp)
        cases this

/-- C66: with two classes and solvers that keep their contracts `fit` returns normally, whatever the limits are; it never raises. -/
theorem C66_fit_returns (o : Oracle Ω) (C p : ℚ) (kinds : List (List Kind)) (maxIt : ℤ) (limit : ℚ) (X : Data) (y : List ℤ) (e0 : Fit.Est)
    (ω : Ω) (hl : y.length = X.rows.length) (h2 : (Sk.uniqueLabels y).length = 2) (hc : Contract o C p kinds X (encoded y)) :
    ∃ s, fitNew o C p kinds maxIt limit X (2 ^ X.nFeat) y e0 ω = some (.ok (), s) ∧ s.est.isFitted = true :=
  returns_from o C p kinds maxIt limit X y e0 _ (Or.inl (fresh_init ω)) hl h2 hc

/-! ## C31 for a whole run -/

/-- C31 for a further `fit`. -/
theorem bound_from (hw : InvA o C p kinds X (encoded y) w0 []) (hl : y.length = X.rows.length) (h2 : (Sk.uniqueLabels y).length ≤ 2) (hc : Contract o C p kinds X (encoded y))
    (hex : ∃ l i, kindAt kinds l i = some (.exact C))
    (hopt : ∀ hist d ω, 0 ≤ d.1 → (∀ x ∈ d.2, 0 ≤ x) →
      IsOptimal (pricingModel C X (encoded y) hist d) (o.mip (pricingModel C X (encoded y) hist d) ω).1) {u : Unit} {s}
    (hr : Fit.fit (env o X kinds) (config kinds maxIt limit) fuel y e0 w0 = some (.ok u, s)) (ho : s.est.mpOptimal = true)
    (hdual : ∀ ω, DualFeasible s.world.master.solver 0 (o.lp s.world.master.solver ω).1.duals)
    (hstrong : ∀ ω, (o.lp s.world.master.solver ω).1.objective =
      s.world.master.solver.dualValue (o.lp s.world.master.solver ω).1.duals) :
    ∃ ω d, lastDuals s.trace = some (.ok d) ∧ s.world.master.solveRmp (o.lp s.world.master.solver ω).1 = .ok d ∧
      ∀ (K' : List Clause) (xi w : ℕ → ℚ), (∀ k ∈ K', (∀ j ∈ k, j < X.nFeat) ∧ (k.dedup.length : ℚ) ≤ C) →
        Feasible X.rows (encoded y) C K' xi w →
        (o.lp s.world.master.solver ω).1.objective ≤ objective X.rows (encoded y) p K' xi w + 1 / 1000000 * C := by
  obtain ⟨l, i, hk⟩ := hex
  obtain ⟨hn, hrej, -, hall⟩ := Fit.C03_mp_optimal hr ho
  obtain ⟨row, hrow, hi⟩ : ∃ row, kinds[l]? = some row ∧ row[i]? = some (.exact C) := by
    unfold kindAt at hk
    cases hrow : kinds[l]? with
    | none => rw [hrow] at hk; simp at hk
    | some row => rw [hrow] at hk; exact ⟨row, rfl, by simpa using hk⟩
  obtain ⟨d, res, hg⟩ := hall l row.length i (by simp [config, List.getElem?_map, hrow]) (List.getElem?_eq_some_iff.1 hi).1
  have hg' := since_subset _ _ _ hg
  rcases fit_invB hw hl h2 hc hr with h | ⟨ops, hC, hB⟩
  · exact absurd hg' (h.gens _ _ _ _)
  have hcols : roundCols s.trace = [] := by
    rw [List.eq_nil_iff_forall_not_mem]
    intro c hc
    obtain ⟨e, he, hce⟩ := List.mem_filterMap.1 hc
    cases e with
    | add l' i' c' r' =>
      have h1 := hrej _ _ _ _ he
      have h2 := hB.adds _ _ _ _ (since_subset _ _ _ he)
      rw [h1] at h2; cases h2
    | _ => simp [col?] at hce
  -- the duals of the pricing call are the last ones
  have hd : lastDuals s.trace = some (.ok d) := by
    obtain ⟨a, b, hab⟩ := List.append_of_mem hg
    obtain ⟨pre, hpre⟩ : round s.trace <:+ s.trace := by
      have := List.takeWhile_prefix (fun e => !isRmp e) (l := s.trace.reverse)
      have := List.reverse_suffix.2 this
      simpa [round, since] using this
    have htr : s.trace = (pre ++ a) ++ Ev.generate l i d res :: b := by rw [← hpre, hab]; simp
    have h1 := (Fit.fit_protocol hr _ _ _ htr).1
    have hb0 : ∀ e ∈ b, rmp? e = Option.none := by
      intro e he
      have hme : e ∈ round s.trace := by rw [hab]; simp [he]
      unfold round since at hme
      rw [List.mem_reverse] at hme
      have := (List.all_eq_true.1 (List.all_takeWhile (p := fun e => !isRmp e) (l := s.trace.reverse))) e hme
      cases e with
      | solveRmp q => simp [isRmp] at this
      | _ => rfl
    rw [htr]
    unfold lastDuals at h1 ⊢
    rw [List.filterMap_append, List.filterMap_cons]
    have : b.filterMap rmp? = [] := by
      rw [List.filterMap_eq_nil_iff]; exact hb0
    simp only [rmp?, this, List.append_nil]
    exact h1
  obtain ⟨ω, hω⟩ := hB.lp d hd hcols
  -- the exact pricing problem returned nothing
  have hres : res = .ok [] := by
    have hmem : (l, i, res) ∈ roundGens s.trace := List.mem_filterMap.2 ⟨_, hg, rfl⟩
    have hclean := hB.clean _ hg'
    cases res with
    | error er => simp [raised?] at hclean
    | ok cols =>
      rcases List.eq_nil_or_concat (roundGens s.trace) with h0 | ⟨L, q0, h0⟩
      · rw [h0] at hmem; simp at hmem
      · rw [List.concat_eq_append] at h0
        have hemp := hB.empty
        rw [h0, List.dropLast_concat] at hemp
        rw [h0] at hmem
        rcases List.mem_append.1 hmem with hq | hq
        · exact hemp _ hq
        · have hlast : (roundGens s.trace).getLast? = some (l, i, .ok cols) := by rw [h0, ← List.mem_singleton.1 hq]; simp
          have h5 := Fit.offered_return hr l i cols hlast
          rw [hB.same (by rw [h0]; simp), hcols] at h5
          rw [← h5]
  obtain ⟨k, hk2, hby⟩ := hC.gens _ _ _ _ hg'
  rw [hk] at hk2
  cases hk2
  obtain ⟨hist, ω', hby⟩ := hby
  refine ⟨ω, d, hd, by rw [hC.master, hω], ?_⟩
  intro K' xi w hK hf
  have hdual := hdual ω
  have hstrong := hstrong ω
  rw [hC.master] at hdual hstrong ⊢
  obtain ⟨k1, k2, -⟩ := hB.known d hd
  exact C31_certificate C p X (encoded y) ops hist _ d (fun m => (o.mip m ω').1) (encoded_binary hl h2) hdual hstrong hω
    (by rw [← hby, hres]) (hopt hist d ω' k1 k2) K' hK xi w hf

/-- C31: if the run ends with `mp_optimal_`, the last LP answer belongs to the final restricted master, and (if the LP answers for that master
are optimal, as certified by their duals, and the pricing answers are optimal) its value is a lower bound, up to `1e-6 * C`, for
every fractional rule over *all* clauses. -/
theorem C31_fit (hl : y.length = X.rows.length) (h2 : (Sk.uniqueLabels y).length ≤ 2) (hc : Contract o C p kinds X (encoded y))
    (hex : ∃ l i, kindAt kinds l i = some (.exact C))
    (hopt : ∀ hist d ω, 0 ≤ d.1 → (∀ x ∈ d.2, 0 ≤ x) →
      IsOptimal (pricingModel C X (encoded y) hist d) (o.mip (pricingModel C X (encoded y) hist d) ω).1) {u : Unit} {s}
    (hr : fitNew o C p kinds maxIt limit X fuel y e0 ω0 = some (.ok u, s)) (ho : s.est.mpOptimal = true)
    (hdual : ∀ ω, DualFeasible s.world.master.solver 0 (o.lp s.world.master.solver ω).1.duals)
    (hstrong : ∀ ω, (o.lp s.world.master.solver ω).1.objective =
      s.world.master.solver.dualValue (o.lp s.world.master.solver ω).1.duals) :
    ∃ ω d, lastDuals s.trace = some (.ok d) ∧ s.world.master.solveRmp (o.lp s.world.master.solver ω).1 = .ok d ∧
      ∀ (K' : List Clause) (xi w : ℕ → ℚ), (∀ k ∈ K', (∀ j ∈ k, j < X.nFeat) ∧ (k.dedup.length : ℚ) ≤ C) →
        Feasible X.rows (encoded y) C K' xi w →
        (o.lp s.world.master.solver ω).1.objective ≤ objective X.rows (encoded y) p K' xi w + 1 / 1000000 * C :=
  bound_from (Or.inl (fresh_init _)) hl h2 hc hex hopt hr ho hdual hstrong

/-! ## C67: the trained rule -/

/-- The final integer program. -/
def IpRec (o : Oracle Ω) (C p : ℚ) (X : Data) (py : List ℕ) (w : World Ω) (tr : Trace) : Prop :=
  Ev.solveIp (.ok true) ∈ tr → ∃ ops ω, (after C p X py ops).solveIp (fun m => (o.ip m ω).1) = (.ok true, w.master)

theorem IpRec.event {py : List ℕ} {w : World Ω} {tr : Trace} (h : IpRec o C p X py w tr) {e : Ev (ℚ × List ℚ) Clause}
    (he : e ≠ .solveIp (.ok true)) (w' : World Ω) (hw : w'.master = w.master) : IpRec o C p X py w' (tr ++ [e]) := by
  intro hm
  rcases List.mem_append.1 hm with hm | hm
  · rw [hw]; exact h hm
  · exact absurd (List.mem_singleton.1 hm).symm he

theorem ipRec_guided (o : Oracle Ω) (C p : ℚ) (kinds : List (List Kind)) (X : Data) (py : List ℕ) (cfg : Fit.Config)
    (hs : cfg.shape = kinds.map List.length) (hl : py.length = X.rows.length) :
    Guided (env o X kinds) cfg py (fun w tr => InvA o C p kinds X py w tr ∧ IpRec o C p X py w tr) where
  clock w tr h := ⟨(invA_guided o C p kinds X py cfg hs hl).clock w tr h.1, h.2⟩
  timer w tr t hp h := ⟨(invA_guided o C p kinds X py cfg hs hl).timer w tr t hp h.1, h.2.event (by simp) _ rfl⟩
  check w tr s t hp h := ⟨(invA_guided o C p kinds X py cfg hs hl).check w tr s t hp h.1, h.2.event (by simp) _ rfl⟩
  flag w tr hp h := ⟨(invA_guided o C p kinds X py cfg hs hl).flag w tr hp h.1, h.2.event (by simp) _ rfl⟩
  clear w tr h := h
  generateMp w t h := ⟨(invA_guided o C p kinds X py cfg hs hl).generateMp w t h.1, fun hm => by simp [env] at hm⟩
  solveRmp w tr hp ha h := ⟨(invA_guided o C p kinds X py cfg hs hl).solveRmp w tr hp ha h.1, h.2.event (by simp) _ rfl⟩
  improved w tr hp ha h := ⟨(invA_guided o C p kinds X py cfg hs hl).improved w tr hp ha h.1, h.2.event (by simp) _ rfl⟩
  update w tr l i d hp ha h := ⟨(invA_guided o C p kinds X py cfg hs hl).update w tr l i d hp ha h.1, h.2.event (by simp) _ rfl⟩
  generate w tr l i d hp ha h := by
    refine ⟨(invA_guided o C p kinds X py cfg hs hl).generate w tr l i d hp ha h.1, h.2.event (by simp) _ ?_⟩
    simp only [env, generateAt]
    split <;> rfl
  add w tr l i c hp ha h := by
    refine ⟨(invA_guided o C p kinds X py cfg hs hl).add w tr l i c hp ha h.1, fun hm => ?_⟩
    rcases List.mem_append.1 hm with hm | hm
    · exact absurd ⟨_, hm⟩ ha.2.2.2
    · simp at hm
  solveIp w tr hp ha h := by
    refine ⟨(invA_guided o C p kinds X py cfg hs hl).solveIp w tr hp ha h.1, fun hm => ?_⟩
    rcases List.mem_append.1 hm with hm | hm
    · exact absurd ⟨_, hm⟩ ha.2.1
    · simp only [List.mem_singleton, Ev.solveIp.injEq, env] at hm
      rcases h.1 with h | ⟨ops, h⟩
      · exfalso
        simp [Master.solveIp, h.master, Master.new] at hm
      · refine ⟨ops, w.ω, ?_⟩
        simp only [env]
        rw [← h.master, hm]

/-- The final state of a run that returned, for a further `fit`. -/
theorem ip_from (hw : InvA o C p kinds X (encoded y) w0 []) (hl : y.length = X.rows.length) {u : Unit} {s} (hr : Fit.fit (env o X kinds) (config kinds maxIt limit) fuel y e0 w0 = some (.ok u, s)) :
    ∃ ops ω, (after C p X (encoded y) ops).solveIp (fun m => (o.ip m ω).1) = (.ok true, s.world.master) ∧
      (after C p X (encoded y) ops).solver = s.world.master.solver := by
  have hl' : (encoded y).length = X.rows.length := by rw [encoded_length, hl]
  have h := ((ipRec_guided o C p kinds X (encoded y) (config kinds maxIt limit) rfl hl').fit
    (e0 := e0) ⟨hw, fun hm => by simp at hm⟩ hr).2
  obtain ⟨tr, htr, -⟩ := (Fit.C10_returns hr).2.1 rfl
  obtain ⟨ops, ω, e⟩ := h (by simp only; rw [htr]; simp)
  refine ⟨ops, ω, e, ?_⟩
  obtain ⟨hi, -⟩ := after_inv C p X (encoded y) ops hl'
  by_cases hst : (o.ip (after C p X (encoded y) ops).solver ω).1.status = .other
  · rw [hi.explanation_other _ hst] at e; cases e
  · obtain ⟨s', e', -, g, -⟩ := hi.explanation (fun m => (o.ip m ω).1) hst
    rw [e'] at e
    cases e
    exact g.symm

/-- The final state of a run that returned. -/
theorem fit_ip (hl : y.length = X.rows.length) {u : Unit} {s} (hr : fitNew o C p kinds maxIt limit X fuel y e0 ω0 = some (.ok u, s)) :
    ∃ ops ω, (after C p X (encoded y) ops).solveIp (fun m => (o.ip m ω).1) = (.ok true, s.world.master) ∧
      (after C p X (encoded y) ops).solver = s.world.master.solver :=
  ip_from (Or.inl (fresh_init _)) hl hr

/-- The answer of an optimally solved integer program is at most the objective of every integral point of the documented program. -/
theorem ip_le {py : List ℕ} (hb : Binary X.rows py) (ops : List Op) {ans : Answer} (hopt : IsOptimal (after C p X py ops).solver ans) (xi w : ℕ → ℚ)
    (hxi : ∀ i, ∃ z : ℤ, xi i = z) (hw : ∀ j, ∃ z : ℤ, w j = z) (hf : Feasible X.rows py C (clausesOf ops) xi w) :
    ans.objective ≤ objective X.rows py p (clausesOf ops) xi w := by
  have hm := fun a => C22_master C p X py ops hb a
  set n := (pos X.rows py).length with hn
  set a : ℕ → ℚ := fun v => if v < n then xi v else w (v - n) with ha
  have ea : (fun j => a (n + j)) = w := by funext j; simp [ha]
  have eo : objective X.rows py p (clausesOf ops) (fun i => a i) w =
      objective X.rows py p (clausesOf ops) xi w := by
    unfold objective
    congr 2
    apply Finset.sum_congr rfl
    intro i hi
    simp only [ha]
    rw [if_pos (Finset.mem_range.1 hi)]
  have hfa : Feasible X.rows py C (clausesOf ops) (fun i => a i) (fun j => a (n + j)) := by
    rw [ea]
    refine ⟨?_, hf.w_nonneg, ?_, hf.comp⟩
    · intro i hi
      simp only [ha]
      rw [if_pos hi]
      exact hf.xi_nonneg i hi
    · intro i r hi
      have hlt := (List.getElem?_eq_some_iff.1 hi).1
      simp only [ha]
      rw [if_pos hlt]
      exact hf.sat i r hi
  obtain ⟨m1, m2, m3, m4⟩ := hm a
  have := hopt.2 a (m4.2 ⟨m1.2 hfa, fun v _ => by
    simp only [ha]
    split
    · exact hxi v
    · exact hw _⟩)
  unfold Model.better at this
  rw [m3, m2, ea, eo] at this
  simpa using this

/-- C67 for a further `fit`. -/
theorem rule_from (hw : InvA o C p kinds X (encoded y) w0 []) (hl : y.length = X.rows.length) (h2 : (Sk.uniqueLabels y).length ≤ 2) (hp : 0 ≤ p) (hC : 0 ≤ C) {u : Unit} {s}
    (hr : Fit.fit (env o X kinds) (config kinds maxIt limit) fuel y e0 w0 = some (.ok u, s))
    (hip : ∀ ω, IsOptimal s.world.master.solver (o.ip s.world.master.solver ω).1) :
    (s.world.master.explanation.map (fun k => 1 + (k.length : ℚ))).sum ≤ C ∧
    loss X.rows (encoded y) p s.world.master.explanation ≤ p * (pos X.rows (encoded y)).length ∧
    (1 ≤ C → loss X.rows (encoded y) p s.world.master.explanation ≤ (neg X.rows (encoded y)).length) := by
  obtain ⟨ops, ω, e, hsol⟩ := ip_from hw hl hr
  have hb := encoded_binary hl h2
  have hopt := hip ω
  rw [← hsol] at hopt
  have h25 := C25_loss C p X (encoded y) ops _ _ hb hp hopt.1 e
  have hle := ip_le hb ops hopt
  refine ⟨C24_complexity C p X (encoded y) ops _ _ hb hopt.1 e, le_trans h25 ?_, fun h1 => le_trans h25 ?_⟩
  · refine le_trans (hle (fun _ => 1) (fun _ => 0) (fun _ => ⟨1, by norm_num⟩) (fun _ => ⟨0, by norm_num⟩) ⟨?_, ?_, ?_, ?_⟩) ?_
    · intro i _; norm_num
    · intro j _; norm_num
    · intro i r _; simp [covered]
    · simpa [complexity] using hC
    · simp [objective]
  · obtain ⟨t, ht⟩ : ∃ t, clausesOf ops = [] :: t := by
      clear hle hopt h25 hsol e
      induction ops using List.reverseRecOn with
      | nil => exact ⟨[], rfl⟩
      | append_singleton ops op ih =>
        obtain ⟨t, ht⟩ := ih
        cases op with
        | addColumn k =>
          rw [clausesOf_snoc_add, ht]
          split
          · exact ⟨t, rfl⟩
          · exact ⟨t ++ [k], rfl⟩
        | _ => exact ⟨t, by rw [← ht]; simp [clausesOf]⟩
    have hsum : ∀ f : ℕ → ℚ, (∑ j ∈ Finset.range (clausesOf ops).length, f j * (if j = 0 then 1 else 0)) = f 0 := by
      intro f
      rw [ht, List.length_cons, Finset.sum_range_succ']
      simp
    refine le_trans (hle (fun _ => 0) (fun j => if j = 0 then 1 else 0) (fun _ => ⟨0, by norm_num⟩) ?_ ⟨?_, ?_, ?_, ?_⟩) ?_
    · intro j
      by_cases h0 : j = 0
      · exact ⟨1, by simp [h0]⟩
      · exact ⟨0, by simp [h0]⟩
    · intro i _; norm_num
    · intro j _; split <;> norm_num
    · intro i r _
      have : covered (clausesOf ops) (fun j => if j = 0 then 1 else 0) r = 1 := by
        unfold covered
        rw [ht, List.length_cons, Finset.sum_range_succ']
        simp [Sat]
      rw [this]
      norm_num
    · unfold complexity
      rw [hsum]
      simpa [ht] using h1
    · unfold objective
      rw [hsum]
      simp [ht, numSat, Sat]

/-- C67: the rule of a run that returned keeps the complexity bound and its weighted training error is at most that of either constant
rule, if the integer program of the final master was solved to optimality. -/
theorem C67_trained_rule (hl : y.length = X.rows.length) (h2 : (Sk.uniqueLabels y).length ≤ 2) (hp : 0 ≤ p) (hC : 0 ≤ C) {u : Unit} {s}
    (hr : fitNew o C p kinds maxIt limit X fuel y e0 ω0 = some (.ok u, s))
    (hip : ∀ ω, IsOptimal s.world.master.solver (o.ip s.world.master.solver ω).1) :
    (s.world.master.explanation.map (fun k => 1 + (k.length : ℚ))).sum ≤ C ∧
    loss X.rows (encoded y) p s.world.master.explanation ≤ p * (pos X.rows (encoded y)).length ∧
    (1 ≤ C → loss X.rows (encoded y) p s.world.master.explanation ≤ (neg X.rows (encoded y)).length) :=
  rule_from (Or.inl (fresh_init _)) hl h2 hp hC hr hip

/-- Number of wrong predictions. -/
def errors (pred y : List ℤ) : ℕ := (pred.zip y).countP (fun q => decide (q.1 ≠ q.2))

theorem errors_rule {c0 c1 : ℤ} (hne : c0 ≠ c1) (e : List Clause) : ∀ (rows : List (List ℚ)) (y : List ℤ), (∀ v ∈ y, v = c0 ∨ v = c1) →
    y.length = rows.length →
    (errors (rows.map (fun r => if Rule e r then c1 else c0)) y : ℚ) = loss rows (Sk.transform [c0, c1] y) 1 e := by
  intro rows
  induction rows with
  | nil => intro y _ hl; cases y with
    | nil => simp [errors, loss, pos, neg]
    | cons => simp at hl
  | cons r rows ih =>
    intro y hy hl
    cases y with
    | nil => simp at hl
    | cons v y =>
      have ih' := ih y (fun v hv => hy v (by simp [hv])) (by simpa using hl)
      have hne' : ¬ c1 = c0 := fun h => hne h.symm
      rcases hy v (by simp) with rfl | rfl
      · by_cases hr : Rule e r
        · simp only [errors, loss, pos, neg, Sk.transform, List.map_cons, List.zip_cons_cons, List.countP_cons, List.filter_cons, hr, if_true,
            List.idxOf_cons_self, decide_not] at ih' ⊢
          simp [hne', hr] at ih' ⊢
          linarith
        · simp only [errors, loss, pos, neg, Sk.transform, List.map_cons, List.zip_cons_cons, List.countP_cons, List.filter_cons, hr, if_false,
            List.idxOf_cons_self, decide_not] at ih' ⊢
          simp [hne', hr] at ih' ⊢
          linarith
      · have hidx : List.idxOf v [c0, v] = 1 := by
          rw [List.idxOf_cons_ne _ hne]; simp
        by_cases hr : Rule e r
        · simp only [errors, loss, pos, neg, Sk.transform, List.map_cons, List.zip_cons_cons, List.countP_cons, List.filter_cons, hr, if_true,
            hidx, decide_not] at ih' ⊢
          simp [hne, hr] at ih' ⊢
          linarith
        · simp only [errors, loss, pos, neg, Sk.transform, List.map_cons, List.zip_cons_cons, List.countP_cons, List.filter_cons, hr, if_false,
            hidx, decide_not] at ih' ⊢
          simp [hne, hr] at ih' ⊢
          linarith

theorem errors_const (c : ℤ) {c0 c1 : ℤ} (hne : c0 ≠ c1) : ∀ (rows : List (List ℚ)) (y : List ℤ), (∀ v ∈ y, v = c0 ∨ v = c1) →
    y.length = rows.length →
    (pos rows (Sk.transform [c0, c1] y)).length ≤ errors (rows.map (fun _ => c)) y ∨
      (neg rows (Sk.transform [c0, c1] y)).length ≤ errors (rows.map (fun _ => c)) y := by
  intro rows y hy hl
  have hne' : ¬ c1 = c0 := fun h => hne h.symm
  by_cases hc : c = c1
  · right
    induction rows generalizing y with
    | nil => simp [neg]
    | cons r rows ih =>
      cases y with
      | nil => simp at hl
      | cons v y =>
        have ih' := ih y (fun v hv => hy v (by simp [hv])) (by simpa using hl)
        rcases hy v (by simp) with rfl | rfl
        · simp only [errors, neg, Sk.transform, List.map_cons, List.zip_cons_cons, List.countP_cons, List.filter_cons,
            List.idxOf_cons_self] at ih' ⊢
          simp [hc, hne'] at ih' ⊢
          omega
        · have hidx : List.idxOf v [c0, v] = 1 := by
            rw [List.idxOf_cons_ne _ hne]; simp
          simp only [errors, neg, Sk.transform, List.map_cons, List.zip_cons_cons, List.countP_cons, List.filter_cons, hidx] at ih' ⊢
          simp [hc] at ih' ⊢
          omega
  · left
    induction rows generalizing y with
    | nil => simp [pos]
    | cons r rows ih =>
      cases y with
      | nil => simp at hl
      | cons v y =>
        have ih' := ih y (fun v hv => hy v (by simp [hv])) (by simpa using hl)
        rcases hy v (by simp) with rfl | rfl
        · simp only [errors, pos, Sk.transform, List.map_cons, List.zip_cons_cons, List.countP_cons, List.filter_cons,
            List.idxOf_cons_self] at ih' ⊢
          simp at ih' ⊢
          omega
        · have hidx : List.idxOf v [c0, v] = 1 := by
            rw [List.idxOf_cons_ne _ hne]; simp
          simp only [errors, pos, Sk.transform, List.map_cons, List.zip_cons_cons, List.countP_cons, List.filter_cons, hidx] at ih' ⊢
          simp [hc] at ih' ⊢
          omega

/-- C67 for a further `fit`. -/
theorem accuracy_from (hw : InvA o C 1 kinds X (encoded y) w0 []) (hl : y.length = X.rows.length) (h2 : (Sk.uniqueLabels y).length = 2) (hC : 1 ≤ C) {u : Unit} {s}
    (hr : Fit.fit (env o X kinds) (config kinds maxIt limit) fuel y e0 w0 = some (.ok u, s))
    (hip : ∀ ω, IsOptimal s.world.master.solver (o.ip s.world.master.solver ω).1) :
    ∃ pred, predict (Sk.uniqueLabels y) s.world.master.explanation X.rows = .ok pred ∧
      ∀ c, errors pred y ≤ errors (X.rows.map (fun _ => c)) y := by
  obtain ⟨c0, c1, hcls⟩ : ∃ c0 c1, Sk.uniqueLabels y = [c0, c1] := by
    match h : Sk.uniqueLabels y with
    | [] => rw [h] at h2; simp at h2
    | [_] => rw [h] at h2; simp at h2
    | [a, b] => exact ⟨a, b, rfl⟩
    | _ :: _ :: _ :: _ => rw [h] at h2; simp at h2
  have hne : c0 ≠ c1 := by
    have := Sk.nodup_uniqueLabels y
    rw [hcls] at this
    simpa using this
  have hy : ∀ v ∈ y, v = c0 ∨ v = c1 := by
    intro v hv
    have := (Sk.mem_uniqueLabels y v).2 hv
    rw [hcls] at this
    simpa using this
  obtain ⟨-, l1, l2⟩ := rule_from hw hl (le_of_eq h2) (by norm_num) (le_trans (by norm_num) hC) hr hip
  have l2 := l2 hC
  rw [hcls, C20_predict]
  refine ⟨_, rfl, fun c => ?_⟩
  have e1 := errors_rule hne s.world.master.explanation X.rows y hy hl
  simp only [encoded, hcls] at l1 l2
  rw [← e1] at l1 l2
  rw [one_mul] at l1
  rw [Nat.cast_le] at l1 l2
  rcases errors_const c hne X.rows y hy hl with h | h
  · exact le_trans l1 h
  · exact le_trans l2 h

/-- C67: with the default penalty 1, at least complexity 1, two classes and an optimally solved final integer program, the trained
classifier makes at most as many errors on the training data as the best constant prediction. -/
theorem C67_accuracy (hl : y.length = X.rows.length) (h2 : (Sk.uniqueLabels y).length = 2) (hC : 1 ≤ C) {u : Unit} {s}
    (hr : fitNew o C 1 kinds maxIt limit X fuel y e0 ω0 = some (.ok u, s))
    (hip : ∀ ω, IsOptimal s.world.master.solver (o.ip s.world.master.solver ω).1) :
    ∃ pred, predict (Sk.uniqueLabels y) s.world.master.explanation X.rows = .ok pred ∧
      ∀ c, errors pred y ≤ errors (X.rows.map (fun _ => c)) y :=
  accuracy_from (Or.inl (fresh_init _)) hl h2 hC hr hip

end Verif.BDR
