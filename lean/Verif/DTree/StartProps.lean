import Verif.Fit.Stuck
import Verif.DTree.StrictProps
import Verif.DTree.HeurProps
import Verif.DTree.CutComplete

/-!
# C111: initial paths that cannot be completed

No column is ever priced for an infeasible master problem, so the initial paths must make it feasible.
-/

namespace Verif.DTree

open Spec

variable {Ω : Type}

/-- What `solve_rmp` returns when the LP was not solved. -/
def NoDuals (D : Duals) : Prop := D.leaf = [] ∧ D.newCuts = [] ∧ ∀ l n t, D.ns l n t = none

/-- The master problem was created, its solver model is `m` and it has `n` paths. -/
def HasModel (m : MP.Model) (n : ℕ) (w : World Ω) : Prop := w.master.generated = true ∧ w.master.m = m ∧ w.master.paths.length = n

theorem subtractNs_none {ns : ℕ → ℕ → Option ℚ} (h : ∀ n t, ns n t = none) {qs : List (ℕ × ℕ)} (hq : qs ≠ []) (x : ℚ) :
    ∃ e, subtractNs ns qs x = .error e := by
  cases qs with
  | nil => exact absurd rfl hq
  | cons q qs => exact ⟨.keyError, by simp only [subtractNs, h]⟩

theorem reducedCost_none (c : HConf) (splits : List Split) {D : Duals} (hD : NoDuals D) {p : Path} (hp : p.pairs ≠ []) (rows : List ℕ) :
    ∃ e, c.reducedCost splits D p rows = .error e := by
  unfold HConf.reducedCost
  split
  · exact ⟨_, rfl⟩
  · split
    · exact ⟨_, rfl⟩
    · split
      · exact ⟨_, rfl⟩
      · exact subtractNs_none (fun n t => hD.2.2 _ n t) hp _

theorem leaf_nodes_ne {d : ℕ} (hd : 0 < d) {l : ℕ} (hl : l < 2 ^ d) : (createLeaf l d).leftNodes ++ (createLeaf l d).rightNodes ≠ [] := by
  intro h
  have h1 := List.append_eq_nil_iff.1 h
  rcases hg : goesLeft d l 0 with _ | _
  · have := (mem_rightNodes hl _).2 ⟨0, hd, rfl, hg⟩
    rw [h1.2] at this; cases this
  · have := (mem_leftNodes hl _).2 ⟨0, hd, rfl, hg⟩
    rw [h1.1] at this; cases this

theorem round_dry {d : ℕ} (hd : 0 < d) {c : HConf} {splits : List Split} (ht : Tree d c.leaves c.nodes splits) (spl : List Split) {D : Duals} (hD : NoDuals D)
    (dr : Draws) (i : ℕ) (gen : List Path) : (∃ e, c.round spl D dr i gen = .error e) ∨ c.round spl D dr i gen = .ok none := by
  unfold HConf.round
  by_cases he : c.leaves.isEmpty
  · rw [if_pos he]; exact .inl ⟨_, rfl⟩
  rw [if_neg he]
  have hlen : c.leaves.length = 2 ^ d := by rw [ht.leaves]; simp [fullLeaves]
  have hl : dr.choice i 0 % c.leaves.length < 2 ^ d := by rw [hlen]; exact Nat.mod_lt _ (by positivity)
  generalize dr.choice i 0 % c.leaves.length = l at hl
  have hleaf : leafAt c.leaves l = createLeaf l d := by rw [ht.leaves, leafAt_full hl]
  simp only [hleaf]
  rcases hpick : pickSplits c.nodes (dr.choice i) 1 ((createLeaf l d).leftNodes ++ (createLeaf l d).rightNodes) [] with _ | sp
  · exact .inr rfl
  obtain ⟨-, new, hspn, hln, -⟩ := pickSplits_spec c.nodes _ ht.cand_nodup _ _ _ _ hpick List.nodup_nil
  simp only
  split
  · exact .inl ⟨_, rfl⟩
  · split
    · exact .inr rfl
    · rename_i rows _ _
      have hne : ∀ t k, (Path.mk (createLeaf l d).id ((createLeaf l d).leftNodes ++ (createLeaf l d).rightNodes) sp k 0 t false).pairs ≠ [] := by
        intro t k h
        have h1 := leaf_nodes_ne hd hl
        have h2 := congrArg List.length h
        rw [List.nil_append] at hspn
        simp only [Path.pairs, List.length_zip, hspn, hln, min_self, List.length_nil] at h2
        exact h1 (List.length_eq_zero_iff.1 h2)
      obtain ⟨e, h⟩ := reducedCost_none c spl hD (hne (c.bestTarget (dr.order rows.dedup)).target ((c.bestTarget (dr.order rows.dedup)).count : ℚ)) rows
      simp only [h]
      exact .inl ⟨_, rfl⟩

theorem rounds_dry {d : ℕ} (hd : 0 < d) {c : HConf} {splits : List Split} (ht : Tree d c.leaves c.nodes splits) (spl : List Split) {D : Duals} (hD : NoDuals D)
    (dr : Draws) : ∀ (is : List ℕ) (f : ℕ), (∃ e, (c.rounds spl D dr is [] f).1 = .error e) ∨ (c.rounds spl D dr is [] f).1 = .ok [] := by
  intro is
  induction is with
  | nil => exact fun f => .inr rfl
  | cons i is ih =>
    intro f
    rcases round_dry hd ht spl hD dr i [] with ⟨e, h⟩ | h
    · simp only [HConf.rounds, h]; exact .inl ⟨_, rfl⟩
    · simp only [HConf.rounds, h]; exact ih _

theorem generate_dry {d : ℕ} (hd : 0 < d) {c : HConf} {splits : List Split} (ht : Tree d c.leaves c.nodes splits) {D : Duals} (hD : NoDuals D)
    (dr : Draws) (st : HeurSt) : (∃ e, (c.generate D dr st).1 = .error e) ∨ (c.generate D dr st).1 = .ok [] := by
  have h := rounds_dry hd ht st.splits hD dr (List.range 100) st.failed
  unfold HConf.generate
  generalize c.rounds st.splits D dr (List.range 100) [] st.failed = r at h
  obtain ⟨v, f⟩ := r
  rcases h with ⟨e, h⟩ | h
  · obtain rfl : v = .error e := h
    exact .inl ⟨_, rfl⟩
  · obtain rfl : v = .ok [] := h
    exact .inr rfl

theorem guarded_cases {α σ : Type} (l : Reads) (s : σ) (r : Except Err α × σ) : (∃ e, guarded l s r = (.error e, s)) ∨ guarded l s r = r := by
  unfold guarded
  rcases firstFault l with _ | e
  · exact .inr rfl
  · exact .inl ⟨_, rfl⟩

theorem refreshS_dry (c : SubConf) {D : Duals} (hD : NoDuals D) (st : SubSt) : ∃ e, c.refreshS D st = .error e := by
  unfold SubConf.refreshS guardedE
  rcases firstFault _ with _ | e
  · exact ⟨_, by unfold SubConf.refresh; rw [if_neg (by simp [hD.1])]⟩
  · exact ⟨_, rfl⟩

theorem solveRmpS_dry (c : Conf) {o : Oracle} (hlp : LpFeasible o) {m : MP.Model} (hm : ¬∃ a, m.FeasibleLP a) {s : MS} (hg : s.generated = true)
    (hsm : s.m = m) : ∃ D, (solveRmpS c o s).1 = .ok D ∧ NoDuals D ∧ (solveRmpS c o s).2.generated = true ∧ (solveRmpS c o s).2.m = m ∧
      (solveRmpS c o s).2.paths = s.paths := by
  subst hsm
  unfold solveRmpS
  rw [if_pos hg]
  simp only
  generalize hs1 : lpSolve o _ = s1
  have hg1 : s1.generated = true := by rw [← hs1]; exact hg
  have hm1 : s1.m = s.m := by rw [← hs1]; rfl
  have hp1 : s1.paths = s.paths := by rw [← hs1]; rfl
  have hl1 : s1.last.status ≠ .optimal := by rw [← hs1]; exact fun hk => hm ⟨_, hlp s.m _ hk⟩
  have hr : (if s1.iter % 10 = 0 then cutRoundsS c o c.numCutsRound [] s1 else .ok ([], s1)) = .ok ([], s1) := by
    split
    · cases c.numCutsRound with
      | zero => rfl
      | succ n => unfold cutRoundsS; rw [if_neg hl1]
    · rfl
  rw [hr]
  simp only
  rw [if_neg hl1]
  exact ⟨_, rfl, ⟨rfl, rfl, fun _ _ _ => rfl⟩, hg1, hm1, hp1⟩

theorem generateMp_generated {c : Conf} {s0 s : MS} (h : generateMp c s0 = (.ok (), s)) : s.generated = true := by
  unfold generateMp at h
  split at h
  · cases h; assumption
  · split at h
    · cases h
    · cases h; rfl

theorem addPathVar_mem : ∀ (ps : List Path) (st : MP.Model × List Path), ∀ p ∈ (ps.foldl addPathVar st).2,
    p ∈ st.2 ∨ ∃ q ∈ ps, p.leafId = q.leafId ∧ p.pairs = q.pairs := by
  intro ps
  induction ps with
  | nil => exact fun st p h => .inl h
  | cons a ps ih =>
    intro st p h
    rcases ih _ p h with h1 | ⟨q, hq, h1⟩
    · unfold addPathVar at h1
      rcases List.mem_append.1 h1 with h2 | h2
      · exact .inl h2
      · exact .inr ⟨a, List.mem_cons_self, by rw [List.mem_singleton.1 h2]; exact ⟨rfl, rfl⟩⟩
    · exact .inr ⟨q, List.mem_cons_of_mem _ hq, h1⟩

theorem generateMp_mem {c : Conf} {A : Args} {s : MS}
    (h : generateMp c (MS.init (A.paths.map (fun p => { p with initial := true })) A.splits A.dataRows) = (.ok (), s)) {p : Path} (hp : p ∈ s.paths) :
    ∃ q ∈ A.paths, p.leafId = q.leafId ∧ p.pairs = q.pairs := by
  unfold generateMp at h
  rw [if_neg (by simp [MS.init])] at h
  split at h
  · cases h
  · cases h
    rcases addPathVar_mem _ _ p hp with h1 | ⟨q, h1, h2⟩
    · cases h1
    · obtain ⟨q', hq', rfl⟩ := List.mem_map.1 h1
      exact ⟨q', hq', h2⟩

theorem generateMp_length {c : Conf} {paths : List Path} {splits : List Split} {rows : Option (List Row)} {s : MS}
    (h : generateMp c (MS.init paths splits rows) = (.ok (), s)) : s.paths.length = paths.length := by
  have key : ∀ (ps : List Path) (st : MP.Model × List Path), (ps.foldl addPathVar st).2.length = st.2.length + ps.length := by
    intro ps
    induction ps with
    | nil => exact fun _ => rfl
    | cons a ps ih => intro st; rw [List.foldl_cons, ih]; simp [addPathVar]; omega
  unfold generateMp at h
  rw [if_neg (by simp [MS.init])] at h
  split at h
  · cases h
  · cases h
    exact (key _ _).trans (by simp [MS.init])

theorem stuck {d : ℕ} (hd : 0 < d) {A : Args} (ht : Tree d A.leaves A.nodes A.splits) (X : List (List ℚ)) (o : FitOracle Ω) (hlp : LpFeasible o.master)
    (hip : IpSound o.master) {m : MP.Model} {n : ℕ} (hm : ¬∃ a, m.FeasibleLP a) (maxIt : ℤ) (limit : ℚ) :
    Fit.Stuck (envS o A X) (config A maxIt limit) (HasModel m n) NoDuals where
  clock _ h := h
  noReset _ := by simp [envS]
  improved _ h := h
  ip := rfl
  solveRmp w h := by
    obtain ⟨D, h1, h2, h3, h4, h5⟩ := solveRmpS_dry (A.masterConf X) hlp hm h.1 h.2.1
    exact ⟨⟨h3, h4, (congrArg List.length h5).trans h.2.2⟩, .inr ⟨D, h1, h2⟩⟩
  update l i D w _ hw := by
    simp only [envS, updateAtS]
    by_cases hl : l = 0
    · rw [if_pos hl]
      rcases guarded_cases (heurUpdateReads D w.master.splits) w (.ok (), w.setHeur (HConf.update D w.heur)) with ⟨e, h⟩ | h
      · rw [h]; exact hw
      · rw [h]; exact hw
    · rw [if_neg hl]
      split
      · exact hw
      · exact hw
  solveIp w h := by
    have hst : ¬((o.master.ip m).status = .optimal ∨ (o.master.ip m).status = .feasible) := fun hk => hm ⟨_, (hip m hk).1.1⟩
    simp only [envS, solveIpS, h.1, if_true]
    rcases guarded_cases (w.master.paths.map (fun p => atIndex p.id w.master.m.vars.length)) w.master (solveIp o.master w.master) with ⟨e, he⟩ | he
    · rw [he]; exact ⟨h, _, rfl⟩
    · rw [he]
      simp only [solveIp, h.1, h.2.1, if_true]
      rw [if_neg hst]
      exact ⟨⟨rfl, rfl, h.2.2⟩, _, rfl⟩
  blocked := by
    have h0 : Fit.Dry (envS o A X) (HasModel m n) NoDuals 0 0 := by
      intro D w hD hw
      simp only [envS, generateAtS, if_true]
      rcases guarded_cases (heurReads (A.heurConf X w.y) w.master.splits) w
        (((A.heurConf X w.y).generate D (o.draws w.ω).1 w.heur).1,
          { w.setHeur ((A.heurConf X w.y).generate D (o.draws w.ω).1 w.heur).2 with ω := (o.draws w.ω).2 }) with ⟨e, h⟩ | h
      · rw [h]; exact ⟨hw, .inl ⟨_, rfl⟩⟩
      · rw [h]
        exact ⟨hw, generate_dry (c := A.heurConf X w.y) hd ht hD (o.draws w.ω).1 w.heur⟩
    have hpos : ∀ q, q ∈ Fit.positions (config A maxIt limit).shape ↔ q = (0, 0) ∨ ∃ i < (A.subConfs [] []).length, q = (1, i) := by
      intro q
      simp [config, Fit.positions, Fit.levels, List.zipIdx, eq_comm]
    by_cases ho : A.useOld = true ∧ (A.subConfs [] []).length ≠ 0
    · refine .inl ⟨(1, 0), (hpos _).2 (.inr ⟨0, Nat.pos_of_ne_zero ho.2, rfl⟩), ?_⟩
      intro D w hD hw
      simp only [envS, updateAtS, one_ne_zero, if_false]
      split
      · exact ⟨_, rfl⟩
      · rename_i c hc
        obtain ⟨leaf, _, h2⟩ := List.mem_flatMap.1 (List.mem_of_getElem? hc)
        rw [if_pos ho.1] at h2
        obtain ⟨t, _, rfl⟩ := List.mem_map.1 h2
        simp only [SubConf.updateS]
        rw [if_neg (by simp [Args.subConf])]
        obtain ⟨e, he⟩ := refreshS_dry (A.subConf X w.y (.old t) leaf) hD (w.subs 0)
        rw [he]
        exact ⟨_, rfl⟩
    · refine .inr (fun q hq => ?_)
      rcases (hpos q).1 hq with rfl | ⟨i, hi, rfl⟩
      · exact h0
      · have hold : A.useOld = false := by
          by_contra h
          exact ho ⟨by simpa using h, by omega⟩
        intro D w hD hw
        simp only [envS, generateAtS, one_ne_zero, if_false]
        split
        · exact ⟨hw, .inl ⟨_, rfl⟩⟩
        · rename_i c hc
          obtain ⟨leaf, _, h2⟩ := List.mem_flatMap.1 (List.mem_of_getElem? hc)
          rw [if_neg (by simp [hold])] at h2
          obtain rfl := List.mem_singleton.1 h2
          simp only [priceAtS]
          rw [if_neg (by simp [SubConf.isOld, Args.subConf])]
          simp only [SubConf.generateSatS]
          obtain ⟨e, he⟩ := refreshS_dry (A.subConf X w.y .sat leaf) hD (w.subs i)
          rw [he]
          exact ⟨hw, .inl ⟨_, rfl⟩⟩

/-- The relaxation of the master problem made of the initial paths has no solution on the data `X`. -/
def Spec.NoStart (A : Args) (X : List (List ℚ)) : Prop :=
  ∀ s, generateMp (A.masterConf X) (MS.init (A.paths.map (fun p => { p with initial := true })) A.splits A.dataRows) = (.ok (), s) → ¬∃ a, s.m.FeasibleLP a

/-- The classifiers after any number of calls of `fit` on such data, whatever the limits are. -/
inductive Spec.Tried (o : FitOracle Ω) (A : Args) : World Ω → Prop
  | new (ω : Ω) : Tried o A (World.init A ω)
  | again {w : World Ω} (h : Tried o A w) {X : List (List ℚ)} (hm : NoStart A X) (maxIt : ℤ) (limit : ℚ) (fuel : ℕ) (y : List ℤ) (e0 : Fit.Est)
      {r : Except Err Unit} {s : Fit.St (World Ω) Duals Path} (hr : Fit.fit (envS o A X) (config A maxIt limit) (fuel + 1) y e0 w = some (r, s)) :
      Tried o A s.world

/-- Nothing has been solved: the master problem is as constructed, or it was created and has no solution. -/
def Hopeless (A : Args) (w : World Ω) : Prop :=
  w.master = MS.init (A.paths.map (fun p => { p with initial := true })) A.splits A.dataRows ∨ ∃ m, HasModel m A.paths.length w ∧ ¬∃ a, m.FeasibleLP a

theorem generateMpS_error {c : Conf} {s0 : MS} {e : Err} (h : (generateMpS c s0).1 = .error e) : (generateMpS c s0).2 = s0 := by
  unfold generateMpS at h ⊢
  split
  · rfl
  · rename_i hg
    rw [if_neg hg] at h
    rcases guarded_cases (generateReads c s0) s0 (generateMp c s0) with ⟨e', h'⟩ | h'
    · rw [h']
    · rw [h'] at h ⊢
      unfold generateMp at h ⊢
      rw [if_neg hg] at h ⊢
      split
      · rfl
      · rename_i hcp
        rw [hcp] at h
        cases h

theorem hopeless_fit {d : ℕ} (hd : 0 < d) {A : Args} (ht : Tree d A.leaves A.nodes A.splits) {X : List (List ℚ)} (o : FitOracle Ω)
    (hlp : LpFeasible o.master) (hip : IpSound o.master) (hm : NoStart A X) (maxIt : ℤ) (limit : ℚ) (fuel : ℕ) (y : List ℤ) (e0 : Fit.Est) {w : World Ω}
    (hw : Hopeless A w) :
    ∃ e s, Fit.fit (envS o A X) (config A maxIt limit) (fuel + 1) y e0 w = some (.error e, s) ∧ Hopeless A s.world := by
  rcases hw with hw | ⟨m, hw, hinf⟩
  · have hgm : ∀ py, ((envS o A X).generateMp py ((envS o A X).clock w).2).1 = (generateMpS (A.masterConf X) w.master).1 ∧
        ((envS o A X).generateMp py ((envS o A X).clock w).2).2.master = (generateMpS (A.masterConf X) w.master).2 := fun py => ⟨rfl, rfl⟩
    rcases hv : (generateMpS (A.masterConf X) w.master).1 with e | u
    · obtain ⟨e', s, h1, h2⟩ := Fit.fit_stuck (env := envS o A X) (cfg := config A maxIt limit) (I := fun _ => False) (P := fun _ => False) (y := y) (e0 := e0) (w0 := w)
        ⟨fun _ h => h.elim, fun _ => by simp [envS], fun _ h => h.elim, fun _ h => h.elim, fun _ _ _ _ h => h.elim, .inr (fun _ _ _ _ h => h.elim),
          fun _ h => h.elim, rfl⟩ (.inl ⟨e, by rw [(hgm _).1, hv]⟩) fuel
      refine ⟨e', s, h1, .inl ?_⟩
      rcases h2 with h2 | ⟨-, h2⟩ | h2
      · rw [h2]; exact hw
      · rw [h2, (hgm _).2, generateMpS_error hv]; exact hw
      · exact h2.elim
    · have hgen : generateMp (A.masterConf X) w.master = (.ok (), (generateMpS (A.masterConf X) w.master).2) := by
        have hv' := hv
        unfold generateMpS at hv' ⊢
        rw [if_neg (by simp [hw, MS.init])] at hv' ⊢
        rcases guarded_cases (generateReads (A.masterConf X) w.master) w.master (generateMp (A.masterConf X) w.master) with ⟨e, h⟩ | h
        · rw [h] at hv'; cases hv'
        · rw [h] at hv' ⊢
          exact Prod.ext hv' rfl
      have hlen : (generateMpS (A.masterConf X) w.master).2.paths.length = A.paths.length := by
        rw [hw] at hgen
        have := generateMp_length hgen
        rw [List.length_map] at this
        rw [hw]
        exact this
      have hinf := hm _ (by rw [← hw]; exact hgen)
      obtain ⟨e', s, h1, h2⟩ := Fit.fit_stuck (y := y) (e0 := e0) (w0 := w) (stuck hd ht X o hlp hip hinf maxIt limit)
        (.inr ⟨by rw [(hgm _).2]; exact generateMp_generated hgen, by rw [(hgm _).2],
          by rw [(hgm _).2, hlen]⟩) fuel
      refine ⟨e', s, h1, ?_⟩
      rcases h2 with h2 | ⟨h2, -⟩ | h2
      · rw [h2]; exact .inl hw
      · rw [(hgm _).1, hv] at h2; cases h2
      · exact .inr ⟨_, h2, hinf⟩
  · have hk : ∀ py, HasModel m A.paths.length ((envS o A X).generateMp py ((envS o A X).clock w).2).2 := by
      intro py
      have : generateMpS (A.masterConf X) w.master = (.ok (), w.master) := by
        unfold generateMpS
        rw [if_pos hw.1]
      simp only [HasModel, envS, this]
      exact hw
    obtain ⟨e', s, h1, h2⟩ := Fit.fit_stuck (y := y) (e0 := e0) (w0 := w) (stuck hd ht X o hlp hip hinf maxIt limit) (.inr (hk _)) fuel
    refine ⟨e', s, h1, .inr ⟨m, ?_, hinf⟩⟩
    rcases h2 with h2 | ⟨-, h2⟩ | h2
    · rw [h2]; exact hw
    · rw [h2]; exact hk _
    · exact h2

/-- **C111.** If the relaxation of the master problem made of the initial paths has no solution, `fit` raises and the classifier does not become
fitted, whatever the labels, the limits and the random numbers are; no column is added. The same holds for every later call. -/
theorem C111_infeasible_start {d : ℕ} (hd : 0 < d) {A : Args} (ht : Tree d A.leaves A.nodes A.splits) (o : FitOracle Ω) (hlp : LpFeasible o.master)
    (hip : IpSound o.master) {w : World Ω} (hw : Tried o A w) {X : List (List ℚ)} (hm : NoStart A X) (maxIt : ℤ) (limit : ℚ) (fuel : ℕ) (y : List ℤ)
    (e0 : Fit.Est) :
    ∃ e s, Fit.fit (envS o A X) (config A maxIt limit) (fuel + 1) y e0 w = some (.error e, s) ∧ s.est.isFitted = e0.isFitted ∧
      s.world.master.paths.length = A.paths.length := by
  have hh : Hopeless A w := by
    induction hw with
    | new ω => exact .inl rfl
    | again _ hm maxIt limit fuel y e0 hr ih =>
      obtain ⟨e, s', h1, h2⟩ := hopeless_fit hd ht o hlp hip hm maxIt limit fuel y e0 ih
      rw [h1] at hr
      cases hr
      exact h2
  obtain ⟨e, s, h1, h2⟩ := hopeless_fit hd ht o hlp hip hm maxIt limit fuel y e0 hh
  refine ⟨e, s, h1, (Fit.C10_raises h1).1, ?_⟩
  rcases h2 with h2 | ⟨_, h2, _⟩
  · rw [h2]; simp [MS.init]
  · exact h2.2.2

theorem pathSum_pos {paths : List Path} {a : ℕ → ℚ} {P : Path → Prop} (h : 0 < pathSum paths a P) : ∃ p ∈ paths, P p ∧ 0 < a p.id := by
  by_contra hno
  refine absurd h (not_lt.2 ?_)
  have key : ∀ l : List ℚ, (∀ x ∈ l, x ≤ 0) → l.sum ≤ 0 := by
    intro l
    induction l with
    | nil => simp
    | cons x l ih =>
      intro hx
      rw [List.sum_cons]
      exact add_nonpos (hx x List.mem_cons_self) (ih (fun y hy => hx y (List.mem_cons_of_mem _ hy)))
  unfold pathSum
  refine key _ (fun x hx => ?_)
  obtain ⟨p, hp, rfl⟩ := List.mem_map.1 hx
  obtain ⟨h1, h2⟩ := List.mem_filter.1 hp
  by_contra hx
  exact hno ⟨p, h1, by simpa using h2, not_le.1 hx⟩

theorem pathSum_pos_of {paths : List Path} {a : ℕ → ℚ} (h0 : ∀ p ∈ paths, 0 ≤ a p.id) {P : Path → Prop} {p : Path} (hp : p ∈ paths) (hP : P p)
    (h : 0 < a p.id) : 0 < pathSum paths a P := by
  unfold pathSum
  refine lt_of_lt_of_le h (List.single_le_sum ?_ _ ?_)
  · intro x hx
    obtain ⟨q, hq, rfl⟩ := List.mem_map.1 hx
    exact h0 q (List.mem_filter.1 hq).1
  · exact List.mem_map.2 ⟨p, List.mem_filter.2 ⟨hp, by simpa using hP⟩, rfl⟩

/-- A feasible start meets the documented program. -/
theorem start_feasible {d : ℕ} {A : Args} {X : List (List ℚ)} (hs : Setup d (A.masterConf X) A.splits A.dataRows) (hp : ∀ p ∈ A.paths, GoodPath d A.splits p)
    {s : MS} (h : generateMp (A.masterConf X) (MS.init (A.paths.map (fun p => { p with initial := true })) A.splits A.dataRows) = (.ok (), s)) {a : ℕ → ℚ}
    (ha : s.m.FeasibleLP a) : MasterFeasible d (A.masterConf X) s a := by
  have hp' : ∀ p ∈ A.paths.map (fun p => { p with initial := true }), GoodPath d A.splits p := by
    intro p h
    obtain ⟨q, hq, rfl⟩ := List.mem_map.1 h
    exact ⟨⟨(hp q hq).1.1, (hp q hq).1.2, (hp q hq).1.3⟩, (hp q hq).2⟩
  have hr : Reached d (A.masterConf X) ⟨fun _ _ => noAnswer, fun _ _ => [], fun _ => noAnswer⟩ (A.paths.map (fun p => { p with initial := true })) A.splits
    A.dataRows s := .generate h
  exact ((C40_master_program hs hp' (fun _ _ _ h => by cases h) hr).1 a).1 ha

/-- **C111.** The relaxation has no solution if some leaf has no initial path. -/
theorem C111_missing_leaf {d : ℕ} {A : Args} {X : List (List ℚ)} (hs : Setup d (A.masterConf X) A.splits A.dataRows)
    (hp : ∀ p ∈ A.paths, GoodPath d A.splits p) {l : ℕ} (hl : l < 2 ^ d) (hno : ∀ p ∈ A.paths, p.leafId ≠ l) : NoStart A X := by
  rintro s h ⟨a, ha⟩
  have h1 := (start_feasible hs hp h ha).leaf l hl
  obtain ⟨p, hps, hpl, -⟩ := pathSum_pos (by rw [h1]; exact one_pos)
  obtain ⟨q, hq, hql, -⟩ := generateMp_mem h hps
  exact hno q hq (hql.symm.trans hpl)

/-- **C111.** The relaxation has no solution if two leaves below a node have no initial paths with the same split at that node. -/
theorem C111_no_common_split {d : ℕ} {A : Args} {X : List (List ℚ)} (hs : Setup d (A.masterConf X) A.splits A.dataRows)
    (hp : ∀ p ∈ A.paths, GoodPath d A.splits p) (hc : ∀ p ∈ A.paths, UsesCand A.nodes p) {l l' k k' : ℕ} (hl : l < 2 ^ d) (hl' : l' < 2 ^ d) (hk : k < d)
    (hk' : k' < d) (hn : anc d l k = anc d l' k')
    (hno : ∀ p ∈ A.paths, ∀ q ∈ A.paths, p.leafId = l → q.leafId = l' → ∀ t, (anc d l k, t) ∈ p.pairs → (anc d l k, t) ∉ q.pairs) : NoStart A X := by
  rintro s h ⟨a, ha⟩
  have hf := start_feasible hs hp h ha
  obtain ⟨p, hps, hpl, hpos⟩ := pathSum_pos (by rw [hf.leaf l hl]; exact one_pos)
  obtain ⟨q, hq, hql, hqp⟩ := generateMp_mem h hps
  have hw := (hp q hq).1
  have hqa : q.leafId = l := hql.symm.trans hpl
  -- the split of the path at the node
  obtain ⟨t, ht⟩ : ∃ t, (anc d l k, t) ∈ q.pairs := by
    have hm : anc d l k ∈ q.nodeIds := hw.nodes.mem_iff.2 (List.mem_map.2 ⟨k, List.mem_range.2 hk, by rw [hqa]⟩)
    obtain ⟨i, hi, hie⟩ := List.mem_iff_getElem.1 hm
    have hlen : q.nodeIds.length = d := by rw [hw.nodes.length_eq]; simp
    have hi2 : i < q.splits.length := by rw [hw.splits, ← hlen]; exact hi
    refine ⟨q.splits[i], ?_⟩
    unfold Path.pairs
    rw [List.mem_iff_getElem]
    exact ⟨i, by rw [List.length_zip]; omega, by rw [List.getElem_zip, hie]⟩
  have htc : t ∈ cand A.nodes (anc d l k) := hc q hq _ ht
  obtain ⟨v, hv, h1⟩ := hf.consistent l hl k hk t htc
  obtain ⟨v', hv', h2⟩ := hf.consistent l' hl' k' hk' t (hn ▸ htc)
  rw [← hn, hv] at hv'
  cases hv'
  have h3 : 0 < pathSum s.paths a (fun p => p.leafId = l ∧ (anc d l k, t) ∈ p.pairs) :=
    pathSum_pos_of hf.path_nonneg hps ⟨hpl, by rw [hqp]; exact ht⟩ hpos
  rw [h1, ← h2] at h3
  obtain ⟨p', hps', ⟨hpl', hpt'⟩, -⟩ := pathSum_pos h3
  obtain ⟨q', hq', hql', hqp'⟩ := generateMp_mem h hps'
  exact hno q hq q' hq' hqa (hql'.symm.trans hpl') t ht (by rw [← hqp', hn]; exact hpt')

/-- **C111** for a classifier constructed without initial paths (the default). -/
theorem C111_no_paths {d : ℕ} {A : Args} (hp : A.paths = []) (o : FitOracle Ω) (hlp : LpFeasible o.master) (hip : IpSound o.master) {X : List (List ℚ)}
    (hs : Setup d (A.masterConf X) A.splits A.dataRows) (maxIt : ℤ) (limit : ℚ) (fuel : ℕ) (y : List ℤ) (e0 : Fit.Est) (ω : Ω) :
    ∃ e s, fitNewS o A maxIt limit X (fuel + 1) y e0 ω = some (.error e, s) ∧ s.est.isFitted = e0.isFitted ∧ s.world.master.paths = [] := by
  obtain ⟨e, s, h1, h2, h3⟩ := C111_infeasible_start hs.depth hs.tree o hlp hip (.new ω)
    (C111_missing_leaf hs (by simp [hp]) (l := 0) (by positivity) (by simp [hp])) maxIt limit fuel y e0
  rw [hp] at h3
  exact ⟨e, s, h1, h2, List.length_eq_zero_iff.1 h3⟩

end Verif.DTree
