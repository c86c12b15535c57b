import Verif.DTree.RefitProps
import Verif.Fit.Prog
import Verif.Fit.Props2

/-!
# Property C115: `DTreeClassifier.fit` called again on other data

`generate_mp` returns before the data are stored when the master problem exists (`_dtree_classifier.py:622-626`), so the master problem keeps
the `X_` of the first `fit`. The exact pricing problems store the new data (`_dtree_classifier.py:1862-1863`, `1889-1890`, `2344-2345`), but
compare features with thresholds only when their model is created; afterwards they read the number of rows and, in `DTreeSubProblemOld`, the
labels. The heuristic reads the number of rows and the labels.
-/

set_option linter.unusedSectionVars false
set_option linter.unusedSimpArgs false

namespace Verif.DTree

open MP Spec
open Fit.Spec
open Verif.Fit (Ev Guided Agree)

variable {Ω : Type} {d : ℕ} {A : Args} {X X0 X1 X2 : List (List ℚ)} {y y1 y2 : List ℤ} {o : FitOracle Ω} {tol : ℚ} {maxIt maxIt' : ℤ}
  {limit limit' : ℚ} {fuel fuel' : ℕ} {e0 e0' : Fit.Est} {ω : Ω} {w w0 : World Ω} {u u' : Unit} {s s' : Fit.St (World Ω) Duals Path}

/-- The plug-ins during a `fit` on the features `X` of a classifier whose master problem was generated from the features `X0`,
`_dtree_classifier.py:622-626`: the methods of the master problem read `self.X_`, the subproblems are passed `X`. (`generate_mp` itself does
nothing then.) -/
def envOn (o : FitOracle Ω) (A : Args) (X0 X : List (List ℚ)) : Fit.Env (World Ω) Duals Path :=
  { env o A X0 with
    update := fun l i D w => updateAt A X l i D w
    generate := fun l i D w => generateAt o A X l i D w }

theorem envOn_self (o : FitOracle Ω) (A : Args) (X : List (List ℚ)) : envOn o A X X = env o A X := rfl

namespace Spec

/-- The master problem and all exact pricing problems have created their models. -/
structure Built (A : Args) (w : World Ω) : Prop where
  master : w.master.generated = true
  subs : ∀ i < (A.subConfs [] []).length, (w.subs i).generated = true

end Spec

/-! ## The pricing problems with other features -/

/-- The pricing problem with other features. -/
def SubConf.withX (c : SubConf) (X : List (List ℚ)) : SubConf := { c with X := X }

theorem subConfs_withX (A : Args) (X X' : List (List ℚ)) (y : List ℕ) :
    A.subConfs X' y = (A.subConfs X y).map (fun c => c.withX X') := by
  unfold Args.subConfs
  rw [List.map_flatMap]
  congr 1
  funext leaf
  split_ifs
  · rw [List.map_map]; rfl
  · rfl

variable {c : SubConf}

theorem kept_withX (h : X.length = c.X.length) : (c.withX X).kept = c.kept := by
  unfold SubConf.kept SubConf.withX
  simp only [h]
  rfl

theorem updateObjective_withX (h : X.length = c.X.length) (D : Duals) (st : SubSt) :
    (c.withX X).updateObjective D st = c.updateObjective D st := by
  have e : ∀ n, (c.withX X).objTerms D n = c.objTerms D n := by
    intro n
    unfold SubConf.objTerms
    rw [kept_withX h]
    rfl
  unfold SubConf.updateObjective SubConf.setObjective
  rw [e]
  rfl

theorem refresh_withX (h : X.length = c.X.length) (D : Duals) {st : SubSt} (hg : st.generated = true) :
    (c.withX X).refresh D st = c.refresh D st := by
  unfold SubConf.refresh
  rw [if_pos hg, if_pos hg, updateObjective_withX h]
  rfl

theorem update_withX (h : X.length = c.X.length) (D : Duals) {st : SubSt} (hg : st.generated = true) :
    (c.withX X).update D st = c.update D st := by
  unfold SubConf.update
  rw [refresh_withX h D hg]
  rfl

theorem costOf_withX (h : X.length = c.X.length) (st : SubSt) (val : ℕ → ℚ) : (c.withX X).costOf st val = c.costOf st val := by
  unfold SubConf.costOf
  rw [kept_withX h]
  rfl

theorem generateMip_withX (h : X.length = c.X.length) (st : SubSt) (ans : Answer) : (c.withX X).generateMip st ans = c.generateMip st ans := by
  unfold SubConf.generateMip
  rw [costOf_withX h]
  rfl

theorem generateSat_withX (h : X.length = c.X.length) (D : Duals) (sols : Model → List (ℕ → ℚ)) {st : SubSt} (hg : st.generated = true) :
    (c.withX X).generateSat D sols st = c.generateSat D sols st := by
  have e : ∀ st1, (c.withX X).callback D st1 = c.callback D st1 := by
    intro st1
    funext acc val
    have e1 : (c.withX X).origObjective D st1 val = c.origObjective D st1 val := by
      unfold SubConf.origObjective
      rw [costOf_withX h, kept_withX h]
      rfl
    unfold SubConf.callback
    rw [e1, costOf_withX h]
    rfl
  unfold SubConf.generateSat
  rw [refresh_withX h D hg]
  cases c.refresh D st with
  | error e => rfl
  | ok st1 => simp only [e]

theorem heur_withX (h : X.length = X0.length) (A : Args) (y : List ℕ) (D : Duals) (dr : Draws) (st : HeurSt) :
    (A.heurConf X y).generate D dr st = (A.heurConf X0 y).generate D dr st := by
  have e1 : ∀ splits p rows, (A.heurConf X y).reducedCost splits D p rows = (A.heurConf X0 y).reducedCost splits D p rows := by
    intro splits p rows
    unfold HConf.reducedCost Args.heurConf
    simp only [h]
  have e2 : ∀ splits i gen, (A.heurConf X y).round splits D dr i gen = (A.heurConf X0 y).round splits D dr i gen := by
    intro splits i gen
    unfold HConf.round
    simp only [e1]
    rfl
  have e3 : ∀ splits l gen f, (A.heurConf X y).rounds splits D dr l gen f = (A.heurConf X0 y).rounds splits D dr l gen f := by
    intro splits l
    induction l with
    | nil => intro gen f; rfl
    | cons i l ih =>
      intro gen f
      unfold HConf.rounds
      rw [e2]
      simp only [ih]
  unfold HConf.generate
  rw [e3]

/-! ## `generated_` is never reset -/

theorem newVars_generated (l : List SV) : ∀ st : SubSt, (st.newVars l).generated = st.generated := by
  induction l with
  | nil => intro st; rfl
  | cons a l ih => intro st; exact (ih (st.newVar a)).trans rfl

theorem addLins_generated (l : List Lin) : ∀ st : SubSt, (st.addLins l).generated = st.generated := by
  induction l with
  | nil => intro st; rfl
  | cons a l ih => intro st; exact (ih (st.addLin a)).trans rfl

theorem refresh_generated {D : Duals} {st st1 : SubSt} (h : c.refresh D st = .ok st1) : st1.generated = true := by
  unfold SubConf.refresh at h
  split_ifs at h with h1 h2
  · obtain rfl := Except.ok.inj h
    exact (newVars_generated _ st).trans h2
  · obtain rfl := Except.ok.inj h
    rfl

theorem addCutRows_generated (rows : List (List Bool)) (st : SubSt) : (c.addCutRows rows st).generated = st.generated :=
  addLins_generated _ st

theorem update_generated (D : Duals) {st : SubSt} (hg : st.generated = true) : (c.update D st).2.generated = true := by
  unfold SubConf.update
  by_cases h : c.kind = .sat ∧ D.newCuts.length = 0
  · rw [if_pos h]
    exact hg
  · rw [if_neg h]
    cases hr : c.refresh D st with
    | error e => exact hg
    | ok st1 =>
      simp only
      split
      · exact (addCutRows_generated _ _).trans (refresh_generated hr)
      · exact refresh_generated hr

theorem update_ok_generated {D : Duals} {st : SubSt} (hk : c.kind ≠ .sat) (h : (c.update D st).1 = .ok u) : (c.update D st).2.generated = true := by
  unfold SubConf.update at h ⊢
  rw [if_neg (fun h => hk h.1)] at h ⊢
  cases hr : c.refresh D st with
  | error e => rw [hr] at h; cases h
  | ok st1 =>
    simp only
    split_ifs
    · exact (addCutRows_generated _ _).trans (refresh_generated hr)
    · exact refresh_generated hr

theorem generateSat_generated (D : Duals) (sols : Model → List (ℕ → ℚ)) {st : SubSt} (hg : st.generated = true) :
    (c.generateSat D sols st).2.generated = true := by
  unfold SubConf.generateSat
  cases hr : c.refresh D st with
  | error e => exact hg
  | ok st1 => exact refresh_generated hr

theorem generateSat_ok_generated {D : Duals} {sols : Model → List (ℕ → ℚ)} {st : SubSt} {ps : List Path}
    (h : (c.generateSat D sols st).1 = .ok ps) : (c.generateSat D sols st).2.generated = true := by
  unfold SubConf.generateSat at h ⊢
  cases hr : c.refresh D st with
  | error e => rw [hr] at h; cases h
  | ok st1 => exact refresh_generated hr

/-- The models that exist keep existing. -/
theorem updateAt_subs (A : Args) (X : List (List ℚ)) (l i : ℕ) (D : Duals) (w : World Ω) (j : ℕ) (h : (w.subs j).generated = true) :
    ((updateAt A X l i D w).2.subs j).generated = true := by
  unfold updateAt
  split_ifs
  · exact h
  · split
    · exact h
    · next c hc =>
      change ((Function.update w.subs i (c.update D (w.subs i)).2) j).generated = true
      by_cases hj : j = i
      · subst hj
        rw [Function.update_self]
        exact update_generated D h
      · rw [Function.update_of_ne hj]
        exact h

theorem generateAt_subs (o : FitOracle Ω) (A : Args) (X : List (List ℚ)) (l i : ℕ) (D : Duals) (w : World Ω) (j : ℕ)
    (h : (w.subs j).generated = true) : ((generateAt o A X l i D w).2.subs j).generated = true := by
  unfold generateAt
  split_ifs
  · exact h
  · split
    · exact h
    · next c hc =>
      unfold priceAt
      split_ifs
      · exact h
      · change ((Function.update w.subs i _) j).generated = true
        by_cases hj : j = i
        · subst hj
          rw [Function.update_self]
          exact generateSat_generated D _ h
        · rw [Function.update_of_ne hj]
          exact h

theorem updateAt_kept (A : Args) (X : List (List ℚ)) (l i : ℕ) (D : Duals) (w : World Ω) :
    kept (updateAt A X l i D w).2.master = kept w.master := by
  unfold updateAt
  split_ifs
  · rfl
  · split <;> rfl

theorem generateAt_kept (o : FitOracle Ω) (A : Args) (X : List (List ℚ)) (l i : ℕ) (D : Duals) (w : World Ω) :
    kept (generateAt o A X l i D w).2.master = kept w.master := by
  unfold generateAt
  split_ifs
  · rfl
  · split
    · rfl
    · unfold priceAt
      split_ifs <;> rfl

theorem kept_generated {s s' : MS} (h : kept s' = kept s) (hg : s.generated = true) : s'.generated = true :=
  ((Prod.ext_iff.1 h).2 : s'.generated = s.generated).trans hg

theorem built_guided (o : FitOracle Ω) (A : Args) (X0 X : List (List ℚ)) (cfg : Fit.Config) (py : List ℕ) :
    Guided (envOn o A X0 X) cfg py (fun w _ => Built A w) where
  clock w tr h := ⟨h.master, h.subs⟩
  timer w tr t hp h := h
  check w tr s t hp h := h
  flag w tr hp h := h
  clear w tr h := h
  generateMp w t h := ⟨by
    change (generateMp (A.masterConf X0) w.master).2.generated = true
    unfold generateMp
    rw [if_pos h.master]
    exact h.master, h.subs⟩
  solveRmp w tr hp ha h := ⟨kept_generated (solveRmp_kept _ _ _) h.master, h.subs⟩
  improved w tr hp ha h := h
  update w tr l i D hp ha h := ⟨kept_generated (updateAt_kept _ _ _ _ _ _) h.master, fun j hj => updateAt_subs _ _ _ _ _ _ _ (h.subs j hj)⟩
  generate w tr l i D hp ha h := ⟨kept_generated (generateAt_kept _ _ _ _ _ _ _) h.master, fun j hj => generateAt_subs _ _ _ _ _ _ _ _ (h.subs j hj)⟩
  add w tr l i p hp ha h := ⟨(addColumn_kept _ _ _).2.trans h.master, h.subs⟩
  solveIp w tr hp ha h := ⟨kept_generated (solveIp_kept _ _) h.master, h.subs⟩

theorem envOn_agree (o : FitOracle Ω) (A : Args) (X0 : List (List ℚ)) (h : X2.length = X1.length) (cfg : Fit.Config) (py : List ℕ) :
    Agree (envOn o A X0 X1) (envOn o A X0 X2) cfg py (fun w _ => Built A w) where
  clock := rfl
  flag := rfl
  clear := rfl
  generateMp w t h := rfl
  solveRmp w tr hp ha h := rfl
  improved w tr hp ha h := rfl
  update w tr l i D hp ha hb := by
    change updateAt A X2 l i D w = updateAt A X1 l i D w
    unfold updateAt
    rw [subConfs_withX A X1 X2, List.getElem?_map]
    cases hc : (A.subConfs X1 w.y)[i]? with
    | none => rfl
    | some c =>
      have hX : c.X = X1 := by
        have := List.mem_of_getElem? hc
        rw [subConfs_withX A X1 X1, List.mem_map] at this
        obtain ⟨c', -, rfl⟩ := this
        rfl
      have hi : i < (A.subConfs [] []).length := by
        rw [subConfs_length [] X1 [] w.y]
        exact (List.getElem?_eq_some_iff.1 hc).1
      simp only [Option.map_some]
      rw [update_withX (h.trans (by rw [hX])) D (hb.subs i hi)]
  generate w tr l i D hp ha hb := by
    change generateAt o A X2 l i D w = generateAt o A X1 l i D w
    unfold generateAt
    rw [subConfs_withX A X1 X2, List.getElem?_map, heur_withX h]
    cases hc : (A.subConfs X1 w.y)[i]? with
    | none => rfl
    | some c =>
      have hX : c.X = X1 := by
        have := List.mem_of_getElem? hc
        rw [subConfs_withX A X1 X1, List.mem_map] at this
        obtain ⟨c', -, rfl⟩ := this
        rfl
      have hi : i < (A.subConfs [] []).length := by
        rw [subConfs_length [] X1 [] w.y]
        exact (List.getElem?_eq_some_iff.1 hc).1
      have hX' : X2.length = c.X.length := h.trans (by rw [hX])
      have e : priceAt o (c.withX X2) i D w = priceAt o c i D w := by
        unfold priceAt
        simp only [generateMip_withX hX', generateSat_withX hX' D _ (hb.subs i hi)]
        rfl
      simp only [Option.map_some, e]
  add w tr l i p hp ha h := rfl
  solveIp w tr hp ha h := rfl

/-! ## A certified fit leaves everything built -/

/-- Subproblems that answered have created their models. -/
def Answered (A : Args) (w : World Ω) (tr : List (Ev Duals Path)) : Prop :=
  ((∃ y, Ev.generateMp y (.ok ()) ∈ tr) → w.master.generated = true) ∧
  (∀ i D ps, Ev.generate 1 i D (.ok ps) ∈ tr → A.useOld = false → i < (A.subConfs [] []).length → (w.subs i).generated = true) ∧
  (∀ i D, Ev.update 1 i D (.ok ()) ∈ tr → A.useOld = true → i < (A.subConfs [] []).length → (w.subs i).generated = true)

theorem generateMp_ok_generated {c : Conf} {s0 s : MS} (h : generateMp c s0 = (.ok (), s)) : s.generated = true := by
  unfold generateMp at h
  split at h
  · cases h; assumption
  · split at h
    · cases h
    · cases h; rfl

theorem answered_preserved (o : FitOracle Ω) (A : Args) (X0 X : List (List ℚ)) : Fit.Preserved (envOn o A X0 X) (Answered A) where
  clock w tr h := h
  timer w tr t h := by simpa [Answered] using h
  check w tr s t h := by simpa [Answered] using h
  flag w tr h := by simpa [Answered] using h
  clear w tr h := h
  generateMp w tr y h := by
    refine ⟨?_, ?_, ?_⟩
    · rintro ⟨y', hy'⟩
      have hkeep : w.master.generated = true → (generateMp (A.masterConf X0) w.master).2.generated = true := by
        intro hg
        unfold generateMp
        rw [if_pos hg]
        exact hg
      rcases List.mem_append.1 hy' with h1 | h1
      · exact hkeep (h.1 ⟨y', h1⟩)
      · have h2 := List.mem_singleton.1 h1
        injection h2 with h3 h4
        change (generateMp (A.masterConf X0) w.master).2.generated = true
        change _ = (generateMp (A.masterConf X0) w.master).1 at h4
        exact generateMp_ok_generated (Prod.ext h4.symm rfl)
    · intro i D ps hm
      exact h.2.1 i D ps (by simpa using hm)
    · intro i D hm
      exact h.2.2 i D (by simpa using hm)
  solveRmp w tr h := ⟨fun hm => kept_generated (solveRmp_kept _ _ _) (h.1 (by simpa using hm)),
    fun i D ps hm => h.2.1 i D ps (by simpa using hm), fun i D hm => h.2.2 i D (by simpa using hm)⟩
  improved w tr h := by simpa [Answered, envOn, env] using h
  update w tr l i D h := by
    refine ⟨fun hm => kept_generated (updateAt_kept _ _ _ _ _ _) (h.1 (by simpa using hm)), ?_, ?_⟩
    · intro j D' ps hm ho hj
      exact updateAt_subs _ _ _ _ _ _ _ (h.2.1 j D' ps (by simpa using hm) ho hj)
    · intro j D' hm ho hj
      rcases List.mem_append.1 hm with h1 | h1
      · exact updateAt_subs _ _ _ _ _ _ _ (h.2.2 j D' h1 ho hj)
      · have h2 := List.mem_singleton.1 h1
        injection h2 with h3 h4 h5 h6
        subst h3 h4 h5
        change _ = (updateAt A X 1 j D' w).1 at h6
        change ((updateAt A X 1 j D' w).2.subs j).generated = true
        unfold updateAt at h6 ⊢
        rw [if_neg one_ne_zero] at h6 ⊢
        cases hc : (A.subConfs X w.y)[j]? with
        | none => rw [hc] at h6; cases h6
        | some c =>
          rw [hc] at h6
          change (Function.update w.subs j _ j).generated = true
          rw [Function.update_self]
          refine update_ok_generated ?_ h6.symm
          have hcm := List.mem_of_getElem? hc
          unfold Args.subConfs at hcm
          obtain ⟨leaf, -, hcm⟩ := List.mem_flatMap.1 hcm
          rw [if_pos ho] at hcm
          obtain ⟨t, -, rfl⟩ := List.mem_map.1 hcm
          simp [Args.subConf]
  generate w tr l i D h := by
    refine ⟨fun hm => kept_generated (generateAt_kept _ _ _ _ _ _ _) (h.1 (by simpa using hm)), ?_, ?_⟩
    · intro j D' ps hm ho hj
      rcases List.mem_append.1 hm with h1 | h1
      · exact generateAt_subs _ _ _ _ _ _ _ _ (h.2.1 j D' ps h1 ho hj)
      · have h2 := List.mem_singleton.1 h1
        injection h2 with h3 h4 h5 h6
        subst h3 h4 h5
        change _ = (generateAt o A X 1 j D' w).1 at h6
        change ((generateAt o A X 1 j D' w).2.subs j).generated = true
        unfold generateAt at h6 ⊢
        rw [if_neg one_ne_zero] at h6 ⊢
        cases hc : (A.subConfs X w.y)[j]? with
        | none => rw [hc] at h6; cases h6
        | some c =>
          rw [hc] at h6
          have hold : c.isOld = false := by
            have hcm := List.mem_of_getElem? hc
            unfold Args.subConfs at hcm
            obtain ⟨leaf, -, hcm⟩ := List.mem_flatMap.1 hcm
            rw [ho] at hcm
            simp only [Bool.false_eq_true, if_false, List.mem_singleton] at hcm
            subst hcm
            rfl
          simp only at h6 ⊢
          unfold priceAt at h6 ⊢
          simp only [hold, Bool.false_eq_true, if_false] at h6 ⊢
          rw [Function.update_self]
          exact generateSat_ok_generated h6.symm
    · intro j D' hm ho hj
      exact generateAt_subs _ _ _ _ _ _ _ _ (h.2.2 j D' (by simpa using hm) ho hj)
  add w tr l i p h := ⟨fun hm => (addColumn_kept _ _ _).2.trans (h.1 (by simpa using hm)),
    fun i D ps hm => h.2.1 i D ps (by simpa using hm), fun i D hm => h.2.2 i D (by simpa using hm)⟩
  solveIp w tr h := ⟨fun hm => kept_generated (solveIp_kept _ _) (h.1 (by simpa using hm)),
    fun i D ps hm => h.2.1 i D ps (by simpa using hm), fun i D hm => h.2.2 i D (by simpa using hm)⟩

/-- A `fit` that returns with `mp_optimal_` has asked all pricing problems. -/
theorem built_of_optimal (hr : Fit.fit (envOn o A X0 X) (config A maxIt limit) fuel y e0 w = some (.ok u, s)) (hopt : s.est.mpOptimal = true)
    (hw : Answered A w []) : Built A s.world := by
  obtain ⟨h1, h2, h3⟩ := (answered_preserved o A X0 X).fit _ fuel y e0 w hw _ hr
  obtain ⟨hpos, -, -, hgen⟩ := Fit.C03_mp_optimal hr hopt
  have hclean : ∀ ev ∈ s.trace, raised? ev = none := by
    intro ev hm
    cases he : raised? ev with
    | none => rfl
    | some er => exact absurd (Fit.C64_propagates hr hm he).1 (by simp)
  refine ⟨h1 ?_, fun i hi => ?_⟩
  · obtain ⟨ev, hm, he⟩ := List.countP_pos_iff.1 hpos
    cases ev <;> simp [isRmp] at he
    exact Fit.generateMp_of_rmp (Fit.fit_protocol hr) hm
  · obtain ⟨D, res, hm⟩ := hgen 1 (A.subConfs [] []).length i rfl hi
    have hm := Fit.since_subset _ _ _ hm
    cases ho : A.useOld with
    | false =>
      cases res with
      | error er => exact absurd (hclean _ hm) (by simp [raised?])
      | ok ps => exact h2 i D ps hm ho hi
    | true =>
      have hp : ((1 : ℕ), i) ∈ updPos (round s.trace) := by
        rw [fit_updated hr]
        exact ((Fit.C12_positions _).1 1 i).2 ⟨_, rfl, hi⟩
      obtain ⟨ev, hm', he⟩ := List.mem_filterMap.1 hp
      cases ev <;> simp [upd?] at he
      next l' i' D' r =>
      obtain ⟨rfl, rfl⟩ := he
      have hm' := Fit.since_subset _ _ _ hm'
      cases r with
      | error er => exact absurd (hclean _ hm') (by simp [raised?])
      | ok v => exact h3 i' D' hm' ho hi

/-! ## C115 -/

theorem features_ignored (h2 : X2.length = X1.length) (hb : Built A w) (cfg : Fit.Config) :
    Fit.fit (envOn o A X0 X2) cfg fuel y e0 w = Fit.fit (envOn o A X0 X1) cfg fuel y e0 w := by
  have h12 : ∀ r, Fit.fit (envOn o A X0 X1) cfg fuel y e0 w = some r → Fit.fit (envOn o A X0 X2) cfg fuel y e0 w = some r := fun r hr =>
    Fit.fit_congr (built_guided o A X0 X1 cfg _) (envOn_agree o A X0 h2 cfg _) hb hr
  have h21 : ∀ r, Fit.fit (envOn o A X0 X2) cfg fuel y e0 w = some r → Fit.fit (envOn o A X0 X1) cfg fuel y e0 w = some r := fun r hr =>
    Fit.fit_congr (built_guided o A X0 X2 cfg _) (envOn_agree o A X0 h2.symm cfg _) hb hr
  cases h : Fit.fit (envOn o A X0 X1) cfg fuel y e0 w with
  | some r => exact h12 r h
  | none =>
    cases h' : Fit.fit (envOn o A X0 X2) cfg fuel y e0 w with
    | none => rfl
    | some r => rw [h21 r h'] at h; cases h

/-- **C115.** A second `fit` of a tree classifier does not look at the features it is given. If the first `fit`, on the features `X`, ended with
`mp_optimal_`, then a second `fit` on any features `X2` with as many rows runs, for the same labels, limits and answers of the solvers, exactly like
a second `fit` on `X`: it makes the same calls and raises the same exception or ends in the same state. -/
theorem C115_features (hr : Fit.fit (env o A X) (config A maxIt limit) fuel y e0 (World.init A ω) = some (.ok u, s))
    (hopt : s.est.mpOptimal = true) {X2 : List (List ℚ)} (h2 : X2.length = X.length) (ω' : Ω) (y2 : List ℤ) :
    Fit.fit (envOn o A X X2) (config A maxIt' limit') fuel' y2 e0' { s.world with ω := ω' } =
      Fit.fit (env o A X) (config A maxIt' limit') fuel' y2 e0' { s.world with ω := ω' } := by
  have hb : Built A s.world := built_of_optimal (X0 := X) hr hopt ⟨by simp, by simp, by simp⟩
  exact features_ignored h2 (w := { s.world with ω := ω' }) ⟨hb.master, hb.subs⟩ _

/-- **C115.** The same for every later `fit`: all states in which the models exist, and all pairs of feature matrices with equally many rows. -/
theorem C115_built (hb : Built A w) (h2 : X2.length = X1.length) :
    Fit.fit (envOn o A X X2) (config A maxIt limit) fuel y e0 w = Fit.fit (envOn o A X X1) (config A maxIt limit) fuel y e0 w ∧
    ∀ r, Fit.fit (envOn o A X X2) (config A maxIt limit) fuel y e0 w = some r → Built A r.2.world :=
  ⟨features_ignored h2 hb _, fun _ hr => (built_guided o A X X2 _ _).fit hb hr⟩

/-- **C115.** Consequence: a second `fit` on the old labels and arbitrary new features of the same number succeeds and returns a tree that is at
least as good as the first one *on the old features*. -/
theorem C115_old_tree (hf : FitOk d A X (encoded y)) (hc : FitContract d A X o tol) (hy : TwoClasses y) (hip : IpOptimal d A X o)
    (h0 : ∀ p ∈ A.paths, p.cost ≤ hitsOf d (Args.base A d X (encoded y)) p p.target)
    (hr : Fit.fit (env o A X) (config A maxIt limit) fuel y e0 (World.init A ω) = some (.ok u, s)) (hopt : s.est.mpOptimal = true)
    {X2 : List (List ℚ)} (h2 : X2.length = X.length) (ω' : Ω) (maxIt' : ℤ) (limit' : ℚ) (e0' : Fit.Est) :
    ∃ s', Fit.fit (envOn o A X X2) (config A maxIt' limit') (enough d A X) y e0' { s.world with ω := ω' } = some (.ok (), s') ∧
      (s.world.master.selected.map (·.cost)).sum ≤ trainHits d A X (encoded y) s'.world.master.splits s'.world.master.selected := by
  rw [C115_features hr hopt h2]
  have hs : Session o A X y { s.world with ω := ω' } := .idle (.fit (.new ω) maxIt limit fuel e0 hr) ω'
  obtain ⟨s', hs'⟩ := C92_refit_succeeds hf hc hy hs maxIt' limit' e0'
  exact ⟨s', hs', (C92_hits hf hc hy hip h0 (.new ω) hr ω' hs').1⟩

end Verif.DTree
