import Verif.DTree.OrderSub
import Mathlib.Order.Monotone.Basic

/-!
# C95: the decision tree classifier sees the data only through the answers to the split questions
-/

set_option linter.unusedSectionVars false
set_option linter.unusedSimpArgs false

namespace Verif.DTree

open MP Spec Fit

variable {Ω : Type}

namespace Spec

/-- The classifier uses known splits only, and `data_rows`, if given, fits the data. -/
structure KnownSplits (A : Args) (X : List (List ℚ)) : Prop where
  paths : ∀ p ∈ A.paths, ∀ t ∈ p.splits, t < A.splits.length
  cands : ∀ n ∈ A.nodes, ∀ t ∈ n.candidateSplits, t < A.splits.length
  rows : ∀ rows, A.dataRows = some rows → rows.length = X.length

/-- The row `row'` answers the questions of `L'` as `row` answers those of `L`. -/
def SameAnswers (L L' : List Split) (row row' : List ℚ) : Prop := ∀ i < L.length, takesLeft row' (splitAt L' i) = takesLeft row (splitAt L i)

/-- A split with another question: the feature is renamed and the threshold expressed on another scale. -/
def recode (π : ℕ → ℕ) (g : ℕ → ℚ → ℚ) (sp : Split) : Split :=
  { sp with
    feature := π sp.feature
    threshold := g sp.feature sp.threshold }

/-- In the row `row'` the features used by the splits are stored at other places and on other scales. -/
def Recoded (L : List Split) (π : ℕ → ℕ) (g : ℕ → ℚ → ℚ) (row row' : List ℚ) : Prop :=
  ∀ sp ∈ L, feat row' (π sp.feature) = g sp.feature (feat row sp.feature)

end Spec

/-- Two worlds that differ in the questions of the splits only. -/
structure AlikeW (A A' : Args) (X X' : List (List ℚ)) (w w' : World Ω) : Prop where
  same : w' = { w with master := w'.master }
  master : Alike A.splits A'.splits X X' w.master w'.master

section
variable {A A' : Args} {X X' : List (List ℚ)} {o : FitOracle Ω}

theorem cands_known (hk : KnownSplits A X) (n : ℕ) : ∀ t ∈ (nodeAt A.nodes n).candidateSplits, t < A.splits.length := by
  intro t ht
  unfold nodeAt at ht
  rw [List.getD_eq_getElem?_getD] at ht
  cases hn : A.nodes[n]? with
  | none => rw [hn] at ht; simp [Node.none] at ht
  | some nd =>
    rw [hn] at ht
    exact hk.cands nd (List.mem_of_getElem? hn) t ht

theorem subConfs_alike (hs : A' = { A with splits := A'.splits }) (hq : SameQuestions X X' A.splits A'.splits) (hk : KnownSplits A X) (y : List ℕ)
    (i : ℕ) : ((A.subConfs X y)[i]? = none ∧ (A'.subConfs X' y)[i]? = none) ∨
      ∃ c c', (A.subConfs X y)[i]? = some c ∧ (A'.subConfs X' y)[i]? = some c' ∧ Cousin c c' ∧
        ∀ n, ∀ t ∈ c.cands n, t < A.splits.length := by
  have e : A'.subConfs X' y = (A.subConfs X y).map (fun c => { c with splits := A'.splits, X := X' }) := by
    unfold Args.subConfs
    rw [hs]
    simp only [List.map_flatMap]
    refine List.flatMap_congr (fun leaf _ => ?_)
    split
    · rw [List.map_map]
      rfl
    · rfl
  have hm : ∀ c ∈ A.subConfs X y, c.X = X ∧ c.splits = A.splits ∧ c.nodes = A.nodes := by
    intro c hc
    unfold Args.subConfs at hc
    obtain ⟨leaf, -, hc⟩ := List.mem_flatMap.1 hc
    split at hc
    · obtain ⟨t, -, rfl⟩ := List.mem_map.1 hc
      exact ⟨rfl, rfl, rfl⟩
    · rw [List.mem_singleton.1 hc]
      exact ⟨rfl, rfl, rfl⟩
  cases hc : (A.subConfs X y)[i]? with
  | none => exact Or.inl ⟨rfl, by rw [e]; simp [hc]⟩
  | some c =>
    obtain ⟨h1, h2, h3⟩ := hm c (List.mem_of_getElem? hc)
    have hcd : ∀ n, ∀ t ∈ c.cands n, t < A.splits.length := by
      intro n t ht
      unfold SubConf.cands at ht
      rw [h3] at ht
      exact cands_known hk n t ht
    refine Or.inr ⟨c, { c with splits := A'.splits, X := X' }, rfl, by rw [e]; simp [hc], ⟨rfl, ?_, ?_⟩, hcd⟩
    · rw [h1, h2]
      exact hq
    · rw [h2]
      exact hcd

theorem twins (hs : A' = { A with splits := A'.splits }) (hq : SameQuestions X X' A.splits A'.splits) (hk : KnownSplits A X) :
    Twins (env o A X) (env o A' X') (Known A.splits) (AlikeW A A' X X') := by
  have hmc : A'.masterConf X' = { A.masterConf X with X := X' } := by
    unfold Args.masterConf
    rw [hs]
  have hhc : ∀ y, A'.heurConf X' y = { A.heurConf X y with X := X' } := by
    intro y
    unfold Args.heurConf
    rw [hs]
  have hknown : ∀ {w w' : World Ω} {p : Path}, AlikeW A A' X X' w w' → Known A.splits p → Known w.master.splits p := by
    intro w w' p h hp t ht
    rw [h.master.asks.1.1]
    exact hp t ht
  constructor
  · intro w w' h
    obtain ⟨h1, h2⟩ := h
    generalize w'.master = m' at h1 h2
    subst h1
    exact ⟨rfl, rfl, h2⟩
  · intro y w w' h
    obtain ⟨h1, h2⟩ := h
    generalize w'.master = m' at h1 h2
    subst h1
    have := generateMp_alike (c := A.masterConf X) rfl h2
    rw [← hmc] at this
    exact ⟨this.1, rfl, this.2⟩
  · intro w w' h
    obtain ⟨h1, h2⟩ := h
    generalize w'.master = m' at h1 h2
    subst h1
    have := solveRmp_alike (A.masterConf X) rfl o.master h2
    rw [← hmc] at this
    exact ⟨this.1, rfl, this.2⟩
  · intro w w' h
    refine ⟨?_, h⟩
    change Except.ok _ = Except.ok _
    rw [h.master.same]
    rfl
  · exact fun _ _ _ => rfl
  · exact fun _ _ h => h
  · intro l i D w w' h
    change (updateAt A X l i D w).1 = (updateAt A' X' l i D w').1 ∧ AlikeW A A' X X' (updateAt A X l i D w).2 (updateAt A' X' l i D w').2
    obtain ⟨h1, h2⟩ := h
    generalize w'.master = m' at h1 h2
    subst h1
    unfold updateAt
    split
    · refine ⟨rfl, rfl, ?_⟩
      obtain ⟨hsame, hq, hp, hsel, hrows, hst⟩ := h2
      generalize m'.splits = L' at hsame hq hst
      subst hsame
      exact ⟨rfl, hq.addCuts _ _, fun p hpm => known_addCuts _ _ (hp p hpm), fun p hpm => known_addCuts _ _ (hsel p hpm), hrows,
        hst.1.addCuts _ _, hst.2.addCuts _ _⟩
    · simp only
      rcases subConfs_alike hs hq hk w.y i with ⟨e1, e2⟩ | ⟨c, c', e1, e2, hc, -⟩
      · rw [e1, e2]
        exact ⟨rfl, rfl, h2⟩
      · rw [e1, e2]
        simp only
        rw [hc.update]
        exact ⟨rfl, rfl, h2⟩
  · intro l i D w w' h
    change (generateAt o A X l i D w).1 = (generateAt o A' X' l i D w').1 ∧
      AlikeW A A' X X' (generateAt o A X l i D w).2 (generateAt o A' X' l i D w').2
    obtain ⟨h1, h2⟩ := h
    generalize w'.master = m' at h1 h2
    subst h1
    unfold generateAt
    split
    · simp only
      unfold HConf.generate World.heur
      simp only
      rw [hhc, rounds_alike h2.quest (c := A.heurConf X w.y) rfl]
      obtain ⟨hsame, hq, hp, hsel, hrows, hst⟩ := h2
      generalize m'.splits = L' at hsame hq hst
      subst hsame
      split
      · exact ⟨rfl, rfl, rfl, hq, hp, hsel, hrows, hst⟩
      · exact ⟨rfl, rfl, rfl, hq, hp, hsel, hrows, hst⟩
    · simp only
      rcases subConfs_alike hs hq hk w.y i with ⟨e1, e2⟩ | ⟨c, c', e1, e2, hc, -⟩
      · rw [e1, e2]
        exact ⟨rfl, rfl, h2⟩
      · rw [e1, e2]
        simp only
        unfold priceAt
        rw [hc.isOld]
        simp only
        rw [hc.generateMip, hc.generateSat]
        split
        · exact ⟨rfl, rfl, h2⟩
        · exact ⟨rfl, rfl, h2⟩
  · intro l i D w w' ps h hps
    change (generateAt o A X l i D w).1 = .ok ps at hps
    unfold generateAt at hps
    split at hps
    · simp only [HConf.generate] at hps
      have key := rounds_known (L := A.splits) (c := A.heurConf X w.y) (fun n => cands_known hk n) w.heur.splits D (o.draws w.ω).1 (List.range 100) []
        w.heur.failed ps
      revert hps key
      generalize HConf.rounds (A.heurConf X w.y) w.heur.splits D (o.draws w.ω).1 (List.range 100) [] w.heur.failed = r
      obtain ⟨r, f⟩ := r
      intro hps key
      cases r with
      | error e => simp at hps
      | ok qs => exact key hps (by simp)
    · rcases subConfs_alike hs hq hk w.y i with ⟨e1, -⟩ | ⟨c, c', e1, -, hc, hcd⟩
      · rw [e1] at hps
        simp at hps
      · rw [e1] at hps
        simp only [priceAt] at hps
        split at hps
        · simp only [Except.ok.injEq] at hps
          rw [← hps]
          exact generateMip_known A.splits hcd _ _
        · exact generateSat_known A.splits hcd _ _ _ hps
  · intro p w w' hp h
    have hp' := hknown h hp
    obtain ⟨h1, h2⟩ := h
    generalize w'.master = m' at h1 h2
    subst h1
    have := addColumn_alike (c := A.masterConf X) hp' h2
    rw [← hmc] at this
    exact ⟨this.1, rfl, this.2⟩
  · intro w w' h
    obtain ⟨h1, h2⟩ := h
    generalize w'.master = m' at h1 h2
    subst h1
    have := solveIp_alike o.master h2
    exact ⟨this.1, rfl, this.2⟩

theorem init_alike (hs : A' = { A with splits := A'.splits }) (hq : SameQuestions X X' A.splits A'.splits) (hk : KnownSplits A X) (ω : Ω) :
    AlikeW A A' X X' (World.init A ω) (World.init A' ω) := by
  generalize A'.splits = L' at hs hq
  subst hs
  refine ⟨rfl, rfl, hq, ?_, ?_, fun _ => hk.rows, ⟨rfl, fun _ => ⟨rfl, rfl⟩⟩, ⟨rfl, fun _ => ⟨rfl, rfl⟩⟩⟩
  · intro p hp
    obtain ⟨p0, hp0, rfl⟩ := List.mem_map.1 hp
    exact hk.paths p0 hp0
  · intro p hp
    change p ∈ [] at hp
    simp at hp

theorem predict_alike {w w' : World Ω} (h : AlikeW A A' X X' w w') (hs : A' = { A with splits := A'.splits }) {Z Z' : List (List ℚ)}
    (hz : List.Forall₂ (SameAnswers A.splits A'.splits) Z Z') (cls : List ℤ) :
    predict cls A'.leaves w'.master.splits w'.master.selected Z' = predict cls A.leaves w.master.splits w.master.selected Z := by
  have hsel : w'.master.selected = w.master.selected := by rw [h.master.same]
  have hlv : A'.leaves = A.leaves := by rw [hs]
  unfold predict
  rw [hsel, hlv]
  congr 1
  have hst := h.master.asks
  have hp := h.master.selected
  revert hst hp
  generalize w'.master.splits = M'
  generalize w.master.splits = M
  intro hst hp
  induction hz with
  | nil => rfl
  | cons hr _ ih =>
    rename_i row row' _ _ _
    simp only [List.map_cons]
    rw [ih]
    congr 1
    have hr' : ∀ i < M.length, takesLeft row' (splitAt M' i) = takesLeft row (splitAt M i) := by
      intro i hi
      have := hr i (by rw [← hst.1.1]; exact hi)
      unfold takesLeft at this ⊢
      rw [(hst.1.2 i).1, (hst.1.2 i).2, (hst.2.2 i).1, (hst.2.2 i).2]
      exact this
    revert hp
    generalize w.master.selected = sel
    intro hp
    induction sel with
    | nil => rfl
    | cons p ps ihp =>
      unfold predictRow
      rw [rowSatisfiesPath_alike hr' _ (hp p List.mem_cons_self), ihp (fun q hq => hp q (List.mem_cons_of_mem _ hq))]

theorem predictFitted_alike {s s' : St (World Ω) Duals Path} (h : Twin (AlikeW A A' X X') s s') (hs : A' = { A with splits := A'.splits })
    {Z Z' : List (List ℚ)} (hz : List.Forall₂ (SameAnswers A.splits A'.splits) Z Z') : predictFitted A' s' Z' = predictFitted A s Z := by
  unfold predictFitted
  rw [← h.est]
  exact predict_alike h.world hs hz _

theorem config_alike (hs : A' = { A with splits := A'.splits }) (iters : ℤ) (limit : ℚ) : config A' iters limit = config A iters limit := by
  unfold config
  have : (A'.subConfs [] []).length = (A.subConfs [] []).length := by
    generalize A'.splits = L' at hs
    subst hs
    unfold Args.subConfs
    simp only [List.length_flatMap]
    congr 1
    refine List.map_congr_left (fun leaf _ => ?_)
    split <;> simp
  rw [this]

/-- C95: change the data and the questions of the splits together so that every training row answers every question as before, two
questions concern the same feature as before, and the thresholds of a feature stand in the same order. Then `fit` makes the same run
(whatever the solvers, the random draws and the clock do): it ends if and only if it ended, normally or with the same exception, all
attributes agree, the calls on the master problem and the subproblems and their results agree, the same paths are selected, and `predict` on
rows that answer the questions alike returns the same labels. -/
theorem C95_same_run (hs : A' = { A with splits := A'.splits }) (hq : SameQuestions X X' A.splits A'.splits) (hk : KnownSplits A X)
    (iters : ℤ) (limit : ℚ) (fuel : ℕ) (y : List ℤ) (e0 : Est) (ω : Ω) :
    (fitNew o A' iters limit X' fuel y e0 ω = none ↔ fitNew o A iters limit X fuel y e0 ω = none) ∧
    ∀ r s, fitNew o A iters limit X fuel y e0 ω = some (r, s) →
      ∃ s', fitNew o A' iters limit X' fuel y e0 ω = some (r, s') ∧ s'.est = s.est ∧ s'.trace = s.trace ∧
        s'.world.master.selected = s.world.master.selected ∧ s'.world.master.m = s.world.master.m ∧
        ∀ Z Z', List.Forall₂ (SameAnswers A.splits A'.splits) Z Z' → predictFitted A' s' Z' = predictFitted A s Z := by
  have h := fit_twin (twins (o := o) hs hq hk) (config A iters limit) fuel y e0 (init_alike hs hq hk ω)
  unfold fitNew
  rw [config_alike hs]
  obtain ⟨h1, h2⟩ := h.cases
  refine ⟨h1, fun r s hr => ?_⟩
  obtain ⟨s', e1, h3⟩ := h2 r s hr
  exact ⟨s', e1, h3.est.symm, h3.trace.symm, by rw [h3.world.master.same], by rw [h3.world.master.same],
    fun Z Z' hz => predictFitted_alike h3 hs hz⟩

/-! ## Renamed features and other scales -/

theorem splitAt_map {L : List Split} (f : Split → Split) {i : ℕ} (hi : i < L.length) : splitAt (L.map f) i = f (splitAt L i) := by
  rw [splitAt_getElem hi, splitAt_getElem (by simpa using hi)]
  simp

theorem splitAt_mem {L : List Split} {i : ℕ} (hi : i < L.length) : splitAt L i ∈ L := by
  rw [splitAt_getElem hi]
  exact List.getElem_mem _

theorem sameAnswers_recode {L : List Split} {π : ℕ → ℕ} {g : ℕ → ℚ → ℚ} (hg : ∀ f, StrictMono (g f)) {row row' : List ℚ} (h : Recoded L π g row row') :
    SameAnswers L (L.map (recode π g)) row row' := by
  intro i hi
  rw [splitAt_map _ hi]
  unfold takesLeft recode
  simp only
  rw [h _ (splitAt_mem hi), decide_eq_decide]
  exact (hg _).le_iff_le

theorem sameQuestions_recode {L : List Split} {π : ℕ → ℕ} {g : ℕ → ℚ → ℚ} (hπ : Function.Injective π) (hg : ∀ f, StrictMono (g f))
    (hx : List.Forall₂ (Recoded L π g) X X') : SameQuestions X X' L (L.map (recode π g)) := by
  refine ⟨hx.length_eq.symm, ?_, ?_, ?_, ?_⟩
  · rw [List.map_map]
    rfl
  · intro r hr
    have h1 : r < X'.length := by rw [← hx.length_eq]; exact hr
    have h2 : Recoded L π g X[r] X'[r] := by
      have := (List.forall₂_iff_get.1 hx).2 r hr h1
      simpa using this
    have := sameAnswers_recode hg h2
    unfold SameAnswers at this
    simpa [List.getD_eq_getElem?_getD, List.getElem?_eq_getElem hr, List.getElem?_eq_getElem h1] using this
  · intro i hi j hj
    rw [splitAt_map _ hi, splitAt_map _ hj]
    exact hπ.eq_iff
  · intro i hi j hj hf
    rw [splitAt_map _ hi, splitAt_map _ hj]
    unfold recode
    simp only
    rw [hf]
    exact (hg _).lt_iff_lt

/-- C95, corollary: store the features at other places (`π`, injective) and on other scales (`g f`, strictly increasing), in the data and in
the splits alike. Nothing changes: `fit` makes the same run and `predict` returns the same labels. -/
theorem C95_recoded {π : ℕ → ℕ} {g : ℕ → ℚ → ℚ} (hπ : Function.Injective π) (hg : ∀ f, StrictMono (g f))
    (hx : List.Forall₂ (Recoded A.splits π g) X X') (hk : KnownSplits A X) (iters : ℤ) (limit : ℚ) (fuel : ℕ) (y : List ℤ) (e0 : Est) (ω : Ω) :
    (fitNew o { A with splits := A.splits.map (recode π g) } iters limit X' fuel y e0 ω = none ↔ fitNew o A iters limit X fuel y e0 ω = none) ∧
    ∀ r s, fitNew o A iters limit X fuel y e0 ω = some (r, s) →
      ∃ s', fitNew o { A with splits := A.splits.map (recode π g) } iters limit X' fuel y e0 ω = some (r, s') ∧ s'.est = s.est ∧
        s'.trace = s.trace ∧ s'.world.master.selected = s.world.master.selected ∧
        ∀ Z Z', List.Forall₂ (Recoded A.splits π g) Z Z' →
          predictFitted { A with splits := A.splits.map (recode π g) } s' Z' = predictFitted A s Z := by
  have hq := sameQuestions_recode hπ hg hx
  obtain ⟨h1, h2⟩ := C95_same_run (o := o) (A := A) (A' := { A with splits := A.splits.map (recode π g) }) rfl hq hk iters limit fuel y e0 ω
  refine ⟨h1, fun r s hr => ?_⟩
  obtain ⟨s', e1, e2, e3, e4, -, e5⟩ := h2 r s hr
  exact ⟨s', e1, e2, e3, e4, fun Z Z' hz => e5 Z Z' (hz.imp (fun _ _ h => sameAnswers_recode hg h))⟩

/-- The row sets that the experiment stores in the splits do not change either. -/
theorem C95_rows {L : List Split} {π : ℕ → ℕ} {g : ℕ → ℚ → ℚ} (hg : ∀ f, StrictMono (g f)) (hx : List.Forall₂ (Recoded L π g) X X') :
    addRowsToSplits (L.map (recode π g)) X' = (addRowsToSplits L X).map (recode π g) := by
  unfold addRowsToSplits
  rw [List.map_map, List.map_map]
  refine List.map_congr_left (fun sp hsp => ?_)
  simp only [Function.comp_apply]
  rw [hx.length_eq]
  have key : ∀ (rs : List ℕ) (a : Split), (∀ r ∈ rs, r < X'.length) → a.feature = sp.feature → a.threshold = sp.threshold →
      rs.foldl (fun sp r => if feat (X'.getD r []) sp.feature ≤ sp.threshold then { sp with leftRows := setAdd sp.leftRows r }
        else { sp with rightRows := setAdd sp.rightRows r }) (recode π g a) =
      recode π g (rs.foldl (fun sp r => if feat (X.getD r []) sp.feature ≤ sp.threshold then { sp with leftRows := setAdd sp.leftRows r }
        else { sp with rightRows := setAdd sp.rightRows r }) a) := by
    intro rs
    induction rs with
    | nil => exact fun _ _ _ _ => rfl
    | cons r rs ih =>
      intro a hrs hf ht
      simp only [List.foldl_cons]
      have h1 : r < X'.length := hrs r List.mem_cons_self
      have h0 : r < X.length := by rw [hx.length_eq]; exact h1
      have h2 : Recoded L π g X[r] X'[r] := by
        have := (List.forall₂_iff_get.1 hx).2 r h0 h1
        simpa using this
      have h3 := h2 sp hsp
      have h4 : feat (X'.getD r []) (recode π g a).feature ≤ (recode π g a).threshold ↔ feat (X.getD r []) a.feature ≤ a.threshold := by
        unfold recode
        simp only [hf, ht]
        rw [List.getD_eq_getElem?_getD, List.getElem?_eq_getElem h1, List.getD_eq_getElem?_getD, List.getElem?_eq_getElem h0]
        simp only [Option.getD_some]
        rw [h3]
        exact (hg _).le_iff_le
      have h5 := fun r' hr' => hrs r' (List.mem_cons_of_mem _ hr')
      by_cases hc : feat (X.getD r []) a.feature ≤ a.threshold
      · rw [if_pos hc, if_pos (h4.2 hc)]
        exact ih { a with leftRows := setAdd a.leftRows r } h5 hf ht
      · rw [if_neg hc, if_neg (fun h => hc (h4.1 h))]
        exact ih { a with rightRows := setAdd a.rightRows r } h5 hf ht
  exact key _ sp (by simp) rfl rfl

end

end Verif.DTree
