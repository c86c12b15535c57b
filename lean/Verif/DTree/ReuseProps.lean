import Verif.DTree.RefitProps

/-!
# Property C105: a second classifier from the argument objects of the first

`DTreeClassifier` keeps references to the objects that it is given. `self.paths_ = initial_paths` (`_dtree_classifier.py:549`) is the list of
the caller, to which `add_column` appends (`:852-925`); `add_cuts` enters cuts into the split objects of the caller, and
`compute_satisfied_paths` and `add_column` enter path ids into the data rows of the caller (`:727-732`, `:852-925`). A second classifier that is
constructed from these objects (or from `copy.deepcopy` of them) starts from what the first one left.
-/

set_option linter.unusedSectionVars false
set_option linter.unusedSimpArgs false

namespace Verif.DTree

open MP Spec
open Fit.Spec
open Verif.Fit (Ev Guided)

variable {Ω : Type} {d : ℕ} {A : Args} {X : List (List ℚ)} {y : List ℤ} {o o' : FitOracle Ω} {tol tol' : ℚ} {maxIt maxIt' : ℤ} {limit limit' : ℚ}
  {fuel fuel' : ℕ} {e0 e0' : Fit.Est} {ω ω' : Ω} {w : World Ω} {u u' : Unit} {s s' : Fit.St (World Ω) Duals Path} {res : Except Err Unit}

/-! ## The argument objects after use -/

/-- The arguments of the classifier as its caller finds them later: the list of initial paths is `paths_` of the master problem
(`_dtree_classifier.py:549`), the split objects are those of the master problem (`:553`), and so are the data rows if the caller passed any
(`:554`; otherwise the master problem creates its own, `:652-653`, and the argument stays `None`). Leaves, targets and options are not
written. Simplification: the family links of the nodes, which `preprocess_rows` writes (`:740-750`) and computes again before every use, are left as
they were; with the writes this is `Verif/DTree/Heap.lean` (C125). Simplification: the index lists of the leaf objects are not affected by the calls and shared. -/
def Args.after (A : Args) (w : World Ω) : Args where
  paths := w.master.paths
  leaves := A.leaves
  nodes := A.nodes
  splits := w.master.splits
  depth := A.depth
  targets := A.targets
  cutsRound := A.cutsRound
  betaAsCuts := A.betaAsCuts
  generateCuts := A.generateCuts
  dataRows := A.dataRows.bind fun _ => w.master.dataRows
  useOld := A.useOld

/-- The same if the caller passes shallow copies of its lists, as `examples/dtree_experiment.py:296-299` does (`paths.copy()`): the list keeps its
length, its elements are the written objects. -/
def Args.afterCopy (A : Args) (w : World Ω) : Args where
  paths := w.master.paths.take A.paths.length
  leaves := A.leaves
  nodes := A.nodes
  splits := w.master.splits
  depth := A.depth
  targets := A.targets
  cutsRound := A.cutsRound
  betaAsCuts := A.betaAsCuts
  generateCuts := A.generateCuts
  dataRows := A.dataRows.bind fun _ => w.master.dataRows
  useOld := A.useOld

/-- The assertions of the constructor (`_dtree_classifier.py:2441-2469`, property C57) for these arguments. -/
def Args.accepted (A : Args) : Except Err Unit := initChecks A.paths A.leaves A.nodes A.splits A.depth (A.targets.map (fun t : ℕ => (t : ℤ)))

/-! ## Between the calls -/

/-- After construction, or after a `fit`. -/
theorem session_state (hf : FitOk d A X (encoded y)) (hc : FitContract d A X o tol) (hy : TwoClasses y) (h : Session o A X y w) :
    w.master = MS.init (marked A) A.splits A.dataRows ∨ ∃ cuts, Warm d A X (encoded y) o w.master w.numCuts w.subs cuts := by
  induction h with
  | new ω => exact Or.inl rfl
  | idle h ω ih => exact ih
  | @fit w h maxIt limit fuel e0 r hr ih =>
    obtain ⟨res, s⟩ := r
    have hw := session_inv hf hc hy h
    obtain rfl := succeeds_from hf hc hy hw hr
    obtain ⟨old, new, hm⟩ := fit_mid hf hc hy hw hr
    exact Or.inr ⟨_, hm.warm (fit_updated hr)⟩

theorem mapIdx_marked : (A.paths.mapIdx fun i p => { p with
    id := i
    initial := true }) = (marked A).mapIdx fun i p => { p with id := i } := by
  unfold marked
  apply List.ext_getElem?
  intro i
  simp only [List.getElem?_mapIdx, List.getElem?_map, Option.map_map]
  rfl

/-- The initial paths stay at the front of the list. -/
theorem reached_prefix {c : Conf} {o : Oracle} {paths : List Path} {splits : List Split} {dataRows : Option (List Row)} {s : MS}
    (h : Reached d c o paths splits dataRows s) : (paths.mapIdx fun i p => { p with id := i }) <+: s.paths ∧ s.generated = true := by
  induction h with
  | generate h =>
    refine ⟨by rw [paths_generate h], ?_⟩
    unfold generateMp at h
    rw [if_neg (by simp [MS.init])] at h
    cases hcm : createCutModel c.leaves (MS.init paths splits dataRows).splits (MS.init paths splits dataRows).paths with
    | error e => rw [hcm] at h; cases h
    | ok r =>
      rw [hcm] at h
      cases h
      rfl
  | @again s h ih =>
    unfold generateMp
    rw [if_pos ih.2]
    exact ih
  | @column s h p hp ih =>
    obtain ⟨k1, k2⟩ := addColumn_kept c p s
    exact ⟨ih.1.trans k1, k2.trans ih.2⟩
  | beta h ih => exact ih
  | @cuts s h ih =>
    have e := Prod.ext_iff.1 (addCuts_kept o s)
    exact ⟨by rw [show (addCuts o s).2.paths = s.paths from e.1]; exact ih.1, e.2.trans ih.2⟩
  | @rmp s h ih =>
    have e := Prod.ext_iff.1 (solveRmp_kept c o s)
    exact ⟨by rw [show (solveRmp c o s).2.paths = s.paths from e.1]; exact ih.1, e.2.trans ih.2⟩
  | @ip s h ih =>
    have e := Prod.ext_iff.1 (solveIp_kept o s)
    exact ⟨by rw [show (solveIp o s).2.paths = s.paths from e.1]; exact ih.1, e.2.trans ih.2⟩

theorem Same.refl' (splits : List Split) : Same splits splits := rfl

theorem Same.distinct {splits splits' : List Split} (h : Same splits splits') (hd : Distinct splits') : Distinct splits := by
  intro i hi j hj hij hfe
  rw [h.length] at hi hj
  rw [(h.at i).1, (h.at j).1] at hfe
  rw [(h.at i).2, (h.at j).2]
  exact hd i hi j hj hij hfe

theorem Same.ids {splits splits' : List Split} (h : Same splits splits') : splits.map (·.id) = splits'.map (·.id) := by
  have := congrArg (List.map (fun q : ℕ × ℕ × ℚ × List ℕ × List ℕ => q.1)) h
  simpa [List.map_map, Function.comp_def] using this

/-- The paths and splits after use. -/
theorem after_spec (hf : FitOk d A X (encoded y)) (hc : FitContract d A X o tol) (hy : TwoClasses y) (h : Session o A X y w) :
    Same w.master.splits A.splits ∧ (∀ p ∈ w.master.paths, Spec.Origin d A X (encoded y) p ∨ ∃ q ∈ A.paths, p = { q with initial := true }) ∧
    (w.master.cutCons = [] → ∀ sp ∈ w.master.splits, sp.leftCuts = [] ∧ sp.rightCuts = []) ∧
    ∃ new, w.master.paths.map (fun p => { p with id := 0 }) = A.paths.map (fun p => { p with
      id := 0
      initial := true }) ++ new := by
  rcases session_state hf hc hy h with e | ⟨cuts, hw⟩
  · rw [e]
    refine ⟨rfl, ?_, fun _ => hf.setup.no_cuts, [], ?_⟩
    · intro p hp
      obtain ⟨q, hq, rfl⟩ := List.mem_map.1 hp
      exact Or.inr ⟨q, hq, rfl⟩
    · rw [List.append_nil]
      change (marked A).map _ = _
      unfold marked
      rw [List.map_map]
      rfl
  · obtain ⟨cuts0, own0, cd0, hi⟩ := reached_inv hf.setup (marked_good hf) hc.cut hw.reached
    refine ⟨hi.same, fun p hp => Or.inl (hw.origin p hp), ?_, ?_⟩
    · intro h0 sp hsp
      have e : cuts0 = [] := by
        have := hi.cutlen
        rw [h0] at this
        exact List.length_eq_zero_iff.1 this.symm
      have := hi.cutsFilled sp hsp
      subst e
      constructor
      · refine List.eq_nil_iff_forall_not_mem.2 fun i hi' => ?_
        simpa using (this i).1.1 hi'
      · refine List.eq_nil_iff_forall_not_mem.2 fun i hi' => ?_
        simpa using (this i).2.1 hi'
    · obtain ⟨⟨t, ht⟩, -⟩ := reached_prefix hw.reached
      refine ⟨t.map (fun p => { p with id := 0 }), ?_⟩
      rw [← ht, List.map_append]
      congr 1
      rw [← mapIdx_marked]
      apply List.ext_getElem?
      intro i
      simp only [List.getElem?_mapIdx, List.getElem?_map, Option.map_map]
      rfl

/-- The path list after use contains a tree, for every tree of the initial paths. -/
theorem after_tree (hf : FitOk d A X (encoded y)) (hc : FitContract d A X o tol) (hy : TwoClasses y) (h : Session o A X y w)
    {σ : ℕ → ℕ} {P : ℕ → Path} (hP : HasTree d A.paths σ P) :
    ∃ Q, HasTree d (w.master.paths.take A.paths.length) σ Q ∧ ∀ l < 2 ^ d, (Q l).cost = (P l).cost := by
  classical
  have key : ∀ q ∈ A.paths, ∃ i, { q with
      id := i
      initial := true } ∈ w.master.paths.take A.paths.length := by
    intro q hq
    rcases session_state hf hc hy h with e | ⟨cuts, hw⟩
    · rw [e]
      refine ⟨q.id, ?_⟩
      change _ ∈ (marked A).take _
      rw [List.take_of_length_le (by simp [marked])]
      exact List.mem_map.2 ⟨q, hq, rfl⟩
    · obtain ⟨⟨t, ht⟩, -⟩ := reached_prefix hw.reached
      obtain ⟨i, hi, rfl⟩ := List.mem_iff_getElem.1 hq
      refine ⟨i, ?_⟩
      rw [← ht, List.take_append_of_le_length (by simp [marked]), List.take_of_length_le (by simp [marked]), ← mapIdx_marked]
      exact List.mem_mapIdx.2 ⟨i, hi, rfl⟩
  have : ∀ l, ∃ q : Path, l < 2 ^ d → q ∈ w.master.paths.take A.paths.length ∧ q.leafId = l ∧ (∀ x ∈ q.pairs, x.2 = σ x.1) ∧ q.cost = (P l).cost := by
    intro l
    by_cases hl : l < 2 ^ d
    · obtain ⟨h1, h2, h3⟩ := hP l hl
      obtain ⟨i, hi⟩ := key _ h1
      exact ⟨_, fun _ => ⟨hi, h2, h3, rfl⟩⟩
    · exact ⟨P l, fun h => absurd h hl⟩
  choose Q hQ using this
  exact ⟨Q, fun l hl => ⟨(hQ l hl).1, (hQ l hl).2.1, (hQ l hl).2.2.1⟩, fun l hl => (hQ l hl).2.2.2⟩

theorem after_good (hf : FitOk d A X (encoded y)) (hc : FitContract d A X o tol) (hy : TwoClasses y) (h : Session o A X y w) :
    ∀ p ∈ w.master.paths, GoodPath d A.splits p ∧ UsesCand A.nodes p := by
  intro p hp
  rcases (after_spec hf hc hy h).2.1 p hp with (⟨q, hq, i, rfl⟩ | hcol) | ⟨q, hq, rfl⟩
  · exact ⟨⟨⟨(hf.good q hq).1.leaf_lt, (hf.good q hq).1.nodes, (hf.good q hq).1.splits⟩, (hf.good q hq).2⟩, hf.cand q hq⟩
  · exact ⟨hcol.good, hcol.cand⟩
  · exact ⟨⟨⟨(hf.good q hq).1.leaf_lt, (hf.good q hq).1.nodes, (hf.good q hq).1.splits⟩, (hf.good q hq).2⟩, hf.cand q hq⟩

/-! ## C105 -/

/-- **C105.** What `fit` does to the objects of the caller, in any number of calls: the list of initial paths begins with the initial paths,
marked as initial, followed by the generated ones; ids, features, thresholds and row sets of the splits are kept, and their cut sets are empty
if no cut was added. -/
theorem C105_objects (hf : FitOk d A X (encoded y)) (hc : FitContract d A X o tol) (hy : TwoClasses y) (h : Session o A X y w) :
    (∃ new, (A.after w).paths.map (fun p => { p with id := 0 }) = A.paths.map (fun p => { p with
      id := 0
      initial := true }) ++ new) ∧
    (A.after w).splits.map (fun sp => (sp.id, sp.feature, sp.threshold, sp.leftRows, sp.rightRows)) =
      A.splits.map (fun sp => (sp.id, sp.feature, sp.threshold, sp.leftRows, sp.rightRows)) ∧
    (w.master.cutCons = [] → ∀ sp ∈ (A.after w).splits, sp.leftCuts = [] ∧ sp.rightCuts = []) :=
  ⟨(after_spec hf hc hy h).2.2.2, (after_spec hf hc hy h).1, (after_spec hf hc hy h).2.2.1⟩

/-- **C105.** The constructor accepts the used objects unless a path with the target `-1` was generated; then it raises `AssertionError`. With
shallow copies of the lists it always accepts them. -/
theorem C105_constructor (hf : FitOk d A X (encoded y)) (hc : FitContract d A X o tol) (hy : TwoClasses y) (h : Session o A X y w)
    (h0 : A.accepted = .ok ()) :
    ((∀ p ∈ w.master.paths, p.target ≠ -1) → (A.after w).accepted = .ok ()) ∧
    ((∃ p ∈ w.master.paths, p.target = -1) → (A.after w).accepted = .error .assertionError) ∧
    (A.afterCopy w).accepted = .ok () := by
  obtain ⟨hsame, horig, -, new, hnew⟩ := after_spec hf hc hy h
  have hgood := after_good hf hc hy h
  obtain ⟨k1, k2, k3⟩ := (C57_tree_init A.paths A.leaves A.nodes A.splits A.depth (A.targets.map (fun t : ℕ => (t : ℤ)))).1.1 h0
  have hT := hf.setup.tree
  have hsp : ∀ x < A.splits.length, ∃ sp ∈ w.master.splits, sp.id = x := by
    intro x hx
    rw [← hsame.length] at hx
    exact ⟨_, List.getElem_mem hx, hsame.id hT.split_id x _ (List.getElem?_eq_getElem hx)⟩
  have hnd : ∀ x < 2 ^ d - 1, ∃ n ∈ A.nodes, n.id = x := by
    intro x hx
    have hl : A.nodes.length = 2 ^ d - 1 := hT.nodes_length
    exact ⟨_, List.getElem_mem (by omega : x < A.nodes.length), hT.node_id x _ (List.getElem?_eq_getElem (by change x < A.nodes.length; omega))⟩
  have hlf : ∀ p, WFPath d p → ∃ l ∈ A.leaves, l.id = p.leafId := by
    intro p hp
    have e : A.leaves = fullLeaves d := hT.leaves
    rw [e]
    exact ⟨_, List.mem_map.2 ⟨p.leafId, List.mem_range.2 hp.leaf_lt, rfl⟩, rfl⟩
  have hpath : ∀ p ∈ w.master.paths, (∃ l ∈ A.leaves, l.id = p.leafId) ∧ (∀ x ∈ p.nodeIds, ∃ n ∈ A.nodes, n.id = x) ∧
        (∀ x ∈ p.splits, ∃ s ∈ w.master.splits, s.id = x) ∧ p.nodeIds.length = A.depth ∧ p.splits.length = A.depth := by
    intro p hp
    obtain ⟨⟨hw, hlt⟩, -⟩ := hgood p hp
    refine ⟨hlf p hw, ?_, fun x hx => hsp x (hlt x hx), ?_, ?_⟩
    · intro x hx
      obtain ⟨k, hk, rfl⟩ := List.mem_map.1 (hw.nodes.subset hx)
      exact hnd _ (anc_lt hw.leaf_lt (List.mem_range.1 hk))
    · rw [hw.nodes.length_eq, hf.depth]
      simp
    · rw [hw.splits, hf.depth]
  have htgt : ∀ p ∈ w.master.paths, p.target ≠ -1 → p.target ∈ A.targets.map (fun t : ℕ => (t : ℤ)) := by
    intro p hp hne
    rcases horig p hp with (⟨q, hq, i, rfl⟩ | hcol) | ⟨q, hq, rfl⟩
    · exact (k3 q hq).2.2.2.1
    · rcases hcol.target with ⟨t, ht, e⟩ | ⟨e, -⟩
      · exact List.mem_map.2 ⟨t, ht, e.symm⟩
      · exact absurd e hne
    · exact (k3 q hq).2.2.2.1
  refine ⟨?_, ?_, ?_⟩
  · intro hne
    refine (C57_tree_init _ _ _ _ _ _).1.2 ⟨k1, k2, ?_⟩
    intro p hp
    obtain ⟨a1, a2, a3, a4, a5⟩ := hpath p hp
    exact ⟨a1, a2, a3, htgt p hp (hne p hp), a4, a5⟩
  · rintro ⟨p, hp, hneg⟩
    refine (C57_tree_init _ _ _ _ _ _).2 ?_
    intro hok
    have := (((C57_tree_init _ _ _ _ _ _).1.1 hok).2.2 p hp).2.2.2.1
    rw [hneg] at this
    obtain ⟨t, -, e⟩ := List.mem_map.1 this
    change (t : ℤ) = -1 at e
    omega
  · refine (C57_tree_init _ _ _ _ _ _).1.2 ⟨k1, k2, ?_⟩
    intro p hp
    have hp' : p ∈ w.master.paths := List.take_subset _ _ hp
    obtain ⟨a1, a2, a3, a4, a5⟩ := hpath p hp'
    refine ⟨a1, a2, a3, ?_, a4, a5⟩
    have e : (w.master.paths.take A.paths.length).map (fun p => { p with id := 0 }) = A.paths.map (fun p => { p with
        id := 0
        initial := true }) := by
      rw [List.map_take, hnew, List.take_append_of_le_length (by simp), List.take_of_length_le (by simp)]
    have hm : { p with id := 0 } ∈ (w.master.paths.take A.paths.length).map (fun p => { p with id := 0 }) := List.mem_map.2 ⟨p, hp, rfl⟩
    rw [e] at hm
    obtain ⟨q, hq, eq⟩ := List.mem_map.1 hm
    have ht : q.target = p.target := (Path.mk.injEq .. ▸ eq).2.2.2.2.2.1
    change p.target ∈ A.targets.map _
    rw [← ht]
    exact (k3 q hq).2.2.2.1

theorem reuse_ok (hf : FitOk d A X (encoded y)) (hc : FitContract d A X o tol) (hy : TwoClasses y) (h : Session o A X y w)
    (hcuts : w.master.cutCons = []) (L : List Path) (hL : ∀ p ∈ L, p ∈ w.master.paths) (hT : ∃ σ P, HasTree d L σ P) :
    FitOk d ⟨L, A.leaves, A.nodes, w.master.splits, A.depth, A.targets, A.cutsRound, A.betaAsCuts, A.generateCuts, A.dataRows, A.useOld⟩ X (encoded y) := by
  obtain ⟨hsame, -, hcut, -⟩ := after_spec hf hc hy h
  have hgood := after_good hf hc hy h
  have hT0 := hf.setup.tree
  refine ⟨⟨hf.setup.depth, ⟨hT0.leaves, hT0.nodes_length, hT0.node_id, hsame.id hT0.split_id, ?_, hT0.cand_nodup⟩, hsame.filled hf.setup.filled,
    hcut hcuts, hf.setup.rows⟩, hf.depth, hsame.distinct hf.distinct, ?_, fun p hp => (hgood p (hL p hp)).2, hT, hf.targets, hf.y_lt, hf.removed, hf.weights⟩
  · intro n hn x hx
    rw [hsame.length]
    exact hT0.cand_lt n hn x hx
  · intro p hp
    obtain ⟨g1, g2⟩ := (hgood p (hL p hp)).1
    exact ⟨g1, fun t ht => by change t < w.master.splits.length; rw [hsame.length]; exact g2 t ht⟩

/-- **C105, part that holds.** If no cut was added and no data rows were passed (or the caller makes the data rows anew), the used objects are
fit for a second classifier: they satisfy the conditions of C71 - C74 and C92, with the list of the first or with shallow copies. -/
theorem C105_reuse_partial (hf : FitOk d A X (encoded y)) (hc : FitContract d A X o tol) (hy : TwoClasses y) (h : Session o A X y w)
    (hcuts : w.master.cutCons = []) (hrows : A.dataRows = none) :
    FitOk d (A.after w) X (encoded y) ∧ FitOk d (A.afterCopy w) X (encoded y) := by
  obtain ⟨σ, P, hP⟩ := hf.tree
  obtain ⟨Q, hQ, -⟩ := after_tree hf hc hy h hP
  have e1 : (A.after w).dataRows = A.dataRows := by rw [hrows]; unfold Args.after; rw [hrows]; rfl
  have h1 := reuse_ok hf hc hy h hcuts w.master.paths (fun _ hp => hp) ⟨σ, Q, fun l hl => ⟨List.take_subset _ _ (hQ l hl).1, (hQ l hl).2⟩⟩
  have h2 := reuse_ok hf hc hy h hcuts (w.master.paths.take A.paths.length) (fun _ hp => List.take_subset _ _ hp) ⟨σ, Q, hQ⟩
  rw [← e1] at h1 h2
  exact ⟨h1, h2⟩

/-- **C105, part that holds.** Under these conditions the second classifier can be fitted with any solvers that meet their contracts: its `fit`
ends and raises nothing, and if its integer master problem is solved to optimality, the costs of its tree add up to at least those of the tree
of the first. -/
theorem C105_second_fit_partial (hf : FitOk d A X (encoded y)) (hc : FitContract d A X o tol) (hy : TwoClasses y) (h : Session o A X y w)
    (hr : Fit.fit (env o A X) (config A maxIt limit) fuel y e0 w = some (.ok u, s)) (hcuts : s.world.master.cutCons = []) (hrows : A.dataRows = none)
    (hc' : FitContract d (A.after s.world) X o' tol') :
    (∃ r, fitNew o' (A.after s.world) maxIt' limit' X (enough d (A.after s.world) X) y e0' ω = some r) ∧
    (∀ res s', fitNew o' (A.after s.world) maxIt' limit' X fuel' y e0' ω = some (res, s') → res = .ok () ∧
      (IpOptimal d (A.after s.world) X o' → (s.world.master.selected.map (·.cost)).sum ≤ (s'.world.master.selected.map (·.cost)).sum)) := by
  have hs' : Session o A X y s.world := .fit h maxIt limit fuel e0 hr
  have hf' := (C105_reuse_partial hf hc hy hs' hcuts hrows).1
  refine ⟨C71_terminates hf' hc' maxIt' limit' e0' ω, ?_⟩
  intro res s' hr'
  obtain rfl := C71_fit_succeeds hf' hc' hy hr'
  refine ⟨rfl, fun hip => ?_⟩
  obtain ⟨s1, σ, P, -, -, hM, ht, hperm, -⟩ := fit_final hf hc hy (session_inv hf hc hy h) hr
  rw [(hperm.map _).sum_eq, List.map_map]
  refine C73_beats_initial_trees hf' hc' hy hip hr' (σ := σ) (P := P) ?_
  intro l hl
  refine ⟨?_, ht.leaf l hl, ht.splits l hl⟩
  change P l ∈ s.world.master.paths
  rw [hM, solveIp_paths]
  exact ht.mem l hl

/-- **C105.** Data rows that were passed to a fitted classifier are used up: each contains the ids of the paths that it follows, of which there is
at least one, so that they do not meet the condition for a second classifier that no path is recorded as reachable. -/
theorem C105_rows_used_up (hf : FitOk d A X (encoded y)) (hc : FitContract d A X o tol) (hy : TwoClasses y) (h : Session o A X y w)
    (hr : Fit.fit (env o A X) (config A maxIt limit) fuel y e0 w = some (.ok u, s)) (hrows : A.dataRows ≠ none) :
    ∃ rows, (A.after s.world).dataRows = some rows ∧ rows.length = X.length ∧ ∀ (r : ℕ) (row : Row), rows[r]? = some row →
      (∀ i, i ∈ row.reachablePaths ↔ ∃ p ∈ s.world.master.paths, p.id = i ∧ Follows d (rowLeft A.splits (X.getD r [])) p) ∧
      row.reachablePaths ≠ [] := by
  have hs' : Session o A X y s.world := .fit h maxIt limit fuel e0 hr
  obtain ⟨old, new, hm⟩ := fit_mid hf hc hy (session_inv hf hc hy h) hr
  obtain ⟨cuts0, own0, cd0, hi⟩ := reached_inv hf.setup (marked_good hf) hc.cut hm.reached
  obtain ⟨rows, e, hlen, hdata⟩ := hi.data
  refine ⟨rows, ?_, hlen, ?_⟩
  · cases ha : A.dataRows with
    | none => exact absurd ha hrows
    | some l => unfold Args.after; rw [ha]; exact e
  · intro r row hrow
    refine ⟨(hdata r row hrow).2, ?_⟩
    intro hnil
    obtain ⟨σ, P, hP⟩ := hf.tree
    obtain ⟨Q, hQ, -⟩ := hasTree_reached hf hc.cut hm.reached hP
    have hl := walkLeaf_lt (fun n => rowLeft A.splits (X.getD r []) (σ n)) d
    obtain ⟨q1, q2, q3⟩ := hQ _ hl
    have hfol := (follows_tree (hi.good _ q1).1 q3 (rowLeft A.splits (X.getD r []))).2 q2
    have := ((hdata r row hrow).2 _).2 ⟨_, q1, rfl, hfol⟩
    rw [hnil] at this
    cases this

end Verif.DTree
