import Verif.DTree.FitProps

/-!
# Property C92: `DTreeClassifier.fit` called again on the same data

`generate_mp` returns at once when the master problem exists (`_dtree_classifier.py:623-624`), so that a second `fit` continues with the paths,
cuts and pricing problems of the first.
-/

set_option linter.unusedSectionVars false
set_option linter.unusedSimpArgs false

namespace Verif.DTree

open MP Spec
open Fit.Spec
open Verif.Fit (Ev Guided)

variable {Ω : Type} {d : ℕ} {A : Args} {X : List (List ℚ)} {y : List ℤ} {o : FitOracle Ω} {tol : ℚ} {maxIt maxIt' : ℤ} {limit limit' : ℚ}
  {fuel fuel' : ℕ} {e0 e0' : Fit.Est} {ω : Ω} {w w0 : World Ω} {u u' : Unit} {s s' : Fit.St (World Ω) Duals Path}

namespace Spec

/-- The states of a classifier that is constructed and then fitted any number of times on the data `X`, `y`. The limits, the attributes of the
estimator and the hidden state may be changed between the calls. -/
inductive Session (o : FitOracle Ω) (A : Args) (X : List (List ℚ)) (y : List ℤ) : World Ω → Prop
  | new (ω : Ω) : Session o A X y (World.init A ω)
  | idle {w : World Ω} (h : Session o A X y w) (ω : Ω) : Session o A X y { w with ω := ω }
  | fit {w : World Ω} (h : Session o A X y w) (maxIt : ℤ) (limit : ℚ) (fuel : ℕ) (e0 : Fit.Est) {r : Except Err Unit × Fit.St (World Ω) Duals Path}
      (hr : Fit.fit (env o A X) (config A maxIt limit) fuel y e0 w = some r) : Session o A X y r.2.world

end Spec

/-! ## The invariant between the calls -/

/-- In the last round of a successful `fit` all subproblems were updated. -/
theorem fit_updated {W D Col : Type} {env : Fit.Env W D Col} {cfg : Fit.Config} {fuel : ℕ} {y : List ℤ} {e0 : Fit.Est} {w0 : W} {u : Unit}
    {s : Fit.St W D Col} (hr : Fit.fit env cfg fuel y e0 w0 = some (.ok u, s)) : updPos (round s.trace) = allPositions cfg.shape := by
  obtain ⟨e, tr, hE, -, htr⟩ := (Fit.fit_spec env cfg fuel y e0 w0 (.ok u, s) hr).ex
  have h1 : updPos (round s.trace) = updPos (round tr) := by
    rw [htr]
    cases cfg.rmpIsIp with
    | false => simp
    | true => simp [Fit.round_snoc, isRmp, Fit.updPos_snoc, upd?]
  rw [h1]
  cases hE with
  | limit h h1 h2 => exact h.upds (by rw [← h.iter]; omega)
  | optimal d e' h h1 => exact h.upds
  | timed h => exact h.upds

theorem session_inv (hf : FitOk d A X (encoded y)) (hc : FitContract d A X o tol) (hy : TwoClasses y) (h : Session o A X y w) :
    FitInv d A X (encoded y) o tol w [] := by
  induction h with
  | new ω => exact init_inv ω
  | idle h ω ih => exact ih
  | @fit w h maxIt limit fuel e0 r hr ih =>
    obtain ⟨res, s⟩ := r
    obtain rfl := succeeds_from hf hc hy ih hr
    obtain ⟨old, new, hm⟩ := fit_mid hf hc hy ih hr
    exact Or.inr (Or.inl ⟨⟨_, hm.warm (fit_updated hr)⟩, by simp⟩)

/-! ## Paths are never dropped -/

/-- The paths and the flag `generated_` of the master problem. -/
def kept (s : MS) : List Path × Bool := (s.paths, s.generated)

theorem addColumn_kept (c : Conf) (p : Path) (s : MS) :
    s.paths <+: (addColumn c p s).2.paths ∧ (addColumn c p s).2.generated = s.generated := by
  unfold addColumn
  simp only
  split
  · exact ⟨List.prefix_append _ _, rfl⟩
  · split
    · exact ⟨List.prefix_append _ _, rfl⟩
    · exact ⟨List.prefix_append _ _, rfl⟩

theorem addCuts_kept (o : Oracle) (s : MS) : kept (addCuts o s).2 = kept s := by
  unfold addCuts
  simp only
  split_ifs <;> rfl

theorem cutRound_kept (c : Conf) (o : Oracle) (s : MS) : kept (cutRound c o s).2.2 = kept s := by
  obtain ⟨b, hb⟩ : ∃ b, b = if c.betaAsCuts then addBetaCuts c (storeLp s) else (0, storeLp s) := ⟨_, rfl⟩
  have e : kept (cutRound c o s).2.2 = kept (if c.generateCuts && b.1 == 0 then addCuts o b.2 else ([], b.2)).2 := by
    rw [hb]; rfl
  have hb' : kept b.2 = kept s := by rw [hb]; split_ifs <;> rfl
  rw [e]
  split_ifs
  · exact (addCuts_kept o b.2).trans hb'
  · exact hb'

theorem cutRounds_kept (c : Conf) (o : Oracle) (n : ℕ) : ∀ acc s, kept (cutRounds c o n acc s).2 = kept s := by
  induction n with
  | zero => intro acc s; rfl
  | succ n ih =>
    intro acc s
    unfold cutRounds
    simp only
    split_ifs with h1 h2
    · exact (ih _ (lpSolve o (cutRound c o s).2.2)).trans (cutRound_kept c o s)
    · exact cutRound_kept c o s
    · rfl

theorem solveRmp_kept (c : Conf) (o : Oracle) (s : MS) : kept (solveRmp c o s).2 = kept s := by
  unfold solveRmp
  by_cases hg : s.generated
  · obtain ⟨s1, hs1⟩ : ∃ s1, s1 = lpSolve o { s with
      prevRmpObj := s.rmpObj
      iter := s.iter + 1 } := ⟨_, rfl⟩
    have hp1 : kept s1 = kept s := by rw [hs1]; rfl
    obtain ⟨r, hr⟩ : ∃ r, r = if s1.iter % 10 = 0 then cutRounds c o c.numCutsRound [] s1 else ([], s1) := ⟨_, rfl⟩
    have hr' : kept r.2 = kept s := by
      rw [hr]
      split_ifs
      · exact (cutRounds_kept _ _ _ _ _).trans hp1
      · exact hp1
    rw [if_pos hg]
    simp only
    rw [← hs1, ← hr]
    split_ifs
    · exact hr'
    · exact hr'
  · rw [if_neg hg]

theorem solveIp_kept (o : Oracle) (s : MS) : kept (solveIp o s).2 = kept s := by
  unfold solveIp
  simp only
  split_ifs <;> rfl

/-- A generated master problem keeps its paths. -/
def Keeps (L : List Path) (w : World Ω) : Prop := w.master.generated = true ∧ L <+: w.master.paths

theorem Keeps.of_kept {L : List Path} {w w' : World Ω} (h : Keeps L w) (e : kept w'.master = kept w.master) : Keeps L w' := by
  unfold kept at e
  obtain ⟨e1, e2⟩ := Prod.ext_iff.1 e
  exact ⟨e2.trans h.1, by rw [show w'.master.paths = w.master.paths from e1]; exact h.2⟩

theorem keeps_preserved (o : FitOracle Ω) (A : Args) (X : List (List ℚ)) (L : List Path) :
    Fit.Preserved (env o A X) (fun w _ => Keeps L w) where
  clock w tr h := h
  timer w tr t h := h
  check w tr s t h := h
  flag w tr h := h
  clear w tr h := h
  generateMp w tr y h := by
    refine h.of_kept ?_
    change kept (generateMp (A.masterConf X) w.master).2 = _
    unfold generateMp
    rw [if_pos h.1]
  solveRmp w tr h := h.of_kept (solveRmp_kept _ _ _)
  improved w tr h := h
  update w tr l i D h := by
    refine h.of_kept ?_
    change kept (updateAt A X l i D w).2.master = _
    unfold updateAt
    split_ifs
    · rfl
    · split <;> rfl
  generate w tr l i D h := by
    refine h.of_kept ?_
    change kept (generateAt o A X l i D w).2.master = _
    unfold generateAt
    split_ifs
    · rfl
    · split
      · rfl
      · unfold priceAt
        split_ifs <;> rfl
  add w tr l i p h := by
    obtain ⟨h1, h2⟩ := addColumn_kept (A.masterConf X) p w.master
    exact ⟨h2.trans h.1, h.2.trans h1⟩
  solveIp w tr h := h.of_kept (solveIp_kept _ _)

/-! ## C92 -/

/-- The number of iterations that suffice for `fit`. -/
abbrev enough (d : ℕ) (A : Args) (X : List (List ℚ)) : ℕ := A.paths.length + 2 ^ d * (A.splits.length ^ d * (totalWeight A X + 1)) + 2

/-- **C92.** `fit` can be called on the same data as often as one likes: every call ends after a number of iterations that does not depend on the
previous calls, and raises no exception. -/
theorem C92_refit_succeeds (hf : FitOk d A X (encoded y)) (hc : FitContract d A X o tol) (hy : TwoClasses y) (hs : Session o A X y w)
    (maxIt : ℤ) (limit : ℚ) (e0 : Fit.Est) :
    ∃ s, Fit.fit (env o A X) (config A maxIt limit) (enough d A X) y e0 w = some (.ok (), s) := by
  obtain ⟨⟨res, s⟩, hr⟩ := terminates_from hf hc maxIt limit e0 (session_inv hf hc hy hs)
  obtain rfl := succeeds_from hf hc hy (session_inv hf hc hy hs) hr
  exact ⟨s, hr⟩

/-- **C92.** After every call the selected paths are the paths of one decision tree, and `predict` walks down this tree (as in C72). -/
theorem C92_refit_tree (hf : FitOk d A X (encoded y)) (hc : FitContract d A X o tol) (hy : TwoClasses y) (hs : Session o A X y w)
    (hr : Fit.fit (env o A X) (config A maxIt limit) fuel y e0 w = some (.ok u, s)) :
    ∃ (σ : ℕ → ℕ) (P : ℕ → Path), (s.world.master.selected).Perm ((List.range (2 ^ d)).map P) ∧
      (∀ n < 2 ^ d - 1, σ n ∈ cand A.nodes n) ∧
      (∀ l < 2 ^ d, (P l).leafId = l ∧ WFPath d (P l) ∧ (∀ q ∈ (P l).pairs, q.2 = σ q.1) ∧ Spec.Origin d A X (encoded y) (P l)) ∧
      ∀ row, predictRow A.leaves s.world.master.splits row s.world.master.selected =
        (P (walkLeaf (fun n => takesLeft row (splitAt A.splits (σ n))) d)).target :=
  tree_from hf hc hy (session_inv hf hc hy hs) hr

/-- **C92.** No path is lost: the path list of the master problem grows at its end. -/
theorem C92_paths_kept (hf : FitOk d A X (encoded y)) (hc : FitContract d A X o tol) (hy : TwoClasses y) (hs : Session o A X y w)
    (hr : Fit.fit (env o A X) (config A maxIt limit) fuel y e0 w = some (.ok u, s)) (ω : Ω)
    (hr' : Fit.fit (env o A X) (config A maxIt' limit') fuel' y e0' { s.world with ω := ω } = some (.ok u', s')) :
    s.world.master.paths <+: s'.world.master.paths := by
  obtain ⟨old, new, hm⟩ := fit_mid hf hc hy (session_inv hf hc hy hs) hr
  obtain ⟨cuts0, own0, cd0, hi0⟩ := reached_inv hf.setup (marked_good hf) hc.cut hm.reached
  exact ((keeps_preserved o A X s.world.master.paths).fit _ fuel' y e0' { s.world with ω := ω }
    (show Keeps s.world.master.paths { s.world with ω := ω } from ⟨hi0.gen, List.prefix_rfl⟩) _ hr').2

/-- **C92.** If the integer master problem is solved to optimality, the tree of a later call is not worse: the costs of its paths add up to at
least those of the earlier tree. -/
theorem C92_not_worse (hf : FitOk d A X (encoded y)) (hc : FitContract d A X o tol) (hy : TwoClasses y) (hip : IpOptimal d A X o)
    (hs : Session o A X y w) (hr : Fit.fit (env o A X) (config A maxIt limit) fuel y e0 w = some (.ok u, s)) (ω : Ω)
    (hr' : Fit.fit (env o A X) (config A maxIt' limit') fuel' y e0' { s.world with ω := ω } = some (.ok u', s')) :
    (s.world.master.selected.map (·.cost)).sum ≤ (s'.world.master.selected.map (·.cost)).sum := by
  have hs' : Session o A X y { s.world with ω := ω } := .idle (.fit hs maxIt limit fuel e0 hr) ω
  obtain ⟨s1, σ, P, -, -, hM, ht, hperm, -⟩ := fit_final hf hc hy (session_inv hf hc hy hs) hr
  have hk := C92_paths_kept hf hc hy hs hr ω hr'
  rw [(hperm.map _).sum_eq, List.map_map]
  refine beats_from hf hc hy hip (session_inv hf hc hy hs') hr' (σ := σ) (Q := P) ?_
  intro l hl
  refine ⟨hk.subset ?_, ht.leaf l hl, ht.splits l hl⟩
  rw [hM, solveIp_paths]
  exact ht.mem l hl

/-- **C92.** The costs of an earlier tree are a lower bound for the training hits of every later one; if they are its hits, the training hits do
not fall. -/
theorem C92_hits (hf : FitOk d A X (encoded y)) (hc : FitContract d A X o tol) (hy : TwoClasses y) (hip : IpOptimal d A X o)
    (h0 : ∀ p ∈ A.paths, p.cost ≤ hitsOf d (Args.base A d X (encoded y)) p p.target)
    (hs : Session o A X y w) (hr : Fit.fit (env o A X) (config A maxIt limit) fuel y e0 w = some (.ok u, s)) (ω : Ω)
    (hr' : Fit.fit (env o A X) (config A maxIt' limit') fuel' y e0' { s.world with ω := ω } = some (.ok u', s')) :
    (s.world.master.selected.map (·.cost)).sum ≤ trainHits d A X (encoded y) s'.world.master.splits s'.world.master.selected ∧
    ((∀ p ∈ s.world.master.selected, p.cost = hitsOf d (Args.base A d X (encoded y)) p p.target) →
      trainHits d A X (encoded y) s.world.master.splits s.world.master.selected ≤
        trainHits d A X (encoded y) s'.world.master.splits s'.world.master.selected) := by
  have hs' : Session o A X y { s.world with ω := ω } := .idle (.fit hs maxIt limit fuel e0 hr) ω
  have h1 := (C92_not_worse hf hc hy hip hs hr ω hr').trans (attained_from hf hc hy h0 (session_inv hf hc hy hs') hr')
  refine ⟨h1, fun he => le_trans (le_of_eq ?_) h1⟩
  exact (attained_exact hf hc hy (session_inv hf hc hy hs) hr he).symm

/-- **C92.** `mp_optimal_` after a later call has the same meaning as after the first: the bound of C74 holds. -/
theorem C92_optimal_bound (hf : FitOk d A X (encoded y)) (hc : FitContract d A X o tol) (hy : TwoClasses y) (hpo : PriceOptimal o)
    (hnew : A.useOld = false) (hs : Session o A X y w) (hr : Fit.fit (env o A X) (config A maxIt limit) fuel y e0 w = some (.ok u, s))
    (hopt : s.est.mpOptimal = true)
    {σ τ : ℕ → ℕ} (hσ : ∀ n < 2 ^ d - 1, σ n ∈ cand A.nodes n) (hτ : ∀ l < 2 ^ d, τ l ∈ A.targets) :
    treeHits d (Args.base A d X (encoded y)) σ τ ≤ s.world.master.rmpObj +
      2 ^ d * (1 / 1000000 + ((2 * X.length + s.world.master.cutCons.length + d * A.splits.length : ℕ) : ℚ) / 100000) + (2 ^ d - 1) * tol :=
  bound_from hf hc hy hpo hnew (session_inv hf hc hy hs) hr hopt hσ hτ

end Verif.DTree
