import Verif.DTree.FitDemo

/-!
# `use_old_sp=True` ignores the weights of merged rows (C81)

`DTreeSubProblemOld` has the objective coefficient 1 for every row (`_dtree_classifier.py:2102-2115`, `2206-2219`) and computes the cost of a path as
the number of its rows (`_dtree_classifier.py:2331-2340`), whereas initial paths, the heuristic and `DTreeSubProblemSat` count a row with its
weight. So with merged rows `mp_optimal_` does not imply the bound of C74.
-/

set_option linter.unusedSectionVars false
set_option linter.unusedSimpArgs false

namespace Verif.DTree

open MP Spec

namespace Spec

/-- The full claim: with exact solvers, `mp_optimal_` after `fit` with `use_old_sp=True` implies that no tree has more weighted training hits than
`rmp_objective_` plus tolerances, whatever the weights of the rows. -/
def OldOptimalBound : Prop :=
  ∀ (d : ℕ) (A : Args) (X : List (List ℚ)) (y : List ℤ) (o : FitOracle Unit) (tol limit : ℚ) (maxIt : ℤ) (fuel : ℕ) (e0 : Fit.Est)
    (s : Fit.St (World Unit) Duals Path), FitOk d A X (encoded y) → FitContract d A X o tol → TwoClasses y → PriceOptimal o → A.useOld = true →
    fitNew o A maxIt limit X fuel y e0 () = some (.ok (), s) → s.est.mpOptimal = true →
    ∀ σ τ : ℕ → ℕ, (∀ n < 2 ^ d - 1, σ n ∈ cand A.nodes n) → (∀ l < 2 ^ d, τ l ∈ A.targets) →
    treeHits d (Args.base A d X (encoded y)) σ τ ≤ s.world.master.rmpObj + 2 ^ d * (1 / 1000000) + (2 ^ d - 1) * tol

end Spec

namespace Demo

/-- The solvers of `guided`, with suggested answers for `DTreeSubProblemOld`. -/
noncomputable def guidedMip (cands : List (ℕ → ℚ)) (m : Model) : Answer :=
  match satFind m cands with
  | some a => ⟨.optimal, a, fun _ => 0, act m.vars.length m.obj a + m.offset⟩
  | none => exactIp m

noncomputable def guidedOld (lp ip : List ((ℕ → ℚ) × (ℕ → ℚ))) (mip : List (ℕ → ℚ)) (draw : ℕ → ℕ → ℕ) : FitOracle Unit :=
  { guided lp ip [] draw with mip := fun m _ => (guidedMip mip m, ()) }

theorem satFind_optimal {m : Model} {cands : List (ℕ → ℚ)} {a : ℕ → ℚ} (h : satFind m cands = some a) :
    IsOptimal m ⟨.optimal, a, fun _ => 0, act m.vars.length m.obj a + m.offset⟩ := by
  obtain ⟨h1, h2⟩ := satFind_sound h
  have hm : m.maximize = true := by
    unfold satFind at h
    have := List.find?_some h
    simp only [Bool.and_eq_true] at this
    exact this.1.1.2
  have hv : act m.vars.length m.obj a + m.offset = m.value a := by rw [act_eq]; rfl
  refine ⟨⟨h1, hv⟩, ?_⟩
  intro b hb
  rw [better_max hm]
  exact (h2 b hb).trans (le_of_eq hv.symm)

theorem guidedMip_sound (cands : List (ℕ → ℚ)) (m : Model) (h : (guidedMip cands m).status = .optimal ∨ (guidedMip cands m).status = .feasible) :
    IsOptimal m (guidedMip cands m) := by
  unfold guidedMip at *
  cases h' : satFind m cands with
  | some a => exact satFind_optimal h'
  | none =>
    rw [h'] at h
    exact exactIp_sound m h

variable {d : ℕ} {A : Args} {X : List (List ℚ)} {y : List ℤ}

theorem guidedOld_contract (hf : FitOk d A X (encoded y)) (lp ip : List ((ℕ → ℚ) × (ℕ → ℚ))) (mip : List (ℕ → ℚ)) (draw : ℕ → ℕ → ℕ) :
    FitContract d A X (guidedOld lp ip mip draw) 0 := by
  have h := guided_contract hf lp ip [] draw
  exact ⟨h.tol_nonneg, h.tol_le, h.cut, h.lp, h.ip, h.ipSound, h.draws, h.sols, fun m _ hm => (guidedMip_sound mip m hm).1⟩

theorem guidedOld_priceOptimal (lp ip : List ((ℕ → ℚ) × (ℕ → ℚ))) (mip : List (ℕ → ℚ)) (draw : ℕ → ℕ → ℕ) :
    PriceOptimal (guidedOld lp ip mip draw) where
  sols := (guided_priceOptimal lp ip [] draw).sols
  mip := fun m ω h1 h2 h3 => by
    change (guidedMip mip m).status = _ ∧ IsOptimal m (guidedMip mip m)
    unfold guidedMip
    cases h' : satFind m mip with
    | some a => exact ⟨rfl, satFind_optimal h'⟩
    | none => exact (guided_priceOptimal lp ip [] draw).mip m ω h1 h2 h3

/-! ## The counterexample: a row that stands for three rows, and an initial tree that does not separate the classes -/

def wX : List (List ℚ) := [[0, 0], [0, 1]]

def wy : List ℤ := [3, 7]

def wSplits : List Split := addRowsToSplits qSplits0 wX

/-- Rows with weights `w` and 1. -/
def wRows (w : ℕ) : List Row := [⟨[], [], [], [], [], false, false, w⟩, ⟨[], [], [], [], [], false, false, 1⟩]

/-- The tree with split 0 and class 0 at both leaves; for `w = 1` also the tree with split 1. -/
def wPaths (w : ℕ) : List Path := [⟨0, [0], [0], w, 0, 0, true⟩, ⟨1, [0], [0], 0, 0, 0, true⟩] ++
  if w = 1 then [⟨0, [0], [1], 1, 0, 0, true⟩, ⟨1, [0], [1], 1, 0, 1, true⟩] else []

def wArgs (w : ℕ) : Args := ⟨wPaths w, fullLeaves 1, qNodes, wSplits, 1, [0, 1], 2, false, true, some (wRows w), true⟩

theorem wFitOk (w : ℕ) (hw : w = 1 ∨ w = 3) : FitOk 1 (wArgs w) wX (encoded wy) where
  setup :=
    { depth := by norm_num
      tree :=
        { leaves := rfl
          nodes_length := rfl
          node_id := by
            intro i n h
            have : ∀ q ∈ qNodes.zipIdx, q.1.id = q.2 := by decide +kernel
            exact this (n, i) (by rw [List.mem_zipIdx_iff_getElem?]; exact h)
          split_id := by
            intro i n h
            have : ∀ q ∈ wSplits.zipIdx, q.1.id = q.2 := by decide +kernel
            exact this (n, i) (by rw [List.mem_zipIdx_iff_getElem?]; exact h)
          cand_lt := by
            show ∀ n ∈ qNodes, ∀ s ∈ n.candidateSplits, s < wSplits.length
            decide +kernel
          cand_nodup := by
            show ∀ n ∈ qNodes, n.candidateSplits.Nodup
            decide +kernel }
      filled := (C39_add_rows qSplits0 wX (by decide +kernel)).1
      no_cuts := by
        show ∀ sp ∈ wSplits, sp.leftCuts = [] ∧ sp.rightCuts = []
        decide +kernel
      rows := by
        intro rows h
        have h : some (wRows w) = some rows := h
        simp only [Option.some.injEq] at h
        subst h
        rcases hw with rfl | rfl
        · exact ⟨rfl, by decide +kernel⟩
        · exact ⟨rfl, by decide +kernel⟩ }
  depth := rfl
  distinct := by
    show Distinct wSplits
    unfold Distinct
    decide +kernel
  good := by rcases hw with rfl | rfl <;> decide +kernel
  cand := by rcases hw with rfl | rfl <;> decide +kernel
  tree := by
    refine ⟨fun _ => 0, fun l => if l = 0 then ⟨0, [0], [0], w, 0, 0, true⟩ else ⟨1, [0], [0], 0, 0, 0, true⟩, ?_⟩
    unfold HasTree
    rcases hw with rfl | rfl <;> decide +kernel
  targets := List.Perm.refl _
  y_lt := by
    show ∀ i < 2, (encoded wy).getD i 0 < 2
    decide +kernel
  removed := by
    intro rows h
    have h : some (wRows w) = some rows := h
    simp only [Option.some.injEq] at h
    subst h
    intro r hr
    match r, hr with
    | 0, h => exact h
    | 1, h => exact h
    | k + 2, h => exact h
  weights := by
    intro _ rows h
    have h : some (wRows w) = some rows := h
    simp only [Option.some.injEq] at h
    subst h
    intro r hr _
    have hr : r < 2 := hr
    match r, hr with
    | 0, _ => rcases hw with rfl | rfl <;> decide
    | 1, _ => exact le_rfl

/-- The two paths and the variable of split 0. -/
def wSol (i : ℕ) : ℚ := if i ∈ [0, 1, 2] then 1 else 0

/-- Duals: 2 for leaf 0 and 1 for row 1. -/
def wDual (i : ℕ) : ℚ := if i = 0 then 2 else if i = 3 then 1 else 0

/-- All draws of the heuristic choose split 0; the pricing problems are solved by split 1 for leaf 0 and split 0 for leaf 1. -/
noncomputable def wO : FitOracle Unit :=
  guidedOld [(wSol, wDual)] [(wSol, wDual)] [fun v => if v ∈ [0, 3] then 1 else 0, fun v => if v = 2 then 1 else 0] (fun _ _ => 0)

noncomputable def wRun : Option (Except Err Unit × Fit.St (World Unit) Duals Path) := fitNew wO (wArgs 3) 5 100 wX 10 wy est0 ()

theorem wRun_facts : returned wRun (fun s => s.est.mpOptimal && decide (s.world.master.rmpObj = 3) &&
    decide (predictFitted (wArgs 3) s wX = .ok [3, 3])) = true := by decide +kernel

theorem wTwo : TwoClasses wy := ⟨3, by decide, 7, by decide, by decide⟩

theorem wKept (i : ℕ) (hi : i < 2) : Kept (Args.base (wArgs 3) 1 wX (encoded wy)) i := by
  refine ⟨hi, ?_⟩
  intro rows h
  have h : some (wRows 3) = some rows := h
  simp only [Option.some.injEq] at h
  subst h
  match i, hi with
  | 0, _ => rfl
  | 1, _ => rfl

/-- The tree with split 1 classifies both rows correctly, which count 4. -/
theorem wHits : treeHits 1 (Args.base (wArgs 3) 1 wX (encoded wy)) (fun _ => 1) (fun l => l) = 4 := by
  obtain ⟨c, hc⟩ : ∃ c, c = Args.base (wArgs 3) 1 wX (encoded wy) := ⟨_, rfl⟩
  have hr : List.range c.X.length = [0, 1] := by rw [hc]; decide +kernel
  have e0 : c.y.getD 0 0 = walkLeaf (fun _ => takesLeft (c.X.getD 0 []) (splitAt c.splits 1)) 1 := by rw [hc]; decide +kernel
  have e1 : c.y.getD 1 0 = walkLeaf (fun _ => takesLeft (c.X.getD 1 []) (splitAt c.splits 1)) 1 := by rw [hc]; decide +kernel
  have w0 : rowWeight c 0 = 3 := by rw [hc]; decide +kernel
  have w1 : rowWeight c 1 = 1 := by rw [hc]; decide +kernel
  have k0 : Kept c 0 := by rw [hc]; exact wKept 0 (by decide)
  have k1 : Kept c 1 := by rw [hc]; exact wKept 1 (by decide)
  rw [← hc]
  unfold treeHits keptSum
  rw [hr]
  simp only [List.map_cons, List.map_nil, List.sum_cons, List.sum_nil]
  rw [if_pos ⟨k0, e0⟩, if_pos ⟨k1, e1⟩, w0, w1]
  norm_num

/-- C81 is false: `fit` ends with `mp_optimal_` and objective 3, although a tree is worth 4. -/
theorem C81_refuted : ¬OldOptimalBound := by
  intro h
  obtain ⟨s, h1, h2⟩ := returned_spec wRun_facts
  simp only [Bool.and_eq_true, decide_eq_true_eq] at h2
  have := h 1 (wArgs 3) wX wy wO 0 100 5 10 est0 s (wFitOk 3 (.inr rfl)) (guidedOld_contract (wFitOk 3 (.inr rfl)) _ _ _ _) wTwo
    (guidedOld_priceOptimal _ _ _ _) rfl h1 h2.1.1 (fun _ => 1) (fun l => l) (by decide +kernel) (by decide +kernel)
  rw [wHits, h2.1.2] at this
  norm_num at this

/-- C81, part: the bound holds if all kept rows have weight 1. Missing: merged rows. -/
theorem C81_weight_one_partial {o : FitOracle Unit} {tol limit : ℚ} {maxIt : ℤ} {fuel : ℕ} {e0 : Fit.Est} {s : Fit.St (World Unit) Duals Path}
    (hf : FitOk d A X (encoded y)) (hc : FitContract d A X o tol) (hy : TwoClasses y) (hpo : PriceOptimal o) (hold : A.useOld = true)
    (hw : ∀ i, Kept (Args.base A d X (encoded y)) i → rowWeight (Args.base A d X (encoded y)) i = 1)
    (hr : fitNew o A maxIt limit X fuel y e0 () = some (.ok (), s)) (hopt : s.est.mpOptimal = true)
    {σ τ : ℕ → ℕ} (hσ : ∀ n < 2 ^ d - 1, σ n ∈ cand A.nodes n) (hτ : ∀ l < 2 ^ d, τ l ∈ A.targets) :
    treeHits d (Args.base A d X (encoded y)) σ τ ≤ s.world.master.rmpObj + 2 ^ d * (1 / 1000000) + (2 ^ d - 1) * tol :=
  C74_optimal_bound_old hf hc hy hpo hold hw hr hopt hσ hτ

/-- The same rows with weight 1; the tree with split 1 is among the initial paths and optimal. -/
noncomputable def vO : FitOracle Unit :=
  guidedOld [(fun i => if i ∈ [2, 3, 5] then 1 else 0, fun i => if i < 2 then 1 else 0)]
    [(fun i => if i ∈ [2, 3, 5] then 1 else 0, fun i => if i < 2 then 1 else 0)]
    [fun v => if v ∈ [0, 3] then 1 else 0, fun v => if v ∈ [0, 1, 2] then 1 else 0, fun v => if v ∈ [1, 3] then 1 else 0] (fun _ _ => 0)

theorem vRun_facts : returned (fitNew vO (wArgs 1) 5 100 wX 10 wy est0 ()) (fun s => s.est.mpOptimal && decide (s.world.master.rmpObj = 2) &&
    decide (predictFitted (wArgs 1) s wX = .ok wy)) = true := by decide +kernel

example : ∃ s, fitNew vO (wArgs 1) 5 100 wX 10 wy est0 () = some (.ok (), s) ∧ s.world.master.rmpObj = 2 ∧
    ∀ σ τ : ℕ → ℕ, (∀ n < 2 ^ 1 - 1, σ n ∈ cand qNodes n) → (∀ l < 2 ^ 1, τ l ∈ [0, 1]) →
      treeHits 1 (Args.base (wArgs 1) 1 wX (encoded wy)) σ τ ≤ s.world.master.rmpObj + 2 ^ 1 * (1 / 1000000) + (2 ^ 1 - 1) * 0 := by
  obtain ⟨s, h1, h2⟩ := returned_spec vRun_facts
  simp only [Bool.and_eq_true, decide_eq_true_eq] at h2
  refine ⟨s, h1, h2.1.2, ?_⟩
  intro σ τ hσ hτ
  refine C81_weight_one_partial (wFitOk 1 (.inl rfl)) (guidedOld_contract (wFitOk 1 (.inl rfl)) _ _ _ _) wTwo (guidedOld_priceOptimal _ _ _ _) rfl
    ?_ h1 h2.1.1 hσ hτ
  rintro i ⟨hi, -⟩
  have hi : i < 2 := hi
  match i, hi with
  | 0, _ => decide +kernel
  | 1, _ => decide +kernel

end Demo

end Verif.DTree
