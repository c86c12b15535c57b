import Verif.DTree.FitProps
import Verif.Fit.Degraded

/-!
# Property C123, tree classifier: the solver of the master problem is not available

`pywraplp.Solver.CreateSolver(master_solver_type)` returns `None` for a name that it does not know or whose solver is not available
(`_col_gen_classifier.py:34`); the first call of one of its methods raises `AttributeError`.
-/

namespace Verif.DTree

open Fit.Spec
open Verif.Fit (Ev)

variable {Ω : Type}

/-- `DTreeMasterProblem.generate_mp` with `self.solver_ = None`, `_dtree_classifier.py:623-629`: `create_cut_gen_model` runs first, then
`self.solver_.infinity()` raises. Simplification: what was written to `X_`, `y_` and the model for the cuts is dropped; it is written again,
or in the case of the model for the cuts extended, before it is read. -/
def generateMpNoLp (c : Conf) (s : MS) : Except Err Unit × MS :=
  if s.generated then (.ok (), s)
  else
    match createCutModel c.leaves s.splits s.paths with
    | .error e => (.error e, s)
    | .ok _ => (.error .attributeError, s)

/-- The plug-ins if the solver of the master problem is not available. -/
def envNoLp (o : FitOracle Ω) (A : Args) (X : List (List ℚ)) : Fit.Env (World Ω) Duals Path :=
  { env o A X with
    generateMp := fun y w => ((generateMpNoLp (A.masterConf X) w.master).1, { w with
      master := (generateMpNoLp (A.masterConf X) w.master).2
      y := y }) }

/-- The splits that `create_cut_gen_model` accepts: no two with equal feature and threshold. -/
def Spec.DistinctSplits (splits : List Split) : Prop :=
  splits.Pairwise (fun a b => ¬ (a.feature = b.feature ∧ a.threshold = b.threshold))

open Spec

theorem createCutModel_result (leaves : List Leaf) (splits : List Split) (paths : List Path) :
    (DistinctSplits splits → ∃ q, createCutModel leaves splits paths = .ok q) ∧
    (¬ DistinctSplits splits → createCutModel leaves splits paths = .error .assertionError) := by
  have hps : ∀ q ∈ pairsBelow splits.length, q.1 < splits.length ∧ q.2 < splits.length := by
    rintro ⟨i, j⟩ hq
    have := (mem_pairsBelow _ _ _).1 hq
    exact ⟨by simp only; omega, this.2⟩
  obtain ⟨hd1, hd2⟩ := splitDeps_spec splits (pairsBelow splits.length) hps
  have hat : ∀ i (hi : i < splits.length), splitAt splits i = splits[i] := by
    intro i hi
    simp [splitAt, List.getD_eq_getElem?_getD, hi]
  unfold createCutModel
  simp only
  cases hr : splitDeps (List.range splits.length) splits (pairsBelow splits.length) with
  | error e =>
    obtain ⟨rfl, ⟨i, j⟩, hq, h2, h3⟩ := hd2 _ hr
    refine ⟨fun hdist => ?_, fun _ => rfl⟩
    have hij := (mem_pairsBelow _ _ _).1 hq
    have hi : i < splits.length := by omega
    simp only [hat i hi, hat j hij.2] at h2 h3
    exact absurd ⟨h2, h3⟩ (List.pairwise_iff_getElem.1 hdist i j hi hij.2 hij.1)
  | ok cs =>
    refine ⟨fun _ => ⟨_, rfl⟩, fun hdist => absurd ?_ hdist⟩
    refine List.pairwise_iff_getElem.2 ?_
    rintro i j hi hj hij ⟨h2, h3⟩
    have := (hd1 _ hr).2 (i, j) ((mem_pairsBelow _ _ _).2 ⟨hij, hj⟩)
    simp only [hat i hi, hat j hj] at this
    exact this h2 h3

/-- **C123.** If the solver of the master problem of the tree is not available, the first `fit` raises `AttributeError` whatever the data with at
least two classes, or `AssertionError` if a split is given twice: the master problem is asked for its model, no other plug-in is asked for
anything, and the classifier stays unfitted. The model is still not generated, so the same holds for the next call. -/
theorem C123_no_lp_tree (o : FitOracle Ω) (A : Args) (X : List (List ℚ)) (maxIt : ℤ) (limit : ℚ) (fuel : ℕ) (y : List ℤ) (e0 : Fit.Est)
    (w : World Ω) (hg : w.master.generated = false) (h2 : ∃ a ∈ y, ∃ b ∈ y, a ≠ b) :
    ∃ s t e, Fit.fit (envNoLp o A X) (config A maxIt limit) fuel y e0 w = some (.error e, s) ∧
      s.trace = [.timer t, .generateMp (encoded y) (.error e)] ∧ s.est.isFitted = e0.isFitted ∧
      s.world.master = w.master ∧ (DistinctSplits w.master.splits → e = .attributeError) ∧
      (¬ DistinctSplits w.master.splits → e = .assertionError) := by
  obtain ⟨c1, c2⟩ := createCutModel_result (A.masterConf X).leaves w.master.splits w.master.paths
  have h : ∃ e, generateMpNoLp (A.masterConf X) w.master = (.error e, w.master) ∧ (DistinctSplits w.master.splits → e = .attributeError) ∧
      (¬ DistinctSplits w.master.splits → e = .assertionError) := by
    unfold generateMpNoLp
    rw [hg]
    by_cases hd : DistinctSplits w.master.splits
    · obtain ⟨q, hq⟩ := c1 hd
      rw [hq]
      exact ⟨_, rfl, fun _ => rfl, fun h => absurd hd h⟩
    · rw [c2 hd]
      exact ⟨_, rfl, fun h => absurd h hd, fun _ => rfl⟩
  obtain ⟨e, h1, h3, h4⟩ := h
  have hm : (envNoLp o A X).generateMp (encoded y) ((envNoLp o A X).clock w).2 = (.error e, { ((envNoLp o A X).clock w).2 with
      master := w.master
      y := encoded y }) := by
    change ((generateMpNoLp (A.masterConf X) w.master).1, { ((envNoLp o A X).clock w).2 with
      master := (generateMpNoLp (A.masterConf X) w.master).2
      y := encoded y }) = _
    rw [h1]
  obtain ⟨est, h5, h6⟩ := Fit.fit_mp_raises (config A maxIt limit) fuel e0 h2 hm
  exact ⟨_, _, e, h5, rfl, h6, rfl, h3, h4⟩

/-- Any number of `fit` calls, each with its own data and limits, on a classifier whose master problem has no solver. -/
inductive Tries (o : FitOracle Ω) (A : Args) : World Ω → Prop
  | new (ω : Ω) : Tries o A (World.init A ω)
  | fit {w : World Ω} (h : Tries o A w) (X : List (List ℚ)) (y : List ℤ) (maxIt : ℤ) (limit : ℚ) (fuel : ℕ) (e0 : Fit.Est)
      {r : Except Err Unit × Fit.St (World Ω) Duals Path}
      (hr : Fit.fit (envNoLp o A X) (config A maxIt limit) fuel y e0 w = some r) : Tries o A r.2.world

variable {o : FitOracle Ω} {A : Args} {w : World Ω}

theorem tries_master (h : Tries o A w) : ∃ ω : Ω, w.master = (World.init A ω).master := by
  induction h with
  | new ω => exact ⟨ω, rfl⟩
  | fit h X y maxIt limit fuel e0 hr ih =>
    rename_i w r
    obtain ⟨ω, ih⟩ := ih
    refine ⟨ω, Eq.trans ?_ ih⟩
    by_cases h2 : ∃ a ∈ y, ∃ b ∈ y, a ≠ b
    · obtain ⟨s, t, e, h3, -, -, h4, -⟩ := C123_no_lp_tree o A X maxIt limit fuel y e0 w (by rw [ih]; rfl) h2
      rw [h3] at hr
      cases hr
      exact h4
    · push Not at h2
      obtain ⟨s, h3, -, h4, -⟩ := (Fit.C09_single_class (envNoLp o A X) (config A maxIt limit) fuel y e0 w).1 h2
      rw [h3] at hr
      cases hr
      rw [h4]
      rfl

/-- **C123.** After any number of attempts the next one raises, too. -/
theorem C123_no_lp_tree_session (h : Tries o A w) (X : List (List ℚ)) (y : List ℤ) (maxIt : ℤ) (limit : ℚ) (fuel : ℕ) (e0 : Fit.Est) :
    ∃ s e, Fit.fit (envNoLp o A X) (config A maxIt limit) fuel y e0 w = some (.error e, s) ∧ s.est.isFitted = e0.isFitted ∧
      ((∀ a ∈ y, ∀ b ∈ y, a = b) → e = .valueError) ∧
      ((∃ a ∈ y, ∃ b ∈ y, a ≠ b) → DistinctSplits A.splits → e = .attributeError) ∧
      ((∃ a ∈ y, ∃ b ∈ y, a ≠ b) → ¬ DistinctSplits A.splits → e = .assertionError) := by
  obtain ⟨ω, hw⟩ := tries_master h
  by_cases h2 : ∃ a ∈ y, ∃ b ∈ y, a ≠ b
  · obtain ⟨s, t, e, h3, -, h4, -, h5, h6⟩ := C123_no_lp_tree o A X maxIt limit fuel y e0 w (by rw [hw]; rfl) h2
    rw [hw] at h5 h6
    refine ⟨s, e, h3, h4, ?_, fun _ => h5, fun _ => h6⟩
    intro h7
    obtain ⟨a, ha, b, hb, hab⟩ := h2
    exact absurd (h7 a ha b hb) hab
  · push Not at h2
    obtain ⟨s, h3, -, -, h4⟩ := (Fit.C09_single_class (envNoLp o A X) (config A maxIt limit) fuel y e0 w).1 h2
    refine ⟨s, _, h3, h4, fun _ => rfl, ?_, ?_⟩ <;>
    · rintro ⟨a, ha, b, hb, hab⟩
      exact absurd (h2 a ha b hb) hab

end Verif.DTree
