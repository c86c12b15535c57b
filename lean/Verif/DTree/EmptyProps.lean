import Verif.DTree.StrictProps
import Verif.DTree.ReuseProps

/-!
# C110: a tree classifier constructed without a tree

`DTreeClassifier()` has no leaves, nodes, splits and paths.
-/

namespace Verif.DTree

variable {Ω : Type}

/-- The arguments of `DTreeClassifier()`, `_dtree_classifier.py:2417-2428`. -/
def Args.default : Args := ⟨[], [], [], [], 1, [], 3, false, false, none, false⟩

/-- **C110.** The constructor accepts arguments without leaves only if there are no initial paths. Then `fit` raises `ValueError` on all data with any
solvers; nothing is solved, the classifier does not count as fitted, and the argument objects are as before, so the same happens
in every later call. -/
theorem C110_no_tree {A : Args} (hl : A.leaves = []) (hd : A.dataRows = none) (ha : A.accepted = .ok ()) (o : FitOracle Ω) (maxIt : ℤ) (limit : ℚ)
    (X : List (List ℚ)) (fuel : ℕ) (y : List ℤ) (e0 : Fit.Est) (ω : Ω) :
    A.paths = [] ∧ ∃ s, fitNewS o A maxIt limit X fuel y e0 ω = some (.error .valueError, s) ∧ s.est.isFitted = e0.isFitted ∧
      s.world.master = (World.init A ω).master ∧ ∀ ev ∈ s.trace, (∃ t, ev = .timer t) ∨ ∃ py, ev = .generateMp py (.error .valueError) := by
  have hp : A.paths = [] := by
    by_contra hne
    obtain ⟨p, hp⟩ := List.exists_mem_of_ne_nil _ hne
    obtain ⟨l, h, -⟩ := (((C57_tree_init A.paths A.leaves A.nodes A.splits A.depth (A.targets.map (fun t : ℕ => (t : ℤ)))).1.1 ha).2.2 p hp).1
    rw [hl] at h
    cases h
  refine ⟨hp, ?_⟩
  unfold fitNewS Fit.fit
  simp only [Fit.now, Fit.St.set, Fit.St.log]
  by_cases hc : (Sk.uniqueLabels y).length ≤ 1
  · refine ⟨_, (if_pos hc).trans rfl, rfl, rfl, ?_⟩
    intro ev hev
    simp only [List.nil_append, List.mem_singleton] at hev
    exact .inl ⟨_, hev⟩
  · have hg : generateMpS (A.masterConf X) (MS.init ([] : List Path) A.splits none) = (.error .valueError, MS.init [] A.splits none) := by
      unfold generateMpS
      rw [if_neg (by simp [MS.init])]
      have : firstFault (generateReads (A.masterConf X) (MS.init [] A.splits none)) = some .valueError := by
        simp [generateReads, MS.init, Args.masterConf, hl, dataReads, firstFault]
      unfold guarded
      rw [this]
    have hw : (World.init A ω).master = MS.init ([] : List Path) A.splits none := by simp [World.init, hp, hd]
    have he : ∀ (py : List ℕ) (w : World Ω), w.master = MS.init ([] : List Path) A.splits none → (envS o A X).generateMp py w = (.error .valueError, { w with y := py }) := by
      intro py w h
      simp only [envS, h, hg]
    simp only [Fit.call]
    refine ⟨_, (if_neg hc).trans (by rw [he _ ((envS o A X).clock (World.init A ω)).2 hw]), rfl, rfl, ?_⟩
    intro ev hev
    simp only [List.nil_append, List.cons_append, List.mem_cons, List.not_mem_nil, or_false] at hev
    rcases hev with h | h
    · exact .inl ⟨_, h⟩
    · exact .inr ⟨_, h⟩

/-- **C110** for `DTreeClassifier()`. -/
theorem C110_default (o : FitOracle Ω) (X : List (List ℚ)) (fuel : ℕ) (y : List ℤ) (e0 : Fit.Est) (ω : Ω) :
    Args.default.accepted = .ok () ∧ ∃ s, fitNewS o Args.default (-1) (-1) X fuel y e0 ω = some (.error .valueError, s) ∧ s.est.isFitted = e0.isFitted := by
  have ha : Args.default.accepted = .ok () := by decide +kernel
  obtain ⟨-, s, h1, h2, -⟩ := C110_no_tree rfl rfl ha o (-1) (-1) X fuel y e0 ω
  exact ⟨ha, s, h1, h2⟩

end Verif.DTree
