import Verif.DTree.RefitDemo
import Verif.Fit.LimitProps

/-!
# Property C114 for the decision tree classifier: looser limits never make the tree worse
-/

namespace Verif.DTree

open MP Spec
open Fit.Spec (Looser LimitLE)

variable {Ω : Type} {d : ℕ} {A : Args} {X : List (List ℚ)} {y : List ℤ} {o : FitOracle Ω} {tol : ℚ} {maxIt maxIt' : ℤ} {limit limit' : ℚ}
  {fuel fuel' : ℕ} {e0 : Fit.Est} {w : World Ω} {u u' : Unit} {s s' : Fit.St (World Ω) Duals Path}

theorem looser_config (h1 : LimitLE maxIt maxIt') (h2 : LimitLE limit limit') : Looser (config A maxIt limit) (config A maxIt' limit') :=
  ⟨h1, h2, rfl, rfl⟩

/-- **C114.** Two calls of `fit` on the same classifier in the same state, with the same data, solvers, random draws and clock: the paths of the call with the tighter
limits are the first paths of the other. -/
theorem C114_tree_paths (hf : FitOk d A X (encoded y)) (hc : FitContract d A X o tol) (hy : TwoClasses y) (hs : Session o A X y w)
    (h1 : LimitLE maxIt maxIt') (h2 : LimitLE limit limit')
    (hr : Fit.fit (env o A X) (config A maxIt limit) fuel y e0 w = some (.ok u, s))
    (hr' : Fit.fit (env o A X) (config A maxIt' limit') fuel' y e0 w = some (.ok u', s')) :
    s.world.master.paths <+: s'.world.master.paths := by
  rcases Fit.limit_cases (looser_config h1 h2) hr hr' with e | ⟨s1, e1, -, e3⟩
  · cases e
    exact List.prefix_rfl
  · have h4 : kept s.world.master = kept s1.world.master := by
      rw [show s = (Fit.finish (env o A X) (config A maxIt limit) s1).2 from congrArg Prod.snd e1]
      exact Fit.finish_keeps (Q := fun v : World Ω => kept v.master = kept s1.world.master) (fun v hv => hv) (fun v hv => (solveIp_kept _ _).trans hv) rfl
    obtain ⟨old, new, hm⟩ := fit_mid hf hc hy (session_inv hf hc hy hs) hr
    obtain ⟨cuts0, own0, cd0, hi0⟩ := reached_inv hf.setup (marked_good hf) hc.cut hm.reached
    have hg : s1.world.master.generated = true := (Prod.ext_iff.1 h4).2.symm.trans hi0.gen
    have h5 : Keeps s1.world.master.paths s'.world := e3 _ (keeps_preserved o A X s1.world.master.paths) ⟨hg, List.prefix_rfl⟩
    rw [show s.world.master.paths = s1.world.master.paths from (Prod.ext_iff.1 h4).1]
    exact h5.2

/-- **C114.** If the integer master problem is solved to optimality, the costs of the tree of the call with the looser limits add up to at least those of the other. -/
theorem C114_tree_not_worse (hf : FitOk d A X (encoded y)) (hc : FitContract d A X o tol) (hy : TwoClasses y) (hip : IpOptimal d A X o)
    (hs : Session o A X y w) (h1 : LimitLE maxIt maxIt') (h2 : LimitLE limit limit')
    (hr : Fit.fit (env o A X) (config A maxIt limit) fuel y e0 w = some (.ok u, s))
    (hr' : Fit.fit (env o A X) (config A maxIt' limit') fuel' y e0 w = some (.ok u', s')) :
    (s.world.master.selected.map (·.cost)).sum ≤ (s'.world.master.selected.map (·.cost)).sum := by
  obtain ⟨s1, σ, P, -, -, hM, ht, hperm, -⟩ := fit_final hf hc hy (session_inv hf hc hy hs) hr
  have hk := C114_tree_paths hf hc hy hs h1 h2 hr hr'
  rw [(hperm.map _).sum_eq, List.map_map]
  refine beats_from hf hc hy hip (session_inv hf hc hy hs) hr' (σ := σ) (Q := P) ?_
  intro l hl
  refine ⟨hk.subset ?_, ht.leaf l hl, ht.splits l hl⟩
  rw [hM, solveIp_paths]
  exact ht.mem l hl

/-- **C114.** If the costs of the initial paths do not overstate their hits and the costs of the paths selected under the tighter limits are their hits, the looser limits
give at least as many training hits. -/
theorem C114_tree_hits (hf : FitOk d A X (encoded y)) (hc : FitContract d A X o tol) (hy : TwoClasses y) (hip : IpOptimal d A X o)
    (h0 : ∀ p ∈ A.paths, p.cost ≤ hitsOf d (Args.base A d X (encoded y)) p p.target)
    (hs : Session o A X y w) (h1 : LimitLE maxIt maxIt') (h2 : LimitLE limit limit')
    (hr : Fit.fit (env o A X) (config A maxIt limit) fuel y e0 w = some (.ok u, s))
    (hr' : Fit.fit (env o A X) (config A maxIt' limit') fuel' y e0 w = some (.ok u', s'))
    (he : ∀ p ∈ s.world.master.selected, p.cost = hitsOf d (Args.base A d X (encoded y)) p p.target) :
    trainHits d A X (encoded y) s.world.master.splits s.world.master.selected ≤
      trainHits d A X (encoded y) s'.world.master.splits s'.world.master.selected := by
  rw [← attained_exact hf hc hy (session_inv hf hc hy hs) hr he]
  exact (C114_tree_not_worse hf hc hy hip hs h1 h2 hr hr').trans (attained_from hf hc hy h0 (session_inv hf hc hy hs) hr')

/-- C114: one iteration gives a tree worth four rows (`fRun`); without limits the call ends, has all its paths, and its tree is worth at least as much. -/
example : ∃ s s', Demo.fRun = some (.ok (), s) ∧ (s.world.master.selected.map (·.cost)).sum = 4 ∧
    Fit.fit (env Demo.fO Demo.fArgs Demo.fX) (config Demo.fArgs (-1) (-1)) (enough 2 Demo.fArgs Demo.fX) Demo.fy Demo.est0 (World.init Demo.fArgs ()) = some (.ok (), s') ∧
    s.world.master.paths <+: s'.world.master.paths ∧ 4 ≤ (s'.world.master.selected.map (·.cost)).sum := by
  obtain ⟨s, h1, h2⟩ := Demo.returned_spec Demo.fRun_paths
  simp only [Bool.and_eq_true, decide_eq_true_eq] at h2
  have h1' : Fit.fit (env Demo.fO Demo.fArgs Demo.fX) (config Demo.fArgs 1 100) 10 Demo.fy Demo.est0 (World.init Demo.fArgs ()) = some (.ok (), s) := h1
  obtain ⟨s', hs'⟩ := C92_refit_succeeds Demo.fFitOk Demo.fContract Demo.fTwo (.new ()) (-1) (-1) Demo.est0
  refine ⟨s, s', h1, h2.1.2, hs', ?_, ?_⟩
  · exact C114_tree_paths Demo.fFitOk Demo.fContract Demo.fTwo (.new ()) (Or.inl (by decide)) (Or.inl (by norm_num)) h1' hs'
  · have := C114_tree_not_worse Demo.fFitOk Demo.fContract Demo.fTwo (Demo.guided_ipOptimal _ _ _ _) (.new ()) (Or.inl (by decide)) (Or.inl (by norm_num)) h1' hs'
    rwa [h2.1.2] at this

end Verif.DTree
