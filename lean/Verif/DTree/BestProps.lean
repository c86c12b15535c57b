import Verif.DTree.RefitProps

/-!
# Property C132: the fitted tree is the best one that can be put together from the paths collected so far
-/

set_option linter.unusedSectionVars false

namespace Verif.DTree

open MP Spec
open Fit.Spec

variable {Ω : Type} {d : ℕ} {A : Args} {X : List (List ℚ)} {y : List ℤ} {o : FitOracle Ω} {tol : ℚ} {maxIt : ℤ} {limit : ℚ} {fuel : ℕ} {e0 : Fit.Est}
  {w : World Ω} {u : Unit} {s : Fit.St (World Ω) Duals Path}

/-- **C132.** If the integer master problem of a `fit` (the first of an object or a later one) is solved to optimality, no tree made of paths of the master
problem, initial or generated, is worth more than the selected one. -/
theorem C132_best (hf : FitOk d A X (encoded y)) (hc : FitContract d A X o tol) (hy : TwoClasses y) (hip : IpOptimal d A X o)
    (hs : Session o A X y w) (hr : Fit.fit (env o A X) (config A maxIt limit) fuel y e0 w = some (.ok u, s))
    {σ : ℕ → ℕ} {Q : ℕ → Path} (hQ : HasTree d s.world.master.paths σ Q) :
    ((List.range (2 ^ d)).map (fun l => (Q l).cost)).sum ≤ (s.world.master.selected.map (·.cost)).sum :=
  beats_from hf hc hy hip (session_inv hf hc hy hs) hr hQ

/-- **C132.** So if the initial costs do not overstate the hits, the fitted classifier is right for at least that many training rows (with weights). -/
theorem C132_hits (hf : FitOk d A X (encoded y)) (hc : FitContract d A X o tol) (hy : TwoClasses y) (hip : IpOptimal d A X o)
    (h0 : ∀ p ∈ A.paths, p.cost ≤ hitsOf d (Args.base A d X (encoded y)) p p.target)
    (hs : Session o A X y w) (hr : Fit.fit (env o A X) (config A maxIt limit) fuel y e0 w = some (.ok u, s))
    {σ : ℕ → ℕ} {Q : ℕ → Path} (hQ : HasTree d s.world.master.paths σ Q) :
    ((List.range (2 ^ d)).map (fun l => (Q l).cost)).sum ≤ trainHits d A X (encoded y) s.world.master.splits s.world.master.selected :=
  (C132_best hf hc hy hip hs hr hQ).trans (attained_from hf hc hy h0 (session_inv hf hc hy hs) hr)

/-- **C132.** No part of the fitted tree can be exchanged with profit: let `σ` and `P` be the questions and paths of the fitted tree, `S` some of its leaves,
and `Q` paths of the master problem for these leaves that form a tree with the paths of the other leaves. Then the paths `Q` are worth at most as much as the
paths that they replace. -/
theorem C132_exchange (hf : FitOk d A X (encoded y)) (hc : FitContract d A X o tol) (hy : TwoClasses y) (hip : IpOptimal d A X o)
    (hs : Session o A X y w) (hr : Fit.fit (env o A X) (config A maxIt limit) fuel y e0 w = some (.ok u, s)) :
    ∃ (σ : ℕ → ℕ) (P : ℕ → Path), (s.world.master.selected).Perm ((List.range (2 ^ d)).map P) ∧ HasTree d s.world.master.paths σ P ∧
      ∀ (S : ℕ → Bool) (σ' : ℕ → ℕ) (Q : ℕ → Path),
        (∀ l < 2 ^ d, S l = true → Q l ∈ s.world.master.paths ∧ (Q l).leafId = l ∧ ∀ q ∈ (Q l).pairs, q.2 = σ' q.1) →
        (∀ l < 2 ^ d, S l = false → ∀ q ∈ (P l).pairs, q.2 = σ' q.1) →
        (((List.range (2 ^ d)).filter S).map (fun l => (Q l).cost)).sum ≤ (((List.range (2 ^ d)).filter S).map (fun l => (P l).cost)).sum := by
  obtain ⟨s1, σ, P, -, -, hM, ht, hperm, -⟩ := fit_final hf hc hy (session_inv hf hc hy hs) hr
  have hT : HasTree d s.world.master.paths σ P := fun l hl => ⟨by rw [hM, solveIp_paths]; exact ht.mem l hl, ht.leaf l hl, ht.splits l hl⟩
  refine ⟨σ, P, hperm, hT, fun S σ' Q h1 h2 => ?_⟩
  have hb := C132_best hf hc hy hip hs hr (σ := σ') (Q := fun l => if S l then Q l else P l) (by
    intro l hl
    by_cases h : S l
    · simp only [h, if_true]
      exact h1 l hl h
    · simp only [h, Bool.false_eq_true, if_false]
      exact ⟨(hT l hl).1, (hT l hl).2.1, h2 l hl (by simpa using h)⟩)
  rw [(hperm.map _).sum_eq, List.map_map] at hb
  have key : ∀ L : List ℕ, (L.map (fun l => (if S l then Q l else P l).cost)).sum + ((L.filter S).map (fun l => (P l).cost)).sum =
      (L.map (fun l => (P l).cost)).sum + ((L.filter S).map (fun l => (Q l).cost)).sum := by
    intro L
    induction L with
    | nil => simp
    | cons l L ih =>
      by_cases h : S l
      · simp only [List.map_cons, List.sum_cons, List.filter_cons, h, if_true]
        linarith
      · simp only [List.map_cons, List.sum_cons, List.filter_cons, h, Bool.false_eq_true, if_false]
        linarith
  have hk := key (List.range (2 ^ d))
  simp only [Function.comp_def] at hb
  linarith

/-- **C132.** In particular a path of the master problem that asks the questions of the fitted tree on the way to its leaf, with any label, is worth at most as
much as the selected path of this leaf. -/
theorem C132_leaf (hf : FitOk d A X (encoded y)) (hc : FitContract d A X o tol) (hy : TwoClasses y) (hip : IpOptimal d A X o)
    (hs : Session o A X y w) (hr : Fit.fit (env o A X) (config A maxIt limit) fuel y e0 w = some (.ok u, s)) :
    ∀ p ∈ s.world.master.selected, ∀ q ∈ s.world.master.paths, q.leafId = p.leafId → (∀ a ∈ q.pairs, a ∈ p.pairs) → q.cost ≤ p.cost := by
  obtain ⟨σ, P, hperm, hT, hx⟩ := C132_exchange hf hc hy hip hs hr
  intro p hp q hq hl hpairs
  obtain ⟨l, hl', rfl⟩ := List.mem_map.1 (hperm.mem_iff.1 hp)
  have hl' := List.mem_range.1 hl'
  have h := hx (fun i => decide (i = l)) σ (fun _ => q)
    (fun i hi hS => by
      obtain rfl : i = l := by simpa using hS
      exact ⟨hq, hl.trans (hT i hi).2.1, fun a ha => (hT i hi).2.2 a (hpairs a ha)⟩)
    (fun i hi _ => (hT i hi).2.2)
  have e : (List.range (2 ^ d)).filter (fun i => decide (i = l)) = [l] := by
    have := List.Nodup.filter (fun i => decide (i = l)) (List.nodup_range (n := 2 ^ d))
    refine List.perm_singleton.1 ((List.perm_ext_iff_of_nodup this (List.nodup_singleton l)).2 fun i => ?_)
    simp only [List.mem_filter, List.mem_range, decide_eq_true_eq, List.mem_singleton]
    exact ⟨fun h => h.2, fun h => ⟨h ▸ hl', h⟩⟩
  rw [e] at h
  simpa using h

end Verif.DTree
