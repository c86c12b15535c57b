import Verif.DTree.FitProps

/-!
# C51: when exactly `predict` fails
-/

set_option linter.unusedSectionVars false

namespace Verif.DTree

open MP Spec

variable {Ω : Type} {o : FitOracle Ω} {d : ℕ} {A : Args} {X : List (List ℚ)} {y : List ℤ} {tol : ℚ} {maxIt : ℤ} {limit : ℚ} {fuel : ℕ} {e0 : Fit.Est}
  {ω : Ω} {u : Unit} {s : Fit.St (World Ω) Duals Path}

theorem inverse_ok {classes codes : List ℤ} {K : List ℤ} (h : ∀ c ∈ codes, ∃ v ∈ K, Sk.inverseOne classes c = .ok v) :
    ∃ ls, Sk.inverseTransform classes codes = .ok ls ∧ ls.length = codes.length ∧ ∀ l ∈ ls, l ∈ K := by
  unfold Sk.inverseTransform
  induction codes with
  | nil => exact ⟨[], rfl, rfl, by simp⟩
  | cons c codes ih =>
    obtain ⟨ls, h1, h2, h3⟩ := ih (fun r hr => h r (by simp [hr]))
    obtain ⟨v, hv, hv'⟩ := h c (by simp)
    refine ⟨v :: ls, ?_, by simp [h2], ?_⟩
    · rw [List.mapM_cons, hv', h1]
      rfl
    · intro l hl
      rcases List.mem_cons.1 hl with rfl | hl
      · exact hv
      · exact h3 l hl

theorem inverse_error {classes codes : List ℤ} (h : ∀ c ∈ codes, (∃ v, Sk.inverseOne classes c = .ok v) ∨ Sk.inverseOne classes c = .error .valueError)
    (hc : ∃ c ∈ codes, Sk.inverseOne classes c = .error .valueError) : Sk.inverseTransform classes codes = .error .valueError := by
  unfold Sk.inverseTransform
  induction codes with
  | nil => simp at hc
  | cons c codes ih =>
    rw [List.mapM_cons]
    rcases h c (by simp) with ⟨v, hv⟩ | hv
    · obtain ⟨c', hc', he⟩ := hc
      rcases List.mem_cons.1 hc' with rfl | hc'
      · rw [hv] at he; cases he
      · rw [hv, ih (fun r hr => h r (by simp [hr])) ⟨c', hc', he⟩]
        rfl
    · rw [hv]
      rfl

/-- **C51, exactly.** After a successful `fit` with as many targets as classes and initial paths with known targets, a call of `predict` returns known
classes if no row in it follows a selected path with target `-1`, and raises `ValueError` otherwise. A selected path with target `-1` is
followed by no training row that was kept with positive weight. -/
theorem C51_exact (hf : FitOk d A X (encoded y)) (hc : FitContract d A X o tol) (hy : TwoClasses y)
    (hcl : A.targets.length ≤ (Sk.uniqueLabels y).length) (h0 : ∀ p ∈ A.paths, ∃ t ∈ A.targets, p.target = (t : ℤ))
    (hr : fitNew o A maxIt limit X fuel y e0 ω = some (.ok u, s)) (R : List (List ℚ)) :
    ((∀ row ∈ R, ∀ p ∈ s.world.master.selected, Follows d (rowLeft A.splits row) p → p.target ≠ -1) →
      ∃ ls, predictFitted A s R = .ok ls ∧ ls.length = R.length ∧ ∀ l ∈ ls, l ∈ y) ∧
    ((∃ row ∈ R, ∃ p ∈ s.world.master.selected, Follows d (rowLeft A.splits row) p ∧ p.target = -1) →
      predictFitted A s R = .error .valueError) ∧
    ∀ p ∈ s.world.master.selected, p.target = -1 → ∀ r, Kept (Args.base A d X (encoded y)) r → 0 < rowWeight (Args.base A d X (encoded y)) r →
      ¬ Follows d (rowPat (Args.base A d X (encoded y)) r) p := by
  obtain ⟨σ, P, hperm, -, hP, hpred⟩ := C72_fitted_tree hf hc hy hr
  have hmem : ∀ p, p ∈ s.world.master.selected ↔ ∃ l < 2 ^ d, P l = p := fun p => by
    rw [hperm.mem_iff]
    simp
  have hfol : ∀ row, ∀ l < 2 ^ d, (Follows d (rowLeft A.splits row) (P l) ↔ l = walkLeaf (fun n => takesLeft row (splitAt A.splits (σ n))) d) := by
    intro row l hl
    obtain ⟨h1, h2, h3, -⟩ := hP l hl
    rw [follows_tree h2 h3, h1]
    rfl
  have hclass := Fit.fit_classes hr
  have htarget : ∀ l < 2 ^ d, (∃ v ∈ y, Sk.inverseOne s.est.classes (P l).target = .ok v) ∨
      ((P l).target = -1 ∧ Sk.inverseOne s.est.classes (P l).target = .error .valueError ∧ ∀ r, Kept (Args.base A d X (encoded y)) r →
        0 < rowWeight (Args.base A d X (encoded y)) r → ¬ Follows d (rowPat (Args.base A d X (encoded y)) r) (P l)) := by
    intro l hl
    obtain ⟨-, -, -, h4⟩ := hP l hl
    have hknown : (∃ t ∈ A.targets, (P l).target = (t : ℤ)) → ∃ v ∈ y, Sk.inverseOne s.est.classes (P l).target = .ok v := by
      rintro ⟨t, ht, he⟩
      rw [he, hclass]
      have htl : t < (Sk.uniqueLabels y).length := lt_of_lt_of_le (List.mem_range.1 (hf.targets.mem_iff.1 ht)) hcl
      refine ⟨(Sk.uniqueLabels y)[t], (Sk.mem_uniqueLabels y _).1 (List.getElem_mem htl), ?_⟩
      simp [Sk.inverseOne, List.getElem?_eq_getElem htl]
    rcases h4 with ⟨q, hq, i, he⟩ | h4
    · refine .inl (hknown ?_)
      rw [he]
      exact h0 q hq
    · rcases h4.target with h | ⟨h5, h6, h7⟩
      · exact .inl (hknown h)
      · exact .inr ⟨h5, by rw [h5]; rfl, h7⟩
  refine ⟨fun hR => ?_, fun ⟨row, hrow, p, hp, hfp, hpt⟩ => ?_, ?_⟩
  · unfold predictFitted predict
    obtain ⟨ls, e1, e2, e3⟩ := inverse_ok (classes := s.est.classes) (K := y)
      (codes := R.map fun row => predictRow A.leaves s.world.master.splits row s.world.master.selected) (fun c hc' => by
        obtain ⟨row, hrow, rfl⟩ := List.mem_map.1 hc'
        rw [hpred]
        have hlt : walkLeaf (fun n => takesLeft row (splitAt A.splits (σ n))) d < 2 ^ d := walkLeaf_lt _ _
        rcases htarget _ hlt with h | ⟨h, -⟩
        · exact h
        · exact absurd h (hR row hrow _ ((hmem _).2 ⟨_, hlt, rfl⟩) ((hfol row _ hlt).2 rfl)))
    exact ⟨ls, e1, by simpa using e2, e3⟩
  · unfold predictFitted predict
    refine inverse_error (fun c hc' => ?_) ?_
    · obtain ⟨row, hrow, rfl⟩ := List.mem_map.1 hc'
      rw [hpred]
      rcases htarget _ (walkLeaf_lt (fun n => takesLeft row (splitAt A.splits (σ n))) d) with ⟨v, -, h⟩ | ⟨-, h, -⟩
      · exact .inl ⟨v, h⟩
      · exact .inr h
    · refine ⟨_, List.mem_map.2 ⟨row, hrow, rfl⟩, ?_⟩
      obtain ⟨l, hl, rfl⟩ := (hmem p).1 hp
      rw [hpred, ← (hfol row l hl).1 hfp, hpt]
      rfl
  · intro p hp hpt
    obtain ⟨l, hl, rfl⟩ := (hmem p).1 hp
    rcases htarget l hl with ⟨v, -, h⟩ | ⟨-, -, h⟩
    · rw [hpt] at h; cases h
    · exact h

end Verif.DTree
