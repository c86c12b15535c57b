import Verif.Fit.ClashProps

/-!
# Property C146: a certified tree against trees, guesses and perfect answers
-/

set_option linter.unusedSectionVars false

namespace Verif.DTree

open MP Spec Point
open Fit.Spec

variable {Ω : Type} {o : FitOracle Ω} {d : ℕ} {A : Args} {X : List (List ℚ)} {y : List ℤ} {tol : ℚ} {maxIt : ℤ} {limit : ℚ} {fuel : ℕ} {e0 : Fit.Est} {u : Unit}
  {w : World Ω} {s : Fit.St (World Ω) Duals Path} {a : ℚ}

theorem tree_rows (hf : FitOk d A X (encoded y)) (hc : FitContract d A X o tol) (hy : TwoClasses y)
    (hl : y.length = X.length) (hpo : PriceOptimal o) (hnew : A.useOld = false) (hrows : A.dataRows = none)
    (h0 : ∀ p ∈ A.paths, p.cost ≤ hitsOf d (Args.base A d X (encoded y)) p p.target)
    (hs : Session o A X y w) (hr : Fit.fit (env o A X) (config A maxIt limit) fuel y e0 w = some (.ok u, s)) (hopt : s.est.mpOptimal = true)
    (hgap : s.world.master.rmpObj + 2 ^ d * (1 / 1000000 + ((2 * X.length + s.world.master.cutCons.length + d * A.splits.length : ℕ) : ℚ) / 100000) +
      (2 ^ d - 1) * tol < (s.world.master.selected.map (·.cost)).sum + 1)
    (t : Questions) (ht : t.Within d A.nodes A.splits) :
    (X.zip y).countP (fun q => decide (t.answer q.1 = q.2)) ≤ Point.Spec.rightRows (predictFitted A s) (X.zip y) := by
  have h := C108_best_tree hf hc hy hl hpo hnew h0 hs hr hopt hgap t ht
  rw [C108_count hl hrows, C108_count hl hrows] at h
  unfold Point.Spec.rightRows
  refine le_trans (le_of_eq (List.countP_congr ?_)) (le_trans (Nat.cast_le.1 h) (le_of_eq (List.countP_congr ?_))) <;>
  · intro q _
    simp only [decide_eq_true_eq]

/-- **C146.** The score of a certified tree on its training data is at least the part of the rows that any tree over its candidate questions answers right. -/
theorem C146_tree (hf : FitOk d A X (encoded y)) (hc : FitContract d A X o tol) (hy : TwoClasses y)
    (hl : y.length = X.length) (hpo : PriceOptimal o) (hnew : A.useOld = false) (hrows : A.dataRows = none)
    (h0 : ∀ p ∈ A.paths, p.cost ≤ hitsOf d (Args.base A d X (encoded y)) p p.target)
    (hs : Session o A X y w) (hr : Fit.fit (env o A X) (config A maxIt limit) fuel y e0 w = some (.ok u, s)) (hopt : s.est.mpOptimal = true)
    (hgap : s.world.master.rmpObj + 2 ^ d * (1 / 1000000 + ((2 * X.length + s.world.master.cutCons.length + d * A.splits.length : ℕ) : ℚ) / 100000) +
      (2 ^ d - 1) * tol < (s.world.master.selected.map (·.cost)).sum + 1)
    (ha : Sk.score (predictFitted A s) X y = .ok a) (t : Questions) (ht : t.Within d A.nodes A.splits) :
    ((X.zip y).countP (fun q => decide (t.answer q.1 = q.2)) : ℚ) / X.length ≤ a := by
  obtain ⟨_, -, rfl⟩ := score_ok (C135_tree A s).1 hl ha
  exact div_le_div_of_nonneg_right (by exact_mod_cast tree_rows hf hc hy hl hpo hnew hrows h0 hs hr hopt hgap t ht) (Nat.cast_nonneg _)

/-- **C146.** It is at least the part of the rows with label `c`, for every `c`: always guessing the most frequent label is not better. -/
theorem C146_guess (hf : FitOk d A X (encoded y)) (hc : FitContract d A X o tol) (hy : TwoClasses y)
    (hl : y.length = X.length) (hpo : PriceOptimal o) (hnew : A.useOld = false) (hrows : A.dataRows = none)
    (h0 : ∀ p ∈ A.paths, p.cost ≤ hitsOf d (Args.base A d X (encoded y)) p p.target)
    (hs : Session o A X y w) (hr : Fit.fit (env o A X) (config A maxIt limit) fuel y e0 w = some (.ok u, s)) (hopt : s.est.mpOptimal = true)
    (hgap : s.world.master.rmpObj + 2 ^ d * (1 / 1000000 + ((2 * X.length + s.world.master.cutCons.length + d * A.splits.length : ℕ) : ℚ) / 100000) +
      (2 ^ d - 1) * tol < (s.world.master.selected.map (·.cost)).sum + 1)
    (ha : Sk.score (predictFitted A s) X y = .ok a) (c : ℤ) : (y.count c : ℚ) / X.length ≤ a := by
  have h := C146_tree hf hc hy hl hpo hnew hrows h0 hs hr hopt hgap ha ⟨0, fun _ => 0, fun _ => 0, fun _ => c⟩ ⟨Nat.zero_le _, fun n hn => by simp at hn⟩
  refine le_trans (le_of_eq ?_) h
  congr 2
  have e : (X.zip y).countP (fun q => decide (c = q.2)) = ((X.zip y).map Prod.snd).countP (fun b => decide (c = b)) := by
    rw [List.countP_map]; rfl
  change y.count c = (X.zip y).countP (fun q => decide (c = q.2))
  rw [e, List.map_snd_zip (le_of_eq hl), List.count_eq_countP]
  refine List.countP_congr fun b _ => ?_
  simp only [beq_iff_eq, decide_eq_true_eq]
  exact eq_comm

/-- **C146.** With `k` labels the score is at least `1/k`. -/
theorem C146_labels (hf : FitOk d A X (encoded y)) (hc : FitContract d A X o tol) (hy : TwoClasses y)
    (hl : y.length = X.length) (hpo : PriceOptimal o) (hnew : A.useOld = false) (hrows : A.dataRows = none)
    (h0 : ∀ p ∈ A.paths, p.cost ≤ hitsOf d (Args.base A d X (encoded y)) p p.target)
    (hs : Session o A X y w) (hr : Fit.fit (env o A X) (config A maxIt limit) fuel y e0 w = some (.ok u, s)) (hopt : s.est.mpOptimal = true)
    (hgap : s.world.master.rmpObj + 2 ^ d * (1 / 1000000 + ((2 * X.length + s.world.master.cutCons.length + d * A.splits.length : ℕ) : ℚ) / 100000) +
      (2 ^ d - 1) * tol < (s.world.master.selected.map (·.cost)).sum + 1)
    (ha : Sk.score (predictFitted A s) X y = .ok a) : 1 / (y.toFinset.card : ℚ) ≤ a := by
  have hy0 : 0 < y.length := by
    obtain ⟨b, hb, -⟩ := hy
    exact List.length_pos_of_mem hb
  have hk : 0 < y.toFinset.card := by
    obtain ⟨b, hb, -⟩ := hy
    exact Finset.card_pos.2 ⟨b, List.mem_toFinset.2 hb⟩
  have hn : (0 : ℚ) < X.length := by exact_mod_cast (hl ▸ hy0)
  have hsum : (y.length : ℚ) = ∑ c ∈ y.toFinset, (y.count c : ℚ) := by
    rw [← Nat.cast_sum, List.sum_toFinset_count_eq_length]
  have hle : ∑ c ∈ y.toFinset, (y.count c : ℚ) ≤ ∑ _c ∈ y.toFinset, a * X.length := by
    refine Finset.sum_le_sum fun c _ => ?_
    exact (div_le_iff₀ hn).1 (C146_guess hf hc hy hl hpo hnew hrows h0 hs hr hopt hgap ha c)
  rw [Finset.sum_const, nsmul_eq_mul, ← hsum, hl] at hle
  have hk' : (0 : ℚ) < y.toFinset.card := by exact_mod_cast hk
  rw [div_le_iff₀ hk']
  by_contra hcon
  push Not at hcon
  have := mul_lt_mul_of_pos_right hcon hn
  linarith

/-- **C146.** `predict` returns the labels of the training rows exactly if some tree over the candidate questions is right for all of them. -/
theorem C146_learns (hf : FitOk d A X (encoded y)) (hc : FitContract d A X o tol) (hy : TwoClasses y)
    (hl : y.length = X.length) (hpo : PriceOptimal o) (hnew : A.useOld = false) (hrows : A.dataRows = none)
    (h0 : ∀ p ∈ A.paths, p.cost ≤ hitsOf d (Args.base A d X (encoded y)) p p.target)
    (hs : Session o A X y w) (hr : Fit.fit (env o A X) (config A maxIt limit) fuel y e0 w = some (.ok u, s)) (hopt : s.est.mpOptimal = true)
    (hgap : s.world.master.rmpObj + 2 ^ d * (1 / 1000000 + ((2 * X.length + s.world.master.cutCons.length + d * A.splits.length : ℕ) : ℚ) / 100000) +
      (2 ^ d - 1) * tol < (s.world.master.selected.map (·.cost)).sum + 1) :
    predictFitted A s X = .ok y ↔ ∃ t : Questions, t.Within d A.nodes A.splits ∧ List.Forall₂ (fun row label => t.answer row = label) X y := by
  rw [(C135_tree A s).1 X y]
  constructor
  · intro h
    obtain ⟨t, -, h1, h2⟩ := C108_fitted_is_tree hf hc hy hs hr
    exact ⟨t, h1, h.imp fun row label h => h2 row label h⟩
  · rintro ⟨t, ht, h⟩
    have h1 := tree_rows hf hc hy hl hpo hnew hrows h0 hs hr hopt hgap t ht
    have h2 : (X.zip y).countP (fun q => decide (t.answer q.1 = q.2)) = (X.zip y).length := by
      refine List.countP_eq_length.2 fun q hq => ?_
      simp only [decide_eq_true_eq]
      exact (List.forall₂_iff_zip.1 h).2 hq
    rw [h2] at h1
    have h3 : Point.Spec.rightRows (predictFitted A s) (X.zip y) = (X.zip y).length := le_antisymm List.countP_le_length h1
    refine List.forall₂_iff_zip.2 ⟨hl.symm, fun {row label} hq => ?_⟩
    have h4 := List.countP_eq_length.1 h3 _ hq
    simpa using h4

end Verif.DTree
