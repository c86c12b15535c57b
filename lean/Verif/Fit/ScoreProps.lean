import Verif.Fit.PointProps
import Verif.DTree.MoreRowsProps
import Mathlib.Tactic.FieldSimp
import Mathlib.Tactic.Linarith
import Mathlib.Tactic.Positivity

/-!
# Property C137: `score`

`score` is inherited from scikit-learn's `ClassifierMixin` by `ColGenClassifier` (`_col_gen_classifier.py:251`): the accuracy of `predict`.
-/

set_option linter.unusedSectionVars false

namespace Verif.Sk

/-- `ClassifierMixin.score(X, y)` without weights: `accuracy_score(y, self.predict(X))`, for a method `predict`. Vectors of different lengths
raise `ValueError`. The quotient is exact. -/
def score (predict : List (List ℚ) → Except Err (List ℤ)) (X : List (List ℚ)) (y : List ℤ) : Except Err ℚ :=
  match predict X with
  | .error e => .error e
  | .ok ys => if y.length = ys.length then .ok (((y.zip ys).countP (fun q => decide (q.1 = q.2)) : ℕ) / (y.length : ℚ)) else .error .valueError

end Verif.Sk

namespace Verif.Point

open Spec

variable {f : List (List ℚ) → Except Err (List ℤ)} {X Z : List (List ℚ)} {y z : List ℤ} {a b : ℚ}

namespace Spec

/-- The number of labelled rows for which the row alone gets the right answer. -/
def rightRows (f : List (List ℚ) → Except Err (List ℤ)) (D : List (List ℚ × ℤ)) : ℕ := D.countP (fun q => decide (f [q.1] = .ok [q.2]))

end Spec

/-- **C137.** If `predict` answers the rows, `score` is the part of the rows that alone get the right answer; if `predict` raises, so does `score`. -/
theorem C137_score (h : Pointwise f) (hl : y.length = X.length) :
    (∀ ys, f X = .ok ys → Sk.score f X y = .ok ((rightRows f (X.zip y) : ℚ) / X.length)) ∧ ∀ e, f X = .error e → Sk.score f X y = .error e := by
  constructor
  · intro ys hys
    have h1 := (h X ys).1 hys
    have h2 : ys.length = X.length := h1.length_eq.symm
    have h3 : (y.zip ys).countP (fun q => decide (q.1 = q.2)) = rightRows f (X.zip y) := by
      unfold rightRows
      clear hys h2
      induction h1 generalizing y with
      | nil => cases y with
        | nil => rfl
        | cons _ _ => cases hl
      | @cons row v X ys h4 _ ih =>
        cases y with
        | nil => cases hl
        | cons t y =>
          rw [List.zip_cons_cons, List.zip_cons_cons, List.countP_cons, List.countP_cons, ih (by simpa using hl)]
          congr 1
          simp only [decide_eq_true_eq]
          rw [h4]
          by_cases h5 : t = v
          · rw [if_pos h5, if_pos (by rw [h5])]
          · rw [if_neg h5, if_neg (by intro h6; cases h6; exact h5 rfl)]
    unfold Sk.score
    rw [hys]
    simp only
    rw [if_pos (by rw [hl, h2]), h3, hl]
  · intro e he
    unfold Sk.score
    rw [he]

/-- What is known if `score` returns. -/
theorem score_ok (h : Pointwise f) (hl : y.length = X.length) (ha : Sk.score f X y = .ok a) : ∃ ys, f X = .ok ys ∧ a = (rightRows f (X.zip y) : ℚ) / X.length := by
  cases hf : f X with
  | error e => rw [(C137_score h hl).2 e hf] at ha; cases ha
  | ok ys =>
    rw [(C137_score h hl).1 ys hf] at ha
    cases ha
    exact ⟨ys, rfl, rfl⟩

/-- **C137.** `score` is between 0 and 1, and 1 exactly if `predict` returns the labels. -/
theorem C137_range (h : Pointwise f) (hl : y.length = X.length) (hX : X ≠ []) (ha : Sk.score f X y = .ok a) : 0 ≤ a ∧ a ≤ 1 ∧ (a = 1 ↔ f X = .ok y) := by
  obtain ⟨ys, hys, rfl⟩ := score_ok h hl ha
  have hn : (0 : ℚ) < X.length := by exact_mod_cast List.length_pos_iff.2 hX
  have hlen : (X.zip y).length = X.length := by rw [List.length_zip, hl, min_self]
  have hc : rightRows f (X.zip y) ≤ X.length := by
    rw [← hlen]
    exact List.countP_le_length
  refine ⟨by positivity, ?_, ?_⟩
  · rw [div_le_one hn]
    exact_mod_cast hc
  · rw [div_eq_one_iff_eq (ne_of_gt hn), Nat.cast_inj, h]
    constructor
    · intro h1
      have h2 : ∀ q ∈ X.zip y, f [q.1] = .ok [q.2] := by
        have h2 := List.countP_eq_length.1 (h1.trans hlen.symm)
        exact fun q hq => of_decide_eq_true (h2 q hq)
      exact List.forall₂_iff_zip.2 ⟨hl.symm, fun hq => h2 _ hq⟩
    · intro h1
      rw [← hlen]
      refine List.countP_eq_length.2 fun q hq => decide_eq_true ?_
      exact (List.forall₂_iff_zip.1 h1).2 hq

/-- **C137.** The score of two batches together is the mean of their scores, weighted by the numbers of rows. -/
theorem C137_batches (h : Pointwise f) (hl : y.length = X.length) (hl' : z.length = Z.length) (hX : X ≠ []) (hZ : Z ≠ []) (ha : Sk.score f X y = .ok a)
    (hb : Sk.score f Z z = .ok b) : Sk.score f (X ++ Z) (y ++ z) = .ok ((X.length * a + Z.length * b) / (X.length + Z.length)) := by
  obtain ⟨ys, hys, rfl⟩ := score_ok h hl ha
  obtain ⟨zs, hzs, rfl⟩ := score_ok h hl' hb
  have h1 : f (X ++ Z) = .ok (ys ++ zs) := (C135_append h X Z _).2 ⟨ys, zs, rfl, hys, hzs⟩
  rw [(C137_score h (by simp [hl, hl'])).1 _ h1]
  have hn : (0 : ℚ) < X.length := by exact_mod_cast List.length_pos_iff.2 hX
  have hm : (0 : ℚ) < Z.length := by exact_mod_cast List.length_pos_iff.2 hZ
  have h2 : rightRows f ((X ++ Z).zip (y ++ z)) = rightRows f (X.zip y) + rightRows f (Z.zip z) := by
    unfold rightRows
    rw [List.zip_append hl.symm, List.countP_append]
  rw [h2, List.length_append, mul_div_cancel₀ _ (ne_of_gt hn), mul_div_cancel₀ _ (ne_of_gt hm), Nat.cast_add, Nat.cast_add]

/-- **C137.** Rearranged labelled rows have the same score. -/
theorem C137_order (h : Pointwise f) (hl : y.length = X.length) (hl' : z.length = Z.length) (hp : (X.zip y).Perm (Z.zip z)) (ha : Sk.score f X y = .ok a) :
    Sk.score f Z z = .ok a := by
  obtain ⟨ys, hys, rfl⟩ := score_ok h hl ha
  have hfst : ∀ {X : List (List ℚ)} {y : List ℤ}, y.length = X.length → (X.zip y).map Prod.fst = X := fun hl => List.map_fst_zip (le_of_eq hl.symm)
  have hp' : X.Perm Z := by
    have := hp.map Prod.fst
    rwa [hfst hl, hfst hl'] at this
  obtain ⟨zs, hzs, -⟩ := C135_perm h hp' hys
  rw [(C137_score h hl').1 _ hzs]
  unfold rightRows
  rw [hp.countP_eq, hp'.length_eq]

end Verif.Point

namespace Verif.DTree

open MP Spec Point
open Fit.Spec

variable {Ω Ω' : Type} {o : FitOracle Ω} {o' : FitOracle Ω'} {d d' : ℕ} {A A' : Args} {X X' : List (List ℚ)} {y y' : List ℤ} {tol tol' : ℚ}
  {maxIt maxIt' : ℤ} {limit limit' : ℚ} {fuel fuel' : ℕ} {e0 e0' : Fit.Est} {u u' : Unit} {w : World Ω} {w' : World Ω'}
  {s : Fit.St (World Ω) Duals Path} {s' : Fit.St (World Ω') Duals Path} {a b : ℚ}

/-- **C137.** The score of a certified tree on its training data is at least that of any other run, on whatever data, of at most its depth and with no further candidate
questions, as far as `score` returns for both. -/
theorem C137_certified (hf : FitOk d A X (encoded y)) (hc : FitContract d A X o tol) (hy : TwoClasses y)
    (hl : y.length = X.length) (hpo : PriceOptimal o) (hnew : A.useOld = false) (hrows : A.dataRows = none)
    (h0 : ∀ p ∈ A.paths, p.cost ≤ hitsOf d (Args.base A d X (encoded y)) p p.target)
    (hs : Session o A X y w) (hr : Fit.fit (env o A X) (config A maxIt limit) fuel y e0 w = some (.ok u, s)) (hopt : s.est.mpOptimal = true)
    (hgap : s.world.master.rmpObj + 2 ^ d * (1 / 1000000 + ((2 * X.length + s.world.master.cutCons.length + d * A.splits.length : ℕ) : ℚ) / 100000) +
      (2 ^ d - 1) * tol < (s.world.master.selected.map (·.cost)).sum + 1)
    (hf' : FitOk d' A' X' (encoded y')) (hc' : FitContract d' A' X' o' tol') (hy' : TwoClasses y') (hs' : Session o' A' X' y' w')
    (hr' : Fit.fit (env o' A' X') (config A' maxIt' limit') fuel' y' e0' w' = some (.ok u', s')) (hd : d' ≤ d)
    (hq : FewerQuestions d' A'.nodes A'.splits A.nodes A.splits) (ha : Sk.score (predictFitted A s) X y = .ok a)
    (hb : Sk.score (predictFitted A' s') X y = .ok b) : b ≤ a := by
  obtain ⟨_, -, rfl⟩ := score_ok (C135_tree A s).1 hl ha
  obtain ⟨_, -, rfl⟩ := score_ok (C135_tree A' s').1 hl hb
  have h : Point.Spec.rightRows (predictFitted A' s') (X.zip y) ≤ Point.Spec.rightRows (predictFitted A s) (X.zip y) :=
    right_le hf hc hy hl hpo hnew hrows h0 hs hr hopt hgap hf' hc' hy' hs' hr' hd hq
  have h' : ((Point.Spec.rightRows (predictFitted A' s') (X.zip y) : ℕ) : ℚ) ≤ (Point.Spec.rightRows (predictFitted A s) (X.zip y) : ℕ) := by exact_mod_cast h
  exact div_le_div_of_nonneg_right h' (Nat.cast_nonneg _)

end Verif.DTree
