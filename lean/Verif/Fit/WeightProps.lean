import Verif.Fit.ClashProps

/-!
# Property C143: `score` with weights

`ClassifierMixin.score(X, y, sample_weight)` passes the weights to `accuracy_score`, which averages with them.
-/

set_option linter.unusedSectionVars false

namespace Verif.Sk

/-- `ClassifierMixin.score(X, y, sample_weight)`: `accuracy_score(y, self.predict(X), sample_weight=w)`, the average of the right answers with weights `w` (`numpy.average`).
Vectors of different lengths raise `ValueError`, weights with sum zero `ZeroDivisionError`. The sums and the quotient are exact; negative weights are not refused. -/
def scoreW (predict : List (List ℚ) → Except Err (List ℤ)) (X : List (List ℚ)) (y : List ℤ) (w : List ℚ) : Except Err ℚ :=
  match predict X with
  | .error e => .error e
  | .ok ys =>
    if y.length = ys.length ∧ w.length = y.length then
      if w.sum = 0 then .error .zeroDivisionError
      else .ok ((((y.zip ys).zip w).map (fun t => (if t.1.1 = t.1.2 then 1 else 0) * t.2)).sum / w.sum)
    else .error .valueError

end Verif.Sk

namespace Verif.Point

open Spec

variable {f : List (List ℚ) → Except Err (List ℤ)} {X : List (List ℚ)} {y : List ℤ} {w : List ℚ} {a : ℚ}

namespace Spec

/-- The weight of the labelled rows for which the row alone gets the right answer. -/
def rightWeight (f : List (List ℚ) → Except Err (List ℤ)) (D : List ((List ℚ × ℤ) × ℚ)) : ℚ := (D.map (fun q => if f [q.1.1] = .ok [q.1.2] then q.2 else 0)).sum

/-- Every entry as often as its number says. -/
def repeated {α : Type} (D : List (α × ℕ)) : List α := D.flatMap (fun q => List.replicate q.2 q.1)

end Spec

theorem rightWeight_zip {ys : List ℤ} (h : List.Forall₂ (fun row v => f [row] = .ok [v]) X ys) : ∀ {y : List ℤ} {w : List ℚ}, y.length = X.length →
    (((y.zip ys).zip w).map (fun t => (if t.1.1 = t.1.2 then 1 else 0) * t.2)).sum = rightWeight f ((X.zip y).zip w) := by
  unfold rightWeight
  induction h with
  | nil =>
    intro y w hl
    cases y with
    | nil => rfl
    | cons _ _ => cases hl
  | @cons row v X ys h4 _ ih =>
    intro y w hl
    cases y with
    | nil => cases hl
    | cons t y =>
      cases w with
      | nil => rfl
      | cons b w =>
        simp only [List.zip_cons_cons, List.map_cons, List.sum_cons]
        rw [ih (by simpa using hl)]
        congr 1
        rw [h4]
        by_cases h5 : t = v
        · rw [if_pos h5, if_pos (by rw [h5]), one_mul]
        · rw [if_neg h5, if_neg (by intro h6; cases h6; exact h5 rfl), zero_mul]

/-- **C143.** If `predict` answers the rows and the weights do not add up to zero, `score` is the weight of the rows that alone get the right answer, divided by the sum of
the weights. Otherwise it raises: what `predict` raises, or `ZeroDivisionError`. -/
theorem C143_score (h : Pointwise f) (hl : y.length = X.length) (hw : w.length = X.length) :
    (∀ ys, f X = .ok ys → w.sum ≠ 0 → Sk.scoreW f X y w = .ok (rightWeight f ((X.zip y).zip w) / w.sum)) ∧
    (∀ ys, f X = .ok ys → w.sum = 0 → Sk.scoreW f X y w = .error .zeroDivisionError) ∧ ∀ e, f X = .error e → Sk.scoreW f X y w = .error e := by
  refine ⟨fun ys hys h0 => ?_, fun ys hys h0 => ?_, fun e he => ?_⟩
  · have h1 := (h X ys).1 hys
    have h2 : ys.length = X.length := h1.length_eq.symm
    unfold Sk.scoreW
    rw [hys]
    simp only
    rw [if_pos ⟨by omega, by omega⟩, if_neg h0, rightWeight_zip h1 hl]
  · have h1 := (h X ys).1 hys
    have h2 : ys.length = X.length := h1.length_eq.symm
    unfold Sk.scoreW
    rw [hys]
    simp only
    rw [if_pos ⟨by omega, by omega⟩, if_pos h0]
  · unfold Sk.scoreW
    rw [he]

theorem scoreW_ok (h : Pointwise f) (hl : y.length = X.length) (hw : w.length = X.length) (ha : Sk.scoreW f X y w = .ok a) :
    ∃ ys, f X = .ok ys ∧ w.sum ≠ 0 ∧ a = rightWeight f ((X.zip y).zip w) / w.sum := by
  cases hf : f X with
  | error e => rw [(C143_score h hl hw).2.2 e hf] at ha; cases ha
  | ok ys =>
    by_cases h0 : w.sum = 0
    · rw [(C143_score h hl hw).2.1 ys hf h0] at ha; cases ha
    · rw [(C143_score h hl hw).1 ys hf h0] at ha
      cases ha
      exact ⟨ys, rfl, h0, rfl⟩

theorem weight_sum : ∀ {D : List (List ℚ × ℤ)} {w : List ℚ}, w.length = D.length → ((D.zip w).map (·.2)).sum = w.sum
  | [], [], _ => rfl
  | _ :: D, b :: w, h => by
    rw [List.zip_cons_cons, List.map_cons, List.sum_cons, List.sum_cons, weight_sum (by simpa using h)]

/-- **C143.** With weights that are not negative the score lies between 0 and 1. -/
theorem C143_range (h : Pointwise f) (hl : y.length = X.length) (hw : w.length = X.length) (h0 : ∀ x ∈ w, 0 ≤ x) (ha : Sk.scoreW f X y w = .ok a) : 0 ≤ a ∧ a ≤ 1 := by
  obtain ⟨ys, -, hne, rfl⟩ := scoreW_ok h hl hw ha
  have hs : 0 ≤ w.sum := List.sum_nonneg h0
  have hpos : 0 < w.sum := lt_of_le_of_ne hs (Ne.symm hne)
  have hmem : ∀ q ∈ (X.zip y).zip w, 0 ≤ q.2 := fun q hq => h0 _ (List.of_mem_zip (a := q.1) (b := q.2) hq).2
  have h1 : 0 ≤ rightWeight f ((X.zip y).zip w) := by
    refine List.sum_nonneg fun x hx => ?_
    obtain ⟨q, hq, rfl⟩ := List.mem_map.1 hx
    by_cases hr : f [q.1.1] = .ok [q.1.2]
    · rw [if_pos hr]; exact hmem q hq
    · rw [if_neg hr]
  have h2 : rightWeight f ((X.zip y).zip w) ≤ w.sum := by
    rw [← weight_sum (D := X.zip y) (w := w) (by rw [List.length_zip]; omega)]
    refine List.sum_le_sum fun q hq => ?_
    by_cases hr : f [q.1.1] = .ok [q.1.2]
    · rw [if_pos hr]
    · rw [if_neg hr]; exact hmem q hq
  exact ⟨div_nonneg h1 hs, (div_le_one hpos).2 h2⟩

/-- **C143.** Weights on another scale give the same score. -/
theorem C143_scale (h : Pointwise f) (hl : y.length = X.length) (hw : w.length = X.length) {c : ℚ} (hc : c ≠ 0) (ha : Sk.scoreW f X y w = .ok a) :
    Sk.scoreW f X y (w.map (c * ·)) = .ok a := by
  obtain ⟨ys, hf, hne, rfl⟩ := scoreW_ok h hl hw ha
  have hsum : (w.map (c * ·)).sum = c * w.sum := by rw [List.sum_map_mul_left, List.map_id']
  rw [(C143_score h hl (by rw [List.length_map]; exact hw)).1 ys hf (by rw [hsum]; exact mul_ne_zero hc hne), hsum]
  have hr : rightWeight f ((X.zip y).zip (w.map (c * ·))) = c * rightWeight f ((X.zip y).zip w) := by
    unfold rightWeight
    rw [List.zip_map_right, List.map_map, ← List.sum_map_mul_left]
    congr 1
    refine List.map_congr_left fun q _ => ?_
    simp only [Function.comp_apply, Prod.map_fst, Prod.map_snd, id_eq]
    by_cases hr : f [q.1.1] = .ok [q.1.2]
    · rw [if_pos hr, if_pos hr]
    · rw [if_neg hr, if_neg hr, mul_zero]
  rw [hr, mul_div_mul_left _ _ hc]

theorem repeated_right : ∀ (D : List (List ℚ × ℤ)) (k : List ℕ), k.length = D.length →
    ((rightRows f (repeated (D.zip k)) : ℕ) : ℚ) = rightWeight f (D.zip (k.map (fun n : ℕ => (n : ℚ)))) ∧ ((repeated (D.zip k)).length : ℚ) = (k.map (fun n : ℕ => (n : ℚ))).sum
  | [], [], _ => by simp [repeated, rightRows, rightWeight]
  | q :: D, n :: k, h => by
    obtain ⟨h1, h2⟩ := repeated_right D k (by simpa using h)
    unfold repeated rightRows rightWeight at *
    simp only [List.zip_cons_cons, List.flatMap_cons, List.countP_append, List.map_cons, List.sum_cons, List.length_append, List.length_replicate]
    push_cast
    rw [h1, h2]
    refine ⟨?_, rfl⟩
    congr 1
    by_cases hr : f [q.1] = .ok [q.2]
    · rw [if_pos hr, List.countP_eq_length.2]
      · simp
      · intro x hx
        rw [List.eq_of_mem_replicate hx]
        simpa using hr
    · rw [if_neg hr, List.countP_eq_zero.2]
      · simp
      · intro x hx
        rw [List.eq_of_mem_replicate hx]
        simpa using hr

theorem answered_repeated (h : Pointwise f) {D : List (List ℚ × ℤ)} {k : List ℕ} (hf : ∃ ys, f (D.map (·.1)) = .ok ys) :
    ∃ ys, f ((repeated (D.zip k)).map (·.1)) = .ok ys := by
  rw [C135_answered h] at hf ⊢
  intro row hrow
  obtain ⟨q, hq, rfl⟩ := List.mem_map.1 hrow
  obtain ⟨e, he, hq⟩ := List.mem_flatMap.1 hq
  rw [List.eq_of_mem_replicate hq]
  exact hf _ (List.mem_map.2 ⟨e.1, (List.of_mem_zip (a := e.1) (b := e.2) he).1, rfl⟩)

/-- **C143.** Natural numbers as weights: the score of the rows, each given as often as its weight says. -/
theorem C143_repeated (h : Pointwise f) (hl : y.length = X.length) {k : List ℕ} (hk : k.length = X.length) (ha : Sk.scoreW f X y (k.map (fun n : ℕ => (n : ℚ))) = .ok a) :
    Sk.score f ((repeated ((X.zip y).zip k)).map (·.1)) ((repeated ((X.zip y).zip k)).map (·.2)) = .ok a := by
  obtain ⟨ys, hf, hne, rfl⟩ := scoreW_ok h hl (by rw [List.length_map]; exact hk) ha
  have hD : (X.zip y).map (·.1) = X := List.map_fst_zip (by omega)
  obtain ⟨zs, hz⟩ := answered_repeated (k := k) h (D := X.zip y) ⟨ys, by rw [hD]; exact hf⟩
  rw [(C137_score h (by simp)).1 zs hz]
  obtain ⟨h1, h2⟩ := repeated_right (f := f) (X.zip y) k (by rw [List.length_zip]; omega)
  rw [List.length_map, h2, ← h1]
  congr 3
  rw [← List.zip_of_prod (l := (repeated ((X.zip y).zip k)).map (·.1)) (l' := (repeated ((X.zip y).zip k)).map (·.2)) rfl rfl]

/-- **C143.** Equal weights: the score without weights. -/
theorem C143_equal (h : Pointwise f) (hl : y.length = X.length) (hX : X ≠ []) {c : ℚ} (hc : c ≠ 0) : Sk.scoreW f X y (List.replicate X.length c) = Sk.score f X y := by
  cases hf : f X with
  | error e => rw [(C143_score h hl (by simp)).2.2 e hf, (C137_score h hl).2 e hf]
  | ok ys =>
    have hn : (X.length : ℚ) ≠ 0 := by
      rw [Nat.cast_ne_zero]
      exact fun h0 => hX (List.length_eq_zero_iff.1 h0)
    have hsum : (List.replicate X.length c).sum = X.length * c := by rw [List.sum_replicate, nsmul_eq_mul]
    rw [(C143_score h hl (by simp)).1 ys hf (by rw [hsum]; exact mul_ne_zero hn hc), (C137_score h hl).1 ys hf, hsum]
    have hr : ∀ (D : List (List ℚ × ℤ)), rightWeight f (D.zip (List.replicate D.length c)) = (rightRows f D : ℚ) * c := by
      intro D
      unfold rightWeight rightRows
      induction D with
      | nil => simp
      | cons q D ih =>
        rw [List.length_cons, List.replicate_succ, List.zip_cons_cons, List.map_cons, List.sum_cons, ih, List.countP_cons]
        by_cases hq : f [q.1] = .ok [q.2]
        · simp only [hq, if_true, decide_true]
          push_cast
          ring
        · simp [hq]
    have hlen : (X.zip y).length = X.length := by rw [List.length_zip]; omega
    have := hr (X.zip y)
    rw [hlen] at this
    rw [this, mul_div_mul_right _ _ hc]

/-! ### Cases -/

/-- The rule `x0 and x2, or x1`: the wrong answer has weight 1/2 of 4. -/
example : Sk.scoreW (BDR.predictS [3, 7] [[0, 2], [1]]) [[1, 0, 1], [0, 1, 0], [1, 0, 0]] [7, 3, 3] [3, 1/2, 1/2] = .ok (7 / 8) ∧
    Sk.scoreW (BDR.predictS [3, 7] [[0, 2], [1]]) [[1, 0, 1], [0, 1, 0]] [7, 3] [1, -1] = .error .zeroDivisionError ∧
    Sk.scoreW (BDR.predictS [3, 7] [[0, 2], [1]]) [[1, 0, 1], [0, 1, 0]] [7, 3] [1] = .error .valueError := by decide +kernel

/-- Weights 2, 0 and 1 stand for three rows. -/
example : Sk.score (BDR.predictS [3, 7] [[0, 2], [1]]) [[1, 0, 1], [1, 0, 1], [1, 0, 0]] [7, 7, 7] = .ok (2 / 3) :=
  C143_repeated (X := [[1, 0, 1], [0, 1, 0], [1, 0, 0]]) (y := [7, 3, 7]) (k := [2, 0, 1]) (C135_rule_checked [3, 7] [[0, 2], [1]]).1 rfl rfl (by decide +kernel)

/-- With negative weights the score may be anything. -/
example : Sk.scoreW (BDR.predictS [3, 7] [[0, 2], [1]]) [[1, 0, 1], [0, 1, 0]] [7, 3] [3, -2] = .ok 3 := by decide +kernel

end Verif.Point
