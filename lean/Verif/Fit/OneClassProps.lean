import Verif.BDR.LifeProps
import Verif.DTree.LifeProps
import Verif.Check

/-!
# Property C138: what a `fit` that is refused does to a fitted classifier

`fit` writes `classes_` and `label_encoder_` before it refuses a single class (`_col_gen_classifier.py:349-361`), and does not restore them.
-/

set_option linter.unusedSectionVars false

namespace Verif.Fit

open Spec

namespace Spec

/-- The number of different labels below `v`. -/
def rank (L : List ℤ) (v : ℤ) : ℕ := (L.dedup.filter (fun b => decide (b < v))).length

/-- `v` has among the labels `L` the place that `v'` has among `L'`. -/
def SamePlace (L L' : List ℤ) (v v' : ℤ) : Prop := v ∈ L ∧ v' ∈ L' ∧ rank L v = rank L' v'

end Spec

theorem sorted_count {l : List ℤ} (h : l.Pairwise (· < ·)) {i : ℕ} {v : ℤ} (hi : l[i]? = some v) : (l.filter (fun b => decide (b < v))).length = i := by
  induction l generalizing i with
  | nil => cases hi
  | cons a l ih =>
    obtain ⟨h1, h2⟩ := List.pairwise_cons.1 h
    cases i with
    | zero =>
      rw [List.getElem?_cons_zero, Option.some.injEq] at hi
      subst hi
      rw [List.filter_cons, if_neg (by simp), List.length_eq_zero_iff, List.filter_eq_nil_iff]
      intro b hb
      simpa using (h1 b hb).le
    | succ i =>
      rw [List.getElem?_cons_succ] at hi
      rw [List.filter_cons, if_pos (by simpa using h1 v (List.mem_of_getElem? hi)), List.length_cons, ih h2 hi]

theorem rank_unique (L : List ℤ) (v : ℤ) : rank L v = ((Sk.uniqueLabels L).filter (fun b => decide (b < v))).length := by
  unfold rank Sk.uniqueLabels
  exact ((List.perm_insertionSort (· ≤ ·) L.dedup).filter _).length_eq.symm

/-- A code is decoded to the label with that many labels below it. -/
theorem inverseOne_ok {L : List ℤ} {c v : ℤ} : Sk.inverseOne (Sk.uniqueLabels L) c = .ok v ↔ v ∈ L ∧ c = rank L v := by
  have hs := Sk.sorted_uniqueLabels L
  constructor
  · intro h
    unfold Sk.inverseOne at h
    split at h
    · rename_i hc
      split at h
      · rename_i u hu
        cases h
        refine ⟨(Sk.mem_uniqueLabels L v).1 (List.mem_of_getElem? hu), ?_⟩
        rw [rank_unique, sorted_count hs hu]
        omega
      · cases h
    · cases h
  · rintro ⟨hv, rfl⟩
    obtain ⟨i, hi⟩ := List.mem_iff_getElem?.1 ((Sk.mem_uniqueLabels L v).2 hv)
    rw [rank_unique, sorted_count hs hi]
    unfold Sk.inverseOne
    rw [if_pos (by omega), Int.toNat_natCast, hi]

theorem inverseOne_error {L : List ℤ} {c : ℤ} {e : Err} (h : Sk.inverseOne (Sk.uniqueLabels L) c = .error e) : e = .valueError := by
  unfold Sk.inverseOne at h
  split at h
  · split at h
    · cases h
    · cases h; rfl
  · cases h; rfl

/-- Codes that were decoded with `L`, decoded with `L'`. -/
theorem decode_ranks {L L' cs ys : List ℤ} (h : Sk.inverseTransform (Sk.uniqueLabels L) cs = .ok ys) :
    (∀ ys', Sk.inverseTransform (Sk.uniqueLabels L') cs = .ok ys' ↔ List.Forall₂ (SamePlace L L') ys ys') ∧
      ((∃ v ∈ ys, ∀ v', ¬ SamePlace L L' v v') → Sk.inverseTransform (Sk.uniqueLabels L') cs = .error .valueError) := by
  unfold Sk.inverseTransform at *
  have h1 := Sk.mapM_ok_iff.1 h
  have key : ∀ ys', cs.mapM (Sk.inverseOne (Sk.uniqueLabels L')) = .ok ys' ↔ List.Forall₂ (SamePlace L L') ys ys' := by
    intro ys'
    rw [Sk.mapM_ok_iff]
    clear h
    induction h1 generalizing ys' with
    | nil => rw [List.forall₂_nil_left_iff, List.forall₂_nil_left_iff]
    | @cons c v cs ys h2 _ ih =>
      obtain ⟨hv, hc⟩ := inverseOne_ok.1 h2
      rw [List.forall₂_cons_left_iff, List.forall₂_cons_left_iff]
      refine exists_congr fun v' => exists_congr fun t => ?_
      rw [ih t, inverseOne_ok]
      unfold SamePlace
      constructor
      · rintro ⟨⟨h3, h4⟩, h5⟩
        exact ⟨⟨hv, h3, by omega⟩, h5⟩
      · rintro ⟨⟨-, h3, h4⟩, h5⟩
        exact ⟨⟨h3, by omega⟩, h5⟩
  refine ⟨key, fun hno => ?_⟩
  cases hr : cs.mapM (Sk.inverseOne (Sk.uniqueLabels L')) with
  | ok ys' =>
    obtain ⟨v, hv, hn⟩ := hno
    obtain ⟨i, hi⟩ := List.mem_iff_getElem?.1 hv
    have hf := (key ys').1 hr
    obtain ⟨hlt, he⟩ := List.getElem?_eq_some_iff.1 hi
    have := hf.get hlt (by rw [← hf.length_eq]; exact hlt)
    simp only [List.get_eq_getElem, he] at this
    exact absurd this (hn _)
  | error e =>
    obtain ⟨c, -, hc⟩ := Sk.mapM_error_of hr
    rw [inverseOne_error hc]

theorem rank_zero {L : List ℤ} {v : ℤ} : rank L v = 0 ↔ ∀ b ∈ L, v ≤ b := by
  unfold rank
  rw [List.length_eq_zero_iff, List.filter_eq_nil_iff]
  simp

/-- With one new label. -/
theorem decode_one {L L' cs ys : List ℤ} {m : ℤ} (h : Sk.inverseTransform (Sk.uniqueLabels L) cs = .ok ys) (hm : m ∈ L') (h1 : ∀ b ∈ L', b = m) :
    ((∀ v ∈ ys, ∀ b ∈ L, v ≤ b) → Sk.inverseTransform (Sk.uniqueLabels L') cs = .ok (ys.map (fun _ => m))) ∧
      ((∃ v ∈ ys, ∃ b ∈ L, b < v) → Sk.inverseTransform (Sk.uniqueLabels L') cs = .error .valueError) := by
  have hr : rank L' m = 0 := rank_zero.2 fun b hb => (h1 b hb).ge
  have hL : ∀ v ∈ ys, v ∈ L := by
    intro v hv
    have h2 := Sk.mapM_ok_iff.1 h
    obtain ⟨i, hi⟩ := List.mem_iff_getElem?.1 hv
    obtain ⟨hlt, he⟩ := List.getElem?_eq_some_iff.1 hi
    have := h2.get (by rw [h2.length_eq]; exact hlt) hlt
    simp only [List.get_eq_getElem, he] at this
    exact (inverseOne_ok.1 this).1
  obtain ⟨k1, k2⟩ := decode_ranks (L' := L') h
  constructor
  · intro hmin
    rw [k1, List.forall₂_map_right_iff, List.forall₂_same]
    exact fun v hv => ⟨hL v hv, hm, (rank_zero.2 (hmin v hv)).trans hr.symm⟩
  · rintro ⟨v, hv, b, hb, hbv⟩
    refine k2 ⟨v, hv, ?_⟩
    rintro v' ⟨-, h3, h4⟩
    rw [h1 v' h3, hr] at h4
    exact absurd (rank_zero.1 h4 b hb) (not_le.2 hbv)

end Verif.Fit

namespace Verif.BDR

open MP Spec Fit.Spec

variable {Ω Raw RawX XT : Type} {o : Oracle Ω} {C p : ℚ} {kinds : List (List Kind)} {check : Raw → Except Err (Data × List ℤ)} {h : List (Fit.Rec Clause)}
  {e : Fit.Est} {w : World Ω} {checkA : RawX → Except Err (List (List ℚ))} {Z : RawX} {ys : List ℤ} {raw : Raw} {cfg : Fit.Config} {fuel : ℕ}

/-- **C138.** Calls of `fit` that raise before `solve_ip`: every later answer is the label with the same place among the labels of the last call with valid data; `ValueError`,
if there is none. -/
theorem C138_ranks {t : List (Fit.Rec Clause)} {e' : Fit.Est} {w' : World Ω} (hl : Life o C p kinds check h e w)
    (hl' : Life o C p kinds check (h ++ t) e' w') (hf : EverFitted h) (ht : ∀ r ∈ t, r.result ≠ .ok () ∧ r.ip = false)
    (hb : predictCall checkA Z e w = .ok ys) :
    (∀ ys', predictCall checkA Z e' w' = .ok ys' ↔ List.Forall₂ (SamePlace (lastLabels h) (lastLabels (h ++ t))) ys ys') ∧
      ((∃ v ∈ ys, ∀ v', ¬ SamePlace (lastLabels h) (lastLabels (h ++ t)) v v') → predictCall checkA Z e' w' = .error .valueError) := by
  cases hX : checkA Z with
  | error er => rw [(C124_predict hl).1 er hX] at hb; cases hb
  | ok X =>
    rw [((C124_predict hl).2 X hX).2 hf] at hb
    rw [((C124_predict hl').2 X hX).2 (Fit.everFitted_append hf), Fit.lastRule_failed h t ht]
    exact Fit.decode_ranks hb

/-- **C138.** A `fit` of a fitted classifier that raises `ValueError` because of a single class `m` changes the predictions. Rows that got the smallest label get `m`;
`predict` raises `ValueError` if another label was predicted. -/
theorem C138_one_class {X : Data} {y : List ℤ} {m : ℤ} {r : Except Err Unit × Fit.St (World Ω) (ℚ × List ℚ) Clause} (hl : Life o C p kinds check h e w)
    (hf : EverFitted h) (hc : check raw = .ok (X, y)) (hm : m ∈ y) (h1 : ∀ b ∈ y, b = m)
    (hr : Fit.fitRaw check (fun w : World Ω => ((o.clock w.ω).1, { w with ω := (o.clock w.ω).2 })) (fun X => env o X kinds) cfg fuel raw e w = some r)
    (hb : predictCall checkA Z e w = .ok ys) :
    r.1 = .error .valueError ∧
      ((∀ v ∈ ys, ∀ b ∈ lastLabels h, v ≤ b) → predictCall checkA Z r.2.est r.2.world = .ok (ys.map (fun _ => m))) ∧
      ((∃ v ∈ ys, ∃ b ∈ lastLabels h, b < v) → predictCall checkA Z r.2.est r.2.world = .error .valueError) := by
  have hl' := Fit.Life.fit hl cfg fuel raw hr
  have hr' := hr
  unfold Fit.fitRaw at hr'
  rw [hc] at hr'
  obtain ⟨s, h2, h3, -, -⟩ := (Fit.C09_single_class (env o X kinds) cfg fuel y e w).1 (fun a ha b hb => (h1 a ha).trans (h1 b hb).symm)
  have h4 : r = (.error .valueError, s) := Option.some.inj (hr'.symm.trans h2)
  subst h4
  refine ⟨rfl, ?_⟩
  cases hX : checkA Z with
  | error er => rw [(C124_predict hl).1 er hX] at hb; cases hb
  | ok X =>
    rw [((C124_predict hl).2 X hX).2 hf] at hb
    rw [((C124_predict hl').2 X hX).2 (Fit.everFitted_append hf), Fit.lastRule_failed h _ (by
      intro q hq
      rw [List.mem_singleton.1 hq]
      exact ⟨by simp, by simp only [h3]; rfl⟩), Fit.lastLabels_append]
    have hy : (Option.map (fun q : Data × List ℤ => q.2) (check raw).toOption).getD (lastLabels h) = y := by rw [hc]; rfl
    rw [hy]
    exact Fit.decode_one hb hm h1

/-- **C138.** A `fit` that is refused by the validation of its input changes no prediction. -/
theorem C138_refused {er : Err} {r : Except Err Unit × Fit.St (World Ω) (ℚ × List ℚ) Clause} (hl : Life o C p kinds check h e w) (hf : EverFitted h)
    (hc : check raw = .error er)
    (hr : Fit.fitRaw check (fun w : World Ω => ((o.clock w.ω).1, { w with ω := (o.clock w.ω).2 })) (fun X => env o X kinds) cfg fuel raw e w = some r) :
    r.1 = .error er ∧ predictCall checkA Z r.2.est r.2.world = predictCall checkA Z e w := by
  have hl' := Fit.Life.fit hl cfg fuel raw hr
  unfold Fit.fitRaw at hr
  rw [hc] at hr
  have h4 := Option.some.inj hr
  subst h4
  refine ⟨rfl, C124_failed_calls hl hl' hf ?_ ?_⟩
  · intro q hq
    rw [List.mem_singleton.1 hq]
    exact ⟨by simp, rfl⟩
  · intro q hq y hy
    rw [List.mem_singleton.1 hq, hc] at hy
    cases hy

end Verif.BDR

namespace Verif.DTree

open MP Spec Fit.Spec

variable {Ω Raw RawX : Type} {o : FitOracle Ω} {A : Args} {check : Raw → Except Err (List (List ℚ) × List ℤ)} {h : List (Fit.Rec Path)}
  {e : Fit.Est} {w : World Ω} {checkA : RawX → Except Err (List (List ℚ))} {Z : RawX} {ys : List ℤ} {raw : Raw} {cfg : Fit.Config} {fuel : ℕ}

/-- **C138** for a tree classifier. -/
theorem C138_ranks_tree {t : List (Fit.Rec Path)} {e' : Fit.Est} {w' : World Ω} (hl : Life o A check h e w)
    (hl' : Life o A check (h ++ t) e' w') (hf : EverFitted h) (ht : ∀ r ∈ t, r.result ≠ .ok () ∧ r.ip = false)
    (hb : predictCall A checkA Z e w = .ok ys) :
    (∀ ys', predictCall A checkA Z e' w' = .ok ys' ↔ List.Forall₂ (SamePlace (lastLabels h) (lastLabels (h ++ t))) ys ys') ∧
      ((∃ v ∈ ys, ∀ v', ¬ SamePlace (lastLabels h) (lastLabels (h ++ t)) v v') → predictCall A checkA Z e' w' = .error .valueError) := by
  cases hX : checkA Z with
  | error er => rw [(C124_predict_tree hl).1 er hX] at hb; cases hb
  | ok X =>
    rw [((C124_predict_tree hl).2 X hX).2 hf] at hb
    rw [((C124_predict_tree hl').2 X hX).2 (Fit.everFitted_append hf), Fit.lastRule_failed h t ht]
    exact Fit.decode_ranks hb

/-- **C138.** The same for a tree classifier. -/
theorem C138_one_class_tree {X : List (List ℚ)} {y : List ℤ} {m : ℤ} {r : Except Err Unit × Fit.St (World Ω) Duals Path} (hl : Life o A check h e w)
    (hf : EverFitted h) (hc : check raw = .ok (X, y)) (hm : m ∈ y) (h1 : ∀ b ∈ y, b = m)
    (hr : Fit.fitRaw check (fun w : World Ω => ((o.clock w.ω).1, { w with ω := (o.clock w.ω).2 })) (fun X => env o A X) cfg fuel raw e w = some r)
    (hb : predictCall A checkA Z e w = .ok ys) :
    r.1 = .error .valueError ∧
      ((∀ v ∈ ys, ∀ b ∈ lastLabels h, v ≤ b) → predictCall A checkA Z r.2.est r.2.world = .ok (ys.map (fun _ => m))) ∧
      ((∃ v ∈ ys, ∃ b ∈ lastLabels h, b < v) → predictCall A checkA Z r.2.est r.2.world = .error .valueError) := by
  have hl' := Fit.Life.fit hl cfg fuel raw hr
  have hr' := hr
  unfold Fit.fitRaw at hr'
  rw [hc] at hr'
  obtain ⟨s, h2, h3, -, -⟩ := (Fit.C09_single_class (env o A X) cfg fuel y e w).1 (fun a ha b hb => (h1 a ha).trans (h1 b hb).symm)
  have h4 : r = (.error .valueError, s) := Option.some.inj (hr'.symm.trans h2)
  subst h4
  refine ⟨rfl, ?_⟩
  cases hX : checkA Z with
  | error er => rw [(C124_predict_tree hl).1 er hX] at hb; cases hb
  | ok X =>
    rw [((C124_predict_tree hl).2 X hX).2 hf] at hb
    rw [((C124_predict_tree hl').2 X hX).2 (Fit.everFitted_append hf), Fit.lastRule_failed h _ (by
      intro q hq
      rw [List.mem_singleton.1 hq]
      exact ⟨by simp, by simp only [h3]; rfl⟩), Fit.lastLabels_append]
    have hy : (Option.map (fun q : List (List ℚ) × List ℤ => q.2) (check raw).toOption).getD (lastLabels h) = y := by rw [hc]; rfl
    rw [hy]
    exact Fit.decode_one hb hm h1

/-- **C138.** The same for a tree classifier. -/
theorem C138_refused_tree {er : Err} {r : Except Err Unit × Fit.St (World Ω) Duals Path} (hl : Life o A check h e w) (hf : EverFitted h)
    (hc : check raw = .error er)
    (hr : Fit.fitRaw check (fun w : World Ω => ((o.clock w.ω).1, { w with ω := (o.clock w.ω).2 })) (fun X => env o A X) cfg fuel raw e w = some r) :
    r.1 = .error er ∧ predictCall A checkA Z r.2.est r.2.world = predictCall A checkA Z e w := by
  have hl' := Fit.Life.fit hl cfg fuel raw hr
  unfold Fit.fitRaw at hr
  rw [hc] at hr
  have h4 := Option.some.inj hr
  subst h4
  refine ⟨rfl, C124_failed_calls_tree hl hl' hf ?_ ?_⟩
  · intro q hq
    rw [List.mem_singleton.1 hq]
    exact ⟨by simp, rfl⟩
  · intro q hq y hy
    rw [List.mem_singleton.1 hq, hc] at hy
    cases hy

end Verif.DTree
