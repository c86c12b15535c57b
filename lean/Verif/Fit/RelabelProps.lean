import Mathlib.Order.Monotone.Defs
import Verif.Fit.Relabel
import Verif.Fit.Classes
import Verif.BDR.Fit
import Verif.DTree.Fit

/-!
# C86: only the order of the class labels matters
-/

namespace Verif.Fit

variable {W D Col : Type} {env : Env W D Col} {cfg : Config}

/-- `f` keeps the order of the labels that occur in `y`. -/
def KeepsOrder (f : ℤ → ℤ) (y : List ℤ) : Prop := ∀ a ∈ y, ∀ b ∈ y, a < b → f a < f b

theorem KeepsOrder.inj {f : ℤ → ℤ} {y : List ℤ} (h : KeepsOrder f y) {a b : ℤ} (ha : a ∈ y) (hb : b ∈ y) (e : f a = f b) : a = b := by
  rcases lt_trichotomy a b with h1 | h1 | h1
  · have := h a ha b hb h1; omega
  · exact h1
  · have := h b hb a ha h1; omega

theorem uniqueLabels_map {f : ℤ → ℤ} {y : List ℤ} (h : KeepsOrder f y) : Sk.uniqueLabels (y.map f) = (Sk.uniqueLabels y).map f := by
  have h1 : ((Sk.uniqueLabels y).map f).Pairwise (· < ·) := by
    rw [List.pairwise_map]
    exact (Sk.sorted_uniqueLabels y).imp_of_mem (fun ha hb hab =>
      h _ ((Sk.mem_uniqueLabels y _).1 ha) _ ((Sk.mem_uniqueLabels y _).1 hb) hab)
  refine List.Perm.eq_of_pairwise (le := (· < ·)) (fun a b _ _ hab hba => absurd hab (lt_asymm hba)) (Sk.sorted_uniqueLabels _) h1 ?_
  rw [List.perm_ext_iff_of_nodup (Sk.nodup_uniqueLabels _) (h1.imp (fun hab => ne_of_lt hab))]
  intro v
  rw [Sk.mem_uniqueLabels, List.mem_map, List.mem_map]
  simp only [Sk.mem_uniqueLabels]

theorem idxOf_map {f : ℤ → ℤ} {a : ℤ} : ∀ (l : List ℤ), (∀ b ∈ l, f b = f a → b = a) → (l.map f).idxOf (f a) = l.idxOf a := by
  intro l
  induction l with
  | nil => intro _; rfl
  | cons x l ih =>
    intro h
    rw [List.map_cons, List.idxOf_cons, List.idxOf_cons, ih (fun b hb => h b (by simp [hb]))]
    by_cases e : x = a
    · subst e
      rw [beq_self_eq_true, beq_self_eq_true]
    · have : f x ≠ f a := fun e' => e (h x (by simp) e')
      rw [beq_false_of_ne e, beq_false_of_ne this]

theorem transform_map {f : ℤ → ℤ} {y : List ℤ} (h : KeepsOrder f y) :
    Sk.transform (Sk.uniqueLabels (y.map f)) (y.map f) = Sk.transform (Sk.uniqueLabels y) y := by
  rw [uniqueLabels_map h]
  unfold Sk.transform
  rw [List.map_map]
  apply List.map_congr_left
  intro a ha
  exact idxOf_map _ (fun b hb e => h.inj ((Sk.mem_uniqueLabels y b).1 hb) ha e)

theorem inverseTransform_map (f : ℤ → ℤ) (classes codes : List ℤ) :
    Sk.inverseTransform (classes.map f) codes = (Sk.inverseTransform classes codes).map (List.map f) := by
  unfold Sk.inverseTransform
  induction codes with
  | nil => rfl
  | cons c codes ih =>
    rw [List.mapM_cons, List.mapM_cons, ih]
    have e : Sk.inverseOne (classes.map f) c = (Sk.inverseOne classes c).map f := by
      unfold Sk.inverseOne
      rw [List.getElem?_map]
      split
      · cases classes[c.toNat]? <;> rfl
      · rfl
    rw [e]
    cases Sk.inverseOne classes c with
    | error e => rfl
    | ok v => cases List.mapM (Sk.inverseOne classes) codes <;> rfl

/-- **C86.** Renaming the labels without changing their order changes nothing in a run but `classes_`, whose entries are renamed: it does not end, ends normally or
raises like the original run, with the same calls, the same times and all other attributes equal. -/
theorem C86_relabel {f : ℤ → ℤ} {y : List ℤ} (h : KeepsOrder f y) (fuel : ℕ) (e0 : Est) (w0 : W) :
    fit env cfg fuel (y.map f) e0 w0 =
      (fit env cfg fuel y e0 w0).map (fun r => (r.1, ⟨{ r.2.est with classes := r.2.est.classes.map f }, r.2.world, r.2.trace⟩)) := by
  have hu := uniqueLabels_map h
  rw [fit_cls fuel y (y.map f) e0 w0 (by rw [hu, List.length_map]) (transform_map h)]
  cases hr : fit env cfg fuel y e0 w0 with
  | none => rfl
  | some r =>
    have hc := fit_classes hr
    simp only [Option.map_some, mapCls, St.cls, St.set]
    rw [hu, hc]

end Verif.Fit

namespace Verif

open Fit (KeepsOrder)

/-- **C86** for the Boolean rule classifier: predictions are renamed in the same way. -/
theorem BDR.C86_predict {Ω : Type} (o : BDR.Oracle Ω) (C p : ℚ) (kinds : List (List BDR.Kind)) (maxIt : ℤ) (limit : ℚ) (X : BDR.Data) (fuel : ℕ) {y : List ℤ}
    {f : ℤ → ℤ} (h : KeepsOrder f y) (e0 : Fit.Est) (ω : Ω) (X' : List (List ℚ)) :
    (BDR.fitNew o C p kinds maxIt limit X fuel (y.map f) e0 ω).map
        (fun r => (r.1, BDR.predict r.2.est.classes r.2.world.master.explanation X')) =
      (BDR.fitNew o C p kinds maxIt limit X fuel y e0 ω).map
        (fun r => (r.1, (BDR.predict r.2.est.classes r.2.world.master.explanation X').map (List.map f))) := by
  unfold BDR.fitNew
  rw [Fit.C86_relabel h, Option.map_map]
  congr 1
  funext r
  simp only [Function.comp, BDR.predict, Fit.inverseTransform_map]

/-- **C86** for the decision tree classifier. -/
theorem DTree.C86_predict {Ω : Type} (o : DTree.FitOracle Ω) (A : DTree.Args) (maxIt : ℤ) (limit : ℚ) (X : List (List ℚ)) (fuel : ℕ) {y : List ℤ}
    {f : ℤ → ℤ} (h : KeepsOrder f y) (e0 : Fit.Est) (ω : Ω) (X' : List (List ℚ)) :
    (DTree.fitNew o A maxIt limit X fuel (y.map f) e0 ω).map (fun r => (r.1, DTree.predictFitted A r.2 X')) =
      (DTree.fitNew o A maxIt limit X fuel y e0 ω).map (fun r => (r.1, (DTree.predictFitted A r.2 X').map (List.map f))) := by
  unfold DTree.fitNew
  rw [Fit.C86_relabel h, Option.map_map]
  congr 1
  funext r
  simp only [Function.comp, DTree.predictFitted, DTree.predict, Fit.inverseTransform_map]

/-- A renaming that keeps the order of three labels but is not monotone elsewhere. -/
example : KeepsOrder (fun v => if v = 2 then 5 else if v = 4 then 6 else if v = 7 then 100 else 0) [4, 2, 7, 2] ∧
    Sk.uniqueLabels ([4, 2, 7, 2].map (fun v => if v = 2 then 5 else if v = 4 then 6 else if v = 7 then 100 else 0)) = [5, 6, 100] := by
  unfold KeepsOrder
  decide +kernel

end Verif
