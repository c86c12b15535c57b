import Verif.DTree.HeapProps
import Verif.DTree.HeapFrame
import Mathlib.Logic.Relation

/-!
# Property C125: what `fit` writes, and several classifiers on one heap
-/

namespace Verif.DTree

open MP Spec Fit

variable {Ω : Type} {H : HArgs} {X : List (List ℚ)} {o : FitOracle Ω}

/-- **C125, writes.** Whatever is passed and whatever is shared: a call of `fit` changes of the objects that existed before only the variable numbers of its
paths, the cut numbers of its splits, the family links of its nodes and the recorded paths of its rows; it keeps only references to the paths and rows that
it had, to paths that it selects among them, and to new objects. -/
theorem C125_writes {w : HW Ω} {cfg : Fit.Config} {fuel : ℕ} {y : List ℤ} {e0 : Fit.Est} {r : Except Err Unit × Fit.St (HW Ω) Duals Path}
    (hr : Fit.fit (envH o H X) cfg fuel y e0 w = some r) :
    Wrote H w.m.paths (w.m.rows.getD []) w.m.heap r.2.world.m.heap ∧
      (∀ a ∈ r.2.world.m.paths, a ∈ w.m.paths ∨ w.m.heap.nextPath ≤ a) ∧
      (∀ a ∈ r.2.world.m.rows.getD [], a ∈ w.m.rows.getD [] ∨ w.m.heap.nextRow ≤ a) ∧
      ∀ a ∈ r.2.world.m.selected, a ∈ w.m.selected ∨ a ∈ w.m.paths ∨ w.m.heap.nextPath ≤ a := by
  have h := fit_step hr
  refine ⟨h.wrote, fun a ha => ?_, h.rows, fun a ha => ?_⟩
  · rcases h.paths a ha with h1 | h1
    · exact Or.inl h1
    · exact Or.inr h1.1
  · rcases h.selected a ha with h1 | h1 | h1
    · exact Or.inl h1
    · exact Or.inr (Or.inl h1)
    · exact Or.inr (Or.inr h1.1)

/-- Predictions depend only on contents. -/
theorem predictH_content {h h' : Heap} {sel : List ℕ} (hs : ∀ a, (h'.split a).content = (h.split a).content)
    (hp : ∀ a ∈ sel, (h'.path a).content = (h.path a).content) (classes : List ℤ) (Z : List (List ℚ)) :
    predictH H classes h' sel Z = predictH H classes h sel Z := by
  unfold predictH predict
  congr 1
  refine List.map_congr_left fun row _ => predictRow_content ?_ _ _ ?_
  · rw [List.map_map, List.map_map]
    exact List.map_congr_left fun a _ => hs a
  · rw [List.map_map, List.map_map]
    exact List.map_congr_left fun a ha => hp a ha

namespace Spec

/-- The classifiers of a program: arguments and state, under names. All of them work on one heap. -/
abbrev Prog (Ω : Type) := Heap × (ℕ → Option (HArgs × HW Ω))

/-- The state of a classifier with the heap as it is now. -/
def HWOn (w : HW Ω) (h : Heap) : HW Ω := { w with m := { w.m with heap := h } }

/-- The program constructs the classifier `i` from objects that exist, or calls `fit` on it, with any data and solvers. -/
inductive Acts : ℕ → Prog Ω → Prog Ω → Prop
  | construct (h : Heap) (c : ℕ → Option (HArgs × HW Ω)) (i : ℕ) (H : HArgs) (ω : Ω) (hex : ∀ a ∈ H.paths, a < h.nextPath) :
      Acts i (h, c) ((HW.init H h ω).m.heap, Function.update c i (some (H, HW.init H h ω)))
  | fit (h : Heap) (c : ℕ → Option (HArgs × HW Ω)) (i : ℕ) {H : HArgs} {w : HW Ω} (hc : c i = some (H, w)) (o : FitOracle Ω) (X : List (List ℚ))
      (maxIt : ℤ) (limit : ℚ) (fuel : ℕ) (y : List ℤ) (e0 : Fit.Est) {r : Except Err Unit × Fit.St (HW Ω) Duals Path}
      (hr : Fit.fit (envH o H X) (configH H maxIt limit) fuel y e0 (HWOn w h) = some r) :
      Acts i (h, c) (r.2.world.m.heap, Function.update c i (some (H, r.2.world)))

/-- The states of the program that starts with the objects of `h0` and without classifiers. -/
def ProgRuns (h0 : Heap) (s : Prog Ω) : Prop := Relation.ReflTransGen (fun s s' => ∃ i, Acts i s s') (h0, fun _ => none) s

/-- Steps with other classifiers. -/
def Others (i : ℕ) (s s' : Prog Ω) : Prop := Relation.ReflTransGen (fun s s' => ∃ j, j ≠ i ∧ Acts j s s') s s'

end Spec

/-- All references exist. -/
def Alloc (s : Prog Ω) : Prop :=
  ∀ i H w, s.2 i = some (H, w) → (∀ a ∈ w.m.paths, a < s.1.nextPath) ∧ ∀ a ∈ w.m.selected, a < s.1.nextPath

theorem acts_grow {i : ℕ} {s s' : Prog Ω} (h : Acts i s s') :
    s.1.nextPath ≤ s'.1.nextPath ∧ (∀ a, (s'.1.split a).content = (s.1.split a).content) ∧
      (∀ a < s.1.nextPath, (s'.1.path a).content = (s.1.path a).content) ∧ ∀ j ≠ i, s'.2 j = s.2 j := by
  cases h with
  | construct h c i H ω hex =>
    have e : (HW.init H h ω).m.heap = { h with path := H.paths.foldl (fun g a => Function.update g a { g a with initial := true }) h.path } := marksH _ _
    simp only
    rw [e]
    refine ⟨le_refl _, fun _ => rfl, fun a _ => ?_, fun j hj => Function.update_of_ne hj _ _⟩
    exact updates_keep Path.content (fun p : Path => { p with initial := true }) (fun _ => rfl) _ _ _
  | fit h c i hc o X maxIt limit fuel y e0 hr =>
    have hs := (fit_step hr).wrote
    exact ⟨hs.nextPath, hs.split, fun a ha => (hs.path a ha).1, fun j hj => Function.update_of_ne hj _ _⟩

theorem acts_alloc {i : ℕ} {s s' : Prog Ω} (h : Acts i s s') (ha : Alloc s) : Alloc s' := by
  have hg := acts_grow h
  intro j H' w' hj
  by_cases hij : j = i
  · subst hij
    cases h with
    | construct h c i H ω hex =>
      change Function.update c j _ j = _ at hj
      rw [Function.update_self] at hj
      obtain ⟨rfl, rfl⟩ := Prod.mk.inj (Option.some.inj hj)
      have e : (HW.init H h ω).m.heap = { h with path := H.paths.foldl (fun g a => Function.update g a { g a with initial := true }) h.path } := marksH _ _
      simp only
      rw [e]
      exact ⟨hex, fun a ha => absurd ha List.not_mem_nil⟩
    | fit h c i hc o X maxIt limit fuel y e0 hr =>
      change Function.update c j _ j = _ at hj
      rw [Function.update_self] at hj
      obtain ⟨rfl, rfl⟩ := Prod.mk.inj (Option.some.inj hj)
      obtain ⟨a1, a2⟩ := ha j _ _ hc
      have hs := fit_step hr
      refine ⟨fun a h1 => ?_, fun a h1 => ?_⟩
      · rcases hs.paths a h1 with h2 | h2
        · exact lt_of_lt_of_le (a1 a h2) hs.wrote.nextPath
        · exact h2.2
      · rcases hs.selected a h1 with h2 | h2 | h2
        · exact lt_of_lt_of_le (a2 a h2) hs.wrote.nextPath
        · exact lt_of_lt_of_le (a1 a h2) hs.wrote.nextPath
        · exact h2.2
  · rw [hg.2.2.2 j hij] at hj
    obtain ⟨a1, a2⟩ := ha j _ _ hj
    exact ⟨fun a h => lt_of_lt_of_le (a1 a h) hg.1, fun a h => lt_of_lt_of_le (a2 a h) hg.1⟩

theorem runs_alloc {h0 : Heap} {s : Prog Ω} (h : ProgRuns h0 s) : Alloc s := by
  induction h with
  | refl => exact fun i H w e => by cases e
  | tail _ hs ih =>
    obtain ⟨j, hj⟩ := hs
    exact acts_alloc hj ih

/-- **C125, several classifiers.** In a program that constructs and fits any number of classifiers from any shared objects: what other classifiers do
changes no prediction of a classifier. -/
theorem C125_shared {h0 : Heap} {s s' : Prog Ω} (h : ProgRuns h0 s) {i : ℕ} {H : HArgs} {w : HW Ω} (hw : s.2 i = some (H, w)) (ho : Others i s s') :
    s'.2 i = some (H, w) ∧ ∀ classes Z, predictH H classes s'.1 w.m.selected Z = predictH H classes s.1 w.m.selected Z := by
  have ha : Alloc s := runs_alloc h
  have key : s'.2 i = some (H, w) ∧ s.1.nextPath ≤ s'.1.nextPath ∧ (∀ a, (s'.1.split a).content = (s.1.split a).content) ∧
      ∀ a < s.1.nextPath, (s'.1.path a).content = (s.1.path a).content := by
    induction ho with
    | refl => exact ⟨hw, le_refl _, fun _ => rfl, fun _ _ => rfl⟩
    | tail _ hs ih =>
      obtain ⟨j, hj, hs⟩ := hs
      obtain ⟨i1, i2, i3, i4⟩ := ih
      obtain ⟨g1, g2, g3, g4⟩ := acts_grow hs
      exact ⟨(g4 i hj.symm).trans i1, le_trans i2 g1, fun a => (g2 a).trans (i3 a), fun a h => (g3 a (lt_of_lt_of_le h i2)).trans (i4 a h)⟩
  exact ⟨key.1, fun classes Z => predictH_content key.2.2.1 (fun a h => key.2.2.2 a ((ha i H w hw).2 a h)) classes Z⟩

end Verif.DTree
