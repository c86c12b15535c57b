import Verif.DTree.Narrow
import Verif.DTree.Sparse
import Verif.BDR.Strict
import Verif.BDR.Sparse
import Verif.BDR.RefitProps

/-!
# Property C135: `predict` works row by row

`check_array` looks at the whole matrix; the property is about matrices that pass it.
-/

set_option linter.unusedSectionVars false

namespace Verif.Point

open DTree (firstFault guardedE Safe Reads firstFault_safe)

/-! ## Specification -/

namespace Spec

/-- The answer for a batch is the list of the answers for the single rows, and there is none if there is none for some row alone. -/
def Pointwise (f : List (List ℚ) → Except Err (List ℤ)) : Prop :=
  ∀ R ys, f R = .ok ys ↔ List.Forall₂ (fun row v => f [row] = .ok [v]) R ys

/-- Every exception for a batch is one that some row raises alone. -/
def Witnessed (f : List (List ℚ) → Except Err (List ℤ)) : Prop := ∀ R e, f R = .error e → ∃ row ∈ R, f [row] = .error e

end Spec

open Spec

/-! ## Lemmas -/

section
variable {α β : Type} {f : α → Except Err β}

theorem mapM_ok : ∀ {l : List α} {ys : List β}, l.mapM f = .ok ys ↔ List.Forall₂ (fun a b => f a = .ok b) l ys
  | [], ys => by
    rw [List.mapM_nil, List.forall₂_nil_left_iff]
    constructor
    · intro h; cases h; rfl
    · rintro rfl; rfl
  | a :: l, ys => by
    rw [List.mapM_cons]
    have ih := @mapM_ok l
    constructor
    · intro h
      cases h1 : f a with
      | error e => rw [h1] at h; cases h
      | ok b =>
        cases h2 : l.mapM f with
        | error e => rw [h1, h2] at h; cases h
        | ok bs =>
          rw [h1, h2] at h
          cases h
          exact .cons h1 (ih.1 h2)
    · intro h
      cases h with
      | cons h1 h2 => rw [h1, ih.2 h2]; rfl

theorem mapM_error : ∀ {l : List α} {e : Err}, l.mapM f = .error e → ∃ a ∈ l, f a = .error e
  | [], e, h => by cases h
  | a :: l, e, h => by
    rw [List.mapM_cons] at h
    cases h1 : f a with
    | error e' => rw [h1] at h; cases h; exact ⟨a, List.mem_cons_self .., h1⟩
    | ok b =>
      cases h2 : l.mapM f with
      | error e' =>
        rw [h1, h2] at h
        cases h
        obtain ⟨a', ha, h'⟩ := mapM_error h2
        exact ⟨a', List.mem_cons_of_mem _ ha, h'⟩
      | ok bs => rw [h1, h2] at h; cases h

end

/-- First a code is computed for every row, then all codes are decoded. -/
def TwoStage (f : List (List ℚ) → Except Err (List ℤ)) (p : List ℚ → Except Err ℤ) (q : ℤ → Except Err ℤ) : Prop :=
  ∀ R, f R = R.mapM p >>= fun cs => cs.mapM q

variable {f : List (List ℚ) → Except Err (List ℤ)} {p : List ℚ → Except Err ℤ} {q : ℤ → Except Err ℤ}

theorem TwoStage.one (h : TwoStage f p q) {row : List ℚ} {v : ℤ} : f [row] = .ok [v] ↔ ∃ c, p row = .ok c ∧ q c = .ok v := by
  rw [h]
  constructor
  · intro h1
    cases h2 : p row with
    | error e => rw [List.mapM_cons, h2] at h1; cases h1
    | ok c =>
      cases h3 : q c with
      | error e =>
        rw [List.mapM_cons, h2] at h1
        change [c].mapM q = _ at h1
        rw [List.mapM_cons, h3] at h1
        cases h1
      | ok v' =>
        rw [List.mapM_cons, h2] at h1
        change [c].mapM q = _ at h1
        rw [List.mapM_cons, h3] at h1
        cases h1
        exact ⟨c, rfl, h3⟩
  · rintro ⟨c, h1, h2⟩
    rw [List.mapM_cons, h1]
    change [c].mapM q = _
    rw [List.mapM_cons, h2]
    rfl

theorem TwoStage.pointwise (h : TwoStage f p q) : Pointwise f := by
  intro R ys
  have h1 : f R = .ok ys ↔ ∃ cs, List.Forall₂ (fun a b => p a = .ok b) R cs ∧ List.Forall₂ (fun a b => q a = .ok b) cs ys := by
    rw [h]
    constructor
    · intro h1
      cases h2 : R.mapM p with
      | error e => rw [h2] at h1; cases h1
      | ok cs =>
        rw [h2] at h1
        exact ⟨cs, mapM_ok.1 h2, mapM_ok.1 h1⟩
    · rintro ⟨cs, h1, h2⟩
      rw [mapM_ok.2 h1]
      exact mapM_ok.2 h2
  rw [h1]
  have h2 : (fun row v => f [row] = .ok [v]) = fun row v => ∃ c, p row = .ok c ∧ q c = .ok v := by
    funext row v
    exact propext h.one
  rw [h2]
  clear h1 h2
  induction R generalizing ys with
  | nil =>
    rw [List.forall₂_nil_left_iff]
    constructor
    · rintro ⟨cs, h1, h2⟩; cases h1; cases h2; rfl
    · rintro rfl; exact ⟨[], .nil, .nil⟩
  | cons a R ih =>
    constructor
    · rintro ⟨cs, h1, h2⟩
      cases h1 with
      | cons h1 h1' =>
        cases h2 with
        | cons h2 h2' => exact .cons ⟨_, h1, h2⟩ ((ih _).1 ⟨_, h1', h2'⟩)
    · intro h1
      cases h1 with
      | cons h1 h2 =>
        obtain ⟨c, h1, h3⟩ := h1
        obtain ⟨cs, h4, h5⟩ := (ih _).2 h2
        exact ⟨c :: cs, .cons h1 h4, .cons h3 h5⟩

theorem TwoStage.witnessed (h : TwoStage f p q) : Witnessed f := by
  intro R e he
  rw [h] at he
  cases h2 : R.mapM p with
  | error e' =>
    rw [h2] at he
    cases he
    obtain ⟨row, hr, h3⟩ := mapM_error h2
    refine ⟨row, hr, ?_⟩
    rw [h, List.mapM_cons, h3]
    rfl
  | ok cs =>
    rw [h2] at he
    obtain ⟨c, hc, h3⟩ := mapM_error (f := q) he
    have h4 : ∀ {R : List (List ℚ)} {cs : List ℤ}, List.Forall₂ (fun a b => p a = .ok b) R cs → c ∈ cs → ∃ row ∈ R, p row = .ok c := by
      intro R cs h4 hc
      induction h4 with
      | nil => cases hc
      | cons h5 _ ih =>
        rcases List.mem_cons.1 hc with rfl | hc
        · exact ⟨_, List.mem_cons_self .., h5⟩
        · obtain ⟨row, hr, h6⟩ := ih hc
          exact ⟨row, List.mem_cons_of_mem _ hr, h6⟩
    obtain ⟨row, hr, h5⟩ := h4 (mapM_ok.1 h2) hc
    refine ⟨row, hr, ?_⟩
    rw [h, List.mapM_cons, h5]
    change [c].mapM q = _
    rw [List.mapM_cons, h3]
    rfl

theorem firstFault_append (a b : Reads) : firstFault (a ++ b) = match firstFault a with | some e => some e | none => firstFault b := by
  induction a with
  | nil => rfl
  | cons x a ih =>
    obtain ⟨v, e⟩ := x
    cases v with
    | true => exact ih
    | false => rfl

/-- Checked reads for all rows before the decoding are checked reads row by row. -/
theorem guarded_rows (reads : List ℚ → Reads) (code : List ℚ → ℤ) (r : List ℤ → Except Err (List ℤ)) : ∀ R : List (List ℚ),
    guardedE (R.flatMap reads) (r (R.map code)) = R.mapM (fun row => guardedE (reads row) (.ok (code row))) >>= r := by
  have key : ∀ R : List (List ℚ), R.mapM (fun row => guardedE (reads row) (.ok (code row))) =
      match firstFault (R.flatMap reads) with | some e => .error e | none => .ok (R.map code) := by
    intro R
    induction R with
    | nil => rfl
    | cons row R ih =>
      rw [List.mapM_cons, ih, List.flatMap_cons, firstFault_append]
      unfold guardedE
      cases h1 : firstFault (reads row) with
      | some e => rfl
      | none =>
        cases h2 : firstFault (R.flatMap reads) with
        | some e => rfl
        | none => rfl
  intro R
  rw [key]
  unfold guardedE
  cases h1 : firstFault (R.flatMap reads) with
  | some e => rfl
  | none => rfl

theorem plain_rows (code : List ℚ → ℤ) (r : List ℤ → Except Err (List ℤ)) (R : List (List ℚ)) :
    r (R.map code) = R.mapM (fun row => (.ok (code row) : Except Err ℤ)) >>= r := by
  have h := guarded_rows (fun _ => []) code r R
  have h1 : R.flatMap (fun _ => ([] : Reads)) = [] := by induction R with
    | nil => rfl
    | cons _ _ ih => rw [List.flatMap_cons, ih (guarded_rows (fun _ => []) code r _)]; rfl
  rw [h1] at h
  exact h

/-! ## C135 -/

/-- **C135.** `predict` of a rule classifier. -/
theorem C135_rule (classes : List ℤ) (explanation : List BDR.Clause) :
    Pointwise (BDR.predict classes explanation) ∧ Witnessed (BDR.predict classes explanation) := by
  have h : TwoStage (BDR.predict classes explanation) _ _ := fun R =>
    plain_rows (fun row => (BDR.predictRow explanation row : ℤ)) (fun cs => cs.mapM (Sk.inverseOne classes)) R
  exact ⟨h.pointwise, h.witnessed⟩

/-- **C135.** `predict` of a rule classifier, with `IndexError` for rows that are too narrow. -/
theorem C135_rule_checked (classes : List ℤ) (explanation : List BDR.Clause) :
    Pointwise (BDR.predictS classes explanation) ∧ Witnessed (BDR.predictS classes explanation) := by
  have h : TwoStage (BDR.predictS classes explanation) _ _ := fun R =>
    guarded_rows (fun row => BDR.rowReads row explanation) (fun row => (BDR.predictRow explanation row : ℤ)) (fun cs => cs.mapM (Sk.inverseOne classes)) R
  exact ⟨h.pointwise, h.witnessed⟩

variable {Ω : Type}

/-- **C135.** `predict` of a tree classifier. -/
theorem C135_tree (A : DTree.Args) (s : Fit.St (DTree.World Ω) DTree.Duals DTree.Path) :
    Pointwise (DTree.predictFitted A s) ∧ Witnessed (DTree.predictFitted A s) := by
  have h : TwoStage (DTree.predictFitted A s) _ _ := fun R =>
    plain_rows (fun row => DTree.predictRow A.leaves s.world.master.splits row s.world.master.selected) (fun cs => cs.mapM (Sk.inverseOne s.est.classes)) R
  exact ⟨h.pointwise, h.witnessed⟩

/-- **C135.** `predict` of a tree classifier, with `IndexError` for rows that are too narrow. -/
theorem C135_tree_checked (A : DTree.Args) (s : Fit.St (DTree.World Ω) DTree.Duals DTree.Path) :
    Pointwise (DTree.predictFittedX A s) ∧ Witnessed (DTree.predictFittedX A s) := by
  have h : TwoStage (DTree.predictFittedX A s) _ _ := fun R =>
    guarded_rows (fun row => DTree.rowReads A.leaves s.world.master.splits row s.world.master.selected)
      (fun row => DTree.predictRow A.leaves s.world.master.splits row s.world.master.selected) (fun cs => cs.mapM (Sk.inverseOne s.est.classes)) R
  exact ⟨h.pointwise, h.witnessed⟩

/-- **C135.** `predict` of a tree classifier with sparse matrices. -/
theorem C135_tree_sparse (A : DTree.Args) (s : Fit.St (DTree.World Ω) DTree.Duals DTree.Path) :
    Pointwise (DTree.predictFittedSp A s) ∧ Witnessed (DTree.predictFittedSp A s) := by
  have h : TwoStage (DTree.predictFittedSp A s) (fun row => DTree.predictRowSp A.leaves s.world.master.splits row s.world.master.selected)
      (Sk.inverseOne s.est.classes) := fun R => by
    unfold DTree.predictFittedSp
    cases R.mapM (fun row => DTree.predictRowSp A.leaves s.world.master.splits row s.world.master.selected) with
    | error e => rfl
    | ok ys => rfl
  exact ⟨h.pointwise, h.witnessed⟩

theorem mapM_map {α β γ : Type} (f : α → Except Err β) (g : β → γ) : ∀ l : List α, l.mapM (fun a => (f a).map g) = (l.mapM f).map (List.map g)
  | [] => rfl
  | a :: l => by
    rw [List.mapM_cons, List.mapM_cons, mapM_map f g l]
    cases f a with
    | error e => rfl
    | ok b =>
      cases l.mapM f with
      | error e => rfl
      | ok bs => rfl

/-- **C135.** `predict` of a rule classifier with sparse matrices. -/
theorem C135_rule_sparse (classes : List ℤ) (explanation : List BDR.Clause) :
    Pointwise (BDR.predictSp classes explanation) ∧ Witnessed (BDR.predictSp classes explanation) := by
  have h : TwoStage (BDR.predictSp classes explanation) (fun row => (BDR.predictRowSp row explanation).map (fun (v : ℕ) => (v : ℤ)))
      (Sk.inverseOne classes) := fun R => by
    rw [mapM_map (fun row => BDR.predictRowSp row explanation)]
    unfold BDR.predictSp
    cases R.mapM (fun row => BDR.predictRowSp row explanation) with
    | error e => rfl
    | ok ys => rfl
  exact ⟨h.pointwise, h.witnessed⟩

/-! ### What this means for batches -/

/-- **C135.** As many answers as rows. -/
theorem C135_length (h : Pointwise f) {R : List (List ℚ)} {ys : List ℤ} (hr : f R = .ok ys) : ys.length = R.length := ((h R ys).1 hr).length_eq.symm

/-- **C135.** The rows can be given in several batches. -/
theorem C135_append (h : Pointwise f) (R S : List (List ℚ)) (ys : List ℤ) :
    f (R ++ S) = .ok ys ↔ ∃ a b, ys = a ++ b ∧ f R = .ok a ∧ f S = .ok b := by
  rw [h]
  constructor
  · intro h1
    refine ⟨ys.take R.length, ys.drop R.length, (List.take_append_drop _ _).symm, (h _ _).2 ?_, (h _ _).2 ?_⟩
    · have h2 := List.forall₂_take R.length h1
      rwa [List.take_left] at h2
    · have h2 := List.forall₂_drop R.length h1
      rwa [List.drop_left] at h2
  · rintro ⟨a, b, rfl, h1, h2⟩
    exact List.rel_append ((h _ _).1 h1) ((h _ _).1 h2)

/-- **C135.** Whether a batch is answered depends on the single rows only, not on their order, their number or the other rows. -/
theorem C135_answered (h : Pointwise f) (R : List (List ℚ)) : (∃ ys, f R = .ok ys) ↔ ∀ row ∈ R, ∃ v, f [row] = .ok [v] := by
  induction R with
  | nil => exact ⟨fun _ _ h => (List.not_mem_nil h).elim, fun _ => ⟨[], (h _ _).2 .nil⟩⟩
  | cons row R ih =>
    rw [List.forall_mem_cons, ← ih]
    constructor
    · rintro ⟨ys, h1⟩
      cases (h _ _).1 h1 with
      | cons h2 h3 => exact ⟨⟨_, h2⟩, _, (h _ _).2 h3⟩
    · rintro ⟨⟨v, h1⟩, ys, h2⟩
      exact ⟨v :: ys, (h _ _).2 (.cons h1 ((h _ _).1 h2))⟩

/-- **C135.** Rearranged rows: the labelled rows are the same. -/
theorem C135_perm (h : Pointwise f) {R S : List (List ℚ)} (hp : R.Perm S) {ys : List ℤ} (hr : f R = .ok ys) :
    ∃ zs, f S = .ok zs ∧ (R.zip ys).Perm (S.zip zs) := by
  obtain ⟨zs, hz⟩ := (C135_answered h S).2 fun row hrow => (C135_answered h R).1 ⟨ys, hr⟩ row (hp.mem_iff.2 hrow)
  refine ⟨zs, hz, ?_⟩
  have key : ∀ {R : List (List ℚ)} {ys : List ℤ}, f R = .ok ys →
      R.zip ys = R.map (fun row => (row, match f [row] with | .ok (v :: _) => v | _ => 0)) := by
    intro R ys hr
    have h1 := (h _ _).1 hr
    clear hr
    induction h1 with
    | nil => rfl
    | cons h2 _ ih => rw [List.zip_cons_cons, ih, List.map_cons, h2]
  rw [key hr, key hz]
  exact hp.map _

end Verif.Point
