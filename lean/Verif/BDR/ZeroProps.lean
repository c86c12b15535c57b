import Verif.BDR.FitProps
import Verif.Fit.Bisim

/-!
# C103: the rule classifier sees the data only as zero or not zero
-/

set_option linter.unusedSectionVars false

namespace Verif.BDR

open MP
open Verif.Fit (Twins Twin Est St fit_twin)

/-! ## Specification -/

/-- The same entries are zero. -/
def Spec.SameZeros (r r' : List ℚ) : Prop := ∀ j, r.getD j 0 = 0 ↔ r'.getD j 0 = 0

/-- Row by row the same entries are zero; the number of columns is the same. -/
structure Spec.SameData (X X' : Data) : Prop where
  cols : X'.nFeat = X.nFeat
  rows : List.Forall₂ Spec.SameZeros X.rows X'.rows

open Spec

/-! ## The functions that read entries -/

theorem satisfiesClause_zeros {r r' : List ℚ} (h : SameZeros r r') : ∀ c, satisfiesClause r' c = satisfiesClause r c
  | [] => rfl
  | j :: js => by
    unfold satisfiesClause get
    rw [satisfiesClause_zeros h js]
    by_cases h0 : r.getD j 0 = 0
    · rw [if_pos h0, if_pos ((h j).1 h0)]
    · rw [if_neg h0, if_neg (fun h1 => h0 ((h j).2 h1))]

theorem objectiveCoeff_zeros {X X' : List (List ℚ)} (h : List.Forall₂ SameZeros X X') (y : List ℕ) (c : Clause) :
    objectiveCoeff X' y c = objectiveCoeff X y c := by
  unfold objectiveCoeff
  generalize 0 = a
  induction h generalizing y a with
  | nil => rfl
  | cons hr _ ih =>
    cases y with
    | nil => rfl
    | cons t y =>
      simp only [List.zip_cons_cons, List.foldl_cons, satisfiesClause_zeros hr]
      exact ih y _

theorem clauseCoeffs_zeros {X X' : List (List ℚ)} (h : List.Forall₂ SameZeros X X') (y : List ℕ) (c : Clause) :
    clauseCoeffs X' y c = clauseCoeffs X y c := by
  unfold clauseCoeffs
  congr 1
  suffices hs : ∀ a : List ℚ, (X'.zip y).foldl (fun acc p => if p.2 = 0 then acc else acc ++ [(satisfiesClause p.1 c : ℚ)]) a =
      (X.zip y).foldl (fun acc p => if p.2 = 0 then acc else acc ++ [(satisfiesClause p.1 c : ℚ)]) a from hs []
  intro a
  induction h generalizing y a with
  | nil => rfl
  | cons hr _ ih =>
    cases y with
    | nil => rfl
    | cons t y =>
      simp only [List.zip_cons_cons, List.foldl_cons, satisfiesClause_zeros hr]
      exact ih y _

theorem zeroFeats_zeros {r r' : List ℚ} (h : SameZeros r r') (n : ℕ) : zeroFeats n r' = zeroFeats n r := by
  unfold zeroFeats get
  refine List.filter_congr ?_
  intro j _
  rw [decide_eq_decide]
  exact (h j).symm

theorem heuristicCost_zeros {X X' : List (List ℚ)} (h : List.Forall₂ SameZeros X X') (cs : List ℚ) (c : Clause) (y : List ℕ) (st : ℚ × ℕ) :
    heuristicCost cs c (X'.zip y) st = heuristicCost cs c (X.zip y) st := by
  induction h generalizing y st with
  | nil => rfl
  | cons hr _ ih =>
    cases y with
    | nil => rfl
    | cons t y =>
      obtain ⟨a, b⟩ := st
      simp only [List.zip_cons_cons, heuristicCost, satisfiesClause_zeros hr, ih]

theorem heuristicColumns_zeros {X X' : Data} (h : SameData X X') (K : ℕ) (y : List ℕ) (d : ℚ × List ℚ) :
    heuristicColumns K X' y d = heuristicColumns K X y d := by
  unfold heuristicColumns
  simp only [h.cols, heuristicCost_zeros h.rows]

theorem sampleCons_fold {X X' : List (List ℚ)} (h : List.Forall₂ SameZeros X X') (n : ℕ) (zs : List ℕ) (y ds : List ℕ) (m : Model) :
    ((X'.zip y).zip ds).foldl (fun m q => sampleCons n zs q.1.1 q.1.2 q.2 m) m =
      ((X.zip y).zip ds).foldl (fun m q => sampleCons n zs q.1.1 q.1.2 q.2 m) m := by
  induction h generalizing y ds m with
  | nil => rfl
  | cons hr _ ih =>
    cases y with
    | nil => rfl
    | cons t y =>
      cases ds with
      | nil => rfl
      | cons d ds =>
        simp only [List.zip_cons_cons, List.foldl_cons]
        rw [ih]
        congr 1
        unfold sampleCons
        rw [zeroFeats_zeros hr]

theorem createSubmip_zeros {X X' : Data} (h : SameData X X') (s : Sub) (y : List ℕ) (cc : ℚ) (cs : List ℚ) :
    s.createSubmip X' y cc cs = s.createSubmip X y cc cs := by
  unfold Sub.createSubmip
  simp only [h.cols, sampleCons_fold h.rows]

theorem updateObjective_zeros {X X' : Data} (h : SameData X X') (s : Sub) (y : List ℕ) (cc : ℚ) (cs : List ℚ) :
    s.updateObjective X' y cc cs = s.updateObjective X y cc cs := by
  unfold Sub.updateObjective
  simp only [h.cols]

theorem generateColumns_zeros {X X' : Data} (h : SameData X X') (s : Sub) (y : List ℕ) (d : ℚ × List ℚ) (f : Model → Answer) :
    s.generateColumns X' y d f = s.generateColumns X y d f := by
  unfold Sub.generateColumns Sub.prepare
  simp only [createSubmip_zeros h, updateObjective_zeros h]

/-! ## The master -/

/-- Masters that differ in the entries of the data only. -/
structure AlikeM (s s' : Master) : Prop where
  data : SameData s.X s'.X
  same : s' = { s with X := s'.X }

theorem sameZeros_refl (r : List ℚ) : SameZeros r r := fun _ => Iff.rfl

theorem sameData_refl (X : Data) : SameData X X := ⟨rfl, List.forall₂_same.2 (fun r _ => sameZeros_refl r)⟩

theorem AlikeM.generateMp {s s' : Master} (h : AlikeM s s') {X X' : Data} (hX : SameData X X') (y : List ℕ) :
    AlikeM (s.generateMp X y) (s'.generateMp X' y) := by
  obtain ⟨hd, hs⟩ := h
  generalize s'.X = Z at hd hs
  subst hs
  unfold Master.generateMp
  simp only [objectiveCoeff_zeros hX.rows, clauseCoeffs_zeros hX.rows]
  by_cases hg : s.generated = true
  · rw [if_pos hg, if_pos hg]
    exact ⟨hd, rfl⟩
  · simp only [hg, if_false, Bool.false_eq_true]
    exact ⟨hX, rfl⟩

theorem AlikeM.addColumn {s s' : Master} (h : AlikeM s s') (c : Clause) :
    (s.addColumn c).1 = (s'.addColumn c).1 ∧ AlikeM (s.addColumn c).2 (s'.addColumn c).2 := by
  obtain ⟨hd, hs⟩ := h
  generalize s'.X = Z at hd hs
  subst hs
  unfold Master.addColumn
  simp only [objectiveCoeff_zeros hd.rows, clauseCoeffs_zeros hd.rows]
  split
  · exact ⟨rfl, hd, rfl⟩
  · split
    · exact ⟨rfl, hd, rfl⟩
    · split
      · exact ⟨rfl, hd, rfl⟩
      · split
        · exact ⟨rfl, hd, rfl⟩
        · exact ⟨rfl, hd, rfl⟩

theorem AlikeM.solveRmp {s s' : Master} (h : AlikeM s s') (ans : Answer) : s.solveRmp ans = s'.solveRmp ans := by
  rw [h.same]
  rfl

theorem AlikeM.solver {s s' : Master} (h : AlikeM s s') : s.solver = s'.solver := by rw [h.same]

theorem AlikeM.solveIp {s s' : Master} (h : AlikeM s s') (f : Model → Answer) :
    (s.solveIp f).1 = (s'.solveIp f).1 ∧ AlikeM (s.solveIp f).2 (s'.solveIp f).2 := by
  obtain ⟨hd, hs⟩ := h
  generalize s'.X = Z at hd hs
  subst hs
  unfold Master.solveIp
  split
  · exact ⟨rfl, hd, rfl⟩
  · dsimp only
    split
    · exact ⟨rfl, hd, rfl⟩
    · split
      · exact ⟨rfl, hd, rfl⟩
      · exact ⟨rfl, hd, rfl⟩

/-! ## The run -/

variable {Ω : Type} {o : Oracle Ω} {C p : ℚ} {kinds : List (List Kind)} {X X' : Data}

/-- Worlds that differ in the entries of the data only. -/
structure Alike (w w' : World Ω) : Prop where
  master : AlikeM w.master w'.master
  subs : w.subs = w'.subs
  y : w.y = w'.y
  ω : w.ω = w'.ω

theorem twins (h : SameData X X') : Twins (env o X kinds) (env o X' kinds) (fun _ => True) Alike where
  clock w w' hw := by
    simp only [env]
    rw [hw.ω]
    exact ⟨rfl, hw.master, hw.subs, hw.y, rfl⟩
  generateMp y w w' hw := ⟨rfl, hw.master.generateMp h y, hw.subs, rfl, hw.ω⟩
  solveRmp w w' hw := by
    simp only [env]
    rw [hw.ω, hw.master.solver, hw.master.solveRmp]
    exact ⟨rfl, hw.master, hw.subs, hw.y, rfl⟩
  improved w w' hw := ⟨rfl, hw⟩
  resetFlag _ _ _ := rfl
  clearReset _ _ hw := hw
  update _ _ _ _ _ hw := ⟨rfl, hw⟩
  generate l i d w w' hw := by
    simp only [env]
    unfold generateAt
    cases kindAt kinds l i with
    | none => exact ⟨rfl, hw⟩
    | some k =>
      cases k with
      | heuristic K => exact ⟨by simp only; rw [heuristicColumns_zeros h, hw.y], hw⟩
      | exact D =>
        simp only
        rw [generateColumns_zeros h, hw.y, hw.subs, hw.ω]
        exact ⟨rfl, hw.master, rfl, rfl, rfl⟩
  cols _ _ _ _ _ _ _ _ _ _ := trivial
  addColumn c w w' _ hw := ⟨(hw.master.addColumn c).1, (hw.master.addColumn c).2, hw.subs, hw.y, hw.ω⟩
  solveIp w w' hw := by
    simp only [env]
    rw [hw.ω, hw.master.solver]
    exact ⟨(hw.master.solveIp _).1, (hw.master.solveIp _).2, hw.subs, hw.y, rfl⟩

theorem predictRow_zeros {r r' : List ℚ} (h : SameZeros r r') : ∀ K, predictRow K r' = predictRow K r
  | [] => rfl
  | c :: K => by
    unfold predictRow
    rw [satisfiesClause_zeros h, predictRow_zeros h K]

/-- C103: replace the non-zero entries of the training data by any other non-zero numbers. Then `fit` makes the same run, from a new classifier
or from one that was fitted before (whatever the solvers and the clock do): it ends if and only if it ended, normally or with the same
exception, all attributes agree, the calls and their results agree, the solver models are equal and the same rule is learnt. -/
theorem C103_same_run (h : SameData X X') (cfg : Fit.Config) (fuel : ℕ) (y : List ℤ) (e0 : Est) (w : World Ω) :
    (Fit.fit (env o X' kinds) cfg fuel y e0 w = none ↔ Fit.fit (env o X kinds) cfg fuel y e0 w = none) ∧
    ∀ r s, Fit.fit (env o X kinds) cfg fuel y e0 w = some (r, s) →
      ∃ s', Fit.fit (env o X' kinds) cfg fuel y e0 w = some (r, s') ∧ s'.est = s.est ∧ s'.trace = s.trace ∧
        s'.world.master.explanation = s.world.master.explanation ∧ s'.world.master.solver = s.world.master.solver ∧
        s'.world.master.clauseDict = s.world.master.clauseDict := by
  have ht := fit_twin (twins (o := o) (kinds := kinds) h) cfg fuel y e0 (w := w) (w' := w) ⟨⟨sameData_refl _, rfl⟩, rfl, rfl, rfl⟩
  obtain ⟨h1, h2⟩ := ht.cases
  refine ⟨h1, fun r s hr => ?_⟩
  obtain ⟨s', e1, h3⟩ := h2 r s hr
  exact ⟨s', e1, h3.est.symm, h3.trace.symm, by rw [h3.world.master.same], by rw [h3.world.master.same], by rw [h3.world.master.same]⟩

/-- C103: `predict` sees the rows only as zero or not zero. -/
theorem C103_predict (classes : List ℤ) (K : List Clause) {Z Z' : List (List ℚ)} (h : List.Forall₂ SameZeros Z Z') :
    predict classes K Z' = predict classes K Z := by
  unfold predict
  congr 1
  induction h with
  | nil => rfl
  | cons hr _ ih => rw [List.map_cons, List.map_cons, predictRow_zeros hr, ih]

/-- The entries as 0 and 1. -/
def Spec.binarise (rows : List (List ℚ)) : List (List ℚ) := rows.map (fun r => r.map (fun v => if v = 0 then 0 else 1))

theorem binarise_zeros (rows : List (List ℚ)) : List.Forall₂ SameZeros rows (binarise rows) := by
  unfold binarise
  rw [List.forall₂_map_right_iff, List.forall₂_same]
  intro r _ j
  simp only [List.getD_eq_getElem?_getD, List.getElem?_map]
  cases r[j]? with
  | none => simp
  | some v => by_cases h : v = 0 <;> simp [h]

/-- C103, corollary: training on any numbers is training on the zero / one data, and the labels of new rows are those of the zero / one rows. -/
theorem C103_binarise (cfg : Fit.Config) (fuel : ℕ) (y : List ℤ) (e0 : Est) (w : World Ω) (rows : List (List ℚ)) (n : ℕ) {r s}
    (hr : Fit.fit (env o ⟨rows, n⟩ kinds) cfg fuel y e0 w = some (r, s)) :
    ∃ s', Fit.fit (env o ⟨binarise rows, n⟩ kinds) cfg fuel y e0 w = some (r, s') ∧ s'.est = s.est ∧
      ∀ Z, predict s'.est.classes s'.world.master.explanation (binarise Z) = predict s.est.classes s.world.master.explanation Z := by
  obtain ⟨s', e1, e2, -, e3, -, -⟩ := (C103_same_run (o := o) (kinds := kinds) (X := ⟨rows, n⟩) (X' := ⟨binarise rows, n⟩)
    ⟨rfl, binarise_zeros rows⟩ cfg fuel y e0 w).2 r s hr
  refine ⟨s', e1, e2, fun Z => ?_⟩
  rw [e2, e3]
  exact C103_predict _ _ (binarise_zeros Z)

end Verif.BDR
