import Verif.BDR.Lemmas

/-!
# Lemmas on the pricing problems of the Boolean decision rule classifier
-/

set_option linter.unusedSectionVars false
set_option linter.unusedSimpArgs false

namespace Verif.BDR

open MP Spec

/-! ## The pricing model in closed form -/

theorem deltaCoeffs_length (cs : List ℚ) (y : List ℕ) : ∀ n, (deltaCoeffs cs y n).length = y.length := by
  induction y with
  | nil => intro n; rfl
  | cons t ts ih =>
    intro n
    unfold deltaCoeffs
    split <;> simp [ih]

/-- Rows of one sample with delta variable `d`; `z j` is variable `j`. -/
def sampleRows (n : ℕ) (row : List ℚ) (target d : ℕ) : List Cons :=
  if target = 1 then (zeroFeats n row).map (fun j => ⟨some 0, some 1, coeffOf [(d, 1), (j, 1)]⟩)
  else [⟨some 1, none, coeffOf ((d, 1) :: (zeroFeats n row).map (fun j => (j, 1)))⟩]

/-- The rows of the pricing model. -/
def subRows (D : ℚ) (X : Data) (y : List ℕ) : List Cons :=
  ((X.rows.zip y).zip (List.range' X.nFeat y.length)).flatMap (fun q => sampleRows X.nFeat q.1.1 q.1.2 q.2) ++
    [⟨some 0, some D, coeffOf ((List.range X.nFeat).map (fun j => (j, 1)))⟩]

/-- The pricing model. -/
def subModel (D : ℚ) (X : Data) (y : List ℕ) (cc : ℚ) (cs : List ℚ) : Model :=
  { vars := List.replicate (X.nFeat + y.length) boolVar
    cons := subRows D X y
    obj := fun v => if v < X.nFeat then cc else ((deltaCoeffs cs y 0)[v - X.nFeat]?).getD 0
    offset := cc
    maximize := false }

theorem zeroFeats_lt {n : ℕ} {row : List ℚ} {j : ℕ} (h : j ∈ zeroFeats n row) : j < n := by
  unfold zeroFeats at h
  exact List.mem_range.1 (List.mem_filter.1 h).1

theorem sampleCons_eq (n : ℕ) (row : List ℚ) (target d : ℕ) (m : Model) :
    sampleCons n (List.range n) row target d m = { m with cons := m.cons ++ sampleRows n row target d } := by
  unfold sampleCons sampleRows
  split
  · have key : ∀ (js : List ℕ) (m : Model), (∀ j ∈ js, j < n) →
        js.foldl (fun m j => addRow m (some 0) (some 1) [(d, 1), ((List.range n).getD j 0, 1)]) m =
          { m with cons := m.cons ++ js.map (fun j => ⟨some 0, some 1, coeffOf [(d, 1), (j, 1)]⟩) } := by
      intro js
      induction js with
      | nil => intro m _; simp
      | cons j js ih =>
        intro m hj
        simp only [List.foldl_cons]
        rw [ih _ (fun i hi => hj i (by simp [hi])), addRow_eq]
        have : (List.range n).getD j 0 = j := by
          simp [List.getD_eq_getElem?_getD, hj j (by simp)]
        rw [this]
        simp
    exact key _ _ (fun j hj => zeroFeats_lt hj)
  · rw [addRow_eq]
    have : (zeroFeats n row).map (fun j => ((List.range n).getD j 0, (1 : ℚ))) = (zeroFeats n row).map (fun j => (j, 1)) := by
      apply List.map_congr_left
      intro j hj
      simp [List.getD_eq_getElem?_getD, zeroFeats_lt hj]
    rw [this]

theorem sampleFold_eq (n : ℕ) (l : List ((List ℚ × ℕ) × ℕ)) : ∀ (m : Model),
    l.foldl (fun m q => sampleCons n (List.range n) q.1.1 q.1.2 q.2 m) m =
      { m with cons := m.cons ++ l.flatMap (fun q => sampleRows n q.1.1 q.1.2 q.2) } := by
  induction l with
  | nil => intro m; simp
  | cons q l ih =>
    intro m
    simp only [List.foldl_cons]
    rw [ih, sampleCons_eq]
    simp

/-- The state of a generated pricing problem. -/
structure SubInv (s : Sub) (D : ℚ) (X : Data) (y : List ℕ) (cc : ℚ) (cs : List ℚ) : Prop where
  dim : s.D = D
  gen : s.generated = true
  z : s.zVars = List.range X.nFeat
  delta : s.deltaVars = List.range' X.nFeat y.length
  model : s.solver = subModel D X y cc cs

theorem createSubmip_inv (D : ℚ) (X : Data) (y : List ℕ) (cc : ℚ) (cs : List ℚ) :
    ∃ s, (Sub.new D).createSubmip X y cc cs = .ok s ∧ SubInv s D X y cc cs := by
  unfold Sub.createSubmip Sub.new
  simp only [Bool.false_eq_true, if_false]
  obtain ⟨a1, a2, a3, a4, a5, a6, a7⟩ := addVarsObj_spec boolVar (List.replicate X.nFeat cc) Model.empty
  set A := addVarsObj boolVar (List.replicate X.nFeat cc) Model.empty with hA
  obtain ⟨b1, b2, b3, b4, b5, b6, b7⟩ := addVarsObj_spec boolVar (deltaCoeffs cs y 0) A.1
  set B := addVarsObj boolVar (deltaCoeffs cs y 0) A.1 with hB
  have hz : A.2 = List.range X.nFeat := by rw [a7]; simp [Model.empty, List.range_eq_range']
  have hv : A.1.vars = List.replicate X.nFeat boolVar := by rw [a1]; simp [Model.empty]
  have hd : B.2 = List.range' X.nFeat y.length := by
    rw [b7, hv, deltaCoeffs_length]; simp
  refine ⟨_, rfl, ⟨rfl, rfl, hz, hd, ?_⟩⟩
  show addRow _ _ _ _ = _
  rw [hz, hd, sampleFold_eq, addRow_eq]
  unfold subModel subRows
  have hr : (List.range X.nFeat).map (fun j => ((List.range X.nFeat).getD j 0, (1 : ℚ))) =
      (List.range X.nFeat).map (fun j => (j, 1)) := by
    apply List.map_congr_left
    intro j hj
    simp [List.getD_eq_getElem?_getD, List.mem_range.1 hj]
  rw [hr]
  have hc : B.1.cons = [] := by rw [b2, a2]; rfl
  simp only [Model.mk.injEq]
  refine ⟨?_, ?_, ?_, rfl, rfl⟩
  · show B.1.vars = _
    rw [b1, hv, deltaCoeffs_length]
    simp
  · simp [Model.setMax, Model.setOffset, hc]
  · show B.1.obj = _
    funext v
    have hlen : A.1.vars.length = X.nFeat := by rw [hv]; simp
    have ha := a6 v
    simp only [Model.empty, List.length_nil, Nat.zero_add] at ha
    by_cases h : v < X.nFeat
    · rw [if_pos h, b5 v (by omega), ha, List.getElem?_replicate]
      simp [h]
    · rw [if_neg h]
      have := b6 (v - X.nFeat)
      rw [hlen, show X.nFeat + (v - X.nFeat) = v by omega] at this
      rw [this, ha, List.getElem?_replicate]
      simp [h]

theorem setObjs_spec (ts : List (ℕ × ℚ)) : ∀ m : Model,
    setObjs ts m = { m with obj := ts.foldl (fun f t => Function.update f t.1 t.2) m.obj } := by
  induction ts with
  | nil => intro m; rfl
  | cons t ts ih => intro m; simp only [setObjs, ih, List.foldl_cons]; rfl

/-- Writing a block of consecutive entries. -/
theorem foldl_update_range' (b : ℕ) (xs : List ℚ) : ∀ (f : ℕ → ℚ),
    ((List.range' b xs.length).zip xs).foldl (fun f t => Function.update f t.1 t.2) f =
      fun v => if b ≤ v ∧ v < b + xs.length then (xs[v - b]?).getD 0 else f v := by
  induction xs generalizing b with
  | nil =>
    intro f
    funext v
    rw [if_neg (by simp)]
    rfl
  | cons x xs ih =>
    intro f
    simp only [List.length_cons, List.range'_succ, List.zip_cons_cons, List.foldl_cons]
    rw [ih]
    funext v
    by_cases h : v = b
    · subst h
      rw [if_neg (by omega), if_pos (by omega)]
      simp
    · by_cases h2 : b + 1 ≤ v ∧ v < b + 1 + xs.length
      · rw [if_pos h2, if_pos (by omega)]
        rw [show v - b = v - (b + 1) + 1 by omega]
        simp
      · rw [if_neg h2, if_neg (by omega), Function.update_of_ne h]

theorem updateObjective_inv {s : Sub} {D : ℚ} {X : Data} {y : List ℕ} {cc : ℚ} {cs : List ℚ} (h : SubInv s D X y cc cs)
    (cc' : ℚ) (cs' : List ℚ) : ∃ s', s.updateObjective X y cc' cs' = .ok s' ∧ SubInv s' D X y cc' cs' := by
  unfold Sub.updateObjective
  rw [if_neg (by rw [h.gen]; simp)]
  refine ⟨_, rfl, ⟨h.dim, h.gen, h.z, h.delta, ?_⟩⟩
  show Model.setMax (Model.setOffset _ _) _ = _
  have e1 : (List.range X.nFeat).map (fun i => (s.zVars.getD i 0, cc')) =
      (List.range' 0 (List.replicate X.nFeat cc').length).zip (List.replicate X.nFeat cc') := by
    rw [h.z]
    apply List.ext_getElem?
    intro i
    by_cases hi : i < X.nFeat
    · simp [hi, List.getD_eq_getElem?_getD, List.getElem?_zip_eq_some]
    · rw [List.getElem?_eq_none (by simpa using hi), List.getElem?_eq_none (by simpa using hi)]
  have e2 : s.deltaVars.zip (deltaCoeffs cs' y 0) = (List.range' X.nFeat (deltaCoeffs cs' y 0).length).zip (deltaCoeffs cs' y 0) := by
    rw [h.delta, deltaCoeffs_length]
  rw [e1, e2, setObjs_spec, setObjs_spec, foldl_update_range', foldl_update_range', h.model]
  unfold subModel Model.setOffset Model.setMax
  simp only [Model.mk.injEq, true_and, and_true]
  funext v
  rw [deltaCoeffs_length]
  by_cases h1 : v < X.nFeat
  · rw [if_neg (by omega), if_pos (by simp; omega), if_pos h1]
    simp [h1]
  · rw [if_neg h1]
    by_cases h2 : v < X.nFeat + y.length
    · rw [if_pos (by omega)]
      simp [h1]
    · simp only [h1, if_false]
      rw [if_neg (by omega), if_neg (by simp; omega)]
      rw [List.getElem?_eq_none (by rw [deltaCoeffs_length]; omega), List.getElem?_eq_none (by rw [deltaCoeffs_length]; omega)]

/-- A subproblem that is fresh or was generated from this data. -/
def SubOk (s : Sub) (D : ℚ) (X : Data) (y : List ℕ) : Prop := s = Sub.new D ∨ ∃ cc cs, SubInv s D X y cc cs

theorem prepare_inv {s : Sub} {D : ℚ} {X : Data} {y : List ℕ} (h : SubOk s D X y) (d : ℚ × List ℚ) :
    (s.prepare X y d = .error .assertionError ∧ ¬ (0 ≤ d.1 ∧ ∀ x ∈ d.2, 0 ≤ x)) ∨
    (∃ s', s.prepare X y d = .ok s' ∧ SubInv s' D X y d.1 d.2 ∧ 0 ≤ d.1 ∧ ∀ x ∈ d.2, 0 ≤ x) := by
  unfold Sub.prepare
  by_cases h1 : d.1 < 0
  · left
    rw [if_pos h1]
    exact ⟨rfl, fun h => absurd h.1 (not_le.2 h1)⟩
  · rw [if_neg h1]
    by_cases h2 : (d.2.any (fun d => decide (d < 0))) = true
    · left
      rw [if_pos h2]
      refine ⟨rfl, fun h => ?_⟩
      obtain ⟨x, hx, hx0⟩ := List.any_eq_true.1 h2
      exact absurd (h.2 x hx) (not_le.2 (by simpa using hx0))
    · right
      rw [if_neg h2]
      have hpos : 0 ≤ d.1 ∧ ∀ x ∈ d.2, 0 ≤ x := by
        refine ⟨not_lt.1 h1, fun x hx => ?_⟩
        by_contra hc
        exact h2 (List.any_eq_true.2 ⟨x, hx, by simpa using hc⟩)
      rcases h with h | ⟨cc, cs, h⟩
      · subst h
        rw [if_neg (by simp [Sub.new])]
        obtain ⟨s', e, hi⟩ := createSubmip_inv D X y d.1 d.2
        exact ⟨s', e, hi, hpos⟩
      · rw [if_pos h.gen]
        obtain ⟨s', e, hi⟩ := updateObjective_inv h d.1 d.2
        exact ⟨s', e, hi, hpos⟩

end Verif.BDR
