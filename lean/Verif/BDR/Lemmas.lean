import Verif.BDR.Spec

/-!
# Lemmas on the restricted master of the Boolean decision rule classifier
-/

set_option linter.unusedSectionVars false
set_option linter.unusedSimpArgs false

namespace Verif.BDR

open MP Spec

theorem satisfiesClause_eq (r : List ℚ) (k : Clause) : satisfiesClause r k = if Sat r k then 1 else 0 := by
  induction k with
  | nil => simp [satisfiesClause, Sat]
  | cons j js ih =>
    simp only [satisfiesClause]
    by_cases h : get r j = 0
    · have : ¬ Sat r (j :: js) := fun hs => hs j (by simp) h
      rw [if_pos h, if_neg this]
    · rw [if_neg h, ih]
      have : Sat r (j :: js) ↔ Sat r js := by
        simp only [Sat, List.forall_mem_cons]
        exact and_iff_right h
      simp [this]

/-- The rows the master treats as positive / as negative (any number of classes). -/
def posM (X : List (List ℚ)) (y : List ℕ) : List (List ℚ) := ((X.zip y).filter (fun p => p.2 ≠ 0)).map (·.1)
def negM (X : List (List ℚ)) (y : List ℕ) : List (List ℚ) := ((X.zip y).filter (fun p => p.2 ≠ 1)).map (·.1)

theorem posM_eq {X : List (List ℚ)} {y : List ℕ} (h : Binary X y) : posM X y = pos X y := by
  unfold posM pos
  congr 1
  apply List.filter_congr
  rintro ⟨r, t⟩ hm
  have := h.bin t (List.of_mem_zip hm).2
  rcases this with h | h <;> simp [h]

theorem negM_eq {X : List (List ℚ)} {y : List ℕ} (h : Binary X y) : negM X y = neg X y := by
  unfold negM neg
  congr 1
  apply List.filter_congr
  rintro ⟨r, t⟩ hm
  have := h.bin t (List.of_mem_zip hm).2
  rcases this with h | h <;> simp [h]

theorem objectiveCoeff_eq (X : List (List ℚ)) (y : List ℕ) (k : Clause) :
    objectiveCoeff X y k = numSat (negM X y) k := by
  have key : ∀ (l : List (List ℚ × ℕ)) (acc : ℕ),
      l.foldl (fun acc p => if p.2 = 1 then acc else acc + satisfiesClause p.1 k) acc =
        acc + numSat ((l.filter (fun p => p.2 ≠ 1)).map (·.1)) k := by
    intro l
    induction l with
    | nil => intro acc; simp [numSat]
    | cons p l ih =>
      intro acc
      simp only [List.foldl_cons]
      rw [ih]
      by_cases h : p.2 = 1
      · simp [h, List.filter_cons]
      · simp only [h, if_false, List.filter_cons, ne_eq, not_false_eq_true, decide_true, if_true, List.map_cons, numSat,
          List.countP_cons, satisfiesClause_eq, decide_eq_true_eq]
        omega
  unfold objectiveCoeff
  rw [key, Nat.zero_add]
  rfl

theorem clauseCoeffs_eq (X : List (List ℚ)) (y : List ℕ) (k : Clause) :
    clauseCoeffs X y k = (posM X y).map (fun r => if Sat r k then (1 : ℚ) else 0) ++ [(k.length : ℚ) + 1] := by
  have key : ∀ (l : List (List ℚ × ℕ)) (acc : List ℚ),
      l.foldl (fun acc p => if p.2 = 0 then acc else acc ++ [(satisfiesClause p.1 k : ℚ)]) acc =
        acc ++ ((l.filter (fun p => p.2 ≠ 0)).map (·.1)).map (fun r => if Sat r k then (1 : ℚ) else 0) := by
    intro l
    induction l with
    | nil => intro acc; simp
    | cons p l ih =>
      intro acc
      simp only [List.foldl_cons]
      rw [ih]
      by_cases h : p.2 = 0
      · simp [h, List.filter_cons]
      · simp [h, List.filter_cons, satisfiesClause_eq]
  unfold clauseCoeffs
  rw [key, List.nil_append]
  rfl

theorem clauseCoeffs_getLastD (X : List (List ℚ)) (y : List ℕ) (k : Clause) :
    (clauseCoeffs X y k).getLastD 0 = (k.length : ℚ) + 1 := by
  rw [clauseCoeffs_eq, List.getLastD_eq_getLast?, List.getLast?_concat]
  rfl

theorem clauseCoeffs_getD (X : List (List ℚ)) (y : List ℕ) (k : Clause) (i : ℕ) (r : List ℚ) (h : (posM X y)[i]? = some r) :
    (clauseCoeffs X y k).getD i 0 = if Sat r k then 1 else 0 := by
  rw [clauseCoeffs_eq, List.getD_eq_getElem?_getD, List.getElem?_append_left, List.getElem?_map, h]
  · simp
  · simpa using (List.getElem?_eq_some_iff.1 h).1

theorem numPos_eq {X : List (List ℚ)} {y : List ℕ} (h : y.length = X.length) :
    (y.filter (fun v => v > 0)).length = (posM X y).length := by
  have h1 : (X.zip y).map (·.2) = y := by rw [List.map_snd_zip]; omega
  have h2 : y.filter (fun v => v > 0) = ((X.zip y).filter (fun p => p.2 > 0)).map (·.2) := by
    conv_lhs => rw [← h1]
    rw [List.filter_map]
    rfl
  rw [h2]
  unfold posM
  rw [List.length_map, List.length_map]
  congr 1
  apply List.filter_congr
  intro p _
  simp [Nat.pos_iff_ne_zero]

/-! ## Loops that build models -/

theorem addVarsObj_spec (v : Var) (cs : List ℚ) : ∀ m : Model,
    (addVarsObj v cs m).1.vars = m.vars ++ List.replicate cs.length v ∧ (addVarsObj v cs m).1.cons = m.cons ∧
    (addVarsObj v cs m).1.offset = m.offset ∧ (addVarsObj v cs m).1.maximize = m.maximize ∧
    (∀ i < m.vars.length, (addVarsObj v cs m).1.obj i = m.obj i) ∧
    (∀ i, (addVarsObj v cs m).1.obj (m.vars.length + i) = cs[i]?.getD (m.obj (m.vars.length + i))) ∧
    (addVarsObj v cs m).2 = List.range' m.vars.length cs.length := by
  induction cs with
  | nil => intro m; simp [addVarsObj]
  | cons c cs ih =>
    intro m
    obtain ⟨h1, h2, h3, h4, h5, h6, h7⟩ := ih ((m.addVar v).setObj m.vars.length c)
    simp only [addVarsObj]
    refine ⟨?_, ?_, ?_, ?_, ?_, ?_, ?_⟩
    · rw [h1]; simp [List.replicate_succ]
    · rw [h2]; rfl
    · rw [h3]; rfl
    · rw [h4]; rfl
    · intro i hi
      rw [h5 i (by simp; omega)]
      simp [Model.setObj, Function.update_of_ne (Nat.ne_of_lt hi)]
    · intro i
      cases i with
      | zero =>
        rw [h5 _ (by simp)]
        simp [Model.setObj]
      | succ i =>
        have := h6 i
        simp only [setObj_vars, addVar_vars, List.length_append, List.length_singleton] at this
        rw [show m.vars.length + (i + 1) = m.vars.length + 1 + i by omega, this]
        simp only [List.getElem?_cons_succ]
        congr 1
        simp only [Model.setObj, addVar_obj]
        rw [Function.update_of_ne (by omega)]
    · rw [h7]
      simp [List.range'_succ]

theorem setCoeff_last (m : Model) (l u : Option ℚ) (v : ℕ) (x : ℚ) :
    ((m.addCons l u).setCoeff m.cons.length v x).cons = m.cons ++ [⟨l, u, Function.update (fun _ => 0) v x⟩] := by
  apply List.ext_getElem?
  intro c
  rw [setCoeff_cons_get]
  rcases lt_trichotomy c m.cons.length with h | h | h
  · rw [if_neg (by omega)]
    rw [addCons_cons, List.getElem?_append_left h, List.getElem?_append_left h]
  · subst h
    simp
  · rw [if_neg (by omega)]
    simp [List.getElem?_append_right (Nat.le_of_lt h)]
    rw [List.getElem?_eq_none (by simp; omega), List.getElem?_eq_none (by simp; omega)]

theorem addSatCons_spec (xis : List ℕ) : ∀ m : Model,
    (addSatCons xis m).1.vars = m.vars ∧ (addSatCons xis m).1.obj = m.obj ∧
    (addSatCons xis m).1.offset = m.offset ∧ (addSatCons xis m).1.maximize = m.maximize ∧
    (addSatCons xis m).1.cons = m.cons ++ xis.map (fun xi => ⟨some 1, none, Function.update (fun _ => 0) xi 1⟩) ∧
    (addSatCons xis m).2 = List.range' m.cons.length xis.length := by
  induction xis with
  | nil => intro m; simp [addSatCons]
  | cons xi xis ih =>
    intro m
    obtain ⟨h1, h2, h3, h4, h5, h6⟩ := ih ((m.addCons (some 1) none).setCoeff m.cons.length xi 1)
    simp only [addSatCons]
    refine ⟨by rw [h1]; rfl, by rw [h2]; rfl, by rw [h3]; rfl, by rw [h4]; rfl, ?_, ?_⟩
    · rw [h5, setCoeff_last]
      simp
    · rw [h6]
      simp [List.range'_succ]

theorem setColumn_spec (var : ℕ) (coeffs : List ℚ) (k : ℕ) : ∀ (b j : ℕ) (m : Model),
    (setColumn var coeffs (List.range' b k) j m).vars = m.vars ∧ (setColumn var coeffs (List.range' b k) j m).obj = m.obj ∧
    (setColumn var coeffs (List.range' b k) j m).offset = m.offset ∧
    (setColumn var coeffs (List.range' b k) j m).maximize = m.maximize ∧
    (setColumn var coeffs (List.range' b k) j m).cons.length = m.cons.length ∧
    ∀ c, (setColumn var coeffs (List.range' b k) j m).cons[c]? =
      if b ≤ c ∧ c < b + k then
        (m.cons[c]?).map (fun q => { q with coeff := Function.update q.coeff var (coeffs.getD (j + (c - b)) 0) })
      else m.cons[c]? := by
  induction k with
  | zero =>
    intro b j m
    refine ⟨rfl, rfl, rfl, rfl, rfl, fun c => ?_⟩
    rw [if_neg (by omega)]
    rfl
  | succ k ih =>
    intro b j m
    simp only [List.range'_succ, setColumn]
    obtain ⟨h1, h2, h3, h4, h5, h6⟩ := ih (b + 1) (j + 1) (m.setCoeff b var (coeffs.getD j 0))
    refine ⟨by rw [h1]; rfl, by rw [h2]; rfl, by rw [h3]; rfl, by rw [h4]; rfl, by rw [h5]; simp, ?_⟩
    intro c
    rw [h6, setCoeff_cons_get]
    by_cases hb : b = c
    · subst hb
      rw [if_neg (by omega), if_pos rfl, if_pos (by omega)]
      simp
    · rw [if_neg hb]
      by_cases hc : b + 1 ≤ c ∧ c < b + 1 + k
      · rw [if_pos hc, if_pos (by omega)]
        rw [show j + 1 + (c - (b + 1)) = j + (c - b) by omega]
      · rw [if_neg hc, if_neg (by omega)]

/-! ## The invariant -/

/-- Coefficients: `base` on the first `n` variables, `g k` on the variable of clause `k`, 0 elsewhere. -/
def colFn (n : ℕ) (base : ℕ → ℚ) (K : List Clause) (g : Clause → ℚ) : ℕ → ℚ :=
  fun v => if v < n then base v else ((K[v - n]?).map g).getD 0

theorem colFn_snoc (n : ℕ) (base : ℕ → ℚ) (K : List Clause) (g : Clause → ℚ) (k : Clause) :
    Function.update (colFn n base K g) (n + K.length) (g k) = colFn n base (K ++ [k]) g := by
  funext v
  by_cases hv : v = n + K.length
  · subst hv
    simp [colFn]
  · rw [Function.update_of_ne hv]
    unfold colFn
    by_cases h : v < n
    · rw [if_pos h, if_pos h]
    · rw [if_neg h, if_neg h]
      by_cases h2 : v - n < K.length
      · rw [List.getElem?_append_left h2]
      · rw [List.getElem?_eq_none (by omega), List.getElem?_eq_none (by simp; omega)]

theorem sum_colFn (n : ℕ) (base : ℕ → ℚ) (K : List Clause) (g : Clause → ℚ) (a : ℕ → ℚ) :
    activity (n + K.length) (colFn n base K g) a =
      ∑ i ∈ Finset.range n, base i * a i + ∑ j ∈ Finset.range K.length, g (K.getD j []) * a (n + j) := by
  rw [activity_add]
  congr 1
  · apply Finset.sum_congr rfl
    intro i hi
    simp [colFn, Finset.mem_range.1 hi]
  · apply Finset.sum_congr rfl
    intro j hj
    have hj' := Finset.mem_range.1 hj
    simp [colFn, hj', List.getD_eq_getElem?_getD]

/-- State of the master holding the clauses `K` (in order of creation). -/
structure Inv (s : Master) (K : List Clause) : Prop where
  gen : s.generated = true
  len : s.y.length = s.X.rows.length
  vars : s.solver.vars = List.replicate ((posM s.X.rows s.y).length + K.length) nonnegInt
  consLen : s.solver.cons.length = (posM s.X.rows s.y).length + 1
  cons0 : s.solver.cons[0]? =
    some ⟨none, some s.C, colFn (posM s.X.rows s.y).length (fun _ => 0) K (fun k => (k.length : ℚ) + 1)⟩
  consS : ∀ i r, (posM s.X.rows s.y)[i]? = some r → s.solver.cons[i + 1]? =
    some ⟨some 1, none, colFn (posM s.X.rows s.y).length (fun v => if v = i then 1 else 0) K
      (fun k => if Sat r k then 1 else 0)⟩
  obj : s.solver.obj = colFn (posM s.X.rows s.y).length (fun _ => s.p) K (fun k => (numSat (negM s.X.rows s.y) k : ℚ))
  offset : s.solver.offset = 0
  max : s.solver.maximize = false
  cvars : s.clauseVars = List.range' (posM s.X.rows s.y).length K.length
  xi : s.xiVars = List.range (posM s.X.rows s.y).length
  sat : s.clauseSatisfaction = List.range' 1 (posM s.X.rows s.y).length
  comp : s.clauseComplexity = 0
  dict : s.clauseDict = (List.range' (posM s.X.rows s.y).length K.length).zip K
  nodup : K.Nodup

theorem Inv.clauses {s : Master} {K : List Clause} (h : Inv s K) : s.clauseDict.map (·.2) = K := by
  rw [h.dict, List.map_snd_zip]
  simp

theorem lexicographicClause_zero : lexicographicClause 0 = [] := by decide

theorem generateMp_inv (C p : ℚ) (X : Data) (y : List ℕ) (h : y.length = X.rows.length) :
    Inv ((Master.new C p).generateMp X y) [[]] ∧ ((Master.new C p).generateMp X y).X = X ∧
      ((Master.new C p).generateMp X y).y = y ∧ ((Master.new C p).generateMp X y).C = C ∧
      ((Master.new C p).generateMp X y).p = p ∧ ((Master.new C p).generateMp X y).explanation = [] := by
  have hn := numPos_eq h
  set n := (posM X.rows y).length with hdef
  simp only [Master.generateMp, Master.new, Bool.false_eq_true, if_false, hn, lexicographicClause_zero]
  obtain ⟨a1, a2, a3, a4, a5, a6, a7⟩ := addVarsObj_spec nonnegInt (List.replicate n p) Model.empty
  set A := addVarsObj nonnegInt (List.replicate n p) Model.empty with hA
  have hv : A.1.vars = List.replicate n nonnegInt := by rw [a1]; simp [Model.empty]
  have hc : A.1.cons = [] := by rw [a2]; rfl
  have hxi : A.2 = List.range n := by rw [a7]; simp [Model.empty, List.range_eq_range']
  have hobj : A.1.obj = colFn n (fun _ => p) [] (fun k => (numSat (negM X.rows y) k : ℚ)) := by
    funext v
    have := a6 v
    simp only [Model.empty, List.length_nil, Nat.zero_add] at this
    rw [this, List.getElem?_replicate]
    unfold colFn
    by_cases hvn : v < n <;> simp [hvn]
  have hvl : A.1.vars.length = n := by rw [hv]; simp
  obtain ⟨b1, b2, b3, b4, b5, b6⟩ := addSatCons_spec A.2
    ((((A.1.addVar nonnegInt).setObj n (objectiveCoeff X.rows y [])).setMax false).addCons none (some C))
  rw [hvl]
  simp only [setMax_cons, setObj_cons, addVar_cons, hc, List.length_nil]
  set B := addSatCons A.2 ((((A.1.addVar nonnegInt).setObj n (objectiveCoeff X.rows y [])).setMax false).addCons none (some C)) with hB
  have hbsat : B.2 = List.range' 1 n := by
    rw [b6, hxi]; simp [hc]
  have hbcons : B.1.cons = ⟨none, some C, fun _ => 0⟩ ::
      (List.range n).map (fun xi => ⟨some 1, none, Function.update (fun _ => 0) xi 1⟩) := by
    rw [b5, hxi]; simp [hc]
  rw [hbsat]
  obtain ⟨c1, c2, c3, c4, c5, c6⟩ := setColumn_spec n (clauseCoeffs X.rows y []) n 1 0 B.1
  set S := setColumn n (clauseCoeffs X.rows y []) (List.range' 1 n) 0 B.1 with hS
  refine ⟨?_, trivial, trivial, trivial, trivial, trivial⟩
  have hSlen : S.cons.length = n + 1 := by rw [c5, hbcons]; simp
  constructor
  · rfl
  · exact h
  · show (S.setCoeff 0 n _).vars = _
    simp only [setCoeff_vars]
    rw [c1, b1]
    simp [hv, List.replicate_succ', hdef]
  · show (S.setCoeff 0 n _).cons.length = _
    rw [setCoeff_cons_length, hSlen]
  · show (S.setCoeff 0 n _).cons[0]? = _
    rw [setCoeff_cons_get, if_pos rfl, c6, if_neg (by omega), hbcons, clauseCoeffs_getLastD]
    simp only [List.getElem?_cons_zero, Option.map_some, Option.some.injEq, Cons.mk.injEq, true_and]
    have := colFn_snoc n (fun _ => 0) [] (fun k => (k.length : ℚ) + 1) []
    simp only [List.length_nil, Nat.add_zero, List.nil_append] at this
    rw [← this]
    congr 1
    funext v
    unfold colFn
    simp
  · intro i r hi
    have hi' : (posM X.rows y)[i]? = some r := hi
    have hin : i < n := (List.getElem?_eq_some_iff.1 hi').1
    show (S.setCoeff 0 n _).cons[i + 1]? = _
    rw [setCoeff_cons_get, if_neg (by omega), c6, if_pos (by omega), hbcons]
    simp only [List.getElem?_cons_succ, List.getElem?_map, List.getElem?_range hin, Option.map_some,
      Option.some.injEq, Cons.mk.injEq, true_and]
    have := colFn_snoc n (fun v => if v = i then 1 else 0) [] (fun k => if Sat r k then (1:ℚ) else 0) []
    simp only [List.length_nil, Nat.add_zero, List.nil_append] at this
    rw [show 0 + (i + 1 - 1) = i by omega, clauseCoeffs_getD X.rows y [] i r hi', ← this]
    congr 1
    funext v
    unfold colFn
    by_cases hvi : v = i
    · subst hvi; simp [hin]
    · rw [Function.update_of_ne hvi]
      simp [hvi]
  · show (S.setCoeff 0 n _).obj = _
    rw [setCoeff_obj, c2, b2]
    simp only [addCons_obj, setMax_obj]
    have := colFn_snoc n (fun _ => p) [] (fun k => (numSat (negM X.rows y) k : ℚ)) []
    simp only [List.length_nil, Nat.add_zero, List.nil_append] at this
    rw [← this]
    simp only [Model.setObj, addVar_obj, hobj, objectiveCoeff_eq]
  · show (S.setCoeff 0 n _).offset = _
    rw [setCoeff_offset, c3, b3]; simp [a3, Model.empty]
  · show (S.setCoeff 0 n _).maximize = _
    rw [setCoeff_max, c4, b4]; simp [Model.setMax]
  · show [n] = List.range' n 1
    rfl
  · exact hxi
  · rfl
  · rfl
  · show ([] ++ [(n, ([] : Clause))] : List (ℕ × Clause)) = (List.range' n 1).zip [[]]
    rfl
  · simp

/-- What `add_column` does in a state holding the clauses `K`. -/
theorem addColumn_inv {s : Master} {K : List Clause} (h : Inv s K) (k : Clause) :
    (k = [] → s.addColumn k = (.ok false, s)) ∧
    (k ≠ [] → k ∈ K → s.addColumn k = (.error .assertionError, s)) ∧
    (k ≠ [] → k ∉ K → ∃ s', s.addColumn k = (.ok true, s') ∧ Inv s' (K ++ [k]) ∧ s'.X = s.X ∧ s'.y = s.y ∧ s'.C = s.C ∧
      s'.p = s.p ∧ s'.explanation = s.explanation) := by
  have hgen : ¬ s.generated = false := by rw [h.gen]; simp
  refine ⟨?_, ?_, ?_⟩
  · rintro rfl
    simp [Master.addColumn, h.gen]
  · intro hk hm
    unfold Master.addColumn
    rw [if_neg hgen, if_neg (by simpa using hk), if_pos (by rw [h.clauses]; exact hm)]
  · intro hk hm
    set n := (posM s.X.rows s.y).length with hdef
    have hvl : s.solver.vars.length = n + K.length := by rw [h.vars, List.length_replicate]
    have hsat : ¬ (s.solver.cons.length - 1 ≠ s.clauseSatisfaction.length) := by
      rw [h.consLen, h.sat]; simp
    refine ⟨(s.addColumn k).2, ?_, ?_⟩
    · unfold Master.addColumn
      rw [if_neg hgen, if_neg (by simpa using hk), if_neg (by rw [h.clauses]; exact hm)]
      simp only
      rw [if_neg hsat]
    · unfold Master.addColumn
      rw [if_neg hgen, if_neg (by simpa using hk), if_neg (by rw [h.clauses]; exact hm)]
      simp only
      rw [if_neg hsat]
      refine ⟨?_, rfl, rfl, rfl, rfl, rfl⟩
      rw [hvl, h.sat, h.comp]
      obtain ⟨c1, c2, c3, c4, c5, c6⟩ := setColumn_spec (n + K.length) (clauseCoeffs s.X.rows s.y k) n 1 0
        ((s.solver.addVar nonnegInt).setObj (n + K.length) (objectiveCoeff s.X.rows s.y k))
      set S := setColumn (n + K.length) (clauseCoeffs s.X.rows s.y k) (List.range' 1 n) 0
        ((s.solver.addVar nonnegInt).setObj (n + K.length) (objectiveCoeff s.X.rows s.y k)) with hS
      constructor
      · exact h.gen
      · exact h.len
      · show (S.setCoeff 0 _ _).vars = _
        rw [setCoeff_vars, c1]
        simp only [setObj_vars, addVar_vars, h.vars]
        rw [List.length_append, List.length_singleton, ← Nat.add_assoc, List.replicate_succ']
      · show (S.setCoeff 0 _ _).cons.length = _
        rw [setCoeff_cons_length, c5]
        exact h.consLen
      · show (S.setCoeff 0 _ _).cons[0]? = _
        rw [setCoeff_cons_get, if_pos rfl, c6, if_neg (by omega), clauseCoeffs_getLastD]
        simp only [setObj_cons, addVar_cons, h.cons0, Option.map_some, Option.some.injEq, Cons.mk.injEq, true_and]
        exact colFn_snoc n _ K (fun k => (k.length : ℚ) + 1) k
      · intro i r hi
        have hi' : (posM s.X.rows s.y)[i]? = some r := hi
        have hin : i < n := (List.getElem?_eq_some_iff.1 hi').1
        show (S.setCoeff 0 _ _).cons[i + 1]? = _
        rw [setCoeff_cons_get, if_neg (by omega), c6, if_pos (by omega)]
        simp only [setObj_cons, addVar_cons, h.consS i r hi', Option.map_some, Option.some.injEq, Cons.mk.injEq, true_and]
        rw [show 0 + (i + 1 - 1) = i by omega, clauseCoeffs_getD _ _ _ i r hi']
        exact colFn_snoc n _ K (fun k => if Sat r k then (1 : ℚ) else 0) k
      · show (S.setCoeff 0 _ _).obj = _
        rw [setCoeff_obj, c2, Model.setObj]
        simp only [addVar_obj, h.obj, objectiveCoeff_eq]
        exact colFn_snoc n _ K (fun k => (numSat (negM s.X.rows s.y) k : ℚ)) k
      · show (S.setCoeff 0 _ _).offset = _
        rw [setCoeff_offset, c3]; exact h.offset
      · show (S.setCoeff 0 _ _).maximize = _
        rw [setCoeff_max, c4]; exact h.max
      · show s.clauseVars ++ [n + K.length] = _
        rw [h.cvars, List.length_append, List.length_singleton, List.range'_concat]
        simp [hdef]
      · exact h.xi
      · rfl
      · rfl
      · show s.clauseDict ++ [(n + K.length, k)] = _
        rw [h.dict, List.length_append, List.length_singleton, List.range'_concat]
        simp only [Nat.one_mul]
        rw [List.zip_append (by simp)]
        rfl
      · rw [List.nodup_append]
        refine ⟨h.nodup, by simp, ?_⟩
        intro a ha b hb hab
        simp only [List.mem_singleton] at hb
        subst hb; subst hab
        exact hm ha

end Verif.BDR
