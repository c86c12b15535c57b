import Verif.MP

/-!
# Representation of solver models by described variables and constraints

Lemmas only (no modelled code): a solver model whose `i`-th variable is described by `own[i]` and whose `j`-th constraint is described by
`cd[j]`, with coefficients given by a function of the descriptions.
-/

namespace Verif.MP

/-- Bounds and coefficients as functions of the descriptions. -/
structure Sig (O C : Type) where
  var : O → Var
  lb : C → Option ℚ
  ub : C → Option ℚ
  coef : C → O → ℚ

/-- `f` of the description of variable `v`, 0 when there is none. -/
def atVar {O : Type} (own : List O) (f : O → ℚ) (v : ℕ) : ℚ := (own[v]?).elim 0 f

/-- The model is the described one. -/
structure Rep {O C : Type} (S : Sig O C) (m : Model) (own : List O) (cd : List C) : Prop where
  vars : m.vars = own.map S.var
  cons : m.cons = cd.map (fun c => ⟨S.lb c, S.ub c, atVar own (S.coef c)⟩)

/-- The objective is the described one. -/
def ObjIs {O : Type} (m : Model) (own : List O) (f : O → ℚ) : Prop := m.obj = atVar own f

variable {O C : Type} {S : Sig O C} {m : Model} {own : List O} {cd : List C}

theorem atVar_append (own : List O) (o : O) (f : O → ℚ) (v : ℕ) :
    atVar (own ++ [o]) f v = if v = own.length then f o else atVar own f v := by
  unfold atVar
  split_ifs with h
  · subst h; simp
  · rcases Nat.lt_or_ge v own.length with h1 | h1
    · rw [List.getElem?_append_left h1]
    · rw [List.getElem?_eq_none (by simp; omega), List.getElem?_eq_none h1]

theorem atVar_length (own : List O) (f : O → ℚ) : atVar own f own.length = 0 := by simp [atVar]

theorem Rep.empty : Rep S Model.empty [] [] := ⟨rfl, rfl⟩

theorem Rep.length_vars (h : Rep S m own cd) : m.vars.length = own.length := by rw [h.vars]; simp

theorem Rep.length_cons (h : Rep S m own cd) : m.cons.length = cd.length := by rw [h.cons]; simp

theorem Rep.setObj (h : Rep S m own cd) (v : ℕ) (x : ℚ) : Rep S (m.setObj v x) own cd := ⟨h.vars, h.cons⟩

theorem Rep.setOffset (h : Rep S m own cd) (x : ℚ) : Rep S (m.setOffset x) own cd := ⟨h.vars, h.cons⟩

theorem Rep.setMax (h : Rep S m own cd) (b : Bool) : Rep S (m.setMax b) own cd := ⟨h.vars, h.cons⟩

/-- Change of the description functions where they agree. -/
theorem Rep.congr (h : Rep S m own cd) {S' : Sig O C} (hv : ∀ o ∈ own, S'.var o = S.var o)
    (hb : ∀ c ∈ cd, S'.lb c = S.lb c ∧ S'.ub c = S.ub c) (hc : ∀ c ∈ cd, ∀ o ∈ own, S'.coef c o = S.coef c o) : Rep S' m own cd := by
  refine ⟨?_, ?_⟩
  · rw [h.vars]
    exact List.map_congr_left (fun o ho => (hv o ho).symm)
  · rw [h.cons]
    apply List.map_congr_left
    intro c hm
    rw [(hb c hm).1, (hb c hm).2]
    congr 1
    funext v
    unfold atVar
    cases hv : own[v]? with
    | none => rfl
    | some o => exact (hc c hm o (List.mem_of_getElem? hv)).symm

/-- `SetCoefficient(var, x)` on each of a list of constraints. -/
def setAll (m : Model) (v : ℕ) (x : ℚ) (cs : List ℕ) : Model := cs.foldl (fun m c => m.setCoeff c v x) m

theorem setAll_append (m : Model) (v : ℕ) (x : ℚ) (a b : List ℕ) : setAll m v x (a ++ b) = setAll (setAll m v x a) v x b := by
  simp [setAll, List.foldl_append]

theorem setAll_get (m : Model) (v : ℕ) (x : ℚ) (cs : List ℕ) (i : ℕ) :
    (setAll m v x cs).cons[i]? = (m.cons[i]?).map (fun k => if i ∈ cs then { k with coeff := Function.update k.coeff v x } else k) := by
  induction cs generalizing m with
  | nil => simp [setAll]
  | cons c cs ih =>
    have : setAll m v x (c :: cs) = setAll (m.setCoeff c v x) v x cs := rfl
    rw [this, ih, setCoeff_cons_get]
    cases m.cons[i]? with
    | none => split_ifs <;> rfl
    | some k =>
      by_cases h1 : c = i
      · subst h1
        by_cases h2 : c ∈ cs
        · simp [h2]
        · simp [h2]
      · have h1' : ¬ i = c := fun h => h1 h.symm
        by_cases h2 : i ∈ cs
        · simp [h1, h2]
        · simp [h1, h1', h2]

@[simp] theorem setAll_vars (m : Model) (v : ℕ) (x : ℚ) (cs : List ℕ) : (setAll m v x cs).vars = m.vars := by
  induction cs generalizing m with
  | nil => rfl
  | cons c cs ih => exact (ih (m.setCoeff c v x)).trans rfl

@[simp] theorem setAll_obj (m : Model) (v : ℕ) (x : ℚ) (cs : List ℕ) : (setAll m v x cs).obj = m.obj := by
  induction cs generalizing m with
  | nil => rfl
  | cons c cs ih => exact (ih (m.setCoeff c v x)).trans rfl

@[simp] theorem setAll_offset (m : Model) (v : ℕ) (x : ℚ) (cs : List ℕ) : (setAll m v x cs).offset = m.offset := by
  induction cs generalizing m with
  | nil => rfl
  | cons c cs ih => exact (ih (m.setCoeff c v x)).trans rfl

@[simp] theorem setAll_maximize (m : Model) (v : ℕ) (x : ℚ) (cs : List ℕ) : (setAll m v x cs).maximize = m.maximize := by
  induction cs generalizing m with
  | nil => rfl
  | cons c cs ih => exact (ih (m.setCoeff c v x)).trans rfl

/-- A new variable entered with coefficient 1 in the constraints `cs`. -/
theorem Rep.addVar (h : Rep S m own cd) (o : O) (cs : List ℕ)
    (hc : ∀ i c, cd[i]? = some c → S.coef c o = if i ∈ cs then 1 else 0) :
    Rep S (setAll (m.addVar (S.var o)) own.length 1 cs) (own ++ [o]) cd := by
  refine ⟨?_, ?_⟩
  · simp [Model.addVar, h.vars]
  · apply List.ext_getElem?
    intro i
    rw [setAll_get]
    change (m.cons[i]?).map _ = _
    rw [h.cons, List.getElem?_map, List.getElem?_map]
    cases hi : cd[i]? with
    | none => rfl
    | some c =>
      simp only [Option.map_some, Option.some.injEq]
      have hcc := hc i c hi
      by_cases hm : i ∈ cs
      · rw [if_pos hm] at hcc
        rw [if_pos hm]
        simp only [Cons.mk.injEq, true_and]
        funext v
        rw [atVar_append, hcc, Function.update_apply]
      · rw [if_neg hm] at hcc
        rw [if_neg hm]
        simp only [Cons.mk.injEq, true_and]
        funext v
        rw [atVar_append, hcc]
        split_ifs with hv
        · rw [hv, atVar_length]
        · rfl

/-- A new variable that occurs in no constraint so far. -/
theorem Rep.addVar_none (h : Rep S m own cd) (o : O) (hc : ∀ c ∈ cd, S.coef c o = 0) :
    Rep S (m.addVar (S.var o)) (own ++ [o]) cd := by
  have := h.addVar o [] (fun i c hi => by simp [hc c (List.mem_of_getElem? hi)])
  exact this

theorem coeffOf_eq (terms : List (ℕ × ℚ)) (g : ℕ → ℚ) (h : ∀ t ∈ terms, t.2 = g t.1) (v : ℕ) :
    coeffOf terms v = if v ∈ terms.map (·.1) then g v else 0 := by
  induction terms using List.reverseRecOn with
  | nil => rfl
  | append_singleton ts t ih =>
    rw [coeffOf_append, Function.update_apply]
    split_ifs with h1 h2 h2
    · rw [h1]; exact h t (by simp)
    · exact absurd (by rw [h1]; simp) h2
    · rw [ih (fun t ht => h t (by simp [ht]))]
      rw [if_pos]
      simp only [List.map_append, List.mem_append, List.map_cons, List.map_nil, List.mem_singleton] at h2
      rcases h2 with h2 | h2
      · exact h2
      · exact absurd h2 h1
    · rw [ih (fun t ht => h t (by simp [ht]))]
      rw [if_neg]
      intro h3
      exact h2 (by rw [List.map_append, List.mem_append]; exact .inl h3)

/-- A new constraint whose terms are the described coefficients. -/
theorem Rep.addRow (h : Rep S m own cd) (c : C) (terms : List (ℕ × ℚ)) (ht : ∀ t ∈ terms, t.2 = atVar own (S.coef c) t.1)
    (hz : ∀ v, v ∉ terms.map (·.1) → atVar own (S.coef c) v = 0) :
    Rep S (MP.addRow m (S.lb c) (S.ub c) terms) own (cd ++ [c]) := by
  rw [addRow_eq]
  refine ⟨h.vars, ?_⟩
  simp only [h.cons, List.map_append, List.map_cons, List.map_nil]
  congr 2
  simp only [Cons.mk.injEq, true_and]
  funext v
  rw [coeffOf_eq _ _ ht]
  split_ifs with hv
  · rfl
  · exact (hz v hv).symm

/-- The same with the terms described through the positions of the variables. -/
theorem Rep.addRow' (h : Rep S m own cd) (c : C) (terms : List (ℕ × ℚ))
    (ht : ∀ t ∈ terms, ∃ o, own[t.1]? = some o ∧ t.2 = S.coef c o)
    (hz : ∀ v o, own[v]? = some o → S.coef c o ≠ 0 → v ∈ terms.map (·.1)) :
    Rep S (MP.addRow m (S.lb c) (S.ub c) terms) own (cd ++ [c]) := by
  refine h.addRow c terms ?_ ?_
  · intro t hm
    obtain ⟨o, ho, he⟩ := ht t hm
    rw [atVar, ho]
    exact he
  · intro v hv
    unfold atVar
    cases ho : own[v]? with
    | none => rfl
    | some o =>
      by_contra hne
      exact hv (hz v o ho hne)

/-! ## Objective -/

theorem ObjIs.empty (f : O → ℚ) : ObjIs Model.empty ([] : List O) f := by
  unfold ObjIs
  funext v
  simp [atVar, Model.empty]

/-- New variable with its objective coefficient. -/
theorem ObjIs.add {f : O → ℚ} (h : ObjIs m own f) (hl : m.vars.length = own.length) (o : O) {m' : Model}
    (he : m'.obj = Function.update m.obj m.vars.length (f o)) : ObjIs m' (own ++ [o]) f := by
  unfold ObjIs at *
  rw [he, h, hl]
  funext v
  rw [atVar_append, Function.update_apply]

/-- New variable without objective coefficient. -/
theorem ObjIs.add_zero {f : O → ℚ} (h : ObjIs m own f) (o : O) (ho : f o = 0) {m' : Model} (he : m'.obj = m.obj) :
    ObjIs m' (own ++ [o]) f := by
  unfold ObjIs at *
  rw [he, h]
  funext v
  rw [atVar_append, ho]
  split_ifs with hv
  · rw [hv, atVar_length]
  · rfl

/-! ## Semantics -/

theorem activity_atVar (own : List O) (f : O → ℚ) (a : ℕ → ℚ) :
    activity own.length (atVar own f) a = (own.mapIdx (fun i o => f o * a i)).sum := by
  induction own using List.reverseRecOn with
  | nil => simp [activity]
  | append_singleton own o ih =>
    rw [List.length_append, List.length_singleton, activity, Finset.sum_range_succ, List.mapIdx_concat, List.sum_append, ← ih]
    rw [atVar_append, if_pos rfl]
    have : ∑ i ∈ Finset.range own.length, atVar (own ++ [o]) f i * a i = activity own.length (atVar own f) a := by
      apply Finset.sum_congr rfl
      intro i hi
      rw [atVar_append, if_neg (by have := Finset.mem_range.1 hi; omega)]
    rw [this]
    simp

/-- Left hand sides as sums over the described variables. -/
theorem activity_idx (own : List O) (f : O → ℚ) (a : ℕ → ℚ) (idx : O → ℕ) (hi : ∀ i o, own[i]? = some o → idx o = i) :
    activity own.length (atVar own f) a = (own.map (fun o => f o * a (idx o))).sum := by
  rw [activity_atVar]
  congr 1
  apply List.ext_getElem?
  intro i
  rw [List.getElem?_mapIdx, List.getElem?_map]
  cases h : own[i]? with
  | none => rfl
  | some o => simp [hi i o h]

/-- Feasibility in terms of the descriptions. -/
theorem Rep.feasibleLP (h : Rep S m own cd) (a : ℕ → ℚ) (idx : O → ℕ) (hi : ∀ i o, own[i]? = some o → idx o = i) :
    m.FeasibleLP a ↔ (∀ o ∈ own, inBounds (S.var o).lb (S.var o).ub (a (idx o))) ∧
      ∀ c ∈ cd, inBounds (S.lb c) (S.ub c) ((own.map (fun o => S.coef c o * a (idx o))).sum) := by
  constructor
  · rintro ⟨h1, h2⟩
    refine ⟨?_, ?_⟩
    · intro o ho
      obtain ⟨i, hl, rfl⟩ := List.mem_iff_getElem.1 ho
      rw [hi i _ (List.getElem?_eq_getElem hl)]
      apply h1 i
      rw [h.vars, List.getElem?_map, List.getElem?_eq_getElem hl]
      rfl
    · intro c hc
      obtain ⟨i, hl, rfl⟩ := List.mem_iff_getElem.1 hc
      have := h2 i ⟨S.lb cd[i], S.ub cd[i], atVar own (S.coef cd[i])⟩ (by rw [h.cons, List.getElem?_map, List.getElem?_eq_getElem hl]; rfl)
      rw [h.length_vars, activity_idx own _ a idx hi] at this
      exact this
  · rintro ⟨h1, h2⟩
    refine ⟨?_, ?_⟩
    · intro i v hv
      rw [h.vars, List.getElem?_map] at hv
      cases ho : own[i]? with
      | none => rw [ho] at hv; cases hv
      | some o =>
        rw [ho] at hv
        injection hv with hv
        rw [← hv, ← hi i o ho]
        exact h1 o (List.mem_of_getElem? ho)
    · intro i k hk
      rw [h.cons, List.getElem?_map] at hk
      cases hc : cd[i]? with
      | none => rw [hc] at hk; cases hk
      | some c =>
        rw [hc] at hk
        injection hk with hk
        rw [← hk, h.length_vars, activity_idx own _ a idx hi]
        exact h2 c (List.mem_of_getElem? hc)

theorem Rep.integral (h : Rep S m own cd) (a : ℕ → ℚ) (idx : O → ℕ) (hi : ∀ i o, own[i]? = some o → idx o = i) :
    (∀ (i : ℕ) (v : Var), m.vars[i]? = some v → v.int = true → ∃ z : ℤ, a i = z) ↔
      ∀ o ∈ own, (S.var o).int = true → ∃ z : ℤ, a (idx o) = z := by
  constructor
  · intro h1 o ho hint
    obtain ⟨i, hl, rfl⟩ := List.mem_iff_getElem.1 ho
    rw [hi i _ (List.getElem?_eq_getElem hl)]
    apply h1 i (S.var own[i]) _ hint
    rw [h.vars, List.getElem?_map, List.getElem?_eq_getElem hl]
    rfl
  · intro h1 i v hv hint
    rw [h.vars, List.getElem?_map] at hv
    cases ho : own[i]? with
    | none => rw [ho] at hv; cases hv
    | some o =>
      rw [ho] at hv
      injection hv with hv
      rw [← hi i o ho]
      exact h1 o (List.mem_of_getElem? ho) (by rw [hv]; exact hint)

/-- Objective value in terms of the descriptions. -/
theorem ObjIs.value {f : O → ℚ} (h : ObjIs m own f) (hl : m.vars.length = own.length) (a : ℕ → ℚ) (idx : O → ℕ)
    (hi : ∀ i o, own[i]? = some o → idx o = i) : m.value a = (own.map (fun o => f o * a (idx o))).sum + m.offset := by
  unfold Model.value
  rw [h, hl, activity_idx own f a idx hi]

end Verif.MP
