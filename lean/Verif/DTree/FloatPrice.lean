import Verif.DTree.SubProps
import Verif.DTree.LinkProps
import Verif.Fl

/-!
# Pricing of the decision tree classifier with rounded arithmetic (C119)

`Verif.DTree.Sub` computes the objective of `DTreeSubProblemSat` and the test of `PathGenerator` with exact numbers. Python uses floats: the
product in `scale_obj_coeff`, the sums of `PathGenerator.on_solution_callback` and the literal `1e-6` are rounded. Here the rounding is a
parameter (`Fl.Rounding`; `Fl.nearestEven 53 (-1074)` is the one of Python).
-/

set_option linter.unusedSectionVars false
set_option linter.unusedSimpArgs false

namespace Verif.DTree

open MP Spec Fl

/-! ## The model -/

/-- `scale_obj_coeff`, `_dtree_classifier.py:1612-1613`: `int(round(value * 100000))`. The weights of the rows are Python integers, whose product
is exact; the other coefficients are floats. `round` of a float is exact. -/
def scaleR (rnd : ℚ → ℚ) : SV × ℚ → ℚ
  | (.z _, x) => pyRound (x * 100000)
  | (_, x) => pyRound (rnd (x * 100000))

/-- The objective with rounded coefficients, `_dtree_classifier.py:1686-1688`, `1762-1828`. -/
def SubConf.roundObj (rnd : ℚ → ℚ) (c : SubConf) (D : Duals) (st : SubSt) : SubSt :=
  { st with
    m := { st.m with
      obj := (c.objTerms D D.cut.length).foldl (fun f t => Function.update f (st.idx t.1) (scaleR rnd t)) (fun _ => 0) } }

/-- `create_submip` or `update_objective` of `DTreeSubProblemSat`, `_dtree_classifier.py:1615-1760`, `1762-1828`. -/
def SubConf.refreshR (rnd : ℚ → ℚ) (c : SubConf) (D : Duals) (st : SubSt) : Except Err SubSt :=
  match c.refresh D st with
  | .error e => .error e
  | .ok st1 => .ok (c.roundObj rnd D st1)

/-- `DTreeSubProblemSat.update_subproblem`, `_dtree_classifier.py:1858-1875`. -/
def SubConf.updateR (rnd : ℚ → ℚ) (c : SubConf) (D : Duals) (st : SubSt) : Except Err Unit × SubSt :=
  if D.newCuts.length = 0 then (.ok (), st)
  else
    match c.refreshR rnd D st with
    | .error e => (.error e, st)
    | .ok st1 => (.ok (), c.addCutRows D.newCuts st1)

/-- A running sum `for t in l: acc += t` of floats. -/
def flSum (rnd : ℚ → ℚ) (acc : ℚ) (l : List ℚ) : ℚ := l.foldl (fun a t => rnd (a + t)) acc

/-- `path_cost`, `_dtree_classifier.py:1534-1539`. -/
def SubConf.costR (rnd : ℚ → ℚ) (c : SubConf) (st : SubSt) (val : ℕ → ℚ) : ℚ :=
  flSum rnd 0 (c.kept.map (fun i => rnd (c.weight i * val (st.idx (.z i)))))

/-- `original_objective`, `_dtree_classifier.py:1533-1563`. -/
def SubConf.origObjectiveR (rnd : ℚ → ℚ) (c : SubConf) (D : Duals) (st : SubSt) (val : ℕ → ℚ) : ℚ :=
  let s1 := rnd (0 + c.costR rnd st val)
  let s2 := flSum rnd s1 (c.kept.map (fun i => rnd (st.orig (st.idx (.y i)) * val (st.idx (.y i)))))
  let s3 := flSum rnd s2 ((List.range st.cuts).map (fun k => rnd (st.orig (st.idx (.yc k)) * val (st.idx (.yc k)))))
  let s4 := flSum rnd s3 (c.leafNodes.flatMap (fun n => (c.cands n).map (fun s => rnd (st.orig (st.idx (.u n s)) * val (st.idx (.u n s))))))
  rnd (s4 - D.leaf.getD c.leaf.id 0)

/-- `PathGenerator.on_solution_callback`, `_dtree_classifier.py:1531-1587`. The literal `1e-6` is the rounded number. -/
def SubConf.callbackR (rnd : ℚ → ℚ) (c : SubConf) (D : Duals) (st : SubSt) (acc : List Path) (val : ℕ → ℚ) : List Path :=
  if c.origObjectiveR rnd D st val ≤ rnd (1 / 1000000) then acc else acc ++ [c.pathOf st val c.leafNodes (c.costR rnd st val)]

/-- `DTreeSubProblemSat.generate_columns`, `_dtree_classifier.py:1886-1918`. -/
def SubConf.generateSatR (rnd : ℚ → ℚ) (c : SubConf) (D : Duals) (sols : Model → List (ℕ → ℚ)) (st : SubSt) : Except Err (List Path) × SubSt :=
  match c.refreshR rnd D st with
  | .error e => (.error e, st)
  | .ok st1 => (.ok ((sols st1.m).foldl (c.callbackR rnd D st1) []), st1)

/-! ## What is claimed -/

/-- The states of a pricing problem after any sequence of calls with rounded arithmetic, with the cut rows it has received. -/
inductive Spec.SubReachedR (rnd : ℚ → ℚ) (c : SubConf) : List (List Bool) → SubSt → Prop
  | new : SubReachedR rnd c [] SubSt.new
  | update {cuts : List (List Bool)} {st st' : SubSt} (h : SubReachedR rnd c cuts st) (D : Duals)
      (hD : D.cut.length = cuts.length + D.newCuts.length) (hu : c.updateR rnd D st = (.ok (), st')) : SubReachedR rnd c (cuts ++ D.newCuts) st'
  | price {cuts : List (List Bool)} {st : SubSt} (h : SubReachedR rnd c cuts st) (D : Duals) (hD : D.cut.length = cuts.length)
      (sols : MP.Model → List (ℕ → ℚ)) : SubReachedR rnd c cuts (c.generateSatR rnd D sols st).2

/-- The duals that the pricing problem reads are floating point numbers. -/
structure Spec.FloatDuals (p : ℕ) (emin : ℤ) (d : ℕ) (c : SubConf) (D : Duals) : Prop where
  row : ∀ x ∈ D.row, Fl.Rep p emin x
  cut : ∀ x ∈ D.cut, Fl.Rep p emin x
  ns : ∀ k < d, ∀ s ∈ cand c.nodes (anc d c.leaf.id k), Fl.Rep p emin ((D.ns c.leaf.id (anc d c.leaf.id k) s).getD 0)
  leaf : ∀ x ∈ D.leaf, Fl.Rep p emin x

/-- The total weight of the kept rows. -/
noncomputable def Spec.keptWeight (c : SubConf) : ℚ := keptSum c (fun _ => True) (rowWeight c)

/-- The sum of the absolute values of all numbers in the objective of the pricing problem of a leaf. -/
noncomputable def Spec.magnitude (d : ℕ) (c : SubConf) (cuts : List (List Bool)) (D : Duals) : ℚ :=
  keptWeight c + keptSum c (fun _ => True) (fun i => |D.row.getD i 0|) + cutSum cuts.length (fun _ => True) (fun k => |D.cut.getD k 0|) +
    ((List.range d).map (fun k => ((cand c.nodes (anc d c.leaf.id k)).map (fun s => |(D.ns c.leaf.id (anc d c.leaf.id k) s).getD 0|)).sum)).sum +
    |D.leaf.getD c.leaf.id 0|

/-- Error of the comparison with `1e-6` for `n` objective terms with absolute sum `A`. -/
def Spec.evalSlack (u η : ℚ) (n : ℕ) (A : ℚ) : ℚ := 2 * (n + 1) * (u * A + η) + (u / 1000000 + η)

/-- Error made by optimising the scaled objective. -/
def Spec.scaleSlack (u η : ℚ) (n : ℕ) (A : ℚ) : ℚ := n / 100000 + 2 * (u * A + n * η / 100000)

/-! ## Rounded sums -/

theorem flSum_append (rnd : ℚ → ℚ) (a : ℚ) (l l' : List ℚ) : flSum rnd a (l ++ l') = flSum rnd (flSum rnd a l) l' := by
  unfold flSum
  rw [List.foldl_append]

theorem abs_sum_le (l : List ℚ) : |l.sum| ≤ (l.map (fun x => |x|)).sum := by
  induction l with
  | nil => simp
  | cons x l ih =>
    rw [List.sum_cons, List.map_cons, List.sum_cons]
    exact (abs_add_le _ _).trans (by linarith)

theorem sum_abs_nonneg (l : List ℚ) : 0 ≤ (l.map (fun x => |x|)).sum := (abs_nonneg _).trans (abs_sum_le l)

/-- The error of a running sum. -/
theorem flSum_error {rnd : ℚ → ℚ} {u η : ℚ} (ha : Accurate rnd u η) (hu : 0 ≤ u) (hη : 0 ≤ η) {A : ℚ} (acc : ℚ) (l : List ℚ)
    (hA : |acc| + (l.map (fun x => |x|)).sum ≤ A) (hn : 2 * (l.length : ℚ) * u ≤ 1) :
    |flSum rnd acc l - (acc + l.sum)| ≤ 2 * l.length * (u * A + η) := by
  induction l using List.reverseRecOn with
  | nil => simp [flSum]
  | append_singleton l t ih =>
    rw [List.map_append, List.sum_append] at hA
    simp only [List.map_cons, List.map_nil, List.sum_cons, List.sum_nil, add_zero] at hA
    rw [List.length_append, List.length_singleton] at hn ⊢
    push_cast at hn ⊢
    have hA0 : 0 ≤ A := by
      have := sum_abs_nonneg l
      have := abs_nonneg acc
      have := abs_nonneg t
      linarith
    have hb : 0 ≤ u * A + η := by positivity
    have h1 := ih (by have := abs_nonneg t; linarith) (by nlinarith)
    rw [flSum_append, List.sum_append]
    simp only [flSum, List.foldl_cons, List.foldl_nil, List.sum_cons, List.sum_nil, add_zero]
    change |rnd (flSum rnd acc l + t) - (acc + (l.sum + t))| ≤ _
    obtain ⟨S, hS⟩ : ∃ S, S = flSum rnd acc l := ⟨_, rfl⟩
    rw [← hS] at h1 ⊢
    have h2 := ha (S + t)
    have h3 : |S + t| ≤ A + 2 * l.length * (u * A + η) := by
      have e : S + t = (S - (acc + l.sum)) + (acc + (l.sum + t)) := by ring
      rw [e]
      refine (abs_add_le _ _).trans ?_
      have h4 : |acc + (l.sum + t)| ≤ A := by
        refine (abs_add_le _ _).trans ?_
        have := abs_add_le l.sum t
        have := abs_sum_le l
        linarith
      linarith
    have e : rnd (S + t) - (acc + (l.sum + t)) = (rnd (S + t) - (S + t)) + (S - (acc + l.sum)) := by ring
    rw [e]
    refine (abs_add_le _ _).trans ?_
    have h5 : u * |S + t| ≤ u * (A + 2 * l.length * (u * A + η)) := mul_le_mul_of_nonneg_left h3 hu
    have h6 : 2 * (l.length : ℚ) * u * (u * A + η) ≤ 1 * (u * A + η) := mul_le_mul_of_nonneg_right (by nlinarith) hb
    nlinarith

/-- Sums of natural numbers up to `2 ^ p` are exact. -/
theorem flSum_nat {p : ℕ} {emin : ℤ} (R : Rounding p emin) (hemin : emin ≤ 0) (l : List ℚ) (hl : ∀ x ∈ l, ∃ n : ℕ, x = n) (k : ℕ)
    (hs : (k : ℚ) + l.sum ≤ 2 ^ p) : flSum R.rnd k l = k + l.sum := by
  induction l generalizing k with
  | nil => simp [flSum]
  | cons x l ih =>
    obtain ⟨n, rfl⟩ := hl x (by simp)
    have hnn : 0 ≤ l.sum := by
      refine List.sum_nonneg ?_
      intro y hy
      obtain ⟨m, rfl⟩ := hl y (by simp [hy])
      positivity
    rw [List.sum_cons] at hs ⊢
    have e : R.rnd ((k : ℚ) + n) = ((k + n : ℕ) : ℚ) := by
      have h1 : ((k + n : ℕ) : ℚ) ≤ 2 ^ p := by push_cast; linarith
      have h2 : |((k + n : ℕ) : ℤ)| ≤ 2 ^ p := by
        rw [abs_of_nonneg (by positivity)]
        exact_mod_cast h1
      have := R.fix _ (rep_int hemin h2)
      push_cast at this ⊢
      exact this
    have := ih (fun y hy => hl y (by simp [hy])) (k + n) (by push_cast; linarith)
    unfold flSum at this ⊢
    rw [List.foldl_cons, e, this]
    push_cast
    ring

/-! ## Without rounding -/

theorem scaleR_id (t : SV × ℚ) : scaleR id t = scaleObj t.2 := by
  obtain ⟨o, x⟩ := t
  cases o <;> rfl

theorem roundObj_set {c : SubConf} (hk : c.kind = .sat) (D : Duals) (st : SubSt) : c.roundObj id D (c.setObjective D st) = c.setObjective D st := by
  unfold SubConf.roundObj
  have e : (c.objTerms D D.cut.length).foldl (fun f t => Function.update f ((c.setObjective D st).idx t.1) (scaleR id t)) (fun _ => 0) =
      (c.setObjective D st).m.obj := by
    unfold SubConf.setObjective
    simp only [hk, if_true, List.foldl_map, scaleR_id]
    rfl
  rw [e]

theorem refreshR_id {c : SubConf} (hk : c.kind = .sat) (D : Duals) (st : SubSt) : c.refreshR id D st = c.refresh D st := by
  unfold SubConf.refreshR SubConf.refresh
  by_cases hl : c.leaf.id < D.leaf.length
  · rw [if_pos hl]
    simp only [Except.ok.injEq]
    split_ifs
    · exact roundObj_set hk D _
    · unfold SubConf.create
      simp only
      obtain ⟨s3, hs3⟩ : ∃ s3, s3 = (if c.isOld then
          (((((st.newVars c.rowVars).newVars ((List.range D.cut.length).map .yc)).newVars c.splitVars).addLins c.oneSplit).addLins
            (c.kept.flatMap (fun i => c.follow (c.rowSatisfiesSplit i) (.y i))))
        else ((((((((st.newVars c.rowVars).newVars ((List.range D.cut.length).map .yc)).newVars c.splitVars).addLins c.oneSplit).addLins
            (c.kept.flatMap (fun i => c.follow (c.rowSatisfiesSplit i) (.y i))))).newVars ((List.range c.targets.length).map .w)).addLin
              c.single).addLins c.zCons) := ⟨_, rfl⟩
      rw [← hs3]
      have := roundObj_set hk D s3
      unfold SubConf.roundObj at this ⊢
      have h2 := congrArg SubSt.m this
      have h3 := congrArg Model.obj h2
      simp only at h3
      exact congrArg (fun f => { c.setObjective D s3 with
        m := { (c.setObjective D s3).m with obj := f }
        generated := true
        cuts := D.cut.length }) h3
  · rw [if_neg hl]

theorem flSum_id (a : ℚ) (l : List ℚ) : flSum id a l = a + l.sum := by
  induction l generalizing a with
  | nil => simp [flSum]
  | cons x l ih =>
    have := ih (a + x)
    unfold flSum at this ⊢
    rw [List.foldl_cons, id_eq, this, List.sum_cons]
    ring

/-- **C119**, without rounding the model is the exact one of `Verif.DTree.Sub`. -/
theorem C119_exact {c : SubConf} (hk : c.kind = .sat) (D : Duals) (sols : Model → List (ℕ → ℚ)) (st : SubSt) :
    c.generateSatR id D sols st = c.generateSat D sols st ∧ c.updateR id D st = c.update D st := by
  have hcost : ∀ s a, c.costR id s a = c.costOf s a := by
    intro s a
    unfold SubConf.costR SubConf.costOf
    rw [flSum_id, hk]
    simp
  have horig : ∀ s a, c.origObjectiveR id D s a = c.origObjective D s a := by
    intro s a
    unfold SubConf.origObjectiveR SubConf.origObjective
    simp only [flSum_id, hcost, id_eq, zero_add]
    have e := sum_flatMap_map c.leafNodes (fun n => (c.cands n).map (fun t => s.orig (s.idx (.u n t)) * a (s.idx (.u n t)))) (fun x => x)
    simp only [List.map_id'] at e
    rw [e]
  have hcb : ∀ s, c.callbackR id D s = c.callback D s := by
    intro s
    funext acc a
    unfold SubConf.callbackR SubConf.callback
    rw [horig, hcost]
    rfl
  constructor
  · unfold SubConf.generateSatR SubConf.generateSat
    rw [refreshR_id hk]
    simp only [hcb]
    cases c.refresh D st <;> rfl
  · unfold SubConf.updateR SubConf.update
    rw [refreshR_id hk]
    by_cases h0 : D.newCuts.length = 0
    · rw [if_pos h0, if_pos ⟨hk, h0⟩]
    · rw [if_neg h0, if_neg (fun h => h0 h.2)]
      have : D.newCuts.length > 0 := Nat.pos_of_ne_zero h0
      simp only [if_pos this]
      cases c.refresh D st <;> rfl

/-! ## The states -/

theorem coeffOf_key {ts : List (ℕ × ℚ)} {v : ℕ} (h : coeffOf ts v ≠ 0) : v ∈ ts.map (·.1) := by
  by_contra hc
  exact h (coeffOf_of_not_mem _ _ hc)

theorem roundObj_obj (rnd : ℚ → ℚ) (c : SubConf) (D : Duals) (st : SubSt) :
    (c.roundObj rnd D st).m.obj = coeffOf (((c.objTerms D D.cut.length).map (fun t => (t.1, scaleR rnd t))).map (fun t => (st.idx t.1, t.2))) := by
  unfold SubConf.roundObj coeffOf
  rw [List.foldl_map, List.foldl_map]

theorem objTerms_own {c : SubConf} {D : Duals} {own : List SV} (hv : own.Perm (c.allVars D.cut.length)) {t : SV × ℚ}
    (ht : t ∈ c.objTerms D D.cut.length) : t.1 ∈ own := by
  rw [hv.mem_iff]
  unfold SubConf.allVars
  rw [← objTerms_keys c D]
  exact List.mem_append_left _ (List.mem_map.2 ⟨t, ht, rfl⟩)

/-- Rounding the objective keeps the invariant. -/
theorem roundObj_inv {d : ℕ} {c : SubConf} (h : SubOk d c) (rnd : ℚ → ℚ) {D : Duals} {cuts : List (List Bool)} {own : List SV}
    {lins : List Lin} {st : SubSt} (hi : SubInv c D.cut.length cuts own lins st) :
    SubInv c D.cut.length cuts own lins (c.roundObj rnd D st) := by
  refine ⟨hi.gen, hi.rep.of_eq rfl rfl rfl, hi.vars, hi.lins, hi.ncuts, hi.start, ?_⟩
  intro v hv
  rw [roundObj_obj] at hv
  have hin := coeffOf_key hv
  simp only [List.map_map, List.mem_map, Function.comp_def] at hin
  obtain ⟨t, ht, rfl⟩ := hin
  refine ⟨t.1, (hi.rep.idx _ _).2 (hi.rep.get (objTerms_own hi.vars ht)).1, ?_⟩
  intro w hw
  have hk : t.1 ∈ (c.objTerms D D.cut.length).map (·.1) := List.mem_map.2 ⟨t, ht, rfl⟩
  rw [objTerms_keys, hw] at hk
  rcases List.mem_append.1 hk with hk | hk
  · rcases List.mem_append.1 hk with hk | hk
    · rw [mem_rowVars] at hk; simp at hk
    · simp at hk
  · rw [mem_splitVars] at hk; simp at hk

/-- The objective value with the rounded coefficients. -/
theorem roundObj_value {d : ℕ} {c : SubConf} (h : SubOk d c) (rnd : ℚ → ℚ) {D : Duals} {cuts : List (List Bool)} {own : List SV}
    {lins : List Lin} {st : SubSt} (hi : SubInv c D.cut.length cuts own lins st) (ho : SubObj c D st) (a : ℕ → ℚ) :
    (c.roundObj rnd D st).m.value a =
      ((c.objTerms D D.cut.length).map (fun t => scaleR rnd t * a (st.idx t.1))).sum - D.leaf.getD c.leaf.id 0 := by
  unfold Model.value
  rw [roundObj_obj]
  have hoff : (c.roundObj rnd D st).m.offset = -D.leaf.getD c.leaf.id 0 := ho.offset
  have hvars : (c.roundObj rnd D st).m.vars = st.m.vars := rfl
  rw [hoff, hvars, activity_terms hi.rep]
  · rw [List.map_map]
    simp only [Function.comp_def]
    ring
  · intro t ht
    obtain ⟨t, ht1, rfl⟩ := List.mem_map.1 ht
    have := objTerms_own hi.vars ht1
    exact this
  · rw [List.map_map]
    have : ((fun x : SV × ℚ => x.1) ∘ fun t : SV × ℚ => (t.1, scaleR rnd t)) = fun t : SV × ℚ => t.1 := rfl
    rw [this, objTerms_keys]
    exact (List.nodup_append'.1 (allVars_nodup h D.cut.length)).1

theorem refreshR_inv {d : ℕ} {c : SubConf} (h : SubOk d c) {rnd : ℚ → ℚ} {D : Duals} {cuts : List (List Bool)} {st st' : SubSt}
    (hs : SubState c cuts st) (hle : cuts.length ≤ D.cut.length) (hr : c.refreshR rnd D st = .ok st') :
    ∃ st1 own lins, st' = c.roundObj rnd D st1 ∧ SubInv c D.cut.length cuts own lins st1 ∧ SubObj c D st1 ∧
      SubInv c D.cut.length cuts own lins st' := by
  unfold SubConf.refreshR at hr
  rcases hrf : c.refresh D st with e | st1
  · rw [hrf] at hr; simp at hr
  · rw [hrf] at hr
    simp only [Except.ok.injEq] at hr
    obtain ⟨-, own, lins, hi, ho⟩ := refresh_inv h hs hle hrf
    exact ⟨st1, own, lins, hr.symm, hi, ho, by rw [← hr]; exact roundObj_inv h rnd hi⟩

theorem Spec.SubReachedR.state {d : ℕ} {c : SubConf} (h : SubOk d c) {rnd : ℚ → ℚ} {cuts : List (List Bool)} {st : SubSt}
    (hr : SubReachedR rnd c cuts st) : SubState c cuts st := by
  induction hr with
  | new => exact Or.inl ⟨rfl, rfl⟩
  | update _ D hD hu ih =>
    rename_i cuts st st' _
    unfold SubConf.updateR at hu
    by_cases hc : D.newCuts.length = 0
    · rw [if_pos hc] at hu
      simp only [Prod.mk.injEq, true_and] at hu
      subst hu
      rw [List.length_eq_zero_iff.1 hc, List.append_nil]
      exact ih
    · rw [if_neg hc] at hu
      rcases hrf : c.refreshR rnd D st with e | st1
      · rw [hrf] at hu; simp at hu
      · rw [hrf] at hu
        simp only [Prod.mk.injEq, true_and] at hu
        subst hu
        obtain ⟨-, own, lins, -, -, -, hi⟩ := refreshR_inv h ih (by omega) hrf
        obtain ⟨lins', hi', -⟩ := addCutRows_inv h hi (rows := D.newCuts) (by omega)
        rw [show D.cut.length = (cuts ++ D.newCuts).length by rw [List.length_append]; exact hD] at hi'
        exact Or.inr ⟨own, lins', hi'⟩
  | price _ D hD sols ih =>
    rename_i cuts st _
    unfold SubConf.generateSatR
    rcases hrf : c.refreshR rnd D st with e | st1
    · exact ih
    · obtain ⟨-, own, lins, -, -, -, hi⟩ := refreshR_inv h ih (by omega) hrf
      rw [hD] at hi
      exact Or.inr ⟨own, lins, hi⟩

theorem callbackR_mem (rnd : ℚ → ℚ) (c : SubConf) (D : Duals) (st : SubSt) (sols : List (ℕ → ℚ)) (acc : List Path) (p : Path) :
    p ∈ sols.foldl (c.callbackR rnd D st) acc ↔
      p ∈ acc ∨ ∃ a ∈ sols, c.origObjectiveR rnd D st a > rnd (1 / 1000000) ∧ p = c.pathOf st a c.leafNodes (c.costR rnd st a) := by
  induction sols generalizing acc with
  | nil => simp
  | cons a l ih =>
    rw [List.foldl_cons, ih]
    unfold SubConf.callbackR
    by_cases hle : c.origObjectiveR rnd D st a ≤ rnd (1 / 1000000)
    · rw [if_pos hle]
      constructor
      · rintro (hp | ⟨b, hb, h1, h2⟩)
        · exact Or.inl hp
        · exact Or.inr ⟨b, by simp [hb], h1, h2⟩
      · rintro (hp | ⟨b, hb, h1, h2⟩)
        · exact Or.inl hp
        · rcases List.mem_cons.1 hb with rfl | hb
          · exact absurd hle (not_le.2 h1)
          · exact Or.inr ⟨b, hb, h1, h2⟩
    · rw [if_neg hle]
      rw [not_le] at hle
      constructor
      · rintro (hp | ⟨b, hb, h1, h2⟩)
        · rcases List.mem_append.1 hp with hp | hp
          · exact Or.inl hp
          · exact Or.inr ⟨a, by simp, hle, by simpa using hp⟩
        · exact Or.inr ⟨b, by simp [hb], h1, h2⟩
      · rintro (hp | ⟨b, hb, h1, h2⟩)
        · exact Or.inl (by simp [hp])
        · rcases List.mem_cons.1 hb with rfl | hb
          · exact Or.inl (by simp [h2])
          · exact Or.inr ⟨b, hb, h1, h2⟩

/-! ## The values -/

theorem keptWeight_eq (c : SubConf) : keptWeight c = (c.kept.map (fun i => c.weight i)).sum := by
  unfold keptWeight
  rw [keptSum_eq]
  simp only [if_true, weight_eq]

theorem magnitude_eq {d : ℕ} {c : SubConf} (h : SubOk d c) (hk : c.kind = .sat) (cuts : List (List Bool)) (D : Duals) :
    magnitude d c cuts D = ((c.objTerms D cuts.length).map (fun t => |t.2|)).sum + |D.leaf.getD c.leaf.id 0| := by
  unfold magnitude SubConf.objTerms
  rw [hk, keptWeight_eq, keptSum_eq, List.map_append, List.map_append, List.sum_append, List.sum_append, sum_flatMap_map, sum_flatMap_map]
  congr 1
  congr 1
  · congr 1
    · simp only [if_true, List.map_cons, List.map_nil, List.sum_cons, List.sum_nil, add_zero, abs_neg]
      rw [List.sum_map_add]
      congr 1
      refine congrArg List.sum (List.map_congr_left ?_)
      intro i _
      rw [weight_eq, abs_of_nonneg (rowWeight_nonneg c i)]
    · unfold cutSum
      simp only [if_true, List.map_map, Function.comp_def, abs_neg]
  · have e := ((h.leafNodes_perm).map (fun n => ((c.cands n).map (fun s => |(D.ns c.leaf.id n s).getD 0|)).sum)).sum_eq
    simp only [List.map_map, Function.comp_def, abs_neg]
    rw [e, List.map_map]
    simp only [Function.comp_def, c.cands_eq]

theorem weight_nat (c : SubConf) (i : ℕ) : ∃ n : ℕ, c.weight i = n := by
  rw [weight_eq]
  unfold rowWeight
  cases c.dataRows with
  | none => exact ⟨1, by simp⟩
  | some rows => exact ⟨_, rfl⟩

theorem sum_le_of_le {α : Type*} (l : List α) (f g : α → ℚ) (hg : ∀ x ∈ l, 0 ≤ g x) (x : α) (hx : x ∈ l) (h : f x ≤ g x) : f x ≤ (l.map g).sum := by
  refine h.trans (List.single_le_sum ?_ _ (List.mem_map.2 ⟨x, hx, rfl⟩))
  intro y hy
  obtain ⟨z, hz, rfl⟩ := List.mem_map.1 hy
  exact hg z hz

section

variable {p : ℕ} {emin : ℤ} (R : Rounding p emin)

theorem rep_getD {l : List ℚ} (h : ∀ x ∈ l, Fl.Rep p emin x) (i : ℕ) : Fl.Rep p emin (l.getD i 0) := by
  rw [List.getD_eq_getElem?_getD]
  rcases hx : l[i]? with _ | x
  · exact rep_zero
  · exact h x (List.mem_of_getElem? hx)

/-- The cost of a path is computed exactly. -/
theorem costR_eq (hemin : emin ≤ 0) {c : SubConf} (hk : c.kind = .sat) (hw : keptWeight c ≤ 2 ^ p) {st : SubSt} {a : ℕ → ℚ}
    (hz : ∀ i ∈ c.kept, a (st.idx (.z i)) = 0 ∨ a (st.idx (.z i)) = 1) : c.costR R.rnd st a = c.costOf st a := by
  rw [keptWeight_eq] at hw
  have hw0 : ∀ i, 0 ≤ c.weight i := fun i => by rw [weight_eq]; exact rowWeight_nonneg c i
  have hnat : ∀ i ∈ c.kept, ∃ n : ℕ, c.weight i * a (st.idx (.z i)) = n := by
    intro i hi
    obtain ⟨n, hn⟩ := weight_nat c i
    rcases hz i hi with e | e
    · exact ⟨0, by rw [e]; simp⟩
    · exact ⟨n, by rw [e, hn]; simp⟩
  have hle : ∀ i ∈ c.kept, c.weight i * a (st.idx (.z i)) ≤ c.weight i := by
    intro i hi
    rcases hz i hi with e | e
    · rw [e, mul_zero]; exact hw0 i
    · rw [e, mul_one]
  have hsum := sum_le_sum' c.kept _ _ hle
  have hr : c.kept.map (fun i => R.rnd (c.weight i * a (st.idx (.z i)))) = c.kept.map (fun i => c.weight i * a (st.idx (.z i))) := by
    refine List.map_congr_left ?_
    intro i hi
    obtain ⟨n, hn⟩ := hnat i hi
    have h1 := sum_le_of_le c.kept (fun i => c.weight i * a (st.idx (.z i))) (fun i => c.weight i) (fun i _ => hw0 i) i hi (hle i hi)
    have h2 : |((n : ℕ) : ℤ)| ≤ 2 ^ p := by
      rw [abs_of_nonneg (by positivity)]
      have : (n : ℚ) ≤ 2 ^ p := by rw [← hn]; exact h1.trans hw
      exact_mod_cast this
    have := R.fix _ (rep_int hemin h2)
    rw [hn]
    exact_mod_cast this
  unfold SubConf.costR
  rw [hr]
  have := flSum_nat R hemin (c.kept.map (fun i => c.weight i * a (st.idx (.z i)))) (by
    intro x hx
    obtain ⟨i, hi, rfl⟩ := List.mem_map.1 hx
    exact hnat i hi) 0 (by push_cast; linarith)
  rw [Nat.cast_zero, zero_add] at this
  rw [this]
  unfold SubConf.costOf
  rw [hk]

/-- The summands of `original_objective` after the cost. -/
def origTerms (c : SubConf) (D : Duals) (st : SubSt) (a : ℕ → ℚ) : List ℚ :=
  c.kept.map (fun i => -D.row.getD i 0 * a (st.idx (.y i))) ++ (List.range D.cut.length).map (fun k => -D.cut.getD k 0 * a (st.idx (.yc k))) ++
    c.leafNodes.flatMap (fun n => (c.cands n).map (fun s => -(D.ns c.leaf.id n s).getD 0 * a (st.idx (.u n s)))) ++ [-D.leaf.getD c.leaf.id 0]

theorem costOf_abs {c : SubConf} (hk : c.kind = .sat) {st : SubSt} {a : ℕ → ℚ}
    (hz : ∀ i ∈ c.kept, a (st.idx (.z i)) = 0 ∨ a (st.idx (.z i)) = 1) : 0 ≤ c.costOf st a ∧ c.costOf st a ≤ (c.kept.map (fun i => c.weight i)).sum := by
  have hw0 : ∀ i, 0 ≤ c.weight i := fun i => by rw [weight_eq]; exact rowWeight_nonneg c i
  unfold SubConf.costOf
  rw [hk]
  constructor
  · refine List.sum_nonneg ?_
    intro x hx
    obtain ⟨i, hi, rfl⟩ := List.mem_map.1 hx
    rcases hz i hi with e | e
    · simp only [e, mul_zero]; exact le_rfl
    · simp only [e, mul_one]; exact hw0 i
  · refine sum_le_sum' _ _ _ ?_
    intro i hi
    rcases hz i hi with e | e
    · rw [e, mul_zero]; exact hw0 i
    · rw [e, mul_one]

/-- The error of `original_objective`. -/
theorem origR_error (hemin : emin ≤ 0) {u η : ℚ} (ha : Accurate R.rnd u η) (hu : 0 ≤ u) (hη : 0 ≤ η) {d : ℕ} {c : SubConf} (h : SubOk d c)
    (hk : c.kind = .sat) (hw : keptWeight c ≤ 2 ^ p) {D : Duals} {cuts : List (List Bool)} (hD : D.cut.length = cuts.length)
    (hf : FloatDuals p emin d c D) (hn : 2 * ((numTerms d c cuts : ℚ) + 1) * u ≤ 1) {st : SubSt} (ho : SubObj c D st)
    (hcuts : st.cuts = D.cut.length) {a : ℕ → ℚ} (hb : ∀ o ∈ c.allVars D.cut.length, a (st.idx o) = 0 ∨ a (st.idx o) = 1) :
    |c.origObjectiveR R.rnd D st a - c.origObjective D st a| ≤ 2 * (numTerms d c cuts + 1) * (u * magnitude d c cuts D + η) := by
  have hold : c.isOld = false := by unfold SubConf.isOld; rw [hk]
  have hterm : ∀ t ∈ c.objTerms D D.cut.length, a (st.idx t.1) = 0 ∨ a (st.idx t.1) = 1 := fun t ht => hb _ (objTerms_own (List.Perm.refl _) ht)
  have hz : ∀ i ∈ c.kept, a (st.idx (.z i)) = 0 ∨ a (st.idx (.z i)) = 1 := fun i hi =>
    hb _ ((mem_allVars c _ _).2 (Or.inl ((mem_rowVars c _).2 (Or.inr ⟨hold, i, (mem_kept c i).1 hi, rfl⟩))))
  have hy : ∀ i ∈ c.kept, a (st.idx (.y i)) = 0 ∨ a (st.idx (.y i)) = 1 := fun i hi =>
    hb _ ((mem_allVars c _ _).2 (Or.inl ((mem_rowVars c _).2 (Or.inl ⟨i, (mem_kept c i).1 hi, rfl⟩))))
  have hyc : ∀ k < D.cut.length, a (st.idx (.yc k)) = 0 ∨ a (st.idx (.yc k)) = 1 := fun k hk =>
    hb _ ((mem_allVars c _ _).2 (Or.inr (Or.inl ⟨k, hk, rfl⟩)))
  have hus : ∀ n ∈ c.leafNodes, ∀ s ∈ c.cands n, a (st.idx (.u n s)) = 0 ∨ a (st.idx (.u n s)) = 1 := fun n hn s hs =>
    hb _ ((mem_allVars c _ _).2 (Or.inr (Or.inr (Or.inl ((mem_splitVars c _).2 ⟨n, hn, s, hs, rfl⟩)))))
  have fixm : ∀ x v : ℚ, Fl.Rep p emin x → v = 0 ∨ v = 1 → R.rnd (-x * v) = -x * v := by
    intro x v hx hv
    refine R.fix _ ?_
    rcases hv with e | e
    · rw [e, mul_zero]; exact rep_zero
    · rw [e, mul_one]; exact hx.neg
  have r1 : c.kept.map (fun i => R.rnd (st.orig (st.idx (.y i)) * a (st.idx (.y i)))) = c.kept.map (fun i => -D.row.getD i 0 * a (st.idx (.y i))) := by
    refine List.map_congr_left ?_
    intro i hi
    have := ho.orig (SV.y i, -D.row.getD i 0) (by
      unfold SubConf.objTerms
      refine List.mem_append_left _ (List.mem_append_left _ (List.mem_flatMap.2 ⟨i, hi, ?_⟩))
      rw [hk]; simp)
    simp only at this
    rw [this, fixm _ _ (rep_getD hf.row i) (hy i hi)]
  have r2 : (List.range D.cut.length).map (fun k => R.rnd (st.orig (st.idx (.yc k)) * a (st.idx (.yc k)))) =
      (List.range D.cut.length).map (fun k => -D.cut.getD k 0 * a (st.idx (.yc k))) := by
    refine List.map_congr_left ?_
    intro k hk'
    have := ho.orig (SV.yc k, -D.cut.getD k 0) (by
      unfold SubConf.objTerms
      exact List.mem_append_left _ (List.mem_append_right _ (List.mem_map.2 ⟨k, hk', rfl⟩)))
    simp only at this
    rw [this, fixm _ _ (rep_getD hf.cut k) (hyc k (List.mem_range.1 hk'))]
  have r3 : c.leafNodes.flatMap (fun n => (c.cands n).map (fun s => R.rnd (st.orig (st.idx (.u n s)) * a (st.idx (.u n s))))) =
      c.leafNodes.flatMap (fun n => (c.cands n).map (fun s => -(D.ns c.leaf.id n s).getD 0 * a (st.idx (.u n s)))) := by
    refine List.flatMap_congr ?_
    intro n hn
    refine List.map_congr_left ?_
    intro s hs
    have := ho.orig (SV.u n s, -(D.ns c.leaf.id n s).getD 0) (by
      unfold SubConf.objTerms
      exact List.mem_append_right _ (List.mem_flatMap.2 ⟨n, hn, List.mem_map.2 ⟨s, hs, rfl⟩⟩))
    simp only at this
    have hrep : Fl.Rep p emin ((D.ns c.leaf.id n s).getD 0) := by
      obtain ⟨k, hk, rfl⟩ := (h.mem_leafNodes n).1 hn
      exact hf.ns k hk s (by rw [← c.cands_eq]; exact hs)
    rw [this, fixm _ _ hrep (hus n hn s hs)]
  have hcost := costR_eq R hemin hk hw hz
  have hfix : R.rnd (0 + c.costOf st a) = c.costOf st a := by
    have hb := (costOf_abs hk hz).2.trans ((keptWeight_eq c).symm.le.trans hw)
    have hnat : ∃ n : ℕ, c.costOf st a = n := by
      unfold SubConf.costOf
      rw [hk]
      simp only
      have : ∀ l : List ℕ, (∀ i ∈ l, i ∈ c.kept) → ∃ n : ℕ, (l.map (fun i => c.weight i * a (st.idx (.z i)))).sum = n := by
        intro l
        induction l with
        | nil => exact fun _ => ⟨0, by simp⟩
        | cons i l ih =>
          intro hl
          obtain ⟨m, hm⟩ := ih (fun j hj => hl j (by simp [hj]))
          obtain ⟨n, hn⟩ := weight_nat c i
          rcases hz i (hl i (by simp)) with e | e
          · exact ⟨m, by rw [List.map_cons, List.sum_cons, hm, e]; simp⟩
          · exact ⟨n + m, by rw [List.map_cons, List.sum_cons, hm, e, hn]; push_cast; ring⟩
      exact this c.kept (fun _ h => h)
    obtain ⟨n, hn⟩ := hnat
    rw [zero_add, hn]
    rw [hn] at hb
    have h2 : |((n : ℕ) : ℤ)| ≤ 2 ^ p := by
      rw [abs_of_nonneg (by positivity)]
      exact_mod_cast hb
    exact_mod_cast R.fix _ (rep_int hemin h2)
  have key : c.origObjectiveR R.rnd D st a = flSum R.rnd (c.costOf st a) (origTerms c D st a) := by
    unfold SubConf.origObjectiveR origTerms
    simp only
    rw [hcuts, r1, r2, r3, hcost, hfix, flSum_append, flSum_append, flSum_append]
    simp only [flSum, List.foldl_cons, List.foldl_nil]
    rw [sub_eq_add_neg]
  have hexact : c.origObjective D st a = c.costOf st a + (origTerms c D st a).sum := by
    rw [origObjective_eq ho hk hcuts, objTerms_sum]
    unfold origTerms
    rw [List.sum_append, List.sum_append, List.sum_append]
    have e := sum_flatMap_map c.leafNodes (fun n => (c.cands n).map (fun s => -(D.ns c.leaf.id n s).getD 0 * a (st.idx (.u n s)))) (fun x => x)
    simp only [List.map_id'] at e
    rw [e]
    simp only [List.sum_cons, List.sum_nil]
    ring
  have hmag : |c.costOf st a| + ((origTerms c D st a).map (fun x => |x|)).sum ≤ magnitude d c cuts D := by
    have habs : ∀ x v : ℚ, v = 0 ∨ v = 1 → |(-x) * v| ≤ |x| := by
      intro x v hv
      rcases hv with e | e
      · rw [e, mul_zero, abs_zero]; exact abs_nonneg x
      · rw [e, mul_one, abs_neg]
    obtain ⟨c1, c2⟩ := costOf_abs hk hz
    rw [abs_of_nonneg c1]
    unfold magnitude origTerms
    rw [keptWeight_eq, keptSum_eq, List.map_append, List.map_append, List.map_append, List.sum_append, List.sum_append, List.sum_append, sum_flatMap_map]
    simp only [if_true, List.map_map, Function.comp_def, List.map_cons, List.map_nil, List.sum_cons, List.sum_nil, add_zero, abs_neg]
    have s1 := sum_le_sum' c.kept (fun i => |-D.row.getD i 0 * a (st.idx (.y i))|) (fun i => |D.row.getD i 0|) (fun i hi => habs _ _ (hy i hi))
    have s2 := sum_le_sum' (List.range D.cut.length) (fun k => |-D.cut.getD k 0 * a (st.idx (.yc k))|) (fun k => |D.cut.getD k 0|)
      (fun k hk => habs _ _ (hyc k (List.mem_range.1 hk)))
    have s3 := sum_le_sum' c.leafNodes (fun n => ((c.cands n).map (fun s => |-(D.ns c.leaf.id n s).getD 0 * a (st.idx (.u n s))|)).sum)
      (fun n => ((c.cands n).map (fun s => |(D.ns c.leaf.id n s).getD 0|)).sum)
      (fun n hn => sum_le_sum' _ _ _ (fun s hs => habs _ _ (hus n hn s hs)))
    have e := ((h.leafNodes_perm).map (fun n => ((c.cands n).map (fun s => |(D.ns c.leaf.id n s).getD 0|)).sum)).sum_eq
    rw [e, List.map_map] at s3
    simp only [Function.comp_def, c.cands_eq] at s3
    have s4 : cutSum cuts.length (fun _ => True) (fun k => |D.cut.getD k 0|) = ((List.range D.cut.length).map (fun k => |D.cut.getD k 0|)).sum := by
      unfold cutSum
      rw [hD]
      simp only [if_true]
    rw [s4]
    simp only [c.cands_eq]
    linarith
  have hlen : ((origTerms c D st a).length : ℚ) ≤ numTerms d c cuts + 1 := by
    have h1 : (origTerms c D st a).length ≤ numTerms d c cuts + 1 := by
      rw [← objTerms_length h D cuts hold, ← hD]
      have e : (c.objTerms D D.cut.length).length = ((c.objTerms D D.cut.length).map (·.1)).length := by simp
      rw [e, objTerms_keys]
      unfold origTerms SubConf.rowVars SubConf.splitVars
      rw [hold]
      simp only [List.length_append, List.length_flatMap, List.length_map, List.length_range, List.length_singleton]
      have e1 : (c.kept.map (fun i => (if false = true then [SV.y i] else [SV.z i, SV.y i]).length)).sum = 2 * c.kept.length := by
        show (c.kept.map (fun _ => 2)).sum = 2 * c.kept.length
        simp
        ring
      rw [e1]
      omega
    exact_mod_cast h1
  have hm0 : 0 ≤ magnitude d c cuts D := by
    have := abs_nonneg (c.costOf st a)
    have := sum_abs_nonneg (origTerms c D st a)
    linarith
  have herr := flSum_error ha hu hη (c.costOf st a) (origTerms c D st a) hmag (by nlinarith)
  rw [key, hexact]
  refine herr.trans ?_
  have : 0 ≤ u * magnitude d c cuts D + η := by positivity
  nlinarith

theorem scaleR_err {u η : ℚ} (ha : Accurate R.rnd u η) (hu : 0 ≤ u) (hη : 0 ≤ η) (t : SV × ℚ) :
    |scaleR R.rnd t - t.2 * 100000| ≤ 1 / 2 + (u * (100000 * |t.2|) + η) := by
  obtain ⟨o, x⟩ := t
  have h0 : 0 ≤ u * (100000 * |x|) + η := by positivity
  have gen : |(pyRound (R.rnd (x * 100000)) : ℚ) - x * 100000| ≤ 1 / 2 + (u * (100000 * |x|) + η) := by
    have h1 := pyRound_err (R.rnd (x * 100000))
    have h2 := ha (x * 100000)
    rw [abs_mul, abs_of_nonneg (show (0 : ℚ) ≤ 100000 by norm_num)] at h2
    have e : (pyRound (R.rnd (x * 100000)) : ℚ) - x * 100000 =
      ((pyRound (R.rnd (x * 100000)) : ℚ) - R.rnd (x * 100000)) + (R.rnd (x * 100000) - x * 100000) := by ring
    rw [e]
    refine (abs_add_le _ _).trans ?_
    rw [mul_comm 100000 |x|]
    linarith
  cases o with
  | z i =>
    have := pyRound_err (x * 100000)
    show |(pyRound (x * 100000) : ℚ) - x * 100000| ≤ _
    linarith
  | y i => exact gen
  | yc k => exact gen
  | u n s => exact gen
  | w k => exact gen

/-- Scaling and rounding the coefficients of a 0/1 point. -/
theorem scaledR_sum {u η : ℚ} (ha : Accurate R.rnd u η) (hu : 0 ≤ u) (hη : 0 ≤ η) (l : List (SV × ℚ)) (x : SV × ℚ → ℚ)
    (hx : ∀ t ∈ l, x t = 0 ∨ x t = 1) :
    |(l.map (fun t => scaleR R.rnd t * x t)).sum - 100000 * (l.map (fun t => t.2 * x t)).sum| ≤
      l.length / 2 + (u * (100000 * (l.map (fun t => |t.2|)).sum) + l.length * η) := by
  induction l with
  | nil => simp
  | cons t l ih =>
    have h1 := ih (fun s hs => hx s (by simp [hs]))
    have h2 : |scaleR R.rnd t * x t - 100000 * (t.2 * x t)| ≤ 1 / 2 + (u * (100000 * |t.2|) + η) := by
      have h3 := scaleR_err R ha hu hη t
      rcases hx t (by simp) with e | e
      · rw [e]
        have : 0 ≤ u * (100000 * |t.2|) + η := by positivity
        simp only [mul_zero, sub_self, abs_zero]
        linarith
      · rw [e, mul_one, mul_one, mul_comm 100000 t.2]
        exact h3
    simp only [List.map_cons, List.sum_cons, List.length_cons]
    push_cast
    rw [abs_le] at h1 h2 ⊢
    constructor <;> linarith [h1.1, h1.2, h2.1, h2.2]

/-! ## Theorems -/

/-- **C119**, soundness: every path returned with rounded arithmetic is a path of the leaf over candidate splits with one of the classes as target,
its cost is exact and at most its weighted number of hits, and its reduced cost is above `1e-6` minus the error of the sums. -/
theorem C119_sound (hemin : emin ≤ 0) {u η : ℚ} (ha : Accurate R.rnd u η) (hu : 0 ≤ u) (hη : 0 ≤ η) {d : ℕ} {c : SubConf} (h : SubOk d c)
    (hk : c.kind = .sat) (hw : keptWeight c ≤ 2 ^ p) {cuts : List (List Bool)} {st st' : SubSt} (hr : SubReachedR R.rnd c cuts st) {D : Duals}
    (hD : D.cut.length = cuts.length) (hf : FloatDuals p emin d c D) (hn : 2 * ((numTerms d c cuts : ℚ) + 1) * u ≤ 1)
    {sols : Model → List (ℕ → ℚ)} {ps : List Path} (hgen : c.generateSatR R.rnd D sols st = (.ok ps, st'))
    (hs : ∀ a ∈ sols st'.m, st'.m.Feasible a) :
    ∀ q ∈ ps, CandPath d c q ∧ q.initial = false ∧ (∃ t ∈ c.targets, q.target = (t : ℤ)) ∧ q.cost ≤ hitsOf d c q q.target ∧
      redCost d c cuts D q > 1 / 1000000 - evalSlack u η (numTerms d c cuts) (magnitude d c cuts D) := by
  classical
  unfold SubConf.generateSatR at hgen
  rcases hrf : c.refreshR R.rnd D st with e | st2
  · rw [hrf] at hgen; simp at hgen
  rw [hrf] at hgen
  simp only [Prod.mk.injEq, Except.ok.injEq] at hgen
  obtain ⟨rfl, rfl⟩ := hgen
  obtain ⟨st1, own, lins, rfl, hi1, ho, hi⟩ := refreshR_inv h (hr.state h) (by omega) hrf
  intro q hq
  rw [callbackR_mem] at hq
  rcases hq with hq | ⟨a, haq, hgt, rfl⟩
  · simp at hq
  have hfe := hs a haq
  have hold : c.isOld = false := by unfold SubConf.isOld; rw [hk]
  have hcuts := hi1.ncuts
  rw [hD] at hi hi1
  obtain ⟨hb, σ, hm⟩ := (hi.feasible_iff h rfl a).1 hfe
  obtain ⟨st2, hst2⟩ : ∃ st2, st2 = c.roundObj R.rnd D st1 := ⟨_, rfl⟩
  rw [← hst2] at hi hfe hb hm hgt ⊢
  have hidx : st2.idx = st1.idx := by rw [hst2]; rfl
  have ho2 : c.origObjectiveR R.rnd D st2 a = c.origObjectiveR R.rnd D st1 a := by rw [hst2]; rfl
  have hz : ∀ i ∈ c.kept, a (st2.idx (.z i)) = 0 ∨ a (st2.idx (.z i)) = 1 := fun i hi =>
    hb _ ((mem_allVars c _ _).2 (Or.inl ((mem_rowVars c _).2 (Or.inr ⟨hold, i, (mem_kept c i).1 hi, rfl⟩))))
  have hcost := costR_eq R hemin hk hw hz
  rw [hcost]
  have hwf := pathOf_wf h hm.split (List.Perm.refl c.leafNodes) (c.costOf st2 a)
  have hw' : ∀ t < c.targets.length, a (st2.idx (.w t)) = 0 ∨ a (st2.idx (.w t)) = 1 := fun t ht =>
    hb _ ((mem_allVars c _ _).2 (Or.inr (Or.inr (Or.inr ⟨hold, t, ht, rfl⟩))))
  refine ⟨⟨hwf.1, rfl, hwf.2⟩, rfl, ?_, ?_, ?_⟩
  · rcases target_cases h hm hold hw' c.leafNodes (c.costOf st2 a) with ⟨t, ht, _, he⟩ | ⟨h0, _⟩
    · exact ⟨t, h.targets.mem_iff.2 (List.mem_range.2 ht), he⟩
    · have := (hm.single hold).2 hk
      have hz : (List.range c.targets.length).map (fun t => a (st2.idx (.w t))) = (List.range c.targets.length).map (fun _ => (0 : ℚ)) :=
        List.map_congr_left (fun t ht => h0 t (List.mem_range.1 ht))
      rw [hz] at this
      simp at this
  · have hfo : ∀ left, Follows d left (c.pathOf st2 a c.leafNodes (c.costOf st2 a)) ↔ Towards c left σ := fun left =>
      pathOf_follows h hm.split (List.Perm.refl _) _ left
    have hc : c.costOf st2 a = (c.kept.map (fun i => rowWeight c i * a (st2.idx (.z i)))).sum := by
      unfold SubConf.costOf
      rw [hk]
      simp only [weight_eq]
    show c.costOf st2 a ≤ _
    conv_lhs => rw [hc]
    unfold hitsOf
    rw [keptSum_eq]
    refine sum_le_sum' _ _ _ ?_
    intro i hik
    have hik' := (mem_kept c i).1 hik
    rcases hz i hik with e | e
    · rw [e, mul_zero]
      split_ifs
      · exact rowWeight_nonneg c i
      · exact le_rfl
    · obtain ⟨h1, h2⟩ := hm.z_le hold i hik'
      have hy := ind_one (hm.row i hik')
      have hyi := h.y_lt i hik'.1
      have f1 : Follows d (rowPat c i) (c.pathOf st2 a c.leafNodes (c.costOf st2 a)) := by
        refine (hfo _).2 (hy.2.1 ?_)
        rcases hy.1 with e' | e'
        · rw [e, e'] at h1; norm_num at h1
        · exact e'
      have hw1 : a (st2.idx (.w (c.y.getD i 0))) = 1 := by
        rcases hw' _ hyi with e' | e'
        · rw [e, e'] at h2; norm_num at h2
        · exact e'
      have f2 := pathOf_target h hm hold hw' c.leafNodes (c.costOf st2 a) hyi hw1
      rw [if_pos ⟨f1, f2.symm⟩, e, mul_one]
  · rw [redCost_pathOf h hm (List.Perm.refl _) D]
    have herr := origR_error R hemin ha hu hη h hk hw hD hf hn ho hcuts (a := a) (by
      intro o hoo
      rw [hD] at hoo
      rw [← hidx]
      exact hb o hoo)
    rw [origObjective_eq ho hk hcuts, hD] at herr
    have ht := ha (1 / 1000000)
    rw [abs_of_nonneg (show (0 : ℚ) ≤ 1 / 1000000 by norm_num)] at ht
    rw [ho2] at hgt
    rw [hidx]
    rw [abs_le] at herr ht
    unfold evalSlack
    linarith [herr.1, herr.2, ht.1, ht.2]

/-- **C119**, completeness: if an optimal solution of the (rounded) integer program was passed to the callback, then no candidate path of the leaf is
better than the best returned path by more than the error of the scaled objective, and if nothing better is returned its reduced cost is at
most `1e-6` plus the errors. -/
theorem C119_complete (hemin : emin ≤ 0) {u η : ℚ} (ha : Accurate R.rnd u η) (hu : 0 ≤ u) (hη : 0 ≤ η) {d : ℕ} {c : SubConf} (h : SubOk d c)
    (hk : c.kind = .sat) (hw : keptWeight c ≤ 2 ^ p) {cuts : List (List Bool)} {st st' : SubSt} (hr : SubReachedR R.rnd c cuts st) {D : Duals}
    (hD : D.cut.length = cuts.length) (hf : FloatDuals p emin d c D) (hn : 2 * ((numTerms d c cuts : ℚ) + 1) * u ≤ 1)
    {sols : Model → List (ℕ → ℚ)} {ps : List Path} (hgen : c.generateSatR R.rnd D sols st = (.ok ps, st'))
    {best : ℕ → ℚ} (hb : best ∈ sols st'.m) (hfe : st'.m.Feasible best) (hopt : ∀ a, st'.m.Feasible a → st'.m.value a ≤ st'.m.value best)
    {q : Path} (hq : CandPath d c q) {t : ℕ} (ht : t ∈ c.targets) (hc : q.cost ≤ hitsOf d c q t) :
    (∃ r ∈ ps, redCost d c cuts D q ≤ redCost d c cuts D r + scaleSlack u η (numTerms d c cuts) (magnitude d c cuts D)) ∨
      redCost d c cuts D q ≤ 1 / 1000000 + evalSlack u η (numTerms d c cuts) (magnitude d c cuts D) +
        scaleSlack u η (numTerms d c cuts) (magnitude d c cuts D) := by
  unfold SubConf.generateSatR at hgen
  rcases hrf : c.refreshR R.rnd D st with e | st2
  · rw [hrf] at hgen; simp at hgen
  rw [hrf] at hgen
  simp only [Prod.mk.injEq, Except.ok.injEq] at hgen
  obtain ⟨rfl, rfl⟩ := hgen
  obtain ⟨st1, own, lins, rfl, hi1, ho, hi⟩ := refreshR_inv h (hr.state h) (by omega) hrf
  have hold : c.isOld = false := by unfold SubConf.isOld; rw [hk]
  have hcuts := hi1.ncuts
  have hval := roundObj_value h R.rnd hi1 ho
  have hmag := magnitude_eq h hk cuts D
  rw [hD] at hi hi1 hval
  have ht' : t < c.targets.length := List.mem_range.1 (h.targets.mem_iff.1 ht)
  obtain ⟨a, haf, hab, hred, -, -⟩ := point_of_path h hi hq ht' hold D
  obtain ⟨hbb, σ, hm⟩ := (hi.feasible_iff h rfl best).1 hfe
  have hv := hopt a haf
  rw [hval, hval] at hv
  obtain ⟨st2, hst2⟩ : ∃ st2, st2 = c.roundObj R.rnd D st1 := ⟨_, rfl⟩
  rw [← hst2] at hi hfe hb hm hab hbb hred ⊢
  have hidx : st2.idx = st1.idx := by rw [hst2]; rfl
  have ho2 : c.origObjectiveR R.rnd D st2 best = c.origObjectiveR R.rnd D st1 best := by rw [hst2]; rfl
  rw [hidx] at hab hbb hred
  have hmem : ∀ x ∈ c.objTerms D cuts.length, x.1 ∈ c.allVars cuts.length := by
    intro x hx
    rw [← hD] at hx ⊢
    exact objTerms_own (List.Perm.refl _) hx
  have e1 := scaledR_sum R ha hu hη (c.objTerms D cuts.length) (fun x => a (st1.idx x.1)) (fun x hx => hab _ (hmem x hx))
  have e2 := scaledR_sum R ha hu hη (c.objTerms D cuts.length) (fun x => best (st1.idx x.1)) (fun x hx => hbb _ (hmem x hx))
  rw [objTerms_length h D cuts hold] at e1 e2
  rw [abs_le] at e1 e2
  have hA : u * (100000 * ((c.objTerms D cuts.length).map (fun t => |t.2|)).sum) ≤ u * (100000 * magnitude d c cuts D) := by
    refine mul_le_mul_of_nonneg_left ?_ hu
    have := abs_nonneg (D.leaf.getD c.leaf.id 0)
    linarith
  have hle : redCost d c cuts D q ≤ ((c.objTerms D cuts.length).map (fun t => t.2 * best (st1.idx t.1))).sum - D.leaf.getD c.leaf.id 0 +
      scaleSlack u η (numTerms d c cuts) (magnitude d c cuts D) := by
    have h1 : redCost d c cuts D q ≤ ((c.objTerms D cuts.length).map (fun t => t.2 * a (st1.idx t.1))).sum - D.leaf.getD c.leaf.id 0 := by
      rw [hred]; linarith
    unfold scaleSlack
    linarith [e1.1, e1.2, e2.1, e2.2]
  have hz : ∀ i ∈ c.kept, best (st2.idx (.z i)) = 0 ∨ best (st2.idx (.z i)) = 1 := fun i hi => by
    rw [hidx]
    exact hbb _ ((mem_allVars c _ _).2 (Or.inl ((mem_rowVars c _).2 (Or.inr ⟨hold, i, (mem_kept c i).1 hi, rfl⟩))))
  by_cases hgt : c.origObjectiveR R.rnd D st2 best > R.rnd (1 / 1000000)
  · refine Or.inl ⟨c.pathOf st2 best c.leafNodes (c.costR R.rnd st2 best), (callbackR_mem _ _ _ _ _ _ _).2 (Or.inr ⟨best, hb, hgt, rfl⟩), ?_⟩
    rw [costR_eq R hemin hk hw hz, redCost_pathOf h hm (List.Perm.refl _) D, hidx]
    exact hle
  · refine Or.inr ?_
    have herr := origR_error R hemin ha hu hη h hk hw hD hf hn ho hcuts (a := best) (by
      intro o hoo
      rw [hD] at hoo
      exact hbb o hoo)
    rw [origObjective_eq ho hk hcuts, hD] at herr
    have ht := ha (1 / 1000000)
    rw [abs_of_nonneg (show (0 : ℚ) ≤ 1 / 1000000 by norm_num)] at ht
    rw [ho2, not_lt] at hgt
    rw [abs_le] at herr ht
    unfold evalSlack
    linarith [herr.1, herr.2, ht.1, ht.2]

theorem magnitude_nonneg {d : ℕ} {c : SubConf} (h : SubOk d c) (hk : c.kind = .sat) (cuts : List (List Bool)) (D : Duals) : 0 ≤ magnitude d c cuts D := by
  rw [magnitude_eq h hk]
  have h1 : 0 ≤ ((c.objTerms D cuts.length).map (fun t => |t.2|)).sum := by
    refine List.sum_nonneg ?_
    intro x hx
    obtain ⟨t, _, rfl⟩ := List.mem_map.1 hx
    exact abs_nonneg _
  have := abs_nonneg (D.leaf.getD c.leaf.id 0)
  linarith

theorem evalSlack_mono {u η A B : ℚ} (hu : 0 ≤ u) (hη : 0 ≤ η) (hA : 0 ≤ A) (hAB : A ≤ B) {m n : ℕ} (hmn : m ≤ n) : evalSlack u η m A ≤ evalSlack u η n B := by
  unfold evalSlack
  have h1 : (m : ℚ) ≤ n := by exact_mod_cast hmn
  have h2 : u * A + η ≤ u * B + η := by have := mul_le_mul_of_nonneg_left hAB hu; linarith
  have h3 : 0 ≤ u * A + η := by positivity
  have h4 : (0 : ℚ) ≤ m := by positivity
  have : 2 * ((m : ℚ) + 1) * (u * A + η) ≤ 2 * (n + 1) * (u * B + η) := by
    refine mul_le_mul (by linarith) h2 h3 (by linarith)
  linarith

theorem scaleSlack_mono {u η A B : ℚ} (hu : 0 ≤ u) (hη : 0 ≤ η) (hAB : A ≤ B) {m n : ℕ} (hmn : m ≤ n) : scaleSlack u η m A ≤ scaleSlack u η n B := by
  unfold scaleSlack
  have h1 : (m : ℚ) ≤ n := by exact_mod_cast hmn
  have h2 := mul_le_mul_of_nonneg_left hAB hu
  have h3 := mul_le_mul_of_nonneg_right h1 hη
  linarith

/-- **C119**, whole tree: if the pricing problems of all leaves return nothing for the duals of an optimal relaxed master problem, although each solver
found an optimal solution, every tree over candidate splits has at most the objective of the relaxed master problem plus the tolerances and
rounding errors of the leaves as weighted number of hits. -/
theorem C119_tree (hemin : emin ≤ 0) {u η : ℚ} (ha : Accurate R.rnd u η) (hu : 0 ≤ u) (hη : 0 ≤ η) {d : ℕ} {c : Conf} {o : Oracle}
    {paths : List Path} {splits : List Split} {dataRows : Option (List Row)}
    (hs : Setup d c splits dataRows) (hp : ∀ p ∈ paths, GoodPath d splits p) (ho : CutSound o) {s s' : MS}
    (h : Reached d c o paths splits dataRows s) {D : Duals} (hsol : solveRmp c o s = (.ok D, s')) (hst : s'.last.status = .optimal)
    {cuts : List (List Bool)} (hc : Delivered s cuts) {tol : ℚ} (ht : 0 ≤ tol) (hte : tol ≤ 1 / 1000000) (hopt : OptimalDuals s'.m tol s'.last)
    (hrem : ∀ rows, dataRows = some rows → ∀ r, (rowAt rows r).removedFromSp = true → (rowAt rows r).removedFromMaster = true)
    {targets y : List ℕ} (hok : ∀ l < 2 ^ d, SubOk d (priceConf .sat d c splits targets y dataRows l)) {st st' : ℕ → SubSt}
    (hr : ∀ l < 2 ^ d, SubReachedR R.rnd (priceConf .sat d c splits targets y dataRows l) (cuts ++ D.newCuts) (st l))
    (hf : ∀ l < 2 ^ d, FloatDuals p emin d (priceConf .sat d c splits targets y dataRows l) D)
    (hw : ∀ l < 2 ^ d, keptWeight (priceConf .sat d c splits targets y dataRows l) ≤ 2 ^ p)
    {sols : ℕ → Model → List (ℕ → ℚ)} {best : ℕ → ℕ → ℚ}
    (hgen : ∀ l < 2 ^ d, (priceConf .sat d c splits targets y dataRows l).generateSatR R.rnd D (sols l) (st l) = (.ok [], st' l))
    (hb : ∀ l < 2 ^ d, best l ∈ sols l (st' l).m ∧ (st' l).m.Feasible (best l) ∧ ∀ a, (st' l).m.Feasible a → (st' l).m.value a ≤ (st' l).m.value (best l))
    {N : ℕ} (hN : ∀ l < 2 ^ d, numTerms d (priceConf .sat d c splits targets y dataRows l) (cuts ++ D.newCuts) ≤ N)
    {A : ℚ} (hA : ∀ l < 2 ^ d, magnitude d (priceConf .sat d c splits targets y dataRows l) (cuts ++ D.newCuts) D ≤ A)
    (hn : 2 * ((N : ℚ) + 1) * u ≤ 1)
    {σ τ : ℕ → ℕ} (hσ : ∀ n < 2 ^ d - 1, σ n ∈ cand c.nodes n) (hτ : ∀ l < 2 ^ d, τ l ∈ targets) :
    treeHits d (priceConf .sat d c splits targets y dataRows 0) σ τ ≤
      s'.rmpObj + 2 ^ d * (1 / 1000000 + evalSlack u η N A + scaleSlack u η N A) + (2 ^ d - 1) * tol := by
  obtain ⟨hdel, hcl⟩ := ((C68_cuts_delivered hs hp ho).2 s h cuts hc).1 D s' hsol
  have hcand : ∀ n < 2 ^ d - 1, σ n < splits.length := by
    intro n hn
    have := hσ n hn
    unfold cand at this
    rw [← hs.tree.nodes_length] at hn
    rw [List.getElem?_eq_getElem hn] at this
    exact hs.tree.cand_lt _ (List.getElem_mem hn) _ this
  have hA0 : 0 ≤ A := (magnitude_nonneg (hok 0 (by positivity)) rfl _ _).trans (hA 0 (by positivity))
  have hE0 : 0 ≤ evalSlack u η N A := by unfold evalSlack; positivity
  have hS0 : 0 ≤ scaleSlack u η N A := by unfold scaleSlack; positivity
  refine tree_bound hs hp ho h hsol hst hdel ht (by linarith) hopt hcand ?_
  intro l hl
  rw [← redCost_eq_colRed (removed_dual hs hp ho h hsol hst hrem (kind := .sat) (targets := targets) (y := y) (l := l))]
  obtain ⟨hb1, hb2, hb3⟩ := hb l hl
  have hNl : ((numTerms d (priceConf .sat d c splits targets y dataRows l) (cuts ++ D.newCuts) : ℕ) : ℚ) ≤ N := by exact_mod_cast hN l hl
  have key := C119_complete R hemin ha hu hη (hok l hl) rfl (hw l hl) (hr l hl) (by rw [hcl hst]) (hf l hl) (by nlinarith) (hgen l hl) hb1 hb2 hb3
    (q := treeCol d (priceConf .sat d c splits targets y dataRows 0) σ τ l)
    ⟨⟨hl, (treePath_wf σ hl).nodes, (treePath_wf σ hl).splits⟩, rfl, by
      intro q hq
      obtain ⟨k, hk, rfl⟩ := (treePath_pairs σ d l q).1 hq
      exact hσ _ (anc_lt hl hk)⟩ (hτ l hl) (le_of_eq rfl)
  have hm0 := magnitude_nonneg (hok l hl) rfl (cuts ++ D.newCuts) D
  have m1 := evalSlack_mono (u := u) (η := η) hu hη hm0 (hA l hl) (hN l hl)
  have m2 := scaleSlack_mono (u := u) (η := η) hu hη (hA l hl) (hN l hl)
  rcases key with ⟨r, hr', -⟩ | hle
  · simp at hr'
  · linarith

end

/-! ## Python's floats -/

theorem binary64_accurate : Accurate binary64.rnd (1 / 2 ^ 53) (1 / 2 ^ 1075) := by
  have := nearestEven_accurate 53 (-1074) (by norm_num)
  have e1 : (2 : ℚ) ^ (-((53 : ℕ) : ℤ)) = 1 / 2 ^ 53 := by rw [zpow_neg, zpow_natCast, one_div]
  have e2 : (2 : ℚ) ^ ((-1074 : ℤ) - 1) = 1 / 2 ^ 1075 := by
    rw [show ((-1074 : ℤ) - 1) = -((1075 : ℕ) : ℤ) by norm_num, zpow_neg, zpow_natCast, one_div]
  rw [e1, e2] at this
  exact this

theorem tiny : (1 : ℚ) / 2 ^ 1075 ≤ 1 / 2 ^ 80 := one_div_le_one_div_of_le (by positivity) (pow_le_pow_right₀ (by norm_num) (by norm_num))

theorem slack64 {n : ℕ} {A : ℚ} (hA : 0 ≤ A) (hn : n + 1 ≤ 2 ^ 28) (h : ((n : ℚ) + 1) * A ≤ 2 ^ 28) :
    evalSlack (1 / 2 ^ 53) (1 / 2 ^ 1075) n A ≤ 1 / 10000000 ∧ scaleSlack (1 / 2 ^ 53) (1 / 2 ^ 1075) n A ≤ n / 100000 + 1 / 10000000 := by
  have ht := tiny
  obtain ⟨η, hη⟩ : ∃ η : ℚ, η = 1 / 2 ^ 1075 := ⟨_, rfl⟩
  have h0 : 0 ≤ η := by rw [hη]; positivity
  rw [← hη] at ht ⊢
  have hn' : (n : ℚ) + 1 ≤ 2 ^ 28 := by exact_mod_cast hn
  have hn0 : (0 : ℚ) ≤ n := by positivity
  have h1 : ((n : ℚ) + 1) * η ≤ 2 ^ 28 * (1 / 2 ^ 80) := mul_le_mul hn' ht h0 (by positivity)
  have h2 : A ≤ 2 ^ 28 := by nlinarith
  have h3 : (n : ℚ) * η ≤ 2 ^ 28 * (1 / 2 ^ 80) := by nlinarith
  unfold evalSlack scaleSlack
  constructor
  · have e : 2 * ((n : ℚ) + 1) * (1 / 2 ^ 53 * A + η) = 2 * (1 / 2 ^ 53) * (((n : ℚ) + 1) * A) + 2 * (((n : ℚ) + 1) * η) := by ring
    rw [e]
    norm_num at h h1 ht ⊢
    linarith
  · norm_num at h2 h3 ⊢
    linarith

/-- **C119** with Python's floats: as long as the number of objective terms, and its product with the sum of the absolute values of the coefficients,
stay below `2 ^ 28`, every returned path has a reduced cost above `9e-7`. -/
theorem C119_sound64 {d : ℕ} {c : SubConf} (h : SubOk d c)
    (hk : c.kind = .sat) (hw : keptWeight c ≤ 2 ^ 53) {cuts : List (List Bool)} {st st' : SubSt} (hr : SubReachedR binary64.rnd c cuts st) {D : Duals}
    (hD : D.cut.length = cuts.length) (hf : FloatDuals 53 (-1074) d c D) (hn : numTerms d c cuts + 1 ≤ 2 ^ 28)
    (hA : ((numTerms d c cuts : ℚ) + 1) * magnitude d c cuts D ≤ 2 ^ 28)
    {sols : Model → List (ℕ → ℚ)} {ps : List Path} (hgen : c.generateSatR binary64.rnd D sols st = (.ok ps, st'))
    (hs : ∀ a ∈ sols st'.m, st'.m.Feasible a) :
    ∀ q ∈ ps, CandPath d c q ∧ q.initial = false ∧ (∃ t ∈ c.targets, q.target = (t : ℤ)) ∧ q.cost ≤ hitsOf d c q q.target ∧
      redCost d c cuts D q > 9 / 10000000 := by
  intro q hq
  have hn' : ((numTerms d c cuts : ℚ) + 1) ≤ 2 ^ 28 := by exact_mod_cast hn
  obtain ⟨h1, h2, h3, h4, h5⟩ := C119_sound binary64 (by norm_num) binary64_accurate (by positivity) (by positivity) h hk hw hr hD hf
    (by norm_num at hn' ⊢; linarith) hgen hs q hq
  refine ⟨h1, h2, h3, h4, ?_⟩
  have := (slack64 (magnitude_nonneg h hk cuts D) hn hA).1
  linarith

/-- **C119** with Python's floats: under the same conditions, if nothing is returned although an optimal solution was passed to the callback, no
candidate path has a reduced cost above `1.2e-6` plus `1e-5` per objective term. -/
theorem C119_complete64 {d : ℕ} {c : SubConf} (h : SubOk d c)
    (hk : c.kind = .sat) (hw : keptWeight c ≤ 2 ^ 53) {cuts : List (List Bool)} {st st' : SubSt} (hr : SubReachedR binary64.rnd c cuts st) {D : Duals}
    (hD : D.cut.length = cuts.length) (hf : FloatDuals 53 (-1074) d c D) (hn : numTerms d c cuts + 1 ≤ 2 ^ 28)
    (hA : ((numTerms d c cuts : ℚ) + 1) * magnitude d c cuts D ≤ 2 ^ 28)
    {sols : Model → List (ℕ → ℚ)} (hgen : c.generateSatR binary64.rnd D sols st = (.ok [], st'))
    {best : ℕ → ℚ} (hb : best ∈ sols st'.m) (hfe : st'.m.Feasible best) (hopt : ∀ a, st'.m.Feasible a → st'.m.value a ≤ st'.m.value best)
    {q : Path} (hq : CandPath d c q) {t : ℕ} (ht : t ∈ c.targets) (hc : q.cost ≤ hitsOf d c q t) :
    redCost d c cuts D q ≤ 12 / 10000000 + numTerms d c cuts / 100000 := by
  have hn' : ((numTerms d c cuts : ℚ) + 1) ≤ 2 ^ 28 := by exact_mod_cast hn
  have hs := slack64 (magnitude_nonneg h hk cuts D) hn hA
  rcases C119_complete binary64 (by norm_num) binary64_accurate (by positivity) (by positivity) h hk hw hr hD hf
    (by norm_num at hn' ⊢; linarith) hgen hb hfe hopt hq ht hc with ⟨r, hr', -⟩ | hle
  · simp at hr'
  · linarith [hs.1, hs.2]

end Verif.DTree
