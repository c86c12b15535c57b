import Verif.DTree.HeapFrame
import Verif.DTree.HeapProps
import Verif.Fit.Props

/-!
# One path object passed twice

`generate_mp` creates a variable per position of `paths_` and writes its index to the path object, so the variable of all but the last position is in the
objective and in no constraint.
-/

set_option linter.unusedSectionVars false
set_option linter.unusedSimpArgs false

namespace Verif.DTree

open MP Spec Fit
open Fit.Spec

variable {Ω : Type} {H : HArgs} {X : List (List ℚ)} {o : FitOracle Ω}

namespace Spec

/-- A variable `≥ 0` without upper bound, with a positive weight in the objective that is maximised, in no constraint. -/
structure Loose (m : Model) (v : ℕ) : Prop where
  var : m.vars[v]? = some nonnegInt
  cons : ∀ k ∈ m.cons, k.coeff v = 0
  obj : 0 < m.obj v
  max : m.maximize = true

/-- The solvers report an optimum only if there is one. -/
structure Honest (o : FitOracle Ω) : Prop where
  lp : ∀ m k, (o.master.lp m k).status = .optimal → IsOptimalLP m (o.master.lp m k)
  ip : ∀ m, (o.master.ip m).status = .optimal ∨ (o.master.ip m).status = .feasible → IsOptimal m (o.master.ip m)

end Spec

theorem Spec.Loose.lt {m : Model} {v : ℕ} (h : Loose m v) : v < m.vars.length := (List.getElem?_eq_some_iff.1 h.var).1

/-! ## Unbounded -/

theorem activity_raise (n : ℕ) (f a : ℕ → ℚ) (v : ℕ) (hv : v < n) (x : ℚ) :
    activity n f (Function.update a v (a v + x)) = activity n f a + f v * x := by
  unfold activity
  have h1 : ∀ i ∈ Finset.range n, f i * Function.update a v (a v + x) i = f i * a i + if i = v then f v * x else 0 := by
    intro i _
    by_cases h : i = v
    · subst h
      rw [Function.update_self, if_pos rfl]
      ring
    · rw [Function.update_of_ne h, if_neg h, add_zero]
  rw [Finset.sum_congr rfl h1, Finset.sum_add_distrib, Finset.sum_ite_eq', if_pos (Finset.mem_range.2 hv)]

theorem Spec.Loose.raise {m : Model} {v : ℕ} (h : Loose m v) {a : ℕ → ℚ} (ha : m.FeasibleLP a) :
    m.FeasibleLP (Function.update a v (a v + 1)) ∧ (m.Feasible a → m.Feasible (Function.update a v (a v + 1))) ∧
      m.value a < m.value (Function.update a v (a v + 1)) := by
  have hlp : m.FeasibleLP (Function.update a v (a v + 1)) := by
    refine ⟨fun i w hw => ?_, fun c k hk => ?_⟩
    · by_cases hi : i = v
      · subst hi
        rw [h.var] at hw
        obtain rfl := Option.some.inj hw
        have := (ha.bounds i _ h.var).1 0 rfl
        rw [Function.update_self]
        refine ⟨fun l hl => ?_, fun u hu => by cases hu⟩
        obtain rfl := Option.some.inj hl
        linarith
      · rw [Function.update_of_ne hi]
        exact ha.bounds i w hw
    · rw [activity_raise _ _ _ _ h.lt, h.cons k (List.mem_of_getElem? hk), zero_mul, add_zero]
      exact ha.cons c k hk
  refine ⟨hlp, fun hf => ⟨hlp, fun i w hw hi => ?_⟩, ?_⟩
  · by_cases hv : i = v
    · subst hv
      obtain ⟨z, hz⟩ := hf.integral i w hw hi
      refine ⟨z + 1, ?_⟩
      rw [Function.update_self, hz]
      push_cast
      ring
    · rw [Function.update_of_ne hv]
      exact hf.integral i w hw hi
  · unfold Model.value
    rw [activity_raise _ _ _ _ h.lt]
    linarith [h.obj]

theorem Spec.Loose.not_optimalLP {m : Model} {v : ℕ} (h : Loose m v) (ans : Answer) : ¬ IsOptimalLP m ans := by
  rintro ⟨h1, h2, h3⟩
  obtain ⟨k1, -, k3⟩ := h.raise h1
  have := h3 _ k1
  unfold Model.better at this
  rw [h.max, if_pos rfl, h2] at this
  linarith

theorem Spec.Loose.not_optimal {m : Model} {v : ℕ} (h : Loose m v) (ans : Answer) : ¬ IsOptimal m ans := by
  rintro ⟨⟨h1, h2⟩, h3⟩
  obtain ⟨-, k2, k3⟩ := h.raise h1.toFeasibleLP
  have := h3 _ (k2 h1)
  unfold Model.better at this
  rw [h.max, if_pos rfl, h2] at this
  linarith

/-! ## Building the model -/

theorem Spec.Loose.addVar {m : Model} {v : ℕ} (h : Loose m v) (x : Var) : Loose (m.addVar x) v :=
  ⟨by
    change (m.vars ++ [x])[v]? = _
    rw [List.getElem?_append_left h.lt]
    exact h.var, h.cons, h.obj, h.max⟩

theorem Spec.Loose.setObj {m : Model} {v w : ℕ} (h : Loose m v) (hw : v ≠ w) (x : ℚ) : Loose (m.setObj w x) v :=
  ⟨h.var, h.cons, by
    change 0 < Function.update m.obj w x v
    rw [Function.update_of_ne hw]
    exact h.obj, h.max⟩

theorem Spec.Loose.addRow {m : Model} {v : ℕ} (h : Loose m v) (lb ub : Option ℚ) (ts : List (ℕ × ℚ)) (hv : v ∉ ts.map (·.1)) : Loose (addRow m lb ub ts) v := by
  rw [addRow_eq]
  refine ⟨h.var, fun k hk => ?_, h.obj, h.max⟩
  rcases List.mem_append.1 hk with hk | hk
  · exact h.cons k hk
  · rw [List.mem_singleton.1 hk]
    exact coeffOf_of_not_mem _ _ hv

theorem setCoeff_coeff {m : Model} {v w c : ℕ} {x : ℚ} (hw : v ≠ w) {P : ℚ → Prop} (h : ∀ k ∈ m.cons, P (k.coeff v)) :
    ∀ k ∈ (m.setCoeff c w x).cons, P (k.coeff v) := by
  intro k hk
  obtain ⟨i, hi⟩ := List.mem_iff_getElem?.1 hk
  change (m.cons.modify c _)[i]? = _ at hi
  rw [List.getElem?_modify] at hi
  obtain ⟨k', hk', e⟩ := Option.map_eq_some_iff.1 hi
  have hm := h k' (List.mem_of_getElem? hk')
  split at e
  · rw [← e]
    change P (Function.update k'.coeff w x v)
    rw [Function.update_of_ne hw]
    exact hm
  · rw [← e]
    exact hm

theorem Spec.Loose.setOnes {v w : ℕ} (hw : v ≠ w) (cs : List ℕ) : ∀ {m : Model}, Loose m v → Loose (setOnes m w cs) v := by
  unfold DTree.setOnes
  induction cs with
  | nil => exact fun h => h
  | cons c cs ih =>
    intro m h
    rw [List.foldl_cons]
    exact ih ⟨h.var, setCoeff_coeff (P := fun x => x = 0) hw h.cons, h.obj, h.max⟩

/-- No constraint has a coefficient for a variable that does not exist yet. -/
def Clean (m : Model) : Prop := ∀ v ≥ m.vars.length, ∀ k ∈ m.cons, k.coeff v = 0

theorem Clean.setOnes {w : ℕ} (cs : List ℕ) : ∀ {m : Model}, w < m.vars.length → Clean m → Clean (setOnes m w cs) := by
  unfold DTree.setOnes
  induction cs with
  | nil => exact fun _ h => h
  | cons c cs ih =>
    intro m hw h
    rw [List.foldl_cons]
    refine ih hw ?_
    intro v hv
    change m.vars.length ≤ v at hv
    exact setCoeff_coeff (P := fun x => x = 0) (by omega) (h v hv)

theorem addPathVarsH_dup (l : List ℕ) : ∀ (m : Model) (h : Heap) (vs : List ℕ),
    (l.foldl addPathVarH (m, h, vs)).1.vars = m.vars ++ List.replicate l.length nonnegInt ∧
    (l.foldl addPathVarH (m, h, vs)).1.cons = m.cons ∧
    (∀ v < m.vars.length, (l.foldl addPathVarH (m, h, vs)).1.obj v = m.obj v) ∧
    (∀ i a, l[i]? = some a → (l.foldl addPathVarH (m, h, vs)).1.obj (m.vars.length + i) = (h.path a).cost) ∧
    ∀ b ∈ l, ∃ j, l[j]? = some b ∧ (∀ k > j, l[k]? ≠ some b) ∧ ((l.foldl addPathVarH (m, h, vs)).2.1.path b).id = m.vars.length + j := by
  induction l with
  | nil => intro m h vs; simp
  | cons c l ih =>
    intro m h vs
    rw [List.foldl_cons]
    obtain ⟨st, hst⟩ : ∃ st, st = addPathVarH (m, h, vs) c := ⟨_, rfl⟩
    have e1 : st.1.vars = m.vars ++ [nonnegInt] := by rw [hst]; rfl
    have e2 : st.1.cons = m.cons := by rw [hst]; rfl
    have e3 : st.1.obj = Function.update m.obj m.vars.length (h.path c).cost := by
      rw [hst]
      change Function.update m.obj m.vars.length (Function.update h.path c _ c).cost = _
      rw [Function.update_self]
    have e4 : st.2.1.path = Function.update h.path c { h.path c with id := m.vars.length } := by rw [hst]; rfl
    have el : st.1.vars.length = m.vars.length + 1 := by rw [e1]; simp
    have eeq : addPathVarH (m, h, vs) c = (st.1, st.2.1, st.2.2) := by rw [hst]
    rw [eeq]
    obtain ⟨i1, i2, i3, i4, i5⟩ := ih st.1 st.2.1 st.2.2
    have f4 := (addPathVarsH_frame l (st.1, st.2.1, st.2.2)).2.2.2
    refine ⟨?_, i2.trans e2, ?_, ?_, ?_⟩
    · rw [i1, e1, List.append_assoc]
      rfl
    · intro v hv
      rw [i3 v (by omega), e3, Function.update_of_ne (by omega)]
    · intro i a hi
      cases i with
      | zero =>
        rw [List.getElem?_cons_zero] at hi
        obtain rfl := Option.some.inj hi
        rw [i3 _ (by omega), e3]
        simp
      | succ i =>
        rw [List.getElem?_cons_succ] at hi
        have := i4 i a hi
        rw [el] at this
        rw [show m.vars.length + (i + 1) = m.vars.length + 1 + i by omega, this, e4]
        by_cases hac : a = c
        · subst hac
          rw [Function.update_self]
        · rw [Function.update_of_ne hac]
    · intro b hb
      by_cases hbl : b ∈ l
      · obtain ⟨j, j1, j2, j3⟩ := i5 b hbl
        refine ⟨j + 1, j1, fun k hk => ?_, by rw [j3, el]; omega⟩
        obtain ⟨k', rfl⟩ : ∃ k', k = k' + 1 := ⟨k - 1, by omega⟩
        rw [List.getElem?_cons_succ]
        exact j2 k' (by omega)
      · have hbc : b = c := by
          rcases List.mem_cons.1 hb with h1 | h1
          · exact h1
          · exact absurd h1 hbl
        subst hbc
        refine ⟨0, rfl, fun k hk => ?_, ?_⟩
        · obtain ⟨k', rfl⟩ : ∃ k', k = k' + 1 := ⟨k - 1, by omega⟩
          rw [List.getElem?_cons_succ]
          exact fun e => hbl (List.mem_of_getElem? e)
        · rw [f4 b hbl]
          change (st.2.1.path b).id = _
          rw [e4, Function.update_self]
          rfl

theorem ones_keys {paths : List Path} {P : Path → Bool} {v : ℕ} (hv : ∀ p ∈ paths, p.id ≠ v) : v ∉ (ones paths P).map (·.1) := by
  unfold ones
  rw [List.map_map]
  intro h
  obtain ⟨p, hp, e⟩ := List.mem_map.1 h
  exact hv p (List.mem_of_mem_filter hp) e

theorem Spec.Loose.leafCons {paths : List Path} {v : ℕ} (hv : ∀ p ∈ paths, p.id ≠ v) (ls : List Leaf) : ∀ (st : Model × (ℕ → Option ℕ)), Loose st.1 v →
    Loose (ls.foldl (addLeafCons paths) st).1 v := by
  induction ls with
  | nil => exact fun _ h => h
  | cons l ls ih =>
    intro st h
    rw [List.foldl_cons]
    exact ih _ (h.addRow _ _ _ (ones_keys hv))

theorem Spec.Loose.rowCons {c : Conf} {splits : List Split} {paths : List Path} {rows : List Row} {v : ℕ} (hv : ∀ p ∈ paths, p.id ≠ v) (rs : List ℕ) :
    ∀ (st : Model × (ℕ → Option ℕ) × List Bool), Loose st.1 v → Loose (rs.foldl (addRowCons c splits paths rows) st).1 v := by
  induction rs with
  | nil => exact fun _ h => h
  | cons r rs ih =>
    intro st h
    rw [List.foldl_cons]
    apply ih
    unfold addRowCons
    split
    · exact h
    · exact h.addRow _ _ _ (ones_keys hv)

/-- The state of the consistency loop: the numbered variables are others. -/
def NsFree (v : ℕ) (st : NS) : Prop := Loose st.m v ∧ ∀ n s w, st.vars n s = some w → w ≠ v

theorem nsOnes_keys {paths : List Path} {v l n s : ℕ} (hv : ∀ p ∈ paths, p.id ≠ v) : v ∉ (nsOnes paths l n s).map (·.1) := by
  unfold nsOnes
  intro h
  obtain ⟨t, ht, e⟩ := List.mem_map.1 h
  obtain ⟨p, hp, ht⟩ := List.mem_flatMap.1 ht
  obtain ⟨q, -, rfl⟩ := List.mem_map.1 ht
  exact hv p hp e

theorem NsFree.cons {paths : List Path} {v : ℕ} (hv : ∀ p ∈ paths, p.id ≠ v) (l n s : ℕ) {st : NS} (h : NsFree v st) : NsFree v (addNsCons paths l n st s) := by
  unfold addNsCons
  cases hs : st.vars n s with
  | some w =>
    simp only [hs, Option.getD_some]
    refine ⟨h.1.addRow _ _ _ ?_, h.2⟩
    rw [List.map_cons, List.mem_cons, not_or]
    exact ⟨(h.2 n s w hs).symm, nsOnes_keys hv⟩
  | none =>
    have e : upd2 st.vars n s st.m.vars.length n s = some st.m.vars.length := by simp [upd2]
    simp only [e, Option.getD_some]
    have hne : st.m.vars.length ≠ v := by have := h.1.lt; omega
    refine ⟨(h.1.addVar _).addRow _ _ _ ?_, ?_⟩
    · rw [List.map_cons, List.mem_cons, not_or]
      exact ⟨hne.symm, nsOnes_keys hv⟩
    · intro n' s' w hw
      simp only [upd2] at hw
      split at hw
      · rw [← Option.some.inj hw]
        exact hne
      · exact h.2 n' s' w hw

theorem NsFree.leaf {nodes : List Node} {paths : List Path} {v : ℕ} (hv : ∀ p ∈ paths, p.id ≠ v) (leaf : Leaf) {st : NS} (h : NsFree v st) :
    NsFree v (addNsLeaf nodes paths st leaf) := by
  unfold addNsLeaf
  generalize leaf.leftNodes ++ leaf.rightNodes = ns
  induction ns generalizing st with
  | nil => exact h
  | cons n ns ih =>
    rw [List.foldl_cons]
    apply ih
    unfold addNsNode
    simp only
    generalize (nodeAt nodes n).candidateSplits = ss
    induction ss generalizing st with
    | nil => exact h
    | cons s ss ih2 =>
      rw [List.foldl_cons]
      exact ih2 (h.cons hv _ _ _)

theorem NsFree.leaves {nodes : List Node} {paths : List Path} {v : ℕ} (hv : ∀ p ∈ paths, p.id ≠ v) (ls : List Leaf) : ∀ {st : NS}, NsFree v st →
    NsFree v (ls.foldl (addNsLeaf nodes paths) st) := by
  induction ls with
  | nil => exact fun h => h
  | cons l ls ih =>
    intro st h
    rw [List.foldl_cons]
    exact ih (h.leaf hv l)

/-- A path object with a positive cost at two positions. -/
def Twice (s : HM) : Prop := ∃ i j a : ℕ, i < j ∧ s.paths[i]? = some a ∧ s.paths[j]? = some a ∧ 0 < (s.heap.path a).cost

theorem generateMpH_loose {s : HM} (hg : s.rest.generated = false) (hc : Clean s.rest.m) {i j a : ℕ} (hij : i < j) (hi : s.paths[i]? = some a)
    (hj : s.paths[j]? = some a) (ha : 0 < (s.heap.path a).cost) (h : (generateMpH H X s).2.rest.generated = true) :
    Loose (generateMpH H X s).2.rest.m (s.rest.m.vars.length + i) := by
  unfold generateMpH at h ⊢
  rw [if_neg (by rw [hg]; exact Bool.false_ne_true)] at h ⊢
  cases hcm : createCutModel H.leaves (H.splits.map s.heap.split) (s.paths.map s.heap.path) with
  | error e =>
    rw [hcm] at h
    change s.rest.generated = true at h
    rw [hg] at h
    cases h
  | ok t =>
    obtain ⟨cp, sv, pv⟩ := t
    simp only
    obtain ⟨p1, p2, p3, p4, p5⟩ := addPathVarsH_dup s.paths s.rest.m s.heap []
    generalize s.paths.foldl addPathVarH (s.rest.m, s.heap, []) = pr at p1 p2 p3 p4 p5
    obtain ⟨m1, h1, vs⟩ := pr
    simp only at p1 p2 p3 p4 p5 ⊢
    have hlt : i < s.paths.length := (List.getElem?_eq_some_iff.1 hi).1
    have hL : Loose (m1.setMax true) (s.rest.m.vars.length + i) := by
      refine ⟨?_, ?_, ?_, rfl⟩
      · change m1.vars[_]? = _
        rw [p1, List.getElem?_append_right (by omega)]
        simp [List.getElem?_replicate, hlt]
      · intro k hk
        change k ∈ m1.cons at hk
        rw [p2] at hk
        exact hc _ (by omega) k hk
      · change 0 < m1.obj _
        rw [p4 i a hi]
        exact ha
    obtain ⟨d1, -⟩ := dataRowsH_frame (H := H) (X := X) s.paths h1 s.rows
    generalize dataRowsH H X s.paths s.rows h1 = dr at d1
    obtain ⟨h2, rows⟩ := dr
    simp only at d1 ⊢
    have hv : ∀ p ∈ s.paths.map h1.path, p.id ≠ s.rest.m.vars.length + i := by
      intro p hp
      obtain ⟨b, hb, rfl⟩ := List.mem_map.1 hp
      obtain ⟨k, k1, k2, k3⟩ := p5 b hb
      rw [k3]
      intro e
      obtain rfl : k = i := by omega
      rw [hi] at k1
      obtain rfl := Option.some.inj k1
      exact k2 j hij hj
    rw [d1]
    refine (NsFree.leaves hv H.leaves ⟨?_, fun n s w hw => by cases hw⟩).1
    split
    · exact Loose.leafCons hv _ _ hL
    · exact Loose.rowCons hv _ _ (Loose.leafCons hv _ _ hL)

/-- **C125, one object twice.** If one path object with a positive cost is at two positions of `initial_paths` and `generate_mp` succeeds, then the
master problem has a variable that is maximised and in no constraint, so neither it nor its relaxation has an optimum. -/
theorem C125_same_object (h : Heap) (ω : Ω) {i j a : ℕ} (hij : i < j) (hi : H.paths[i]? = some a) (hj : H.paths[j]? = some a) (ha : 0 < (h.path a).cost)
    (hok : (generateMpH H X (HW.init H h ω).m).1 = .ok ()) :
    Loose (generateMpH H X (HW.init H h ω).m).2.rest.m i ∧
      ∀ ans, ¬ IsOptimalLP (generateMpH H X (HW.init H h ω).m).2.rest.m ans ∧ ¬ IsOptimal (generateMpH H X (HW.init H h ω).m).2.rest.m ans := by
  have hcost : ((HW.init H h ω).m.heap.path a).cost = (h.path a).cost := by
    unfold HW.init
    simp only [marksH]
    exact updates_keep Path.cost (fun p : Path => { p with initial := true }) (fun _ => rfl) _ _ _
  have hgen : (generateMpH H X (HW.init H h ω).m).2.rest.generated = true := by
    unfold generateMpH at hok ⊢
    rw [if_neg (by exact Bool.false_ne_true)] at hok ⊢
    split at hok
    · cases hok
    · rfl
  have hl := generateMpH_loose (H := H) (X := X) (s := (HW.init H h ω).m) rfl (fun v _ k hk => by cases hk) hij hi hj (by rw [hcost]; exact ha) hgen
  have e0 : (HW.init H h ω).m.rest.m.vars.length + i = i := by
    change 0 + i = i
    omega
  rw [e0] at hl
  exact ⟨hl, fun ans => ⟨hl.not_optimalLP ans, hl.not_optimal ans⟩⟩

/-! ## Every call of `fit` -/

/-- The invariant. -/
structure DupInv (s : HM) : Prop where
  twice : Twice s
  alloc : ∀ a ∈ s.paths, a < s.heap.nextPath
  clean : s.rest.generated = false → Clean s.rest.m
  loose : s.rest.generated = true → ∃ v, Loose s.rest.m v

theorem DupInv.next {s s' : HM} (h : DupInv s) (hs : HStep H s s') (hp : s.paths <+: s'.paths) (hc : s'.rest.generated = false → Clean s'.rest.m)
    (hl : s'.rest.generated = true → ∃ v, Loose s'.rest.m v) : DupInv s' := by
  refine ⟨?_, fun a ha => ?_, hc, hl⟩
  · obtain ⟨i, j, a, hij, hi, hj, ha⟩ := h.twice
    obtain ⟨t, ht⟩ := hp
    have hpi : ∀ {k b : ℕ}, s.paths[k]? = some b → s'.paths[k]? = some b := by
      intro k b hk
      rw [← ht, List.getElem?_append_left (List.getElem?_eq_some_iff.1 hk).1]
      exact hk
    refine ⟨i, j, a, hij, hpi hi, hpi hj, ?_⟩
    have := (hs.wrote.path a (h.alloc a (List.mem_of_getElem? hi))).1
    simp only [Path.content, Prod.mk.injEq] at this
    rw [this.2.2.2.1]
    exact ha
  · rcases hs.paths a ha with h1 | h1
    · exact lt_of_lt_of_le (h.alloc a h1) hs.wrote.nextPath
    · exact h1.2

theorem twice_same {s s' : HM} (e1 : s'.paths = s.paths) (e2 : s'.heap = s.heap) (h : Twice s) : Twice s' := by
  unfold Twice
  rw [e1, e2]
  exact h

theorem DupInv.put {s : HM} (h : DupInv s) {m : MS} (e1 : m.m = s.rest.m) (e2 : m.generated = s.rest.generated) : DupInv (s.put m) :=
  ⟨twice_same rfl rfl h.twice, h.alloc, fun e => by
    change Clean m.m
    rw [e1]
    exact h.clean (e2.symm.trans e), fun e => by
    change ∃ v, Loose m.m v
    rw [e1]
    exact h.loose (e2.symm.trans e)⟩

theorem dup_generate {s : HM} (h : DupInv s) : DupInv (generateMpH H X s).2 := by
  refine h.next (H := H) (step_generateMp s) ?_ ?_ ?_
  · unfold generateMpH
    split
    · exact List.prefix_refl _
    · split <;> exact List.prefix_refl _
  · intro e
    unfold generateMpH at e ⊢
    split
    · rename_i hg
      rw [if_pos hg] at e
      rw [hg] at e
      cases e
    · rename_i hg
      rw [if_neg hg] at e
      have hg' : s.rest.generated = false := by simpa using hg
      split
      · exact h.clean hg'
      · rename_i hcm
        rw [hcm] at e
        cases e
  · intro e
    cases hg : s.rest.generated with
    | true =>
      have : (generateMpH H X s).2 = s := by
        unfold generateMpH
        rw [if_pos hg]
      rw [this]
      exact h.loose hg
    | false =>
      obtain ⟨i, j, a, hij, hi, hj, ha⟩ := h.twice
      exact ⟨_, generateMpH_loose hg (h.clean hg) hij hi hj ha e⟩

theorem dup_solveRmp (ho : Honest o) {s : HM} (h : DupInv s) : DupInv (solveRmpH H X o.master s).2 := by
  unfold solveRmpH
  split
  · rename_i hg
    obtain ⟨v, hv⟩ := h.loose hg
    simp only
    obtain ⟨s1, hs1⟩ : ∃ s1, s1 = s.put (lpSolve o.master { s.rest with
      prevRmpObj := s.rest.rmpObj
      iter := s.rest.iter + 1 }) := ⟨_, rfl⟩
    dsimp only at hs1 ⊢
    rw [← hs1]
    have h1 : DupInv s1 := by rw [hs1]; exact h.put rfl rfl
    have hst : ¬ s1.rest.last.status = .optimal := by
      rw [hs1]
      intro e
      exact hv.not_optimalLP _ (ho.lp _ _ e)
    have hr : ∀ n acc, cutRoundsH H X o.master n acc s1 = (acc, s1) := by
      intro n acc
      cases n with
      | zero => rfl
      | succ n =>
        unfold cutRoundsH
        rw [if_neg hst]
    rw [hr]
    simp only [ite_self]
    rw [if_neg hst]
    exact h1
  · exact h

/-- The model while a column is entered. -/
structure ColInv (g : Bool) (w : ℕ) (m : Model) : Prop where
  lt : w < m.vars.length
  clean : g = false → Clean m
  loose : g = true → ∃ v, v ≠ w ∧ Loose m v

theorem ColInv.ones {g : Bool} {w : ℕ} {m : Model} (h : ColInv g w m) (cs : List ℕ) : ColInv g w (setOnes m w cs) := by
  refine ⟨?_, fun e => (h.clean e).setOnes cs h.lt, fun e => ?_⟩
  · have : ∀ (cs : List ℕ) (m : Model), (setOnes m w cs).vars = m.vars := by
      unfold setOnes
      intro cs
      induction cs with
      | nil => exact fun _ => rfl
      | cons c cs ih =>
        intro m
        rw [List.foldl_cons, ih]
        rfl
    rw [this]
    exact h.lt
  · obtain ⟨v, hv, hl⟩ := h.loose e
    exact ⟨v, hv, hl.setOnes hv cs⟩

theorem dup_addColumn (p : Path) {s : HM} (h : DupInv s) : DupInv (addColumnH H X p s).2 := by
  have h0 : ColInv s.rest.generated s.rest.m.vars.length ((s.rest.m.addVar nonnegInt).setObj s.rest.m.vars.length p.cost) := by
    refine ⟨?_, fun e v hv k hk => ?_, fun e => ?_⟩
    · change _ < (s.rest.m.vars ++ [nonnegInt]).length
      simp
    · change (s.rest.m.vars ++ [nonnegInt]).length ≤ v at hv
      rw [List.length_append] at hv
      exact h.clean e v (by simp at hv; omega) k hk
    · obtain ⟨v, hv⟩ := h.loose e
      have hne : v ≠ s.rest.m.vars.length := by have := hv.lt; omega
      exact ⟨v, hne, (hv.addVar _).setObj hne _⟩
  have fin : ∀ {s' : HM}, HStep H s s' → s'.paths = s.paths ++ [s.heap.nextPath] → s'.rest.generated = s.rest.generated →
      ColInv s.rest.generated s.rest.m.vars.length s'.rest.m → DupInv s' := by
    intro s' hs hp hg hc
    refine h.next hs ⟨_, hp.symm⟩ (fun e => hc.clean (hg.symm.trans e)) (fun e => ?_)
    obtain ⟨v, -, hv⟩ := hc.loose (hg.symm.trans e)
    exact ⟨v, hv⟩
  refine fin (step_addColumn p s) ?_ ?_ ?_
  all_goals
    unfold addColumnH Heap.setPath
    simp only [Function.update_self]
    split
    · first
        | rfl
        | exact h0.ones _
    · split
      · first
          | rfl
          | exact ((h0.ones _).ones _).ones _
      · first
          | rfl
          | exact (((h0.ones _).ones _).ones _).ones _

theorem dup_preserved (ho : Honest o) : Preserved (envH o H X) (fun w tr => DupInv w.m ∧ ∀ b, Ev.solveIp (.ok b) ∉ tr) := by
  have snoc : ∀ {tr : List (Ev Duals Path)} {e : Ev Duals Path}, (∀ b, Ev.solveIp (.ok b) ∉ tr) → (∀ b, e ≠ .solveIp (.ok b)) →
      ∀ b, Ev.solveIp (.ok b) ∉ tr ++ [e] := by
    intro tr e h1 h2 b hb
    rcases List.mem_append.1 hb with hb | hb
    · exact h1 b hb
    · exact h2 b (List.mem_singleton.1 hb).symm
  constructor
  · exact fun w tr h => h
  · exact fun w tr t h => ⟨h.1, snoc h.2 (fun b e => by cases e)⟩
  · exact fun w tr s t h => ⟨h.1, snoc h.2 (fun b e => by cases e)⟩
  · exact fun w tr h => ⟨h.1, snoc h.2 (fun b e => by cases e)⟩
  · exact fun w tr h => h
  · exact fun w tr y h => ⟨dup_generate h.1, snoc h.2 (fun b e => by cases e)⟩
  · exact fun w tr h => ⟨dup_solveRmp ho h.1, snoc h.2 (fun b e => by cases e)⟩
  · exact fun w tr h => ⟨h.1, snoc h.2 (fun b e => by cases e)⟩
  · intro w tr l i D h
    refine ⟨?_, snoc h.2 (fun b e => by cases e)⟩
    change DupInv (updateAtH H X l i D w).2.m
    unfold updateAtH
    split
    · exact h.1.next (step_cuts w.m _ _) (List.prefix_refl _) h.1.clean h.1.loose
    · split <;> exact h.1
  · exact fun w tr l i D h => ⟨h.1, snoc h.2 (fun b e => by cases e)⟩
  · exact fun w tr l i p h => ⟨dup_addColumn p h.1, snoc h.2 (fun b e => by cases e)⟩
  · intro w tr h
    have hno : ∀ b, (solveIpH o.master w.m).1 ≠ .ok b := by
      intro b e
      unfold solveIpH at e
      split at e
      · rename_i hg
        obtain ⟨v, hv⟩ := h.1.loose hg
        simp only at e
        split at e
        · rename_i hs
          exact hv.not_optimal _ (ho.ip _ hs)
        · cases e
      · cases e
    refine ⟨?_, snoc h.2 (fun b e => ?_)⟩
    · change DupInv (solveIpH o.master w.m).2
      unfold solveIpH
      split
      · simp only
        split
        · exact ⟨twice_same rfl rfl h.1.twice, h.1.alloc, h.1.clean, h.1.loose⟩
        · exact ⟨twice_same rfl rfl h.1.twice, h.1.alloc, h.1.clean, h.1.loose⟩
      · exact h.1
    · have : (solveIpH o.master w.m).1 = .ok b := by
        injection e
      exact hno b this

theorem dup_init {h : Heap} (halloc : ∀ a ∈ H.paths, a < h.nextPath) (ω : Ω) {i j a : ℕ} (hij : i < j) (hi : H.paths[i]? = some a)
    (hj : H.paths[j]? = some a) (ha : 0 < (h.path a).cost) : DupInv (HW.init H h ω).m := by
  refine ⟨⟨i, j, a, hij, hi, hj, ?_⟩, ?_, (fun _ v _ k hk => by cases hk), (fun e => by cases e)⟩
  · have hcost : ((HW.init H h ω).m.heap.path a).cost = (h.path a).cost := by
      unfold HW.init
      simp only [marksH]
      exact updates_keep Path.cost (fun p : Path => { p with initial := true }) (fun _ => rfl) _ _ _
    rw [hcost]
    exact ha
  · unfold HW.init
    rw [marksH]
    exact halloc

/-- **C125, one object twice, every call.** If one path object with a positive cost is at two positions of `initial_paths` and the solvers report an
optimum only if there is one, then no call of `fit`, the first or a later one, returns normally. -/
theorem C125_same_object_fit (ho : Honest o) {h : Heap} (halloc : ∀ a ∈ H.paths, a < h.nextPath) {i j a : ℕ} (hij : i < j)
    (hi : H.paths[i]? = some a) (hj : H.paths[j]? = some a) (ha : 0 < (h.path a).cost) {y : List ℤ} {w : HW Ω} (hw : HSession o H h X y w)
    (maxIt : ℤ) (limit : ℚ) (fuel : ℕ) (e0 : Fit.Est) {u : Unit} {s : Fit.St (HW Ω) Duals Path} :
    Fit.fit (envH o H X) (configH H maxIt limit) fuel y e0 w ≠ some (.ok u, s) := by
  have hinv : DupInv w.m := by
    induction hw with
    | new ω => exact dup_init halloc ω hij hi hj ha
    | idle _ _ ih => exact ih
    | fit _ maxIt limit fuel e0 hr ih => exact ((dup_preserved ho).fit _ _ _ _ _ ⟨ih, fun b hb => absurd hb List.not_mem_nil⟩ _ hr).1
  intro hr
  have h1 := ((dup_preserved ho).fit _ _ _ _ _ ⟨hinv, fun b hb => absurd hb List.not_mem_nil⟩ _ hr).2
  obtain ⟨tr, ht, -⟩ := (C10_returns hr).2.1 rfl
  refine h1 true ?_
  simp only
  rw [ht]
  simp

end Verif.DTree
