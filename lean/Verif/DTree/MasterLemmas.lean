import Verif.DTree.MasterSpec
import Verif.MPAbs

/-!
# Lemmas: the restricted master of the decision tree classifier as described variables and constraints
-/

set_option linter.unusedSectionVars false
set_option linter.unusedSimpArgs false

namespace Verif.DTree

open MP Spec

/-- What a variable stands for. -/
inductive Own where
  | path (p : Path)
  | ns (n t : ℕ)
  deriving DecidableEq

/-- What a constraint stands for. -/
inductive CD where
  | leaf (l : ℕ)
  | row (r : ℕ)
  | ns (l n t : ℕ)
  | cut (k : ℕ)
  deriving DecidableEq

def CD.isNs : CD → Bool
  | .ns .. => true
  | _ => false

def Own.path? : Own → Option Path
  | .path p => some p
  | .ns .. => none

def Own.cost : Own → ℚ
  | .path p => p.cost
  | .ns .. => 0

open Classical in
/-- Indicator of a proposition. -/
noncomputable def ind (P : Prop) : ℚ := if P then 1 else 0

theorem ind_pos {P : Prop} (h : P) : ind P = 1 := if_pos h
theorem ind_neg {P : Prop} (h : ¬ P) : ind P = 0 := if_neg h
theorem ind_ne_zero {P : Prop} (h : ind P ≠ 0) : P := by
  by_contra hn
  exact h (ind_neg hn)

/-- Coefficient of a path in a constraint. -/
def CD.has (d : ℕ) (left cl : ℕ → ℕ → Bool) (p : Path) : CD → Prop
  | .leaf l => p.leafId = l
  | .row r => Follows d (left r) p
  | .ns l n t => p.leafId = l ∧ (n, t) ∈ p.pairs
  | .cut k => Follows d (cl k) p

def CD.lb : CD → Option ℚ
  | .leaf _ => some 1
  | .row _ => none
  | .ns .. => some 0
  | .cut _ => some 1

def CD.ub : CD → Option ℚ
  | .leaf _ => some 1
  | .row _ => some 1
  | .ns .. => some 0
  | .cut _ => some 1

open Classical in
noncomputable def CD.coef (d : ℕ) (left cl : ℕ → ℕ → Bool) (c : CD) : Own → ℚ
  | .path p => ind (c.has d left cl p)
  | .ns n t => match c with
    | .ns _ n' t' => if n = n' ∧ t = t' then -1 else 0
    | _ => 0

/-- The description functions. -/
noncomputable def sig (d : ℕ) (left cl : ℕ → ℕ → Bool) : Sig Own CD where
  var := fun _ => nonnegInt
  lb := CD.lb
  ub := CD.ub
  coef := CD.coef d left cl

/-! ## Positions -/

theorem append_get_ne {α : Type} (l : List α) (x y : α) (h : y ≠ x) (i : ℕ) : (l ++ [x])[i]? = some y ↔ l[i]? = some y := by
  rcases Nat.lt_trichotomy i l.length with h1 | h1 | h1
  · rw [List.getElem?_append_left h1]
  · subst h1
    simp
    intro he
    exact h he.symm
  · rw [List.getElem?_eq_none (by simp; omega), List.getElem?_eq_none (by omega)]

theorem append_get_self {α : Type} (l : List α) (x : α) (h : x ∉ l) (i : ℕ) : (l ++ [x])[i]? = some x ↔ i = l.length := by
  rcases Nat.lt_trichotomy i l.length with h1 | h1 | h1
  · rw [List.getElem?_append_left h1]
    constructor
    · intro he; exact absurd (List.mem_of_getElem? he) h
    · intro he; omega
  · subst h1; simp
  · rw [List.getElem?_eq_none (by simp; omega)]
    constructor
    · intro he; cases he
    · intro he; omega

/-- Variables of paths stand at their ids. -/
def PathIdx (own : List Own) (paths : List Path) : Prop := ∀ v p, own[v]? = some (.path p) ↔ p ∈ paths ∧ p.id = v

theorem PathIdx.append_ns {own : List Own} {paths : List Path} (h : PathIdx own paths) (n t : ℕ) : PathIdx (own ++ [.ns n t]) paths := by
  intro v p
  rw [append_get_ne _ _ _ (by intro h; cases h)]
  exact h v p

theorem PathIdx.append_path {own : List Own} {paths : List Path} (h : PathIdx own paths) (p : Path) (hp : p.id = own.length) :
    PathIdx (own ++ [.path p]) (paths ++ [p]) := by
  intro v q
  rw [List.mem_append, List.mem_singleton]
  rcases Nat.lt_trichotomy v own.length with h1 | h1 | h1
  · rw [List.getElem?_append_left h1, h v q]
    constructor
    · rintro ⟨h2, h3⟩; exact ⟨.inl h2, h3⟩
    · rintro ⟨h2 | h2, h3⟩
      · exact ⟨h2, h3⟩
      · subst h2; omega
  · subst h1
    simp only [List.getElem?_append_right (Nat.le_refl _), Nat.sub_self, List.getElem?_cons_zero, Option.some.injEq, Own.path.injEq]
    constructor
    · rintro rfl; exact ⟨.inr rfl, hp⟩
    · rintro ⟨h2 | h2, h3⟩
      · have := (h own.length q).2 ⟨h2, h3⟩
        simp at this
      · exact h2.symm
  · rw [List.getElem?_eq_none (by simp; omega)]
    constructor
    · intro he; cases he
    · rintro ⟨h2 | h2, h3⟩
      · have := (h v q).2 ⟨h2, h3⟩
        rw [List.getElem?_eq_none (by omega)] at this
        cases this
      · subst h2; omega

theorem mem_ones {paths : List Path} {P : Path → Bool} {t : ℕ × ℚ} : t ∈ ones paths P ↔ ∃ p ∈ paths, P p = true ∧ t = (p.id, 1) := by
  unfold ones
  simp only [List.mem_map, List.mem_filter]
  constructor
  · rintro ⟨p, ⟨h1, h2⟩, rfl⟩; exact ⟨p, h1, h2, rfl⟩
  · rintro ⟨p, h1, h2, rfl⟩; exact ⟨p, ⟨h1, h2⟩, rfl⟩

/-- A constraint over the paths with a property. -/
theorem Rep.addOnes {d : ℕ} {left cl : ℕ → ℕ → Bool} {m : Model} {own : List Own} {cd : List CD} {paths : List Path}
    (h : Rep (sig d left cl) m own cd) (hp : PathIdx own paths) (c : CD) (hc : c.isNs = false) (terms : List (ℕ × ℚ))
    (ht : ∀ t, t ∈ terms ↔ ∃ p ∈ paths, c.has d left cl p ∧ t = (p.id, 1)) :
    Rep (sig d left cl) (MP.addRow m c.lb c.ub terms) own (cd ++ [c]) := by
  refine h.addRow' c terms ?_ ?_
  · intro t hm
    obtain ⟨p, hm', hP, rfl⟩ := (ht t).1 hm
    refine ⟨.path p, (hp _ _).2 ⟨hm', rfl⟩, ?_⟩
    exact (ind_pos hP).symm
  · intro v o ho hne
    cases o with
    | ns n t =>
      cases c with
      | ns _ _ _ => cases hc
      | leaf _ => exact absurd rfl hne
      | row _ => exact absurd rfl hne
      | cut _ => exact absurd rfl hne
    | path p =>
      have hP := ind_ne_zero hne
      obtain ⟨hm, hid⟩ := (hp v p).1 ho
      exact List.mem_map.2 ⟨(p.id, 1), (ht _).2 ⟨p, hm, hP, rfl⟩, hid⟩

/-! ## Phases of `generate_mp` -/

theorem addPathVars_spec (d : ℕ) (left cl : ℕ → ℕ → Bool) (ps : List Path) (m : Model) (own : List Own) (paths : List Path)
    (h : Rep (sig d left cl) m own []) (hobj : ObjIs m own Own.cost) (hp : PathIdx own paths) (ho : own.filterMap Own.path? = paths)
    (hn : ∀ o ∈ own, ∃ p, o = .path p) :
    let st := ps.foldl addPathVar (m, paths)
    ∃ own', Rep (sig d left cl) st.1 own' [] ∧ ObjIs st.1 own' Own.cost ∧ PathIdx own' st.2 ∧ own'.filterMap Own.path? = st.2 ∧
      (∀ o ∈ own', ∃ p, o = .path p) ∧ st.1.offset = m.offset ∧ st.1.maximize = m.maximize ∧
      st.2 = paths ++ ps.mapIdx (fun i p => { p with id := own.length + i }) ∧ own'.length = own.length + ps.length := by
  induction ps generalizing m own paths with
  | nil => exact ⟨own, h, hobj, hp, ho, hn, rfl, rfl, by simp, by simp⟩
  | cons p ps ih =>
    intro st
    have hl : m.vars.length = own.length := h.length_vars
    let p' : Path := { p with id := own.length }
    have hst : st = ps.foldl addPathVar ((m.addVar nonnegInt).setObj own.length p.cost, paths ++ [p']) := by
      change ps.foldl addPathVar (addPathVar (m, paths) p) = _
      unfold addPathVar
      simp only [hl]
      rfl
    rw [hst]
    have h1 : Rep (sig d left cl) ((m.addVar nonnegInt).setObj own.length p.cost) (own ++ [.path p']) [] :=
      (h.addVar_none (.path p') (by intro c hc; cases hc)).setObj _ _
    have h2 : ObjIs ((m.addVar nonnegInt).setObj own.length p.cost) (own ++ [.path p']) Own.cost :=
      hobj.add hl (.path p') (by rw [hl]; rfl)
    obtain ⟨own', k1, k2, k3, k4, k5, k6, k7, k8, k9⟩ := ih _ (own ++ [.path p']) (paths ++ [p']) h1 h2 (hp.append_path p' rfl)
      (by rw [List.filterMap_append, ho]; rfl)
      (by
        intro o hm
        rcases List.mem_append.1 hm with hm | hm
        · exact hn o hm
        · exact ⟨p', List.mem_singleton.1 hm⟩)
    refine ⟨own', k1, k2, k3, k4, k5, by rw [k6]; rfl, by rw [k7]; rfl, ?_, by rw [k9]; simp; omega⟩
    rw [k8, List.mapIdx_cons, List.append_assoc, List.singleton_append]
    congr 2
    apply List.ext_getElem?
    intro i
    simp only [List.getElem?_mapIdx, List.length_append, List.length_singleton]
    have : own.length + 1 + i = own.length + (i + 1) := by omega
    rw [this]

/-- Tables of constraints without consistency constraints. -/
structure Tab1 (cd : List CD) (leafCons rowCons : ℕ → Option ℕ) : Prop where
  leafc : ∀ l i, leafCons l = some i ↔ cd[i]? = some (.leaf l)
  rowc : ∀ r i, rowCons r = some i ↔ cd[i]? = some (.row r)

theorem tab_update {α : Type} [DecidableEq α] {cd : List CD} {tab : α → Option ℕ} {key : α → CD} (hinj : Function.Injective key)
    (h : ∀ l i, tab l = some i ↔ cd[i]? = some (key l)) (l : α) (hl : key l ∉ cd) :
    ∀ l' i, Function.update tab l (some cd.length) l' = some i ↔ (cd ++ [key l])[i]? = some (key l') := by
  intro l' i
  by_cases hll : l' = l
  · subst hll
    rw [Function.update_self, append_get_self _ _ hl]
    constructor
    · intro he; injection he with he; exact he.symm
    · intro he; rw [he]
  · rw [Function.update_of_ne hll, append_get_ne _ _ _ (fun he => hll (hinj he)), h]

theorem addLeafCons_spec (d : ℕ) (left cl : ℕ → ℕ → Bool) (paths : List Path) (own : List Own) (hp : PathIdx own paths) (ls : List Leaf)
    (m : Model) (lc rc : ℕ → Option ℕ) (cd : List CD) (h : Rep (sig d left cl) m own cd) (ht : Tab1 cd lc rc)
    (hnd : (ls.map (·.id)).Nodup) (hnew : ∀ l ∈ ls, .leaf l.id ∉ cd) :
    let st := ls.foldl (addLeafCons paths) (m, lc)
    Rep (sig d left cl) st.1 own (cd ++ ls.map (fun l => .leaf l.id)) ∧ Tab1 (cd ++ ls.map (fun l => .leaf l.id)) st.2 rc ∧
      st.1.obj = m.obj ∧ st.1.offset = m.offset ∧ st.1.maximize = m.maximize := by
  induction ls generalizing m lc cd with
  | nil => simpa using ⟨h, ht⟩
  | cons l ls ih =>
    intro st
    have h1 : Rep (sig d left cl) (addRow m (some 1) (some 1) (ones paths (fun p => p.leafId == l.id))) own (cd ++ [.leaf l.id]) := by
      refine Rep.addOnes h hp (.leaf l.id) rfl _ ?_
      intro t
      rw [mem_ones]
      simp only [beq_iff_eq]
      rfl
    have hlen : m.cons.length = cd.length := h.length_cons
    have hnotin : CD.leaf l.id ∉ cd := hnew l (by simp)
    have ht1 : Tab1 (cd ++ [.leaf l.id]) (Function.update lc l.id (some m.cons.length)) rc := by
      refine ⟨?_, ?_⟩
      · rw [hlen]
        exact tab_update (key := CD.leaf) (fun _ _ h => by injection h) ht.leafc l.id hnotin
      · intro r i
        rw [append_get_ne _ _ _ (by intro h; cases h)]
        exact ht.rowc r i
    rw [List.map_cons, List.nodup_cons] at hnd
    obtain ⟨k1, k2, k3, k4, k5⟩ := ih _ _ (cd ++ [.leaf l.id]) h1 ht1 hnd.2 (by
      intro l' hl' hm
      rcases List.mem_append.1 hm with hm | hm
      · exact hnew l' (by simp [hl']) hm
      · rw [List.mem_singleton] at hm
        injection hm with hm
        exact hnd.1 (List.mem_map.2 ⟨l', hl', hm⟩))
    rw [List.append_assoc] at k1 k2
    exact ⟨k1, k2, k3.trans (by rw [addRow_eq]), k4.trans (by rw [addRow_eq]), k5.trans (by rw [addRow_eq])⟩

theorem addRowCons_spec (d : ℕ) (left cl : ℕ → ℕ → Bool) (c : Conf) (splits : List Split) (paths : List Path) (own : List Own)
    (hp : PathIdx own paths) (rows : List Row) (hsat : ∀ r, ∀ p ∈ paths,
      rowSatisfiesPath (c.X.getD r []) (leafAt c.leaves p.leafId) splits p = true ↔ Follows d (left r) p)
    (rs : List ℕ) (m : Model) (lc rc : ℕ → Option ℕ) (ar : List Bool) (cd : List CD) (h : Rep (sig d left cl) m own cd)
    (ht : Tab1 cd lc rc) (hrow : ∀ r, .row r ∈ cd ↔ ar.getD r false = true) (hnd : rs.Nodup) (hlt : ∀ r ∈ rs, r < ar.length)
    (hnew : ∀ r ∈ rs, .row r ∉ cd) :
    let st := rs.foldl (addRowCons c splits paths rows) (m, rc, ar)
    ∃ ext, Rep (sig d left cl) st.1 own (cd ++ ext) ∧ Tab1 (cd ++ ext) lc st.2.1 ∧ (∀ x ∈ ext, ∃ r, x = .row r) ∧
      (∀ r, .row r ∈ cd ++ ext ↔ st.2.2.getD r false = true) ∧ st.2.2.length = ar.length ∧
      (∀ r, st.2.2.getD r false = true ↔ ar.getD r false = true ∨ (r ∈ rs ∧ (rowAt rows r).removedFromMaster = false)) ∧
      st.1.obj = m.obj ∧ st.1.offset = m.offset ∧ st.1.maximize = m.maximize := by
  induction rs generalizing m rc ar cd with
  | nil => exact ⟨[], by simpa using h, by simpa using ht, by simp, by simpa using hrow, rfl, by simp, rfl, rfl, rfl⟩
  | cons r rs ih =>
    intro st
    rw [List.nodup_cons] at hnd
    by_cases hrem : (rowAt rows r).removedFromMaster
    · have hst : st = rs.foldl (addRowCons c splits paths rows) (m, rc, ar) := by
        change rs.foldl _ (addRowCons c splits paths rows (m, rc, ar) r) = _
        unfold addRowCons
        rw [if_pos hrem]
      obtain ⟨ext, k1, k2, k3, k4, k5, k6, k7⟩ := ih m rc ar cd h ht hrow hnd.2 (fun x hx => hlt x (by simp [hx]))
        (fun x hx => hnew x (by simp [hx]))
      rw [hst]
      refine ⟨ext, k1, k2, k3, k4, k5, ?_, k7⟩
      intro x
      rw [k6]
      constructor
      · rintro (h | ⟨h1, h2⟩)
        · exact .inl h
        · exact .inr ⟨by simp [h1], h2⟩
      · rintro (h | ⟨h1, h2⟩)
        · exact .inl h
        · rcases List.mem_cons.1 h1 with h1 | h1
          · subst h1; rw [hrem] at h2; cases h2
          · exact .inr ⟨h1, h2⟩
    · have hst : st = rs.foldl (addRowCons c splits paths rows)
          (addRow m none (some 1) (ones paths (fun p => rowSatisfiesPath (c.X.getD r []) (leafAt c.leaves p.leafId) splits p)),
            Function.update rc r (some m.cons.length), ar.set r true) := by
        change rs.foldl _ (addRowCons c splits paths rows (m, rc, ar) r) = _
        conv_lhs => unfold addRowCons
        rw [if_neg hrem]
        rfl
      have h1 : Rep (sig d left cl) (addRow m none (some 1)
          (ones paths (fun p => rowSatisfiesPath (c.X.getD r []) (leafAt c.leaves p.leafId) splits p))) own (cd ++ [.row r]) := by
        refine Rep.addOnes h hp (.row r) rfl _ ?_
        intro t
        rw [mem_ones]
        constructor
        · rintro ⟨p, hm, h1, h2⟩; exact ⟨p, hm, (hsat r p hm).1 h1, h2⟩
        · rintro ⟨p, hm, h1, h2⟩; exact ⟨p, hm, (hsat r p hm).2 h1, h2⟩
      have hlen : m.cons.length = cd.length := h.length_cons
      have hnotin : CD.row r ∉ cd := hnew r (by simp)
      have ht1 : Tab1 (cd ++ [.row r]) lc (Function.update rc r (some m.cons.length)) := by
        refine ⟨?_, ?_⟩
        · intro l i
          rw [append_get_ne _ _ _ (by intro h; cases h)]
          exact ht.leafc l i
        · rw [hlen]
          exact tab_update (key := CD.row) (fun _ _ h => by injection h) ht.rowc r hnotin
      have hr : r < ar.length := hlt r (by simp)
      have har : ∀ x, (ar.set r true).getD x false = true ↔ x = r ∨ ar.getD x false = true := by
        intro x
        rw [List.getD_eq_getElem?_getD, List.getD_eq_getElem?_getD, List.getElem?_set]
        by_cases hx : r = x
        · subst hx; simp [hr]
        · simp [hx, Ne.symm hx]
      obtain ⟨ext, k1, k2, k3, k4, k5, k6, k7, k8, k9⟩ := ih _ _ (ar.set r true) (cd ++ [.row r]) h1 ht1 (by
          intro x
          rw [har, List.mem_append, List.mem_singleton, hrow]
          constructor
          · rintro (h | h)
            · exact .inr h
            · injection h with h; exact .inl h
          · rintro (h | h)
            · exact .inr (by rw [h])
            · exact .inl h) hnd.2 (fun x hx => by rw [List.length_set]; exact hlt x (by simp [hx])) (by
          intro x hx hm
          rcases List.mem_append.1 hm with hm | hm
          · exact hnew x (by simp [hx]) hm
          · rw [List.mem_singleton] at hm
            injection hm with hm
            exact hnd.1 (hm ▸ hx))
      rw [hst]
      rw [List.append_assoc] at k1 k2 k4
      refine ⟨.row r :: ext, k1, k2, ?_, k4, by rw [k5, List.length_set], ?_, by rw [k7, addRow_eq], by rw [k8, addRow_eq],
        by rw [k9, addRow_eq]⟩
      · intro x hx
        rcases List.mem_cons.1 hx with hx | hx
        · exact ⟨r, hx⟩
        · exact k3 x hx
      · intro x
        rw [k6, har]
        constructor
        · rintro ((h | h) | ⟨h1, h2⟩)
          · exact .inr ⟨by simp [h], by rw [h]; simpa using hrem⟩
          · exact .inl h
          · exact .inr ⟨by simp [h1], h2⟩
        · rintro (h | ⟨h1, h2⟩)
          · exact .inl (.inr h)
          · rcases List.mem_cons.1 h1 with h1 | h1
            · exact .inl (.inl h1)
            · exact .inr ⟨h1, h2⟩

theorem mem_nsOnes {paths : List Path} {l n t : ℕ} {x : ℕ × ℚ} :
    x ∈ nsOnes paths l n t ↔ ∃ p ∈ paths, (p.leafId = l ∧ (n, t) ∈ p.pairs) ∧ x = (p.id, 1) := by
  unfold nsOnes
  simp only [List.mem_flatMap, List.mem_map, List.mem_filter, Bool.and_eq_true, beq_iff_eq]
  constructor
  · rintro ⟨p, hp, q, ⟨hq, h1, h2⟩, rfl⟩
    exact ⟨p, hp, ⟨h1, h2 ▸ hq⟩, rfl⟩
  · rintro ⟨p, hp, ⟨h1, h2⟩, rfl⟩
    exact ⟨p, hp, (n, t), ⟨h2, h1, rfl⟩, rfl⟩

/-- State of the consistency phase after the triples `done`. -/
structure NSInv (d : ℕ) (left cl : ℕ → ℕ → Bool) (paths : List Path) (m0 : Model) (own0 : List Own) (cd0 : List CD) (st : NS)
    (own : List Own) (cd : List CD) (done : List (ℕ × ℕ × ℕ)) : Prop where
  rep : Rep (sig d left cl) st.m own cd
  pidx : PathIdx own paths
  own_ext : ∃ e, own = own0 ++ e ∧ ∀ o ∈ e, ∃ n t, o = .ns n t
  cd_ext : ∃ e, cd = cd0 ++ e ∧ ∀ x ∈ e, x.isNs = true
  vars : ∀ n t v, st.vars n t = some v ↔ own[v]? = some (.ns n t)
  vmem : ∀ n t, .ns n t ∈ own ↔ ∃ l, (l, n, t) ∈ done
  cons : ∀ l n t i, st.cons l n t = some i ↔ cd[i]? = some (.ns l n t)
  cmem : ∀ l n t, .ns l n t ∈ cd ↔ (l, n, t) ∈ done
  obj : ObjIs st.m own Own.cost
  off : st.m.offset = m0.offset
  maxi : st.m.maximize = m0.maximize

/-- The variable part of one step. -/
def nsVar (n t : ℕ) (st : NS) : NS := match st.vars n t with
  | some _ => st
  | none => ⟨st.m.addVar nonnegInt, upd2 st.vars n t st.m.vars.length, st.cons⟩

theorem NSInv.var {d : ℕ} {left cl : ℕ → ℕ → Bool} {paths : List Path} {m0 : Model} {own0 : List Own} {cd0 : List CD} {st : NS}
    {own : List Own} {cd : List CD} {done : List (ℕ × ℕ × ℕ)} (h : NSInv d left cl paths m0 own0 cd0 st own cd done) (n t : ℕ) :
    ∃ own', Rep (sig d left cl) (nsVar n t st).m own' cd ∧ PathIdx own' paths ∧ (∃ e, own' = own0 ++ e ∧ ∀ o ∈ e, ∃ n t, o = .ns n t) ∧
      (∀ n' t' v, (nsVar n t st).vars n' t' = some v ↔ own'[v]? = some (.ns n' t')) ∧
      (∀ n' t', .ns n' t' ∈ own' ↔ (n' = n ∧ t' = t) ∨ ∃ l, (l, n', t') ∈ done) ∧ (nsVar n t st).cons = st.cons ∧
      ObjIs (nsVar n t st).m own' Own.cost ∧ (nsVar n t st).m.offset = m0.offset ∧ (nsVar n t st).m.maximize = m0.maximize := by
  unfold nsVar
  cases hv : st.vars n t with
  | some v =>
    simp only
    have hmem : Own.ns n t ∈ own := List.mem_of_getElem? ((h.vars n t v).1 hv)
    refine ⟨own, h.rep, h.pidx, h.own_ext, h.vars, ?_, trivial, h.obj, h.off, h.maxi⟩
    intro n' t'
    rw [h.vmem]
    constructor
    · exact .inr
    · rintro (⟨rfl, rfl⟩ | h')
      · exact (h.vmem _ _).1 hmem
      · exact h'
  | none =>
    simp only
    have hnot : Own.ns n t ∉ own := by
      intro hm
      obtain ⟨v, hl, he⟩ := List.mem_iff_getElem.1 hm
      have := (h.vars n t v).2 (by rw [List.getElem?_eq_getElem hl, he])
      rw [hv] at this
      cases this
    refine ⟨own ++ [.ns n t], ?_, h.pidx.append_ns n t, ?_, ?_, ?_, trivial, ?_, h.off, h.maxi⟩
    · refine h.rep.addVar_none (.ns n t) ?_
      intro c hc
      change CD.coef d left cl c (.ns n t) = 0
      cases c with
      | ns l n' t' =>
        simp only [CD.coef]
        rw [if_neg]
        rintro ⟨rfl, rfl⟩
        exact hnot ((h.vmem _ _).2 ⟨l, (h.cmem _ _ _).1 hc⟩)
      | leaf _ => rfl
      | row _ => rfl
      | cut _ => rfl
    · obtain ⟨e, he, hn⟩ := h.own_ext
      refine ⟨e ++ [.ns n t], by rw [he, List.append_assoc], ?_⟩
      intro o ho
      rcases List.mem_append.1 ho with ho | ho
      · exact hn o ho
      · exact ⟨n, t, List.mem_singleton.1 ho⟩
    · intro n' t' v
      unfold upd2
      split_ifs with hc
      · obtain ⟨rfl, rfl⟩ := hc
        rw [append_get_self _ _ hnot, h.rep.length_vars]
        constructor
        · intro he; injection he with he; exact he.symm
        · intro he; rw [he]
      · rw [append_get_ne _ _ _ (by rintro ⟨rfl, rfl⟩; exact hc ⟨rfl, rfl⟩), h.vars]
    · intro n' t'
      rw [List.mem_append, List.mem_singleton, h.vmem]
      constructor
      · rintro (h' | h')
        · exact .inr h'
        · injection h' with h1 h2; exact .inl ⟨h1, h2⟩
      · rintro (⟨rfl, rfl⟩ | h')
        · exact .inr rfl
        · exact .inl h'
    · exact h.obj.add_zero (.ns n t) rfl rfl

theorem NSInv.step {d : ℕ} {left cl : ℕ → ℕ → Bool} {paths : List Path} {m0 : Model} {own0 : List Own} {cd0 : List CD} {st : NS}
    {own : List Own} {cd : List CD} {done : List (ℕ × ℕ × ℕ)} (h : NSInv d left cl paths m0 own0 cd0 st own cd done) (l n t : ℕ)
    (hnew : (l, n, t) ∉ done) :
    ∃ own' cd', NSInv d left cl paths m0 own0 cd0 (addNsCons paths l n st t) own' cd' (done ++ [(l, n, t)]) := by
  obtain ⟨own', k1, k2, k3, k4, k5, k6, k7, k8, k9⟩ := h.var n t
  have hst : addNsCons paths l n st t = ⟨addRow (nsVar n t st).m (some 0) (some 0)
      ((((nsVar n t st).vars n t).getD 0, -1) :: nsOnes paths l n t), (nsVar n t st).vars,
      upd3 (nsVar n t st).cons l n t (nsVar n t st).m.cons.length⟩ := rfl
  have hin : Own.ns n t ∈ own' := (k5 n t).2 (.inl ⟨rfl, rfl⟩)
  obtain ⟨v, hvl, hve⟩ := List.mem_iff_getElem.1 hin
  have hv : own'[v]? = some (.ns n t) := by rw [List.getElem?_eq_getElem hvl, hve]
  have hvar : (nsVar n t st).vars n t = some v := (k4 n t v).2 hv
  have hnotin : CD.ns l n t ∉ cd := fun hm => hnew ((h.cmem _ _ _).1 hm)
  refine ⟨own', cd ++ [.ns l n t], ?_⟩
  rw [hst]
  refine ⟨?_, k2, k3, ?_, k4, ?_, ?_, ?_, ?_, ?_, ?_⟩
  · rw [hvar]
    refine k1.addRow' (.ns l n t) _ ?_ ?_
    · intro x hx
      rcases List.mem_cons.1 hx with hx | hx
      · subst hx
        refine ⟨.ns n t, hv, ?_⟩
        change _ = CD.coef d left cl (.ns l n t) (.ns n t)
        simp [CD.coef]
      · obtain ⟨p, hp, hP, rfl⟩ := mem_nsOnes.1 hx
        exact ⟨.path p, (k2 _ _).2 ⟨hp, rfl⟩, (ind_pos (P := CD.has d left cl p (.ns l n t)) hP).symm⟩
    · intro v' o ho hne
      cases o with
      | ns n' t' =>
        have : n' = n ∧ t' = t := by
          by_contra hc
          apply hne
          change CD.coef d left cl (.ns l n t) (.ns n' t') = 0
          simp only [CD.coef]
          exact if_neg hc
        obtain ⟨rfl, rfl⟩ := this
        have h1 := (k4 n' t' v').2 ho
        rw [hvar] at h1
        injection h1 with h1
        simp [h1]
      | path p =>
        have hP : p.leafId = l ∧ (n, t) ∈ p.pairs := ind_ne_zero (P := CD.has d left cl p (.ns l n t)) hne
        obtain ⟨hp, hid⟩ := (k2 v' p).1 ho
        rw [List.map_cons, List.mem_cons]
        right
        exact List.mem_map.2 ⟨(p.id, 1), mem_nsOnes.2 ⟨p, hp, hP, rfl⟩, hid⟩
  · obtain ⟨e, he, hn⟩ := h.cd_ext
    refine ⟨e ++ [.ns l n t], by rw [he, List.append_assoc], ?_⟩
    intro o ho
    rcases List.mem_append.1 ho with ho | ho
    · exact hn o ho
    · rw [List.mem_singleton.1 ho]; rfl
  · intro n' t'
    rw [k5]
    constructor
    · rintro (⟨rfl, rfl⟩ | ⟨l', h'⟩)
      · exact ⟨l, by simp⟩
      · exact ⟨l', by simp [h']⟩
    · rintro ⟨l', h'⟩
      rcases List.mem_append.1 h' with h' | h'
      · exact .inr ⟨l', h'⟩
      · rw [List.mem_singleton] at h'
        simp only [Prod.mk.injEq] at h'
        exact .inl h'.2
  · intro l' n' t' i
    simp only [upd3]
    rw [k1.length_cons, k6]
    split_ifs with hc
    · obtain ⟨rfl, rfl, rfl⟩ := hc
      rw [append_get_self _ _ hnotin]
      constructor
      · intro he; injection he with he; exact he.symm
      · intro he; rw [he]
    · rw [append_get_ne _ _ _ (by rintro ⟨rfl, rfl, rfl⟩; exact hc ⟨rfl, rfl, rfl⟩), h.cons]
  · intro l' n' t'
    rw [List.mem_append, List.mem_singleton, h.cmem, List.mem_append, List.mem_singleton]
    simp only [CD.ns.injEq, Prod.mk.injEq]
  · have := k7
    unfold ObjIs at *
    simp only [addRow_eq]
    exact this
  · simp only [addRow_eq]; exact k8
  · simp only [addRow_eq]; exact k9

theorem NSInv.fold {d : ℕ} {left cl : ℕ → ℕ → Bool} {paths : List Path} {m0 : Model} {own0 : List Own} {cd0 : List CD}
    (ts : List (ℕ × ℕ × ℕ)) {st : NS} {own : List Own} {cd : List CD} {done : List (ℕ × ℕ × ℕ)}
    (h : NSInv d left cl paths m0 own0 cd0 st own cd done) (hnd : (done ++ ts).Nodup) :
    ∃ own' cd', NSInv d left cl paths m0 own0 cd0 (ts.foldl (fun st x => addNsCons paths x.1 x.2.1 st x.2.2) st) own' cd' (done ++ ts) := by
  induction ts generalizing st own cd done with
  | nil => exact ⟨own, cd, by simpa using h⟩
  | cons x ts ih =>
    obtain ⟨l, n, t⟩ := x
    have hx : (l, n, t) ∉ done := by
      intro hm
      have := List.nodup_append.1 hnd
      exact this.2.2 _ hm _ (by simp) rfl
    obtain ⟨own1, cd1, h1⟩ := h.step l n t hx
    have hnd' : (done ++ [(l, n, t)] ++ ts).Nodup := by
      rw [List.append_assoc]; exact hnd
    obtain ⟨own2, cd2, h2⟩ := ih h1 hnd'
    rw [List.append_assoc] at h2
    exact ⟨own2, cd2, h2⟩

/-- The triples (leaf, node, split) of the consistency constraints in loop order. -/
def triples (leaves : List Leaf) (nodes : List Node) : List (ℕ × ℕ × ℕ) :=
  leaves.flatMap fun leaf => (leaf.leftNodes ++ leaf.rightNodes).flatMap fun nodeId =>
    (nodeAt nodes nodeId).candidateSplits.map fun t => (leaf.id, (nodeAt nodes nodeId).id, t)

theorem nsFold_eq (leaves : List Leaf) (nodes : List Node) (paths : List Path) (st : NS) :
    leaves.foldl (addNsLeaf nodes paths) st =
      (triples leaves nodes).foldl (fun st x => addNsCons paths x.1 x.2.1 st x.2.2) st := by
  unfold triples
  rw [List.foldl_flatMap]
  congr 1
  funext st leaf
  unfold addNsLeaf
  rw [List.foldl_flatMap]
  congr 1
  funext st n
  unfold addNsNode
  simp only
  rw [List.foldl_map]

theorem nodeAt_tree {d : ℕ} {leaves : List Leaf} {nodes : List Node} {splits : List Split} (ht : Tree d leaves nodes splits) {n : ℕ}
    (hn : n < 2 ^ d - 1) : (nodeAt nodes n).id = n ∧ (nodeAt nodes n).candidateSplits = cand nodes n ∧ (cand nodes n).Nodup := by
  have hl : n < nodes.length := by rw [ht.nodes_length]; exact hn
  have hget := List.getElem?_eq_getElem hl
  have h1 : nodeAt nodes n = nodes[n] := by unfold nodeAt; rw [List.getD_eq_getElem?_getD, hget]; rfl
  have h2 : cand nodes n = nodes[n].candidateSplits := by unfold cand; rw [hget]; rfl
  refine ⟨?_, ?_, ?_⟩
  · rw [h1]; exact ht.node_id n _ hget
  · rw [h1, h2]
  · rw [h2]; exact ht.cand_nodup _ (List.getElem_mem hl)

theorem mem_fullLeaves {d : ℕ} {leaf : Leaf} : leaf ∈ fullLeaves d ↔ ∃ l < 2 ^ d, leaf = createLeaf l d := by
  unfold fullLeaves
  simp only [List.mem_map, List.mem_range]
  constructor
  · rintro ⟨l, h, rfl⟩; exact ⟨l, h, rfl⟩
  · rintro ⟨l, h, rfl⟩; exact ⟨l, h, rfl⟩

theorem mem_leafNodes {d l : ℕ} (hl : l < 2 ^ d) (n : ℕ) :
    n ∈ (createLeaf l d).leftNodes ++ (createLeaf l d).rightNodes ↔ ∃ k < d, n = anc d l k := by
  have h := (C36_create_leaf ⟨0, [], [], 0, 0, 0, false⟩ hl).2.1
  rw [h.mem_iff, setLeaf_nodeIds _ hl]
  simp only [List.mem_map, List.mem_reverse, List.mem_range]
  constructor
  · rintro ⟨k, hk, rfl⟩; exact ⟨k, hk, rfl⟩
  · rintro ⟨k, hk, rfl⟩; exact ⟨k, hk, rfl⟩

theorem leafNodes_nodup {d l : ℕ} (hl : l < 2 ^ d) : ((createLeaf l d).leftNodes ++ (createLeaf l d).rightNodes).Nodup := by
  have h := (C36_create_leaf ⟨0, [], [], 0, 0, 0, false⟩ hl).2.1
  rw [h.nodup_iff]
  exact (C36_set_leaf ⟨0, [], [], 0, 0, 0, false⟩ hl).2.2.2.1

theorem mem_triples {d : ℕ} {leaves : List Leaf} {nodes : List Node} {splits : List Split} (ht : Tree d leaves nodes splits) (l n t : ℕ) :
    (l, n, t) ∈ triples leaves nodes ↔ l < 2 ^ d ∧ ∃ k < d, n = anc d l k ∧ t ∈ cand nodes n := by
  unfold triples
  rw [ht.leaves]
  simp only [List.mem_flatMap, List.mem_map, Prod.mk.injEq]
  constructor
  · rintro ⟨leaf, hleaf, m, hm, t', ht', rfl, rfl, rfl⟩
    obtain ⟨l', hl', rfl⟩ := mem_fullLeaves.1 hleaf
    obtain ⟨k, hk, rfl⟩ := (mem_leafNodes hl' m).1 hm
    obtain ⟨e1, e2, _⟩ := nodeAt_tree ht (anc_lt hl' hk)
    refine ⟨hl', k, hk, e1, ?_⟩
    rw [e1, ← e2]
    exact ht'
  · rintro ⟨hl, k, hk, rfl, hc⟩
    obtain ⟨e1, e2, _⟩ := nodeAt_tree ht (anc_lt hl hk)
    exact ⟨createLeaf l d, mem_fullLeaves.2 ⟨l, hl, rfl⟩, anc d l k, (mem_leafNodes hl _).2 ⟨k, hk, rfl⟩, t, by rw [e2]; exact hc, rfl, e1, rfl⟩

theorem triples_nodup {d : ℕ} {leaves : List Leaf} {nodes : List Node} {splits : List Split} (ht : Tree d leaves nodes splits) :
    (triples leaves nodes).Nodup := by
  unfold triples
  rw [ht.leaves, List.nodup_flatMap]
  refine ⟨?_, ?_⟩
  · intro leaf hleaf
    obtain ⟨l, hl, rfl⟩ := mem_fullLeaves.1 hleaf
    rw [List.nodup_flatMap]
    refine ⟨?_, ?_⟩
    · intro n hn
      obtain ⟨k, hk, rfl⟩ := (mem_leafNodes hl n).1 hn
      obtain ⟨_, e2, e3⟩ := nodeAt_tree ht (anc_lt hl hk)
      rw [e2]
      exact e3.map (fun a b h => by simpa using h)
    · refine (leafNodes_nodup hl).pairwise_of_forall_ne ?_
      intro n hn n' hn' hne x hx hx'
      obtain ⟨k, hk, rfl⟩ := (mem_leafNodes hl n).1 hn
      obtain ⟨k', hk', rfl⟩ := (mem_leafNodes hl n').1 hn'
      obtain ⟨_, _, rfl⟩ := List.mem_map.1 hx
      obtain ⟨_, _, he⟩ := List.mem_map.1 hx'
      simp only [Prod.mk.injEq] at he
      rw [(nodeAt_tree ht (anc_lt hl hk)).1, (nodeAt_tree ht (anc_lt hl hk')).1] at he
      exact hne he.2.1.symm
  · unfold fullLeaves
    rw [List.pairwise_map]
    refine List.nodup_range.pairwise_of_forall_ne ?_
    intro l _ l' _ hne x hx hx'
    simp only [List.mem_flatMap, List.mem_map] at hx hx'
    obtain ⟨_, _, _, _, rfl⟩ := hx
    obtain ⟨_, _, _, _, he⟩ := hx'
    simp only [Prod.mk.injEq] at he
    exact hne he.1.symm

end Verif.DTree
