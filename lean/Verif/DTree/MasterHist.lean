import Verif.DTree.MasterInv

/-!
# Lemmas: cuts, solves and histories of the restricted master
-/

set_option linter.unusedSectionVars false
set_option linter.unusedSimpArgs false

namespace Verif.DTree

open MP Spec

/-! ## `add_beta_cuts` -/

theorem getD_set_true (ar : List Bool) {r : ℕ} (hr : r < ar.length) (x : ℕ) :
    (ar.set r true).getD x false = true ↔ x = r ∨ ar.getD x false = true := by
  rw [List.getD_eq_getElem?_getD, List.getD_eq_getElem?_getD, List.getElem?_set]
  by_cases hx : r = x
  · subst hx; simp [hr]
  · simp [hx, Ne.symm hx]

/-- The loop of `add_beta_cuts`, `_dtree_classifier.py:995-1013`, with the outcomes of `get_satisfied_path_ids` and `violated_row_constraint`
as arguments. -/
def betaLoopWith (rows : List Row) (ids : ℕ → List ℕ) (viol : ℕ → Bool) : List ℕ → BS → BS
  | [], b => b
  | r :: rest, b =>
    if (rowAt rows r).removedFromMaster then betaLoopWith rows ids viol rest b
    else if b.num ≥ 10 then b
    else if b.addedRow.getD r false then betaLoopWith rows ids viol rest b
    else if viol r then
      betaLoopWith rows ids viol rest
        ⟨addRow b.m none (some 1) ((ids r).map (fun i => (i, 1))), Function.update b.rowCons r (some b.m.cons.length), b.addedRow.set r true,
          b.num + 1⟩
    else betaLoopWith rows ids viol rest b

theorem betaLoop_with (rows : List Row) (sol : ℕ → ℚ) (rs : List ℕ) (b : BS) : betaLoop rows sol rs b =
    betaLoopWith rows (fun r => (rowAt rows r).reachablePaths) (fun r => violatedRow sol (rowAt rows r).reachablePaths) rs b := by
  induction rs generalizing b with
  | nil => rfl
  | cons r rs ih =>
    unfold betaLoop betaLoopWith
    simp only [ih]

theorem betaLoopWith_spec {d : ℕ} {splits : List Split} {X : List (List ℚ)} {paths : List Path} {rows : List Row} {own : List Own}
    {cl : ℕ → ℕ → Bool} (hp : PathIdx own paths) (hdata : DataOk d splits X paths rows) {ids : ℕ → List ℕ}
    (hids : ∀ r i, i ∈ ids r ↔ i ∈ (rowAt rows r).reachablePaths) (viol : ℕ → Bool) (rs : List ℕ) (b : BS) (cd : List CD)
    (h : Rep (sig d (fun r => rowLeft splits (X.getD r [])) cl) b.m own cd) (hc : ∀ r i, b.rowCons r = some i ↔ cd[i]? = some (.row r))
    (hm : ∀ r, .row r ∈ cd ↔ r < X.length ∧ b.addedRow.getD r false = true) (hlt : ∀ r ∈ rs, r < X.length) (hl : X.length ≤ b.addedRow.length)
    (hn : b.num ≤ 10) :
    let b' := betaLoopWith rows ids viol rs b
    ∃ new : List ℕ, Rep (sig d (fun r => rowLeft splits (X.getD r [])) cl) b'.m own (cd ++ new.map .row) ∧
      (∀ r i, b'.rowCons r = some i ↔ (cd ++ new.map .row)[i]? = some (.row r)) ∧
      (∀ r, .row r ∈ cd ++ new.map .row ↔ r < X.length ∧ b'.addedRow.getD r false = true) ∧ b'.addedRow.length = b.addedRow.length ∧
      b'.num = b.num + new.length ∧ b'.num ≤ 10 ∧ new.Sublist rs ∧ new.Nodup ∧
      (∀ r ∈ new, (rowAt rows r).removedFromMaster = false ∧ b.addedRow.getD r false = false ∧
        viol r = true) ∧
      (∀ r, r ∉ new → b'.addedRow.getD r false = b.addedRow.getD r false) ∧
      b'.m.obj = b.m.obj ∧ b'.m.offset = b.m.offset ∧ b'.m.maximize = b.m.maximize := by
  induction rs generalizing b cd with
  | nil => exact ⟨[], by simpa [betaLoopWith] using h, by simpa [betaLoopWith] using hc, by simpa [betaLoopWith] using hm, rfl, rfl, hn,
      List.nil_sublist _, List.nodup_nil, by simp, by simp [betaLoopWith], rfl, rfl, rfl⟩
  | cons r rs ih =>
    intro b'
    have hskip : ∀ b'' : BS, b'' = betaLoopWith rows ids viol rs b → ∃ new : List ℕ,
        Rep (sig d (fun r => rowLeft splits (X.getD r [])) cl) b''.m own (cd ++ new.map .row) ∧
        (∀ r i, b''.rowCons r = some i ↔ (cd ++ new.map .row)[i]? = some (.row r)) ∧
        (∀ r, .row r ∈ cd ++ new.map .row ↔ r < X.length ∧ b''.addedRow.getD r false = true) ∧ b''.addedRow.length = b.addedRow.length ∧
        b''.num = b.num + new.length ∧ b''.num ≤ 10 ∧ new.Sublist (r :: rs) ∧ new.Nodup ∧
        (∀ r ∈ new, (rowAt rows r).removedFromMaster = false ∧ b.addedRow.getD r false = false ∧
          viol r = true) ∧
        (∀ r, r ∉ new → b''.addedRow.getD r false = b.addedRow.getD r false) ∧
        b''.m.obj = b.m.obj ∧ b''.m.offset = b.m.offset ∧ b''.m.maximize = b.m.maximize := by
      rintro b'' rfl
      obtain ⟨new, k1, k2, k3, k4, k5, k6, k7, k8⟩ := ih b cd h hc hm (fun x hx => hlt x (by simp [hx])) hl hn
      exact ⟨new, k1, k2, k3, k4, k5, k6, k7.cons _, k8⟩
    by_cases h1 : (rowAt rows r).removedFromMaster = true
    · exact hskip b' (by simp only [b', betaLoopWith]; rw [if_pos h1])
    by_cases h2 : b.num ≥ 10
    · have : b' = b := by simp only [b', betaLoopWith]; rw [if_neg h1, if_pos h2]
      rw [this]
      exact ⟨[], by simpa using h, by simpa using hc, by simpa using hm, rfl, rfl, hn, List.nil_sublist _, List.nodup_nil, by simp,
        by simp, rfl, rfl, rfl⟩
    by_cases h3 : b.addedRow.getD r false = true
    · exact hskip b' (by simp only [b', betaLoopWith]; rw [if_neg h1, if_neg h2, if_pos h3])
    by_cases h4 : viol r = true
    · have hr : r < X.length := hlt r (by simp)
      have hra : r < b.addedRow.length := by omega
      have hb' : b' = betaLoopWith rows ids viol rs ⟨addRow b.m none (some 1) ((ids r).map (fun i => (i, 1))),
          Function.update b.rowCons r (some b.m.cons.length), b.addedRow.set r true, b.num + 1⟩ := by
        simp only [b', betaLoopWith]; rw [if_neg h1, if_neg h2, if_neg h3, if_pos h4]
      have hnot : CD.row r ∉ cd := fun hmem => h3 ((hm r).1 hmem).2
      have hrow : rows[r]? = some (rowAt rows r) := by
        have : r < rows.length := by rw [hdata.1]; exact hr
        unfold rowAt
        rw [List.getD_eq_getElem?_getD, List.getElem?_eq_getElem this]
        rfl
      have hrep : Rep (sig d (fun r => rowLeft splits (X.getD r [])) cl)
          (addRow b.m none (some 1) ((ids r).map (fun i => (i, 1)))) own (cd ++ [.row r]) := by
        refine Rep.addOnes h hp (.row r) rfl _ ?_
        intro t
        rw [List.mem_map]
        constructor
        · rintro ⟨i, hi, rfl⟩
          obtain ⟨p, hpm, rfl, hf⟩ := ((hdata.2 r _ hrow).2 i).1 ((hids r i).1 hi)
          exact ⟨p, hpm, hf, rfl⟩
        · rintro ⟨p, hpm, hf, rfl⟩
          exact ⟨p.id, (hids r p.id).2 (((hdata.2 r _ hrow).2 p.id).2 ⟨p, hpm, rfl, hf⟩), rfl⟩
      obtain ⟨new, k1, k2, k3, k4, k5, k6, k7, k8, k9, k10, k11, k12, k13⟩ := ih
        ⟨addRow b.m none (some 1) ((ids r).map (fun i => (i, 1))),
          Function.update b.rowCons r (some b.m.cons.length), b.addedRow.set r true, b.num + 1⟩ (cd ++ [.row r]) hrep
        (by
          rw [h.length_cons]
          exact tab_update (key := CD.row) (fun _ _ h => by injection h) hc r hnot)
        (by
          intro x
          simp only
          rw [getD_set_true _ hra, List.mem_append, List.mem_singleton, hm]
          constructor
          · rintro (h' | h')
            · exact ⟨h'.1, .inr h'.2⟩
            · injection h' with h'; subst h'; exact ⟨hr, .inl rfl⟩
          · rintro ⟨e1, h' | h'⟩
            · exact .inr (by rw [h'])
            · exact .inl ⟨e1, h'⟩)
        (fun x hx => hlt x (by simp [hx])) (by simpa using hl) (by simp only; omega)
      rw [hb']
      rw [List.append_assoc] at k1
      simp only [List.append_assoc] at k2 k3
      have hrn : r ∉ new := by
        intro hmem
        have := (k9 r hmem).2.1
        rw [(getD_set_true _ hra r).2 (.inl rfl)] at this
        cases this
      refine ⟨r :: new, k1, k2, k3, by rw [k4]; simp, by rw [k5]; simp only [List.length_cons]; omega, k6, k7.cons_cons r,
        List.nodup_cons.2 ⟨hrn, k8⟩, ?_, ?_, by rw [k11]; simp only [addRow_eq], by rw [k12]; simp only [addRow_eq],
        by rw [k13]; simp only [addRow_eq]⟩
      · intro x hx
        rcases List.mem_cons.1 hx with rfl | hx
        · exact ⟨by simpa using h1, by simpa using h3, h4⟩
        · obtain ⟨e1, e2, e3⟩ := k9 x hx
          refine ⟨e1, ?_, e3⟩
          by_contra hne
          have := (getD_set_true b.addedRow hra x).2 (.inr (by simpa using hne))
          simp only at e2
          rw [this] at e2
          cases e2
      · intro x hx
        rw [List.mem_cons, not_or] at hx
        rw [k10 x hx.2]
        simp only
        rw [List.getD_eq_getElem?_getD, List.getElem?_set, if_neg (fun e => hx.1 e.symm), ← List.getD_eq_getElem?_getD]
    · exact hskip b' (by simp only [b', betaLoopWith]; rw [if_neg h1, if_neg h2, if_neg h3, if_neg h4])

theorem append_rows_get {cd : List CD} {new : List ℕ} {x : CD} (hx : ∀ r, x ≠ .row r) (i : ℕ) :
    (cd ++ new.map CD.row)[i]? = some x ↔ cd[i]? = some x := by
  rcases Nat.lt_or_ge i cd.length with h | h
  · rw [List.getElem?_append_left h]
  · rw [List.getElem?_append_right h, List.getElem?_eq_none h]
    constructor
    · intro he
      obtain ⟨r, _, he⟩ := List.mem_map.1 (List.mem_of_getElem? he)
      exact absurd he.symm (hx r)
    · intro he; cases he

theorem append_rows_mem {cd : List CD} {new : List ℕ} {x : CD} (hx : ∀ r, x ≠ .row r) : x ∈ cd ++ new.map CD.row ↔ x ∈ cd := by
  rw [List.mem_iff_getElem?, List.mem_iff_getElem?]
  exact exists_congr (append_rows_get hx)

/-- `add_beta_cuts`, with the outcomes of its tests as arguments. -/
def storeBeta (c : Conf) (ids : ℕ → List ℕ) (viol : ℕ → Bool) (s : MS) : ℕ × MS :=
  let b := betaLoopWith (s.dataRows.getD []) ids viol (List.range c.X.length) ⟨s.m, s.rowCons, s.addedRow, 0⟩
  (b.num, { s with
    m := b.m
    rowCons := b.rowCons
    addedRow := b.addedRow })

/-- `add_beta_cuts` preserves the invariant; `new` are the rows that got a constraint. -/
theorem inv_storeBeta {d : ℕ} {c : Conf} {splits : List Split} {cuts : List (List Bool)} {own : List Own} {cd : List CD} {s : MS}
    (h : Inv d c splits cuts own cd s) {ids : ℕ → List ℕ}
    (hids : ∀ r i, i ∈ ids r ↔ i ∈ (rowAt (s.dataRows.getD []) r).reachablePaths) (viol : ℕ → Bool) :
    ∃ new : List ℕ, Inv d c splits cuts own (cd ++ new.map .row) (storeBeta c ids viol s).2 ∧ (storeBeta c ids viol s).1 = new.length ∧ new.length ≤ 10 ∧
      new.Nodup ∧ (∀ r ∈ new, r < c.X.length ∧ (rowAt (s.dataRows.getD []) r).removedFromMaster = false ∧ s.addedRow.getD r false = false ∧
        viol r = true ∧ (storeBeta c ids viol s).2.addedRow.getD r false = true) ∧
      (∀ r, r ∉ new → (storeBeta c ids viol s).2.addedRow.getD r false = s.addedRow.getD r false) ∧
      (storeBeta c ids viol s).2.paths = s.paths ∧ (storeBeta c ids viol s).2.nsVars = s.nsVars ∧ (storeBeta c ids viol s).2.cutCons = s.cutCons ∧
      (storeBeta c ids viol s).2.splits = s.splits ∧ (storeBeta c ids viol s).2.m.cons.length = s.m.cons.length + new.length := by
  obtain ⟨rows, hrows, hdata⟩ := h.data
  rw [hrows, Option.getD_some] at hids
  obtain ⟨new, k1, k2, k3, k4, k5, k6, k7, k8, k9, k10, k11, k12, k13⟩ := betaLoopWith_spec h.pidx hdata hids viol (List.range c.X.length)
    ⟨s.m, s.rowCons, s.addedRow, 0⟩ cd h.rep h.rowc h.rowmem (fun r hr => List.mem_range.1 hr) (by have := h.added; simp only; omega) (by simp)
  have hb : storeBeta c ids viol s = ((betaLoopWith rows ids viol (List.range c.X.length) ⟨s.m, s.rowCons, s.addedRow, 0⟩).num, { s with
      m := (betaLoopWith rows ids viol (List.range c.X.length) ⟨s.m, s.rowCons, s.addedRow, 0⟩).m
      rowCons := (betaLoopWith rows ids viol (List.range c.X.length) ⟨s.m, s.rowCons, s.addedRow, 0⟩).rowCons
      addedRow := (betaLoopWith rows ids viol (List.range c.X.length) ⟨s.m, s.rowCons, s.addedRow, 0⟩).addedRow }) := by
    unfold storeBeta
    rw [hrows]
    rfl
  rw [hb, hrows]
  simp only [Nat.zero_add] at k5
  refine ⟨new, ?_, k5, by rw [← k5]; exact k6, k8, ?_, k10, rfl, rfl, rfl, rfl, ?_⟩
  · refine ⟨h.gen, h.same, k1, ?_, k12.trans h.off, k13.trans h.maxi, h.paths, h.pidx, h.pvars, h.good, h.nsv, h.nsmem, ?_, k2, ?_, ?_, ?_, k3,
      ?_, h.cutlen, k4.trans h.added, ⟨rows, rfl, hdata⟩, h.cutsFilled, h.cut, h.distinct⟩
    · have := h.obj
      unfold ObjIs at *
      rw [← this]
      exact k11
    · intro l i
      rw [append_rows_get (by intro r h; cases h)]
      exact h.leafc l i
    · intro l n t i
      rw [append_rows_get (by intro r h; cases h)]
      exact h.nsc l n t i
    · intro k i
      rw [append_rows_get (by intro r h; cases h)]
      exact h.cutc k i
    · intro l
      rw [append_rows_mem (by intro r h; cases h)]
      exact h.leafmem l
    · intro l n t
      rw [append_rows_mem (by intro r h; cases h)]
      exact h.nscmem l n t
  · intro r hr
    obtain ⟨e1, e2, e3⟩ := k9 r hr
    refine ⟨List.mem_range.1 (k7.subset hr), e1, e2, e3, ?_⟩
    exact ((k3 r).1 (List.mem_append_right _ (List.mem_map.2 ⟨r, hr, rfl⟩))).2
  · change (betaLoopWith rows ids viol (List.range c.X.length) ⟨s.m, s.rowCons, s.addedRow, 0⟩).m.cons.length = _
    rw [k1.length_cons, h.rep.length_cons, List.length_append, List.length_map]

/-- `add_beta_cuts` preserves the invariant; `new` are the rows that got a constraint. -/
theorem inv_addBetaCuts {d : ℕ} {c : Conf} {splits : List Split} {cuts : List (List Bool)} {own : List Own} {cd : List CD} {s : MS}
    (h : Inv d c splits cuts own cd s) :
    ∃ new : List ℕ, Inv d c splits cuts own (cd ++ new.map .row) (addBetaCuts c s).2 ∧ (addBetaCuts c s).1 = new.length ∧ new.length ≤ 10 ∧
      new.Nodup ∧ (∀ r ∈ new, r < c.X.length ∧ (rowAt (s.dataRows.getD []) r).removedFromMaster = false ∧ s.addedRow.getD r false = false ∧
        violatedRow s.pathSol (rowAt (s.dataRows.getD []) r).reachablePaths = true ∧ (addBetaCuts c s).2.addedRow.getD r false = true) ∧
      (∀ r, r ∉ new → (addBetaCuts c s).2.addedRow.getD r false = s.addedRow.getD r false) ∧
      (addBetaCuts c s).2.paths = s.paths ∧ (addBetaCuts c s).2.nsVars = s.nsVars ∧ (addBetaCuts c s).2.cutCons = s.cutCons ∧
      (addBetaCuts c s).2.splits = s.splits ∧ (addBetaCuts c s).2.m.cons.length = s.m.cons.length + new.length := by
  have e : addBetaCuts c s = storeBeta c (fun r => (rowAt (s.dataRows.getD []) r).reachablePaths)
      (fun r => violatedRow s.pathSol (rowAt (s.dataRows.getD []) r).reachablePaths) s := by
    unfold addBetaCuts storeBeta
    simp only [betaLoop_with]
  rw [e]
  exact inv_storeBeta h (fun _ _ => Iff.rfl) _

/-! ## `add_cuts` -/

theorem callback_mem (pv sv : List ℕ) (coeffs : List ℚ) (sols : List (ℕ → Bool)) (acc : List (List Bool × List Bool)) (x : List Bool × List Bool)
    (hx : x ∈ sols.foldl (cutCallback pv sv coeffs) acc) :
    x ∈ acc ∨ ∃ a ∈ sols, x = (pv.map a, sv.map a) ∧ ((pv.zip coeffs).map (fun t => if a t.1 then t.2 else 0)).sum > 1 + eps := by
  induction sols generalizing acc with
  | nil => exact .inl hx
  | cons a as ih =>
    rw [List.foldl_cons] at hx
    rcases ih _ hx with h | ⟨a', ha', h⟩
    · unfold cutCallback at h
      simp only at h
      split_ifs at h with hc
      · rcases List.mem_append.1 h with h | h
        · exact .inl h
        · exact .inr ⟨a, by simp, List.mem_singleton.1 h, hc⟩
      · exact .inl h
    · exact .inr ⟨a', by simp [ha'], h⟩

theorem follows_congr {d : ℕ} {p : Path} {a b : ℕ → Bool} (h : ∀ t ∈ p.splits, a t = b t) : Follows d a p ↔ Follows d b p := by
  unfold Follows
  refine forall_congr' (fun k => forall_congr' (fun _ => forall_congr' (fun t => ?_)))
  constructor
  · intro h1 hm
    rw [← h t (List.of_mem_zip hm).2]
    exact h1 hm
  · intro h1 hm
    rw [h t (List.of_mem_zip hm).2]
    exact h1 hm

theorem mem_cutTerms {paths : List Path} {cut : List Bool} {t : ℕ × ℚ} :
    t ∈ ((paths.zip cut).filter (fun t => t.2)).map (fun t => (t.1.id, (1 : ℚ))) ↔
      ∃ (i : ℕ) (p : Path), paths[i]? = some p ∧ cut[i]? = some true ∧ t = (p.id, 1) := by
  simp only [List.mem_map, List.mem_filter]
  constructor
  · rintro ⟨⟨p, b⟩, ⟨hm, hb⟩, rfl⟩
    obtain ⟨i, hi⟩ := List.mem_iff_getElem?.1 hm
    rw [List.getElem?_zip_eq_some] at hi
    simp only at hb
    subst hb
    exact ⟨i, p, hi.1, hi.2, rfl⟩
  · rintro ⟨i, p, h1, h2, rfl⟩
    exact ⟨(p, true), ⟨List.mem_iff_getElem?.2 ⟨i, List.getElem?_zip_eq_some.2 ⟨h1, h2⟩⟩, rfl⟩, rfl⟩

theorem addCutCons_spec {d : ℕ} {left cl : ℕ → ℕ → Bool} {paths : List Path} {own : List Own} (hp : PathIdx own paths) (cs : List (List Bool))
    (m : Model) (cc : List ℕ) (cd : List CD) (h : Rep (sig d left cl) m own cd) (hc : ∀ (k i : ℕ), cc[k]? = some i ↔ cd[i]? = some (.cut k))
    (hcl : ∀ (j : ℕ) (cut : List Bool), cs[j]? = some cut → ∀ (i : ℕ) (p : Path), paths[i]? = some p →
      (cut[i]? = some true ↔ Follows d (cl (cc.length + j)) p)) :
    let st := cs.foldl (addCutCons paths) (m, cc)
    Rep (sig d left cl) st.1 own (cd ++ (List.range' cc.length cs.length).map .cut) ∧
      (∀ (k i : ℕ), st.2[k]? = some i ↔ (cd ++ (List.range' cc.length cs.length).map .cut)[i]? = some (.cut k)) ∧
      st.2.length = cc.length + cs.length ∧ st.1.obj = m.obj ∧ st.1.offset = m.offset ∧ st.1.maximize = m.maximize := by
  induction cs generalizing m cc cd with
  | nil => exact ⟨by simpa using h, by simpa using hc, rfl, rfl, rfl, rfl⟩
  | cons cut cs ih =>
    intro st
    have hst : st = cs.foldl (addCutCons paths) (addRow m (some 1) (some 1)
        (((paths.zip cut).filter (fun t => t.2)).map (fun t => (t.1.id, 1))), cc ++ [m.cons.length]) := rfl
    have h1 : Rep (sig d left cl) (addRow m (some 1) (some 1) (((paths.zip cut).filter (fun t => t.2)).map (fun t => (t.1.id, 1)))) own
        (cd ++ [.cut cc.length]) := by
      refine Rep.addOnes h hp (.cut cc.length) rfl _ ?_
      intro t
      rw [mem_cutTerms]
      constructor
      · rintro ⟨i, p, e1, e2, rfl⟩
        exact ⟨p, List.mem_of_getElem? e1, (hcl 0 cut rfl i p e1).1 e2, rfl⟩
      · rintro ⟨p, hm, hf, rfl⟩
        obtain ⟨i, hi⟩ := List.mem_iff_getElem?.1 hm
        exact ⟨i, p, hi, (hcl 0 cut rfl i p hi).2 hf, rfl⟩
    have hnot : CD.cut cc.length ∉ cd := by
      intro hm
      obtain ⟨i, hi⟩ := List.mem_iff_getElem?.1 hm
      have := (hc cc.length i).2 hi
      simp at this
    obtain ⟨k1, k2, k3, k4, k5, k6⟩ := ih _ (cc ++ [m.cons.length]) (cd ++ [.cut cc.length]) h1 (by
        intro k i
        rcases Nat.lt_trichotomy k cc.length with hk | hk | hk
        · rw [List.getElem?_append_left hk, append_get_ne _ _ _ (by intro e; injection e; omega)]
          exact hc k i
        · subst hk
          rw [append_get_self _ _ hnot, h.length_cons]
          simp [eq_comm]
        · rw [List.getElem?_eq_none (by simp; omega), append_get_ne _ _ _ (by intro e; injection e; omega), ← hc k i,
            List.getElem?_eq_none (by omega)]) (by
        intro j cut' hj i p hip
        have := hcl (j + 1) cut' (by simpa using hj) i p hip
        rw [List.length_append, List.length_singleton]
        have e : cc.length + 1 + j = cc.length + (j + 1) := by omega
        rw [e]
        exact this)
    rw [hst]
    have hr : cd ++ [CD.cut cc.length] ++ (List.range' (cc ++ [m.cons.length]).length cs.length).map CD.cut =
        cd ++ (List.range' cc.length (cut :: cs).length).map CD.cut := by
      rw [List.append_assoc, List.length_append, List.length_singleton, List.length_cons, List.range'_succ]
      rfl
    rw [hr] at k1 k2
    refine ⟨k1, k2, by rw [k3]; simp; omega, by rw [k4]; simp only [addRow_eq], by rw [k5]; simp only [addRow_eq],
      by rw [k6]; simp only [addRow_eq]⟩

theorem append_cuts_get {cd : List CD} {ks : List ℕ} {x : CD} (hx : ∀ r, x ≠ .cut r) (i : ℕ) :
    (cd ++ ks.map CD.cut)[i]? = some x ↔ cd[i]? = some x := by
  rcases Nat.lt_or_ge i cd.length with h | h
  · rw [List.getElem?_append_left h]
  · rw [List.getElem?_append_right h, List.getElem?_eq_none h]
    constructor
    · intro he
      obtain ⟨r, _, he⟩ := List.mem_map.1 (List.mem_of_getElem? he)
      exact absurd he.symm (hx r)
    · intro he; cases he

theorem append_cuts_mem {cd : List CD} {ks : List ℕ} {x : CD} (hx : ∀ r, x ≠ .cut r) : x ∈ cd ++ ks.map CD.cut ↔ x ∈ cd := by
  rw [List.mem_iff_getElem?, List.mem_iff_getElem?]
  exact exists_congr (append_cuts_get hx)

theorem cut_mem_lt {d : ℕ} {c : Conf} {splits : List Split} {cuts : List (List Bool)} {own : List Own} {cd : List CD} {s : MS}
    (h : Inv d c splits cuts own cd s) (k : ℕ) : .cut k ∈ cd ↔ k < cuts.length := by
  constructor
  · intro hm
    obtain ⟨i, hi⟩ := List.mem_iff_getElem?.1 hm
    have := (h.cutc k i).2 hi
    rw [← h.cutlen]
    exact (List.getElem?_eq_some_iff.1 this).1
  · intro hk
    rw [← h.cutlen] at hk
    exact List.mem_of_getElem? ((h.cutc k _).1 (List.getElem?_eq_getElem hk))

/-- The solutions that `add_cuts` passes to the callback, the recorded cuts. -/
def recorded (o : Oracle) (s : MS) : List (List Bool × List Bool) :=
  (o.cut ⟨s.cp.nvars, s.cp.cons, cutObjective s⟩ s.cutCalls).foldl
    (cutCallback s.cutPathVars s.cutSplitVars (s.paths.map (fun p => s.pathSol p.id))) []

/-- What is known about a recorded cut. -/
theorem recorded_spec {d : ℕ} {c : Conf} {splits : List Split} {cuts : List (List Bool)} {own : List Own} {cd : List CD} {s : MS}
    (h : Inv d c splits cuts own cd s) {o : Oracle} (ho : CutSound o) (x : List Bool × List Bool) (hx : x ∈ recorded o s) :
    x.2.length = splits.length ∧ Monotone splits (fun t => x.2.getD t false) ∧
    (∀ (i : ℕ) (p : Path), s.paths[i]? = some p → (x.1[i]? = some true ↔ Follows d (fun t => x.2.getD t false) p)) ∧
    (((s.paths.zip x.1).filter (fun t => t.2)).map (fun t => s.pathSol t.1.id)).sum > 1 + eps := by
  rcases callback_mem _ _ _ _ _ x hx with hx | ⟨a, ha, rfl, hobj⟩
  · cases hx
  have hold : s.cp.Holds a := by
    have := ho _ _ a ha
    exact this
  obtain ⟨h1, h2⟩ := (h.cut.holds a).1 hold
  have hrow : ∀ t < splits.length, (s.cutSplitVars.map a).getD t false = a t := by
    intro t ht
    rw [h.cut.sv, List.getD_eq_getElem?_getD, List.getElem?_map, List.getElem?_range ht]
    rfl
  have hpv : ∀ i < s.paths.length, (s.cutPathVars.map a)[i]? = some (a (splits.length + i)) := by
    intro i hi
    rw [h.cut.pv, List.getElem?_map, List.getElem?_range' (by omega)]
    simp
  refine ⟨by simp [h.cut.sv], ?_, ?_, ?_⟩
  · intro i hi j hj hf hlt
    simp only
    rw [hrow i hi, hrow j hj]
    exact h2 i hi j hj hf hlt
  · intro i p hip
    have hi := (List.getElem?_eq_some_iff.1 hip).1
    simp only
    rw [hpv i hi]
    have hg := h.good p (List.mem_of_getElem? hip)
    rw [Option.some.injEq, h1 i p hip]
    exact follows_congr (fun t ht => (hrow t (hg.2 t ht)).symm)
  · have hz : ∀ (ps : List Path) (vs : List ℕ), ((vs.zip (ps.map (fun p => s.pathSol p.id))).map (fun t => if a t.1 then t.2 else 0)).sum =
        (((ps.zip (vs.map a)).filter (fun t => t.2)).map (fun t => s.pathSol t.1.id)).sum := by
      intro ps
      induction ps with
      | nil => intro vs; simp
      | cons p ps ih =>
        intro vs
        cases vs with
        | nil => simp
        | cons v vs =>
          simp only [List.map_cons, List.zip_cons_cons, List.sum_cons, List.filter_cons]
          rw [ih vs]
          by_cases hav : a v = true
          · simp [hav]
          · simp [hav]
    rw [← hz]
    exact hobj

/-- `add_cuts` after the solve, `_dtree_classifier.py:947-975`, for the recorded cuts `rec'` and the cut generation model `cp`. -/
def storeCuts (s : MS) (cp : Cp) (rec' : List (List Bool × List Bool)) : List (List Bool) × MS :=
  let s1 := { s with
    cp := cp
    cutCalls := s.cutCalls + 1 }
  if rec'.length = 0 then ([], s1)
  else
    let st := (rec'.map (·.1)).foldl (addCutCons s.paths) (s.m, s.cutCons)
    (rec'.map (·.2), { s1 with
      splits := addCutsToSplits s.splits s.cutCons.length (rec'.map (·.2))
      m := st.1
      cutCons := st.2
      addedRow := s.addedRow ++ List.replicate rec'.length true })

/-- `add_cuts` preserves the invariant: the recorded patterns are appended to the list of cuts. -/
theorem inv_storeCuts {d : ℕ} {c : Conf} {splits : List Split} (hid : ∀ i (s : Split), splits[i]? = some s → s.id = i)
    {cuts : List (List Bool)} {own : List Own} {cd : List CD} {s : MS}
    (h : Inv d c splits cuts own cd s) (obj : List (ℕ × ℤ)) {rec' : List (List Bool × List Bool)}
    (hrec : ∀ x ∈ rec', ∀ (i : ℕ) (p : Path), s.paths[i]? = some p → (x.1[i]? = some true ↔ Follows d (fun t => x.2.getD t false) p)) :
    Inv d c splits (cuts ++ rec'.map (·.2)) own (cd ++ (List.range' cuts.length rec'.length).map .cut) (storeCuts s ⟨s.cp.nvars, s.cp.cons, obj⟩ rec').2 ∧
      (storeCuts s ⟨s.cp.nvars, s.cp.cons, obj⟩ rec').1 = rec'.map (·.2) ∧
      (storeCuts s ⟨s.cp.nvars, s.cp.cons, obj⟩ rec').2.paths = s.paths ∧ (storeCuts s ⟨s.cp.nvars, s.cp.cons, obj⟩ rec').2.nsVars = s.nsVars := by
  by_cases hlen : rec'.length = 0
  · have hnil : rec' = [] := List.length_eq_zero_iff.1 hlen
    have hres : storeCuts s ⟨s.cp.nvars, s.cp.cons, obj⟩ rec' = ([], { s with
        cp := ⟨s.cp.nvars, s.cp.cons, obj⟩
        cutCalls := s.cutCalls + 1 }) := by
      unfold storeCuts
      exact if_pos hlen
    rw [hres, hnil]
    simp only [List.map_nil, List.append_nil, List.length_nil, List.range'_zero]
    refine ⟨?_, trivial, trivial, trivial⟩
    exact ⟨h.gen, h.same, h.rep, h.obj, h.off, h.maxi, h.paths, h.pidx, h.pvars, h.good, h.nsv, h.nsmem, h.leafc, h.rowc, h.nsc, h.cutc,
      h.leafmem, h.rowmem, h.nscmem, h.cutlen, h.added, h.data, h.cutsFilled, ⟨h.cut.sv, h.cut.pv, h.cut.nvars, h.cut.holds⟩, h.distinct⟩
  · have hres : storeCuts s ⟨s.cp.nvars, s.cp.cons, obj⟩ rec' = (rec'.map (·.2), { s with
        cp := ⟨s.cp.nvars, s.cp.cons, obj⟩
        cutCalls := s.cutCalls + 1
        splits := addCutsToSplits s.splits s.cutCons.length (rec'.map (·.2))
        m := ((rec'.map (·.1)).foldl (addCutCons s.paths) (s.m, s.cutCons)).1
        cutCons := ((rec'.map (·.1)).foldl (addCutCons s.paths) (s.m, s.cutCons)).2
        addedRow := s.addedRow ++ List.replicate rec'.length true }) := by
      unfold storeCuts
      exact if_neg hlen
    obtain ⟨f1, f2⟩ := C39_add_cuts h.cutsFilled (rec'.map (·.2))
    have hrep : Rep (sig d (fun r => rowLeft splits (c.X.getD r [])) (pat (cuts ++ rec'.map (·.2)))) s.m own cd := by
      refine h.rep.congr (fun _ _ => rfl) (fun _ _ => ⟨rfl, rfl⟩) ?_
      intro x hx oo _
      cases oo with
      | ns n t => rfl
      | path p =>
        cases x with
        | leaf _ => rfl
        | row _ => rfl
        | ns _ _ _ => rfl
        | cut k =>
          have hk := (cut_mem_lt h k).1 hx
          change ind (Follows d (pat (cuts ++ rec'.map (·.2)) k) p) = ind (Follows d (pat cuts k) p)
          have : pat (cuts ++ rec'.map (·.2)) k = pat cuts k := by
            funext t
            unfold pat
            rw [List.getD_eq_getElem?_getD (l := cuts ++ _), List.getElem?_append_left hk, ← List.getD_eq_getElem?_getD]
          rw [this]
    obtain ⟨k1, k2, k3, k4, k5, k6⟩ := addCutCons_spec h.pidx (rec'.map (·.1)) s.m s.cutCons cd hrep h.cutc (by
      intro j cut hj i p hip
      rw [List.getElem?_map] at hj
      cases hr : rec'[j]? with
      | none => rw [hr] at hj; cases hj
      | some x =>
        rw [hr] at hj
        injection hj with hj
        have r3 := hrec x (List.mem_of_getElem? hr)
        rw [← hj, r3 i p hip]
        have : pat (cuts ++ rec'.map (·.2)) (s.cutCons.length + j) = fun t => x.2.getD t false := by
          funext t
          unfold pat
          rw [h.cutlen, List.getD_eq_getElem?_getD (l := cuts ++ _), List.getElem?_append_right (by omega)]
          have e : cuts.length + j - cuts.length = j := by omega
          rw [e, List.getElem?_map, hr]
          rfl
        rw [this])
    rw [List.length_map, h.cutlen] at k1 k2
    rw [List.length_map] at k3
    rw [hres]
    refine ⟨?_, rfl, rfl, rfl⟩
    refine ⟨h.gen, ?_, k1, ?_, k5.trans h.off, k6.trans h.maxi, h.paths, h.pidx, h.pvars, h.good, h.nsv, h.nsmem, ?_, ?_, ?_, k2, ?_, ?_, ?_,
      ?_, ?_, h.data, ?_, ⟨h.cut.sv, h.cut.pv, h.cut.nvars, h.cut.holds⟩, h.distinct⟩
    · change Same (addCutsToSplits s.splits s.cutCons.length _) splits
      rw [h.cutlen]
      exact f2.trans h.same
    · have := h.obj
      unfold ObjIs at *
      rw [← this]
      exact k4
    · intro l i
      rw [append_cuts_get (by intro r h; cases h)]
      exact h.leafc l i
    · intro l i
      rw [append_cuts_get (by intro r h; cases h)]
      exact h.rowc l i
    · intro l n t i
      rw [append_cuts_get (by intro r h; cases h)]
      exact h.nsc l n t i
    · intro l
      rw [append_cuts_mem (by intro r h; cases h)]
      exact h.leafmem l
    · intro r
      rw [append_cuts_mem (by intro r h; cases h), h.rowmem]
      change r < c.X.length ∧ s.addedRow.getD r false = true ↔ r < c.X.length ∧ (s.addedRow ++ List.replicate _ true).getD r false = true
      refine and_congr_right ?_
      intro hr
      have : r < s.addedRow.length := by have := h.added; omega
      rw [List.getD_eq_getElem?_getD (l := s.addedRow ++ _), List.getElem?_append_left this, ← List.getD_eq_getElem?_getD]
    · intro l n t
      rw [append_cuts_mem (by intro r h; cases h)]
      exact h.nscmem l n t
    · change ((rec'.map (·.1)).foldl (addCutCons s.paths) (s.m, s.cutCons)).2.length = _
      rw [k3, h.cutlen]
      simp
    · change (s.addedRow ++ List.replicate rec'.length true).length = _
      rw [List.length_append, List.length_replicate, h.added, List.length_append, List.length_map]
      omega
    · change CutsFilled (addCutsToSplits s.splits s.cutCons.length _) _
      rw [h.cutlen]
      exact f1

/-- `add_cuts` preserves the invariant: the recorded patterns are appended to the list of cuts. -/
theorem inv_addCuts {d : ℕ} {c : Conf} {splits : List Split} (hid : ∀ i (s : Split), splits[i]? = some s → s.id = i)
    {cuts : List (List Bool)} {own : List Own} {cd : List CD} {s : MS}
    (h : Inv d c splits cuts own cd s) {o : Oracle} (ho : CutSound o) :
    Inv d c splits (cuts ++ (recorded o s).map (·.2)) own (cd ++ (List.range' cuts.length (recorded o s).length).map .cut) (addCuts o s).2 ∧
      (addCuts o s).1 = (recorded o s).map (·.2) ∧
      (addCuts o s).2.paths = s.paths ∧ (addCuts o s).2.nsVars = s.nsVars :=
  inv_storeCuts hid h (cutObjective s) (fun x hx => (recorded_spec h ho x hx).2.2.1)

/-! ## Solves and histories -/

/-- Fields outside the model do not matter. -/
theorem Inv.of_eq {d : ℕ} {c : Conf} {splits : List Split} {cuts : List (List Bool)} {own : List Own} {cd : List CD} {s s' : MS}
    (h : Inv d c splits cuts own cd s) (e : s' = { s with
      pathSol := s'.pathSol
      rmpObj := s'.rmpObj
      prevRmpObj := s'.prevRmpObj
      iter := s'.iter
      last := s'.last
      totalCuts := s'.totalCuts
      selected := s'.selected
      lpCalls := s'.lpCalls
      cutCalls := s'.cutCalls }) : Inv d c splits cuts own cd s' := by
  rw [e]
  exact ⟨h.gen, h.same, h.rep, h.obj, h.off, h.maxi, h.paths, h.pidx, h.pvars, h.good, h.nsv, h.nsmem, h.leafc, h.rowc, h.nsc, h.cutc,
    h.leafmem, h.rowmem, h.nscmem, h.cutlen, h.added, h.data, h.cutsFilled, h.cut, h.distinct⟩

theorem inv_cutRound {d : ℕ} {c : Conf} {splits : List Split} (hid : ∀ i (s : Split), splits[i]? = some s → s.id = i) {o : Oracle}
    (ho : CutSound o) {cuts : List (List Bool)} {own : List Own} {cd : List CD} {s : MS} (h : Inv d c splits cuts own cd s) :
    ∃ cuts' cd', Inv d c splits cuts' own cd' (cutRound c o s).2.2 ∧ (cutRound c o s).2.2.paths = s.paths := by
  have h1 : Inv d c splits cuts own cd (storeLp s) := h.of_eq rfl
  obtain ⟨b, hb⟩ : ∃ b, b = if c.betaAsCuts then addBetaCuts c (storeLp s) else (0, storeLp s) := ⟨_, rfl⟩
  have h2 : ∃ cd2, Inv d c splits cuts own cd2 b.2 ∧ b.2.paths = s.paths := by
    rw [hb]
    by_cases hb : c.betaAsCuts = true
    · rw [if_pos hb]
      obtain ⟨new, k, hk⟩ := inv_addBetaCuts h1
      exact ⟨_, k, hk.2.2.2.2.2.1⟩
    · rw [if_neg hb]
      exact ⟨cd, h1, rfl⟩
  obtain ⟨cd2, h2, hp2⟩ := h2
  obtain ⟨g, hg⟩ : ∃ g, g = if c.generateCuts && b.1 == 0 then addCuts o b.2 else ([], b.2) := ⟨_, rfl⟩
  have h3 : ∃ cuts3 cd3, Inv d c splits cuts3 own cd3 g.2 ∧ g.2.paths = s.paths := by
    rw [hg]
    split_ifs with hg
    · obtain ⟨k1, _, k3, _⟩ := inv_addCuts hid h2 ho
      exact ⟨_, _, k1, k3.trans hp2⟩
    · exact ⟨cuts, cd2, h2, hp2⟩
  obtain ⟨cuts3, cd3, h3, hp3⟩ := h3
  have e : cutRound c o s = (b.1, g.1, { g.2 with totalCuts := g.2.totalCuts + (g.1.length + b.1) }) := by
    rw [hg, hb]; rfl
  rw [e]
  exact ⟨cuts3, cd3, h3.of_eq rfl, hp3⟩

theorem inv_cutRounds {d : ℕ} {c : Conf} {splits : List Split} (hid : ∀ i (s : Split), splits[i]? = some s → s.id = i) {o : Oracle}
    (ho : CutSound o) (n : ℕ) (acc : List (List Bool)) {cuts : List (List Bool)} {own : List Own} {cd : List CD} {s : MS}
    (h : Inv d c splits cuts own cd s) :
    ∃ cuts' cd', Inv d c splits cuts' own cd' (cutRounds c o n acc s).2 ∧ (cutRounds c o n acc s).2.paths = s.paths := by
  induction n generalizing acc cuts cd s with
  | zero => exact ⟨cuts, cd, h, rfl⟩
  | succ n ih =>
    obtain ⟨cuts1, cd1, h1, hp1⟩ := inv_cutRound hid ho h
    unfold cutRounds
    simp only
    split_ifs with e1 e2
    · obtain ⟨cuts2, cd2, h2, hp2⟩ := ih (acc ++ (cutRound c o s).2.1) (s := lpSolve o (cutRound c o s).2.2) (h1.of_eq rfl)
      exact ⟨cuts2, cd2, h2, hp2.trans hp1⟩
    · exact ⟨cuts1, cd1, h1, hp1⟩
    · exact ⟨cuts, cd, h, rfl⟩

theorem inv_solveRmp {d : ℕ} {c : Conf} {splits : List Split} (hid : ∀ i (s : Split), splits[i]? = some s → s.id = i) {o : Oracle}
    (ho : CutSound o) {cuts : List (List Bool)} {own : List Own} {cd : List CD} {s : MS} (h : Inv d c splits cuts own cd s) :
    ∃ cuts' cd', Inv d c splits cuts' own cd' (solveRmp c o s).2 ∧ (solveRmp c o s).2.paths = s.paths := by
  obtain ⟨s1, hs1⟩ : ∃ s1, s1 = lpSolve o { s with
      prevRmpObj := s.rmpObj
      iter := s.iter + 1 } := ⟨_, rfl⟩
  have h1 : Inv d c splits cuts own cd s1 := by rw [hs1]; exact h.of_eq rfl
  have hp1 : s1.paths = s.paths := by rw [hs1]; rfl
  obtain ⟨r, hr⟩ : ∃ r, r = if s1.iter % 10 = 0 then cutRounds c o c.numCutsRound [] s1 else ([], s1) := ⟨_, rfl⟩
  have h2 : ∃ cuts2 cd2, Inv d c splits cuts2 own cd2 r.2 ∧ r.2.paths = s.paths := by
    rw [hr]
    split_ifs
    · obtain ⟨x, y, k1, k2⟩ := inv_cutRounds hid ho c.numCutsRound [] h1
      exact ⟨x, y, k1, k2.trans hp1⟩
    · exact ⟨cuts, cd, h1, hp1⟩
  obtain ⟨cuts2, cd2, h2, hp2⟩ := h2
  have e : solveRmp c o s = if r.2.last.status = .optimal then (.ok (readDuals c r.2 r.1), storeLp r.2)
      else (.ok ⟨[], [], fun _ _ _ => none, [], r.1⟩, r.2) := by
    unfold solveRmp
    rw [if_pos h.gen, hr, hs1]
  rw [e]
  split_ifs
  · exact ⟨cuts2, cd2, h2.of_eq rfl, hp2⟩
  · exact ⟨cuts2, cd2, h2, hp2⟩

/-- The invariant holds in every reached state. -/
theorem reached_inv {d : ℕ} {c : Conf} {o : Oracle} {paths : List Path} {splits : List Split} {dataRows : Option (List Row)}
    (hs : Setup d c splits dataRows) (hp : ∀ p ∈ paths, GoodPath d splits p) (ho : CutSound o) {s : MS}
    (h : Reached d c o paths splits dataRows s) : ∃ cuts own cd, Inv d c splits cuts own cd s := by
  induction h with
  | generate h =>
    obtain ⟨own, cd, h⟩ := inv_generate hs hp h
    exact ⟨_, own, cd, h⟩
  | again h ih =>
    obtain ⟨cuts, own, cd, ih⟩ := ih
    refine ⟨cuts, own, cd, ?_⟩
    unfold generateMp
    rw [if_pos ih.gen]
    exact ih
  | column h p hp ih =>
    obtain ⟨cuts, own, cd, ih⟩ := ih
    exact ⟨cuts, _, cd, (inv_addColumn hs.depth hs.tree hs.filled ih hp).2.1⟩
  | beta h ih =>
    obtain ⟨cuts, own, cd, ih⟩ := ih
    obtain ⟨new, k, _⟩ := inv_addBetaCuts ih
    exact ⟨cuts, own, _, k⟩
  | cuts h ih =>
    obtain ⟨cuts, own, cd, ih⟩ := ih
    exact ⟨_, own, _, (inv_addCuts hs.tree.split_id ih ho).1⟩
  | rmp h ih =>
    obtain ⟨cuts, own, cd, ih⟩ := ih
    obtain ⟨cuts', cd', k, _⟩ := inv_solveRmp hs.tree.split_id ho ih
    exact ⟨cuts', own, cd', k⟩
  | ip h ih =>
    obtain ⟨cuts, own, cd, ih⟩ := ih
    refine ⟨cuts, own, cd, ?_⟩
    unfold solveIp
    rw [if_pos ih.gen]
    simp only
    split_ifs
    · exact ih.of_eq rfl
    · exact ih.of_eq rfl

/-! ## Meaning of the model -/

/-- Index of a variable. -/
def idxOf (s : MS) : Own → ℕ
  | .path p => p.id
  | .ns n t => (s.nsVars n t).getD 0

theorem Inv.idx {d : ℕ} {c : Conf} {splits : List Split} {cuts : List (List Bool)} {own : List Own} {cd : List CD} {s : MS}
    (h : Inv d c splits cuts own cd s) : ∀ (i : ℕ) (o : Own), own[i]? = some o → idxOf s o = i := by
  intro i o ho
  cases o with
  | path p => exact ((h.pidx i p).1 ho).2
  | ns n t =>
    change (s.nsVars n t).getD 0 = i
    rw [(h.nsv n t i).2 ho]
    rfl

theorem pathSum_eq (paths : List Path) (a : ℕ → ℚ) (P : Path → Prop) :
    pathSum paths a P = (paths.map (fun p => ind (P p) * a p.id)).sum := by
  unfold pathSum
  induction paths with
  | nil => rfl
  | cons p ps ih =>
    rw [List.map_cons, List.sum_cons, ← ih, List.filter_cons]
    by_cases h : P p
    · rw [ind_pos h]; simp [h]
    · rw [ind_neg h]; simp [h]

theorem pathSum_congr {paths : List Path} {a : ℕ → ℚ} {P Q : Path → Prop} (h : ∀ p ∈ paths, P p ↔ Q p) :
    pathSum paths a P = pathSum paths a Q := by
  rw [pathSum_eq, pathSum_eq]
  congr 1
  apply List.map_congr_left
  intro p hp
  have : P p = Q p := propext (h p hp)
  rw [this]

/-- The consistency variables in order. -/
def Own.ns? : Own → Option (ℕ × ℕ)
  | .path _ => none
  | .ns n t => some (n, t)

theorem own_sum (own : List Own) (f : Own → ℚ) :
    (own.map f).sum = ((own.filterMap Own.path?).map (fun p => f (.path p))).sum +
      ((own.filterMap Own.ns?).map (fun q => f (.ns q.1 q.2))).sum := by
  induction own with
  | nil => simp
  | cons o os ih =>
    cases o with
    | path p =>
      simp only [List.map_cons, List.sum_cons, List.filterMap_cons, Own.path?, Own.ns?]
      rw [ih]; ring
    | ns n t =>
      simp only [List.map_cons, List.sum_cons, List.filterMap_cons, Own.path?, Own.ns?]
      rw [ih]; ring

theorem Inv.ns_nodup {d : ℕ} {c : Conf} {splits : List Split} {cuts : List (List Bool)} {own : List Own} {cd : List CD} {s : MS}
    (h : Inv d c splits cuts own cd s) : (own.filterMap Own.ns?).Nodup := by
  have hp : own.Pairwise (fun o o' => ∀ q, o.ns? = some q → o'.ns? ≠ some q) := by
    rw [List.pairwise_iff_getElem]
    intro i j hi hj hij q h1 h2
    obtain ⟨n, t⟩ := q
    have e1 : own[i]? = some (.ns n t) := by
      rw [List.getElem?_eq_getElem hi]
      cases ho : own[i] with
      | path p => rw [ho] at h1; cases h1
      | ns n' t' => rw [ho] at h1; cases h1; rfl
    have e2 : own[j]? = some (.ns n t) := by
      rw [List.getElem?_eq_getElem hj]
      cases ho : own[j] with
      | path p => rw [ho] at h2; cases h2
      | ns n' t' => rw [ho] at h2; cases h2; rfl
    have e3 := (h.nsv n t i).2 e1
    rw [(h.nsv n t j).2 e2] at e3
    injection e3 with e3
    omega
  rw [List.Nodup, List.pairwise_filterMap]
  refine hp.imp ?_
  intro o o' hoo q hq q' hq' he
  subst he
  exact hoo q hq hq'

theorem single_sum (L : List (ℕ × ℕ)) (hn : L.Nodup) (n t : ℕ) (hm : (n, t) ∈ L) (g : ℕ → ℕ → ℚ) :
    (L.map (fun q => (if q.1 = n ∧ q.2 = t then (-1 : ℚ) else 0) * g q.1 q.2)).sum = -g n t := by
  induction L with
  | nil => cases hm
  | cons q L ih =>
    rw [List.nodup_cons] at hn
    rw [List.map_cons, List.sum_cons]
    by_cases hq : q = (n, t)
    · subst hq
      have : (L.map (fun q => (if q.1 = n ∧ q.2 = t then (-1 : ℚ) else 0) * g q.1 q.2)).sum = 0 := by
        apply List.sum_eq_zero
        intro x hx
        obtain ⟨q, hq, rfl⟩ := List.mem_map.1 hx
        rw [if_neg, zero_mul]
        rintro ⟨h1, h2⟩
        exact hn.1 (by rw [← h1, ← h2]; exact hq)
      rw [this]
      simp
    · have hm' : (n, t) ∈ L := by
        rcases List.mem_cons.1 hm with h | h
        · exact absurd h.symm hq
        · exact h
      rw [ih hn.2 hm', if_neg, zero_mul, zero_add]
      rintro ⟨h1, h2⟩
      exact hq (by rw [← h1, ← h2])

theorem mem_ns? {own : List Own} {n t : ℕ} : (n, t) ∈ own.filterMap Own.ns? ↔ .ns n t ∈ own := by
  rw [List.mem_filterMap]
  constructor
  · rintro ⟨o, ho, h⟩
    cases o with
    | path p => cases h
    | ns n' t' => cases h; exact ho
  · intro h; exact ⟨_, h, rfl⟩

/-- The part of a constraint with the consistency variables. -/
def rhoPart (s : MS) (a : ℕ → ℚ) : CD → ℚ
  | .ns _ n t => -a ((s.nsVars n t).getD 0)
  | _ => 0

/-- Left hand sides of the constraints. -/
theorem Inv.lhs {d : ℕ} {c : Conf} {splits : List Split} {cuts : List (List Bool)} {own : List Own} {cd : List CD} {s : MS}
    (h : Inv d c splits cuts own cd s) (a : ℕ → ℚ) (x : CD) (hx : x ∈ cd) :
    (own.map (fun o => CD.coef d (fun r => rowLeft splits (c.X.getD r [])) (pat cuts) x o * a (idxOf s o))).sum =
      pathSum s.paths a (x.has d (fun r => rowLeft splits (c.X.getD r [])) (pat cuts) ·) +
        rhoPart s a x := by
  rw [own_sum, h.paths, pathSum_eq]
  congr 1
  cases x with
  | leaf l =>
    apply List.sum_eq_zero
    intro y hy
    obtain ⟨q, _, rfl⟩ := List.mem_map.1 hy
    simp [CD.coef]
  | row l =>
    apply List.sum_eq_zero
    intro y hy
    obtain ⟨q, _, rfl⟩ := List.mem_map.1 hy
    simp [CD.coef]
  | cut l =>
    apply List.sum_eq_zero
    intro y hy
    obtain ⟨q, _, rfl⟩ := List.mem_map.1 hy
    simp [CD.coef]
  | ns l n t =>
    obtain ⟨hl, k, hk, rfl, ht⟩ := (h.nscmem l n t).1 hx
    have hm : (anc d l k, t) ∈ own.filterMap Own.ns? := mem_ns?.2 ((h.nsmem _ _).2 ⟨anc_lt hl hk, ht⟩)
    have := single_sum _ h.ns_nodup _ _ hm (fun n t => a ((s.nsVars n t).getD 0))
    simp only [CD.coef, idxOf, rhoPart]
    convert this using 4

theorem cutLeft_eq {splits : List Split} {cuts : List (List Bool)} (hf : CutsFilled splits cuts)
    (hid : ∀ i (s : Split), splits[i]? = some s → s.id = i) {k t : ℕ} (hk : k < cuts.length) (ht : t < splits.length) :
    cutLeft splits k t = pat cuts k t := by
  have hget : splits[t]? = some splits[t] := List.getElem?_eq_getElem ht
  have hat : splitAt splits t = splits[t] := by
    unfold splitAt; rw [List.getD_eq_getElem?_getD, hget]; rfl
  have h1 := (hf splits[t] (List.getElem_mem ht) k).1
  rw [hid t _ hget] at h1
  unfold cutLeft pat
  rw [hat, Bool.eq_iff_iff, decide_eq_true_eq, h1]
  exact ⟨fun h => h.2, fun h => ⟨hk, h⟩⟩

theorem Inv.splits_id {d : ℕ} {c : Conf} {splits : List Split} {cuts : List (List Bool)} {own : List Own} {cd : List CD} {s : MS}
    (h : Inv d c splits cuts own cd s) (hid : ∀ i (s : Split), splits[i]? = some s → s.id = i) :
    ∀ i (sp : Split), s.splits[i]? = some sp → sp.id = i := h.same.id hid

theorem inBounds_eq {x y : ℚ} : inBounds (some y) (some y) x ↔ x = y := by
  unfold inBounds
  constructor
  · intro h
    exact le_antisymm (h.2 y rfl) (h.1 y rfl)
  · rintro rfl
    exact ⟨fun l hl => by cases hl; exact le_refl _, fun l hl => by cases hl; exact le_refl _⟩

theorem inBounds_le {x y : ℚ} : inBounds none (some y) x ↔ x ≤ y := by
  unfold inBounds
  constructor
  · intro h; exact h.2 y rfl
  · intro h
    exact ⟨fun l hl => (by cases hl), fun l hl => (by cases hl; exact h)⟩

theorem inBounds_ge {x y : ℚ} : inBounds (some y) none x ↔ y ≤ x := by
  unfold inBounds
  constructor
  · intro h; exact h.1 y rfl
  · intro h
    exact ⟨fun l hl => by cases hl; exact h, fun l hl => by cases hl⟩

/-- Feasibility of the solver model is feasibility of the documented program. -/
theorem Inv.feasible {d : ℕ} {c : Conf} {splits : List Split} (hid : ∀ i (s : Split), splits[i]? = some s → s.id = i)
    {cuts : List (List Bool)} {own : List Own} {cd : List CD} {s : MS} (h : Inv d c splits cuts own cd s) (a : ℕ → ℚ) :
    s.m.FeasibleLP a ↔ MasterFeasible d c s a := by
  rw [h.rep.feasibleLP a (idxOf s) h.idx]
  have hvar : ∀ o, inBounds (((sig d (fun r => rowLeft splits (c.X.getD r [])) (pat cuts)).var o)).lb
      (((sig d (fun r => rowLeft splits (c.X.getD r [])) (pat cuts)).var o)).ub (a (idxOf s o)) ↔ 0 ≤ a (idxOf s o) := by
    intro o
    exact inBounds_ge
  have hcut : ∀ k < cuts.length, pathSum s.paths a (Follows d (cutLeft s.splits k)) = pathSum s.paths a (Follows d (pat cuts k)) := by
    intro k hk
    apply pathSum_congr
    intro p hp
    apply follows_congr
    intro t ht
    exact cutLeft_eq h.cutsFilled (h.same.id hid) hk (by rw [h.same.length]; exact (h.good p hp).2 t ht)
  constructor
  · rintro ⟨hv, hc⟩
    have hc' : ∀ x ∈ cd, inBounds x.lb x.ub (pathSum s.paths a (x.has d (fun r => rowLeft splits (c.X.getD r [])) (pat cuts) ·) +
        rhoPart s a x) := by
      intro x hx
      rw [← h.lhs a x hx]
      exact hc x hx
    refine ⟨?_, ?_, ?_, ?_, ?_, ?_⟩
    · intro p hp
      have := (hvar (.path p)).1 (hv (.path p) (List.mem_of_getElem? ((h.pidx p.id p).2 ⟨hp, rfl⟩)))
      exact this
    · intro n t v hnv
      have := (hvar (.ns n t)).1 (hv (.ns n t) (List.mem_of_getElem? ((h.nsv n t v).1 hnv)))
      simp only [idxOf, hnv] at this
      exact this
    · intro l hl
      have := inBounds_eq.1 (hc' (.leaf l) ((h.leafmem l).2 hl))
      simpa [CD.has, rhoPart] using this
    · intro l hl k hk t ht
      have hm : Own.ns (anc d l k) t ∈ own := (h.nsmem _ _).2 ⟨anc_lt hl hk, ht⟩
      obtain ⟨v, hv⟩ := List.mem_iff_getElem?.1 hm
      have hnv := (h.nsv _ _ v).2 hv
      refine ⟨v, hnv, ?_⟩
      have := inBounds_eq.1 (hc' (.ns l (anc d l k) t) ((h.nscmem _ _ _).2 ⟨hl, k, hk, rfl, ht⟩))
      simp only [CD.has, rhoPart, hnv, Option.getD_some] at this
      linarith
    · intro r hr hadd
      have := inBounds_le.1 (hc' (.row r) ((h.rowmem r).2 ⟨hr, hadd⟩))
      simp only [CD.has, rhoPart, add_zero] at this
      rw [h.same.rowLeft]
      exact this
    · intro k hk
      rw [h.cutlen] at hk
      have := inBounds_eq.1 (hc' (.cut k) ((cut_mem_lt h k).2 hk))
      simp only [CD.has, rhoPart, add_zero] at this
      rw [hcut k hk]
      exact this
  · intro hm
    refine ⟨?_, ?_⟩
    · intro o ho
      rw [hvar]
      cases o with
      | path p =>
        obtain ⟨i, hi⟩ := List.mem_iff_getElem?.1 ho
        exact hm.path_nonneg p ((h.pidx i p).1 hi).1
      | ns n t =>
        obtain ⟨i, hi⟩ := List.mem_iff_getElem?.1 ho
        have hnv := (h.nsv n t i).2 hi
        simp only [idxOf, hnv]
        exact hm.rho_nonneg n t i hnv
    · intro x hx
      change inBounds x.lb x.ub ((own.map (fun o => CD.coef d (fun r => rowLeft splits (c.X.getD r [])) (pat cuts) x o * a (idxOf s o))).sum)
      rw [h.lhs a x hx]
      cases x with
      | leaf l =>
        refine inBounds_eq.2 ?_
        simpa [CD.has, rhoPart] using hm.leaf l ((h.leafmem l).1 hx)
      | row r =>
        refine inBounds_le.2 ?_
        obtain ⟨h1, h2⟩ := (h.rowmem r).1 hx
        have := hm.rows r h1 h2
        rw [h.same.rowLeft] at this
        simpa [CD.has, rhoPart] using this
      | ns l n t =>
        obtain ⟨hl, k, hk, rfl, ht⟩ := (h.nscmem l n t).1 hx
        obtain ⟨v, hv, he⟩ := hm.consistent l hl k hk t ht
        refine inBounds_eq.2 ?_
        simp only [CD.has, rhoPart, hv, Option.getD_some]
        linarith
      | cut k =>
        refine inBounds_eq.2 ?_
        have hk := (cut_mem_lt h k).1 hx
        have := hm.cuts k (by rw [h.cutlen]; exact hk)
        rw [hcut k hk] at this
        simpa [CD.has, rhoPart] using this

theorem Inv.value {d : ℕ} {c : Conf} {splits : List Split} {cuts : List (List Bool)} {own : List Own} {cd : List CD} {s : MS}
    (h : Inv d c splits cuts own cd s) (a : ℕ → ℚ) : s.m.value a = (s.paths.map (fun p => p.cost * a p.id)).sum := by
  rw [h.obj.value h.rep.length_vars a (idxOf s) h.idx, h.off, add_zero, own_sum, h.paths]
  have : ((own.filterMap Own.ns?).map (fun q => Own.cost (.ns q.1 q.2) * a (idxOf s (.ns q.1 q.2)))).sum = 0 := by
    apply List.sum_eq_zero
    intro y hy
    obtain ⟨q, _, rfl⟩ := List.mem_map.1 hy
    simp [Own.cost]
  rw [this, add_zero]
  rfl

theorem Inv.ids_nodup {d : ℕ} {c : Conf} {splits : List Split} {cuts : List (List Bool)} {own : List Own} {cd : List CD} {s : MS}
    (h : Inv d c splits cuts own cd s) : (s.paths.map (·.id)).Nodup := by
  rw [← h.paths]
  have : ∀ (l : List Own) (b : ℕ), (∀ (i : ℕ) (p : Path), l[i]? = some (.path p) → p.id = b + i) →
      ((l.filterMap Own.path?).map (·.id)).Nodup ∧ ∀ x ∈ (l.filterMap Own.path?).map (·.id), b ≤ x := by
    intro l
    induction l with
    | nil => intro b _; simp
    | cons o os ih =>
      intro b hb
      obtain ⟨h1, h2⟩ := ih (b + 1) (by
        intro i p hp
        have := hb (i + 1) p (by simpa using hp)
        omega)
      cases o with
      | ns n t =>
        simp only [List.filterMap_cons, Own.path?]
        exact ⟨h1, fun x hx => by have := h2 x hx; omega⟩
      | path p =>
        have hpid := hb 0 p rfl
        simp only [List.filterMap_cons, Own.path?, List.map_cons, List.nodup_cons]
        refine ⟨⟨?_, h1⟩, ?_⟩
        · intro hm
          have := h2 _ hm
          omega
        · intro x hx
          rcases List.mem_cons.1 hx with rfl | hx
          · omega
          · have := h2 x hx; omega
  exact (this own 0 (fun i p hp => by rw [((h.pidx i p).1 hp).2]; omega)).1

theorem Inv.ns_ne_path {d : ℕ} {c : Conf} {splits : List Split} {cuts : List (List Bool)} {own : List Own} {cd : List CD} {s : MS}
    (h : Inv d c splits cuts own cd s) {n t v : ℕ} (hv : s.nsVars n t = some v) {p : Path} (hp : p ∈ s.paths) : p.id ≠ v := by
  intro he
  have h1 := (h.nsv n t v).1 hv
  rw [(h.pidx v p).2 ⟨hp, he⟩] at h1
  cases h1

end Verif.DTree
