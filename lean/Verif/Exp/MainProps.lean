import Verif.Exp.Main
import Verif.Exp.OptionsProps
import Verif.Exp.ReportProps

/-!
# C98 - C100: the experiment as a program
-/

set_option linter.unusedSectionVars false
set_option linter.unusedSimpArgs false

namespace Verif.Exp

open Verif.DTree Verif.DTree.Spec Verif.Exp.Cmd

variable {N : Type} [DecidableEq N] {Ω : Type}

/-! ## Specification of the data -/

namespace Spec

/-- A table as `read_csv` returns it: all rows are as long as the list of column names, and the names are different (pandas renames duplicates). -/
structure Rect (t : Table N) : Prop where
  rows : ∀ row ∈ t.rows, row.length = t.columns.length
  nodup : t.columns.Nodup
  ne : t.columns ≠ []

/-- The labels of a table: the last cells of its rows. -/
def labels (t : Table N) : List ℚ := t.rows.map fun row => row.getLastD 0

/-- The label with a given code. -/
def decode (classes : List ℚ) (c : ℤ) : ℚ := classes.getD c.toNat 0

/-- The part of the entries in which two lists agree. -/
def agreement {L : Type} [DecidableEq L] (a b : List L) : ℚ := ((a.zip b).countP fun p => decide (p.1 = p.2) : ℕ) / (a.length : ℚ)

end Spec

open Spec

/-! ## Tables -/

theorem Table.select_ok {t : Table N} {names : List N} (h : ∀ n ∈ names, n ∈ t.columns) :
    t.select names = .ok (t.rows.map fun row => names.map (cell t.columns row)) := by
  unfold Table.select; rw [if_pos h]

theorem lastColumn_ok {t : Table N} (h : Rect t) : t.lastColumn = .ok (labels t) := by
  unfold Table.lastColumn labels
  rw [if_neg h.ne]
  congr 1
  refine List.map_congr_left fun row hr => ?_
  rw [← h.rows row hr, List.getLastD_eq_getLast?, List.getLast?_eq_getElem?, List.getD_eq_getElem?_getD]

/-- The cells of a row under the names of the columns are the row itself. -/
theorem cells_self {columns : List N} {row : List ℚ} (hn : columns.Nodup) (hl : row.length = columns.length) : columns.map (cell columns row) = row := by
  apply List.ext_getElem (by simp [hl])
  intro i h1 h2
  have hi : i < columns.length := by simpa using h1
  simp only [List.getElem_map, cell]
  rw [hn.idxOf_getElem i hi, List.getD_eq_getElem?_getD, List.getElem?_eq_getElem h2]
  rfl

theorem cells_dropLast {columns : List N} {row : List ℚ} (hn : columns.Nodup) (hl : row.length = columns.length) :
    columns.dropLast.map (cell columns row) = row.dropLast := by
  conv_rhs => rw [← cells_self hn hl]
  rw [List.map_dropLast]

/-! ## Labels -/

theorem mem_classesOf (y : List ℚ) (v : ℚ) : v ∈ classesOf y ↔ v ∈ y := by simp [classesOf]

theorem nodup_classesOf (y : List ℚ) : (classesOf y).Nodup := by
  unfold classesOf
  exact (List.perm_insertionSort _ _).nodup_iff.2 (List.nodup_dedup y)

theorem sorted_classesOf (y : List ℚ) : (classesOf y).Pairwise (· < ·) := by
  have h1 : (classesOf y).Pairwise (fun a b => a ≤ b) := List.pairwise_insertionSort _ _
  have h2 : (classesOf y).Pairwise (fun a b => a ≠ b) := nodup_classesOf y
  exact (h1.and h2).imp (fun h => lt_of_le_of_ne h.1 h.2)

theorem decode_encode {classes : List ℚ} {v : ℚ} (h : v ∈ classes) : decode classes (classes.idxOf v : ℤ) = v := by
  unfold decode
  rw [Int.toNat_natCast, List.getD_eq_getElem?_getD, List.getElem?_eq_getElem (List.idxOf_lt_length_of_mem h)]
  simp

theorem encode_decode {classes : List ℚ} (hn : classes.Nodup) {c : ℤ} (h0 : 0 ≤ c) (h1 : c < classes.length) :
    (classes.idxOf (decode classes c) : ℤ) = c := by
  have hlt : c.toNat < classes.length := by omega
  unfold decode
  rw [List.getD_eq_getElem?_getD, List.getElem?_eq_getElem hlt, Option.getD_some, hn.idxOf_getElem c.toNat hlt]
  omega

/-- The data of two rectangular tables, as far as it exists. -/
theorem makeData_eq {train test : Table N} (h1 : Rect train) (h2 : Rect test) :
    makeData train test =
      if ∀ n ∈ train.columns.dropLast, n ∈ test.columns then
        if ∀ v ∈ labels test, v ∈ labels train then
          .ok ⟨train.rows.map List.dropLast, (labels train).map fun v => ((classesOf (labels train)).idxOf v : ℤ),
            test.rows.map fun row => train.columns.dropLast.map (cell test.columns row),
            (labels test).map fun v => ((classesOf (labels train)).idxOf v : ℤ), classesOf (labels train)⟩
        else .error .valueError
      else .error .keyError := by
  have hX : train.select train.columns.dropLast = .ok (train.rows.map List.dropLast) := by
    rw [Table.select_ok fun n hn => List.mem_of_mem_dropLast hn]
    congr 1
    exact List.map_congr_left fun row hr => cells_dropLast h1.nodup (h1.rows row hr)
  unfold makeData
  rw [hX, lastColumn_ok h1]
  simp only
  have he : encodeLabels (classesOf (labels train)) (labels train) =
      .ok ((labels train).map fun v => ((classesOf (labels train)).idxOf v : ℤ)) := by
    unfold encodeLabels
    rw [if_pos fun v hv => (mem_classesOf _ _).2 hv]
  by_cases hf : ∀ n ∈ train.columns.dropLast, n ∈ test.columns
  · rw [if_pos hf, Table.select_ok hf]
    simp only [lastColumn_ok h2, he]
    unfold encodeLabels
    simp only [mem_classesOf]
    by_cases hv : ∀ v ∈ labels test, v ∈ labels train
    · rw [if_pos hv, if_pos hv]
    · rw [if_neg hv, if_neg hv]
  · rw [if_neg hf]
    unfold Table.select
    rw [if_neg hf]

/-! ## C99: tables and labels -/

/-- **C99, failures.** A test table without one of the features, or with a label that no training row has, ends the program before anything is
trained: with `KeyError` and `ValueError`. In all other cases there are data. -/
theorem C99_failures {train test : Table N} (h1 : Rect train) (h2 : Rect test) :
    ((∃ n ∈ train.columns.dropLast, n ∉ test.columns) → makeData train test = .error .keyError) ∧
    ((∀ n ∈ train.columns.dropLast, n ∈ test.columns) → (∃ v ∈ labels test, v ∉ labels train) → makeData train test = .error .valueError) ∧
    ((∀ n ∈ train.columns.dropLast, n ∈ test.columns) → (∀ v ∈ labels test, v ∈ labels train) → ∃ D, makeData train test = .ok D) := by
  rw [makeData_eq h1 h2]
  refine ⟨fun ⟨n, hn, hn'⟩ => ?_, fun h ⟨v, hv, hv'⟩ => ?_, fun h h' => ?_⟩
  · rw [if_neg fun h => hn' (h n hn)]
  · rw [if_pos h, if_neg fun h => hv' (h v hv)]
  · rw [if_pos h, if_pos h']
    exact ⟨_, rfl⟩

/-- **C99, features.** The classifier gets the training rows without their last cells, and of every test row the cells with the names of the
training columns, in the order of the latter. -/
theorem C99_features {train test : Table N} (h1 : Rect train) (h2 : Rect test) {D : Data} (h : makeData train test = .ok D) :
    D.XTrain = train.rows.map List.dropLast ∧ D.XTest.length = test.rows.length ∧
      ∀ (i : ℕ) (row : List ℚ), test.rows[i]? = some row → ∃ x : List ℚ, D.XTest[i]? = some x ∧ x.length = train.columns.length - 1 ∧
        ∀ (j : ℕ) (n : N) (k : ℕ), train.columns.dropLast[j]? = some n → test.columns[k]? = some n → x[j]? = row[k]? := by
  rw [makeData_eq h1 h2] at h
  split_ifs at h with hf hv
  obtain rfl := Except.ok.inj h
  refine ⟨rfl, by simp, fun i row hi => ⟨train.columns.dropLast.map (cell test.columns row), by simp [hi], by simp, fun j n k hj hk => ?_⟩⟩
  obtain ⟨hk1, hk2⟩ := List.getElem?_eq_some_iff.1 hk
  have hlen := h2.rows row (List.mem_of_getElem? hi)
  have hkr : k < row.length := by omega
  rw [List.getElem?_map, hj, Option.map_some, cell, ← hk2, h2.nodup.idxOf_getElem k hk1, List.getD_eq_getElem?_getD,
    List.getElem?_eq_getElem hkr]
  rfl

/-- **C99, order of columns.** The order of the feature columns of the test table does not matter. -/
theorem C99_test_columns {train test test' : Table N} (h1 : Rect train) (h2 : Rect test) (h2' : Rect test')
    (hcol : ∀ n ∈ train.columns.dropLast, n ∈ test.columns ↔ n ∈ test'.columns)
    (hrow : List.Forall₂ (fun r r' => r.getLastD 0 = r'.getLastD 0 ∧ ∀ n ∈ train.columns.dropLast, cell test.columns r n = cell test'.columns r' n)
      test.rows test'.rows) : makeData train test = makeData train test' := by
  have hl : labels test = labels test' := by
    unfold labels
    generalize test.rows = a at hrow ⊢
    generalize test'.rows = b at hrow ⊢
    induction hrow with
    | nil => rfl
    | cons h _ ih => rw [List.map_cons, List.map_cons, h.1, ih]
  have hX : test.rows.map (fun row => train.columns.dropLast.map (cell test.columns row)) =
      test'.rows.map fun row => train.columns.dropLast.map (cell test'.columns row) := by
    generalize test.rows = a at hrow ⊢
    generalize test'.rows = b at hrow ⊢
    induction hrow with
    | nil => rfl
    | cons h _ ih => rw [List.map_cons, List.map_cons, List.map_congr_left h.2, ih]
  rw [makeData_eq h1 h2, makeData_eq h1 h2', hl, hX]
  by_cases hf : ∀ n ∈ train.columns.dropLast, n ∈ test.columns
  · rw [if_pos hf, if_pos fun n hn => (hcol n hn).1 (hf n hn)]
  · rw [if_neg hf, if_neg fun h => hf fun n hn => (hcol n hn).2 (h n hn)]

/-- **C99, labels.** The labels are numbered `0, ..., k - 1` in increasing order, all numbers occur among the training labels, and the numbers
can be turned back into the labels of the tables. -/
theorem C99_labels {train test : Table N} (h1 : Rect train) (h2 : Rect test) {D : Data} (h : makeData train test = .ok D) :
    D.classes.Pairwise (· < ·) ∧ (∀ v, v ∈ D.classes ↔ v ∈ labels train) ∧ (∀ c : ℤ, c ∈ D.yTrain ↔ 0 ≤ c ∧ c < D.classes.length) ∧
      (∀ c ∈ D.yTest, c ∈ D.yTrain) ∧ D.yTrain.map (decode D.classes) = labels train ∧ D.yTest.map (decode D.classes) = labels test := by
  rw [makeData_eq h1 h2] at h
  split_ifs at h with hf hv
  obtain rfl := Except.ok.inj h
  have hback : ∀ l : List ℚ, (∀ v ∈ l, v ∈ labels train) →
      (l.map fun v => ((classesOf (labels train)).idxOf v : ℤ)).map (decode (classesOf (labels train))) = l := by
    intro l hl
    rw [List.map_map]
    conv_rhs => rw [← List.map_id l]
    exact List.map_congr_left fun v hv => decode_encode ((mem_classesOf _ _).2 (hl v hv))
  refine ⟨sorted_classesOf _, mem_classesOf _, fun c => ?_, fun c hc => ?_, hback _ fun _ h => h, hback _ hv⟩
  · simp only [List.mem_map]
    constructor
    · rintro ⟨v, hv, rfl⟩
      exact ⟨Int.natCast_nonneg _, Int.ofNat_lt.2 (List.idxOf_lt_length_of_mem ((mem_classesOf _ _).2 hv))⟩
    · rintro ⟨h0, h1⟩
      refine ⟨decode (classesOf (labels train)) c, ?_, encode_decode (nodup_classesOf _) h0 h1⟩
      rw [← mem_classesOf]
      unfold decode
      rw [List.getD_eq_getElem?_getD, List.getElem?_eq_getElem (by omega)]
      exact List.getElem_mem _
  · obtain ⟨v, hv', rfl⟩ := List.mem_map.1 hc
    exact List.mem_map_of_mem (hv v hv')

theorem correct_eq_countP : ∀ (y preds : List ℤ), preds.length = y.length → correct y preds = (y.zip preds).countP fun p => decide (p.1 = p.2) := by
  intro y preds hl
  have key : ∀ (y preds : List ℤ), preds.length = y.length → ((List.range y.length).filter fun r => decide (preds.getD r 0 = y.getD r 0)).length =
      (y.zip preds).countP fun p => decide (p.1 = p.2) := by
    intro y
    induction y with
    | nil => intro preds _; simp
    | cons a y ih =>
      intro preds hl
      cases preds with
      | nil => simp at hl
      | cons b preds =>
        simp only [List.length_cons, Nat.add_right_cancel_iff] at hl
        rw [List.length_cons, List.range_succ_eq_map, List.filter_cons, List.zip_cons_cons, List.countP_cons, ← ih preds hl, List.filter_map,
          List.getD_cons_zero, List.getD_cons_zero]
        have e : (List.filter ((fun r => decide ((b :: preds).getD r 0 = (a :: y).getD r 0)) ∘ Nat.succ) (List.range y.length)) =
            List.filter (fun r => decide (preds.getD r 0 = y.getD r 0)) (List.range y.length) := List.filter_congr fun r _ => by simp
        rw [e]
        by_cases hab : a = b
        · simp [hab]
        · have : ¬ b = a := fun h => hab h.symm
          simp [hab, this]
  exact key y preds hl

/-- **C99, accuracy.** The accuracies computed with label numbers are those of the labels of the table: the part of the rows whose label is the
one that belongs to the predicted number. -/
theorem C99_accuracy {classes : List ℚ} (hn : classes.Nodup) {y preds : List ℤ} (hl : preds.length = y.length)
    (hy : ∀ c ∈ y, 0 ≤ c ∧ c < classes.length) (hp : ∀ c ∈ preds, 0 ≤ c ∧ c < classes.length) :
    score y preds = agreement (y.map (decode classes)) (preds.map (decode classes)) := by
  unfold score agreement
  rw [correct_eq_countP y preds hl, List.zip_map, List.countP_map, List.length_map]
  congr 2
  refine List.countP_congr fun p hp' => ?_
  obtain ⟨h1, h2⟩ := hy p.1 (List.of_mem_zip hp').1
  obtain ⟨h3, h4⟩ := hp p.2 (List.of_mem_zip hp').2
  simp only [Function.comp, Prod.map, decide_eq_true_eq]
  constructor
  · intro h; rw [h]
  · intro h
    rw [← encode_decode hn h1 h2, ← encode_decode hn h3 h4, h]

/-! ## C98: the time limit -/

/-- **C98, what is left.** If the preparation took less time than the time limit, the classifier gets the rest as a (positive) limit, and
both together are the time limit. -/
theorem C98_rest_partial {s : Settings} {total : ℚ} (h : total < s.timeLimit) : 0 < fitLimit s total ∧ total + fitLimit s total = s.timeLimit := by
  unfold fitLimit
  constructor <;> linarith

/-- **C98, time limit reached.** If the preparation took less time than the time limit, a run of `fit` that stops because of the time limit does
so after a clock reading more than `time_limit` after the start of the preparation (not counting the time between the two), and from this
reading on nothing is priced. -/
theorem C98_stop_partial {w : Outside N Ω} {s : Settings} {r : Ready} {fuel : ℕ} {u : Unit} {st : Fit.St (World Ω) Duals Path} (h : w.total < s.timeLimit)
    (hfit : runFit w s r fuel = some (.ok u, st)) :
    st.est.timeLimitReached = true ↔ ∃ pre a b post, st.trace = pre ++ Fit.Ev.check a b :: post ∧ Fit.Spec.lastTimer pre = some a ∧
      w.total + (b - a) > s.timeLimit := by
  obtain ⟨h1, -⟩ := Fit.C08_time_limit hfit
  rw [h1]
  have hcfg : (config (r.prepared.args s.depth.toNat false) s.maxIterations (fitLimit s w.total)).timeLimit = fitLimit s w.total := rfl
  rw [hcfg]
  unfold fitLimit
  constructor
  · rintro ⟨pre, a, b, post, e, h2, -, h4⟩
    exact ⟨pre, a, b, post, e, h2, by linarith⟩
  · rintro ⟨pre, a, b, post, e, h2, h4⟩
    exact ⟨pre, a, b, post, e, h2, by linarith, by linarith⟩

/-- **C98 is false in general.** If the preparation took at least as long as the time limit, the classifier runs without any time limit: it never
stops because of the time, whatever its clock says. -/
theorem C98_no_limit {w : Outside N Ω} {s : Settings} {r : Ready} {fuel : ℕ} {u : Unit} {st : Fit.St (World Ω) Duals Path} (h : s.timeLimit ≤ w.total)
    (hfit : runFit w s r fuel = some (.ok u, st)) : st.est.timeLimitReached = false := by
  obtain ⟨-, h2⟩ := Fit.C08_time_limit hfit
  refine h2 ?_
  show fitLimit s w.total ≤ 0
  unfold fitLimit
  linarith

/-- **C98, no time limit.** A time limit of at most 0 switches off all limits: those of the loops of the preparation, of the merging of rows and
of the classifier (for a clock that does not run backwards). -/
theorem C98_unlimited {argv : List Text} {s : Settings} (h : settings argv = .ok s) (h0 : s.timeLimit ≤ 0) {w : Outside N Ω} (hc : 0 ≤ w.call)
    (ht : 0 ≤ w.total) : rounds s.prepLimit w.check 300 = 300 ∧ rounds s.prepLimit w.checkMore 100 = 100 ∧
      (∀ k, timeOver (s.prepLimit - w.call) w.elapsed k = false) ∧ fitLimit s w.total ≤ 0 := by
  have hp := (C96_all h).1
  have hle : s.prepLimit ≤ 0 := by
    rw [hp]
    have : (s.timeLimit : ℚ) ≤ 0 := by exact_mod_cast h0
    linarith
  have hr : ∀ check n, rounds s.prepLimit check n = n := by
    intro check n
    unfold rounds
    rw [List.takeWhile_eq_self_iff.2]
    · simp
    · intro i _
      unfold timeOver
      simp [not_lt.2 hle]
  refine ⟨hr _ _, hr _ _, fun k => ?_, ?_⟩
  · unfold timeOver
    have : ¬ s.prepLimit - w.call > 0 := by linarith
    simp [this]
  · unfold fitLimit
    have : (s.timeLimit : ℚ) ≤ 0 := by exact_mod_cast h0
    linarith

end Verif.Exp
