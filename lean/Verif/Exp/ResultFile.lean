import Verif.Exp.Options
import Mathlib.Data.List.Sort
import Mathlib.Data.List.Nodup
import Mathlib.Data.List.Induction

/-!
# Property C149: the result file of the experiment

The objects of class `Results`, `csv.DictWriter` and the three lines of the file. The file is read back by a small reader of comma separated values, which knows nothing of the
writer.
-/

namespace Verif.Exp.Cmd

/-! ## The code -/

/-- The attributes of a `Results` object with the texts of their values (`str`), in the order of `vars`. -/
abbrev Obj := List (Text × Text)

/-- The attributes that `Results.__init__` assigns, `dtree_experiment.py:40-56`. -/
def attrNames : List Text := ["name".toList, "train_accuracy".toList, "test_accuracy".toList, "preprocessing_time".toList, "training_time".toList, "master_time".toList,
  "mster_cuts_time".toList, "master_num_cuts".toList, "sp_time_heuristic".toList, "sp_time_ip".toList, "sp_cols_added_heuristic".toList, "sp_cols_added_ip".toList,
  "col_add_time".toList, "master_ip_time".toList, "total_iterations".toList, "num_improving_iter".toList, "heuristic_hit_rate".toList]

/-- The initial values: an empty name, three numbers of columns or cuts and two of iterations as integers, the rest `0.0`; `dtree_experiment.py:40-56`. -/
def initialText (a : Text) : Text :=
  if a = "name".toList then []
  else if a ∈ ["master_num_cuts".toList, "sp_cols_added_heuristic".toList, "sp_cols_added_ip".toList, "total_iterations".toList, "num_improving_iter".toList] then ['0']
  else "0.0".toList

/-- `Results()`, `dtree_experiment.py:39-56`. -/
def newResults : Obj := attrNames.map (fun a => (a, initialText a))

/-- An assignment `o.k = v`: a known attribute keeps its place, a new one comes last. -/
def setAttr (o : Obj) (k v : Text) : Obj := if k ∈ o.map (·.1) then o.map (fun e => if e.1 = k then (k, v) else e) else o ++ [(k, v)]

/-- Assignments one after the other, e.g. `dtree_experiment.py:188-191` and `311-340`. -/
def assign (o : Obj) (l : List (Text × Text)) : Obj := l.foldl (fun o e => setAttr o e.1 e.2) o

/-- A field as `csv.writer` writes it with its default dialect (`excel`, `QUOTE_MINIMAL`). -/
def csvField (t : Text) : Text :=
  if ',' ∈ t ∨ '"' ∈ t ∨ '\r' ∈ t ∨ '\n' ∈ t then '"' :: (t.flatMap (fun c => if c = '"' then ['"', '"'] else [c]) ++ ['"']) else t

/-- A line. Rows with a single empty field, which the writer quotes, do not occur. -/
def csvLine : List Text → Text
  | [] => ['\r', '\n']
  | [t] => csvField t ++ ['\r', '\n']
  | t :: ts => csvField t ++ ',' :: csvLine ts

/-- `DictWriter.writerow`: `ValueError` if the dictionary has a key that is not among the field names. -/
def writeRow (fields : List Text) (o : Obj) : Except Err Text :=
  if o.all (fun e => decide (e.1 ∈ fields)) then .ok (csvLine (fields.map (fun f => (o.lookup f).getD []))) else .error .valueError

/-- The block that writes the file, `dtree_experiment.py:364-371`: the outcome and the text in the file. -/
def writeFile (cart cg : Obj) : Except Err Unit × Text :=
  let fields := (cart.map (·.1)).insertionSort (· ≤ ·)
  let header := csvLine fields
  match writeRow fields cart with
  | .error e => (.error e, header)
  | .ok l1 =>
    match writeRow fields cg with
    | .error e => (.error e, header ++ l1)
    | .ok l2 => (.ok (), header ++ l1 ++ l2)

/-- The attributes that `main` assigns to `cart_results`, `dtree_experiment.py:188-191`. -/
def cartAttrs : List Text := ["name".toList, "train_accuracy".toList, "test_accuracy".toList, "training_time".toList]

/-- The attributes that `main` assigns to `cg1_results`, `dtree_experiment.py:312-340` (the last one twice if the heuristic ran). -/
def cgAttrs : List Text := ["name".toList, "train_accuracy".toList, "test_accuracy".toList, "preprocessing_time".toList, "training_time".toList, "master_time".toList,
  "mster_cuts_time".toList, "master_num_cuts".toList, "sp_time_heuristic".toList, "sp_time_ip".toList, "sp_cols_added_heuristic".toList, "sp_cols_added_ip".toList,
  "master_ip_time".toList, "total_iterations".toList, "num_improving_iter".toList, "col_add_time".toList, "heuristic_hit_rate".toList, "heuristic_hit_rate".toList]

/-! ## A reader -/

namespace Spec

inductive Mode where
  | start | plain | quoted | closing
deriving DecidableEq

/-- Reading comma separated values: outside quotes a comma ends a field, a line feed a row, and carriage returns are skipped; a field that begins with a quote lasts until the
next quote, where two quotes stand for one. `cur` is the current field, `fs` the fields before it. -/
def readFrom : Mode → Text → List Text → Text → List (List Text)
  | m, cur, fs, [] => if m = .start ∧ fs = [] then [] else [fs ++ [cur]]
  | .quoted, cur, fs, c :: t => if c = '"' then readFrom .closing cur fs t else readFrom .quoted (cur ++ [c]) fs t
  | m, cur, fs, c :: t =>
    if c = ',' then readFrom .start [] (fs ++ [cur]) t
    else if c = '\n' then (fs ++ [cur]) :: readFrom .start [] [] t
    else if c = '\r' then readFrom m cur fs t
    else if c = '"' ∧ m = .start then readFrom .quoted cur fs t
    else if c = '"' ∧ m = .closing then readFrom .quoted (cur ++ [c]) fs t
    else readFrom .plain (cur ++ [c]) fs t

def readCsv (t : Text) : List (List Text) := readFrom .start [] [] t

/-- The value of an attribute: the last one assigned, or the initial one. -/
def valueOf (l : List (Text × Text)) (a : Text) : Text := (l.reverse.lookup a).getD (initialText a)

end Spec

open Spec

/-! ## Reading what was written -/

theorem read_comma {m : Mode} (h : m ≠ .quoted) (cur : Text) (fs : List Text) (t : Text) : readFrom m cur fs (',' :: t) = readFrom .start [] (fs ++ [cur]) t := by
  cases m <;> first | exact absurd rfl h | rfl

theorem read_end {m : Mode} (h : m ≠ .quoted) (cur : Text) (fs : List Text) (t : Text) :
    readFrom m cur fs ('\r' :: '\n' :: t) = (fs ++ [cur]) :: readFrom .start [] [] t := by
  cases m <;> first | exact absurd rfl h | rfl

theorem read_plain {m : Mode} (hm : m = .start ∨ m = .plain) (fs : List Text) (rest : Text) : ∀ (t cur : Text), ¬(',' ∈ t ∨ '"' ∈ t ∨ '\r' ∈ t ∨ '\n' ∈ t) → t ≠ [] →
    readFrom m cur fs (t ++ rest) = readFrom .plain (cur ++ t) fs rest
  | [], _, _, h => absurd rfl h
  | c :: t, cur, hs, _ => by
    simp only [List.mem_cons, not_or] at hs
    obtain ⟨⟨h1, h1'⟩, ⟨h2, h2'⟩, ⟨h3, h3'⟩, ⟨h4, h4'⟩⟩ := hs
    have e : readFrom m cur fs (c :: t ++ rest) = readFrom .plain (cur ++ [c]) fs (t ++ rest) := by
      rcases hm with rfl | rfl <;>
      · rw [List.cons_append, readFrom, if_neg (Ne.symm h1), if_neg (Ne.symm h4), if_neg (Ne.symm h3), if_neg (fun h => h2 h.1.symm), if_neg (fun h => h2 h.1.symm)]
        all_goals intro h; cases h
    rw [e]
    by_cases ht : t = []
    · subst ht; rfl
    · rw [read_plain (Or.inr rfl) fs rest t (cur ++ [c]) (by simp [h1', h2', h3', h4']) ht, List.append_assoc]
      rfl

theorem read_quoted (fs : List Text) (rest : Text) : ∀ t cur : Text,
    readFrom .quoted cur fs (t.flatMap (fun c => if c = '"' then ['"', '"'] else [c]) ++ '"' :: rest) = readFrom .closing (cur ++ t) fs rest
  | [], cur => by
    rw [List.flatMap_nil, List.nil_append, readFrom, if_pos rfl, List.append_nil]
  | c :: t, cur => by
    rw [List.flatMap_cons]
    by_cases hc : c = '"'
    · rw [if_pos hc, List.append_assoc]
      have e : readFrom .quoted cur fs (['"', '"'] ++ (t.flatMap (fun c => if c = '"' then ['"', '"'] else [c]) ++ '"' :: rest)) =
          readFrom .quoted (cur ++ ['"']) fs (t.flatMap (fun c => if c = '"' then ['"', '"'] else [c]) ++ '"' :: rest) := rfl
      rw [e, read_quoted fs rest t, List.append_assoc, hc]
      rfl
    · rw [if_neg hc, List.append_assoc, List.singleton_append, readFrom, if_neg hc, read_quoted fs rest t, List.append_assoc]
      rfl

theorem read_field (t : Text) (fs : List Text) : ∃ m, m ≠ Mode.quoted ∧ ∀ rest, readFrom .start [] fs (csvField t ++ rest) = readFrom m t fs rest := by
  unfold csvField
  split
  · refine ⟨.closing, by decide, fun rest => ?_⟩
    rw [List.cons_append, List.append_assoc]
    have := read_quoted fs rest t []
    rw [List.nil_append] at this
    exact this
  · rename_i h
    by_cases ht : t = []
    · exact ⟨.start, by decide, fun rest => by rw [ht, List.nil_append]⟩
    · exact ⟨.plain, by decide, fun rest => by rw [read_plain (Or.inl rfl) fs rest t [] h ht, List.nil_append]⟩

theorem read_line : ∀ (ts fs : List Text) (rest : Text), ts ≠ [] → readFrom .start [] fs (csvLine ts ++ rest) = (fs ++ ts) :: readFrom .start [] [] rest
  | [], _, _, h => absurd rfl h
  | [t], fs, rest, _ => by
    obtain ⟨m, hm, h⟩ := read_field t fs
    rw [csvLine, List.append_assoc, h]
    exact read_end hm t fs rest
  | t :: t' :: ts, fs, rest, _ => by
    obtain ⟨m, hm, h⟩ := read_field t fs
    rw [csvLine, List.append_assoc, h, List.cons_append, read_comma hm, read_line (t' :: ts) _ rest (by simp), List.append_assoc]
    · rfl
    · simp

/-- **C149.** Whatever texts are written, reading the lines gives them back. -/
theorem C149_roundtrip (rows : List (List Text)) (h : ∀ r ∈ rows, r ≠ []) : readCsv (rows.flatMap csvLine) = rows := by
  unfold readCsv
  induction rows with
  | nil => rfl
  | cons r rows ih =>
    rw [List.flatMap_cons, read_line r [] _ (h r List.mem_cons_self), ih (fun r' hr => h r' (List.mem_cons_of_mem _ hr)), List.nil_append]

/-! ## The objects -/

theorem setAttr_keys {o : Obj} {k v : Text} (h : k ∈ o.map (·.1)) : (setAttr o k v).map (·.1) = o.map (·.1) := by
  unfold setAttr
  rw [if_pos h, List.map_map]
  refine List.map_congr_left fun e _ => ?_
  simp only [Function.comp]
  split
  · rename_i he; exact he.symm
  · rfl

theorem lookup_map_if (k v a : Text) : ∀ o : Obj, (o.map (fun e => if e.1 = k then (k, v) else e)).lookup a =
    if a = k ∧ k ∈ o.map (·.1) then some v else o.lookup a
  | [] => by simp
  | e :: o => by
    have ih := lookup_map_if k v a o
    obtain ⟨e1, e2⟩ := e
    simp only [List.map_cons, List.lookup_cons, List.mem_cons]
    by_cases h1 : e1 = k
    · rw [if_pos h1]
      by_cases h2 : a = k
      · simp [h2, h1]
      · have h3 : (a == k) = false := by simpa using h2
        have h4 : (a == e1) = false := by rw [h1]; exact h3
        rw [List.lookup_cons, h3, h4, ih]
        simp [h2]
    · rw [if_neg h1]
      by_cases h2 : a = e1
      · have h3 : ¬a = k := fun h => h1 (h2.symm.trans h)
        simp [h2]
        intro h; exact absurd h h1
      · have h4 : (a == e1) = false := by simpa using h2
        rw [List.lookup_cons, h4, ih]
        by_cases h5 : a = k
        · have : ¬k = e1 := fun h => h1 h.symm
          simp only [this, false_or]
        · simp [h5]

theorem setAttr_lookup {o : Obj} {k v : Text} (h : k ∈ o.map (·.1)) (a : Text) : (setAttr o k v).lookup a = if a = k then some v else o.lookup a := by
  unfold setAttr
  rw [if_pos h, lookup_map_if]
  by_cases ha : a = k
  · rw [if_pos ⟨ha, h⟩, if_pos ha]
  · rw [if_neg (fun h => ha h.1), if_neg ha]

theorem assign_spec {o : Obj} : ∀ {l : List (Text × Text)}, (∀ e ∈ l, e.1 ∈ o.map (·.1)) → (assign o l).map (·.1) = o.map (·.1) ∧
    ∀ a, (assign o l).lookup a = ((l.reverse.lookup a).or (o.lookup a)) := by
  intro l
  induction l using List.reverseRecOn with
  | nil => intro _; exact ⟨rfl, fun a => rfl⟩
  | append_singleton l e ih =>
    intro h
    obtain ⟨h1, h2⟩ := ih (fun e' he => h e' (List.mem_append_left _ he))
    have hk : e.1 ∈ (assign o l).map (·.1) := by rw [h1]; exact h e (by simp)
    have hs : assign o (l ++ [e]) = setAttr (assign o l) e.1 e.2 := by unfold assign; rw [List.foldl_append]; rfl
    rw [hs]
    refine ⟨by rw [setAttr_keys hk, h1], fun a => ?_⟩
    rw [setAttr_lookup hk, List.reverse_append, List.reverse_singleton, List.singleton_append, List.lookup_cons, h2]
    by_cases ha : a = e.1
    · rw [if_pos ha, ha, beq_self_eq_true]; rfl
    · have h3 : (a == e.1) = false := by simpa using ha
      rw [if_neg ha, h3]

theorem lookup_new {a : Text} (h : a ∈ attrNames) : newResults.lookup a = some (initialText a) := by
  unfold newResults
  generalize attrNames = l at h
  induction l with
  | nil => cases h
  | cons b l ih =>
    rw [List.map_cons, List.lookup_cons]
    by_cases hb : a = b
    · rw [hb, beq_self_eq_true]
    · have h3 : (a == b) = false := by simpa using hb
      rw [h3]
      exact ih ((List.mem_cons.1 h).resolve_left hb)

theorem keys_new : newResults.map (·.1) = attrNames := by
  unfold newResults
  rw [List.map_map]
  exact List.map_id _

theorem assign_value {l : List (Text × Text)} (h : ∀ e ∈ l, e.1 ∈ attrNames) {a : Text} (ha : a ∈ attrNames) : ((assign newResults l).lookup a).getD [] = valueOf l a := by
  rw [(assign_spec (o := newResults) (by rw [keys_new]; exact h)).2 a, lookup_new ha]
  unfold valueOf
  cases l.reverse.lookup a <;> rfl

/-- **C149.** The file: if only attributes of `Results` are assigned, nothing raises, and the file has three lines, a header with all attributes in increasing order, and
for both objects the value of each attribute that was assigned last. -/
theorem C149_file {l l' : List (Text × Text)} (h : ∀ e ∈ l, e.1 ∈ attrNames) (h' : ∀ e ∈ l', e.1 ∈ attrNames) :
    ∃ header : List Text, header.Perm attrNames ∧ header.Pairwise (· ≤ ·) ∧ (writeFile (assign newResults l) (assign newResults l')).1 = .ok () ∧
      readCsv (writeFile (assign newResults l) (assign newResults l')).2 = [header, header.map (valueOf l), header.map (valueOf l')] := by
  have hp : (attrNames.insertionSort (· ≤ ·)).Perm attrNames := List.perm_insertionSort _ _
  have hm : ∀ a, a ∈ attrNames.insertionSort (· ≤ ·) ↔ a ∈ attrNames := fun a => hp.mem_iff
  have hne : attrNames.insertionSort (· ≤ ·) ≠ [] := by
    intro h0
    have := hp.length_eq
    rw [h0] at this
    exact absurd this (by decide)
  have hrow : ∀ {l : List (Text × Text)}, (∀ e ∈ l, e.1 ∈ attrNames) → writeRow (attrNames.insertionSort (· ≤ ·)) (assign newResults l) =
      .ok (csvLine ((attrNames.insertionSort (· ≤ ·)).map (valueOf l))) := by
    intro l h
    unfold writeRow
    rw [if_pos]
    · refine congrArg (fun r => Except.ok (csvLine r)) (List.map_congr_left fun a ha => assign_value h ((hm a).1 ha))
    · refine List.all_eq_true.2 fun e he => ?_
      have hk := (assign_spec (o := newResults) (l := l) (by rw [keys_new]; exact h)).1
      have : e.1 ∈ (assign newResults l).map (·.1) := List.mem_map.2 ⟨e, he, rfl⟩
      rw [hk, keys_new] at this
      exact decide_eq_true ((hm _).2 this)
  have hw : writeFile (assign newResults l) (assign newResults l') = (.ok (), csvLine (attrNames.insertionSort (· ≤ ·)) ++
      csvLine ((attrNames.insertionSort (· ≤ ·)).map (valueOf l)) ++ csvLine ((attrNames.insertionSort (· ≤ ·)).map (valueOf l'))) := by
    unfold writeFile
    rw [(assign_spec (o := newResults) (l := l) (by rw [keys_new]; exact h)).1, keys_new]
    simp only [hrow h, hrow h']
  refine ⟨attrNames.insertionSort (· ≤ ·), hp, List.pairwise_insertionSort _ _, by rw [hw], ?_⟩
  rw [hw]
  have := C149_roundtrip [attrNames.insertionSort (· ≤ ·), (attrNames.insertionSort (· ≤ ·)).map (valueOf l), (attrNames.insertionSort (· ≤ ·)).map (valueOf l')] (by
    intro r hr
    simp only [List.mem_cons, List.not_mem_nil, or_false] at hr
    rcases hr with rfl | rfl | rfl
    · exact hne
    · simpa using hne
    · simpa using hne)
  simp only [List.flatMap_cons, List.flatMap_nil, List.append_nil] at this
  rw [List.append_assoc]
  exact this

/-- **C149.** `main` assigns only attributes of `Results`: whatever the numbers, the file is written, and it can be read back with the name `CART` in the second line and `CG1` in
the third. -/
theorem C149_main {l l' : List (Text × Text)} (h : l.map (·.1) = cartAttrs) (h' : l'.map (·.1) = cgAttrs ∨ l'.map (·.1) = cgAttrs.dropLast)
    (hn : ("name".toList, "CART".toList) ∈ l) (hn' : ("name".toList, "CG1".toList) ∈ l') :
    ∃ header : List Text, header.Perm attrNames ∧ (writeFile (assign newResults l) (assign newResults l')).1 = .ok () ∧
      readCsv (writeFile (assign newResults l) (assign newResults l')).2 = [header, header.map (valueOf l), header.map (valueOf l')] ∧
      valueOf l "name".toList = "CART".toList ∧ valueOf l' "name".toList = "CG1".toList := by
  have hsub : ∀ k ∈ cartAttrs, k ∈ attrNames := by decide +kernel
  have hsub' : ∀ k ∈ cgAttrs, k ∈ attrNames := by decide +kernel
  have hone : ∀ {l : List (Text × Text)} {v : Text}, (l.map (·.1)).count "name".toList = 1 → ("name".toList, v) ∈ l → valueOf l "name".toList = v := by
    intro l v hc hv
    unfold valueOf
    have key : ∀ {l : List (Text × Text)}, (l.map (·.1)).count "name".toList = 1 → ("name".toList, v) ∈ l → l.lookup "name".toList = some v := by
      intro l
      induction l with
      | nil => intro _ h; cases h
      | cons e l ih =>
        intro hc hv
        rw [List.lookup_cons]
        by_cases he : e.1 = "name".toList
        · rw [he, beq_self_eq_true]
          rw [List.map_cons, he, List.count_cons_self] at hc
          rcases List.mem_cons.1 hv with h | h
          · rw [← h]
          · exfalso
            have : 0 < (l.map (·.1)).count "name".toList := List.count_pos_iff.2 (List.mem_map.2 ⟨_, h, rfl⟩)
            omega
        · have h3 : ("name".toList == e.1) = false := by simpa using Ne.symm he
          rw [h3]
          rw [List.map_cons, List.count_cons_of_ne he] at hc
          refine ih hc ((List.mem_cons.1 hv).resolve_left fun h => he (by rw [← h]))
    rw [key (l := l.reverse) (by rw [List.map_reverse, List.count_reverse]; exact hc) (List.mem_reverse.2 hv)]
    rfl
  obtain ⟨header, h1, -, h2, h3⟩ := C149_file (l := l) (l' := l') (fun e he => hsub _ (h ▸ List.mem_map.2 ⟨e, he, rfl⟩)) (fun e he => by
    have he' : e.1 ∈ l'.map (·.1) := List.mem_map.2 ⟨e, he, rfl⟩
    rcases h' with h' | h' <;> rw [h'] at he'
    · exact hsub' _ he'
    · exact hsub' _ ((List.dropLast_sublist _).subset he'))
  refine ⟨header, h1, h2, h3, hone ?_ hn, hone ?_ hn'⟩
  · rw [h]; decide +kernel
  · rcases h' with h' | h' <;> rw [h'] <;> decide +kernel

/-- **C149.** An attribute of the second object that `Results` does not have would lose its line: `ValueError`, and the file ends after the line of CART. -/
theorem C149_unknown {l : List (Text × Text)} (h : ∀ e ∈ l, e.1 ∈ attrNames) {o : Obj} {k : Text} (hk : k ∈ o.map (·.1)) (hn : k ∉ attrNames) :
    (writeFile (assign newResults l) o).1 = .error .valueError ∧ (readCsv (writeFile (assign newResults l) o).2).length = 2 := by
  have hp : (attrNames.insertionSort (· ≤ ·)).Perm attrNames := List.perm_insertionSort _ _
  obtain ⟨header, h1, h2, h3, h4⟩ := C149_file (l' := []) h (by simp)
  have hh : writeRow (attrNames.insertionSort (· ≤ ·)) o = .error .valueError := by
    unfold writeRow
    rw [if_neg]
    intro hall
    obtain ⟨e, he, rfl⟩ := List.mem_map.1 hk
    have := List.all_eq_true.1 hall e he
    exact hn (hp.mem_iff.1 (of_decide_eq_true this))
  have hf : (assign newResults l).map (·.1) = attrNames := by
    rw [(assign_spec (o := newResults) (l := l) (by rw [keys_new]; exact h)).1, keys_new]
  have hrow : ∃ row, row ≠ [] ∧ writeRow (attrNames.insertionSort (· ≤ ·)) (assign newResults l) = .ok (csvLine row) := by
    refine ⟨(attrNames.insertionSort (· ≤ ·)).map (fun f => ((assign newResults l).lookup f).getD []), ?_, ?_⟩
    · intro h0
      have := congrArg List.length h0
      rw [List.length_map, hp.length_eq] at this
      exact absurd this (by decide)
    · unfold writeRow
      refine if_pos (List.all_eq_true.2 fun e he => decide_eq_true (hp.mem_iff.2 ?_))
      rw [← hf]
      exact List.mem_map.2 ⟨e, he, rfl⟩
  obtain ⟨row, hr0, hr⟩ := hrow
  have hw : writeFile (assign newResults l) o = (.error .valueError, csvLine (attrNames.insertionSort (· ≤ ·)) ++ csvLine row) := by
    unfold writeFile
    rw [hf]
    simp only [hr, hh]
  rw [hw]
  refine ⟨rfl, ?_⟩
  have := C149_roundtrip [attrNames.insertionSort (· ≤ ·), row] (by
    intro r hr
    simp only [List.mem_cons, List.not_mem_nil, or_false] at hr
    rcases hr with rfl | rfl
    · intro h0
      have := hp.length_eq
      rw [h0] at this
      exact absurd this (by decide)
    · exact hr0)
  simp only [List.flatMap_cons, List.flatMap_nil, List.append_nil] at this
  rw [this]
  rfl

/-! ## Concrete cases -/

/-- Reading texts with commas, quotes and line ends. -/
example : csvLine ["a,b".toList, "say \"x\"".toList, []] = "\"a,b\",\"say \"\"x\"\"\",\r\n".toList ∧
    readCsv (csvLine ["a,b".toList, "say \"x\"".toList, []]) = [["a,b".toList, "say \"x\"".toList, []]] := by decide +kernel

/-- A small object: the header is sorted, the second assignment of `x` counts. -/
example : writeFile (assign [("x".toList, ['0']), ("a".toList, ['1'])] [("x".toList, ['5'])]) (assign [("x".toList, ['0']), ("a".toList, ['1'])] [("x".toList, ['5']), ("x".toList, ['7'])]) =
    (.ok (), "a,x\r\n1,5\r\n1,7\r\n".toList) := by decide +kernel

/-- The assignments of `main` to `cart_results`, and to `cg1_results` without the second one to `heuristic_hit_rate`: the hypotheses of `C149_main` hold. -/
example : ∃ l l' : List (Text × Text), l.map (·.1) = cartAttrs ∧ l'.map (·.1) = cgAttrs.dropLast ∧ ("name".toList, "CART".toList) ∈ l ∧ ("name".toList, "CG1".toList) ∈ l' :=
  ⟨[("name".toList, "CART".toList), ("train_accuracy".toList, "0.8".toList), ("test_accuracy".toList, "0.7".toList), ("training_time".toList, "1.5".toList)],
    cgAttrs.dropLast.map (fun a => (a, if a = "name".toList then "CG1".toList else ['1'])), by decide +kernel, by decide +kernel, by decide +kernel, by decide +kernel⟩

/-- A misspelt attribute is unknown. -/
example : "master_cuts_time".toList ∉ attrNames := by decide +kernel

end Verif.Exp.Cmd
