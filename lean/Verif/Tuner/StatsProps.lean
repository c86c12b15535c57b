import Verif.Tuner.PropsSolve

/-!
# Property C148: the statistics that are printed

`dtree_experiment.py` prints them before it writes the result file, so an exception here would lose the results.
-/

namespace Verif.Tuner

open Spec

variable {K : Type} [Field K] [LinearOrder K] [IsStrictOrderedRing K] {V : Type}

/-- A line of `print_stats`: value, count, `Qscore` and final score. -/
abbrev StatLine (K V : Type) := V × ℕ × K × K

/-- `Parameter.print_stats`, `_parameter_tuner.py:122-129`: the numbers of the printed lines (the name and the texts between the numbers are dropped). Every
list access can raise `IndexError`. -/
def Parameter.printStats (p : Parameter K V) : Except Err (List (StatLine K V)) :=
  (List.range p.values.length).mapM fun i => do
    let v ← pyGet p.values i
    let c ← pyGet p.counts i
    let s ← pyGet p.scores i
    let f ← pyGet p.finalScores i
    return (v, c, s.mean, f)

/-- What is printed for one subproblem, `dtree_experiment.py:350-354`: `solve_times_`, `gaps_` and the statistics of the three parameters in the order of the
dictionary (`_col_gen_classifier.py:133`, `139`, `145`). -/
def SolveState.printReport (s : SolveState K) : Except Err (List K × List K × List (List (StatLine K ℤ))) := do
  let tables ← [s.presolve, s.probing, s.lns].mapM Parameter.printStats
  return (s.solveTimes, s.gaps, tables)

theorem pyGet_lt {α : Type} {l : List α} {i : ℕ} (h : i < l.length) : pyGet l i = .ok l[i] := by
  unfold pyGet
  simp [h]

/-- **C148.** After any history `print_stats` does not raise: it prints a line for every registered value in the order of registration, with the number and the mean of the
scores credited to it and its final score. -/
theorem C148_stats (sqrt : K → K) (hq : ∀ x, 0 ≤ x → 0 ≤ sqrt x) (cFac : K) (ops : List (Op K V)) :
    (run sqrt cFac ops).printStats = .ok ((registered ops).zipIdx.map (fun q => (q.1, ((logOf sqrt cFac ops).scoresOf q.2).length,
      Spec.mean ((logOf sqrt cFac ops).scoresOf q.2), Spec.finalScore cFac ((logOf sqrt cFac ops).scoresOf q.2)))) := by
  have h : Rep cFac (run sqrt cFac ops) (logOf sqrt cFac ops) := rep_run sqrt hq cFac ops
  have hv : (run sqrt cFac ops).values = registered ops := run_values sqrt cFac ops
  have hva : (logOf sqrt cFac ops).values = registered ops := by rw [← h.vals, hv]
  have e1 := h.lenS; have e2 := h.lenF; have e3 := h.lenC
  rw [hva] at e1 e2 e3
  have e : (registered ops).zipIdx.map (fun q => (q.1, ((logOf sqrt cFac ops).scoresOf q.2).length,
      Spec.mean ((logOf sqrt cFac ops).scoresOf q.2), Spec.finalScore cFac ((logOf sqrt cFac ops).scoresOf q.2))) =
      (List.range (registered ops).length).attach.map (fun i => ((registered ops)[i.1]'(List.mem_range.1 i.2), ((logOf sqrt cFac ops).scoresOf i.1).length,
      Spec.mean ((logOf sqrt cFac ops).scoresOf i.1), Spec.finalScore cFac ((logOf sqrt cFac ops).scoresOf i.1))) := by
    refine List.ext_getElem (by simp) fun i h1 h2 => ?_
    simp
  rw [e]
  unfold Parameter.printStats
  rw [hv]
  have e' : List.range (registered ops).length = (List.range (registered ops).length).attach.map (·.1) := by simp
  conv_lhs => rw [e']
  rw [List.mapM_map]
  generalize (List.range (registered ops).length).attach = l
  induction l with
  | nil => rfl
  | cons i l ih =>
    have hi := List.mem_range.1 i.2
    have i1 := lt_of_lt_of_eq hi e1.symm
    have i2 := lt_of_lt_of_eq hi e2.symm
    have i3 := lt_of_lt_of_eq hi e3.symm
    rw [List.mapM_cons, ih]
    have hh : (do
        let v ← pyGet (registered ops) i.1
        let c ← pyGet (run sqrt cFac ops).counts i.1
        let s ← pyGet (run sqrt cFac ops).scores i.1
        let f ← pyGet (run sqrt cFac ops).finalScores i.1
        return (v, c, s.mean, f) : Except Err (StatLine K V)) = .ok ((registered ops)[i.1], ((logOf sqrt cFac ops).scoresOf i.1).length,
      Spec.mean ((logOf sqrt cFac ops).scoresOf i.1), Spec.finalScore cFac ((logOf sqrt cFac ops).scoresOf i.1)) := by
      rw [pyGet_lt hi, pyGet_lt i3, pyGet_lt i1, pyGet_lt i2]
      rw [h.count _ i3, h.fin _ i2]
      change Except.ok _ = Except.ok _
      rw [(h.stat _ i1).mean_eq]
    simp only [Function.comp]
    rw [hh]
    rfl

theorem hist_stats (sqrt : K → K) (hq : ∀ x, 0 ≤ x → 0 ≤ sqrt x) {vals : List ℤ} {ops : List (Op K ℤ)} {p : Parameter K ℤ} (h : Hist sqrt vals ops p) :
    ∃ t, p.printStats = .ok t ∧ t.map (·.1) = vals ∧ (t.map (·.2.1)).sum = p.totalCounts := by
  obtain ⟨rfl, rfl⟩ := h
  refine ⟨_, C148_stats sqrt hq _ _, ?_, ?_⟩
  · rw [List.map_map]
    exact List.zipIdx_map_fst _ _
  · obtain ⟨-, -, -, h1, h2, -⟩ := C18_bookkeeping sqrt hq (3/10) ops
    rw [h1, h2, List.map_map]
    congr 1
    refine List.ext_getElem (by simp) fun i _ _ => ?_
    simp

/-- **C148.** After any sequence of `solve_model` calls, raising or not, the report of a subproblem is printed without an exception: as many times as gaps, a line for every value of the
three parameters, and the counts of each parameter add up to the number of gaps. -/
theorem C148_report (sqrt : K → K) (hq : ∀ x, 0 ≤ x → 0 ≤ sqrt x) (calls : List (SolveCall K)) :
    ∃ times gaps tables, (solveRun sqrt calls).printReport = .ok (times, gaps, tables) ∧ times.length = gaps.length ∧
      tables.map (fun t => t.map (·.1)) = [[3, 4, 2], [2, 1], [2, 0]] ∧ ∀ t ∈ tables, (t.map (·.2.1)).sum = gaps.length := by
  obtain ⟨om, op, ol, h⟩ := exists_sInv sqrt hq calls
  obtain ⟨t1, a1, b1, c1⟩ := hist_stats sqrt hq h.presolve
  obtain ⟨t2, a2, b2, c2⟩ := hist_stats sqrt hq h.probing
  obtain ⟨t3, a3, b3, c3⟩ := hist_stats sqrt hq h.lns
  refine ⟨_, _, [t1, t2, t3], ?_, h.len.symm, by simp [b1, b2, b3], ?_⟩
  · unfold SolveState.printReport
    simp only [List.mapM_cons, List.mapM_nil, a1, a2, a3]
    rfl
  · intro t ht
    simp only [List.mem_cons, List.not_mem_nil, or_false] at ht
    rcases ht with rfl | rfl | rfl
    · rw [c1, h.tm]
    · rw [c2, h.tp]
    · rw [c3, h.tl]

/-- Two values, two scores for the first and none for the second. -/
example : (run (K := ℚ) (V := ℤ) (fun x => x) 1 [.addValue 7, .addValue 9, .adjustScore 2 none, .adjustScore 4 (some 0)]).printStats =
    .ok [(7, 2, 3, 7/2), (9, 0, 0, 5)] := by decide +kernel

/-- A value that was registered without the list of counts would raise. -/
example : (⟨[7], [.new], [5], [], 1, 0, 0, 10, 1⟩ : Parameter ℚ ℤ).printStats = .error .indexError := by decide +kernel

set_option synthInstance.maxSize 1000 in
/-- One solved model: two lines with count 0 and one with count 1 for the first parameter. -/
example : (solveRun (K := ℚ) (fun x => x) [⟨(0, 0, 1), 10, fun _ => ⟨.optimal, 5, 0, 0⟩⟩]).printReport =
    .ok ([5], [0], [[(3, 0, 0, 5), (4, 1, -1/2, -1/5), (2, 0, 0, 5)], [(2, 0, 0, 5), (1, 1, -1/2, -1/5)], [(2, 1, -1/2, -1/5), (0, 0, 0, 5)]]) := by
  decide +kernel

end Verif.Tuner
