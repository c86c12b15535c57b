import Mathlib.Analysis.Real.Sqrt
import Mathlib.Tactic.NormNum
import Mathlib.Data.Rat.Defs
import Mathlib.Algebra.Order.Field.Rat
import Verif.Tuner.Lemmas

/-!
# Properties C13 - C19
-/

set_option linter.unusedSectionVars false

namespace Verif.Tuner

open Spec

variable {K : Type} [Field K] [LinearOrder K] [IsStrictOrderedRing K] {V : Type}

/-! ## C13, C14: RunningStat -/

/-- Replay of calls on a model `RunningStat`. -/
def statRun (ops : List (StatOp K)) : RunningStat K :=
  ops.foldl (fun s o => match o with | .push x => s.push x | .clear => s.clear) RunningStat.new

theorem statInv_run (ops : List (StatOp K)) : StatInv (statRun ops) (sinceClear ops) := by
  induction ops using List.reverseRecOn with
  | nil => exact statInv_new
  | append_singleton ops o ih =>
    cases o with
    | push x =>
      have h1 : statRun (ops ++ [.push x]) = (statRun ops).push x := by simp [statRun]
      have h2 : sinceClear (ops ++ [.push x]) = sinceClear ops ++ [x] := by
        simp [sinceClear, List.takeWhile_cons, StatOp.pushed?]
      rw [h1, h2]
      exact ih.push x
    | clear =>
      have h1 : statRun (ops ++ [StatOp.clear]) = (statRun ops).clear := by simp [statRun]
      have h2 : sinceClear (ops ++ [StatOp.clear]) = ([] : List K) := by
        simp [sinceClear, List.takeWhile_cons, StatOp.pushed?]
      rw [h1, h2]
      exact ih.clear

/-- **C13.** After any sequence of `push` and `clear`, count, mean and variance are those of the values pushed since
the last `clear`. -/
theorem C13_running_stat (ops : List (StatOp K)) :
    (statRun ops).numDataValues = (sinceClear ops).length ∧
    (statRun ops).mean = Spec.mean (sinceClear ops) ∧
    (statRun ops).variance = sampleVariance (sinceClear ops) :=
  ⟨(statInv_run ops).num, (statInv_run ops).mean_eq, (statInv_run ops).variance_eq⟩

/-- Non-vacuity: a history with a `clear` in the middle; the mean of 1, 3, 8 is 4 and the sample variance 13. -/
example : let s := statRun (K := ℚ) [.push 7, .push 9, .clear, .push 1, .push 3, .push 8]
    s.numDataValues = 3 ∧ s.mean = 4 ∧ s.variance = 13 := by decide +kernel

/-- **C14.** The variance is never negative and `standard_deviation` never raises (any ordered field). -/
theorem C14_variance_nonneg (sqrt : K → K) (ops : List (StatOp K)) :
    0 ≤ (statRun ops).variance ∧ (statRun ops).standardDeviation sqrt = .ok (sqrt (statRun ops).variance) := by
  refine ⟨?_, (statInv_run ops).sd sqrt⟩
  rw [(statInv_run ops).variance_eq]
  exact sampleVariance_nonneg _

/-- **C14**, with the real square root: the standard deviation is the non-negative number whose square is the variance. -/
theorem C14_standard_deviation (ops : List (StatOp ℝ)) :
    ∃ d, (statRun ops).standardDeviation Real.sqrt = .ok d ∧ 0 ≤ d ∧ d ^ 2 = sampleVariance (sinceClear ops) := by
  obtain ⟨h0, h1⟩ := C14_variance_nonneg Real.sqrt ops
  refine ⟨_, h1, Real.sqrt_nonneg _, ?_⟩
  rw [Real.sq_sqrt h0, (statInv_run ops).variance_eq]

/-- Non-vacuity: a variance that is really positive. -/
example : 0 < (statRun (K := ℚ) [.push 1, .push 2]).variance := by decide +kernel

/-! ## C15: get_best_value returns a registered value -/

/-- The values registered by a history. -/
def registered (ops : List (Op K V)) : List V :=
  ops.filterMap (fun o => match o with | .addValue v => some v | _ => none)

theorem step_values (sqrt : K → K) (p : Parameter K V) (op : Op K V) :
    (p.step sqrt op).values = p.values ++ registered [op] := by
  cases op with
  | addValue v => simp [Parameter.step, Parameter.addValue, registered]
  | setSwitchFlag z => simp [Parameter.step, Parameter.setSwitchFlag, registered]
  | setExploreCount z => simp [Parameter.step, Parameter.setExploreCount, registered]
  | adjustScore s idx =>
    simp only [Parameter.step, Parameter.adjustScore, registered]
    cases p.scoreIndex idx <;> simp
  | getBest d =>
    simp only [Parameter.step, Parameter.getBestValue, registered]
    cases p.choose sqrt d with
    | error e => simp [bind, Except.bind]
    | ok r =>
      simp only [bind, Except.bind, pyGet]
      cases p.values[r.1]? <;> simp [pure, Except.pure]

theorem run_snoc (sqrt : K → K) (cFac : K) (ops : List (Op K V)) (op : Op K V) :
    run sqrt cFac (ops ++ [op]) = (run sqrt cFac ops).step sqrt op := by simp [run]

theorem run_values (sqrt : K → K) (cFac : K) (ops : List (Op K V)) :
    (run sqrt cFac ops).values = registered ops := by
  induction ops using List.reverseRecOn with
  | nil => rfl
  | append_singleton ops op ih =>
    rw [run_snoc, step_values, ih]
    simp [registered]

/-- **C15.** After any history in which at least one value was added, `get_best_value` does not raise, whatever the random
generator draws, and returns one of the added values (the one at the recorded position); without values it raises. The square
root is any function that is non-negative on non-negative numbers. -/
theorem C15_get_best_value (sqrt : K → K) (hq : ∀ x, 0 ≤ x → 0 ≤ sqrt x) (cFac : K) (ops : List (Op K V)) (d : ℕ) :
    (registered ops ≠ [] → ∃ v p', (run sqrt cFac ops).getBestValue sqrt d = .ok (v, p') ∧ v ∈ registered ops ∧
        (registered ops)[p'.currentIndex]? = some v) ∧
    (registered ops = [] → ∃ e, (run sqrt cFac ops).getBestValue sqrt d = .error e) := by
  obtain ⟨a, ha⟩ := exists_rep sqrt hq cFac ops
  constructor
  · intro hne
    rw [← run_values sqrt cFac] at hne
    obtain ⟨j, hj, hc⟩ := choose_ok sqrt hq ha hne d
    refine ⟨_, _, getBest_of_choose sqrt _ d j _ hj hc, ?_, ?_⟩
    · rw [← run_values sqrt cFac]; exact List.getElem_mem hj
    · simp only [← run_values sqrt cFac, List.getElem?_eq_getElem hj]
  · intro hnil
    exact getBest_nil sqrt _ (by rw [run_values]; exact hnil) d

/-- Non-vacuity: a history in the exploit phase. -/
example : ((run (K := ℚ) (fun _ => 0) (3/10) [.addValue 7, .addValue 8, .setExploreCount 0, .adjustScore (-1) none,
    .adjustScore 0 (some (-1))]).getBestValue (fun _ => 0) 5).map (·.1) = .ok (8 : ℕ) := by decide +kernel

/-! ## C16: exploration budget -/

/-- Number of `get_best_value` calls in a history. -/
def numGetBest (ops : List (Op K V)) : ℕ :=
  ops.countP (fun o => match o with | .getBest _ => true | _ => false)

/-- No `set_explore_count` in a history. -/
def NoReset (ops : List (Op K V)) : Prop := ∀ o ∈ ops, ∀ z, o ≠ .setExploreCount z

theorem step_exploreCount (sqrt : K → K) (hq : ∀ x, 0 ≤ x → 0 ≤ sqrt x) {cFac : K} {p : Parameter K V} {a : Abs K V}
    (h : Rep cFac p a) (hv : p.values ≠ []) (op : Op K V) (hop : ∀ z, op ≠ .setExploreCount z) :
    (p.step sqrt op).exploreCount
      = if numGetBest [op] = 1 ∧ p.exploreCount > 0 then p.exploreCount - 1 else p.exploreCount := by
  cases op with
  | addValue v => simp [Parameter.step, Parameter.addValue, numGetBest]
  | setSwitchFlag z => simp [Parameter.step, Parameter.setSwitchFlag, numGetBest]
  | setExploreCount z => exact absurd rfl (hop z)
  | adjustScore s idx =>
    simp only [Parameter.step, Parameter.adjustScore, numGetBest]
    cases p.scoreIndex idx <;> simp
  | getBest d =>
    obtain ⟨j, hj, hc⟩ := choose_ok sqrt hq h hv d
    simp only [Parameter.step, getBest_of_choose sqrt p d j _ hj hc]
    simp [numGetBest]

/-- **C16a.** Starting with counter `e` and at least one value, after any history without `set_explore_count` that contains `k` calls of
`get_best_value` the counter is `max (e - k) 0` (an initially non-positive counter is kept): it explores exactly `e` times and
then never again, and never drops below zero. -/
theorem C16_explore_count (sqrt : K → K) (hq : ∀ x, 0 ≤ x → 0 ≤ sqrt x) (cFac : K) (pre ops : List (Op K V))
    (hv : registered pre ≠ []) (hn : NoReset ops) :
    (run sqrt cFac (pre ++ ops)).exploreCount
      = if 0 < (run sqrt cFac pre).exploreCount
        then max ((run sqrt cFac pre).exploreCount - numGetBest ops) 0
        else (run sqrt cFac pre).exploreCount := by
  induction ops using List.reverseRecOn with
  | nil =>
    simp only [List.append_nil, numGetBest, List.countP_nil, Nat.cast_zero, sub_zero]
    split
    · rename_i h; rw [max_eq_left h.le]
    · rfl
  | append_singleton ops op ih =>
    have hn' : NoReset ops := fun o ho => hn o (List.mem_append_left _ ho)
    have hop : ∀ z, op ≠ .setExploreCount z := hn op (by simp)
    obtain ⟨a, ha⟩ := exists_rep sqrt hq cFac (pre ++ ops)
    have hvv : (run sqrt cFac (pre ++ ops)).values ≠ [] := by
      rw [run_values]
      intro h0
      apply hv
      simp only [registered, List.filterMap_append, List.append_eq_nil_iff] at h0
      exact h0.1
    rw [← List.append_assoc, run_snoc, step_exploreCount sqrt hq ha hvv op hop, ih hn']
    have hsum : numGetBest (ops ++ [op]) = numGetBest ops + numGetBest [op] := by
      simp [numGetBest]
    have h01 : numGetBest [op] = 0 ∨ numGetBest [op] = 1 := by
      cases op <;> simp [numGetBest]
    rw [hsum]
    by_cases he : 0 < (run sqrt cFac pre).exploreCount
    · simp only [he, if_true]
      rcases h01 with h | h
      · simp [h]
      · simp only [h, true_and, Nat.cast_add, Nat.cast_one]
        split <;> omega
    · simp only [he, if_false]
      rcases h01 with h | h
      · simp [h]
      · simp [he]

/-- Number of shared bits is positive iff the bitwise and is positive, for a positive counter. -/
theorem land_pos_iff (f e : ℤ) (he : 0 < e) :
    Int.land f e > 0 ↔ ∃ i, f.testBit i = true ∧ e.testBit i = true := by
  have h0 : 0 ≤ Int.land f e := by
    obtain ⟨n, rfl⟩ := Int.eq_ofNat_of_zero_le he.le
    cases f with
    | ofNat m => exact Int.natCast_nonneg _
    | negSucc m => exact Int.natCast_nonneg _
  have hex : (∃ i, f.testBit i = true ∧ e.testBit i = true) ↔ ∃ i, (Int.land f e).testBit i = true := by
    simp only [Int.testBit_land, Bool.and_eq_true]
  rw [hex]
  obtain ⟨m, hm⟩ := Int.eq_ofNat_of_zero_le h0
  rw [hm]
  have htb : ∀ i, ((m : ℤ)).testBit i = m.testBit i := fun i => rfl
  simp only [htb]
  constructor
  · intro hpos
    have hm0 : m ≠ 0 := by omega
    exact Nat.exists_testBit_of_ne_zero hm0
  · rintro ⟨i, hi⟩
    rcases Nat.eq_zero_or_pos m with h | h
    · subst h; simp at hi
    · omega

/-- **C16b.** While exploring with two registered values and counter `e`, the second value is returned iff `e` and the switch flag
share a bit; the scores play no role. -/
theorem C16_two_values (sqrt : K → K) (cFac : K) (ops : List (Op K V)) (v0 v1 : V) (d : ℕ)
    (hv : registered ops = [v0, v1]) (he : 0 < (run sqrt cFac ops).exploreCount) :
    ((∃ i, (run sqrt cFac ops).switchFlag.testBit i = true ∧ (run sqrt cFac ops).exploreCount.testBit i = true) →
      ((run sqrt cFac ops).getBestValue sqrt d).map (fun r => (r.1, r.2.currentIndex)) = .ok (v1, 1)) ∧
    ((¬ ∃ i, (run sqrt cFac ops).switchFlag.testBit i = true ∧ (run sqrt cFac ops).exploreCount.testBit i = true) →
      ((run sqrt cFac ops).getBestValue sqrt d).map (fun r => (r.1, r.2.currentIndex)) = .ok (v0, 0)) := by
  have hvals : (run sqrt cFac ops).values = [v0, v1] := by rw [run_values, hv]
  have h2 : (run sqrt cFac ops).values.length = 2 := by rw [hvals]; rfl
  have hc := choose_explore2 sqrt _ he h2 d
  unfold Parameter.getBestValue
  rw [hc]
  constructor
  · intro hb
    rw [if_pos ((land_pos_iff _ _ he).2 hb)]
    simp [bind, Except.bind, pyGet, hvals, pure, Except.pure, Except.map]
  · intro hb
    rw [if_neg (fun h => hb ((land_pos_iff _ _ he).1 h))]
    simp [bind, Except.bind, pyGet, hvals, pure, Except.pure, Except.map]

/-- **C16c.** While exploring with another number of values, the draw alone decides and every value can be drawn. -/
theorem C16_uniform (sqrt : K → K) (cFac : K) (ops : List (Op K V))
    (hl : (registered ops).length ≠ 2) (he : 0 < (run sqrt cFac ops).exploreCount) (i : ℕ)
    (hi : i < (registered ops).length) (d : ℕ) (hd : d % (registered ops).length = i) :
    ((run sqrt cFac ops).getBestValue sqrt d).map (fun r => (r.1, r.2.currentIndex)) = .ok ((registered ops)[i], i) := by
  have hvals := run_values sqrt cFac ops
  have hne : (run sqrt cFac ops).values ≠ [] := by
    rw [hvals]; intro h0; simp [h0] at hi
  have hc := choose_explore sqrt (run sqrt cFac ops) he (by rw [hvals]; exact hl) hne d
  have hj : d % (run sqrt cFac ops).values.length < (run sqrt cFac ops).values.length :=
    Nat.mod_lt _ (List.length_pos_iff.2 hne)
  rw [getBest_of_choose sqrt _ d _ _ hj hc]
  simp [Except.map, hvals, hd]

/-- Non-vacuity of C16a and C16b: `probing_level`-like parameter, counter 10 and flag 2 share bit 1. -/
example : registered (K := ℚ) [.addValue 2, .addValue 1, .setSwitchFlag 2] = [2, 1] ∧
    (run (K := ℚ) (fun _ => 0) (3/10) [.addValue 2, .addValue 1, .setSwitchFlag 2]).exploreCount = 10 ∧
    (run (K := ℚ) (V := ℕ) (fun _ => 0) (3/10)
      [.addValue 2, .addValue 1, .setSwitchFlag 2, .getBest 0, .getBest 1]).exploreCount = 8 ∧
    ((run (K := ℚ) (V := ℕ) (fun _ => 0) (3/10) [.addValue 2, .addValue 1, .setSwitchFlag 2]).getBestValue
      (fun _ => 0) 0).map (·.1) = .ok 1 := by
  decide +kernel

/-! ## C18: score bookkeeping (before C17, which uses its vocabulary) -/

/-- The history as seen by a caller: every call with the position recorded after it. -/
def observed (sqrt : K → K) (cFac : K) (ops : List (Op K V)) : List (Op K V × ℕ) :=
  answered sqrt (Parameter.new cFac) ops

/-- Abstract log of credited scores after a history. -/
def logOf (sqrt : K → K) (cFac : K) (ops : List (Op K V)) : Abs K V := absRun (observed sqrt cFac ops)

/-- **C18.** After any history: the abstract log (which credits `adjust_score(s)` to the position last returned by `get_best_value`
and `adjust_score(s, z)` to Python position `z`) determines the counters and final scores: `total_counts_` is the number of
accepted `adjust_score` calls and the sum of the counts; `counts_[i]` is the number of scores credited to `i`; the final score is 5 if there
is none, otherwise their mean plus `c_fac / count`. -/
theorem C18_bookkeeping (sqrt : K → K) (hq : ∀ x, 0 ≤ x → 0 ≤ sqrt x) (cFac : K) (ops : List (Op K V)) :
    let p := run sqrt cFac ops
    let a := logOf sqrt cFac ops
    a.values = registered ops ∧
    p.currentIndex = a.last ∧
    p.totalCounts = a.log.length ∧ p.totalCounts = p.counts.sum ∧
    p.counts = (List.range (registered ops).length).map (fun i => (a.scoresOf i).length) ∧
    p.finalScores = (List.range (registered ops).length).map (fun i => Spec.finalScore cFac (a.scoresOf i)) ∧
    p.scores.map (fun s => (s.numDataValues, s.mean, s.variance))
      = (List.range (registered ops).length).map
          (fun i => ((a.scoresOf i).length, Spec.mean (a.scoresOf i), sampleVariance (a.scoresOf i))) := by
  intro p a
  have h : Rep cFac p a := rep_run sqrt hq cFac ops
  have hval : a.values = registered ops := by rw [← h.vals]; exact run_values sqrt cFac ops
  have hc : p.counts = (List.range (registered ops).length).map (fun i => (a.scoresOf i).length) := by
    apply List.ext_getElem
    · simp [h.lenC, hval]
    · intro i h1 h2
      simp [h.count i h1]
  refine ⟨hval, h.cur, h.total, ?_, hc, ?_, ?_⟩
  · rw [h.total, hc, ← hval]
    have hl := h.logLt
    have key : ∀ (l : List (ℕ × K)) (n : ℕ), (∀ e ∈ l, e.1 < n) →
        l.length = ((List.range n).map (fun i => ((l.filter (fun e => e.1 = i)).map (·.2)).length)).sum := by
      intro l n
      induction l with
      | nil => intro _; simp
      | cons e l ih =>
        intro hlt
        have ih' := ih (fun e he => hlt e (List.mem_cons_of_mem _ he))
        have he := hlt e (by simp)
        have hsplit : (fun i => (((e :: l).filter (fun x => x.1 = i)).map (·.2)).length)
            = (fun i => (if e.1 = i then 1 else 0) + ((l.filter (fun x => x.1 = i)).map (·.2)).length) := by
          funext i
          by_cases hi : e.1 = i
          · simp [hi]; omega
          · simp [hi]
        rw [hsplit, List.sum_map_add, ← ih']
        have hone : ((List.range n).map (fun i => if e.1 = i then 1 else 0)).sum = 1 := by
          have hz : ∀ m, ((List.range m).map (fun i => if e.1 = i then 1 else 0)).sum = if e.1 < m then 1 else 0 := by
            intro m
            induction m with
            | zero => simp
            | succ m ihm =>
              rw [List.range_succ, List.map_append, List.sum_append, ihm]
              simp only [List.map_cons, List.map_nil, List.sum_cons, List.sum_nil]
              split <;> split <;> split <;> omega
          rw [hz, if_pos he]
        rw [hone, List.length_cons]; omega
    exact key a.log a.values.length hl
  · apply List.ext_getElem
    · simp [h.lenF, hval]
    · intro i h1 h2
      simp [h.fin i h1]
  · apply List.ext_getElem
    · simp [h.lenS, hval]
    · intro i h1 h2
      simp only [List.length_map] at h1
      simp only [List.getElem_map, List.getElem_range]
      exact Prod.ext (h.stat i h1).num (Prod.ext (h.stat i h1).mean_eq (h.stat i h1).variance_eq)

/-- Non-vacuity: the score of the second call goes to the value returned by `get_best_value` (position 1), the third to
Python position -2, i.e. 0. -/
example : let ops : List (Op ℚ ℕ) := [.addValue 2, .addValue 1, .setSwitchFlag 2, .getBest 0, .adjustScore (-1) none,
      .adjustScore 3 (some (-2)), .adjustScore 3 (some 2)]
    (logOf (fun _ => 0) (3/10) ops).log = [(1, -1), (0, 3)] ∧
    (run (fun _ => 0) (3/10) ops).finalScores = [33/10, -7/10] := by decide +kernel

/-! ## C17: every value is sampled before convergence -/

/-- **C17.** In the exploit phase: while some value has fewer than four scores, exactly the values with fewer than four scores can be
returned; afterwards exactly the values whose final score plus a tenth of the standard deviation reaches every final score
can be returned. ("Can be returned": by some draw; and every draw returns such a value.) -/
theorem C17_exploit (sqrt : K → K) (hq : ∀ x, 0 ≤ x → 0 ≤ sqrt x) (cFac : K) (ops : List (Op K V))
    (hv : registered ops ≠ []) (he : (run sqrt cFac ops).exploreCount ≤ 0) (i : ℕ) :
    (∃ d v p', (run sqrt cFac ops).getBestValue sqrt d = .ok (v, p') ∧ p'.currentIndex = i) ↔
      i < (registered ops).length ∧
      (let xs := fun j => (logOf sqrt cFac ops).scoresOf j
       if ∃ j < (registered ops).length, (xs j).length < 4 then (xs i).length < 4
       else ∀ j < (registered ops).length,
         Spec.finalScore cFac (xs j) ≤ Spec.finalScore cFac (xs i) + sqrt (sampleVariance (xs i)) / 10) := by
  have h : Rep cFac (run sqrt cFac ops) (logOf sqrt cFac ops) := rep_run sqrt hq cFac ops
  have hval := run_values sqrt cFac ops
  have hval' : (logOf sqrt cFac ops).values = registered ops := by rw [← h.vals, hval]
  have hne : (run sqrt cFac ops).values ≠ [] := by rw [hval]; exact hv
  have hmem : (∃ d v p', (run sqrt cFac ops).getBestValue sqrt d = .ok (v, p') ∧ p'.currentIndex = i)
      ↔ i ∈ eligible sqrt (run sqrt cFac ops) := by
    have hlen := List.length_pos_iff.2 (eligible_ne_nil sqrt hq h hne)
    have hget : ∀ d, ∃ v p', (run sqrt cFac ops).getBestValue sqrt d = .ok (v, p') ∧
        p'.currentIndex = (eligible sqrt (run sqrt cFac ops))[d % (eligible sqrt (run sqrt cFac ops)).length]'(Nat.mod_lt _ hlen) := by
      intro d
      have hlt : d % (eligible sqrt (run sqrt cFac ops)).length < (eligible sqrt (run sqrt cFac ops)).length :=
        Nat.mod_lt _ hlen
      have hc := choose_exploit sqrt hq h hne (not_lt.2 he) d
      rw [List.getElem?_eq_getElem hlt, Option.getD_some] at hc
      exact ⟨_, _, getBest_of_choose sqrt _ d _ _ (eligible_lt sqrt _ (List.getElem_mem hlt)) hc, rfl⟩
    constructor
    · rintro ⟨d, v, p', hg, hi⟩
      obtain ⟨v2, p2, hg2, hi2⟩ := hget d
      rw [hg] at hg2
      cases hg2
      rw [← hi, hi2]
      exact List.getElem_mem _
    · intro hi
      obtain ⟨k, hk, hki⟩ := List.getElem_of_mem hi
      obtain ⟨v2, p2, hg2, hi2⟩ := hget k
      refine ⟨k, v2, p2, hg2, ?_⟩
      rw [hi2]
      simp only [Nat.mod_eq_of_lt hk, hki]
  rw [hmem]
  have hcount : ∀ j, j < (registered ops).length →
      (run sqrt cFac ops).counts[j]?.getD 0 = ((logOf sqrt cFac ops).scoresOf j).length := by
    intro j hj
    have hl : j < (run sqrt cFac ops).counts.length := by rw [h.lenC, hval']; exact hj
    simp [List.getElem?_eq_getElem hl, h.count j hl]
  have hfin : ∀ j, j < (registered ops).length →
      (run sqrt cFac ops).finalScores[j]?.getD 0 = Spec.finalScore cFac ((logOf sqrt cFac ops).scoresOf j) := by
    intro j hj
    have hl : j < (run sqrt cFac ops).finalScores.length := by rw [h.lenF, hval']; exact hj
    simp [List.getElem?_eq_getElem hl, h.fin j hl]
  have hvar : ∀ j, j < (registered ops).length →
      ((run sqrt cFac ops).scores[j]?.getD RunningStat.new).variance
        = sampleVariance ((logOf sqrt cFac ops).scoresOf j) := by
    intro j hj
    have hl : j < (run sqrt cFac ops).scores.length := by rw [h.lenS, hval']; exact hj
    simp [List.getElem?_eq_getElem hl, (h.stat j hl).variance_eq]
  unfold eligible
  simp only [hval]
  have hb : (List.filter (fun i => decide ((run sqrt cFac ops).counts[i]?.getD 0 < 4))
      (List.range (registered ops).length) = []) ↔
      ¬ ∃ j < (registered ops).length, ((logOf sqrt cFac ops).scoresOf j).length < 4 := by
    simp only [List.filter_eq_nil_iff, List.mem_range, decide_eq_true_eq, not_exists, not_and]
    constructor
    · intro hh j hj; have := hh j hj; rwa [hcount j hj] at this
    · intro hh j hj; rw [hcount j hj]; exact hh j hj
  by_cases hx : ∃ j < (registered ops).length, ((logOf sqrt cFac ops).scoresOf j).length < 4
  · rw [if_neg (by rw [hb]; exact not_not.2 hx), if_pos hx]
    simp only [List.mem_filter, List.mem_range, decide_eq_true_eq]
    constructor
    · rintro ⟨h1, h2⟩; rw [hcount i h1] at h2; exact ⟨h1, h2⟩
    · rintro ⟨h1, h2⟩; rw [hcount i h1]; exact ⟨h1, h2⟩
  · rw [if_pos (hb.2 hx), if_neg hx]
    simp only [List.mem_filter, List.mem_range, decide_eq_true_eq]
    constructor
    · rintro ⟨h1, h2⟩
      refine ⟨h1, fun j hj => ?_⟩
      have := h2 j hj
      rwa [hfin i h1, hfin j hj, hvar i h1] at this
    · rintro ⟨h1, h2⟩
      refine ⟨h1, fun j hj => ?_⟩
      rw [hfin i h1, hfin j hj, hvar i h1]
      exact h2 j hj

/-- Non-vacuity: after four scores each the better value (position 1) is returned by every draw. -/
example : let ops : List (Op ℚ ℕ) := [.addValue 2, .addValue 1, .setExploreCount 0] ++
      List.replicate 4 (.adjustScore (-1) (some 0)) ++ List.replicate 4 (.adjustScore 0 (some 1))
    (∀ j < 2, ((logOf (fun _ => 0) (3/10) ops).scoresOf j).length = 4) ∧
    (run (fun _ => 0) (3/10) ops).exploreCount ≤ 0 ∧
    ((run (fun _ => 0) (3/10) ops).getBestValue (fun _ => 0) 6).map (·.1) = .ok 1 := by decide +kernel

end Verif.Tuner
