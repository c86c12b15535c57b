import Mathlib.Tactic.FieldSimp
import Mathlib.Tactic.Ring
import Mathlib.Tactic.Linarith
import Mathlib.Tactic.Positivity
import Mathlib.Algebra.BigOperators.Group.List.Basic
import Mathlib.Algebra.Order.BigOperators.Group.List
import Verif.Tuner.Spec

/-! # Proof machinery for the tuner -/

set_option linter.unusedSectionVars false
set_option linter.unusedSimpArgs false

namespace Verif.Tuner

open Spec

variable {K : Type} [Field K] [LinearOrder K] [IsStrictOrderedRing K] {V : Type}

/-! ## RunningStat -/

/-- Sum of squared deviations. -/
def sqDev (xs : List K) : K := (xs.map (fun x => (x - mean xs) ^ 2)).sum

theorem sum_sq_sub (xs : List K) (m : K) :
    (xs.map (fun x => (x - m) ^ 2)).sum
      = (xs.map (fun x => x ^ 2)).sum - 2 * m * xs.sum + (xs.length : K) * m ^ 2 := by
  induction xs with
  | nil => simp
  | cons a l ih => simp only [List.map_cons, List.sum_cons, ih, List.length_cons]; push_cast; ring

theorem sqDev_nonneg (xs : List K) : 0 ≤ sqDev xs := by
  unfold sqDev
  apply List.sum_nonneg
  intro a ha
  obtain ⟨x, -, rfl⟩ := List.mem_map.1 ha
  positivity

theorem mean_snoc (xs : List K) (x : K) (h : xs ≠ []) :
    mean (xs ++ [x]) = mean xs + (x - mean xs) / ((xs.length + 1 : ℕ) : K) := by
  have hn : (0 : K) < xs.length := by
    have := List.length_pos_iff.2 h
    exact_mod_cast this
  simp only [mean, h, List.append_eq_nil_iff, List.cons_ne_nil, and_false, if_false, List.sum_append,
    List.sum_singleton, List.length_append, List.length_singleton]
  push_cast
  field_simp
  ring

theorem sqDev_snoc (xs : List K) (x : K) (h : xs ≠ []) :
    sqDev (xs ++ [x]) = sqDev xs + (x - mean xs) * (x - mean (xs ++ [x])) := by
  have hn : (0 : K) < xs.length := by
    have := List.length_pos_iff.2 h
    exact_mod_cast this
  unfold sqDev
  rw [sum_sq_sub, sum_sq_sub]
  simp only [mean, h, List.append_eq_nil_iff, List.cons_ne_nil, and_false, if_false, List.sum_append,
    List.sum_singleton, List.length_append, List.length_singleton, List.map_append, List.map_cons, List.map_nil]
  push_cast
  field_simp
  ring

/-- What the fields of a `RunningStat` mean for the values `xs` pushed since the last clear. -/
structure StatInv (s : RunningStat K) (xs : List K) : Prop where
  num : s.numData = xs.length
  om : xs ≠ [] → s.oldMean = mean xs
  nm : xs ≠ [] → s.newMean = mean xs
  os : xs ≠ [] → s.oldStd = sqDev xs
  ns : 2 ≤ xs.length → s.newStd = sqDev xs

theorem statInv_new : StatInv (RunningStat.new : RunningStat K) [] := by
  constructor <;> simp [RunningStat.new]

theorem StatInv.clear {s : RunningStat K} {xs : List K} (_ : StatInv s xs) : StatInv s.clear [] := by
  constructor <;> simp [RunningStat.clear]

theorem StatInv.push {s : RunningStat K} {xs : List K} (h : StatInv s xs) (x : K) :
    StatInv (s.push x) (xs ++ [x]) := by
  by_cases hx : xs = []
  · subst hx
    have h0 : s.numData = 0 := by simpa using h.num
    constructor <;> simp [RunningStat.push, h0, mean, sqDev]
  · have hl : 0 < xs.length := List.length_pos_iff.2 hx
    have h1 : s.numData + 1 ≠ 1 := by rw [h.num]; omega
    have hm := mean_snoc xs x hx
    have hs := sqDev_snoc xs x hx
    have hmean : s.oldMean + (x - s.oldMean) / ((s.numData + 1 : ℕ) : K) = mean (xs ++ [x]) := by
      rw [hm, h.om hx, h.num]
    have hstd : s.oldStd + (x - s.oldMean) * (x - mean (xs ++ [x])) = sqDev (xs ++ [x]) := by
      rw [hs, h.om hx, h.os hx]
    constructor
    · have : (s.push x).numData = s.numData + 1 := by simp only [RunningStat.push]; split <;> rfl
      rw [this, h.num]; simp
    all_goals
      intro _
      simp only [RunningStat.push, h1, if_false, hmean, hstd]

theorem StatInv.mean_eq {s : RunningStat K} {xs : List K} (h : StatInv s xs) : s.mean = Spec.mean xs := by
  unfold RunningStat.mean
  rw [h.num]
  by_cases hx : xs = []
  · simp [hx, mean]
  · rw [if_pos (List.length_pos_iff.2 hx), h.nm hx]

theorem StatInv.variance_eq {s : RunningStat K} {xs : List K} (h : StatInv s xs) :
    s.variance = sampleVariance xs := by
  unfold RunningStat.variance sampleVariance
  rw [h.num]
  by_cases h2 : xs.length < 2
  · rw [if_neg (by omega), if_pos h2]
  · rw [if_pos (by omega), if_neg h2, h.ns (by omega)]; rfl

theorem sampleVariance_nonneg (xs : List K) : 0 ≤ sampleVariance xs := by
  unfold sampleVariance
  split
  · exact le_refl _
  · rename_i h
    apply div_nonneg (sqDev_nonneg xs)
    have : (2 : K) ≤ xs.length := by exact_mod_cast (not_lt.1 h)
    linarith

theorem StatInv.sd {s : RunningStat K} {xs : List K} (h : StatInv s xs) (sqrt : K → K) :
    s.standardDeviation sqrt = .ok (sqrt s.variance) := by
  unfold RunningStat.standardDeviation
  rw [if_neg]
  rw [h.variance_eq]
  exact not_lt.2 (sampleVariance_nonneg xs)

/-! ## Python indexing -/

theorem pyIdx_nat (n i : ℕ) : pyIdx n (i : ℤ) = if i < n then some i else none := by
  simp [pyIdx]

theorem pyIdx_eq (n : ℕ) (z : ℤ) :
    pyIdx n z = if -(n : ℤ) ≤ z ∧ z < n then some (z % (n : ℤ)).toNat else none := by
  unfold pyIdx
  by_cases hz : 0 ≤ z
  · by_cases hn : z < n
    · rw [if_pos hz, if_pos (by omega), if_pos (by omega), Int.emod_eq_of_lt hz hn]
    · rw [if_pos hz, if_neg (by omega), if_neg (by omega)]
  · by_cases hn : -(n : ℤ) ≤ z
    · rw [if_neg hz, if_pos (by omega), if_pos (by omega)]
      congr 2
      rw [← Int.add_emod_left, Int.emod_eq_of_lt (by omega) (by omega)]
    · rw [if_neg hz, if_neg (by omega), if_neg (by omega)]

theorem pyIdx_lt {n : ℕ} {z : ℤ} {i : ℕ} (h : pyIdx n z = some i) : i < n := by
  unfold pyIdx at h
  split at h <;> split at h <;> simp at h <;> omega

/-! ## Parameter: refinement of the abstract log -/

/-- The model state `p` represents the abstract state `a`. -/
structure Rep (cFac : K) (p : Parameter K V) (a : Abs K V) : Prop where
  vals : p.values = a.values
  lenS : p.scores.length = a.values.length
  lenF : p.finalScores.length = a.values.length
  lenC : p.counts.length = a.values.length
  cfac : p.cFac = cFac
  cur : p.currentIndex = a.last
  curLt : a.values ≠ [] → a.last < a.values.length
  cur0 : a.values = [] → a.last = 0
  logLt : ∀ e ∈ a.log, e.1 < a.values.length
  total : p.totalCounts = a.log.length
  stat : ∀ i (hi : i < p.scores.length), StatInv p.scores[i] (a.scoresOf i)
  count : ∀ i (hi : i < p.counts.length), p.counts[i] = (a.scoresOf i).length
  fin : ∀ i (hi : i < p.finalScores.length), p.finalScores[i] = Spec.finalScore cFac (a.scoresOf i)

theorem rep_new (cFac : K) : Rep cFac (Parameter.new cFac : Parameter K V) ⟨[], [], 0⟩ := by
  constructor <;> simp [Parameter.new]

theorem scoresOf_of_lt {a : Abs K V} (h : ∀ e ∈ a.log, e.1 < a.values.length) :
    a.scoresOf a.values.length = [] := by
  simp only [Abs.scoresOf, List.map_eq_nil_iff, List.filter_eq_nil_iff, decide_eq_true_eq]
  intro e he
  exact (h e he).ne

theorem Rep.addValue {cFac : K} {p : Parameter K V} {a : Abs K V} (h : Rep cFac p a) (v : V) :
    Rep cFac (p.addValue v) { a with values := a.values ++ [v] } := by
  have hs : ∀ i, (Abs.scoresOf { a with values := a.values ++ [v] } i) = a.scoresOf i := fun _ => rfl
  have h0 := scoresOf_of_lt h.logLt
  constructor
  · simp [Parameter.addValue, h.vals]
  · simp [Parameter.addValue, h.lenS]
  · simp [Parameter.addValue, h.lenF]
  · simp [Parameter.addValue, h.lenC]
  · simpa [Parameter.addValue] using h.cfac
  · simpa [Parameter.addValue] using h.cur
  · intro _
    simp only [List.length_append, List.length_singleton]
    by_cases hv : a.values = []
    · rw [h.cur0 hv]; omega
    · have := h.curLt hv; omega
  · simp
  · intro e he
    have := h.logLt e he
    simp only [List.length_append, List.length_singleton]; omega
  · simpa [Parameter.addValue] using h.total
  · intro i hi
    rw [hs]
    simp only [Parameter.addValue, List.length_append, List.length_singleton] at hi
    simp only [Parameter.addValue, List.getElem_append]
    split
    · exact h.stat i _
    · have : i = a.values.length := by rw [← h.lenS]; omega
      subst this
      rw [h0]
      simpa using statInv_new
  · intro i hi
    rw [hs]
    simp only [Parameter.addValue, List.length_append, List.length_singleton] at hi
    simp only [Parameter.addValue, List.getElem_append]
    split
    · exact h.count i _
    · have : i = a.values.length := by rw [← h.lenC]; omega
      subst this
      rw [h0]
      simp
  · intro i hi
    rw [hs]
    simp only [Parameter.addValue, List.length_append, List.length_singleton] at hi
    simp only [Parameter.addValue, List.getElem_append]
    split
    · exact h.fin i _
    · have : i = a.values.length := by rw [← h.lenF]; omega
      subst this
      rw [h0]
      simp [Spec.finalScore]

theorem scoresOf_snoc (a : Abs K V) (j i : ℕ) (s : K) :
    Abs.scoresOf { a with log := a.log ++ [(j, s)] } i = if j = i then a.scoresOf i ++ [s] else a.scoresOf i := by
  simp only [Abs.scoresOf, List.filter_append, List.map_append]
  by_cases h : j = i <;> simp [h]

/-- Effect of a successful score on position `j`. -/
theorem Rep.credit {cFac : K} {p : Parameter K V} {a : Abs K V} (h : Rep cFac p a) (s : K) (idx : Option ℤ) (j : ℕ)
    (hj : p.scoreIndex idx = some j) (hlt : j < a.values.length) :
    ∃ p', p.adjustScore s idx = .ok p' ∧ Rep cFac p' { a with log := a.log ++ [(j, s)] } := by
  unfold Parameter.adjustScore
  rw [hj]
  refine ⟨_, rfl, ?_⟩
  have hjs : j < p.scores.length := by rw [h.lenS]; exact hlt
  have hjc : j < p.counts.length := by rw [h.lenC]; exact hlt
  constructor
  · exact h.vals
  · simpa using h.lenS
  · simpa using h.lenF
  · simpa using h.lenC
  · exact h.cfac
  · exact h.cur
  · exact h.curLt
  · exact h.cur0
  · intro e he
    rcases List.mem_append.1 he with he | he
    · exact h.logLt e he
    · simp only [List.mem_singleton] at he; subst he; exact hlt
  · simp [h.total]
  · intro i hi
    rw [scoresOf_snoc]
    simp only [List.getElem_modify]
    simp only [List.length_modify] at hi
    split
    · exact (h.stat i hi).push s
    · exact h.stat i hi
  · intro i hi
    rw [scoresOf_snoc]
    simp only [List.getElem_modify]
    simp only [List.length_modify] at hi
    split
    · rw [h.count i hi]; simp
    · exact h.count i hi
  · intro i hi
    rw [scoresOf_snoc]
    simp only [List.length_modify] at hi
    simp only [List.getElem_modify]
    split
    · rename_i hji
      subst hji
      have h1 : (p.scores.modify j (·.push s))[j]? = some (p.scores[j].push s) := by
        simp [List.getElem?_modify, hjs]
      have h2 : (p.counts.modify j (· + 1))[j]? = some (p.counts[j] + 1) := by
        simp [List.getElem?_modify, hjc]
      rw [h1, h2]
      simp only [Option.getD_some]
      rw [((h.stat j hjs).push s).mean_eq, h.count j hjc, h.cfac]
      simp [Spec.finalScore]
    · exact h.fin i hi

theorem Rep.getBest_ok {cFac : K} {p : Parameter K V} {a : Abs K V} (h : Rep cFac p a) (e : ℤ) (j : ℕ)
    (hj : j < a.values.length) :
    Rep cFac { p with exploreCount := e, currentIndex := j } { a with last := j } := by
  constructor
  · exact h.vals
  · exact h.lenS
  · exact h.lenF
  · exact h.lenC
  · exact h.cfac
  · rfl
  · intro _; exact hj
  · intro h0
    have h0' : a.values = [] := h0
    rw [h0'] at hj
    simp at hj
  · exact h.logLt
  · exact h.total
  · exact h.stat
  · exact h.count
  · exact h.fin

/-! ## The choice -/

theorem argmaxFrom_spec (fs : List K) : ∀ (is : List ℕ) (b : ℕ),
    (argmaxFrom fs b is = b ∨ argmaxFrom fs b is ∈ is) ∧
    fs[b]?.getD 0 ≤ fs[argmaxFrom fs b is]?.getD 0 ∧
    ∀ i ∈ is, fs[i]?.getD 0 ≤ fs[argmaxFrom fs b is]?.getD 0 := by
  intro is
  induction is with
  | nil => intro b; simp [argmaxFrom]
  | cons i is ih =>
    intro b
    simp only [argmaxFrom]
    obtain ⟨h1, h2, h3⟩ := ih (if fs[i]?.getD 0 > fs[b]?.getD 0 then i else b)
    refine ⟨?_, ?_, ?_⟩
    · rcases h1 with h1 | h1
      · rw [h1]
        split
        · right; simp
        · left; rfl
      · right; exact List.mem_cons_of_mem _ h1
    · refine le_trans ?_ h2
      split
      · rename_i h; exact le_of_lt h
      · exact le_refl _
    · intro k hk
      rcases List.mem_cons.1 hk with rfl | hk
      · refine le_trans ?_ h2
        split
        · exact le_refl _
        · rename_i h; exact not_lt.1 h
      · exact h3 k hk

theorem significant_spec (sqrt : K → K) (fs : List K) (scores : List (RunningStat K)) (best : ℕ)
    (hs : ∀ i : ℕ, ((scores[i]?.getD RunningStat.new).standardDeviation sqrt)
        = .ok (sqrt (scores[i]?.getD RunningStat.new).variance)) (is : List ℕ) :
    significant sqrt fs scores best is = .ok (is.filter (fun i =>
      fs[best]?.getD 0 ≤ fs[i]?.getD 0 + sqrt (scores[i]?.getD RunningStat.new).variance / 10)) := by
  induction is with
  | nil => rfl
  | cons i is ih =>
    simp only [significant, hs, ih]
    simp only [List.filter_cons, bind, Except.bind, pure, Except.pure, ge_iff_le]
    by_cases hc : fs[best]?.getD 0 ≤ fs[i]?.getD 0 + sqrt (scores[i]?.getD RunningStat.new).variance / 10
    · simp [hc]
    · simp [hc]

/-- The indices from which the exploit phase draws. -/
def eligible (sqrt : K → K) (p : Parameter K V) : List ℕ :=
  let bucket0 := (List.range p.values.length).filter (fun i => p.counts[i]?.getD 0 < 4)
  if bucket0 = [] then
    (List.range p.values.length).filter (fun i => ∀ j < p.values.length,
      p.finalScores[j]?.getD 0 ≤ p.finalScores[i]?.getD 0
        + sqrt (p.scores[i]?.getD RunningStat.new).variance / 10)
  else bucket0

theorem eligible_ne_nil (sqrt : K → K) (hq : ∀ x, 0 ≤ x → 0 ≤ sqrt x) {cFac : K} {p : Parameter K V} {a : Abs K V}
    (h : Rep cFac p a) (hv : p.values ≠ []) : eligible sqrt p ≠ [] := by
  unfold eligible
  simp only
  split
  · have hpos : 0 < p.values.length := List.length_pos_iff.2 hv
    obtain ⟨h1, -, h3⟩ := argmaxFrom_spec p.finalScores (List.range p.values.length) 0
    set b := argmaxFrom p.finalScores 0 (List.range p.values.length) with hb
    have hblt : b < p.values.length := by
      rcases h1 with h1 | h1
      · omega
      · exact List.mem_range.1 h1
    apply List.ne_nil_of_mem (a := b)
    simp only [List.mem_filter, List.mem_range, hblt, true_and, decide_eq_true_eq]
    intro j hj
    have := h3 j (List.mem_range.2 hj)
    have hlt : b < p.scores.length := by rw [h.lenS, ← h.vals]; exact hblt
    have hvar : 0 ≤ (p.scores[b]?.getD RunningStat.new).variance := by
      simp only [List.getElem?_eq_getElem hlt, Option.getD_some, (h.stat b hlt).variance_eq]
      exact sampleVariance_nonneg _
    have := hq _ hvar
    linarith
  · assumption

theorem Rep.sdAll (sqrt : K → K) {cFac : K} {p : Parameter K V} {a : Abs K V} (h : Rep cFac p a) (i : ℕ) :
    ((p.scores[i]?.getD RunningStat.new).standardDeviation sqrt)
        = .ok (sqrt (p.scores[i]?.getD RunningStat.new).variance) := by
  by_cases hi : i < p.scores.length
  · simp only [List.getElem?_eq_getElem hi, Option.getD_some]
    exact (h.stat i hi).sd sqrt
  · simp only [List.getElem?_eq_none (not_lt.1 hi), Option.getD_none]
    exact statInv_new.sd sqrt

/-- The exploit choice is a draw from `eligible`. -/
theorem choose_exploit (sqrt : K → K) (hq : ∀ x, 0 ≤ x → 0 ≤ sqrt x) {cFac : K} {p : Parameter K V} {a : Abs K V}
    (h : Rep cFac p a) (hv : p.values ≠ []) (he : ¬ p.exploreCount > 0) (d : ℕ) :
    p.choose sqrt d = .ok ((eligible sqrt p)[d % (eligible sqrt p).length]?.getD 0, p.exploreCount) := by
  have hne := eligible_ne_nil sqrt hq h hv
  have key : p.exploitBucket sqrt = .ok (eligible sqrt p) := by
    unfold Parameter.exploitBucket
    unfold eligible
    simp only
    split
    · rw [significant_spec sqrt _ _ _ (h.sdAll sqrt)]
      congr 1
      apply List.filter_congr
      intro i hi
      simp only [decide_eq_decide]
      obtain ⟨h1, -, h3⟩ := argmaxFrom_spec p.finalScores (List.range p.values.length) 0
      constructor
      · intro hle j hj
        exact le_trans (h3 j (List.mem_range.2 hj)) hle
      · intro hall
        apply hall
        rcases h1 with h1 | h1
        · rw [h1]; exact List.length_pos_iff.2 hv
        · exact List.mem_range.1 h1
    · rfl
  unfold Parameter.choose
  rw [if_neg he]
  simp only [key, bind, Except.bind]
  have hl : 0 < (eligible sqrt p).length := List.length_pos_iff.2 hne
  rw [if_neg (by omega)]
  split
  · simp [randrange, hl.ne', pure, Except.pure]
  · have : (eligible sqrt p).length = 1 := by omega
    rw [this]
    simp [pure, Except.pure, Nat.mod_one]

theorem eligible_lt (sqrt : K → K) (p : Parameter K V) {i : ℕ} (hi : i ∈ eligible sqrt p) : i < p.values.length := by
  unfold eligible at hi
  simp only at hi
  split at hi <;> exact List.mem_range.1 (List.mem_filter.1 hi).1

theorem choose_explore2 (sqrt : K → K) (p : Parameter K V) (he : p.exploreCount > 0) (h2 : p.values.length = 2)
    (d : ℕ) : p.choose sqrt d
      = .ok (if Int.land p.switchFlag p.exploreCount > 0 then 1 else 0, p.exploreCount - 1) := by
  unfold Parameter.choose
  rw [if_pos he]
  simp [Parameter.exploreIndex, h2, bind, Except.bind, pure, Except.pure]

theorem choose_explore (sqrt : K → K) (p : Parameter K V) (he : p.exploreCount > 0) (h2 : p.values.length ≠ 2)
    (hv : p.values ≠ []) (d : ℕ) : p.choose sqrt d = .ok (d % p.values.length, p.exploreCount - 1) := by
  unfold Parameter.choose
  rw [if_pos he]
  simp [Parameter.exploreIndex, h2, bind, Except.bind, pure, Except.pure, randrange, hv]

theorem choose_nil (sqrt : K → K) (p : Parameter K V) (hv : p.values = []) (d : ℕ) :
    ∃ e, p.choose sqrt d = .error e := by
  unfold Parameter.choose
  split
  · exact ⟨.valueError, by simp [Parameter.exploreIndex, hv, randrange, bind, Except.bind]⟩
  · exact ⟨.assertionError, by simp [Parameter.exploitBucket, hv, bind, Except.bind, significant]⟩

theorem choose_ok (sqrt : K → K) (hq : ∀ x, 0 ≤ x → 0 ≤ sqrt x) {cFac : K} {p : Parameter K V} {a : Abs K V}
    (h : Rep cFac p a) (hv : p.values ≠ []) (d : ℕ) :
    ∃ j, j < p.values.length ∧
      p.choose sqrt d = .ok (j, if p.exploreCount > 0 then p.exploreCount - 1 else p.exploreCount) := by
  by_cases he : p.exploreCount > 0
  · simp only [he, if_true]
    by_cases h2 : p.values.length = 2
    · refine ⟨_, ?_, choose_explore2 sqrt p he h2 d⟩
      split <;> omega
    · exact ⟨_, Nat.mod_lt _ (List.length_pos_iff.2 hv), choose_explore sqrt p he h2 hv d⟩
  · simp only [he, if_false]
    refine ⟨_, ?_, choose_exploit sqrt hq h hv he d⟩
    have hl : d % (eligible sqrt p).length < (eligible sqrt p).length :=
      Nat.mod_lt _ (List.length_pos_iff.2 (eligible_ne_nil sqrt hq h hv))
    simp only [List.getElem?_eq_getElem hl, Option.getD_some]
    exact eligible_lt sqrt p (List.getElem_mem hl)

theorem getBest_of_choose (sqrt : K → K) (p : Parameter K V) (d j : ℕ) (e : ℤ) (hj : j < p.values.length)
    (hc : p.choose sqrt d = .ok (j, e)) :
    p.getBestValue sqrt d = .ok (p.values[j], { p with exploreCount := e, currentIndex := j }) := by
  unfold Parameter.getBestValue
  rw [hc]
  simp [bind, Except.bind, pyGet, List.getElem?_eq_getElem hj, pure, Except.pure]

theorem getBest_nil (sqrt : K → K) (p : Parameter K V) (hv : p.values = []) (d : ℕ) :
    ∃ e, p.getBestValue sqrt d = .error e := by
  obtain ⟨e, he⟩ := choose_nil sqrt p hv d
  exact ⟨e, by simp [Parameter.getBestValue, he, bind, Except.bind]⟩

/-- One step refines one abstract step, where the abstract `get_best_value` is answered with the model's new position. -/
theorem Rep.step (sqrt : K → K) (hq : ∀ x, 0 ≤ x → 0 ≤ sqrt x) {cFac : K} {p : Parameter K V} {a : Abs K V}
    (h : Rep cFac p a) (op : Op K V) : Rep cFac (p.step sqrt op) (a.step (op, (p.step sqrt op).currentIndex)) := by
  cases op with
  | addValue v => exact h.addValue v
  | setSwitchFlag z => exact ⟨h.1, h.2, h.3, h.4, h.5, h.6, h.7, h.8, h.9, h.10, h.11, h.12, h.13⟩
  | setExploreCount z => exact ⟨h.1, h.2, h.3, h.4, h.5, h.6, h.7, h.8, h.9, h.10, h.11, h.12, h.13⟩
  | adjustScore s idx =>
    cases idx with
    | none =>
      simp only [Parameter.step, Abs.step]
      by_cases hl : a.last < a.values.length
      · rw [if_pos hl]
        obtain ⟨p', hp', hr⟩ := h.credit s none a.last
          (by simp [Parameter.scoreIndex, pyIdx_nat, h.lenS, h.cur, hl]) hl
        rw [hp']
        exact hr
      · rw [if_neg hl]
        have : p.adjustScore s none = .error .indexError := by
          simp [Parameter.adjustScore, Parameter.scoreIndex, pyIdx_nat, h.lenS, h.cur, hl]
        rw [this]
        exact h
    | some z =>
      simp only [Parameter.step, Abs.step]
      by_cases hz : -(a.values.length : ℤ) ≤ z ∧ z < a.values.length
      · rw [if_pos hz]
        obtain ⟨p', hp', hr⟩ := h.credit s (some z) (z % (a.values.length : ℤ)).toNat
          (by simp only [Parameter.scoreIndex, h.lenS, pyIdx_eq, if_pos hz])
          (by
            have h0 : (0 : ℤ) < a.values.length := by omega
            have h1 := Int.emod_lt_of_pos z h0
            have h2 := Int.emod_nonneg z h0.ne'
            omega)
        rw [hp']
        exact hr
      · rw [if_neg hz]
        have : p.adjustScore s (some z) = .error .indexError := by
          simp only [Parameter.adjustScore, Parameter.scoreIndex, h.lenS, pyIdx_eq, if_neg hz]
        rw [this]
        exact h
  | getBest d =>
    by_cases hv : p.values = []
    · obtain ⟨e, he⟩ := getBest_nil sqrt p hv d
      have hs : p.step sqrt (.getBest d) = p := by simp only [Parameter.step, he]
      rw [hs]
      simp only [Abs.step, ← h.vals, hv, if_true]
      exact h
    · obtain ⟨j, hj, hc⟩ := choose_ok sqrt hq h hv d
      have hg := getBest_of_choose sqrt p d j _ hj hc
      have hs : p.step sqrt (.getBest d)
          = { p with
              exploreCount := if p.exploreCount > 0 then p.exploreCount - 1 else p.exploreCount
              currentIndex := j } := by simp only [Parameter.step, hg]
      rw [hs]
      simp only [Abs.step]
      rw [if_neg (show ¬ a.values = [] by rw [← h.vals]; exact hv)]
      exact h.getBest_ok _ j (by rw [← h.vals]; exact hj)

/-- The calls of a history together with the position after each call. -/
def answered (sqrt : K → K) (p : Parameter K V) : List (Op K V) → List (Op K V × ℕ)
  | [] => []
  | op :: ops => (op, (p.step sqrt op).currentIndex) :: answered sqrt (p.step sqrt op) ops

theorem Rep.steps (sqrt : K → K) (hq : ∀ x, 0 ≤ x → 0 ≤ sqrt x) {cFac : K} (ops : List (Op K V)) :
    ∀ {p : Parameter K V} {a : Abs K V}, Rep cFac p a →
      Rep cFac (ops.foldl (Parameter.step sqrt) p) ((answered sqrt p ops).foldl Abs.step a) := by
  induction ops with
  | nil => intro p a h; exact h
  | cons op ops ih => intro p a h; exact ih (h.step sqrt hq op)

theorem rep_run (sqrt : K → K) (hq : ∀ x, 0 ≤ x → 0 ≤ sqrt x) (cFac : K) (ops : List (Op K V)) :
    Rep cFac (run sqrt cFac ops) (absRun (answered sqrt (Parameter.new cFac) ops)) :=
  Rep.steps sqrt hq ops (rep_new cFac)

/-- Every intermediate history state represents some abstract state. -/
theorem exists_rep (sqrt : K → K) (hq : ∀ x, 0 ≤ x → 0 ≤ sqrt x) (cFac : K) (ops : List (Op K V)) :
    ∃ a, Rep cFac (run sqrt cFac ops) a := ⟨_, rep_run sqrt hq cFac ops⟩

end Verif.Tuner
