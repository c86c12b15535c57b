import Verif.Tuner.RoundLemmas

/-!
# C109: the tuner computes with floating point numbers

What C13-C19 say about exact arithmetic, for rounded arithmetic: any monotone rounding to floating point numbers with at least three bits.
-/

set_option linter.unusedSectionVars false

namespace Verif.Tuner.Round

open Spec Fl

variable {p : ℕ} {emin : ℤ} {V : Type} (R : Rounding p emin)

/-! ## The model without rounding is the exact model -/

theorem push_id (s : RunningStat ℚ) (x : ℚ) : push id s x = s.push x := rfl

theorem variance_id (s : RunningStat ℚ) : variance id s = s.variance := by
  unfold variance RunningStat.variance
  by_cases h : s.numData > 1
  · rw [if_pos h, if_pos h]
    simp only [id]
    rw [Nat.cast_sub (by omega)]
    simp
  · rw [if_neg h, if_neg h]

theorem adjust_id (q : Parameter ℚ V) (x : ℚ) (i : Option ℤ) : adjustScore id q x i = q.adjustScore x i := rfl

theorem significant_id (sqrt : ℚ → ℚ) (fs : List ℚ) (scores : List (RunningStat ℚ)) (best : ℕ) (is : List ℕ) :
    significant id sqrt fs scores best is = Tuner.significant sqrt fs scores best is := by
  induction is with
  | nil => rfl
  | cons i is ih =>
    unfold significant Tuner.significant standardDeviation RunningStat.standardDeviation
    rw [ih, variance_id]
    rfl

/-- C109: without rounding the rounded model is the exact one. -/
theorem C109_exact (sqrt : ℚ → ℚ) (cFac : ℚ) (ops : List (Op ℚ V)) : run id sqrt cFac ops = Tuner.run sqrt cFac ops := by
  have hg : ∀ (q : Parameter ℚ V) d, getBestValue id sqrt q d = q.getBestValue sqrt d := by
    intro q d
    have h1 : exploitBucket id sqrt q = q.exploitBucket sqrt := by
      unfold exploitBucket Parameter.exploitBucket
      rw [significant_id]
    unfold getBestValue Parameter.getBestValue choose Parameter.choose
    rw [h1]
  have hs : step (V := V) id sqrt = Parameter.step sqrt := by
    funext q op
    cases op with
    | getBest d =>
      simp only [step, Parameter.step, hg]
      rcases q.getBestValue sqrt d with e | ⟨v, q'⟩ <;> rfl
    | adjustScore x i =>
      simp only [step, Parameter.step, adjust_id]
      rcases q.adjustScore x i with e | q' <;> rfl
    | _ => rfl
  unfold run Tuner.run
  rw [hs]

/-! ## `RunningStat` -/

/-- Calls on a `RunningStat` with rounded arithmetic. -/
def statRun (rnd : ℚ → ℚ) (ops : List (StatOp ℚ)) : RunningStat ℚ :=
  ops.foldl (fun s o => match o with | .push x => push rnd s x | .clear => s.clear) RunningStat.new

/-- All pushed values are floating point numbers. -/
def FloatPushes (p : ℕ) (emin : ℤ) (ops : List (StatOp ℚ)) : Prop := ∀ x, StatOp.push x ∈ ops → Fl.Rep p emin x

theorem statRun_push (rnd : ℚ → ℚ) (ops : List (StatOp ℚ)) (x : ℚ) : statRun rnd (ops ++ [.push x]) = push rnd (statRun rnd ops) x := by
  simp [statRun]

theorem sinceClear_push (ops : List (StatOp ℚ)) (x : ℚ) : sinceClear (ops ++ [.push x]) = sinceClear ops ++ [x] := by
  simp [sinceClear, List.takeWhile_cons, StatOp.pushed?]

theorem sinceClear_clear (ops : List (StatOp ℚ)) : sinceClear (ops ++ [StatOp.clear]) = ([] : List ℚ) := by
  simp [sinceClear, List.takeWhile_cons, StatOp.pushed?]

theorem statR_run (hemin : emin ≤ 0) (ops : List (StatOp ℚ)) (hf : FloatPushes p emin ops) :
    StatR (p := p) (emin := emin) (statRun R.rnd ops) (sinceClear ops) := by
  induction ops using List.reverseRecOn with
  | nil => exact statR_new
  | append_singleton ops o ih =>
    have ih := ih fun x hx => hf x (List.mem_append_left _ hx)
    cases o with
    | push x =>
      rw [statRun_push, sinceClear_push]
      exact ih.push R hemin (hf x (by simp))
    | clear =>
      have h1 : statRun R.rnd (ops ++ [StatOp.clear]) = (statRun R.rnd ops).clear := by simp [statRun]
      rw [h1, sinceClear_clear]
      exact ih.clear

/-- **C109.** With any rounding and any sequence of `push` and `clear`: the count is right, the variance is never negative, so
`standard_deviation` never raises, and the mean lies between the smallest and the largest value pushed since the last `clear`. -/
theorem C109_running_stat (hemin : emin ≤ 0) (sqrt : ℚ → ℚ) (ops : List (StatOp ℚ)) (hf : FloatPushes p emin ops) :
    let s := statRun R.rnd ops
    s.numDataValues = (sinceClear ops).length ∧ 0 ≤ variance R.rnd s ∧ standardDeviation R.rnd sqrt s = .ok (sqrt (variance R.rnd s)) ∧
    (sinceClear ops ≠ [] → ∀ lo hi, (∀ x ∈ sinceClear ops, lo ≤ x ∧ x ≤ hi) → lo ≤ s.mean ∧ s.mean ≤ hi) := by
  intro s
  have h := statR_run R hemin ops hf
  refine ⟨h.num, h.variance_nonneg R, h.sd R sqrt, ?_⟩
  intro hne lo hi hb
  have hpos : s.numData > 0 := h.num ▸ List.length_pos_iff.2 hne
  unfold RunningStat.mean
  rw [if_pos hpos, h.eq hne]
  exact h.bounds hne lo hi hb

/-- One step of the mean: error of three roundings. -/
theorem step_error {u η M : ℚ} (hu : 0 ≤ u) (hu1 : u ≤ 1) (hη : 0 ≤ η) (ha : Accurate R.rnd u η) {m x n : ℚ} (hm : Fl.Rep p emin m)
    (hx : Fl.Rep p emin x) (hn : 2 ≤ n) (hmM : |m| ≤ M) (hxM : |x| ≤ M) :
    |R.rnd (m + R.rnd (R.rnd (x - m) / n)) - (m + (x - m) / n)| ≤ u * M + 2 * η + (6 * u * M + 2 * η) / n := by
  have hn0 : 0 < n := by linarith
  have hM : 0 ≤ M := (abs_nonneg _).trans hmM
  set a := R.rnd (x - m) with hadef
  set q := R.rnd (a / n) with hqdef
  have h1 : |a - (x - m)| ≤ 2 * u * M + η := by
    refine (ha (x - m)).trans ?_
    have : |x - m| ≤ 2 * M := by
      have := abs_sub x m
      linarith [abs_sub x m]
    nlinarith
  have hxm : |x - m| ≤ 2 * M := by linarith [abs_sub x m]
  have h2 : |a| ≤ 2 * M + 2 * u * M + η := by
    have : |a| ≤ |a - (x - m)| + |x - m| := by
      have := abs_add_le (a - (x - m)) (x - m)
      rwa [sub_add_cancel] at this
    linarith
  have h3 : |q - a / n| ≤ u * (2 * M + 2 * u * M + η) / n + η := by
    refine (ha (a / n)).trans ?_
    rw [abs_div, abs_of_pos hn0, mul_div_assoc']
    have := div_le_div_of_nonneg_right (mul_le_mul_of_nonneg_left h2 hu) hn0.le
    linarith
  have h4 : |m + q| ≤ M := by
    obtain ⟨s1, s2⟩ := step_between R hm hx hn
    rw [abs_le] at hmM hxM ⊢
    rcases le_total m x with hc | hc
    · obtain ⟨c1, c2⟩ := s1 hc
      constructor <;> linarith
    · obtain ⟨c1, c2⟩ := s2 hc
      constructor <;> linarith
  have h5 : |R.rnd (m + q) - (m + q)| ≤ u * M + η := (ha (m + q)).trans (by nlinarith)
  have h6 : |(a - (x - m)) / n| ≤ (2 * u * M + η) / n := by
    rw [abs_div, abs_of_pos hn0]
    exact div_le_div_of_nonneg_right h1 hn0.le
  have e : R.rnd (m + q) - (m + (x - m) / n) = (R.rnd (m + q) - (m + q)) + (q - a / n) + (a - (x - m)) / n := by
    field_simp
    ring
  rw [e]
  have h7 := abs_add_three (R.rnd (m + q) - (m + q)) (q - a / n) ((a - (x - m)) / n)
  have h8 : u * (2 * M + 2 * u * M + η) / n + (2 * u * M + η) / n ≤ (6 * u * M + 2 * η) / n := by
    rw [← add_div]
    refine div_le_div_of_nonneg_right ?_ hn0.le
    have : u * (u * M) ≤ u * M := by
      have := mul_le_mul_of_nonneg_right hu1 (mul_nonneg hu hM)
      linarith
    have : u * η ≤ η := by nlinarith
    nlinarith
  linarith

/-- The error of the rounded mean after `xs`. -/
theorem mean_error (hemin : emin ≤ 0) {u η M : ℚ} (hu : 0 ≤ u) (hu1 : u ≤ 1) (hη : 0 ≤ η) (ha : Accurate R.rnd u η)
    (ops : List (StatOp ℚ)) (hf : FloatPushes p emin ops) (hlen : (sinceClear ops).length ≤ 2 ^ p) (hM : ∀ x ∈ sinceClear ops, |x| ≤ M)
    (hne : sinceClear ops ≠ []) :
    |(statRun R.rnd ops).oldMean - Spec.mean (sinceClear ops)| ≤ (sinceClear ops).length * (3 * u * M + 2 * η) := by
  induction ops using List.reverseRecOn with
  | nil => exact absurd rfl hne
  | append_singleton ops o ih =>
    cases o with
    | clear => rw [sinceClear_clear] at hne; exact absurd rfl hne
    | push x =>
      have hf' : FloatPushes p emin ops := fun x hx => hf x (List.mem_append_left _ hx)
      have hS := statR_run R hemin ops hf'
      rw [statRun_push]
      rw [sinceClear_push] at hlen hM ⊢
      have hxM : |x| ≤ M := hM x (by simp)
      have hM0 : 0 ≤ M := (abs_nonneg _).trans hxM
      have hc : 0 ≤ 3 * u * M + 2 * η := by positivity
      by_cases hn : sinceClear ops = []
      · have h0 : (statRun R.rnd ops).numData = 0 := by rw [hS.num, hn]; rfl
        rw [push_first R _ x h0, hn]
        have : Spec.mean ([] ++ [x]) = x := by simp [Spec.mean]
        rw [this]
        simp only [sub_self, abs_zero]
        positivity
      · have ih := ih hf' (by simp at hlen; omega) (fun z hz => hM z (List.mem_append_left _ hz)) hn
        have h0 : (statRun R.rnd ops).numData ≠ 0 := by
          rw [hS.num]
          exact fun h0 => hn (List.length_eq_zero_iff.1 h0)
        rw [push_later R _ x h0]
        simp only
        set m := (statRun R.rnd ops).oldMean with hm
        set k := (sinceClear ops).length with hk
        have hk1 : 1 ≤ k := List.length_pos_iff.2 hn
        have hkn : (statRun R.rnd ops).numData = k := hS.num
        have hfix : R.rnd (((statRun R.rnd ops).numData + 1 : ℕ) : ℚ) = (k : ℚ) + 1 := by
          rw [hkn]
          have : ((k + 1 : ℕ) : ℤ) ≤ 2 ^ p := by
            have : k + 1 ≤ 2 ^ p := by simpa using hlen
            exact_mod_cast this
          have hr := rep_int (p := p) hemin (z := ((k + 1 : ℕ) : ℤ)) (by rw [abs_of_nonneg (by positivity)]; exact this)
          have := R.fix _ hr
          push_cast at this ⊢
          exact this
        rw [hfix]
        have hn2 : (2 : ℚ) ≤ (k : ℚ) + 1 := by
          have : (1 : ℚ) ≤ k := by exact_mod_cast hk1
          linarith
        have hmM : |m| ≤ M := by
          rw [abs_le]
          exact hS.bounds hn (-M) M (fun z hz => abs_le.1 (hM z (List.mem_append_left _ hz)))
        have hloc := step_error R hu hu1 hη ha (hS.rep hn) (hf x (by simp)) hn2 hmM hxM
        have hmean := mean_snoc (sinceClear ops) x hn
        set μ := Spec.mean (sinceClear ops) with hμ
        have e1 : Spec.mean (sinceClear ops ++ [x]) = μ + (x - μ) / ((k : ℚ) + 1) := by
          rw [hmean, hk]
          push_cast
          rfl
        rw [e1]
        have hn0 : (0 : ℚ) < (k : ℚ) + 1 := by linarith
        have e2 : R.rnd (m + R.rnd (R.rnd (x - m) / ((k : ℚ) + 1))) - (μ + (x - μ) / ((k : ℚ) + 1)) =
            (R.rnd (m + R.rnd (R.rnd (x - m) / ((k : ℚ) + 1))) - (m + (x - m) / ((k : ℚ) + 1))) + (m - μ) * (k / ((k : ℚ) + 1)) := by
          field_simp
          ring
        rw [e2]
        refine (abs_add_le _ _).trans ?_
        rw [abs_mul, abs_of_nonneg (by positivity : (0 : ℚ) ≤ k / ((k : ℚ) + 1))]
        have h1 := mul_le_mul_of_nonneg_right ih (by positivity : (0 : ℚ) ≤ k / ((k : ℚ) + 1))
        have h2 : u * M + 2 * η + (6 * u * M + 2 * η) / ((k : ℚ) + 1) + k * (3 * u * M + 2 * η) * (k / ((k : ℚ) + 1)) ≤
            ((k : ℚ) + 1) * (3 * u * M + 2 * η) := by
          rw [mul_div_assoc', add_assoc, ← add_div, ← sub_nonneg]
          have huM : 0 ≤ u * M := mul_nonneg hu hM0
          have hk' : (1 : ℚ) ≤ k := by exact_mod_cast hk1
          have : 0 ≤ (((k : ℚ) + 1) * (3 * u * M + 2 * η) - (u * M + 2 * η)) * ((k : ℚ) + 1) -
              (6 * u * M + 2 * η + k * (3 * u * M + 2 * η) * k) := by nlinarith
          have h3 := div_nonneg this hn0.le
          have e3 : ((((k : ℚ) + 1) * (3 * u * M + 2 * η) - (u * M + 2 * η)) * ((k : ℚ) + 1) -
              (6 * u * M + 2 * η + k * (3 * u * M + 2 * η) * k)) / ((k : ℚ) + 1) =
              ((k : ℚ) + 1) * (3 * u * M + 2 * η) - (u * M + 2 * η + (6 * u * M + 2 * η + k * (3 * u * M + 2 * η) * k) / ((k : ℚ) + 1)) := by
            field_simp
            ring
          rw [e3] at h3
          linarith
        have h4 : ((sinceClear ops ++ [x]).length : ℚ) = (k : ℚ) + 1 := by simp [hk]
        rw [h4]
        linarith

/-- **C109.** Error of the mean: with relative rounding error `u` and underflow error `η`, after `n` values of size at most `M` the mean is off
by at most `n * (3 u M + 2 η)`. -/
theorem C109_mean_error (hemin : emin ≤ 0) {u η M : ℚ} (hu : 0 ≤ u) (hu1 : u ≤ 1) (hη : 0 ≤ η) (ha : Accurate R.rnd u η)
    (ops : List (StatOp ℚ)) (hf : FloatPushes p emin ops) (hlen : (sinceClear ops).length ≤ 2 ^ p) (hM : ∀ x ∈ sinceClear ops, |x| ≤ M) :
    |(statRun R.rnd ops).mean - Spec.mean (sinceClear ops)| ≤ (sinceClear ops).length * (3 * u * M + 2 * η) := by
  have h := statR_run R hemin ops hf
  by_cases hne : sinceClear ops = []
  · have h0 : (statRun R.rnd ops).numData = 0 := by rw [h.num, hne]; rfl
    simp [RunningStat.mean, h0, hne, Spec.mean]
  · have hpos : (statRun R.rnd ops).numData > 0 := by
      have := List.length_pos_iff.2 hne
      have := h.num
      omega
    unfold RunningStat.mean
    rw [if_pos hpos, h.eq hne]
    exact mean_error R hemin hu hu1 hη ha ops hf hlen hM hne

/-! ## `Parameter` -/

/-- **C109.** With any rounding, after any history with at least one value, `get_best_value` does not raise and returns a registered value: the assertion
"bucket is never empty" holds for floating point numbers too. -/
theorem C109_get_best_value (hp : 3 ≤ p) (hemin : emin ≤ 0) (sqrt : ℚ → ℚ) (hq : ∀ x, 0 ≤ x → 0 ≤ sqrt x) (cFac : ℚ) (ops : List (Op ℚ V))
    (hs : FloatScores p emin ops) (hv : registered ops ≠ []) (d : ℕ) :
    ∃ v q', getBestValue R.rnd sqrt (run R.rnd sqrt cFac ops) d = .ok (v, q') ∧ v ∈ registered ops ∧
      (registered ops)[q'.currentIndex]? = some v := by
  have h := parR_run R hp hemin sqrt cFac ops hs
  have hv' : (run R.rnd sqrt cFac ops).values ≠ [] := by rwa [run_values]
  obtain ⟨j, hj, hc⟩ := choose_ok R sqrt hq h hv' d
  refine ⟨_, _, getBest_of_choose R sqrt _ d j _ hj hc, ?_, ?_⟩
  · rw [← run_values R sqrt cFac]; exact List.getElem_mem hj
  · simp only [← run_values R sqrt cFac ops, List.getElem?_eq_getElem hj]

/-- **C109.** With any rounding, in the exploit phase: while some value has fewer than four scores exactly those values can be returned;
afterwards exactly the values whose computed final score plus a tenth of the computed standard deviation reaches every final score. -/
theorem C109_exploit (hp : 3 ≤ p) (hemin : emin ≤ 0) (sqrt : ℚ → ℚ) (hq : ∀ x, 0 ≤ x → 0 ≤ sqrt x) (cFac : ℚ) (ops : List (Op ℚ V))
    (hs : FloatScores p emin ops) (hv : registered ops ≠ []) (he : (run R.rnd sqrt cFac ops).exploreCount ≤ 0) (i : ℕ) :
    let q := run R.rnd sqrt cFac ops
    (∃ d v q', getBestValue R.rnd sqrt q d = .ok (v, q') ∧ q'.currentIndex = i) ↔
      i < (registered ops).length ∧
      if ∃ j < (registered ops).length, q.counts[j]?.getD 0 < 4 then q.counts[i]?.getD 0 < 4
      else ∀ j < (registered ops).length, q.finalScores[j]?.getD 0 ≤
        R.rnd (q.finalScores[i]?.getD 0 + R.rnd (sqrt (variance R.rnd (q.scores[i]?.getD RunningStat.new)) / 10)) := by
  intro q
  have h := parR_run R hp hemin sqrt cFac ops hs
  have hval : q.values = registered ops := run_values R sqrt cFac ops
  have hv' : q.values ≠ [] := by rwa [hval]
  have hne := eligible_ne_nil R sqrt hq h hv'
  have hl := List.length_pos_iff.2 hne
  have h1 : (∃ d v q', getBestValue R.rnd sqrt q d = .ok (v, q') ∧ q'.currentIndex = i) ↔ i ∈ eligible R sqrt q := by
    constructor
    · rintro ⟨d, v, q', hg, rfl⟩
      have hc := choose_exploit R sqrt hq h hv' (not_lt.2 he) d
      have hd : d % (eligible R sqrt q).length < (eligible R sqrt q).length := Nat.mod_lt _ hl
      rw [List.getElem?_eq_getElem hd, Option.getD_some] at hc
      have hj := eligible_lt R sqrt q (List.getElem_mem hd)
      rw [getBest_of_choose R sqrt q d _ _ hj hc] at hg
      cases hg
      exact List.getElem_mem hd
    · intro hi
      obtain ⟨d, hd, rfl⟩ := List.mem_iff_getElem.1 hi
      have hc := choose_exploit R sqrt hq h hv' (not_lt.2 he) d
      rw [Nat.mod_eq_of_lt hd, List.getElem?_eq_getElem hd, Option.getD_some] at hc
      exact ⟨d, _, _, getBest_of_choose R sqrt q d _ _ (eligible_lt R sqrt q hi) hc, rfl⟩
  rw [h1]
  unfold eligible
  simp only
  have hb : (List.range q.values.length).filter (fun i => q.counts[i]?.getD 0 < 4) = [] ↔ ¬ ∃ j < (registered ops).length, q.counts[j]?.getD 0 < 4 := by
    rw [List.filter_eq_nil_iff, ← hval]
    simp only [List.mem_range, decide_eq_true_eq]
    push Not
    rfl
  by_cases hc : ∃ j < (registered ops).length, q.counts[j]?.getD 0 < 4
  · rw [if_neg (fun h => (hb.1 h) hc), if_pos hc]
    simp only [List.mem_filter, List.mem_range, decide_eq_true_eq, hval]
  · rw [if_pos (hb.2 hc), if_neg hc]
    simp only [List.mem_filter, List.mem_range, decide_eq_true_eq, hval]

/-- **C109.** Rounding has no influence on the explore phase: after any history without `set_explore_count` that contains `k` calls of `get_best_value`
the counter is `max (e - k) 0`. -/
theorem C109_explore_count (hp : 3 ≤ p) (hemin : emin ≤ 0) (sqrt : ℚ → ℚ) (hq : ∀ x, 0 ≤ x → 0 ≤ sqrt x) (cFac : ℚ)
    (pre ops : List (Op ℚ V)) (hs : FloatScores p emin (pre ++ ops)) (hv : registered pre ≠ []) (hn : NoReset ops) :
    (run R.rnd sqrt cFac (pre ++ ops)).exploreCount =
      if 0 < (run R.rnd sqrt cFac pre).exploreCount then max ((run R.rnd sqrt cFac pre).exploreCount - numGetBest ops) 0
      else (run R.rnd sqrt cFac pre).exploreCount := by
  induction ops using List.reverseRecOn with
  | nil =>
    simp only [List.append_nil, numGetBest, List.countP_nil, Nat.cast_zero, sub_zero]
    split
    · rename_i h; rw [max_eq_left h.le]
    · rfl
  | append_singleton ops op ih =>
    have hn' : NoReset ops := fun o ho => hn o (List.mem_append_left _ ho)
    have hop : ∀ z, op ≠ .setExploreCount z := hn op (by simp)
    have hs' : FloatScores p emin (pre ++ ops) := fun x idx h => hs x idx (by rw [← List.append_assoc]; exact List.mem_append_left _ h)
    have ih := ih hs' hn'
    rw [← List.append_assoc, run_snoc]
    set q := run R.rnd sqrt cFac (pre ++ ops) with hqq
    have hsame : ∀ e : ℤ, (∀ d, op ≠ .getBest d) → numGetBest (ops ++ [op]) = numGetBest ops := by
      intro _ h
      cases op with
      | getBest d => exact absurd rfl (h d)
      | _ => simp [numGetBest]
    cases op with
    | addValue v => rw [hsame 0 (by intro d; simp), ← ih]; rfl
    | setSwitchFlag z => rw [hsame 0 (by intro d; simp), ← ih]; rfl
    | setExploreCount z => exact absurd rfl (hop z)
    | adjustScore x idx =>
      rw [hsame 0 (by intro d; simp), ← ih]
      simp only [step]
      rcases ha : adjustScore R.rnd q x idx with e | q'
      · rfl
      · unfold adjustScore at ha
        split at ha
        · cases ha
        · cases ha; rfl
    | getBest d =>
      have h := parR_run R hp hemin sqrt cFac (pre ++ ops) hs'
      have hv' : q.values ≠ [] := by
        rw [hqq, run_values]
        unfold registered at hv ⊢
        rw [List.filterMap_append]
        simp [hv]
      obtain ⟨j, hj, hc⟩ := choose_ok R sqrt hq h hv' d
      have hg := getBest_of_choose R sqrt q d j _ hj hc
      have e1 : (step R.rnd sqrt q (.getBest d)).exploreCount = if q.exploreCount > 0 then q.exploreCount - 1 else q.exploreCount := by
        simp only [step, hg]
        rfl
      have e2 : numGetBest (ops ++ [Op.getBest d]) = numGetBest ops + 1 := by simp [numGetBest]
      rw [e1, e2, ih]
      push_cast
      by_cases h0 : 0 < (run R.rnd sqrt cFac pre).exploreCount
      · rw [if_pos h0, if_pos h0]
        by_cases h1 : max ((run R.rnd sqrt cFac pre).exploreCount - (numGetBest ops : ℤ)) 0 > 0
        · rw [if_pos h1]; omega
        · rw [if_neg h1]; omega
      · rw [if_neg h0, if_neg h0, if_neg h0]

/-! ## The scores of `solve_model` -/

/-- **C109.** With any rounding the gap score of `solve_model` lies in `[0, 1]` if the objective value and the bound are integers (as they are in the tree
pricing problems) or do not have opposite signs. -/
theorem C109_gap (hemin : emin ≤ 0) {ans : CpAnswer ℚ} {limit t g : ℚ} (ho : Fl.Rep p emin ans.objective) (hb : Fl.Rep p emin ans.bound)
    (hint : 0 ≤ ans.objective * ans.bound ∨ ∃ a b : ℤ, ans.objective = a ∧ ans.bound = b)
    (h : scoresOf R.rnd ans limit = .ok (t, g)) : 0 ≤ g ∧ g ≤ 1 := by
  have h1r : Fl.Rep p emin 1 := by simpa using rep_zpow (p := p) (emin := emin) (k := 0) hemin
  unfold scoresOf at h
  split at h
  · cases h
  split at h
  · cases h; norm_num
  · by_cases hc : R.rnd (ans.objective * ans.bound) ≥ 0
    · rw [if_pos hc] at h
      split at h
      · cases h
      · rename_i hm
        cases h
        have hmax : 0 < max |ans.objective| |ans.bound| := lt_of_le_of_ne (le_max_of_le_left (abs_nonneg _)) (Ne.symm hm)
        refine ⟨R.nonneg (div_nonneg (abs_nonneg _) hmax.le), ?_⟩
        have hsign : 0 ≤ ans.objective * ans.bound := by
          rcases hint with h | ⟨a, b, ha, hb'⟩
          · exact h
          · by_contra hneg
            rw [ha, hb'] at hneg hc
            have hneg' : a * b < 0 := by
              have := not_le.1 hneg
              exact_mod_cast this
            have h2 : ((a : ℚ) * b) ≤ -1 := by
              have : a * b ≤ -1 := by omega
              exact_mod_cast this
            have h3 := R.mono _ _ h2
            rw [R.fix _ h1r.neg] at h3
            linarith
        have hle : |R.rnd (ans.objective - ans.bound)| ≤ max |ans.objective| |ans.bound| := by
          have hd : |ans.objective - ans.bound| ≤ max |ans.objective| |ans.bound| := by
            rcases le_total 0 ans.objective with h1 | h1 <;> rcases le_total 0 ans.bound with h2 | h2
            · rw [abs_of_nonneg h1, abs_of_nonneg h2, abs_le]
              constructor
              · have := le_max_right ans.objective ans.bound; linarith
              · have := le_max_left ans.objective ans.bound; linarith
            · rcases h1.eq_or_lt with h1 | h1
              · rw [← h1]; simp
              · rcases h2.eq_or_lt with h2 | h2
                · rw [h2]; simp
                · nlinarith
            · rcases h1.eq_or_lt with h1 | h1
              · rw [h1]; simp
              · rcases h2.eq_or_lt with h2 | h2
                · rw [← h2]; simp
                · nlinarith
            · rw [abs_of_nonpos h1, abs_of_nonpos h2, abs_le]
              constructor
              · have := le_max_left (-ans.objective) (-ans.bound); linarith
              · have := le_max_right (-ans.objective) (-ans.bound); linarith
          have hmr : Fl.Rep p emin (max |ans.objective| |ans.bound|) := by
            have habs : ∀ x : ℚ, Fl.Rep p emin x → Fl.Rep p emin |x| := by
              intro x hx
              rcases abs_cases x with ⟨e, -⟩ | ⟨e, -⟩ <;> rw [e]
              · exact hx
              · exact hx.neg
            rcases max_cases |ans.objective| |ans.bound| with ⟨e, -⟩ | ⟨e, -⟩ <;> rw [e]
            · exact habs _ ho
            · exact habs _ hb
          rw [abs_le] at hd ⊢
          constructor
          · have := R.mono _ _ hd.1
            rwa [R.fix _ hmr.neg] at this
          · have := R.mono _ _ hd.2
            rwa [R.fix _ hmr] at this
        calc R.rnd (|R.rnd (ans.objective - ans.bound)| / max |ans.objective| |ans.bound|) ≤ R.rnd 1 := R.mono _ _ (by rw [div_le_one hmax]; exact hle)
          _ = 1 := R.fix _ h1r
    · rw [if_neg hc] at h
      cases h; norm_num
  · cases h; norm_num

/-- **C109.** The score passed to `adjust_score` is a floating point number in `[-2, 0]` when the wall time is within the limit; an optimal answer
scores at least `-1` and any other answer at most `-1`, so rounding never prefers a setting that failed to one that solved the problem. -/
theorem C109_total (hemin : emin ≤ 0) {ans : CpAnswer ℚ} {limit t g : ℚ} (ho : Fl.Rep p emin ans.objective) (hb : Fl.Rep p emin ans.bound)
    (hint : 0 ≤ ans.objective * ans.bound ∨ ∃ a b : ℤ, ans.objective = a ∧ ans.bound = b) (hl : 0 < limit) (hw : 0 ≤ ans.wallTime)
    (hwl : ans.wallTime ≤ limit) (h : scoresOf R.rnd ans limit = .ok (t, g)) :
    Fl.Rep p emin (totalScore R.rnd (t, g)) ∧ -2 ≤ totalScore R.rnd (t, g) ∧ totalScore R.rnd (t, g) ≤ 0 ∧
    (ans.status = .optimal → -1 ≤ totalScore R.rnd (t, g)) ∧ (ans.status ≠ .optimal → totalScore R.rnd (t, g) ≤ -1) := by
  have h1r : Fl.Rep p emin 1 := by simpa using rep_zpow (p := p) (emin := emin) (k := 0) hemin
  have h2r : Fl.Rep p emin 2 := by simpa using rep_zpow (p := p) (emin := emin) (k := 1) (by omega)
  have hg := C109_gap R hemin ho hb hint h
  have ht : 0 ≤ t ∧ t ≤ 1 ∧ (ans.status = .optimal → g = 0) ∧ (ans.status ≠ .optimal → t = 1) := by
    unfold scoresOf at h
    rw [if_neg hl.ne'] at h
    cases hst : ans.status with
    | optimal =>
      rw [hst] at h
      cases h
      refine ⟨R.nonneg (div_nonneg hw hl.le), ?_, fun _ => rfl, fun hc => absurd rfl hc⟩
      have := R.mono _ _ ((div_le_one hl).2 hwl)
      rwa [R.fix _ h1r] at this
    | feasible =>
      rw [hst] at h
      dsimp only at h
      split at h
      · split at h
        · cases h
        · cases h
          exact ⟨zero_le_one, le_rfl, fun hc => (by cases hc), fun _ => rfl⟩
      · cases h
        exact ⟨zero_le_one, le_rfl, fun hc => (by cases hc), fun _ => rfl⟩
    | other =>
      rw [hst] at h
      cases h
      exact ⟨zero_le_one, le_rfl, fun hc => (by cases hc), fun _ => rfl⟩
  obtain ⟨t0, t1, t2, t3⟩ := ht
  unfold totalScore
  have u2 := R.mono (t + g) 2 (by linarith [hg.2])
  rw [R.fix _ h2r] at u2
  have u0 : 0 ≤ R.rnd (t + g) := R.nonneg (by linarith [hg.1])
  refine ⟨(R.rep _).neg, by simpa using u2, by simpa using u0, ?_, ?_⟩
  · intro hs
    have := R.mono (t + g) 1 (by rw [t2 hs]; linarith)
    rw [R.fix _ h1r] at this
    simpa using this
  · intro hs
    have := R.mono 1 (t + g) (by rw [t3 hs]; linarith [hg.1])
    rw [R.fix _ h1r] at this
    simpa using this

end Verif.Tuner.Round
