import Mathlib.Algebra.Order.Ring.Abs
import Verif.Tuner.RoundModel
import Verif.Tuner.Props

/-!
# Invariants of the tuner with rounded arithmetic
-/

set_option linter.unusedSectionVars false

namespace Verif.Tuner.Round

open Spec Fl

variable {p : ℕ} {emin : ℤ} {V : Type} (R : Rounding p emin)

/-! ## One push -/

theorem two_le_rnd (hemin : emin ≤ 0) {n : ℕ} (hn : 2 ≤ n) : 2 ≤ R.rnd n := by
  have h2 : Fl.Rep p emin 2 := by
    have := rep_zpow (p := p) (emin := emin) (k := 1) (by omega)
    rwa [zpow_one] at this
  calc (2 : ℚ) = R.rnd 2 := (R.fix _ h2).symm
    _ ≤ R.rnd n := R.mono _ _ (by exact_mod_cast hn)

/-- The step from the old mean: it does not overshoot. -/
theorem step_between {m x n : ℚ} (hm : Fl.Rep p emin m) (hx : Fl.Rep p emin x) (hn : 2 ≤ n) :
    (m ≤ x → 0 ≤ R.rnd (R.rnd (x - m) / n) ∧ R.rnd (R.rnd (x - m) / n) ≤ x - m) ∧
    (x ≤ m → R.rnd (R.rnd (x - m) / n) ≤ 0 ∧ x - m ≤ R.rnd (R.rnd (x - m) / n)) := by
  constructor
  · intro h
    exact ⟨R.nonneg (div_nonneg (R.nonneg (by linarith)) (by linarith)), R.step_le hx hm h hn⟩
  · intro h
    refine ⟨R.nonpos (div_nonpos_of_nonpos_of_nonneg (R.nonpos (by linarith)) (by linarith)), ?_⟩
    have h1 := R.mirror.step_le hm hx h hn
    have e1 : R.mirror.rnd (R.mirror.rnd (m - x) / n) = -R.rnd (R.rnd (x - m) / n) := by
      change -R.rnd (-(-R.rnd (-(m - x)) / n)) = _
      rw [neg_div, neg_neg, neg_sub]
    rw [e1] at h1
    linarith

/-- The new mean lies between the old mean and the new value. -/
theorem newMean_between {m x n : ℚ} (hm : Fl.Rep p emin m) (hx : Fl.Rep p emin x) (hn : 2 ≤ n) :
    (m ≤ x → m ≤ R.rnd (m + R.rnd (R.rnd (x - m) / n)) ∧ R.rnd (m + R.rnd (R.rnd (x - m) / n)) ≤ x) ∧
    (x ≤ m → x ≤ R.rnd (m + R.rnd (R.rnd (x - m) / n)) ∧ R.rnd (m + R.rnd (R.rnd (x - m) / n)) ≤ m) := by
  obtain ⟨h1, h2⟩ := step_between R hm hx hn
  constructor
  · intro h
    obtain ⟨a, b⟩ := h1 h
    constructor
    · conv_lhs => rw [← R.fix m hm]
      exact R.mono _ _ (by linarith)
    · conv_rhs => rw [← R.fix x hx]
      exact R.mono _ _ (by linarith)
  · intro h
    obtain ⟨a, b⟩ := h2 h
    constructor
    · conv_lhs => rw [← R.fix x hx]
      exact R.mono _ _ (by linarith)
    · conv_rhs => rw [← R.fix m hm]
      exact R.mono _ _ (by linarith)

/-! ## `RunningStat` -/

/-- What holds after pushing `xs` since the last `clear`. -/
structure StatR (s : RunningStat ℚ) (xs : List ℚ) : Prop where
  num : s.numData = xs.length
  eq : xs ≠ [] → s.newMean = s.oldMean
  rep : xs ≠ [] → Fl.Rep p emin s.oldMean
  bounds : xs ≠ [] → ∀ lo hi, (∀ x ∈ xs, lo ≤ x ∧ x ≤ hi) → lo ≤ s.oldMean ∧ s.oldMean ≤ hi
  std : xs ≠ [] → 0 ≤ s.oldStd
  stdEq : 2 ≤ xs.length → s.newStd = s.oldStd

theorem statR_new : StatR (p := p) (emin := emin) RunningStat.new [] :=
  ⟨rfl, fun h => absurd rfl h, fun h => absurd rfl h, fun h => absurd rfl h, fun h => absurd rfl h, fun h => by simp at h⟩

theorem StatR.clear {s : RunningStat ℚ} {xs : List ℚ} (_ : StatR (p := p) (emin := emin) s xs) : StatR (p := p) (emin := emin) s.clear [] :=
  ⟨rfl, fun h => absurd rfl h, fun h => absurd rfl h, fun h => absurd rfl h, fun h => absurd rfl h, fun h => by simp at h⟩

theorem push_first (s : RunningStat ℚ) (x : ℚ) (h : s.numData = 0) :
    push R.rnd s x = { s with numData := 1, oldMean := x, newMean := x, oldStd := 0 } := by
  simp [push, h]

theorem push_later (s : RunningStat ℚ) (x : ℚ) (h : s.numData ≠ 0) :
    push R.rnd s x = ⟨s.numData + 1, R.rnd (s.oldMean + R.rnd (R.rnd (x - s.oldMean) / R.rnd ((s.numData + 1 : ℕ) : ℚ))),
      R.rnd (s.oldMean + R.rnd (R.rnd (x - s.oldMean) / R.rnd ((s.numData + 1 : ℕ) : ℚ))),
      R.rnd (s.oldStd + R.rnd (R.rnd (x - s.oldMean) *
        R.rnd (x - R.rnd (s.oldMean + R.rnd (R.rnd (x - s.oldMean) / R.rnd ((s.numData + 1 : ℕ) : ℚ)))))),
      R.rnd (s.oldStd + R.rnd (R.rnd (x - s.oldMean) *
        R.rnd (x - R.rnd (s.oldMean + R.rnd (R.rnd (x - s.oldMean) / R.rnd ((s.numData + 1 : ℕ) : ℚ))))))⟩ := by
  unfold push
  simp only
  rw [if_neg (by omega)]

theorem StatR.push (hemin : emin ≤ 0) {s : RunningStat ℚ} {xs : List ℚ} (h : StatR (p := p) (emin := emin) s xs) {x : ℚ}
    (hx : Fl.Rep p emin x) : StatR (p := p) (emin := emin) (Round.push R.rnd s x) (xs ++ [x]) := by
  by_cases hn : xs = []
  · subst hn
    have h0 : s.numData = 0 := h.num
    rw [push_first R s x h0]
    refine ⟨rfl, fun _ => rfl, fun _ => hx, ?_, fun _ => le_refl _, fun h => by simp at h⟩
    intro _ lo hi hb
    exact hb x (by simp)
  · have hlen : s.numData ≠ 0 := by
      rw [h.num]
      exact fun h0 => hn (List.length_eq_zero_iff.1 h0)
    rw [push_later R s x hlen]
    have hn2 : 2 ≤ R.rnd ((s.numData + 1 : ℕ) : ℚ) := two_le_rnd R hemin (by omega)
    obtain ⟨b1, b2⟩ := newMean_between R (h.rep hn) hx hn2
    refine ⟨by simp [h.num], fun _ => rfl, fun _ => R.rep _, ?_, ?_, fun _ => rfl⟩
    · intro _ lo hi hb
      obtain ⟨c1, c2⟩ := h.bounds hn lo hi (fun z hz => hb z (List.mem_append_left _ hz))
      obtain ⟨c3, c4⟩ := hb x (by simp)
      rcases le_total s.oldMean x with hc | hc
      · obtain ⟨d1, d2⟩ := b1 hc
        exact ⟨c1.trans d1, d2.trans c4⟩
      · obtain ⟨d1, d2⟩ := b2 hc
        exact ⟨c3.trans d1, d2.trans c2⟩
    · intro _
      refine R.nonneg (add_nonneg (h.std hn) (R.nonneg ?_))
      rcases le_total s.oldMean x with hc | hc
      · exact mul_nonneg (R.nonneg (by linarith)) (R.nonneg (by linarith [(b1 hc).2]))
      · exact mul_nonneg_of_nonpos_of_nonpos (R.nonpos (by linarith)) (R.nonpos (by linarith [(b2 hc).1]))

theorem StatR.variance_nonneg {s : RunningStat ℚ} {xs : List ℚ} (h : StatR (p := p) (emin := emin) s xs) : 0 ≤ variance R.rnd s := by
  unfold variance
  split
  · rename_i hn
    rw [h.num] at hn
    have hne : xs ≠ [] := by rintro rfl; simp at hn
    rw [h.stdEq hn]
    exact R.nonneg (div_nonneg (h.std hne) (R.nonneg (by positivity)))
  · exact le_refl _

theorem StatR.sd {s : RunningStat ℚ} {xs : List ℚ} (h : StatR (p := p) (emin := emin) s xs) (sqrt : ℚ → ℚ) :
    standardDeviation R.rnd sqrt s = .ok (sqrt (variance R.rnd s)) := by
  unfold standardDeviation
  rw [if_neg (not_lt.2 (h.variance_nonneg R))]

/-! ## `Parameter` -/

/-- What holds of a parameter after any calls with floating point scores. -/
structure ParR (q : Parameter ℚ V) : Prop where
  lenS : q.scores.length = q.values.length
  lenF : q.finalScores.length = q.values.length
  lenC : q.counts.length = q.values.length
  stat : ∀ s ∈ q.scores, ∃ xs, StatR (p := p) (emin := emin) s xs
  final : ∀ f ∈ q.finalScores, Fl.Rep p emin f

theorem parR_new (cFac : ℚ) : ParR (p := p) (emin := emin) (Parameter.new cFac : Parameter ℚ V) :=
  ⟨rfl, rfl, rfl, by simp [Parameter.new], by simp [Parameter.new]⟩

theorem ParR.addValue (hp : 3 ≤ p) (hemin : emin ≤ 0) {q : Parameter ℚ V} (h : ParR (p := p) (emin := emin) q) (v : V) :
    ParR (p := p) (emin := emin) (q.addValue v) := by
  refine ⟨by simp [Parameter.addValue, h.lenS], by simp [Parameter.addValue, h.lenF], by simp [Parameter.addValue, h.lenC], ?_, ?_⟩
  · intro s hs
    simp only [Parameter.addValue, List.mem_append, List.mem_singleton] at hs
    rcases hs with hs | rfl
    · exact h.stat s hs
    · exact ⟨_, statR_new⟩
  · intro f hf
    simp only [Parameter.addValue, List.mem_append, List.mem_singleton] at hf
    rcases hf with hf | rfl
    · exact h.final f hf
    · have : (2 : ℤ) ^ 3 ≤ 2 ^ p := pow_le_pow_right₀ (by norm_num) hp
      have := rep_int (p := p) hemin (z := 5) (by rw [abs_of_nonneg (by norm_num)]; linarith)
      exact_mod_cast this

theorem mem_modify {α : Type} {l : List α} {i : ℕ} {f : α → α} {a : α} (h : a ∈ l.modify i f) : a ∈ l ∨ ∃ b ∈ l, a = f b := by
  obtain ⟨k, hk, rfl⟩ := List.mem_iff_getElem.1 h
  rw [List.getElem_modify]
  have hk' : k < l.length := by simpa using hk
  split
  · exact .inr ⟨_, List.getElem_mem hk', rfl⟩
  · exact .inl (List.getElem_mem hk')

theorem ParR.adjust (hemin : emin ≤ 0) {q q' : Parameter ℚ V} (h : ParR (p := p) (emin := emin) q) {x : ℚ} (hx : Fl.Rep p emin x)
    {idx : Option ℤ} (he : adjustScore R.rnd q x idx = .ok q') : ParR (p := p) (emin := emin) q' := by
  unfold adjustScore at he
  split at he
  · cases he
  · rename_i i hi
    cases he
    refine ⟨by simpa using h.lenS, by simpa using h.lenF, by simpa using h.lenC, ?_, ?_⟩
    · intro s hs
      rcases mem_modify hs with hs | ⟨b, hb, rfl⟩
      · exact h.stat s hs
      · obtain ⟨xs, hxs⟩ := h.stat b hb
        exact ⟨_, hxs.push R hemin hx⟩
    · intro f hf
      rcases mem_modify hf with hf | ⟨b, hb, rfl⟩
      · exact h.final f hf
      · exact R.rep _

theorem ParR.stat' {q : Parameter ℚ V} (h : ParR (p := p) (emin := emin) q) (i : ℕ) :
    ∃ xs, StatR (p := p) (emin := emin) (q.scores[i]?.getD RunningStat.new) xs := by
  by_cases hi : i < q.scores.length
  · simp only [List.getElem?_eq_getElem hi, Option.getD_some]
    exact h.stat _ (List.getElem_mem hi)
  · simp only [List.getElem?_eq_none (not_lt.1 hi), Option.getD_none]
    exact ⟨_, statR_new⟩

theorem ParR.final' {q : Parameter ℚ V} (h : ParR (p := p) (emin := emin) q) (i : ℕ) : Fl.Rep p emin (q.finalScores[i]?.getD 0) := by
  by_cases hi : i < q.finalScores.length
  · simp only [List.getElem?_eq_getElem hi, Option.getD_some]
    exact h.final _ (List.getElem_mem hi)
  · simp only [List.getElem?_eq_none (not_lt.1 hi), Option.getD_none]
    exact rep_zero

theorem significant_spec (sqrt : ℚ → ℚ) (fs : List ℚ) (scores : List (RunningStat ℚ)) (best : ℕ)
    (hs : ∀ i : ℕ, standardDeviation R.rnd sqrt (scores[i]?.getD RunningStat.new) =
      .ok (sqrt (variance R.rnd (scores[i]?.getD RunningStat.new)))) (is : List ℕ) :
    significant R.rnd sqrt fs scores best is = .ok (is.filter (fun i =>
      fs[best]?.getD 0 ≤ R.rnd (fs[i]?.getD 0 + R.rnd (sqrt (variance R.rnd (scores[i]?.getD RunningStat.new)) / 10)))) := by
  induction is with
  | nil => rfl
  | cons i is ih =>
    simp only [significant, hs, ih]
    simp only [List.filter_cons, bind, Except.bind, pure, Except.pure, ge_iff_le]
    by_cases hc : fs[best]?.getD 0 ≤ R.rnd (fs[i]?.getD 0 + R.rnd (sqrt (variance R.rnd (scores[i]?.getD RunningStat.new)) / 10))
    · simp [hc]
    · simp [hc]

/-- The indices from which the exploit phase draws. -/
def eligible (sqrt : ℚ → ℚ) (q : Parameter ℚ V) : List ℕ :=
  let bucket0 := (List.range q.values.length).filter (fun i => q.counts[i]?.getD 0 < 4)
  if bucket0 = [] then
    (List.range q.values.length).filter (fun i => ∀ j < q.values.length,
      q.finalScores[j]?.getD 0 ≤ R.rnd (q.finalScores[i]?.getD 0 + R.rnd (sqrt (variance R.rnd (q.scores[i]?.getD RunningStat.new)) / 10)))
  else bucket0

theorem eligible_ne_nil (sqrt : ℚ → ℚ) (hq : ∀ x, 0 ≤ x → 0 ≤ sqrt x) {q : Parameter ℚ V} (h : ParR (p := p) (emin := emin) q)
    (hv : q.values ≠ []) : eligible R sqrt q ≠ [] := by
  unfold eligible
  simp only
  split
  · have hpos : 0 < q.values.length := List.length_pos_iff.2 hv
    obtain ⟨h1, -, h3⟩ := argmaxFrom_spec q.finalScores (List.range q.values.length) 0
    set b := argmaxFrom q.finalScores 0 (List.range q.values.length) with hb
    have hblt : b < q.values.length := by
      rcases h1 with h1 | h1
      · omega
      · exact List.mem_range.1 h1
    apply List.ne_nil_of_mem (a := b)
    simp only [List.mem_filter, List.mem_range, hblt, true_and, decide_eq_true_eq]
    intro j hj
    have h4 := h3 j (List.mem_range.2 hj)
    obtain ⟨xs, hxs⟩ := h.stat' b
    have h5 := R.nonneg (div_nonneg (hq _ (hxs.variance_nonneg R)) (by norm_num : (0 : ℚ) ≤ 10))
    refine h4.trans ?_
    conv_lhs => rw [← R.fix _ (h.final' b)]
    exact R.mono _ _ (by linarith)
  · assumption

theorem eligible_lt (sqrt : ℚ → ℚ) (q : Parameter ℚ V) {i : ℕ} (hi : i ∈ eligible R sqrt q) : i < q.values.length := by
  unfold eligible at hi
  simp only at hi
  split at hi <;> exact List.mem_range.1 (List.mem_filter.1 hi).1

/-- The exploit choice is a draw from `eligible`. -/
theorem choose_exploit (sqrt : ℚ → ℚ) (hq : ∀ x, 0 ≤ x → 0 ≤ sqrt x) {q : Parameter ℚ V} (h : ParR (p := p) (emin := emin) q)
    (hv : q.values ≠ []) (he : ¬ q.exploreCount > 0) (d : ℕ) :
    choose R.rnd sqrt q d = .ok ((eligible R sqrt q)[d % (eligible R sqrt q).length]?.getD 0, q.exploreCount) := by
  have hne := eligible_ne_nil R sqrt hq h hv
  have key : exploitBucket R.rnd sqrt q = .ok (eligible R sqrt q) := by
    unfold exploitBucket
    unfold eligible
    simp only
    split
    · rw [significant_spec R sqrt _ _ _ (fun i => by obtain ⟨xs, hxs⟩ := h.stat' i; exact hxs.sd R sqrt)]
      congr 1
      apply List.filter_congr
      intro i hi
      simp only [decide_eq_decide]
      obtain ⟨h1, -, h3⟩ := argmaxFrom_spec q.finalScores (List.range q.values.length) 0
      constructor
      · intro hle j hj
        exact le_trans (h3 j (List.mem_range.2 hj)) hle
      · intro hall
        apply hall
        rcases h1 with h1 | h1
        · rw [h1]; exact List.length_pos_iff.2 hv
        · exact List.mem_range.1 h1
    · rfl
  unfold choose
  rw [if_neg he]
  simp only [key, bind, Except.bind]
  have hl : 0 < (eligible R sqrt q).length := List.length_pos_iff.2 hne
  rw [if_neg (by omega)]
  split
  · simp [randrange, hl.ne', pure, Except.pure]
  · have : (eligible R sqrt q).length = 1 := by omega
    rw [this]
    simp [pure, Except.pure, Nat.mod_one]

theorem choose_explore (sqrt : ℚ → ℚ) (q : Parameter ℚ V) (he : q.exploreCount > 0) (d : ℕ) :
    choose R.rnd sqrt q d = q.choose sqrt d := by
  unfold choose Parameter.choose
  rw [if_pos he, if_pos he]

theorem choose_ok (sqrt : ℚ → ℚ) (hq : ∀ x, 0 ≤ x → 0 ≤ sqrt x) {q : Parameter ℚ V} (h : ParR (p := p) (emin := emin) q)
    (hv : q.values ≠ []) (d : ℕ) :
    ∃ j, j < q.values.length ∧ choose R.rnd sqrt q d = .ok (j, if q.exploreCount > 0 then q.exploreCount - 1 else q.exploreCount) := by
  by_cases he : q.exploreCount > 0
  · rw [choose_explore R sqrt q he]
    simp only [he, if_true]
    by_cases h2 : q.values.length = 2
    · refine ⟨_, ?_, Tuner.choose_explore2 sqrt q he h2 d⟩
      split <;> omega
    · exact ⟨_, Nat.mod_lt _ (List.length_pos_iff.2 hv), Tuner.choose_explore sqrt q he h2 hv d⟩
  · simp only [he, if_false]
    refine ⟨_, ?_, choose_exploit R sqrt hq h hv he d⟩
    have hl : d % (eligible R sqrt q).length < (eligible R sqrt q).length :=
      Nat.mod_lt _ (List.length_pos_iff.2 (eligible_ne_nil R sqrt hq h hv))
    simp only [List.getElem?_eq_getElem hl, Option.getD_some]
    exact eligible_lt R sqrt q (List.getElem_mem hl)

theorem getBest_of_choose (sqrt : ℚ → ℚ) (q : Parameter ℚ V) (d j : ℕ) (e : ℤ) (hj : j < q.values.length)
    (hc : choose R.rnd sqrt q d = .ok (j, e)) :
    getBestValue R.rnd sqrt q d = .ok (q.values[j], { q with exploreCount := e, currentIndex := j }) := by
  unfold getBestValue
  rw [hc]
  simp [bind, Except.bind, pyGet, List.getElem?_eq_getElem hj, pure, Except.pure]

theorem getBest_inv (sqrt : ℚ → ℚ) {q q' : Parameter ℚ V} {d : ℕ} {v : V} (h : getBestValue R.rnd sqrt q d = .ok (v, q')) :
    ∃ j e, q' = { q with exploreCount := e, currentIndex := j } := by
  unfold getBestValue at h
  rcases hc : choose R.rnd sqrt q d with e | ⟨j, e⟩
  · rw [hc] at h; cases h
  · rw [hc] at h
    simp only [bind, Except.bind] at h
    rcases hg : pyGet q.values j with e' | v'
    · rw [hg] at h; cases h
    · rw [hg] at h
      cases h
      exact ⟨j, e, rfl⟩

/-- The scores passed in a history are floating point numbers. -/
def FloatScores (p : ℕ) (emin : ℤ) (ops : List (Op ℚ V)) : Prop := ∀ x idx, Op.adjustScore x idx ∈ ops → Fl.Rep p emin x

theorem ParR.step (hp : 3 ≤ p) (hemin : emin ≤ 0) (sqrt : ℚ → ℚ) {q : Parameter ℚ V} (h : ParR (p := p) (emin := emin) q) (op : Op ℚ V)
    (hop : ∀ x idx, op = .adjustScore x idx → Fl.Rep p emin x) : ParR (p := p) (emin := emin) (Round.step R.rnd sqrt q op) := by
  cases op with
  | addValue v => exact h.addValue hp hemin v
  | setSwitchFlag z => exact ⟨h.1, h.2, h.3, h.4, h.5⟩
  | setExploreCount z => exact ⟨h.1, h.2, h.3, h.4, h.5⟩
  | adjustScore x idx =>
    simp only [Round.step]
    rcases ha : adjustScore R.rnd q x idx with e | q'
    · exact h
    · simp only
      exact h.adjust R hemin (hop x idx rfl) ha
  | getBest d =>
    simp only [Round.step]
    rcases ha : getBestValue R.rnd sqrt q d with e | ⟨v, q'⟩
    · exact h
    · obtain ⟨j, e, rfl⟩ := getBest_inv R sqrt ha
      exact ⟨h.1, h.2, h.3, h.4, h.5⟩

theorem parR_run (hp : 3 ≤ p) (hemin : emin ≤ 0) (sqrt : ℚ → ℚ) (cFac : ℚ) (ops : List (Op ℚ V)) (hs : FloatScores p emin ops) :
    ParR (p := p) (emin := emin) (run R.rnd sqrt cFac ops) := by
  induction ops using List.reverseRecOn with
  | nil => exact parR_new cFac
  | append_singleton ops op ih =>
    have : run R.rnd sqrt cFac (ops ++ [op]) = Round.step R.rnd sqrt (run R.rnd sqrt cFac ops) op := by simp [run]
    rw [this]
    exact (ih fun x idx h => hs x idx (List.mem_append_left _ h)).step R hp hemin sqrt op (fun x idx h => hs x idx (by simp [h]))

theorem run_snoc (sqrt : ℚ → ℚ) (cFac : ℚ) (ops : List (Op ℚ V)) (op : Op ℚ V) :
    run R.rnd sqrt cFac (ops ++ [op]) = Round.step R.rnd sqrt (run R.rnd sqrt cFac ops) op := by simp [run]

theorem run_values (sqrt : ℚ → ℚ) (cFac : ℚ) (ops : List (Op ℚ V)) : (run R.rnd sqrt cFac ops).values = registered ops := by
  induction ops using List.reverseRecOn with
  | nil => rfl
  | append_singleton ops op ih =>
    rw [run_snoc]
    cases op with
    | addValue v => simp [Round.step, Parameter.addValue, ih, registered]
    | setSwitchFlag z => simp [Round.step, Parameter.setSwitchFlag, ih, registered]
    | setExploreCount z => simp [Round.step, Parameter.setExploreCount, ih, registered]
    | adjustScore x idx =>
      have : registered (ops ++ [Op.adjustScore x idx]) = registered ops := by simp [registered]
      rw [this, ← ih]
      simp only [Round.step]
      rcases ha : adjustScore R.rnd (run R.rnd sqrt cFac ops) x idx with e | q'
      · rfl
      · unfold adjustScore at ha
        split at ha
        · cases ha
        · cases ha; rfl
    | getBest d =>
      have : registered (ops ++ [Op.getBest d]) = registered ops := by simp [registered]
      rw [this, ← ih]
      simp only [Round.step]
      rcases ha : getBestValue R.rnd sqrt (run R.rnd sqrt cFac ops) d with e | ⟨v, q'⟩
      · rfl
      · obtain ⟨j, e, rfl⟩ := getBest_inv R sqrt ha
        rfl

end Verif.Tuner.Round
