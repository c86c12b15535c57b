import Verif.Tuner.Props

/-!
# C85: a worse value is chosen only a bounded number of times
-/

set_option linter.unusedSectionVars false

namespace Verif.Tuner

open Spec

variable {K : Type} [Field K] [LinearOrder K] [IsStrictOrderedRing K] {V : Type}

/-- The alternating use of a parameter: `get_best_value` (drawing with `q.1`) followed by `adjust_score(q.2)` without index, as
`BaseSubproblem.solve_model` does for its parameters (`_col_gen_classifier.py` 197-245, `_parameter_tuner.py` 68-120). The positions returned, each with the
score it got. -/
def returns (sqrt : K → K) (p : Parameter K V) : List (ℕ × K) → List (ℕ × K)
  | [] => []
  | q :: rs => ((p.step sqrt (.getBest q.1)).currentIndex, q.2) ::
      returns sqrt ((p.step sqrt (.getBest q.1)).step sqrt (.adjustScore q.2 none)) rs

/-- Number of rounds in which position `i` was returned. -/
def timesReturned (sqrt : K → K) (p : Parameter K V) (rs : List (ℕ × K)) (i : ℕ) : ℕ := (returns sqrt p rs).countP (fun e => e.1 = i)

theorem answered_append (sqrt : K → K) (ops ops' : List (Op K V)) (p : Parameter K V) :
    answered sqrt p (ops ++ ops') = answered sqrt p ops ++ answered sqrt (ops.foldl (Parameter.step sqrt) p) ops' := by
  induction ops generalizing p with
  | nil => rfl
  | cons op ops ih => simp [answered, ih]

theorem logOf_snoc (sqrt : K → K) (cFac : K) (ops : List (Op K V)) (op : Op K V) :
    logOf sqrt cFac (ops ++ [op]) = (logOf sqrt cFac ops).step (op, (run sqrt cFac (ops ++ [op])).currentIndex) := by
  rw [run_snoc]
  unfold logOf observed absRun
  rw [answered_append, List.foldl_append]
  rfl

/-- A mean lies between bounds of the values. -/
theorem mean_mem {xs : List K} {lo hi : K} (hne : xs ≠ []) (h : ∀ x ∈ xs, lo ≤ x ∧ x ≤ hi) : lo ≤ mean xs ∧ mean xs ≤ hi := by
  have hn : (0 : K) < xs.length := by exact_mod_cast List.length_pos_iff.2 hne
  have key : (xs.length : K) * lo ≤ xs.sum ∧ xs.sum ≤ (xs.length : K) * hi := by
    clear hn hne
    induction xs with
    | nil => simp
    | cons x xs ih =>
      obtain ⟨h1, h2⟩ := ih (fun x hx => h x (by simp [hx]))
      obtain ⟨h3, h4⟩ := h x (by simp)
      simp only [List.sum_cons, List.length_cons]
      push_cast
      constructor <;> linarith
  unfold mean
  rw [if_neg hne, le_div_iff₀ hn, div_le_iff₀ hn]
  constructor <;> linarith [key.1, key.2]

/-- The sample variance of values in an interval is at most its squared length. -/
theorem sampleVariance_le {xs : List K} {lo hi : K} (h : ∀ x ∈ xs, lo ≤ x ∧ x ≤ hi) : sampleVariance xs ≤ (hi - lo) ^ 2 := by
  unfold sampleVariance
  split
  · positivity
  · rename_i hl
    have hne : xs ≠ [] := by rintro rfl; simp at hl
    have hn : (2 : K) ≤ xs.length := by exact_mod_cast not_lt.1 hl
    rw [div_le_iff₀ (by linarith)]
    -- the mean minimises the sum of squares; compare with the midpoint
    have h1 : (xs.map (fun x => (x - mean xs) ^ 2)).sum ≤ (xs.map (fun x => (x - (lo + hi) / 2) ^ 2)).sum := by
      rw [sum_sq_sub, sum_sq_sub]
      have e : mean xs * (xs.length : K) = xs.sum := by
        unfold mean
        rw [if_neg hne, div_mul_cancel₀]
        positivity
      rw [← e]
      nlinarith [sq_nonneg (mean xs - (lo + hi) / 2)]
    have h2 : (xs.map (fun x => (x - (lo + hi) / 2) ^ 2)).sum ≤ (xs.length : K) * ((hi - lo) / 2) ^ 2 := by
      clear h1 hn hne hl
      induction xs with
      | nil => simp
      | cons x xs ih =>
        have := ih (fun x hx => h x (by simp [hx]))
        obtain ⟨h3, h4⟩ := h x (by simp)
        simp only [List.map_cons, List.sum_cons, List.length_cons]
        push_cast
        nlinarith
    have h5 : (xs.length : K) * ((hi - lo) / 2) ^ 2 ≤ (hi - lo) ^ 2 * ((xs.length : K) - 1) := by
      nlinarith [sq_nonneg (hi - lo)]
    linarith

/-- A square root: nonnegative and monotone with respect to squares. -/
structure IsSqrt (sqrt : K → K) : Prop where
  nonneg : ∀ x, 0 ≤ x → 0 ≤ sqrt x
  le : ∀ x y, 0 ≤ y → x ≤ y ^ 2 → sqrt x ≤ y

/-- The scores credited so far lie in the intervals of their positions. -/
def InRange (lo hi : ℕ → K) (log : List (ℕ × K)) : Prop := ∀ e ∈ log, lo e.1 ≤ e.2 ∧ e.2 ≤ hi e.1

theorem InRange.scores {lo hi : ℕ → K} {a : Abs K V} (h : InRange lo hi a.log) (i : ℕ) : ∀ x ∈ a.scoresOf i, lo i ≤ x ∧ x ≤ hi i := by
  intro x hx
  unfold Abs.scoresOf at hx
  obtain ⟨e, he, rfl⟩ := List.mem_map.1 hx
  obtain ⟨h1, h2⟩ := List.mem_filter.1 he
  have : e.1 = i := by simpa using h2
  rw [← this]
  exact h e h1

/-- Position `i` is worse than position `j`: after `n` scores its final score plus a tenth of the standard deviation stays below all scores of `j`. -/
def Worse (cFac : K) (lo hi : ℕ → K) (n : ℕ) (i j : ℕ) : Prop := hi i + cFac / (n : K) + (hi i - lo i) / 10 < lo j

/-- A worse value that has `max 4 n` scores is not returned in the exploit phase. -/
theorem not_returned (sqrt : K → K) (hq : IsSqrt sqrt) {cFac : K} (hc : 0 ≤ cFac) (ops : List (Op K V))
    (he : (run sqrt cFac ops).exploreCount ≤ 0) {lo hi : ℕ → K} (hr : InRange lo hi (logOf sqrt cFac ops).log) {i j n : ℕ} (hn : 0 < n)
    (hj : j < (registered ops).length) (hw : Worse cFac lo hi n i j) (h4 : max 4 n ≤ ((logOf sqrt cFac ops).scoresOf i).length) (d : ℕ) :
    (run sqrt cFac (ops ++ [.getBest d])).currentIndex ≠ i := by
  intro hi'
  have hv : registered ops ≠ [] := by intro h; rw [h] at hj; simp at hj
  obtain ⟨v, p', hg, -, -⟩ := (C15_get_best_value sqrt hq.nonneg cFac ops d).1 hv
  have hcur : p'.currentIndex = i := by
    rw [run_snoc] at hi'
    simp only [Parameter.step, hg] at hi'
    exact hi'
  have h := (C17_exploit sqrt hq.nonneg cFac ops hv he i).1 ⟨d, v, p', hg, hcur⟩
  obtain ⟨hlt, h⟩ := h
  simp only at h
  split at h
  · omega
  · rename_i hall
    push Not at hall
    have hji := h j hj
    have hjl := hall j hj
    set xs := (logOf sqrt cFac ops).scoresOf i with hxs
    set ys := (logOf sqrt cFac ops).scoresOf j with hys
    have hx : xs ≠ [] := by rintro h0; rw [h0] at h4; simp at h4
    have hy : ys ≠ [] := by rintro h0; rw [h0] at hjl; simp at hjl
    have mx := mean_mem hx (hr.scores i)
    have my := mean_mem hy (hr.scores j)
    unfold Spec.finalScore at hji
    rw [if_neg hx, if_neg hy] at hji
    have hlohi : lo i ≤ hi i := le_trans mx.1 mx.2
    have hsd := hq.le _ (hi i - lo i) (by linarith) (sampleVariance_le (hr.scores i))
    rw [← hxs] at hsd
    have hn' : (0 : K) < n := by exact_mod_cast hn
    have hle : (n : K) ≤ xs.length := by exact_mod_cast (le_trans (le_max_right 4 n) h4)
    have hdiv : cFac / (xs.length : K) ≤ cFac / (n : K) := div_le_div_of_nonneg_left hc hn' hle
    have hpos : 0 ≤ cFac / (ys.length : K) := by positivity
    unfold Worse at hw
    linarith

theorem step_explore (sqrt : K → K) (hq : IsSqrt sqrt) (cFac : K) (ops : List (Op K V)) (hv : registered ops ≠ [])
    (he : (run sqrt cFac ops).exploreCount ≤ 0) (d : ℕ) (s : K) : (run sqrt cFac (ops ++ [.getBest d] ++ [.adjustScore s none])).exploreCount ≤ 0 := by
  have := C16_explore_count sqrt hq.nonneg cFac ops [.getBest d, .adjustScore s none] hv (by
    intro o ho z
    simp at ho
    rcases ho with rfl | rfl <;> simp)
  rw [if_neg (not_lt.2 he)] at this
  rw [List.append_assoc]
  rw [show ([Op.getBest d] ++ [Op.adjustScore s none] : List (Op K V)) = [.getBest d, .adjustScore s none] from rfl, this]
  exact he

/-- The log after one round. -/
theorem log_round (sqrt : K → K) (hq : IsSqrt sqrt) (cFac : K) (ops : List (Op K V)) (hv : registered ops ≠ []) (d : ℕ) (s : K) :
    (logOf sqrt cFac (ops ++ [.getBest d] ++ [.adjustScore s none])).log =
      (logOf sqrt cFac ops).log ++ [((run sqrt cFac (ops ++ [.getBest d])).currentIndex, s)] := by
  have hrep := rep_run sqrt hq.nonneg cFac (ops ++ [.getBest d])
  have hrep0 := rep_run sqrt hq.nonneg cFac ops
  have hval : (logOf sqrt cFac (ops ++ [.getBest d])).values = registered (ops ++ [.getBest d]) := by
    rw [← run_values sqrt cFac]; exact hrep.vals.symm
  have hval0 : (logOf sqrt cFac ops).values = registered ops := by
    rw [← run_values sqrt cFac]; exact hrep0.vals.symm
  have hreg : registered (ops ++ [.getBest d]) = registered ops := by simp [registered]
  have hlast : (logOf sqrt cFac (ops ++ [.getBest d])).last = (run sqrt cFac (ops ++ [.getBest d])).currentIndex := hrep.cur.symm
  have hlt : (logOf sqrt cFac (ops ++ [.getBest d])).last < (logOf sqrt cFac (ops ++ [.getBest d])).values.length :=
    hrep.curLt (by change (logOf sqrt cFac (ops ++ [.getBest d])).values ≠ []; rw [hval, hreg]; exact hv)
  have hlog : (logOf sqrt cFac (ops ++ [.getBest d])).log = (logOf sqrt cFac ops).log := by
    rw [logOf_snoc]
    simp only [Abs.step]
    split <;> rfl
  rw [logOf_snoc]
  simp only [Abs.step]
  rw [if_pos hlt, hlast, hlog]

theorem rounds_bound (sqrt : K → K) (hq : IsSqrt sqrt) {cFac : K} (hc : 0 ≤ cFac) {lo hi : ℕ → K} {i j n : ℕ} (hn : 0 < n)
    (hw : Worse cFac lo hi n i j) : ∀ (rs : List (ℕ × K)) (ops : List (Op K V)), (run sqrt cFac ops).exploreCount ≤ 0 → j < (registered ops).length →
      InRange lo hi (logOf sqrt cFac ops).log → InRange lo hi (returns sqrt (run sqrt cFac ops) rs) →
      timesReturned sqrt (run sqrt cFac ops) rs i ≤ max 4 n - ((logOf sqrt cFac ops).scoresOf i).length := by
  intro rs
  induction rs with
  | nil => intro ops _ _ _ _; simp [timesReturned, returns]
  | cons q rs ih =>
    intro ops he hj hr hrr
    have hv : registered ops ≠ [] := by intro h; rw [h] at hj; simp at hj
    have hlog := log_round sqrt hq cFac ops hv q.1 q.2
    have hrun : run sqrt cFac (ops ++ [.getBest q.1] ++ [.adjustScore q.2 none]) =
        ((run sqrt cFac ops).step sqrt (.getBest q.1)).step sqrt (.adjustScore q.2 none) := by rw [run_snoc, run_snoc]
    have hhead := hrr _ (List.mem_cons_self)
    have hcur : (run sqrt cFac (ops ++ [.getBest q.1])).currentIndex = ((run sqrt cFac ops).step sqrt (.getBest q.1)).currentIndex := by
      rw [run_snoc]
    have hr2 : InRange lo hi (logOf sqrt cFac (ops ++ [.getBest q.1] ++ [.adjustScore q.2 none])).log := by
      rw [hlog]
      intro e hm
      rcases List.mem_append.1 hm with hm | hm
      · exact hr e hm
      · rw [List.mem_singleton.1 hm, hcur]
        exact hhead
    have := ih (ops ++ [.getBest q.1] ++ [.adjustScore q.2 none]) (step_explore sqrt hq cFac ops hv he q.1 q.2)
      (by simpa [registered] using hj) hr2 (by rw [hrun]; exact fun e hm => hrr e (List.mem_cons_of_mem _ hm))
    rw [hrun] at this
    have hs : (logOf sqrt cFac (ops ++ [.getBest q.1] ++ [.adjustScore q.2 none])).scoresOf i =
        if (run sqrt cFac (ops ++ [.getBest q.1])).currentIndex = i then (logOf sqrt cFac ops).scoresOf i ++ [q.2]
        else (logOf sqrt cFac ops).scoresOf i := by
      unfold Abs.scoresOf
      rw [hlog]
      simp only [List.filter_append, List.map_append]
      by_cases h : (run sqrt cFac (ops ++ [.getBest q.1])).currentIndex = i <;> simp [h]
    rw [hs] at this
    unfold timesReturned at this ⊢
    simp only [returns, List.countP_cons]
    rw [← hcur]
    by_cases h : (run sqrt cFac (ops ++ [.getBest q.1])).currentIndex = i
    · have hlt : ((logOf sqrt cFac ops).scoresOf i).length < max 4 n := by
        by_contra hge
        exact not_returned sqrt hq hc ops he hr hn hj hw (not_lt.1 hge) q.1 h
      rw [if_pos h] at this
      simp only [h, decide_true, if_true]
      rw [List.length_append, List.length_singleton] at this
      omega
    · rw [if_neg h] at this
      simp only [h, decide_false, Bool.false_eq_true, if_false]
      omega

/-- **C85.** In the exploit phase, used as by `solve_model` (each returned value gets a score), a value is returned at most `max 4 n` times if some other value is better in the
sense that its scores always exceed those of the worse value by more than `c_fac / n` plus a tenth of the spread of the worse value's
scores; whatever the draws and the scores (within their intervals) are, and however long the use goes on. -/
theorem C85_bounded_regret (sqrt : K → K) (hq : IsSqrt sqrt) {cFac : K} (hc : 0 ≤ cFac) (ops : List (Op K V)) (rs : List (ℕ × K))
    (he : (run sqrt cFac ops).exploreCount ≤ 0) {lo hi : ℕ → K} (hr : InRange lo hi (logOf sqrt cFac ops).log)
    (hrr : InRange lo hi (returns sqrt (run sqrt cFac ops) rs)) {i j n : ℕ} (hn : 0 < n) (hj : j < (registered ops).length)
    (hw : Worse cFac lo hi n i j) : timesReturned sqrt (run sqrt cFac ops) rs i ≤ max 4 n :=
  le_trans (rounds_bound sqrt hq hc hn hw rs ops he hj hr hrr) (Nat.sub_le _ _)

theorem returns_length (sqrt : K → K) (rs : List (ℕ × K)) : ∀ p : Parameter K V, (returns sqrt p rs).length = rs.length := by
  induction rs with
  | nil => intro p; rfl
  | cons q rs ih => intro p; simp [returns, ih]

theorem returns_lt (sqrt : K → K) (hq : IsSqrt sqrt) (cFac : K) (rs : List (ℕ × K)) : ∀ ops : List (Op K V), registered ops ≠ [] →
    ∀ e ∈ returns sqrt (run sqrt cFac ops) rs, e.1 < (registered ops).length := by
  induction rs with
  | nil => intro ops _ e he; simp [returns] at he
  | cons q rs ih =>
    intro ops hv e he
    rcases List.mem_cons.1 he with rfl | he
    · have hrep := rep_run sqrt hq.nonneg cFac (ops ++ [.getBest q.1])
      have hval : (logOf sqrt cFac (ops ++ [.getBest q.1])).values = registered ops := by
        have e1 : registered (ops ++ [.getBest q.1]) = registered ops := by simp [registered]
        rw [← e1, ← run_values sqrt cFac]; exact hrep.vals.symm
      have h1 := hrep.curLt (by change (logOf sqrt cFac (ops ++ [.getBest q.1])).values ≠ []; rw [hval]; exact hv)
      rw [← hrep.cur] at h1
      change _ < (logOf sqrt cFac (ops ++ [.getBest q.1])).values.length at h1
      rw [hval, run_snoc] at h1
      exact h1
    · have := ih (ops ++ [.getBest q.1] ++ [.adjustScore q.2 none]) (by simpa [registered] using hv) e (by
        rw [run_snoc, run_snoc]; exact he)
      simpa [registered] using this

theorem countP_split (L : List (ℕ × K)) (m j : ℕ) (hj : j < m) (hlt : ∀ e ∈ L, e.1 < m) :
    L.length = L.countP (fun e => e.1 = j) + (((List.range m).filter (fun i => i ≠ j)).map (fun i => L.countP (fun e => e.1 = i))).sum := by
  induction L with
  | nil => simp
  | cons e L ih =>
    have ih' := ih (fun e he => hlt e (by simp [he]))
    have he := hlt e (by simp)
    have key : ∀ (l : List ℕ), l.Nodup → (l.map (fun i => (e :: L).countP (fun e => e.1 = i))).sum =
        (l.map (fun i => L.countP (fun e => e.1 = i))).sum + (if e.1 ∈ l then 1 else 0) := by
      intro l
      induction l with
      | nil => intro _; simp
      | cons a l ihl =>
        intro hnd
        rw [List.nodup_cons] at hnd
        have := ihl hnd.2
        simp only [List.map_cons, List.sum_cons, List.countP_cons, List.mem_cons] at this ⊢
        rw [this]
        by_cases hea : e.1 = a
        · have : e.1 ∉ l := by rw [hea]; exact hnd.1
          simp [hea, hnd.1]
          omega
        · simp [hea]
          omega
    rw [key _ (List.nodup_range.filter _), List.length_cons, ih', List.countP_cons]
    by_cases hej : e.1 = j
    · have : e.1 ∉ (List.range m).filter (fun i => i ≠ j) := by simp [hej]
      simp [hej]
      omega
    · have : e.1 ∈ (List.range m).filter (fun i => i ≠ j) := by simp [he, hej]
      rw [if_pos this]
      simp [hej]
      omega

/-- **C85**, convergence: if one value is better than all others, all but `(number of values - 1) * max 4 n` rounds of the exploit phase return it. -/
theorem C85_convergence (sqrt : K → K) (hq : IsSqrt sqrt) {cFac : K} (hc : 0 ≤ cFac) (ops : List (Op K V)) (rs : List (ℕ × K))
    (he : (run sqrt cFac ops).exploreCount ≤ 0) {lo hi : ℕ → K} (hr : InRange lo hi (logOf sqrt cFac ops).log)
    (hrr : InRange lo hi (returns sqrt (run sqrt cFac ops) rs)) {j n : ℕ} (hn : 0 < n) (hj : j < (registered ops).length)
    (hw : ∀ i < (registered ops).length, i ≠ j → Worse cFac lo hi n i j) :
    rs.length ≤ timesReturned sqrt (run sqrt cFac ops) rs j + ((registered ops).length - 1) * max 4 n := by
  have hv : registered ops ≠ [] := by intro h; rw [h] at hj; simp at hj
  have h1 := countP_split _ _ _ hj (returns_lt sqrt hq cFac rs ops hv)
  rw [returns_length] at h1
  have h2 : (((List.range (registered ops).length).filter (fun i => i ≠ j)).map
      (fun i => (returns sqrt (run sqrt cFac ops) rs).countP (fun e => e.1 = i))).sum ≤ ((registered ops).length - 1) * max 4 n := by
    have hlen : ((List.range (registered ops).length).filter (fun i => i ≠ j)).length = (registered ops).length - 1 := by
      have e1 : (List.range (registered ops).length).filter (fun i => i ≠ j) = (List.range (registered ops).length).erase j := by
        rw [List.nodup_range.erase_eq_filter]
        apply List.filter_congr
        intro x _
        by_cases h : x = j <;> simp [h]
      rw [e1, List.length_erase_of_mem (List.mem_range.2 hj), List.length_range]
    rw [← hlen]
    refine le_trans (List.sum_le_card_nsmul _ (max 4 n) ?_) (by simp)
    intro x hx
    obtain ⟨i, hi', rfl⟩ := List.mem_map.1 hx
    obtain ⟨h3, h4⟩ := List.mem_filter.1 hi'
    exact C85_bounded_regret sqrt hq hc ops rs he hr hrr hn hj (hw i (List.mem_range.1 h3) (by simpa using h4))
  unfold timesReturned
  omega

/-- The real square root qualifies. -/
theorem isSqrt_real : IsSqrt Real.sqrt :=
  ⟨fun x _ => Real.sqrt_nonneg x, fun _ _ hy h => Real.sqrt_le_iff.2 ⟨hy, h⟩⟩

/-- C85 for the square root of the reals. -/
theorem C85_real {cFac : ℝ} (hc : 0 ≤ cFac) (ops : List (Op ℝ V)) (rs : List (ℕ × ℝ))
    (he : (run Real.sqrt cFac ops).exploreCount ≤ 0) {lo hi : ℕ → ℝ} (hr : InRange lo hi (logOf Real.sqrt cFac ops).log)
    (hrr : InRange lo hi (returns Real.sqrt (run Real.sqrt cFac ops) rs)) {i j n : ℕ} (hn : 0 < n) (hj : j < (registered ops).length)
    (hw : Worse cFac lo hi n i j) : timesReturned Real.sqrt (run Real.sqrt cFac ops) rs i ≤ max 4 n :=
  C85_bounded_regret Real.sqrt isSqrt_real hc ops rs he hr hrr hn hj hw

/-! A case that meets the hypotheses: two values without any score at the start of the exploit phase, the first always gets -1, the second 0. The bound
`max 4 n` is reached: the worse value is returned four times in ten rounds, and then never again. -/

/-- Ten rounds; the score of a round is that of the value returned. -/
def demoRounds : List (ℕ × ℚ) := [(0, -1), (0, -1), (0, -1), (0, -1), (0, 0), (0, 0), (0, 0), (0, 0), (0, 0), (1, 0)]

def demoOps : List (Op ℚ ℕ) := [.addValue 2, .addValue 1, .setExploreCount 0]

def demoBound (i : ℕ) : ℚ := if i = 0 then -1 else 0

theorem isSqrt_zero : IsSqrt (fun _ => (0 : ℚ)) := ⟨fun _ _ => le_refl 0, fun _ _ h _ => h⟩

theorem demo_returns : returns (fun _ => 0) (run (fun _ => 0) (3/10) demoOps) demoRounds =
    [(0, -1), (0, -1), (0, -1), (0, -1), (1, 0), (1, 0), (1, 0), (1, 0), (1, 0), (1, 0)] := by decide +kernel

example : (run (fun _ => (0 : ℚ)) (3/10) demoOps).exploreCount ≤ 0 ∧ InRange demoBound demoBound (logOf (fun _ => 0) (3/10) demoOps).log ∧
    InRange demoBound demoBound (returns (fun _ => 0) (run (fun _ => 0) (3/10) demoOps) demoRounds) ∧ 1 < (registered demoOps).length ∧
    Worse (3/10) demoBound demoBound 1 0 1 ∧ timesReturned (fun _ => 0) (run (fun _ => 0) (3/10) demoOps) demoRounds 0 = max 4 1 := by
  unfold timesReturned
  rw [demo_returns]
  unfold InRange Worse
  decide +kernel

end Verif.Tuner
