import Verif.Tuner.Props

/-!
# Property C19: the feedback of `solve_model`
-/

set_option linter.unusedSectionVars false

namespace Verif.Tuner

open Spec

variable {K : Type} [Field K] [LinearOrder K] [IsStrictOrderedRing K]

/-- One `solve_model` call: random draws, time limit and the solver's behaviour. -/
structure SolveCall (K : Type) where
  draws : ℕ × ℕ × ℕ
  timeLimit : K
  ans : CpParams K → CpAnswer K

/-- The state of a fresh subproblem after any sequence of `solve_model` calls (raising or not). -/
def solveRun (sqrt : K → K) (calls : List (SolveCall K)) : SolveState K :=
  calls.foldl (fun s c => (s.solveModel sqrt c.draws c.timeLimit c.ans).2.2) SolveState.new

/-- The answer makes the score computation divide by zero. -/
def DividesByZero (a : CpAnswer K) (timeLimit : K) : Prop :=
  timeLimit = 0 ∨ (a.status = .feasible ∧ a.objective = 0 ∧ a.bound = 0)

/-- The relative gap that should be reported. -/
def specGap (a : CpAnswer K) : K :=
  match a.status with
  | .optimal => 0
  | .other => 1
  | .feasible => if a.objective * a.bound < 0 then 1
      else |a.objective - a.bound| / max |a.objective| |a.bound|

/-- The relative time that should be reported. -/
def specTime (a : CpAnswer K) (timeLimit : K) : K :=
  match a.status with
  | .optimal => a.wallTime / timeLimit
  | _ => 1

theorem scoresOf_error (a : CpAnswer K) (t : K) (h : DividesByZero a t) :
    scoresOf a t = .error .zeroDivisionError := by
  unfold scoresOf
  rcases h with h | ⟨h1, h2, h3⟩
  · simp [h]
  · simp [h1, h2, h3]

theorem scoresOf_ok (a : CpAnswer K) (t : K) (h : ¬ DividesByZero a t) :
    scoresOf a t = .ok (specTime a t, specGap a) := by
  unfold scoresOf specTime specGap
  have ht : t ≠ 0 := fun h0 => h (Or.inl h0)
  rw [if_neg ht]
  cases hs : a.status with
  | optimal => rfl
  | other => rfl
  | feasible =>
    simp only
    by_cases hp : a.objective * a.bound < 0
    · rw [if_neg (not_le.2 hp), if_pos hp]
    · rw [if_pos (not_lt.1 hp), if_neg hp, if_neg]
      intro h0
      apply h
      refine Or.inr ⟨hs, ?_, ?_⟩
      · have : |a.objective| ≤ 0 := h0 ▸ le_max_left _ _
        exact abs_eq_zero.1 (le_antisymm this (abs_nonneg _))
      · have : |a.bound| ≤ 0 := h0 ▸ le_max_right _ _
        exact abs_eq_zero.1 (le_antisymm this (abs_nonneg _))

theorem specGap_mem (a : CpAnswer K) : 0 ≤ specGap a ∧ specGap a ≤ 1 := by
  unfold specGap
  cases a.status with
  | optimal => simp
  | other => simp
  | feasible =>
    simp only
    split
    · simp
    · rename_i h
      have hp := not_lt.1 h
      have hm : 0 ≤ max |a.objective| |a.bound| := le_trans (abs_nonneg _) (le_max_left _ _)
      refine ⟨div_nonneg (abs_nonneg _) hm, ?_⟩
      apply div_le_one_of_le₀ _ hm
      rw [abs_le]
      rcases mul_nonneg_iff.1 hp with ⟨h1, h2⟩ | ⟨h1, h2⟩
      · rw [abs_of_nonneg h1, abs_of_nonneg h2]
        constructor
        · have := le_max_right a.objective a.bound; linarith
        · have := le_max_left a.objective a.bound; linarith
      · rw [abs_of_nonpos h1, abs_of_nonpos h2]
        constructor
        · have := le_max_left (-a.objective) (-a.bound); linarith
        · have := le_max_right (-a.objective) (-a.bound); linarith

/-- The parameter `p` is a `Parameter(0.3, ..)` with a history that registered `vals`. -/
def Hist (sqrt : K → K) (vals : List ℤ) (ops : List (Op K ℤ)) (p : Parameter K ℤ) : Prop :=
  p = run sqrt (3/10) ops ∧ registered ops = vals

theorem Hist.getBest (sqrt : K → K) (hq : ∀ x, 0 ≤ x → 0 ≤ sqrt x) {vals : List ℤ} {ops : List (Op K ℤ)}
    {p : Parameter K ℤ} (h : Hist sqrt vals ops p) (hv : vals ≠ []) (d : ℕ) :
    ∃ v p', p.getBestValue sqrt d = .ok (v, p') ∧ Hist sqrt vals (ops ++ [.getBest d]) p' ∧
      vals[p'.currentIndex]? = some v ∧ p'.totalCounts = p.totalCounts := by
  obtain ⟨h1, h2⟩ := h
  obtain ⟨v, p', hg, -, hi⟩ := (C15_get_best_value sqrt hq (3/10) ops d).1 (by rw [h2]; exact hv)
  refine ⟨v, p', by rw [h1]; exact hg, ⟨?_, ?_⟩, by rw [← h2]; exact hi, ?_⟩
  · rw [run_snoc]; simp only [Parameter.step, hg]
  · simp [registered] at h2 ⊢; exact h2
  · rw [h1]
    obtain ⟨a, ha⟩ := exists_rep sqrt hq (3/10) ops
    obtain ⟨j, hj, hc⟩ := choose_ok sqrt hq ha (by rw [run_values, h2]; exact hv) d
    rw [getBest_of_choose sqrt _ d j _ hj hc] at hg
    cases hg
    rfl

theorem Hist.adjust (sqrt : K → K) (hq : ∀ x, 0 ≤ x → 0 ≤ sqrt x) {vals : List ℤ} {ops : List (Op K ℤ)}
    {p : Parameter K ℤ} (h : Hist sqrt vals ops p) (hv : vals ≠ []) (x : K) :
    ∃ p', p.adjustScore x none = .ok p' ∧ Hist sqrt vals (ops ++ [.adjustScore x none]) p' ∧
      p'.totalCounts = p.totalCounts + 1 := by
  obtain ⟨h1, h2⟩ := h
  obtain ⟨a, ha⟩ := exists_rep sqrt hq (3/10) ops
  have hval : a.values = vals := by rw [← ha.vals, run_values, h2]
  have hlt : a.last < a.values.length := ha.curLt (by rw [hval]; exact hv)
  obtain ⟨p', hp', hr⟩ := ha.credit x none a.last
    (by simp [Parameter.scoreIndex, pyIdx_nat, ha.lenS, ha.cur, hlt]) hlt
  refine ⟨p', by rw [h1]; exact hp', ⟨?_, ?_⟩, ?_⟩
  · rw [run_snoc]; simp only [Parameter.step, hp']
  · simp [registered] at h2 ⊢; exact h2
  · rw [h1, hr.total, ha.total]; simp

/-- Invariant of the subproblem state. -/
structure SInv (sqrt : K → K) (s : SolveState K) (om op ol : List (Op K ℤ)) : Prop where
  cp : s.hasCpSolver = true
  presolve : Hist sqrt [3, 4, 2] om s.presolve
  probing : Hist sqrt [2, 1] op s.probing
  lns : Hist sqrt [2, 0] ol s.lns
  len : s.gaps.length = s.solveTimes.length
  gaps : ∀ g ∈ s.gaps, 0 ≤ g ∧ g ≤ 1
  tm : s.presolve.totalCounts = s.gaps.length
  tp : s.probing.totalCounts = s.gaps.length
  tl : s.lns.totalCounts = s.gaps.length

theorem sInv_new (sqrt : K → K) : SInv sqrt (SolveState.new : SolveState K)
    [.addValue 3, .addValue 4, .addValue 2, .setExploreCount 15]
    [.addValue 2, .addValue 1, .setSwitchFlag 2] [.addValue 2, .addValue 0, .setSwitchFlag 4] := by
  constructor <;>
    simp [SolveState.new, Hist, registered, run, Parameter.step, presolveIterations, probingLevel, lnsWorkers,
      Parameter.addValue, Parameter.setExploreCount, Parameter.setSwitchFlag, Parameter.new]

/-- Everything one call does, from any state satisfying the invariant. -/
theorem solveModel_spec (sqrt : K → K) (hq : ∀ x, 0 ≤ x → 0 ≤ sqrt x) {s : SolveState K} {om op ol : List (Op K ℤ)}
    (h : SInv sqrt s om op ol) (c : SolveCall K) :
    ∃ cfg s', cfg.numSearchWorkers = 7 ∧ cfg.maxTime = c.timeLimit ∧
      cfg.minNumLnsWorkers ∈ ([2, 0] : List ℤ) ∧ cfg.probingLevel ∈ ([2, 1] : List ℤ) ∧
      cfg.maxPresolveIterations ∈ ([3, 4, 2] : List ℤ) ∧
      ((DividesByZero (c.ans cfg) c.timeLimit ∧
          s.solveModel sqrt c.draws c.timeLimit c.ans = (some cfg, .error .zeroDivisionError, s') ∧
          s'.solveTimes = s.solveTimes ∧ s'.gaps = s.gaps ∧
          SInv sqrt s' (om ++ [.getBest c.draws.2.2]) (op ++ [.getBest c.draws.2.1]) (ol ++ [.getBest c.draws.1])) ∨
       (¬ DividesByZero (c.ans cfg) c.timeLimit ∧
          s.solveModel sqrt c.draws c.timeLimit c.ans = (some cfg, .ok (), s') ∧
          s'.solveTimes = s.solveTimes ++ [(c.ans cfg).wallTime] ∧ s'.gaps = s.gaps ++ [specGap (c.ans cfg)] ∧
          (let x := -(specTime (c.ans cfg) c.timeLimit + specGap (c.ans cfg))
           SInv sqrt s' (om ++ [.getBest c.draws.2.2, .adjustScore x none])
            (op ++ [.getBest c.draws.2.1, .adjustScore x none]) (ol ++ [.getBest c.draws.1, .adjustScore x none])))) := by
  obtain ⟨vl, pl, hl1, hl2, hl3, hl4⟩ := h.lns.getBest sqrt hq (by simp) c.draws.1
  obtain ⟨vp, pp, hp1, hp2, hp3, hp4⟩ := h.probing.getBest sqrt hq (by simp) c.draws.2.1
  obtain ⟨vm, pm, hm1, hm2, hm3, hm4⟩ := h.presolve.getBest sqrt hq (by simp) c.draws.2.2
  let cfg : CpParams K := ⟨7, c.timeLimit, vl, vp, vm⟩
  by_cases hd : DividesByZero (c.ans cfg) c.timeLimit
  · refine ⟨cfg, { s with lns := pl, probing := pp, presolve := pm }, rfl, rfl, List.mem_of_getElem? hl3,
      List.mem_of_getElem? hp3, List.mem_of_getElem? hm3, Or.inl ⟨hd, ?_, rfl, rfl, ?_⟩⟩
    · simp only [SolveState.solveModel, h.cp, Bool.true_eq_false, if_false, hl1, hp1, hm1]
      rw [scoresOf_error _ _ hd]
    · exact ⟨h.cp, hm2, hp2, hl2, h.len, h.gaps, hm4.trans h.tm, hp4.trans h.tp, hl4.trans h.tl⟩
  · let x := -(specTime (c.ans cfg) c.timeLimit + specGap (c.ans cfg))
    obtain ⟨pm', am1, am2, am3⟩ := hm2.adjust sqrt hq (by simp) x
    obtain ⟨pp', ap1, ap2, ap3⟩ := hp2.adjust sqrt hq (by simp) x
    obtain ⟨pl', al1, al2, al3⟩ := hl2.adjust sqrt hq (by simp) x
    refine ⟨cfg, { s with
      lns := pl'
      probing := pp'
      presolve := pm'
      solveTimes := s.solveTimes ++ [(c.ans cfg).wallTime]
      gaps := s.gaps ++ [specGap (c.ans cfg)] }, rfl, rfl,
      List.mem_of_getElem? hl3, List.mem_of_getElem? hp3, List.mem_of_getElem? hm3, Or.inr ⟨hd, ?_, rfl, rfl, ?_⟩⟩
    · simp only [SolveState.solveModel, h.cp, Bool.true_eq_false, if_false, hl1, hp1, hm1]
      rw [scoresOf_ok _ _ hd]
      simp only
      change (match pm.adjustScore x none with
        | .error e => _
        | .ok _ => _) = _
      rw [am1]
      simp only
      change (match pp.adjustScore x none with
        | .error e => _
        | .ok _ => _) = _
      rw [ap1]
      simp only
      change (match pl.adjustScore x none with
        | .error e => _
        | .ok _ => _) = _
      rw [al1]
    · refine ⟨h.cp, by rw [List.append_assoc] at am2; exact am2, by rw [List.append_assoc] at ap2; exact ap2,
        by rw [List.append_assoc] at al2; exact al2, by simp [h.len], ?_, ?_, ?_, ?_⟩
      · intro g hg
        rcases List.mem_append.1 hg with hg | hg
        · exact h.gaps g hg
        · rw [List.mem_singleton.1 hg]; exact specGap_mem _
      · simp [am3, hm4, h.tm]
      · simp [ap3, hp4, h.tp]
      · simp [al3, hl4, h.tl]

theorem exists_sInv (sqrt : K → K) (hq : ∀ x, 0 ≤ x → 0 ≤ sqrt x) (calls : List (SolveCall K)) :
    ∃ om op ol, SInv sqrt (solveRun sqrt calls) om op ol := by
  induction calls using List.reverseRecOn with
  | nil => exact ⟨_, _, _, sInv_new sqrt⟩
  | append_singleton calls c ih =>
    obtain ⟨om, op, ol, h⟩ := ih
    have hr : solveRun sqrt (calls ++ [c])
        = ((solveRun sqrt calls).solveModel sqrt c.draws c.timeLimit c.ans).2.2 := by simp [solveRun]
    rw [hr]
    obtain ⟨cfg, s', -, -, -, -, -, ⟨-, h2, -, -, h3⟩ | ⟨-, h2, -, -, h3⟩⟩ := solveModel_spec sqrt hq h c
    · rw [h2]; exact ⟨_, _, _, h3⟩
    · rw [h2]; exact ⟨_, _, _, h3⟩

/-- **C19a.** After any sequence of `solve_model` calls: as many gaps as solve times, every gap in `[0,1]`, and every tunable parameter
has received exactly one score per recorded call. -/
theorem C19_history (sqrt : K → K) (hq : ∀ x, 0 ≤ x → 0 ≤ sqrt x) (calls : List (SolveCall K)) :
    let s := solveRun sqrt calls
    s.gaps.length = s.solveTimes.length ∧ (∀ g ∈ s.gaps, 0 ≤ g ∧ g ≤ 1) ∧
    s.presolve.totalCounts = s.gaps.length ∧ s.probing.totalCounts = s.gaps.length ∧
    s.lns.totalCounts = s.gaps.length := by
  obtain ⟨om, op, ol, h⟩ := exists_sInv sqrt hq calls
  exact ⟨h.len, h.gaps, h.tm, h.tp, h.tl⟩

/-- **C19b.** One more call after any sequence of calls: the solver is configured with registered values; unless the score computation
divides by zero (time limit 0, or a FEASIBLE answer with objective and bound 0) nothing is raised, exactly one solve time and one gap are
appended, the gap is 0 for OPTIMAL, 1 for failure, else the relative gap, and each parameter's history is extended by
`get_best_value(); adjust_score(-(time + gap))`, i.e. (C18) the score is credited to the value just used. When it does divide by zero the
call raises `ZeroDivisionError` and records nothing. -/
theorem C19_solve_model (sqrt : K → K) (hq : ∀ x, 0 ≤ x → 0 ≤ sqrt x) (calls : List (SolveCall K)) (c : SolveCall K) :
    let s := solveRun sqrt calls
    ∃ cfg s', cfg.numSearchWorkers = 7 ∧ cfg.maxTime = c.timeLimit ∧
      cfg.minNumLnsWorkers ∈ ([2, 0] : List ℤ) ∧ cfg.probingLevel ∈ ([2, 1] : List ℤ) ∧
      cfg.maxPresolveIterations ∈ ([3, 4, 2] : List ℤ) ∧
      (¬ DividesByZero (c.ans cfg) c.timeLimit →
        s.solveModel sqrt c.draws c.timeLimit c.ans = (some cfg, .ok (), s') ∧
        s'.solveTimes = s.solveTimes ++ [(c.ans cfg).wallTime] ∧ s'.gaps = s.gaps ++ [specGap (c.ans cfg)] ∧
        ∃ om op ol : List (Op K ℤ),
          let x := -(specTime (c.ans cfg) c.timeLimit + specGap (c.ans cfg))
          s.presolve = run sqrt (3/10) om ∧ s.probing = run sqrt (3/10) op ∧ s.lns = run sqrt (3/10) ol ∧
          s'.presolve = run sqrt (3/10) (om ++ [.getBest c.draws.2.2, .adjustScore x none]) ∧
          s'.probing = run sqrt (3/10) (op ++ [.getBest c.draws.2.1, .adjustScore x none]) ∧
          s'.lns = run sqrt (3/10) (ol ++ [.getBest c.draws.1, .adjustScore x none])) ∧
      (DividesByZero (c.ans cfg) c.timeLimit →
        s.solveModel sqrt c.draws c.timeLimit c.ans = (some cfg, .error .zeroDivisionError, s') ∧
        s'.solveTimes = s.solveTimes ∧ s'.gaps = s.gaps) := by
  intro s
  obtain ⟨om, op, ol, h⟩ := exists_sInv sqrt hq calls
  obtain ⟨cfg, s', h1, h2, h3, h4, h5, ⟨hd, h6, h7, h8, h9⟩ | ⟨hd, h6, h7, h8, h9⟩⟩ := solveModel_spec sqrt hq h c
  · exact ⟨cfg, s', h1, h2, h3, h4, h5, fun hn => absurd hd hn, fun _ => ⟨h6, h7, h8⟩⟩
  · exact ⟨cfg, s', h1, h2, h3, h4, h5,
      fun _ => ⟨h6, h7, h8, om, op, ol, h.presolve.1, h.probing.1, h.lns.1, h9.presolve.1, h9.probing.1, h9.lns.1⟩,
      fun hn => absurd hn hd⟩

/-- Non-vacuity: a FEASIBLE answer with objective 8 and bound 10 gives the gap 1/5; the failing case is also inhabited. -/
example :
    (solveRun (K := ℚ) (fun _ => 0) [⟨(0, 0, 0), 30, fun _ => ⟨.feasible, 30, 8, 10⟩⟩]).gaps = [1/5] ∧
    ¬ DividesByZero (K := ℚ) ⟨.feasible, 30, 8, 10⟩ 30 ∧ DividesByZero (K := ℚ) ⟨.feasible, 30, 0, 0⟩ 30 := by
  refine ⟨by decide +kernel, ?_, ?_⟩ <;> simp [DividesByZero]

end Verif.Tuner
