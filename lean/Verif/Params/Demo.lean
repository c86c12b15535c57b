import Verif.Params.Props
import Verif.BDR.FitExamples

/-!
# A run that refutes C106, and the hypotheses of its theorems
-/

namespace Verif.Params.Demo

open BDR BDR.Demo

/-- `BooleanDecisionRuleClassifierWithHeuristic(C=10, p=1)`. -/
def args (n : String) : Ref :=
  if n = "max_iterations" then ⟨1, .int (-1)⟩
  else if n = "C" then ⟨2, .int 10⟩
  else if n = "p" then ⟨3, .int 1⟩
  else if n = "subproblem_params" then ⟨4, .texts [[""], [""]]⟩
  else if n = "rmp_solver" then ⟨5, .text "glop"⟩
  else if n = "subproblem_solver" then ⟨6, .text "cbc"⟩
  else ⟨7, .text ""⟩

def clf : Rule ℕ := ⟨ruleAttrs args, heuristicKinds 10, World.init 10 1 (heuristicKinds 10) 0, est0⟩

theorem clf_new : Rule.new true 0 est0 args = .ok clf := by
  have hC : (args "C").val.toRat = 10 := by decide +kernel
  have hp : (args "p").val.toRat = 1 := by decide +kernel
  unfold Rule.new
  rw [hC, hp]
  exact if_pos (by decide +kernel)

/-- The run of `fit` with the time limit `-1`. -/
theorem run_at : (fitNew oracle 10 1 (heuristicKinds 10) (-1) (-1) X 4 labels est0 0).map (fun r =>
      ((r.2.est.mpOptimal, Fit.Spec.numRmp r.2.trace), Fit.Spec.accPos r.2.trace,
        [r.2.world.master.clauseDict.map (·.2), r.2.world.master.explanation])) =
    some ((true, 2), [(0, 0), (0, 0)], [[[], [0], [1]], [[0], [1]]]) := by
  decide +kernel

theorem run_fit : ∃ s : Fit.St (World ℕ) (ℚ × List ℚ) Clause, fitNew oracle 10 1 (heuristicKinds 10) (-1) (-1) X 4 labels est0 0 = some (.ok (), s) ∧
    s.world.master.explanation = [[0], [1]] ∧ (∀ ω, MP.IsOptimal s.world.master.solver (oracle.ip s.world.master.solver ω).1) ∧
    clf.fit oracle X 4 labels = some (.ok (), ⟨clf.attrs, clf.kinds, s.world, s.est⟩) := by
  obtain ⟨s, hs, -, -, -, hip⟩ := run_hyps_at (-1) run_at
  have hrun := run_at
  rw [hs] at hrun
  simp only [Option.map_some, Option.some.injEq, Prod.mk.injEq, List.cons.injEq] at hrun
  refine ⟨s, hs, hrun.2.2.2.1, hip, ?_⟩
  have h := C106_fit_new clf_new oracle X 4 labels
  have hC : (args "C").val.toRat = 10 := by decide +kernel
  have hp : (args "p").val.toRat = 1 := by decide +kernel
  have hm : (args "max_iterations").val.toInt = -1 := by decide +kernel
  rw [hC, hp, hm] at h
  have hs' : fitNew oracle 10 1 (kindsOf true 10) (-1) (-1) X 4 labels est0 0 = some (.ok (), s) := hs
  rw [hs'] at h
  exact h

/-- C106 is false: after `set_params(C=3)` the classifier reports `C = 3`, `fit` succeeds with optimal solutions of its integer programs, and the
rule has complexity 4. -/
theorem C106_refuted : ∃ r : Rule ℕ, (clf.set [("C", ⟨8, .int 3⟩)]).1 = .ok () ∧
    (clf.set [("C", ⟨8, .int 3⟩)]).2.fit oracle X 4 labels = some (.ok (), r) ∧
    (∀ ω, MP.IsOptimal r.world.master.solver (oracle.ip r.world.master.solver ω).1) ∧
    (val r.attrs "C").toRat = 3 ∧ (r.world.master.explanation.map (fun k => 1 + (k.length : ℚ))).sum = 4 := by
  obtain ⟨s, -, he, hip, hfit⟩ := run_fit
  obtain ⟨f, -, hset, hget⟩ := C106_set_params clf_new [] "C" ⟨8, .int 3⟩ (by decide)
  refine ⟨⟨(clf.set [("C", ⟨8, .int 3⟩)]).2.attrs, clf.kinds, s.world, s.est⟩, hset, ?_, hip, ?_, ?_⟩
  · rw [C106_unread_ignored clf _ (by decide), hfit]
    rfl
  · change (val (clf.set [("C", ⟨8, .int 3⟩)]).2.attrs "C").toRat = 3
    decide +kernel
  · simp only [he]
    norm_num

/-- The clone of the classifier with `C = 3` is a classifier constructed with `C = 3`. -/
example : ∃ r, clone (ruleCls true 0 est0) id (clf.set [("C", ⟨8, .int 3⟩)]).2 = .ok r ∧
    r.world = World.init 3 1 (heuristicKinds 3) 0 := by
  obtain ⟨f, hf, h, -⟩ := C106_clone (ω' := 0) (e0' := est0) clf_new [.set [("C", ⟨8, .int 3⟩)]] id (fun _ => rfl)
  have hf' : getParams ruleNames (clf.set [("C", ⟨8, .int 3⟩)]).2.attrs = .ok (ruleNames.map fun n => (n, f n)) := hf
  have hc : getParams ruleNames (clf.set [("C", ⟨8, .int 3⟩)]).2.attrs =
      .ok (ruleNames.map fun n => (n, if n = "C" then ⟨8, .int 3⟩ else args n)) := by
    obtain ⟨g, hg, -, hg'⟩ := C106_set_params clf_new [] "C" ⟨8, .int 3⟩ (by decide)
    have h1 : getParams ruleNames clf.attrs = .ok (ruleNames.map fun n => (n, g n)) := hg
    rw [C106_get_params clf_new] at h1
    have h2 : ∀ n ∈ ruleNames, args n = g n := by
      intro n hn
      have := congrArg (fun l : Except Err (List (String × Ref)) => match l with | .ok l => l.lookup n | .error _ => none) h1
      simp only [lookup_map hn] at this
      exact Option.some.inj this
    refine hg'.trans (congrArg Except.ok (List.map_congr_left fun n hn => ?_))
    rw [h2 n hn]
  have hv : ∀ n ∈ ruleNames, f n = if n = "C" then ⟨8, .int 3⟩ else args n := by
    intro n hn
    rw [hc] at hf'
    have := congrArg (fun l : Except Err (List (String × Ref)) => match l with | .ok l => l.lookup n | .error _ => none) hf'
    simp only [lookup_map hn] at this
    exact (Option.some.inj this).symm
  have e1 := hv "subproblem_params" (by decide)
  have e2 := hv "C" (by decide)
  have e3 := hv "p" (by decide)
  obtain ⟨r, hr, -, -, hw, -⟩ := h (by rw [e1]; decide +kernel)
  refine ⟨r, hr, ?_⟩
  rw [hw, e2, e3]
  have hC : (if "C" = "C" then (⟨8, .int 3⟩ : Ref) else args "C").val.toRat = 3 := by decide +kernel
  have hp : (if "p" = "C" then (⟨8, .int 3⟩ : Ref) else args "p").val.toRat = 1 := by decide +kernel
  rw [hC, hp]
  rfl

/-- The hypotheses of `C106_complexity_partial` hold for this classifier. -/
example : ∃ r : Rule ℕ, clf.fit oracle X 4 labels = some (.ok (), r) ∧
    (r.world.master.explanation.map (fun k => 1 + (k.length : ℚ))).sum ≤ (val r.attrs "C").toRat := by
  obtain ⟨s, -, -, hip, hfit⟩ := run_fit
  exact ⟨_, hfit, C106_complexity_partial clf_new (X := X) rfl (by decide +kernel) (by decide +kernel) (by decide +kernel) hfit hip⟩

/-- A tree classifier whose assertions hold. -/
example : treeInit (fun _ => .ok ()) 100 args = .ok (treeAttrs 100 args) ∧
    getParams treeNames (treeAttrs 100 args) = .error .attributeError ∧
    clone (treeCls (fun _ => .ok ()) 100) id (treeAttrs 100 args) = .error (.raised .attributeError) := by
  refine ⟨rfl, C106_tree_get_params (fun _ => .ok ()) 100 args rfl, ?_⟩
  rcases C106_tree_clone (fun _ => .ok ()) 100 id (treeAttrs 100 args) with h | ⟨a, e, h, -⟩
  · exact h
  · cases h

end Verif.Params.Demo
