import Verif.Exp.ReportProps
import Verif.DTree.FitDemo

/-!
# A run with its result report (C90)

The theorems of C90 need no assumption on the solvers. Here the LP solver always answers with zeros: the heuristic then finds columns, and in
the tenth LP solve rows are violated and enter as cuts.
-/

namespace Verif.Exp.Demo

open Verif.DTree Verif.DTree.Demo Fit.Spec MP

/-- Every reading of the clock takes one unit of time. -/
def rO : FitOracle ℕ where
  clock k := (k, k + 1)
  draws k := (⟨fun i j => if j = 0 then i else i / 2, fun l => if k % 3 = 0 then [] else l⟩, k + 1)
  sols _ k := ([qSatBest 0], k + 3)
  mip _ k := (noAnswer, k)
  master := ⟨fun _ _ => ⟨.optimal, fun _ => 0, fun _ => 0, 0⟩, fun _ _ => [], fun _ => ⟨.feasible, fun v => if v < 2 then 1 else 0, fun _ => 0, 0⟩⟩

def rArgs : Args := { qArgs with
  betaAsCuts := true
  generateCuts := false }

def rRun : Option (Except Err Unit × Fit.St (World ℕ) Duals Path) := fitNew rO rArgs 3 0 qX 20 qy est0 0

/-- The hidden state is the true time. -/
theorem rTime : RealTime (env rO rArgs qX) (fun w => (w.ω : ℚ)) where
  clock w := ⟨le_refl _, by simp [env, rO]⟩
  generateMp _ w := le_refl _
  solveRmp w := le_refl _
  improved w := le_refl _
  update l i D w := by
    change (w.ω : ℚ) ≤ (updateAt rArgs qX l i D w).2.ω
    unfold updateAt
    split
    · exact le_refl _
    · split <;> exact le_refl _
  generate l i D w := by
    change (w.ω : ℚ) ≤ (generateAt rO rArgs qX l i D w).2.ω
    unfold generateAt priceAt
    split
    · simp [rO]
    · split
      · exact le_refl _
      · split <;> simp [rO]
  addColumn _ w := le_refl _
  solveIp w := le_refl _

/-- What is reported. -/
def rShown : Option (List ℚ × List ℕ × ℕ × ℕ) :=
  match rRun with
  | some (.ok _, s) =>
    match report rArgs s qX qy qX qy with
    | .ok R => some ([R.trainAccuracy, R.testAccuracy, R.trainingTime, R.masterTime, R.spTimeHeuristic, R.spTimeIp, R.colAddTime,
        R.masterIpTime, R.hitRate], [R.masterNumCuts, R.spColsHeuristic, R.spColsIp, R.totalIterations, R.numImproving],
        s.world.master.paths.length, heurCalls s.trace)
    | .error _ => none
  | _ => none

/-- 6 columns of the heuristic and one of the exact problems in 3 iterations, 7 more paths than the initial 4; two of 100 rounds of the
heuristic succeed. -/
theorem rShown_eq : rShown = some ([1, 1, 60, 3, 9, 10, 4, 1, 1 / 50], [0, 6, 1, 3, 0], 11, 3) := by decide +kernel

theorem rRun_report : ∃ s R, rRun = some (.ok (), s) ∧ report rArgs s qX qy qX qy = .ok R ∧ R.spColsHeuristic = 6 ∧
    R.trainingTime = 60 ∧ s.world.master.paths.length = 11 := by
  have h := rShown_eq
  unfold rShown at h
  split at h
  · next s hs =>
    split at h
    · next R hR =>
      simp only [Option.some.injEq, Prod.mk.injEq, List.cons.injEq] at h
      obtain ⟨⟨_, _, h1, _⟩, ⟨_, h3, _⟩, h4, _⟩ := h
      exact ⟨s, R, hs, hR, h3, h1, h4⟩
    · cases h
  · cases h

/-- C90 on this run. -/
example : ∃ s R, rRun = some (.ok (), s) ∧ report rArgs s qX qy qX qy = .ok R ∧
    s.world.master.paths.length = rArgs.paths.length + R.spColsHeuristic + R.spColsIp ∧
    R.hitRate = (R.spColsHeuristic : ℚ) / ((100 * heurCalls s.trace : ℕ) : ℚ) ∧ R.masterNumCuts = (addedRows s qX.length).length ∧
    R.masterTime + R.spTimeHeuristic + R.spTimeIp + R.colAddTime + R.masterIpTime ≤ R.trainingTime ∧ R.trainAccuracy ≤ 1 := by
  obtain ⟨s, R, h1, h2, -⟩ := rRun_report
  exact ⟨s, R, h1, h2, C90_columns h1 h2, (C90_hit_rate h1 h2).1, C90_cuts h1 h2 rfl rfl, (C90_times h1 h2 rTime).2.2.2.2.2,
    (C90_accuracies h2).2.1⟩

/-- The master problem of this run after ten LP solves (without new columns). -/
def tenSolves : MS := (List.range 10).foldl (fun s _ => (solveRmp (rArgs.masterConf qX) rO.master s).2)
  (generateMp (rArgs.masterConf qX) (World.init rArgs 0).master).2

/-- The invariant behind `C90_cuts` when there are cuts: two rows are violated in the tenth solve. -/
example : Counted (rArgs.masterConf qX) tenSolves ∧ tenSolves.totalCuts = 2 ∧ tenSolves.addedRow = [true, true, false] := by
  refine ⟨?_, by decide +kernel, by decide +kernel⟩
  have h : ∀ (l : List ℕ) (s : MS), Counted (rArgs.masterConf qX) s →
      Counted (rArgs.masterConf qX) (l.foldl (fun s _ => (solveRmp (rArgs.masterConf qX) rO.master s).2) s) := by
    intro l
    induction l with
    | nil => intro s h; exact h
    | cons _ l ih => intro s h; exact ih _ (solveRmp_counts _ _ _ h).1
  exact h _ _ ((generateMp_counts _ _).2 rfl ((tally_init rArgs qX 0).cuts rfl))

end Verif.Exp.Demo
