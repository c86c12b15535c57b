import Verif.DTree.ScheduleProps
import Verif.DTree.FitDemo

/-!
# Concrete cases for C128
-/

namespace Verif.DTree.ScheduleDemo

open Spec Demo MP Fit Fit.Spec

/-- An LP solver that stays at a fractionless point violating any cut, and a cut solver that always finds one. -/
def cutter : Oracle := ⟨fun _ _ => ⟨.optimal, fun i => if i ∈ [0, 3] then 1 else 0, qDual, 0⟩, fun _ _ => [fun _ => true], qOracle.ip⟩

/-- The generated master problem after `k` solves. -/
def after (k : ℕ) : MS := { (generateMp qConf (MS.init qPaths qSplits (some qRows))).2 with iter := k }

/-- `C128_solve_rmp` applies in both cases, and its bounds are attained: the tenth call solves three times and runs the cut generation twice
(`num_cuts_round` is 2), the ninth call once and not at all, although the solver would find a cut. -/
example : (after 9).generated = true ∧ 10 ∣ (after 9).iter + 1 ∧ (solveRmp qConf cutter (after 9)).2.lpCalls = (after 9).lpCalls + 1 + qConf.numCutsRound ∧
    (solveRmp qConf cutter (after 9)).2.cutCalls = (after 9).cutCalls + qConf.numCutsRound ∧ (solveRmp qConf cutter (after 9)).2.totalCuts = 2 ∧
    ((solveRmp qConf cutter (after 9)).1.toOption.map (·.newCuts)) = some [[true, true], [true, true]] ∧
    (after 8).generated = true ∧ ¬ 10 ∣ (after 8).iter + 1 ∧ (solveRmp qConf cutter (after 8)).2.lpCalls = 1 := by decide +kernel

example : (solveRmp qConf cutter (after 8)).2.cutCons = (after 8).cutCons :=
  (C128_solve_rmp qConf cutter (s := after 8) (by decide +kernel)).choose_spec.2.2.2.1 (by decide +kernel) |>.1.cutCons

example : tens 0 9 = 0 ∧ tens 0 10 = 1 ∧ tens 9 1 = 1 ∧ tens 3 27 = 3 := by decide +kernel

/-- Other values of the two arguments. -/
def qArgs' : Args := { qArgs with
  cutsRound := 7
  generateCuts := false }

/-- Another cut generation solver. -/
noncomputable def qO' : FitOracle Unit := { qO with master := ⟨qO.master.lp, cutter.cut, qO.master.ip⟩ }

/-- `C128_short_runs` applies to the run of C71 and gives the run with the other arguments and solver. -/
example : ∃ s, qRun = some (.ok (), s) ∧ fitNew qO' qArgs' 5 100 qX 10 qy est0 () = some (.ok (), s) ∧ s.world.master.totalCuts = 0 := by
  obtain ⟨s, hs, -⟩ := returned_spec qRun_facts
  have h := C128_short_runs (A' := qArgs') (o' := qO') ⟨7, false, rfl⟩ ⟨cutter.cut, rfl⟩ qX (by norm_num) (by norm_num) 100 hs
  exact ⟨s, hs, h.1, h.2.1⟩

/-- The solvers of a run with cuts. -/
noncomputable def cO : FitOracle Unit := ⟨fun _ => (0, ()), qO.draws, fun _ _ => ([], ()), fun _ _ => (⟨.other, fun _ => 0, fun _ => 0, 0⟩, ()), cutter⟩

/-- A classifier whose master problem was solved `k` times by earlier `fit` calls. -/
def old (k : ℕ) : World Unit := { World.init qArgs () with master := { (World.init qArgs ()).master with iter := k } }

noncomputable def cRun (k : ℕ) : Option (Except Err Unit × St (World Unit) Duals Path) :=
  fit (env cO qArgs qX) (config qArgs 1 0) 5 qy est0 (old k)

/-- The bounds of `C128_schedule` are attained by a run of one iteration: the counter of an earlier `fit` decides whether cuts are generated. -/
example : returned (cRun 9) (fun s => decide (numRmp s.trace = 1 ∧ tens 9 1 = 1 ∧ s.world.master.iter = 10 ∧ s.world.master.lpCalls = 1 + 2 * 1 ∧
      s.world.master.cutCalls = 2 * 1 ∧ s.world.master.totalCuts = 2)) = true ∧
    returned (cRun 8) (fun s => decide (numRmp s.trace = 1 ∧ tens 8 1 = 0 ∧ s.world.master.iter = 9 ∧ s.world.master.lpCalls = 1 ∧
      s.world.master.cutCalls = 0 ∧ s.world.master.totalCuts = 0)) = true := by decide +kernel

end Verif.DTree.ScheduleDemo
