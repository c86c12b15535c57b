import Verif.DTree.StartProps
import Verif.DTree.FitDemo

/-! # Examples for C111 -/

namespace Verif.DTree.Demo

open Spec

/-- The tree of `qArgs` with other initial paths. -/
def startArgs (ps : List Path) : Args := ⟨ps, fullLeaves 1, qNodes, qSplits, 1, [0, 1], 2, false, true, some qRows, false⟩

theorem startSetup (ps : List Path) : Setup 1 ((startArgs ps).masterConf qX) (startArgs ps).splits (startArgs ps).dataRows := qSetup

/-- Exact solvers. -/
noncomputable def startO : FitOracle Unit := exact (fun ω => (0, ω)) (fun ω => (⟨fun i _ => i, id⟩, ω)) (fun _ _ => [])

theorem startO_lp : LpFeasible startO.master := by
  intro m k h
  change (exactLp m).status = _ at h
  change m.FeasibleLP (exactLp m).values
  unfold exactLp at *
  split at h
  · rename_i hx
    rw [dif_pos hx]
    exact hx.choose_spec.2.1.1
  · cases h

theorem startO_ip : IpSound startO.master := fun m h => (exactIp_sound m h).1

/-- C111 without paths and with paths of the first leaf only: no call succeeds. -/
example (y : List ℤ) (maxIt : ℤ) (limit : ℚ) (fuel : ℕ) :
    (∃ e s, fitNewS startO (startArgs []) maxIt limit qX (fuel + 1) y est0 () = some (.error e, s) ∧ s.est.isFitted = false ∧ s.world.master.paths = []) ∧
    ∃ e s, fitNewS startO (startArgs [⟨0, [0], [0], 2, 0, 0, true⟩]) maxIt limit qX (fuel + 1) y est0 () = some (.error e, s) ∧ s.est.isFitted = false ∧
      s.world.master.paths.length = 1 :=
  ⟨C111_no_paths rfl startO startO_lp startO_ip (startSetup []) maxIt limit fuel y est0 (),
    C111_infeasible_start (d := 1) (by norm_num) (startSetup _).tree startO startO_lp startO_ip (.new ())
      (C111_missing_leaf (startSetup _) (by decide +kernel) (l := 1) (by norm_num) (by decide +kernel)) maxIt limit fuel y est0⟩

/-- C111 with a path for each leaf, but with different splits at the root. -/
example (y : List ℤ) (maxIt : ℤ) (limit : ℚ) (fuel : ℕ) :
    ∃ e s, fitNewS startO (startArgs [⟨0, [0], [0], 2, 0, 0, true⟩, ⟨1, [0], [1], 0, 0, 1, true⟩]) maxIt limit qX (fuel + 1) y est0 () = some (.error e, s) ∧
      s.est.isFitted = false ∧ s.world.master.paths.length = 2 :=
  C111_infeasible_start (d := 1) (by norm_num) (startSetup _).tree startO startO_lp startO_ip (.new ())
    (C111_no_common_split (startSetup _) (by decide +kernel) (by decide +kernel) (l := 0) (l' := 1) (k := 0) (k' := 0) (by norm_num) (by norm_num) (by norm_num)
      (by norm_num) (by decide +kernel) (by
        intro p hp q hq h1 h2 t h3 h4
        have h5 : ∀ p ∈ (startArgs [⟨0, [0], [0], 2, 0, 0, true⟩, ⟨1, [0], [1], 0, 0, 1, true⟩]).paths, ∀ q ∈ (startArgs [⟨0, [0], [0], 2, 0, 0, true⟩,
            ⟨1, [0], [1], 0, 0, 1, true⟩]).paths, p.leafId = 0 → q.leafId = 1 → ∀ a ∈ p.pairs, a ∉ q.pairs := by decide +kernel
        exact h5 p hp q hq h1 h2 _ h3 h4)) maxIt limit fuel y est0

end Verif.DTree.Demo
