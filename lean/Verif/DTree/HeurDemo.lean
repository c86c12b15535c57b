import Verif.DTree.HeurProps
import Verif.DTree.SubDemo

/-!
# Concrete instances of the theorems about the pricing heuristic
-/

namespace Verif.DTree.Demo

open MP Spec

/-- Rows 1 and 3 are removed from the pricing problems, row 0 stands for two rows. -/
def hConf : HConf := ⟨fullLeaves 2, nodes, X, [0, 1, 0, 1], some sRows⟩

/-- Duals with `x` for every leaf. -/
def hDuals (x : ℚ) : Duals := ⟨[x, x, x, x], [1 / 2, 0, 1 / 4, 0], fun _ _ _ => some (1 / 8), [], []⟩

def hSt : HeurSt := ⟨splits, 0, 0, 0⟩

/-- A pseudo-random sequence; sets are listed in the order of their first occurrences. -/
def hDraws : Draws := ⟨fun i k => (i * 7 + k * 3 + i * k) / 2, fun l => l⟩

theorem noCuts : CutsFilled splits [] := by
  intro sp h
  have hn := (setup false).no_cuts sp h
  simp [hn]

theorem hOk (x : ℚ) : HeurOk 2 hConf splits [] (hDuals x) where
  depth := by norm_num
  tree := tree
  filled := (setup false).filled
  cutsFilled := noCuts
  rowDuals := rfl
  cutDuals := rfl
  nsDuals := fun _ _ _ _ _ _ => rfl

def hPaths (x : ℚ) : List (ℕ × List ℕ × ℚ × ℤ) :=
  match (hConf.generate (hDuals x) hDraws hSt).1 with
  | .ok l => l.map (fun p => (p.leafId, p.splits, p.cost, p.target))
  | _ => []

/-- C49: three paths are found. The last is followed by row 0, which counts twice, and row 2. -/
example : hPaths (1 / 8) = [(0, [3, 1], 1, 0), (2, [5, 1], 2, 0), (0, [3, 0], 3, 0)] := by decide +kernel

/-- C49: with negative duals of the leaves, paths that no row follows are found; their target is -1. -/
example : hPaths (-1) = [(0, [3, 1], 1, 0), (3, [5, 1], 0, -1), (3, [5, 0], 0, -1), (2, [5, 0], 0, -1), (2, [5, 1], 2, 0),
    (1, [1, 3], 0, -1), (1, [1, 2], 0, -1), (0, [3, 0], 3, 0)] := by decide +kernel

example (x : ℚ) := C49_heuristic (st := hSt) (hOk x) (dr := hDraws) (fun l => List.Perm.refl l)

/-- C49: a cut that the master problem has entered in the sets of the splits. -/
example := C49_update (cuts := []) (D := sDuals 1 [sCut]) (st := ⟨addCutsToSplits splits 0 [sCut], 0, 0, 0⟩)
  rfl (C39_add_cuts noCuts [sCut]).1
end Verif.DTree.Demo
