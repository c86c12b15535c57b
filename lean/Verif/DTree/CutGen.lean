import Verif.DTree.Master

/-!
# Model of the class `CutGenerator` as an object with callbacks

`Verif.DTree.Master` has the list of recorded cuts only (`cutCallback`). Here the object has all its attributes, the loops run over indices,
and `self.orig_path_coeffs[i]` can raise.
-/

namespace Verif.DTree

/-- The attributes of a `CutGenerator`, `_dtree_classifier.py:500-508`. Variables are indices. -/
structure CutGen where
  pathVars : List ℕ
  splitVars : List ℕ
  solutionCount : ℕ
  cuts : List (List Bool)
  cutRows : List (List Bool)
  coeffs : List ℚ
deriving DecidableEq

namespace CutGen

/-- `CutGenerator(path_vars, split_vars, orig_path_coeffs)`, `_dtree_classifier.py:500-508`. -/
def new (pathVars splitVars : List ℕ) (coeffs : List ℚ) : CutGen := ⟨pathVars, splitVars, 0, [], [], coeffs⟩

/-- The first loop of `on_solution_callback`, `_dtree_classifier.py:515-519`; state (orig_obj, cut). -/
def pathLoop (g : CutGen) (val : ℕ → ℤ) : List ℕ → ℚ × List Bool → Except Err (ℚ × List Bool)
  | [], st => .ok st
  | i :: rest, st =>
    if val (g.pathVars.getD i 0) > 0 then
      match g.coeffs[i]? with
      | none => .error .indexError
      | some c => pathLoop g val rest (st.1 + c, st.2.set i true)
    else pathLoop g val rest st

/-- The second loop of `on_solution_callback`, `_dtree_classifier.py:520-523`. -/
def splitLoop (g : CutGen) (val : ℕ → ℤ) : List ℕ → List Bool → List Bool
  | [], row => row
  | i :: rest, row => if val (g.splitVars.getD i 0) > 0 then splitLoop g val rest (row.set i true) else splitLoop g val rest row

/-- `on_solution_callback`, `_dtree_classifier.py:510-526`; `val` is `self.Value`. Sums are exact. -/
def callback (g : CutGen) (val : ℕ → ℤ) : Except Err Unit × CutGen :=
  let g1 := { g with solutionCount := g.solutionCount + 1 }
  match g1.pathLoop val (List.range g.pathVars.length) (0, List.replicate g.pathVars.length false) with
  | .error e => (.error e, g1)
  | .ok (obj, cut) =>
    let row := g1.splitLoop val (List.range g.splitVars.length) (List.replicate g.splitVars.length false)
    if obj > 1 + eps then
      (.ok (), { g1 with
        cuts := g1.cuts ++ [cut]
        cutRows := g1.cutRows ++ [row] })
    else (.ok (), g1)

/-- `cuts()`, `_dtree_classifier.py:531-532`. -/
def getCuts (g : CutGen) : List (List Bool) × List (List Bool) := (g.cuts, g.cutRows)

/-- What a name of an object stands for: a number, another object that cannot be called, or a method. -/
inductive Attr where
  | int (n : ℕ)
  | object
  | method
deriving DecidableEq

/-- The attributes that `__init__` assigns, `_dtree_classifier.py:503-508`. -/
def instanceDict (g : CutGen) : List (String × Attr) :=
  [("path_vars", .object), ("split_vars", .object), ("solution_count", .int g.solutionCount), ("cuts_", .object), ("cut_rows", .object),
    ("orig_path_coeffs", .object)]

/-- The methods of the class, `_dtree_classifier.py:500-532`. -/
def classDict : List (String × Attr) := [("__init__", .method), ("on_solution_callback", .method), ("solution_count", .method), ("cuts", .method)]

/-- `getattr`: attributes of the object come before methods of the class (which are not data descriptors). The attributes of the base class are left out. -/
def getAttr (g : CutGen) (name : String) : Option Attr := (g.instanceDict.lookup name).orElse fun _ => classDict.lookup name

/-- The call `g.solution_count()` with the method of lines 528-529: a number cannot be called, and a missing attribute raises as well. The method returns what the attribute is. -/
def callSolutionCount (g : CutGen) : Except Err ℕ :=
  match g.getAttr "solution_count" with
  | some .method => .ok g.solutionCount
  | some _ => .error .typeError
  | none => .error .attributeError

/-- A search passes solutions one after the other; the first exception ends it. -/
def run : CutGen → List (ℕ → ℤ) → Except Err Unit × CutGen
  | g, [] => (.ok (), g)
  | g, v :: vs =>
    match g.callback v with
    | (.error e, g') => (.error e, g')
    | (.ok _, g') => run g' vs

end CutGen

end Verif.DTree
