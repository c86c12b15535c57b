import Verif.DTree.Spec
import Verif.DTree.Master
import Verif.DTree.TreeProps

/-!
# The program that the restricted master of the decision tree classifier is documented to be

Paths have a nonnegative variable each, one path (in total) is chosen per leaf, and the paths of all leaves below a node agree on the split
used at the node, expressed through shared variables `ρ`. Added rows and cuts bound the paths followed by a split pattern.
-/

namespace Verif.DTree.Spec

open Classical in
/-- The sum of the variables of the paths with a property. -/
noncomputable def pathSum (paths : List Path) (a : ℕ → ℚ) (P : Path → Prop) : ℚ := ((paths.filter (fun p => decide (P p))).map (fun p => a p.id)).sum

/-- The split pattern recorded for cut `k`. -/
def cutLeft (splits : List Split) (k s : ℕ) : Bool := decide (k ∈ (splitAt splits s).leftCuts)

/-- The documented program of a master problem in state `s`. -/
structure MasterFeasible (d : ℕ) (c : Conf) (s : MS) (a : ℕ → ℚ) : Prop where
  path_nonneg : ∀ p ∈ s.paths, 0 ≤ a p.id
  rho_nonneg : ∀ n t v, s.nsVars n t = some v → 0 ≤ a v
  leaf : ∀ l < 2 ^ d, pathSum s.paths a (fun p => p.leafId = l) = 1
  consistent : ∀ l < 2 ^ d, ∀ k < d, ∀ t ∈ cand c.nodes (anc d l k), ∃ v, s.nsVars (anc d l k) t = some v ∧
    pathSum s.paths a (fun p => p.leafId = l ∧ (anc d l k, t) ∈ p.pairs) = a v
  rows : ∀ r < c.X.length, s.addedRow.getD r false = true →
    pathSum s.paths a (Follows d (rowLeft s.splits (c.X.getD r []))) ≤ 1
  cuts : ∀ k < s.cutCons.length, pathSum s.paths a (Follows d (cutLeft s.splits k)) = 1

/-- The part of the documented program without row constraints and cuts. -/
structure Core (d : ℕ) (c : Conf) (s : MS) (a : ℕ → ℚ) : Prop where
  path_nonneg : ∀ p ∈ s.paths, 0 ≤ a p.id
  rho_nonneg : ∀ n t v, s.nsVars n t = some v → 0 ≤ a v
  leaf : ∀ l < 2 ^ d, pathSum s.paths a (fun p => p.leafId = l) = 1
  consistent : ∀ l < 2 ^ d, ∀ k < d, ∀ t ∈ cand c.nodes (anc d l k), ∃ v, s.nsVars (anc d l k) t = some v ∧
    pathSum s.paths a (fun p => p.leafId = l ∧ (anc d l k, t) ∈ p.pairs) = a v

/-- What the callers of the master problem must provide: a tree of positive depth whose splits know the rows of the data, and rows of data
(if given) without recorded paths. -/
structure Setup (d : ℕ) (c : Conf) (splits : List Split) (dataRows : Option (List Row)) : Prop where
  depth : 0 < d
  tree : Tree d c.leaves c.nodes splits
  filled : RowsFilled splits c.X
  no_cuts : ∀ sp ∈ splits, sp.leftCuts = [] ∧ sp.rightCuts = []
  rows : ∀ rows, dataRows = some rows → rows.length = c.X.length ∧ ∀ r ∈ rows, r.reachablePaths = []

/-- A path of the tree with known splits. -/
def GoodPath (d : ℕ) (splits : List Split) (p : Path) : Prop := WFPath d p ∧ ∀ t ∈ p.splits, t < splits.length

/-- Every solution that the cut generation run passes to its callback satisfies the constraints of the cut generation model. -/
def CutSound (o : Oracle) : Prop := ∀ cp k, ∀ a ∈ o.cut cp k, cp.Holds a

/-- States of a master problem after `generate_mp` and any sequence of calls. -/
inductive Reached (d : ℕ) (c : Conf) (o : Oracle) (paths : List Path) (splits : List Split) (dataRows : Option (List Row)) : MS → Prop
  | generate {s : MS} (h : generateMp c (MS.init paths splits dataRows) = (.ok (), s)) : Reached d c o paths splits dataRows s
  | again {s : MS} (h : Reached d c o paths splits dataRows s) : Reached d c o paths splits dataRows (generateMp c s).2
  | column {s : MS} (h : Reached d c o paths splits dataRows s) (p : Path) (hp : GoodPath d splits p) :
      Reached d c o paths splits dataRows (addColumn c p s).2
  | beta {s : MS} (h : Reached d c o paths splits dataRows s) : Reached d c o paths splits dataRows (addBetaCuts c s).2
  | cuts {s : MS} (h : Reached d c o paths splits dataRows s) : Reached d c o paths splits dataRows (addCuts o s).2
  | rmp {s : MS} (h : Reached d c o paths splits dataRows s) : Reached d c o paths splits dataRows (solveRmp c o s).2
  | ip {s : MS} (h : Reached d c o paths splits dataRows s) : Reached d c o paths splits dataRows (solveIp o s).2

end Verif.DTree.Spec
