import Verif.DTree.Sub
import Verif.DTree.MasterSpec

/-!
# Vocabulary of the pricing properties of the decision tree classifier
-/

namespace Verif.DTree.Spec

/-- What `DTreeClassifier` passes to a pricing problem: a leaf of a tree of positive depth, candidate lists without repetition, encoded classes
`0, ..., m-1` in some order and labels among them. -/
structure SubOk (d : ℕ) (c : SubConf) : Prop where
  pos : 0 < d
  depth : c.depth = d
  leaf_lt : c.leaf.id < 2 ^ d
  leaf : c.leaf = createLeaf c.leaf.id d
  nodes : c.nodes.length = 2 ^ d - 1
  cand_nodup : ∀ n ∈ c.nodes, n.candidateSplits.Nodup
  targets : c.targets.Perm (List.range c.targets.length)
  y_lt : ∀ i < c.X.length, c.y.getD i 0 < c.targets.length

/-- The split pattern of row `i` of the data. -/
def rowPat (c : SubConf) (i : ℕ) : ℕ → Bool := rowLeft c.splits (c.X.getD i [])

/-- The split pattern of cut `k`. -/
def cutPat (cuts : List (List Bool)) (k s : ℕ) : Bool := (cuts.getD k []).getD s false

/-- Row `i` is not skipped by the pricing problem. -/
def Kept (c : SubConf) (i : ℕ) : Prop := i < c.X.length ∧ ∀ rows, c.dataRows = some rows → (rowAt rows i).removedFromSp = false

/-- The number of rows that row `i` stands for. -/
def rowWeight (c : SubConf) (i : ℕ) : ℚ := (c.dataRows.map (fun rows => ((rowAt rows i).weight : ℚ))).getD 1

open Classical in
/-- Sum over the kept rows with a property. -/
noncomputable def keptSum (c : SubConf) (P : ℕ → Prop) (f : ℕ → ℚ) : ℚ :=
  ((List.range c.X.length).map (fun i => if Kept c i ∧ P i then f i else 0)).sum

open Classical in
/-- Sum over the cuts with a property. -/
noncomputable def cutSum (n : ℕ) (P : ℕ → Prop) (f : ℕ → ℚ) : ℚ := ((List.range n).map (fun k => if P k then f k else 0)).sum

/-- The weighted number of kept rows of class `t` that follow the path. -/
noncomputable def hitsOf (d : ℕ) (c : SubConf) (p : Path) (t : ℤ) : ℚ :=
  keptSum c (fun i => Follows d (rowPat c i) p ∧ ((c.y.getD i 0 : ℕ) : ℤ) = t) (rowWeight c)

/-- The reduced cost of a path for given duals: its cost minus the duals of the constraints it takes part in. -/
noncomputable def redCost (d : ℕ) (c : SubConf) (cuts : List (List Bool)) (D : Duals) (p : Path) : ℚ :=
  p.cost - D.leaf.getD p.leafId 0 - keptSum c (fun i => Follows d (rowPat c i) p) (fun i => D.row.getD i 0) -
    cutSum cuts.length (fun k => Follows d (cutPat cuts k) p) (fun k => D.cut.getD k 0) -
    (p.pairs.map (fun q => (D.ns p.leafId q.1 q.2).getD 0)).sum

/-- The states of a pricing problem after any sequence of calls, with the cut rows it has received. The caller passes a dual for every cut
row delivered so far. -/
inductive SubReached (c : SubConf) : List (List Bool) → SubSt → Prop
  | new : SubReached c [] SubSt.new
  | update {cuts : List (List Bool)} {st st' : SubSt} (h : SubReached c cuts st) (D : Duals)
      (hD : D.cut.length = cuts.length + D.newCuts.length) (hu : c.update D st = (.ok (), st')) : SubReached c (cuts ++ D.newCuts) st'
  | price {cuts : List (List Bool)} {st : SubSt} (h : SubReached c cuts st) (D : Duals) (hD : D.cut.length = cuts.length)
      (sols : MP.Model → List (ℕ → ℚ)) : SubReached c cuts (c.generateSat D sols st).2

end Verif.DTree.Spec
