import Verif.DTree.Model

/-!
# Vocabulary of the decision tree properties

Complete binary trees in heap numbering, independent of the loops of the program: node 0 is the root, the children of node `i` are
`2i+1` (left) and `2i+2` (right), so level `k` holds the nodes `2^k - 1, ..., 2^(k+1) - 2`, and leaf `l` of a tree of depth `d` is the
position `2^d - 1 + l`.
-/

namespace Verif.DTree.Spec

/-- The node at level `k` on the way from the root to leaf `l` of a tree of depth `d`. -/
def anc (d l k : ℕ) : ℕ := 2 ^ k - 1 + l / 2 ^ (d - k)

/-- The way to leaf `l` leaves level `k` to the left: the `k`-th most significant of the `d` bits of `l` is 0. -/
def goesLeft (d l k : ℕ) : Bool := !l.testBit (d - 1 - k)

/-- Walking down from the root, going left at node `n` iff `left n`: the position after `k` steps. -/
def walk (left : ℕ → Bool) : ℕ → ℕ
  | 0 => 0
  | k + 1 => if left (walk left k) then 2 * walk left k + 1 else 2 * walk left k + 2

/-- The leaf reached in a tree of depth `d`. -/
def walkLeaf (left : ℕ → Bool) (d : ℕ) : ℕ := walk left d - (2 ^ d - 1)

/-- The row takes the left branch of the split. -/
def takesLeft (row : List ℚ) (sp : Split) : Bool := decide (feat row sp.feature ≤ sp.threshold)

/-- The nodes of the path are the nodes on the way to its leaf in a tree of depth `d`, in any order, and each has a split. -/
structure WFPath (d : ℕ) (p : Path) : Prop where
  leaf_lt : p.leafId < 2 ^ d
  nodes : p.nodeIds.Perm ((List.range d).map (anc d p.leafId))
  splits : p.splits.length = d

/-- A split pattern (which splits are taken to the left) follows the path in a tree of depth `d`: at each node of the path it goes the
way the path goes. -/
def Follows (d : ℕ) (left : ℕ → Bool) (p : Path) : Prop :=
  ∀ k < d, ∀ s, (anc d p.leafId k, s) ∈ p.pairs → left s = goesLeft d p.leafId k

/-- The leaves of a tree of depth `d`. -/
def fullLeaves (d : ℕ) : List Leaf := (List.range (2 ^ d)).map (fun l => createLeaf l d)

/-- A tree of depth `d` with candidate splits: the arguments of `DTreeMasterProblem`. -/
structure Tree (d : ℕ) (leaves : List Leaf) (nodes : List Node) (splits : List Split) : Prop where
  leaves : leaves = fullLeaves d
  nodes_length : nodes.length = 2 ^ d - 1
  node_id : ∀ i (n : Node), nodes[i]? = some n → n.id = i
  split_id : ∀ i (s : Split), splits[i]? = some s → s.id = i
  cand_lt : ∀ n ∈ nodes, ∀ s ∈ n.candidateSplits, s < splits.length
  cand_nodup : ∀ n ∈ nodes, n.candidateSplits.Nodup

/-- The candidate splits of node `n`. -/
def cand (nodes : List Node) (n : ℕ) : List ℕ := (nodes[n]?.map (·.candidateSplits)).getD []

/-- Every split of the path is a candidate of its node. -/
def UsesCand (nodes : List Node) (p : Path) : Prop := ∀ q ∈ p.pairs, q.2 ∈ cand nodes q.1

/-- Some choice of candidate splits at the nodes above sends a row with split pattern `left` to the level-`k` node on the way to leaf
`l` (for `k = d`: to the leaf itself). -/
def CanReach (d : ℕ) (nodes : List Node) (left : ℕ → Bool) (l k : ℕ) : Prop :=
  ∀ i < k, ∃ s ∈ cand nodes (anc d l i), left s = goesLeft d l i

end Verif.DTree.Spec
