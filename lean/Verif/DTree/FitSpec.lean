import Verif.DTree.Fit
import Verif.DTree.LinkProps

/-!
# Vocabulary of the properties of `DTreeClassifier.fit`
-/

namespace Verif.DTree.Spec

open MP

variable {Ω : Type}

/-- Among the paths there is one for every leaf, and they agree on the split `σ n` of every node `n`. -/
def HasTree (d : ℕ) (paths : List Path) (σ : ℕ → ℕ) (P : ℕ → Path) : Prop :=
  ∀ l < 2 ^ d, P l ∈ paths ∧ (P l).leafId = l ∧ ∀ q ∈ (P l).pairs, q.2 = σ q.1

/-- What the caller must provide: a tree of positive depth, distinct splits that know the rows of the data, initial paths over candidate splits
which contain a tree, and as many classes as targets, `py` being the encoded labels. A row removed from the pricing problems is removed from
the master problem; the old pricing class needs positive weights. -/
structure FitOk (d : ℕ) (A : Args) (X : List (List ℚ)) (py : List ℕ) : Prop where
  setup : Setup d (A.masterConf X) A.splits A.dataRows
  depth : A.depth = d
  distinct : Distinct A.splits
  good : ∀ p ∈ A.paths, GoodPath d A.splits p
  cand : ∀ p ∈ A.paths, UsesCand A.nodes p
  tree : ∃ σ P, HasTree d A.paths σ P
  targets : A.targets.Perm (List.range A.targets.length)
  y_lt : ∀ i < X.length, py.getD i 0 < A.targets.length
  removed : ∀ rows, A.dataRows = some rows → ∀ r, (rowAt rows r).removedFromSp = true → (rowAt rows r).removedFromMaster = true
  weights : A.useOld = true → ∀ rows, A.dataRows = some rows → ∀ r < X.length, (rowAt rows r).removedFromSp = false → 1 ≤ (rowAt rows r).weight

/-- The initial paths as stored in the master problem. -/
def marked (A : Args) : List Path := A.paths.map (fun p => { p with initial := true })

/-- The states that the master problem can be in. -/
abbrev MasterState (d : ℕ) (A : Args) (X : List (List ℚ)) (o : FitOracle Ω) : MS → Prop :=
  Reached d (A.masterConf X) o.master (marked A) A.splits A.dataRows

/-- Contracts of the solvers and of the random draws. A master problem with a bounded and feasible relaxation is reported `OPTIMAL` with
optimal duals (up to `tol`); an integer master with a solution is reported `OPTIMAL` or `FEASIBLE`, with a solution; solutions of the pricing
problems satisfy their constraints; a set is listed without repetition or omission. -/
structure FitContract (d : ℕ) (A : Args) (X : List (List ℚ)) (o : FitOracle Ω) (tol : ℚ) : Prop where
  tol_nonneg : 0 ≤ tol
  tol_le : tol ≤ 1 / 1000000
  cut : CutSound o.master
  lp : ∀ s, MasterState d A X o s → (∃ a, s.m.FeasibleLP a) → (∃ B, ∀ a, s.m.FeasibleLP a → s.m.value a ≤ B) →
    ∀ k, (o.master.lp s.m k).status = .optimal ∧ OptimalDuals s.m tol (o.master.lp s.m k)
  ip : ∀ s, MasterState d A X o s → (∃ a, s.m.Feasible a) → (∃ B, ∀ a, s.m.Feasible a → s.m.value a ≤ B) →
    (o.master.ip s.m).status = .optimal ∨ (o.master.ip s.m).status = .feasible
  ipSound : IpSound o.master
  draws : ∀ ω, Draws.Ok (o.draws ω).1
  sols : ∀ m ω, ∀ a ∈ (o.sols m ω).1, m.Feasible a
  mip : ∀ m ω, (o.mip m ω).1.status = .optimal ∨ (o.mip m ω).1.status = .feasible → IsSolution m (o.mip m ω).1

/-- Data, weights, splits and classes as the pricing problems see them. -/
def Args.base (A : Args) (d : ℕ) (X : List (List ℚ)) (py : List ℕ) : SubConf := A.subConf X py .sat (createLeaf 0 d)

/-- What is claimed about a generated path: a path of the tree over candidate splits whose cost is an integer that is at most its weighted number
of hits, with one of the classes as target; or target `-1`, cost 0, and no row with positive weight follows it. -/
structure ColOk (d : ℕ) (A : Args) (X : List (List ℚ)) (py : List ℕ) (p : Path) : Prop where
  good : GoodPath d A.splits p
  cand : UsesCand A.nodes p
  nat : ∃ n : ℕ, p.cost = n
  hits : p.cost ≤ hitsOf d (Args.base A d X py) p p.target
  target : (∃ t ∈ A.targets, p.target = (t : ℤ)) ∨
    (p.target = -1 ∧ p.cost = 0 ∧ ∀ r, Kept (Args.base A d X py) r → 0 < rowWeight (Args.base A d X py) r →
      ¬ Follows d (rowPat (Args.base A d X py) r) p)

end Verif.DTree.Spec
