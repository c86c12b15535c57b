import Verif.BDR.Sparse
import Verif.DTree.Narrow

/-!
# Property C129 (trees): `predict` on sparse matrices

See `Verif/BDR/Sparse.lean` for the rows of a SciPy `csr_matrix`. A fitted tree has a question at its root, so `predict` raises on every sparse matrix
with more than one column.
-/

set_option linter.unusedSectionVars false

namespace Verif.DTree

open MP Spec
open Fit.Spec
open Verif.BDR (Plain firstFault_plain safe_append Plain.append)

/-! ## Model -/

/-- The loop of `row_satisfies_path`, `_dtree_classifier.py:442-452`, on a row of a `csr_matrix`. The accesses `splits[split_ids[i]]` do not fail after
`fit` (`C104_predict`) and are not checked. -/
def rowLoopSp (row : List ℚ) (leaf : Leaf) (splits : List Split) : List (ℕ × ℕ) → Except Err Bool
  | [] => .ok true
  | (n, s) :: rest =>
    let split := splitAt splits s
    match (if n ∈ leaf.leftNodes then sparseIf row split.feature (fun x => decide (x > split.threshold))
      else sparseIf row split.feature (fun x => decide (x ≤ split.threshold))) with
    | .error e => .error e
    | .ok true => .ok false
    | .ok false => rowLoopSp row leaf splits rest

/-- The inner loop of `predict`, `_dtree_classifier.py:2540-2544`. -/
def predictRowSp (leaves : List Leaf) (splits : List Split) (row : List ℚ) : List Path → Except Err ℤ
  | [] => .ok 0
  | p :: ps => match rowLoopSp row (leafAt leaves p.leafId) splits p.pairs with
    | .error e => .error e
    | .ok true => .ok p.target
    | .ok false => predictRowSp leaves splits row ps

/-- `predict` of a fitted classifier, `_dtree_classifier.py:2519-2545`, of a `csr_matrix` with the rows `R`. -/
def predictFittedSp {Ω : Type} (A : Args) (s : Fit.St (World Ω) Duals Path) (R : List (List ℚ)) : Except Err (List ℤ) :=
  match R.mapM (fun row => predictRowSp A.leaves s.world.master.splits row s.world.master.selected) with
  | .error e => .error e
  | .ok ys => Sk.inverseTransform s.est.classes ys

/-! ## Lemmas -/

theorem rowLoopSp_wide {row : List ℚ} (h : 2 ≤ row.length) (leaf : Leaf) (splits : List Split) (q : ℕ × ℕ) (rest : List (ℕ × ℕ)) :
    rowLoopSp row leaf splits (q :: rest) = .error (sparseErr (splitAt splits q.2).feature) := by
  obtain ⟨n, s⟩ := q
  rw [rowLoopSp]
  simp only [sparseIf_wide h, ite_self]

theorem rowLoopSp_one {row : List ℚ} (h : row.length = 1) (leaf : Leaf) (splits : List Split) : ∀ (l : List (ℕ × ℕ)),
    (Safe (loopReads row leaf splits l) → rowLoopSp row leaf splits l = .ok (rowLoop row leaf splits l)) ∧
    (¬ Safe (loopReads row leaf splits l) → rowLoopSp row leaf splits l = .error .indexError)
  | [] => ⟨fun _ => rfl, fun h => absurd Safe.nil h⟩
  | (n, s) :: rest => by
    have ih := rowLoopSp_one h leaf splits rest
    rw [rowLoopSp, loopReads, rowLoop]
    simp only [sparseIf_one h]
    have hg : row.getD (splitAt splits s).feature 0 = feat row (splitAt splits s).feature := rfl
    rw [hg]
    by_cases hj : (splitAt splits s).feature < row.length
    · simp only [if_pos hj]
      by_cases hn : n ∈ leaf.leftNodes
      · simp only [hn, if_true]
        by_cases hb : feat row (splitAt splits s).feature > (splitAt splits s).threshold
        · simp only [hb, if_true, decide_true]
          exact ⟨fun _ => trivial, fun hn => absurd (Safe.cons (atIndex_ok hj) Safe.nil) hn⟩
        · simp only [hb, if_false, decide_false]
          exact ⟨fun hs => ih.1 fun r hr => hs r (by simp [hr]), fun hn => ih.2 fun hs => hn (Safe.cons (atIndex_ok hj) hs)⟩
      · simp only [hn, if_false]
        by_cases hb : feat row (splitAt splits s).feature ≤ (splitAt splits s).threshold
        · simp only [hb, if_true, decide_true]
          exact ⟨fun _ => trivial, fun hn => absurd (Safe.cons (atIndex_ok hj) Safe.nil) hn⟩
        · simp only [hb, if_false, decide_false]
          exact ⟨fun hs => ih.1 fun r hr => hs r (by simp [hr]), fun hn => ih.2 fun hs => hn (Safe.cons (atIndex_ok hj) hs)⟩
    · simp only [if_neg hj, ite_self]
      refine ⟨fun hs => ?_, fun _ => trivial⟩
      have := hs _ (List.mem_cons_self ..)
      simp [atIndex, hj] at this

theorem predictRowSp_one {row : List ℚ} (h : row.length = 1) (leaves : List Leaf) (splits : List Split) : ∀ (ps : List Path),
    (Safe (rowReads leaves splits row ps) → predictRowSp leaves splits row ps = .ok (predictRow leaves splits row ps)) ∧
    (¬ Safe (rowReads leaves splits row ps) → predictRowSp leaves splits row ps = .error .indexError)
  | [] => ⟨fun _ => rfl, fun h => absurd Safe.nil h⟩
  | p :: ps => by
    have ih := predictRowSp_one h leaves splits ps
    have hc := rowLoopSp_one h (leafAt leaves p.leafId) splits p.pairs
    rw [predictRowSp, rowReads, predictRow]
    unfold rowSatisfiesPath
    by_cases h1 : Safe (loopReads row (leafAt leaves p.leafId) splits p.pairs)
    · rw [hc.1 h1]
      rcases hk : rowLoop row (leafAt leaves p.leafId) splits p.pairs with _ | _
      · simp only [Bool.false_eq_true, if_false]
        exact ⟨fun hs => ih.1 (safe_append.1 hs).2, fun hn => ih.2 fun hs => hn (safe_append.2 ⟨h1, hs⟩)⟩
      · simp only [if_true]
        exact ⟨fun _ => trivial, fun hn => absurd (safe_append.2 ⟨h1, Safe.nil⟩) hn⟩
    · rw [hc.2 h1]
      exact ⟨fun hs => absurd (safe_append.1 hs).1 h1, fun _ => rfl⟩

/-! ## Theorems -/

variable {Ω : Type} {o : FitOracle Ω} {d : ℕ} {A : Args} {X : List (List ℚ)} {y : List ℤ} {tol : ℚ} {maxIt : ℤ} {limit : ℚ} {fuel : ℕ}
  {e0 : Fit.Est} {u : Unit} {w0 : World Ω} {s : Fit.St (World Ω) Duals Path}

/-- **C129.** A sparse matrix with one column: `predict` does what it does for an array, also when it raises `IndexError`. -/
theorem C129_tree_one (A : Args) (s : Fit.St (World Ω) Duals Path) (R : List (List ℚ)) (h1 : ∀ row ∈ R, row.length = 1) :
    predictFittedSp A s R = predictFittedX A s R := by
  have hm := mapM_guarded (fun row => predictRowSp A.leaves s.world.master.splits row s.world.master.selected)
    (fun row => predictRow A.leaves s.world.master.splits row s.world.master.selected)
    (fun row => rowReads A.leaves s.world.master.splits row s.world.master.selected) R
    fun r hr => predictRowSp_one (h1 r hr) _ _ _
  unfold predictFittedSp predictFittedX
  by_cases hs : Safe (R.flatMap (fun row => rowReads A.leaves s.world.master.splits row s.world.master.selected))
  · rw [hm.1 hs, guardedE_safe hs]
    rfl
  · rw [hm.2 hs]
    have hp : Plain (R.flatMap (fun row => rowReads A.leaves s.world.master.splits row s.world.master.selected)) := fun r hr => by
      obtain ⟨row, -, hr⟩ := List.mem_flatMap.1 hr
      exact rowReads_plain _ r hr
    unfold guardedE
    rw [firstFault_plain hp hs]

/-- The first selected path decides what a sparse matrix with several columns gives. -/
theorem predictFittedSp_wide (A : Args) {p : Path} {ps : List Path} {q : ℕ × ℕ} {rest : List (ℕ × ℕ)}
    (hp : s.world.master.selected = p :: ps) (hq : p.pairs = q :: rest) {R : List (List ℚ)} (hR : R ≠ []) (hw : ∀ row ∈ R, 2 ≤ row.length) :
    predictFittedSp A s R = .error (if (splitAt s.world.master.splits q.2).feature = 0 then .valueError else .indexError) := by
  cases R with
  | nil => exact absurd rfl hR
  | cons r R =>
    unfold predictFittedSp
    rw [List.mapM_cons, hp, predictRowSp, hq, rowLoopSp_wide (hw r (by simp))]
    rfl

/-- **C129.** After `fit` (the first or a later one), `predict` raises on every sparse matrix with several columns: `ValueError` if the first question of
the first selected path is about feature 0, and `IndexError` if not. -/
theorem C129_tree (hf : FitOk d A X (encoded y)) (hd : 1 ≤ d) (hc : FitContract d A X o tol) (hy : TwoClasses y) (hs : Session o A X y w0)
    (hr : Fit.fit (env o A X) (config A maxIt limit) fuel y e0 w0 = some (.ok u, s)) (R : List (List ℚ)) (hR : R ≠ [])
    (hw : ∀ row ∈ R, 2 ≤ row.length) :
    ∃ p ps q rest, s.world.master.selected = p :: ps ∧ p.pairs = q :: rest ∧
      predictFittedSp A s R = .error (if (splitAt s.world.master.splits q.2).feature = 0 then .valueError else .indexError) := by
  obtain ⟨σ, P, hperm, -, hP, -⟩ := tree_from hf hc hy (session_inv hf hc hy hs) hr
  rcases hsel : s.world.master.selected with _ | ⟨p, ps⟩
  · have := hperm.length_eq
    rw [hsel] at this
    simp only [List.length_nil, List.length_map, List.length_range] at this
    have := Nat.two_pow_pos d
    omega
  · have hp : p ∈ (List.range (2 ^ d)).map P := hperm.subset (by rw [hsel]; simp)
    obtain ⟨l, hl, rfl⟩ := List.mem_map.1 hp
    have hwf := (hP l (List.mem_range.1 hl)).2.1
    have h1 : (P l).nodeIds.length = d := by rw [hwf.nodes.length_eq]; simp
    rcases hq : (P l).pairs with _ | ⟨q, rest⟩
    · have : (P l).pairs.length = d := by
        unfold Path.pairs
        rw [List.length_zip, h1, hwf.splits, Nat.min_self]
      rw [hq] at this
      simp at this
      omega
    · exact ⟨_, _, q, rest, rfl, hq, predictFittedSp_wide A hsel hq hR hw⟩

end Verif.DTree
