import Verif.DTree.StrictProps
import Verif.BDR.StrictProps

/-!
# Property C118: `DTreeClassifier.predict` on rows with too few or too many features

`predict` calls `check_array`, which does not compare the number of features with that of the training data. `Verif/DTree/Strict.lean` lists the
accesses `X_row[feature]` of all selected paths, here are exactly those that Python performs: `row_satisfies_path` returns at the first
question that is answered against the path, and `predict` stops at the first path that is satisfied.
-/

set_option linter.unusedSectionVars false

namespace Verif.DTree

open MP Spec
open Fit.Spec
open Verif.BDR (Plain firstFault_plain safe_append Plain.append)

/-! ## Model -/

/-- `X_row[feature]` in the loop of `row_satisfies_path`, `_dtree_classifier.py:442-452`: up to the first question that is answered against the
path. The accesses `splits[split_ids[i]]` do not fail after `fit` (`C104_predict`) and are left out. -/
def loopReads (row : List ℚ) (leaf : Leaf) (splits : List Split) : List (ℕ × ℕ) → Reads
  | [] => []
  | (n, s) :: rest =>
    let split := splitAt splits s
    atIndex split.feature row.length ::
      (if n ∈ leaf.leftNodes then
        if feat row split.feature > split.threshold then [] else loopReads row leaf splits rest
      else
        if feat row split.feature ≤ split.threshold then [] else loopReads row leaf splits rest)

/-- The same for the inner loop of `predict`, `_dtree_classifier.py:2540-2544`: up to the first path that is satisfied. -/
def rowReads (leaves : List Leaf) (splits : List Split) (row : List ℚ) : List Path → Reads
  | [] => []
  | p :: ps => loopReads row (leafAt leaves p.leafId) splits p.pairs ++
      (if rowSatisfiesPath row (leafAt leaves p.leafId) splits p then [] else rowReads leaves splits row ps)

/-- `predict` of a fitted classifier, `_dtree_classifier.py:2531-2545`. The labels are decoded after all rows were read. `check_array` also rejects
rows of different lengths, no rows and no features; this is not modelled. -/
def predictFittedX {Ω : Type} (A : Args) (s : Fit.St (World Ω) Duals Path) (R : List (List ℚ)) : Except Err (List ℤ) :=
  guardedE (R.flatMap (fun row => rowReads A.leaves s.world.master.splits row s.world.master.selected)) (predictFitted A s R)

/-! ## Specification -/

namespace Spec

/-- The row is sent the way of the path at the node and split `q`. -/
def Agrees (leaves : List Leaf) (splits : List Split) (row : List ℚ) (p : Path) (q : ℕ × ℕ) : Prop :=
  takesLeft row (splitAt splits q.2) = decide (q.1 ∈ (leafAt leaves p.leafId).leftNodes)

/-- Trying the paths `ps` in order, one comes to a feature that the row does not have: every path before has a question that the row answers
differently, and the row agrees with all questions before in the same path. -/
def StumblesOn (leaves : List Leaf) (splits : List Split) (row : List ℚ) (ps : List Path) : Prop :=
  ∃ pre p post a q b, ps = pre ++ p :: post ∧ p.pairs = a ++ q :: b ∧ (∀ p' ∈ pre, ∃ q' ∈ p'.pairs, ¬ Agrees leaves splits row p' q') ∧
    (∀ q' ∈ a, Agrees leaves splits row p q') ∧ row.length ≤ (splitAt splits q.2).feature

/-- The node at level `k` on the way of the row through the tree with split `σ n` at node `n`. -/
def onWay (splits : List Split) (σ : ℕ → ℕ) (row : List ℚ) (k : ℕ) : ℕ := walk (fun n => takesLeft row (splitAt splits (σ n))) k

/-- The row has all features that it is asked for on its way through the tree. -/
def HasWay (d : ℕ) (splits : List Split) (σ : ℕ → ℕ) (row : List ℚ) : Prop :=
  ∀ k < d, (splitAt splits (σ (onWay splits σ row k))).feature < row.length

/-- The row has all features that the tree asks for. -/
def HasAll (d : ℕ) (splits : List Split) (σ : ℕ → ℕ) (row : List ℚ) : Prop :=
  ∀ n < 2 ^ d - 1, (splitAt splits (σ n)).feature < row.length

end Spec

/-! ## Reads -/

section

variable {leaves : List Leaf} {splits : List Split} {row : List ℚ}

theorem agrees_cons {leaf : Leaf} {n s : ℕ} {rest : List (ℕ × ℕ)} :
    loopReads row leaf splits ((n, s) :: rest) = atIndex (splitAt splits s).feature row.length ::
      (if takesLeft row (splitAt splits s) = decide (n ∈ leaf.leftNodes) then loopReads row leaf splits rest else []) := by
  rw [loopReads]
  simp only [takesLeft, ← not_le]
  by_cases h1 : n ∈ leaf.leftNodes <;> by_cases h2 : feat row (splitAt splits s).feature ≤ (splitAt splits s).threshold <;> simp [h1, h2]

theorem loopReads_plain {leaf : Leaf} : ∀ (l : List (ℕ × ℕ)), Plain (loopReads row leaf splits l)
  | [] => fun r hr => by cases hr
  | (n, s) :: rest => fun r hr => by
    rw [agrees_cons] at hr
    rcases List.mem_cons.1 hr with rfl | hr
    · rfl
    · split at hr
      · exact loopReads_plain rest r hr
      · cases hr

theorem rowReads_plain : ∀ (ps : List Path), Plain (rowReads leaves splits row ps)
  | [] => fun r hr => by cases hr
  | p :: ps => by
    unfold rowReads
    refine (loopReads_plain _).append ?_
    split
    · intro r hr; cases hr
    · exact rowReads_plain ps

theorem loopReads_fail {leaf : Leaf} : ∀ (l : List (ℕ × ℕ)), ¬ Safe (loopReads row leaf splits l) ↔
    ∃ a q b, l = a ++ q :: b ∧ (∀ q' ∈ a, takesLeft row (splitAt splits q'.2) = decide (q'.1 ∈ leaf.leftNodes)) ∧
      row.length ≤ (splitAt splits q.2).feature
  | [] => by
    constructor
    · intro h; exact absurd Safe.nil h
    · rintro ⟨a, q, b, h, -⟩; simp at h
  | (n, s) :: rest => by
    rw [agrees_cons]
    have ih := loopReads_fail (leaf := leaf) rest
    by_cases hi : (splitAt splits s).feature < row.length
    · by_cases h0 : takesLeft row (splitAt splits s) = decide (n ∈ leaf.leftNodes)
      · rw [if_pos h0]
        have : ¬ Safe (atIndex (splitAt splits s).feature row.length :: loopReads row leaf splits rest) ↔ ¬ Safe (loopReads row leaf splits rest) :=
          not_congr ⟨fun h r hr => h r (by simp [hr]), fun h => .cons (atIndex_ok hi) h⟩
        rw [this, ih]
        constructor
        · rintro ⟨a, q, b, rfl, ha, hq⟩
          refine ⟨(n, s) :: a, q, b, rfl, ?_, hq⟩
          intro q' hq'
          rcases List.mem_cons.1 hq' with rfl | hq'
          · exact h0
          · exact ha q' hq'
        · rintro ⟨a, q, b, he, ha, hq⟩
          cases a with
          | nil =>
            simp only [List.nil_append, List.cons.injEq] at he
            rw [← he.1] at hq
            exact absurd hi (by simpa using hq)
          | cons a as =>
            simp only [List.cons_append, List.cons.injEq] at he
            exact ⟨as, q, b, he.2, fun k hk => ha k (by simp [hk]), hq⟩
      · rw [if_neg h0]
        constructor
        · intro h; exact absurd (Safe.cons (atIndex_ok hi) .nil) h
        · rintro ⟨a, q, b, he, ha, hq⟩
          cases a with
          | nil =>
            simp only [List.nil_append, List.cons.injEq] at he
            rw [← he.1] at hq
            exact absurd hi (by simpa using hq)
          | cons a as =>
            simp only [List.cons_append, List.cons.injEq] at he
            have := ha a (by simp)
            rw [← he.1] at this
            exact absurd this h0
    · constructor
      · intro _
        exact ⟨[], (n, s), rest, rfl, by simp, by simpa using hi⟩
      · intro _ h
        have := h (atIndex (splitAt splits s).feature row.length) (by simp)
        simp only [atIndex, decide_eq_true_eq] at this
        exact hi this

theorem satisfies_iff (p : Path) : rowSatisfiesPath row (leafAt leaves p.leafId) splits p = true ↔ ∀ q ∈ p.pairs, Agrees leaves splits row p q := by
  rw [rowSatisfiesPath, rowLoop_iff]
  rfl

theorem rowReads_fail : ∀ (ps : List Path), ¬ Safe (rowReads leaves splits row ps) ↔ StumblesOn leaves splits row ps
  | [] => by
    constructor
    · intro h; exact absurd Safe.nil h
    · rintro ⟨pre, c, post, a, j, b, h, -⟩; simp at h
  | p :: ps => by
    have ih := rowReads_fail ps
    rw [rowReads, safe_append]
    constructor
    · intro h
      by_cases h1 : Safe (loopReads row (leafAt leaves p.leafId) splits p.pairs)
      · by_cases h3 : rowSatisfiesPath row (leafAt leaves p.leafId) splits p = true
        · rw [if_pos h3] at h
          exact absurd ⟨h1, Safe.nil⟩ h
        · rw [if_neg h3] at h
          obtain ⟨pre, c', post, a, j, b, rfl, hc, hp, hs, hj⟩ := ih.1 fun h2 => h ⟨h1, h2⟩
          refine ⟨p :: pre, c', post, a, j, b, rfl, hc, ?_, hs, hj⟩
          intro k hk
          rcases List.mem_cons.1 hk with rfl | hk
          · rw [satisfies_iff] at h3
            push Not at h3
            exact h3
          · exact hp k hk
      · obtain ⟨a, q, b, hc, hs, hj⟩ := (loopReads_fail p.pairs).1 h1
        exact ⟨[], p, ps, a, q, b, rfl, hc, by simp, hs, hj⟩
    · rintro ⟨pre, c', post, a, q, b, he, hc, hp, hs, hj⟩ ⟨h1, h2⟩
      cases pre with
      | nil =>
        simp only [List.nil_append, List.cons.injEq] at he
        obtain ⟨rfl, -⟩ := he
        exact (loopReads_fail p.pairs).2 ⟨a, q, b, hc, hs, hj⟩ h1
      | cons k pre =>
        simp only [List.cons_append, List.cons.injEq] at he
        obtain ⟨rfl, rfl⟩ := he
        have hk : ¬ rowSatisfiesPath row (leafAt leaves p.leafId) splits p = true := by
          rw [satisfies_iff]
          push Not
          exact hp p (by simp)
        rw [if_neg hk] at h2
        exact ih.2 ⟨pre, c', post, a, q, b, rfl, hc, fun k hk => hp k (by simp [hk]), hs, hj⟩ h2

theorem first_of_mem {p : Path} : ∀ {ps : List Path}, p ∈ ps → ∃ pre post, ps = pre ++ p :: post ∧ p ∉ pre
  | x :: xs, hp => by
    by_cases hx : x = p
    · exact ⟨[], xs, by rw [hx]; rfl, by simp⟩
    · obtain ⟨pre, post, h1, h2⟩ := first_of_mem ((List.mem_cons.1 hp).resolve_left (Ne.symm hx))
      exact ⟨x :: pre, post, by rw [h1]; rfl, by simp [Ne.symm hx, h2]⟩

/-- If the row satisfies only the path `p` and does not have one of its features, an access fails. -/
theorem stumbles_of_missing {ps : List Path} {p : Path} (hp : p ∈ ps)
    (h : ∀ q ∈ ps, rowSatisfiesPath row (leafAt leaves q.leafId) splits q = true ↔ q = p) {q : ℕ × ℕ} (hq : q ∈ p.pairs)
    (hm : row.length ≤ (splitAt splits q.2).feature) : StumblesOn leaves splits row ps := by
  obtain ⟨pre, post, rfl, hnp⟩ := first_of_mem hp
  obtain ⟨a, b, hab⟩ := List.append_of_mem hq
  refine ⟨pre, p, post, a, q, b, rfl, hab, ?_, ?_, hm⟩
  · intro p' hp'
    have : ¬ rowSatisfiesPath row (leafAt leaves p'.leafId) splits p' = true := fun hs => by
      have := (h p' (by simp [hp'])).1 hs
      exact hnp (this ▸ hp')
    rw [satisfies_iff] at this
    push Not at this
    exact this
  · intro q' hq'
    exact (satisfies_iff p).1 ((h p hp).2 rfl) q' (by rw [hab]; simp [hq'])

theorem loop_append (extra : List ℚ) {leaf : Leaf} : ∀ {l : List (ℕ × ℕ)}, Safe (loopReads row leaf splits l) →
    rowLoop (row ++ extra) leaf splits l = rowLoop row leaf splits l ∧ Safe (loopReads (row ++ extra) leaf splits l)
  | [], _ => ⟨rfl, Safe.nil⟩
  | (n, s) :: l, h1 => by
    rw [agrees_cons] at h1
    have hlt : (splitAt splits s).feature < row.length := by
      have := h1 _ (List.mem_cons_self ..)
      simpa [atIndex] using this
    have hf : feat (row ++ extra) (splitAt splits s).feature = feat row (splitAt splits s).feature := List.getD_append _ _ _ _ hlt
    have ht : takesLeft (row ++ extra) (splitAt splits s) = takesLeft row (splitAt splits s) := by unfold takesLeft; rw [hf]
    have hlt' : (splitAt splits s).feature < (row ++ extra).length := by rw [List.length_append]; omega
    rw [rowLoop, rowLoop, agrees_cons, ht]
    simp only [hf]
    by_cases h0 : takesLeft row (splitAt splits s) = decide (n ∈ leaf.leftNodes)
    · rw [if_pos h0] at h1 ⊢
      obtain ⟨h2, h3⟩ := loop_append extra (leaf := leaf) (l := l) fun r hr => h1 r (by simp [hr])
      rw [h2]
      exact ⟨rfl, .cons (atIndex_ok hlt') h3⟩
    · rw [if_neg h0]
      refine ⟨?_, .cons (atIndex_ok hlt') .nil⟩
      simp only [takesLeft] at h0
      clear h1 hf ht hlt hlt'
      by_cases h1 : n ∈ leaf.leftNodes <;> by_cases h2 : feat row (splitAt splits s).feature ≤ (splitAt splits s).threshold <;>
        simp [h1, h2, ← not_le] at h0 ⊢

/-- Further features at the end of a row do not change the answer. -/
theorem row_append (extra : List ℚ) : ∀ {ps : List Path}, Safe (rowReads leaves splits row ps) →
    predictRow leaves splits (row ++ extra) ps = predictRow leaves splits row ps ∧ Safe (rowReads leaves splits (row ++ extra) ps)
  | [], _ => ⟨rfl, Safe.nil⟩
  | p :: ps, h => by
    rw [rowReads, safe_append] at h
    obtain ⟨h1, h2⟩ := loop_append extra h.1
    rw [rowReads, safe_append]
    unfold predictRow
    have key : rowSatisfiesPath (row ++ extra) (leafAt leaves p.leafId) splits p = rowSatisfiesPath row (leafAt leaves p.leafId) splits p := h1
    rw [key]
    by_cases hs : rowSatisfiesPath row (leafAt leaves p.leafId) splits p = true
    · rw [if_pos hs, if_pos hs, if_pos hs]
      exact ⟨rfl, h2, Safe.nil⟩
    · rw [if_neg hs] at h
      obtain ⟨h3, h4⟩ := row_append extra h.2
      rw [if_neg hs, if_neg hs, if_neg hs]
      exact ⟨h3, h2, h4⟩

end

/-! ## C118 -/

variable {Ω : Type} {d : ℕ} {A : Args} {X : List (List ℚ)} {y : List ℤ} {o : FitOracle Ω} {tol : ℚ} {maxIt : ℤ} {limit : ℚ}
  {fuel : ℕ} {e0 : Fit.Est} {w : World Ω} {s : Fit.St (World Ω) Duals Path}

/-- **C118.** `predict` raises `IndexError` exactly if on some row, trying the selected paths in order, it comes to a feature that the row does not
have; the number of features is not checked otherwise. -/
theorem C118_exact (A : Args) (s : Fit.St (World Ω) Duals Path) (R : List (List ℚ)) :
    ((∃ row ∈ R, StumblesOn A.leaves s.world.master.splits row s.world.master.selected) → predictFittedX A s R = .error .indexError) ∧
    ((∀ row ∈ R, ¬ StumblesOn A.leaves s.world.master.splits row s.world.master.selected) → predictFittedX A s R = predictFitted A s R) := by
  unfold predictFittedX
  constructor
  · rintro ⟨row, hrow, hs⟩
    have : firstFault (R.flatMap (fun row => rowReads A.leaves s.world.master.splits row s.world.master.selected)) = some .indexError := by
      refine firstFault_plain ?_ ?_
      · intro r hr
        obtain ⟨row, -, hr⟩ := List.mem_flatMap.1 hr
        exact rowReads_plain _ r hr
      · intro h
        exact (rowReads_fail _).2 hs fun r hr => h r (List.mem_flatMap.2 ⟨row, hrow, hr⟩)
    unfold guardedE
    rw [this]
  · intro h
    refine guardedE_safe (.flatMap fun row hrow => ?_) _
    by_contra hc
    exact h row hrow ((rowReads_fail _).1 hc)

/-- **C118.** A row with further features is treated like the row without them. -/
theorem C118_extra (A : Args) (s : Fit.St (World Ω) Duals Path) (R : List (List ℚ × List ℚ)) {ls : List ℤ}
    (h : predictFittedX A s (R.map Prod.fst) = .ok ls) : predictFittedX A s (R.map (fun r => r.1 ++ r.2)) = .ok ls := by
  have hns : ∀ row ∈ R.map Prod.fst, ¬ StumblesOn A.leaves s.world.master.splits row s.world.master.selected := by
    intro row hrow hst
    rw [(C118_exact A s _).1 ⟨row, hrow, hst⟩] at h
    cases h
  rw [(C118_exact A s _).2 hns] at h
  have hsafe : ∀ r ∈ R, Safe (rowReads A.leaves s.world.master.splits r.1 s.world.master.selected) := fun r hr => by
    by_contra hc
    exact hns _ (List.mem_map_of_mem hr) ((rowReads_fail _).1 hc)
  have hns' : ∀ row ∈ R.map (fun r => r.1 ++ r.2), ¬ StumblesOn A.leaves s.world.master.splits row s.world.master.selected := by
    intro row hrow
    obtain ⟨r, hr, rfl⟩ := List.mem_map.1 hrow
    exact fun hst => (rowReads_fail _).2 hst (row_append r.2 (hsafe r hr)).2
  rw [(C118_exact A s _).2 hns', ← h]
  unfold predictFitted predict
  rw [List.map_map, List.map_map]
  congr 1
  exact List.map_congr_left fun r hr => (row_append r.2 (hsafe r hr)).1

theorem walk_anc (left : ℕ → Bool) {d k : ℕ} (hk : k ≤ d) : walk left k = anc d (walkLeaf left d) k := by
  have h := (walkLeaf_iff left (walkLeaf_lt left d)).1 rfl
  induction k with
  | zero => rw [anc_zero (walkLeaf_lt left d)]; rfl
  | succ k ih =>
    rw [anc_succ (by omega : k < d), ← h k (by omega), ← ih (by omega)]
    rfl

/-- **C118.** After `fit` there is a tree with candidate splits at its nodes such that `predict` raises `IndexError` if some row does not have a
feature that it is asked for on its way through the tree, and returns the classes of the leaves in which the rows end if all rows have the
features of all nodes of the tree. -/
theorem C118_fitted (hf : FitOk d A X (encoded y)) (hc : FitContract d A X o tol) (hy : TwoClasses y) (hs : Session o A X y w)
    (hr : Fit.fit (env o A X) (config A maxIt limit) fuel y e0 w = some (.ok (), s)) :
    ∃ (σ : ℕ → ℕ) (τ : ℕ → ℤ), (∀ n < 2 ^ d - 1, σ n ∈ cand A.nodes n) ∧
      (∀ R, (∃ row ∈ R, ¬ HasWay d A.splits σ row) → predictFittedX A s R = .error .indexError) ∧
      (∀ R, (∀ row ∈ R, HasAll d A.splits σ row) → predictFittedX A s R =
        Sk.inverseTransform s.est.classes (R.map fun row => τ (walkLeaf (fun n => takesLeft row (splitAt A.splits (σ n))) d))) ∧
      ∀ R ls, predictFittedX A s R = .ok ls →
        Sk.inverseTransform s.est.classes (R.map fun row => τ (walkLeaf (fun n => takesLeft row (splitAt A.splits (σ n))) d)) = .ok ls := by
  have hw := session_inv hf hc hy hs
  obtain ⟨σ, P, hperm, hcand, hP, hpred⟩ := tree_from hf hc hy hw hr
  obtain ⟨s1, -, -, -, -, -, -, -, -, hsp, -, hsame, -⟩ := fit_final hf hc hy hw hr
  have hspl : ∀ i, (splitAt s.world.master.splits i).feature = (splitAt A.splits i).feature ∧
      (splitAt s.world.master.splits i).threshold = (splitAt A.splits i).threshold := fun i => by rw [hsp]; exact hsame.at i
  have hleft : ∀ row n, takesLeft row (splitAt s.world.master.splits n) = takesLeft row (splitAt A.splits n) := fun row n => by
    unfold takesLeft; rw [(hspl n).1, (hspl n).2]
  have hlv : A.leaves = fullLeaves d := hf.setup.tree.leaves
  have hmem : ∀ p, p ∈ s.world.master.selected ↔ ∃ l < 2 ^ d, P l = p := by
    intro p
    rw [hperm.mem_iff]
    simp
  have hfit : ∀ R, predictFitted A s R = Sk.inverseTransform s.est.classes
      (R.map fun row => (P (walkLeaf (fun n => takesLeft row (splitAt A.splits (σ n))) d)).target) := fun R => by
    unfold predictFitted predict
    congr 1
    exact List.map_congr_left fun row _ => hpred row
  refine ⟨σ, fun l => (P l).target, hcand, ?_, ?_, ?_⟩
  · rintro R ⟨row, hrow, hn⟩
    refine (C118_exact A s R).1 ⟨row, hrow, ?_⟩
    unfold HasWay at hn
    push Not at hn
    obtain ⟨k, hk, hm⟩ := hn
    set left := fun n => takesLeft row (splitAt A.splits (σ n)) with hleftd
    have hl0 := walkLeaf_lt left d
    obtain ⟨h1, h2, h3, -⟩ := hP _ hl0
    obtain ⟨t, ht⟩ := h2.exists_split hk
    have e : t = σ (onWay A.splits σ row k) := by
      have := h3 _ ht
      simp only at this
      rw [this, h1, ← walk_anc left hk.le]
      rfl
    refine stumbles_of_missing ((hmem _).2 ⟨_, hl0, rfl⟩) ?_ ht ?_
    · intro q hq
      obtain ⟨l, hl, rfl⟩ := (hmem q).1 hq
      obtain ⟨g1, g2, g3, -⟩ := hP l hl
      rw [hlv, rowSatisfiesPath_iff g2, follows_tree g2 g3, g1]
      have e2 : (fun n => rowLeft s.world.master.splits row (σ n)) = left := by
        funext n
        exact hleft row (σ n)
      rw [e2]
      constructor
      · intro he; rw [← he]
      · intro he
        have := congrArg Path.leafId he
        rw [g1, h1] at this
        exact this
    · rw [(hspl _).1, e]
      exact hm
  · intro R hR
    rw [(C118_exact A s R).2, hfit]
    rintro row hrow ⟨pre, p, post, a, q, b, he, hpq, -, -, hm⟩
    obtain ⟨l, hl, rfl⟩ := (hmem p).1 (by rw [he]; simp)
    obtain ⟨g1, g2, g3, -⟩ := hP l hl
    have hq : q ∈ (P l).pairs := by rw [hpq]; simp
    obtain ⟨k, hk, hk'⟩ := g2.mem_pairs hq
    rw [(hspl _).1, g3 q hq, hk'] at hm
    have := hR row hrow (anc d (P l).leafId k) (anc_lt g2.leaf_lt hk)
    omega
  · intro R ls hls
    rw [← hfit, ← hls, (C118_exact A s R).2]
    intro row hrow hst
    rw [(C118_exact A s R).1 ⟨row, hrow, hst⟩] at hls
    cases hls

end Verif.DTree
