import Verif.DTree.FitProps
import Verif.Fit.PointProps

/-!
# Property C145: the features that the answers of a fitted tree depend on
-/

set_option linter.unusedSectionVars false

namespace Verif.DTree

open MP Spec
open Fit.Spec

variable {Ω : Type} {d : ℕ} {A : Args} {X : List (List ℚ)} {y : List ℤ} {o : FitOracle Ω} {tol : ℚ} {maxIt : ℤ} {limit : ℚ} {fuel : ℕ} {e0 : Fit.Est} {ω : Ω}
  {u : Unit} {s : Fit.St (World Ω) Duals Path}

namespace Spec

/-- The two rows have the same values at the features of `F`. -/
def AgreeOn (F : List ℕ) (r r' : List ℚ) : Prop := ∀ j ∈ F, r.getD j 0 = r'.getD j 0

end Spec

theorem walk_agree {left left' : ℕ → Bool} : ∀ {k : ℕ}, (∀ j < k, left' (walk left j) = left (walk left j)) → walk left' k = walk left k
  | 0, _ => rfl
  | k + 1, h => by
    have ih := walk_agree (k := k) (fun j hj => h j (by omega))
    unfold walk
    rw [ih, h k (by omega)]

/-- Equal values at the feature of the question give equal answers. -/
theorem takesLeft_agree {r r' : List ℚ} {sp : Split} (h : r.getD sp.feature 0 = r'.getD sp.feature 0) : takesLeft r' sp = takesLeft r sp := by
  unfold takesLeft feat
  rw [h]

theorem predict_of_rows {Z Z' : List (List ℚ)} (h : List.Forall₂ (fun r r' => predictRow A.leaves s.world.master.splits r s.world.master.selected =
    predictRow A.leaves s.world.master.splits r' s.world.master.selected) Z Z') : predictFitted A s Z = predictFitted A s Z' := by
  have hm : Z.map (fun r => predictRow A.leaves s.world.master.splits r s.world.master.selected) =
      Z'.map (fun r => predictRow A.leaves s.world.master.splits r s.world.master.selected) := by
    induction h with
    | nil => rfl
    | cons h1 _ ih => rw [List.map_cons, List.map_cons, ih, h1]
  unfold predictFitted predict
  rw [hm]

theorem walk_lt (left : ℕ → Bool) : ∀ k, walk left k + 1 < 2 ^ (k + 1)
  | 0 => by simp [walk]
  | k + 1 => by
    have := walk_lt left k
    have e : 2 ^ (k + 1 + 1) = 2 * 2 ^ (k + 1) := by rw [pow_succ]; ring
    unfold walk
    split <;> omega

/-- **C145.** The answers of a fitted tree of depth `d` depend on at most `2^d - 1` features, each asked by a candidate split of a node: batches that agree there get the same answers. -/
theorem C145_features (hf : FitOk d A X (encoded y)) (hc : FitContract d A X o tol) (hy : TwoClasses y)
    (hr : fitNew o A maxIt limit X fuel y e0 ω = some (.ok u, s)) :
    ∃ F : List ℕ, F.length ≤ 2 ^ d - 1 ∧ (∀ j ∈ F, ∃ n, ∃ t ∈ cand A.nodes n, (splitAt A.splits t).feature = j) ∧
      ∀ Z Z', List.Forall₂ (AgreeOn F) Z Z' → predictFitted A s Z = predictFitted A s Z' := by
  obtain ⟨σ, P, -, h1, -, h2⟩ := C72_fitted_tree hf hc hy hr
  refine ⟨(List.range (2 ^ d - 1)).map (fun n => (splitAt A.splits (σ n)).feature), by simp, ?_, ?_⟩
  · intro j hj
    obtain ⟨n, hn, rfl⟩ := List.mem_map.1 hj
    exact ⟨n, σ n, h1 n (List.mem_range.1 hn), rfl⟩
  · intro Z Z' h
    refine predict_of_rows (h.imp fun r r' hrr => ?_)
    rw [h2, h2]
    have hw : walk (fun n => takesLeft r' (splitAt A.splits (σ n))) d = walk (fun n => takesLeft r (splitAt A.splits (σ n))) d := by
      refine walk_agree fun j hj => takesLeft_agree (hrr _ ?_)
      refine List.mem_map.2 ⟨_, List.mem_range.2 ?_, rfl⟩
      have h3 := walk_lt (fun n => takesLeft r (splitAt A.splits (σ n))) j
      have h4 : 2 ^ (j + 1) ≤ 2 ^ d := Nat.pow_le_pow_right (by norm_num) hj
      omega
    unfold walkLeaf
    rw [hw]

/-- **C145.** For every row at most `d` features decide: every row that agrees there gets the same answer, or the same exception. -/
theorem C145_witness (hf : FitOk d A X (encoded y)) (hc : FitContract d A X o tol) (hy : TwoClasses y)
    (hr : fitNew o A maxIt limit X fuel y e0 ω = some (.ok u, s)) (row : List ℚ) :
    ∃ F : List ℕ, F.length ≤ d ∧ ∀ row', AgreeOn F row row' → predictFitted A s [row'] = predictFitted A s [row] := by
  obtain ⟨σ, P, -, -, -, h2⟩ := C72_fitted_tree hf hc hy hr
  refine ⟨(List.range d).map (fun k => (splitAt A.splits (σ (walk (fun n => takesLeft row (splitAt A.splits (σ n))) k))).feature), by simp, fun row' h => ?_⟩
  refine predict_of_rows (.cons ?_ .nil)
  rw [h2, h2]
  have hw : walk (fun n => takesLeft row' (splitAt A.splits (σ n))) d = walk (fun n => takesLeft row (splitAt A.splits (σ n))) d :=
    walk_agree fun j hj => takesLeft_agree (h _ (List.mem_map.2 ⟨j, List.mem_range.2 hj, rfl⟩))
  unfold walkLeaf
  rw [hw]

end Verif.DTree
