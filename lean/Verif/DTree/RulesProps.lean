import Verif.DTree.WitnessProps
import Verif.DTree.CertProps

/-!
# Property C147: a fitted tree as a list of rules, and how far rows can be moved

The list of rules has nothing to do with paths, leaves or nodes of the code: a rule is a list of comparisons and an answer.
-/

set_option linter.unusedSectionVars false

namespace Verif.DTree

open MP Spec
open Fit.Spec

variable {Ω : Type} {d : ℕ} {A : Args} {X : List (List ℚ)} {y : List ℤ} {o : FitOracle Ω} {tol : ℚ} {maxIt : ℤ} {limit : ℚ} {fuel : ℕ} {e0 : Fit.Est} {ω : Ω}
  {u : Unit} {s : Fit.St (World Ω) Duals Path}

namespace Spec

/-- A comparison: `feature <= threshold`, or `feature > threshold`. -/
structure Cond where
  feature : ℕ
  threshold : ℚ
  below : Bool
deriving DecidableEq, Repr

def Cond.holds (c : Cond) (row : List ℚ) : Bool :=
  if c.below then decide (row.getD c.feature 0 ≤ c.threshold) else decide (c.threshold < row.getD c.feature 0)

/-- All comparisons of the rule hold. -/
def applies (cs : List Cond) (row : List ℚ) : Bool := cs.all (fun c => c.holds row)

end Spec

/-- The comparisons on the ways to the nodes of level `k`, if node `n` asks `q n`. -/
def ways (q : ℕ → Split) : ℕ → List (List Cond × ℕ)
  | 0 => [([], 0)]
  | k + 1 => (ways q k).flatMap fun b =>
    [(⟨(q b.2).feature, (q b.2).threshold, true⟩ :: b.1, 2 * b.2 + 1), (⟨(q b.2).feature, (q b.2).threshold, false⟩ :: b.1, 2 * b.2 + 2)]

theorem filter_flatMap {α β : Type} (p : β → Bool) (r : α → Bool) (f : α → List β) (h : ∀ a, r a = false → (f a).filter p = []) :
    ∀ l : List α, (l.flatMap f).filter p = (l.filter r).flatMap (fun a => (f a).filter p)
  | [] => rfl
  | a :: l => by
    rw [List.flatMap_cons, List.filter_append, filter_flatMap p r f h l, List.filter_cons]
    by_cases hr : r a = true
    · rw [if_pos hr, List.flatMap_cons]
    · rw [if_neg hr, h a (by simpa using hr), List.nil_append]

theorem ways_length (q : ℕ → Split) : ∀ k, (ways q k).length = 2 ^ k
  | 0 => rfl
  | k + 1 => by
    unfold ways
    rw [List.length_flatMap]
    simp [ways_length q k, pow_succ]

theorem ways_cond (q : ℕ → Split) : ∀ k, ∀ b ∈ ways q k, b.1.length = k ∧ b.2 < 2 ^ (k + 1) - 1 ∧
    ∀ c ∈ b.1, ∃ n < 2 ^ k - 1, c.feature = (q n).feature ∧ c.threshold = (q n).threshold
  | 0, b, hb => by
    unfold ways at hb
    rw [List.mem_singleton.1 hb]
    simp
  | k + 1, b, hb => by
    unfold ways at hb
    obtain ⟨b', hb', h⟩ := List.mem_flatMap.1 hb
    obtain ⟨h1, h2, h3⟩ := ways_cond q k b' hb'
    have e : 2 ^ (k + 1 + 1) = 2 * 2 ^ (k + 1) := by rw [pow_succ]; ring
    have e' : 2 ^ k ≤ 2 ^ (k + 1) := Nat.pow_le_pow_right (by norm_num) (by omega)
    simp only [List.mem_cons, List.not_mem_nil, or_false] at h
    rcases h with rfl | rfl
    all_goals
      refine ⟨by simp [h1], by dsimp only; omega, ?_⟩
      intro c hc
      rcases List.mem_cons.1 hc with rfl | hc
      · exact ⟨b'.2, h2, rfl, rfl⟩
      · obtain ⟨n, hn, h4⟩ := h3 c hc
        exact ⟨n, by omega, h4⟩

theorem applies_cons (c : Cond) (cs : List Cond) (row : List ℚ) : applies (c :: cs) row = (c.holds row && applies cs row) := rfl

/-- Exactly one of the ways applies, and it leads to the node that the row reaches. -/
theorem ways_filter (q : ℕ → Split) (row : List ℚ) : ∀ k, ∃ cs, (ways q k).filter (fun b => applies b.1 row) = [(cs, walk (fun n => takesLeft row (q n)) k)]
  | 0 => ⟨[], rfl⟩
  | k + 1 => by
    obtain ⟨cs, ih⟩ := ways_filter q row k
    unfold ways
    rw [filter_flatMap _ (fun b => applies b.1 row) _ (fun b hb => ?_), ih, List.flatMap_cons, List.flatMap_nil, List.append_nil]
    · have hcs : applies cs row = true := by
        have : (cs, walk (fun n => takesLeft row (q n)) k) ∈ (ways q k).filter (fun b => applies b.1 row) := by rw [ih]; exact List.mem_singleton.2 rfl
        exact (List.mem_filter.1 this).2
      by_cases hl : takesLeft row (q (walk (fun n => takesLeft row (q n)) k)) = true
      · refine ⟨⟨(q (walk (fun n => takesLeft row (q n)) k)).feature, (q (walk (fun n => takesLeft row (q n)) k)).threshold, true⟩ :: cs, ?_⟩
        · have hv : row.getD (q (walk (fun n => takesLeft row (q n)) k)).feature 0 ≤ (q (walk (fun n => takesLeft row (q n)) k)).threshold := by
            simpa [takesLeft, feat] using hl
          rw [List.filter_cons_of_pos (by rw [applies_cons, hcs, Bool.and_true]; simpa [Cond.holds] using hv),
            List.filter_cons_of_neg (by rw [applies_cons, hcs, Bool.and_true]; simpa [Cond.holds] using hv), List.filter_nil]
          congr 2
          conv_rhs => unfold walk
          rw [if_pos hl]
      · refine ⟨⟨(q (walk (fun n => takesLeft row (q n)) k)).feature, (q (walk (fun n => takesLeft row (q n)) k)).threshold, false⟩ :: cs, ?_⟩
        · have hv : (q (walk (fun n => takesLeft row (q n)) k)).threshold < row.getD (q (walk (fun n => takesLeft row (q n)) k)).feature 0 := by
            simpa [takesLeft, feat] using hl
          rw [List.filter_cons_of_neg (by rw [applies_cons, hcs, Bool.and_true]; simpa [Cond.holds] using hv),
            List.filter_cons_of_pos (by rw [applies_cons, hcs, Bool.and_true]; simpa [Cond.holds] using hv), List.filter_nil]
          congr 2
          conv_rhs => unfold walk
          rw [if_neg hl]
    · have hb : (b.1.all fun c => c.holds row) = false := hb
      rw [List.filter_cons_of_neg (by simp [applies, hb]), List.filter_cons_of_neg (by simp [applies, hb]), List.filter_nil]

/-- **C147.** A fitted tree of depth `d` is a list of `2^d` rules with `d` comparisons each, taken from the candidate splits: exactly one rule applies to a row, and
`predict` does with the row what this rule says. -/
theorem C147_rules (hf : FitOk d A X (encoded y)) (hc : FitContract d A X o tol) (hy : TwoClasses y)
    (hr : fitNew o A maxIt limit X fuel y e0 ω = some (.ok u, s)) :
    ∃ L : List (List Cond × Except Err (List ℤ)), L.length = 2 ^ d ∧
      (∀ r ∈ L, r.1.length = d ∧ ∀ c ∈ r.1, ∃ n < 2 ^ d - 1, ∃ t ∈ cand A.nodes n, (splitAt A.splits t).feature = c.feature ∧
        (splitAt A.splits t).threshold = c.threshold) ∧
      ∀ row, L.countP (fun r => applies r.1 row) = 1 ∧ ∀ r ∈ L, applies r.1 row = true → predictFitted A s [row] = r.2 := by
  obtain ⟨σ, P, -, h1, -, h2⟩ := C72_fitted_tree hf hc hy hr
  refine ⟨(ways (fun n => splitAt A.splits (σ n)) d).map (fun b => (b.1, Sk.inverseTransform s.est.classes [(P (b.2 - (2 ^ d - 1))).target])), ?_, ?_, fun row => ?_⟩
  · rw [List.length_map, ways_length]
  · intro r hr
    obtain ⟨b, hb, rfl⟩ := List.mem_map.1 hr
    obtain ⟨h3, -, h4⟩ := ways_cond _ d b hb
    refine ⟨h3, fun c hc => ?_⟩
    obtain ⟨n, hn, h5, h6⟩ := h4 c hc
    exact ⟨n, hn, σ n, h1 n hn, h5.symm, h6.symm⟩
  · obtain ⟨cs, h3⟩ := ways_filter (fun n => splitAt A.splits (σ n)) row d
    constructor
    · rw [List.countP_map, List.countP_eq_length_filter]
      change ((ways (fun n => splitAt A.splits (σ n)) d).filter (fun b => applies b.1 row)).length = 1
      rw [h3]
      rfl
    · intro r hr ha
      obtain ⟨b, hb, rfl⟩ := List.mem_map.1 hr
      have h4 : b ∈ (ways (fun n => splitAt A.splits (σ n)) d).filter (fun b => applies b.1 row) := List.mem_filter.2 ⟨hb, ha⟩
      rw [h3] at h4
      rw [List.mem_singleton.1 h4]
      unfold predictFitted predict
      rw [List.map_cons, List.map_nil, h2]
      rfl

/-- **C147.** A row keeps its answer if its features are moved by less than their distances to the thresholds of the candidate splits. -/
theorem C147_margin (hf : FitOk d A X (encoded y)) (hc : FitContract d A X o tol) (hy : TwoClasses y)
    (hr : fitNew o A maxIt limit X fuel y e0 ω = some (.ok u, s)) {row row' : List ℚ}
    (h : ∀ n < 2 ^ d - 1, ∀ t ∈ cand A.nodes n, |row'.getD (splitAt A.splits t).feature 0 - row.getD (splitAt A.splits t).feature 0| <
      |row.getD (splitAt A.splits t).feature 0 - (splitAt A.splits t).threshold|) :
    predictFitted A s [row'] = predictFitted A s [row] := by
  obtain ⟨σ, P, -, h1, -, h2⟩ := C72_fitted_tree hf hc hy hr
  refine predict_of_rows (.cons ?_ .nil)
  rw [h2, h2]
  congr 2
  refine walkLeaf_congr fun n hn => ?_
  have h3 := h n hn (σ n) (h1 n hn)
  unfold takesLeft feat
  refine decide_eq_decide.2 ?_
  rcases abs_cases (row.getD (splitAt A.splits (σ n)).feature 0 - (splitAt A.splits (σ n)).threshold) with ⟨e, e'⟩ | ⟨e, e'⟩ <;> rw [e] at h3 <;>
    rw [abs_lt] at h3 <;> constructor <;> intro _ <;> linarith

end Verif.DTree
