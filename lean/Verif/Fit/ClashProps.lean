import Verif.Fit.ScoreProps
import Verif.DTree.OrderProps
import Verif.BDR.ZeroProps
import Verif.BDR.SepProps

/-!
# Property C141: rows that look alike bound the score

The bound is a number computed from the labelled rows and what the classifier can see of them.
-/

set_option linter.unusedSectionVars false

namespace Verif.Point

open Spec

variable {κ : Type} [DecidableEq κ] {f : List (List ℚ) → Except Err (List ℤ)} {X : List (List ℚ)} {y : List ℤ} {a : ℚ} {g : List ℚ → κ}

namespace Spec

/-- How often the most frequent label occurs among the rows that look like `v`. -/
def majority (g : List ℚ → κ) (D : List (List ℚ × ℤ)) (v : κ) : ℕ := (D.map (fun q => D.countP (fun q' => decide (g q'.1 = v ∧ q'.2 = q.2)))).foldr max 0

/-- The right answers of somebody who knows all labels but has to answer alike for rows that look alike. -/
def mostRight (g : List ℚ → κ) (D : List (List ℚ × ℤ)) : ℕ := ((D.map (fun q => g q.1)).dedup.map (majority g D)).sum

end Spec

theorem le_foldr_max {x : ℕ} : ∀ {l : List ℕ}, x ∈ l → x ≤ l.foldr max 0
  | b :: l, h => by
    rw [List.foldr_cons]
    rcases List.mem_cons.1 h with rfl | h
    · exact le_max_left _ _
    · exact le_trans (le_foldr_max h) (le_max_right _ _)

theorem sum_ite (c : κ) : ∀ V : List κ, (V.map (fun v => if v = c then 1 else 0)).sum = V.count c
  | [] => rfl
  | v :: V => by
    rw [List.map_cons, List.sum_cons, sum_ite c V, List.count_cons, Nat.add_comm]
    simp only [beq_iff_eq]

/-- Counting class by class. -/
theorem countP_classes {α : Type} (k : α → κ) (P : α → Prop) [DecidablePred P] {V : List κ} (hV : V.Nodup) :
    ∀ {D : List α}, (∀ q ∈ D, k q ∈ V) → D.countP (fun q => decide (P q)) = (V.map (fun v => D.countP (fun q => decide (k q = v ∧ P q)))).sum
  | [], _ => by simp
  | q :: D, h => by
    have ih := countP_classes k P hV (D := D) (fun q' hq => h q' (List.mem_cons_of_mem _ hq))
    have h1 : (V.map (fun v => (q :: D).countP (fun q => decide (k q = v ∧ P q)))).sum =
        (V.map (fun v => D.countP (fun q => decide (k q = v ∧ P q)))).sum + (V.map (fun v => if k q = v ∧ P q then 1 else 0)).sum := by
      rw [← List.sum_map_add]
      congr 1
      refine List.map_congr_left fun v _ => ?_
      rw [List.countP_cons]
      simp only [decide_eq_true_eq]
    rw [h1, List.countP_cons, ih]
    congr 1
    simp only [decide_eq_true_eq]
    by_cases hP : P q
    · rw [if_pos hP]
      have h2 : V.map (fun v => if k q = v ∧ P q then 1 else 0) = V.map (fun v => if v = k q then 1 else 0) := by
        refine List.map_congr_left fun v _ => ?_
        by_cases hv : k q = v
        · rw [if_pos ⟨hv, hP⟩, if_pos hv.symm]
        · rw [if_neg (fun h => hv h.1), if_neg (fun h => hv h.symm)]
      rw [h2, sum_ite, List.count_eq_one_of_mem hV (h q List.mem_cons_self)]
    · rw [if_neg hP]
      have h2 : V.map (fun v => if k q = v ∧ P q then 1 else 0) = V.map (fun _ => 0) := by
        refine List.map_congr_left fun v _ => ?_
        rw [if_neg (fun h => hP h.2)]
      rw [h2]
      simp

/-- Rows that look alike get one answer, so the right answers among them have one label. -/
theorem rightRows_le (hg : ∀ r r', g r = g r' → f [r] = f [r']) (D : List (List ℚ × ℤ)) : rightRows f D ≤ mostRight g D := by
  unfold rightRows mostRight
  rw [countP_classes (fun q : List ℚ × ℤ => g q.1) (fun q => f [q.1] = .ok [q.2]) (List.nodup_dedup (D.map (fun q => g q.1))) (fun q hq =>
    List.mem_dedup.2 (List.mem_map.2 ⟨q, hq, rfl⟩))]
  refine List.sum_le_sum fun v _ => ?_
  by_cases hex : ∃ q ∈ D, g q.1 = v ∧ f [q.1] = .ok [q.2]
  · obtain ⟨q, hq, hv, hf⟩ := hex
    refine le_trans ?_ (le_foldr_max (List.mem_map.2 ⟨q, hq, rfl⟩))
    refine List.countP_mono_left fun q' _ h => ?_
    simp only [decide_eq_true_eq] at h ⊢
    refine ⟨h.1, ?_⟩
    have h1 := hg q'.1 q.1 (h.1.trans hv.symm)
    rw [h.2, hf] at h1
    simpa using h1
  · rw [List.countP_eq_zero.2]
    · exact Nat.zero_le _
    · intro q hq h
      simp only [decide_eq_true_eq] at h
      exact hex ⟨q, hq, h⟩

/-- **C141**, for any method that works row by row and answers alike for rows that look alike. -/
theorem C141_bound (h : Pointwise f) (hg : ∀ r r', g r = g r' → f [r] = f [r']) (hl : y.length = X.length) (ha : Sk.score f X y = .ok a) :
    a ≤ (mostRight g (X.zip y) : ℚ) / X.length := by
  obtain ⟨_, -, rfl⟩ := score_ok h hl ha
  have h1 : ((rightRows f (X.zip y) : ℕ) : ℚ) ≤ (mostRight g (X.zip y) : ℕ) := by exact_mod_cast rightRows_le hg (X.zip y)
  exact div_le_div_of_nonneg_right h1 (Nat.cast_nonneg _)

namespace Spec

/-- The zeros of a row. -/
def zeros (r : List ℚ) : List Bool := r.map (fun x => decide (x = 0))

end Spec

theorem sameZeros_of {r r' : List ℚ} (h : zeros r = zeros r') : BDR.Spec.SameZeros r r' := by
  intro j
  have h1 := congrArg (fun l => l[j]?) h
  unfold zeros at h1
  simp only [List.getElem?_map] at h1
  rw [List.getD_eq_getElem?_getD, List.getD_eq_getElem?_getD]
  cases hr : r[j]? with
  | none =>
    cases hr' : r'[j]? with
    | none => simp
    | some b => rw [hr, hr'] at h1; simp at h1
  | some c =>
    cases hr' : r'[j]? with
    | none => rw [hr, hr'] at h1; simp at h1
    | some b =>
      rw [hr, hr'] at h1
      simpa using h1

/-- **C141.** No rule has a higher score than the zeros of the rows allow, whatever it was trained with. -/
theorem C141_rule (classes : List ℤ) (explanation : List BDR.Clause) (hl : y.length = X.length) (ha : Sk.score (BDR.predict classes explanation) X y = .ok a) :
    a ≤ (mostRight zeros (X.zip y) : ℚ) / X.length :=
  C141_bound (C135_rule classes explanation).1 (fun r r' h => by
    unfold BDR.predict
    simp only [List.map_cons, List.map_nil]
    rw [BDR.predictRow_zeros (sameZeros_of h)]) hl ha

end Verif.Point

namespace Verif.DTree

open Spec Point Point.Spec

variable {Ω : Type} {o : FitOracle Ω} {A : Args} {X Z : List (List ℚ)} {y z : List ℤ} {a : ℚ}

/-- The answers of a row to the questions of the splits. -/
def Spec.answers (L : List Split) (row : List ℚ) : List Bool := L.map (takesLeft row)

/-- **C141.** No fitted tree has a higher score, on any data, than the answers of the rows to the given splits allow, whatever the training data and the solvers were. -/
theorem C141_tree (hk : KnownSplits A X) {iters : ℤ} {limit : ℚ} {fuel : ℕ} {e0 : Fit.Est} {ω : Ω} {r s} (hr : fitNew o A iters limit X fuel y e0 ω = some (r, s))
    (hl : z.length = Z.length) (ha : Sk.score (predictFitted A s) Z z = .ok a) : a ≤ (mostRight (Spec.answers A.splits) (Z.zip z) : ℚ) / Z.length := by
  refine C141_bound (C135_tree A s).1 (fun r r' h => ?_) hl ha
  have hq : SameQuestions X X A.splits A.splits := ⟨rfl, rfl, fun _ _ _ _ => rfl, fun _ _ _ _ => Iff.rfl, fun _ _ _ _ _ => Iff.rfl⟩
  obtain ⟨s', h1, -, -, -, -, h2⟩ := (C95_same_run (o := o) (A := A) (A' := A) rfl hq hk iters limit fuel y e0 ω).2 _ _ hr
  rw [hr] at h1
  cases h1
  refine h2 [r'] [r] (.cons (fun i hi => ?_) .nil)
  have h3 := congrArg (fun l => l[i]?) h
  unfold Spec.answers at h3
  simp only [List.getElem?_map, List.getElem?_eq_getElem hi, Option.map_some, Option.some.injEq] at h3
  rw [splitAt_getElem hi]
  exact h3

end Verif.DTree

namespace Verif.BDR

open Spec

variable {X : Data} {y pred : List ℤ}

/-- The rows number `i` and `j` cannot both be answered rightly by a rule: `i` has the larger label and `j` is non-zero wherever `i` is. -/
def Spec.Clash (X : Data) (y : List ℤ) (i j : ℕ) : Prop :=
  i < y.length ∧ j < y.length ∧ y.getD j 0 < y.getD i 0 ∧ ∀ f, (X.rows.getD i []).getD f 0 ≠ 0 → (X.rows.getD j []).getD f 0 ≠ 0

theorem errors_range (hl : pred.length = y.length) : errors pred y = (List.range y.length).countP (fun i => decide (pred.getD i 0 ≠ y.getD i 0)) := by
  have h : pred.zip y = (List.range y.length).map (fun i => (pred.getD i 0, y.getD i 0)) := by
    refine List.ext_getElem (by simp [hl]) fun i h1 h2 => ?_
    have h3 : i < y.length := by simpa using h2
    rw [List.getElem_zip, List.getElem_map, List.getElem_range, List.getD_eq_getElem _ _ h3, List.getD_eq_getElem _ _ (by omega)]
  unfold errors
  rw [h, List.countP_map]
  rfl

/-- **C141.** Every rule has at least one wrong answer for each of any number of clashing pairs of rows without a common row. -/
theorem C141_pairs (hl : y.length = X.rows.length) (h2 : (Sk.uniqueLabels y).length = 2) {K : List Clause} (hp : predict (Sk.uniqueLabels y) K X.rows = .ok pred)
    {M : List (ℕ × ℕ)} (h1 : (M.map (·.1)).Nodup) (h2' : (M.map (·.2)).Nodup) (hM : ∀ q ∈ M, Clash X y q.1 q.2) : M.length ≤ errors pred y := by
  obtain ⟨c0, c1, hcls, hlt, -, -, hy⟩ := two_labels h2
  rw [hcls, C20_predict, Except.ok.injEq] at hp
  have hpl : pred.length = y.length := by rw [← hp, List.length_map, hl]
  have hpred : ∀ i < y.length, pred.getD i 0 = if Rule K (X.rows.getD i []) then c1 else c0 := by
    intro i hi
    have hi' : i < X.rows.length := by omega
    rw [← hp, List.getD_eq_getElem _ _ (by simpa using hi'), List.getElem_map, List.getD_eq_getElem _ _ hi']
  have hlab : ∀ q ∈ M, y.getD q.1 0 = c1 ∧ y.getD q.2 0 = c0 := by
    intro q hq
    obtain ⟨hi, hj, hv, -⟩ := hM q hq
    rw [List.getD_eq_getElem _ _ hi, List.getD_eq_getElem _ _ hj] at hv ⊢
    have a := hy _ (List.getElem_mem hi)
    have b := hy _ (List.getElem_mem hj)
    omega
  have hwrong : ∀ q ∈ M, pred.getD q.1 0 ≠ y.getD q.1 0 ∨ pred.getD q.2 0 ≠ y.getD q.2 0 := by
    intro q hq
    obtain ⟨hi, hj, -, hf⟩ := hM q hq
    rw [hpred _ hi, hpred _ hj, (hlab q hq).1, (hlab q hq).2]
    by_cases hr : Rule K (X.rows.getD q.1 [])
    · right
      obtain ⟨k, hk, hs⟩ := hr
      have hr' : Rule K (X.rows.getD q.2 []) := ⟨k, hk, fun f hfk => hf f (hs f hfk)⟩
      rw [if_pos hr']
      exact (ne_of_lt hlt).symm
    · left
      rw [if_neg hr]
      exact ne_of_lt hlt
  rw [errors_range hpl, List.countP_eq_length_filter]
  have hnd : (M.map (fun q => if pred.getD q.1 0 ≠ y.getD q.1 0 then q.1 else q.2)).Nodup := by
    refine List.Nodup.map_on ?_ (List.Nodup.of_map _ h1)
    intro q hq q' hq' heq
    have e := hlab q hq
    have e' := hlab q' hq'
    by_cases a : pred.getD q.1 0 ≠ y.getD q.1 0
    · by_cases b : pred.getD q'.1 0 ≠ y.getD q'.1 0
      · rw [if_pos a, if_pos b] at heq
        exact List.inj_on_of_nodup_map h1 hq hq' heq
      · rw [if_pos a, if_neg b] at heq
        rw [heq] at e
        omega
    · by_cases b : pred.getD q'.1 0 ≠ y.getD q'.1 0
      · rw [if_neg a, if_pos b] at heq
        rw [heq] at e
        omega
      · rw [if_neg a, if_neg b] at heq
        exact List.inj_on_of_nodup_map h2' hq hq' heq
  have := (List.Nodup.subperm hnd (l₂ := (List.range y.length).filter (fun i => decide (pred.getD i 0 ≠ y.getD i 0))) ?_).length_le
  · rwa [List.length_map] at this
  · intro x hx
    obtain ⟨q, hq, rfl⟩ := List.mem_map.1 hx
    obtain ⟨hi, hj, -, -⟩ := hM q hq
    rw [List.mem_filter, List.mem_range, decide_eq_true_eq]
    by_cases a : pred.getD q.1 0 ≠ y.getD q.1 0
    · rw [if_pos a]
      exact ⟨hi, a⟩
    · rw [if_neg a]
      exact ⟨hj, (hwrong q hq).resolve_left a⟩

end Verif.BDR
